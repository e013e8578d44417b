/-!
# Model of `FixedBigNumber<size>` (`util/BigNumber.hpp` 265-371)

The array `val` is a list of `size` numbers below `2^32`, lowest word first; `size` is positive. `uint64_t` variables are numbers below `2^64`.
The constructors, `operator=`, `operator==`, `operator+=`, `divide`, `translate`, `operator<<` and the conversion to `std::string` are modelled; `operator!=` and `operator+` are
compositions of these.
-/

namespace TdZdd.FBig

/-- `FixedBigNumber()` (270-274) -/
def zero (size : Nat) : List Nat := List.replicate size 0

/-- `FixedBigNumber(uint32_t)` (276-281), `operator=(uint32_t)` (283-289); `none`: `val[0]` does not exist -/
def ofWord (size n : Nat) : Option (List Nat) :=
  match size with
  | 0 => none
  | k + 1 => some (n :: List.replicate k 0)

/-- `operator==(FixedBigNumber)` (291-296) -/
def eq : (p q : List Nat) → Bool
  | p :: ps, q :: qs => if p ≠ q then false else eq ps qs
  | _, _ => true

/-- `operator==(uint32_t)` (302-308) -/
def eqWord (p : List Nat) (n : Nat) : Option Bool :=
  match p with
  | [] => none
  | p :: ps => some (if p ≠ n then false else ps.all fun w => w == 0)

/-- Loop of `operator+=` (315-321): the new words and the carry -/
def addLoop : (p o : List Nat) → (x : Nat) → List Nat × Nat
  | p :: ps, o :: os, x =>
    let x := (x + p) % 2 ^ 64
    let x := (x + o) % 2 ^ 64
    let r := addLoop ps os (x >>> 32)
    (x % 2 ^ 32 :: r.1, r.2)
  | _, _, x => ([], x)

/-- `operator+=` (314-323): the array afterwards, and whether `std::runtime_error` is thrown -/
def add (p o : List Nat) : List Nat × Bool := ((addLoop p o 0).1, (addLoop p o 0).2 != 0)

/-- conversion of `uint64_t` to `long long` -/
def toSigned (r : Nat) : Int := if r < 2 ^ 63 then r else (r : Int) - 2 ^ 64

/-- Loop of `divide` (332-339), from the highest word on: the new words and the remainder. `lldiv` truncates; it is undefined for the divisor 0. -/
def divLoop (n : Nat) : (p : List Nat) → Option (List Nat × Nat)
  | [] => some ([], 0)
  | w :: ws =>
    (divLoop n ws).bind fun t =>
    let r := ((t.2 <<< 32) % 2 ^ 64 + w) % 2 ^ 64
    if n = 0 then none
    else some (((toSigned r).tdiv n % 2 ^ 32).toNat :: t.1, ((toSigned r).tmod n % 2 ^ 64).toNat)

/-- `divide(n)` (331-340) -/
def divide (p : List Nat) (n : Nat) : Option (List Nat × Nat) := (divLoop n p).map fun t => (t.1, t.2 % 2 ^ 32)

/-- `translate<T>()` (342-350) for an unsigned type `T` of `bits` bits; a shift by the width or more is undefined. -/
def translate (bits : Nat) : (p : List Nat) → Option Nat
  | [] => some 0
  | w :: ws => (translate bits ws).bind fun v => if bits ≤ 32 then none else some (((v <<< 32) % 2 ^ bits + w) % 2 ^ bits)

/-- `printHelper` (353-357). `fuel` bounds the recursion depth. -/
def printHelper : (fuel : Nat) → (p : List Nat) → Option String
  | 0, _ => none
  | fuel + 1, p => do
    let d ← divide p 10
    let z ← eqWord d.1 0
    let s ← if z then some "" else printHelper fuel d.1
    some (s ++ toString d.2)

/-- `operator<<` (360-364), conversion to `std::string` (366-370). 10 decimal digits per word bound the recursion depth. -/
def print (p : List Nat) : Option String := printHelper (10 * p.length) p

end TdZdd.FBig
