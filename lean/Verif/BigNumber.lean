/-!
# Model of `BigNumber` (`util/BigNumber.hpp` 37-262)

A number is an array of 64-bit words; each word holds 63 bits of the number, lowest word first, and the most
significant bit of a word tells that another word follows. An array is the list of all words of its allocation (so
the list length is the capacity), a pointer into it is the suffix starting there, and a read or write outside of the
allocation is `none`. Words are natural numbers below `2^64`; machine operations that may wrap are reduced modulo `2^64`.
The two operands are different arrays (the library never adds a number to itself).
-/

namespace TdZdd.Big

/-- `MSB` (`BigNumber.hpp` 39). -/
def MSB : Nat := 1 <<< 63

/-- `~MSB`. -/
def notMSB : Nat := 2 ^ 64 - 1 - MSB

/-- `w & MSB` as a condition. -/
def more (w : Nat) : Bool := w &&& MSB != 0

/-- `w & ~MSB`. -/
def low (w : Nat) : Nat := w &&& notMSB

/-- addition of `uint64_t` -/
def add64 (a b : Nat) : Nat := (a + b) % 2 ^ 64

/-- `size` (56-62) for a non-null array. -/
def size : List Nat → Option Nat
  | [] => none
  | p :: ps => if more p then (size ps).map (· + 1) else some 1

/-- The copy loop of `store(BigNumber)` (76-80): the updated array and the number of words written. -/
def store : (p q : List Nat) → Option (List Nat × Nat)
  | _ :: ps, q :: qs => if more q then (store ps qs).map fun r => (q :: r.1, r.2 + 1) else some (q :: ps, 1)
  | _, _ => none

/-- `store(uint64_t)` (83-99) into a non-null array. -/
def storeWord (p : List Nat) (n : Nat) : Option (List Nat × Nat) :=
  match p with
  | [] => none
  | _ :: ps =>
    if more n then
      match ps with
      | [] => none
      | _ :: ps => some (n :: 1 :: ps, 2)
    else some (n :: ps, 1)

/-- `operator==(BigNumber)` (105-110) for non-null arrays. -/
def eq : (p q : List Nat) → Option Bool
  | p :: ps, q :: qs => if p ≠ q then some false else if more q then eq ps qs else some true
  | _, _ => none

/-- `operator==(uint64_t)` (117-120) for a non-null array. -/
def eqWord (p : List Nat) (n : Nat) : Option Bool :=
  match p with
  | [] => none
  | p :: ps =>
    if p = n then
      if more n then (ps[0]?).map fun w => decide (w = 1) else some true
    else some false

/-- The end of `add` (161-164). -/
def addEnd (p : List Nat) (x : Nat) : Option (List Nat × Nat) :=
  match p with
  | [] => none
  | _ :: ps =>
    if more x then
      match ps with
      | [] => none
      | _ :: ps => some (x :: 1 :: ps, 2)
    else some (x :: ps, 1)

/-- The loop 136-141 of `add` (the number at `p` has ended) and the rest of the function. -/
def addQ : (p q : List Nat) → (x : Nat) → Option (List Nat × Nat)
  | p :: ps, q :: qs, x =>
    if more q then
      match qs with
      | [] => none
      | q' :: qs' => (addQ ps (q' :: qs') (add64 (x >>> 63) (low q'))).map fun r => ((x ||| MSB) :: r.1, r.2 + 1)
    else addEnd (p :: ps) x
  | _, _, _ => none

/-- The loop 147-151 of `add` (the number at `q` has ended) and the rest of the function. -/
def addP : (p : List Nat) → (x : Nat) → Option (List Nat × Nat)
  | p :: ps, x =>
    if more p then
      match ps with
      | [] => none
      | p' :: ps' => (addP (p' :: ps') (add64 (x >>> 63) (low p'))).map fun r => ((x ||| MSB) :: r.1, r.2 + 1)
    else addEnd (p :: ps) x
  | _, _ => none

/-- The main loop of `add` (131-159) with carry `x`. -/
def addLoop : (p q : List Nat) → (x : Nat) → Option (List Nat × Nat)
  | p :: ps, q :: qs, x =>
    let x := add64 (add64 x (low p)) (low q)
    if !more p then addQ (p :: ps) (q :: qs) x
    else if !more q then addP (p :: ps) x
    else (addLoop ps qs (x >>> 63)).map fun r => ((x ||| MSB) :: r.1, r.2 + 1)
  | _, _, _ => none

/-- `add` (126-165): the updated array and the number of words written. -/
def add (p q : List Nat) : Option (List Nat × Nat) := addLoop p q 0

/-- `lldiv(r, 10LL)`: `r` has to be representable as `long long`. -/
def lldiv10 (r : Nat) : Option (Nat × Nat) := if r < 2 ^ 63 then some (r / 10, r % 10) else none

/-- One word of `divide` (177-187): the new word, remainder and `cont`. -/
def divWord (p r : Nat) (cont : Bool) : Option (Nat × Nat × Bool) :=
  (lldiv10 (((r <<< 31) % 2 ^ 64) ||| (low p >>> 32))).bind fun d =>
  if 2 ^ 63 ≤ d.1 <<< 32 then none else
  (lldiv10 ((d.2 <<< 32) ||| (p &&& (2 ^ 32 - 1)))).map fun d' =>
  let q := add64 (add64 (if cont then MSB else 0) (d.1 <<< 32)) d'.1
  (q, d'.2, cont || q != 0)

/-- `divide` (167-191) for a non-null array: the updated array, the remainder, and `cont`. The backward loop is a
recursion to the last word. The argument `n` is not used by the code. -/
def divLoop : (p : List Nat) → Option (List Nat × Nat × Bool)
  | [] => none
  | p :: ps =>
    (if more p then divLoop ps else some (ps, 0, false)).bind fun r =>
    (divWord p r.2.1 r.2.2).map fun w => (w.1 :: r.1, w.2.1, w.2.2)

/-- `divide(n)` (167-191). -/
def divide (p : List Nat) (_n : Nat) : Option (List Nat × Nat) := (divLoop p).map fun r => (r.1, r.2.1)

/-- The loop 197-199 of `shiftLeft`: copy word `q` to `q + w`, from the last word down. -/
def moveWords (p : List Nat) (s w : Nat) : Option (List Nat) :=
  ((List.range s).reverse).foldlM (fun p j =>
    (p[j]?).bind fun x => if j + w < p.length then some (p.set (j + w) x) else none) p

/-- The loop 200-202 of `shiftLeft`. -/
def fillWords (p : List Nat) (w : Nat) : Option (List Nat) :=
  (List.range w).foldlM (fun p j => if j < p.length then some (p.set j MSB) else none) p

/-- The main loop of `shiftLeft` (206-222), `k < 63`, with incoming bits `x`. -/
def shiftLoop (k : Nat) : (p : List Nat) → (x : Nat) → Option (List Nat × Nat)
  | [], _ => none
  | p :: ps, x =>
    let tmp := x ||| ((p <<< k) % 2 ^ 64)
    let x := low p >>> (63 - k)
    if x = 0 ∧ more p = false then some (low tmp :: ps, 1)
    else if more p = false then
      match ps with
      | [] => none
      | _ :: ps => some ((tmp ||| MSB) :: x :: ps, 2)
    else (shiftLoop k ps x).map fun r => ((tmp ||| MSB) :: r.1, r.2 + 1)

/-- `shiftLeft(k)` (193-225); a failing assertion is `none`. -/
def shiftLeft (p : List Nat) (k : Int) : Option (List Nat × Nat) :=
  if k < 0 then none else
  let k := k.toNat
  let moved : Option (List Nat) := if 63 ≤ k then
      (size p).bind fun s => (moveWords p s (k / 63)).bind fun p => fillWords p (k / 63)
    else some p
  moved.bind fun p => shiftLoop (k % 63) p 0

/-- `translate<T>` (227-239) into an unbounded integer type `T`. The backward loop is a recursion to the last word. -/
def translate : (p : List Nat) → Option Nat
  | [] => none
  | p :: ps => if more p then (translate ps).map fun v => (v <<< 63) + low p else some p

/-- `printHelper` (242-246). `fuel` bounds the recursion depth. -/
def printHelper : (fuel : Nat) → (p : List Nat) → Option String
  | 0, _ => none
  | fuel + 1, p => do
    let d ← divide p 10
    let z ← eqWord d.1 0
    let s ← if z then some "" else printHelper fuel d.1
    some (s ++ toString d.2)

/-- `operator<<` (249-256) and conversion to `std::string` (258-262). 20 decimal digits per word bound the recursion depth. -/
def print (p : List Nat) : Option String := do
  let s ← size p
  let storage ← store (List.replicate s 0) p
  printHelper (20 * s) storage.1

/-! ### Null arrays -/

/-- Outcome of an operation that can throw. -/
inductive Out (α : Type)
  | ub
  | throw
  | ok (a : α)
deriving DecidableEq, Repr

/-- A `BigNumber` object: `none` if `array` is null. -/
abbrev Obj := Option (List Nat)

/-- lift of a partial result -/
def Out.of {α : Type} : Option α → Out α
  | none => .ub
  | some a => .ok a

/-- `size` (56-62). -/
def Obj.size (a : Obj) : Option Nat :=
  match a with
  | none => some 1
  | some p => Big.size p

/-- `store(uint64_t)` (83-99). -/
def Obj.storeWord (a : Obj) (n : Nat) : Out (Obj × Nat) :=
  match a with
  | none => if n ≠ 0 then .throw else .ok (none, 1)
  | some p => .of ((Big.storeWord p n).map fun r => (some r.1, r.2))

/-- `store(BigNumber)` (64-81). -/
def Obj.store (a o : Obj) : Out (Obj × Nat) :=
  match o, a with
  | none, a => a.storeWord 0
  | some [], none => .ub
  | some (q :: _), none => if q ≠ 0 then .throw else .ok (none, 1)
  | some q, some p => .of ((Big.store p q).map fun r => (some r.1, r.2))

/-- `operator==(uint64_t)` (117-120). -/
def Obj.eqWord (a : Obj) (n : Nat) : Option Bool :=
  match a with
  | none => some (decide (n = 0))
  | some p => Big.eqWord p n

/-- `operator==(BigNumber)` (101-111). -/
def Obj.eq (a o : Obj) : Option Bool :=
  match a, o with
  | none, o => o.eqWord 0
  | some p, none => Big.eqWord p 0
  | some p, some q => Big.eq p q

end TdZdd.Big
