import Verif.Semantics

/-!
# Model of `IntSubset`, `IntRange` (`util/IntSubset.hpp`) and `SizeConstraint` (`spec/SizeConstraint.hpp`)
-/

namespace TdZdd

/-- `INT_MIN..INT_MAX` for 32-bit `int` -/
def IsInt32 (x : Int) : Prop := -2 ^ 31 ≤ x ∧ x ≤ 2 ^ 31 - 1

instance (x : Int) : Decidable (IsInt32 x) := inferInstanceAs (Decidable (_ ∧ _))

/-- Signed `int` result: overflow is undefined behaviour. -/
def int32 (x : Int) : Option Int := if IsInt32 x then some x else none

/-- `IntSubset` (`IntSubset.hpp` 31-45): the three virtual functions. -/
structure IntSubset where
  contains : Int → Bool
  lower : Int
  upper : Int

/-- `IntRange::contains(x)` (`IntSubset.hpp` 56-59). `none`: overflow of `x - min`, division by zero, or `INT_MIN % -1`. -/
def intRangeContains (min max step x : Int) : Option Bool :=
  if x < min ∨ max < x then some false
  else (int32 (x - min)).bind fun d =>
    if step = 0 then none
    else if d = -2 ^ 31 ∧ step = -1 then none
    else some (d.tmod step == 0)

/-- `IntRange` as an `IntSubset` (`IntSubset.hpp` 46-68); where `contains` is undefined the value is arbitrary. -/
def intRange (min max step : Int) : IntSubset where
  contains x := (intRangeContains min max step x).getD false
  lower := min
  upper := max

/-- `SizeConstraint(n, constraint)` (`SizeConstraint.hpp` 35-69); `none` is the null pointer. The state is `count`; `DdSpec`
compares it with `==` and hashes it as one 32-bit word (`DdSpec.hpp` 130-139, 297-316). `int` is unbounded, `C37_bounded` shows that nothing overflows. -/
def sizeConstraint (n : Nat) (c : Option IntSubset) : DdSpec 2 Int where
  root := (match c with
    | some c => if (n : Int) < c.lower then 0 else n
    | none => n, 0)
  child count level value :=
    match c with
    | none => (if 1 ≤ (level : Int) - 1 then (level : Int) - 1 else -1, count)
    | some c =>
      if value.val ≠ 0 then
        if c.upper ≤ count then (0, count)
        else (if 1 ≤ (level : Int) - 1 then (level : Int) - 1 else if c.contains (count + 1) then -1 else 0, count + 1)
      else
        if count + level ≤ c.lower then (0, count)
        else (if 1 ≤ (level : Int) - 1 then (level : Int) - 1 else if c.contains count then -1 else 0, count)
  eqv _ p q := decide (p = q)
  hash _ p := (p % 2 ^ 32).toNat * 314159257 % 2 ^ 64
  merge _ _ := 0

end TdZdd
