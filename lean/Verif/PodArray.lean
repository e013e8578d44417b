/-!
# Arrays in states

A state of a `PodArrayDdSpec` is an array of fixed size (`DdSpec.hpp` 373-500). An access outside of it is undefined behaviour (`none`). The words that are compared, hashed and
copied include padding behind the array; it is the same in all states because all are copies of the root's.
-/

namespace TdZdd

/-- `mate[i]` read -/
def podGet {α : Type} (m : List α) (i : Int) : Option α := if i < 0 then none else m[i.toNat]?

/-- `mate[i] = x` -/
def podSet {α : Type} (m : List α) (i : Int) (x : α) : Option (List α) := if i < 0 ∨ (m.length : Int) ≤ i then none else some (m.set i.toNat x)

/-- conversion of an `int` to `int16_t` -/
def wrap16 (x : Int) : Int := (x + 2 ^ 15) % 2 ^ 16 - 2 ^ 15

end TdZdd
