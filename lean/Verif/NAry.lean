import Verif.Semantics

/-!
# Model of `NAryZdd` and `OneHotNAryZdd` (`apps/ddqueens/NAryZdd.hpp`)
-/

namespace TdZdd.NAry

/-- `NAryZddBase::getChild` (`NAryZdd.hpp` 48-58) -/
def child (oneHot : Bool) (m : Nat) (level : Nat) (take : Bool) : Int :=
  if take then
    let level := (level - 1) / m * m
    if level = 0 then -1 else level
  else
    let level := level - 1
    if oneHot = true ∧ level % m = 0 then 0 else level

/-- `NAryZddBase(m, n)` (32-59) on top of `StatelessDdSpec` (`DdSpec.hpp` 195-234). Failed assertions of the constructor are the illegal level code `-2`. -/
def base (oneHot : Bool) (m n : Nat) : DdSpec 2 Unit where
  root := if 1 ≤ m ∧ 1 ≤ n then (((m * n : Nat) : Int), ()) else (-2, ())
  child _ level value := (child oneHot m level (value != 0), ())
  eqv _ _ _ := true
  hash _ _ := 0
  merge _ _ := 0

/-- `NAryZdd(arity, length)` (61-65) -/
def nary (arity length : Nat) : DdSpec 2 Unit := base false (arity - 1) length

/-- `OneHotNAryZdd(arity, length)` (67-71) -/
def oneHotNary (arity length : Nat) : DdSpec 2 Unit := base true arity length

end TdZdd.NAry
