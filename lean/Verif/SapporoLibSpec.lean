import Verif.SapporoLib
import Verif.CuddProofs

/-!
# The meaning of the diagrams of SAPPOROBDD

Used in the statements of C78 and C79. The functions of BDDs are `Cudd.eval`, and `Cudd.Below` says that a BDD is ordered.
-/

namespace TdZdd

namespace Sap

/-- variables and levels correspond to each other, one to one -/
structure VarOrder.Ok (o : VarOrder) : Prop where
  var : ∀ l, 0 < l → l ≤ o.used → 0 < o.var l ∧ o.var l ≤ o.used ∧ o.lev (o.var l) = l
  lev : ∀ v, 0 < v → v ≤ o.used → 0 < o.lev v ∧ o.lev v ≤ o.used ∧ o.var (o.lev v) = v

/-- the set of the levels `j < n` with `S j` belongs to the family of `f` -/
def Zb.Mem : Nat → Zb → (Nat → Bool) → Prop
  | n, .leaf b, S => b = true ∧ ∀ j, 0 < j → j < n → S j = false
  | n, .node l lo hi, S => (∀ j, l < j → j < n → S j = false) ∧ if S l then hi.Mem l S else lo.Mem l S

/-- the levels are positive, less than `n`, and decrease -/
def Zb.Below : Nat → Zb → Prop
  | _, .leaf _ => True
  | n, .node l lo hi => 0 < l ∧ l < n ∧ lo.Below l ∧ hi.Below l

/-- a node of `f` has the level `t` -/
def Zb.Uses (t : Nat) : Zb → Prop
  | .leaf _ => False
  | .node l lo hi => t = l ∨ lo.Uses t ∨ hi.Uses t

/-- a node of the BDD `f` has the level `t` -/
def Uses (t : Nat) : Cudd → Prop
  | .leaf _ => False
  | .node l lo hi => t = l ∨ Uses t lo ∨ Uses t hi

/-- the levels of an assignment of TdZdd as a set of levels of SAPPOROBDD -/
def up (offset : Int) (a : Asg 2) (j : Nat) : Bool := decide (offset < j ∧ (a ((j : Int) - offset).toNat).val ≠ 0)

/-- a set of levels of SAPPOROBDD as an assignment of TdZdd; levels that would not be positive are left out -/
def low (offset : Int) (S : Nat → Bool) (j : Nat) : Fin 2 := if 0 < (j : Int) + offset ∧ S ((j : Int) + offset).toNat then 1 else 0

end Sap

end TdZdd
