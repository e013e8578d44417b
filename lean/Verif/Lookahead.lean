import Verif.BinaryOperationProofs

/-!
# Model of `op/Lookahead.hpp` and `op/Unreduction.hpp`
-/

namespace TdZdd

variable {N : Nat} [NeZero N] {S : Type}

/-- The test of `BddLookahead::lookahead` (48-60): every other child has the same level code as
the 0-child and, if it is a non-terminal, an equal state. -/
def allSame (sp : DdSpec N S) (s : S) (n : Nat) : Bool :=
  decide (∀ b : Fin N, b ≠ 0 →
    (sp.child s n 0).1 = (sp.child s n b).1 ∧
    ((sp.child s n 0).1 ≤ 0 ∨
      sp.eqv (sp.child s n 0).1.toNat (sp.child s n 0).2 (sp.child s n b).2 = true))

/-- `BddLookahead::lookahead` (43-69). `fuel` bounds the iterations of the `while` loop;
running out of it (non-termination) is `none`. -/
def bddAhead (sp : DdSpec N S) : Nat → Int × S → Option (Int × S)
  | 0, _ => none
  | fuel + 1, c =>
    if c.1 < 1 then some c
    else if allSame sp c.2 c.1.toNat then bddAhead sp fuel (sp.child c.2 c.1.toNat 0)
    else some c

/-- The test of `ZddLookahead::lookahead` (131-138): all children but the 0-child are the
0-terminal. -/
def allZeroBut0 (sp : DdSpec N S) (s : S) (n : Nat) : Bool :=
  decide (∀ b : Fin N, b ≠ 0 → (sp.child s n b).1 = 0)

/-- `ZddLookahead::lookahead` (128-143). -/
def zddAhead (sp : DdSpec N S) : Nat → Int × S → Option (Int × S)
  | 0, _ => none
  | fuel + 1, c =>
    if c.1 < 1 then some c
    else if allZeroBut0 sp c.2 c.1.toNat then zddAhead sp fuel (sp.child c.2 c.1.toNat 0)
    else some c

/-- A lookahead loop packed as a specification (71-110, 145-184): `get_root` and `get_child` of
the operand followed by the loop; everything else is delegated to the operand.
Non-termination is reported by an illegal level code. -/
def ahead (loop : Nat → Int × S → Option (Int × S)) (sp : DdSpec N S) : DdSpec N S where
  root := (loop (sp.root.1.toNat + 1) sp.root).getD (-2, sp.root.2)
  child s l b := (loop ((sp.child s l b).1.toNat + 1) (sp.child s l b)).getD (ubCode l, s)
  eqv := sp.eqv
  hash := sp.hash
  merge := sp.merge

/-- `BddLookahead` (36-119). -/
def bddLookahead (sp : DdSpec N S) : DdSpec N S := ahead (bddAhead sp) sp

/-- `ZddLookahead` (122-193). -/
def zddLookahead (sp : DdSpec N S) : DdSpec N S := ahead (zddAhead sp) sp

/-- End of `Unreduction_::getChild` (89-91): the next level is `i-1`; below level 1 the code of the
operand (a terminal) is returned. A violated `assert` gives an illegal code. -/
def unredRet (c : Int × S) (i : Nat) : Int × (Int × S) :=
  if ¬ c.1 ≤ (i : Int) - 1 then (ubCode i, c)
  else (if (i : Int) - 1 > 0 then (i : Int) - 1 else c.1, c)

/-- `Unreduction_<T,S,ZDD>` (`op/Unreduction.hpp` 34-129): `getRoot` 73-78, `getChild` 80-92,
hash 111-115, equality 117-121. The member `numVars`, which `getRoot` may raise to the root
level, is only used by `getRoot`. -/
def unreduction (zdd : Bool) (sp : DdSpec N S) (numVars : Int) : DdSpec N (Int × S) where
  root :=
    if sp.root.1 = 0 then (0, sp.root)
    else
      let n := if sp.root.1 ≥ numVars then sp.root.1 else numVars
      (if n > 0 then n else -1, sp.root)
  child p i value :=
    if p.1 = i then
      let c := sp.child p.2 i value
      if c.1 = 0 then (0, c) else unredRet c i
    else if zdd ∧ value ≠ 0 then (0, p)
    else unredRet p i
  eqv _ p q :=
    if p.1 ≠ q.1 then false
    else if 0 < p.1 ∧ ¬ sp.eqv p.1.toNat p.2 q.2 then false
    else true
  hash _ p := ((p.1 * 314159257 +
    (if 0 < p.1 then (sp.hash p.1.toNat p.2 : Int) * 271828171 else 0)) % 2 ^ 64).toNat
  merge p q := sp.merge p.2 q.2

/-- `BddUnreduction` (131-136). -/
def bddUnreduction (sp : DdSpec N S) (numVars : Int) := unreduction false sp numVars

/-- `ZddUnreduction` (138-143). -/
def zddUnreduction (sp : DdSpec N S) (numVars : Int) := unreduction true sp numVars

end TdZdd
