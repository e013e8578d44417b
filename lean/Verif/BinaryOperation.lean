import Verif.SemanticsLemmas

/-!
# Model of `op/BinaryOperation.hpp`

`bddAnd`, `bddOr`, `zddUnion` (all based on the class `BinaryOperation`) and
`zddIntersection`, for arity 2 as in the code.
-/

namespace TdZdd

/-- State of `BinaryOperation` (`BinaryOperation.hpp` 53-83): the two level codes and the two
operand states. -/
abbrev BinState (S1 S2 : Type) := (Int × S1) × (Int × S2)

variable {S S1 S2 : Type}

/-- `BinaryOperation::hash_code` (116-124), arithmetic modulo 2^64. -/
def binHash (s1 : DdSpec 2 S1) (s2 : DdSpec 2 S2) (p : BinState S1 S2) : Nat :=
  ((p.1.1 * 314159257 + p.2.1 * 271828171
    + (if 0 < p.1.1 then (s1.hash p.1.1.toNat p.1.2 : Int) * 171828143 else 0)
    + (if 0 < p.2.1 then (s2.hash p.2.1.toNat p.2.2 : Int) * 141421333 else 0)) % 2 ^ 64).toNat

/-- `BinaryOperation::equal_to` (126-134). -/
def binEqv (s1 : DdSpec 2 S1) (s2 : DdSpec 2 S2) (p q : BinState S1 S2) : Bool :=
  if p.1.1 ≠ q.1.1 then false
  else if p.2.1 ≠ q.2.1 then false
  else if 0 < p.1.1 ∧ ¬ s1.eqv p.1.1.toNat p.1.2 q.1.2 then false
  else if 0 < p.2.1 ∧ ¬ s2.eqv p.2.1.toNat p.2.2 q.2.2 then false
  else true

/-- `BinaryOperation::merge_states` (101-104): bitwise or of both answers. -/
def binMerge (s1 : DdSpec 2 S1) (s2 : DdSpec 2 S2) (p q : BinState S1 S2) : Nat :=
  s1.merge p.1.2 q.1.2 ||| s2.merge p.2.2 q.2.2

/-- The result of a call whose `assert` fails (undefined behaviour under `NDEBUG`): an illegal
level code, not below the level of the parent. A lawful specification never returns it. -/
def ubCode (l : Nat) : Int := l

/-- Lines 184-188, 255-259: the operand moves to its child only if it is at this level. -/
def stepAt (sp : DdSpec 2 S) (c : Int × S) (l : Nat) (take : Fin 2) : Int × S :=
  if c.1 = l then sp.child c.2 l take else c

/-- Lines 474-480: as `stepAt`, but taking a level that the operand skips makes it the
0-terminal (only the level code is changed). -/
def stepAtZ (sp : DdSpec 2 S) (c : Int × S) (l : Nat) (take : Fin 2) : Int × S :=
  if c.1 = l then sp.child c.2 l take else if take ≠ 0 then (0, c.2) else c

/-- `BddAnd_` (160-205): `getRoot` 172-180, `getChild` 182-195. -/
def bddAnd (s1 : DdSpec 2 S1) (s2 : DdSpec 2 S2) : DdSpec 2 (BinState S1 S2) where
  root :=
    if s1.root.1 = 0 then (0, (s1.root, s2.root))
    else if s2.root.1 = 0 then (0, (s1.root, s2.root))
    else (max s1.root.1 s2.root.1, (s1.root, s2.root))
  child p l take :=
    if ¬ (p.1.1 ≤ l ∧ p.2.1 ≤ l) then (ubCode l, p) else
    let c1 := stepAt s1 p.1 l take
    if p.1.1 = l ∧ c1.1 = 0 then (0, (c1, p.2)) else
    let c2 := stepAt s2 p.2 l take
    if p.2.1 = l ∧ c2.1 = 0 then (0, (c1, c2)) else
    (max c1.1 c2.1, (c1, c2))
  eqv _ p q := binEqv s1 s2 p q
  hash _ p := binHash s1 s2 p
  merge p q := binMerge s1 s2 p q

/-- `BddOr_` (230-278): `getRoot` 242-250, `getChild` 252-268. -/
def bddOr (s1 : DdSpec 2 S1) (s2 : DdSpec 2 S2) : DdSpec 2 (BinState S1 S2) where
  root :=
    if s1.root.1 < 0 then (-1, (s1.root, s2.root))
    else if s2.root.1 < 0 then (-1, (s1.root, s2.root))
    else (max s1.root.1 s2.root.1, (s1.root, s2.root))
  child p l take :=
    if ¬ (p.1.1 ≤ l ∧ p.2.1 ≤ l) then (ubCode l, p) else
    let c1 := stepAt s1 p.1 l take
    if p.1.1 = l ∧ c1.1 < 0 then (-1, (c1, p.2)) else
    let c2 := stepAt s2 p.2 l take
    if p.2.1 = l ∧ c2.1 < 0 then (-1, (c1, c2)) else
    (max c1.1 c2.1, (c1, c2))
  eqv _ p q := binEqv s1 s2 p q
  hash _ p := binHash s1 s2 p
  merge p q := binMerge s1 s2 p q

/-- `ZddUnion_` (449-503): `getRoot` 461-469, `getChild` 471-493. -/
def zddUnion (s1 : DdSpec 2 S1) (s2 : DdSpec 2 S2) : DdSpec 2 (BinState S1 S2) where
  root :=
    if s1.root.1 = 0 ∧ s2.root.1 = 0 then (0, (s1.root, s2.root))
    else if s1.root.1 ≤ 0 ∧ s2.root.1 ≤ 0 then (-1, (s1.root, s2.root))
    else (max s1.root.1 s2.root.1, (s1.root, s2.root))
  child p l take :=
    if ¬ (p.1.1 ≤ l ∧ p.2.1 ≤ l) then (ubCode l, p) else
    let c1 := stepAtZ s1 p.1 l take
    let c2 := stepAtZ s2 p.2 l take
    if c1.1 = 0 ∧ c2.1 = 0 then (0, (c1, c2))
    else if c1.1 ≤ 0 ∧ c2.1 ≤ 0 then (-1, (c1, c2))
    else (max c1.1 c2.1, (c1, c2))
  eqv _ p q := binEqv s1 s2 p q
  hash _ p := binHash s1 s2 p
  merge p q := binMerge s1 s2 p q

/-- The level alignment loop of `ZddIntersection_` (352-361 and 372-381): while the codes differ,
the larger one follows its 0-child. `fuel` bounds the number of iterations; running out of fuel
or calling `get_child` at a non-positive level (possible only if a 1-terminal code differs
from -1) is undefined behaviour (`none`). -/
def alignLoop (s1 : DdSpec 2 S1) (s2 : DdSpec 2 S2) :
    Nat → Int × S1 → Int × S2 → Option (Int × (S1 × S2))
  | 0, _, _ => none
  | fuel + 1, c1, c2 =>
    if c1.1 = c2.1 then some (c1.1, (c1.2, c2.2))
    else if c1.1 > c2.1 then
      if c1.1 ≤ 0 then none else
      let c1' := s1.child c1.2 c1.1.toNat 0
      if c1'.1 = 0 then some (0, (c1'.2, c2.2)) else alignLoop s1 s2 fuel c1' c2
    else
      if c2.1 ≤ 0 then none else
      let c2' := s2.child c2.2 c2.1.toNat 0
      if c2'.1 = 0 then some (0, (c1.2, c2'.2)) else alignLoop s1 s2 fuel c1 c2'

/-- Number of loop iterations that certainly suffices for lawful operands. -/
def alignFuel (i1 i2 : Int) : Nat := i1.toNat + i2.toNat + 3

/-- `ZddIntersection_` (303-424): `getRoot` 346-364, `getChild` 366-384, hash/equality 406-414.
Non-termination or misuse of the alignment loop is reported by an illegal level code
(at the root: `-2`). -/
def zddIntersection (s1 : DdSpec 2 S1) (s2 : DdSpec 2 S2) : DdSpec 2 (S1 × S2) where
  root :=
    if s1.root.1 = 0 then (0, (s1.root.2, s2.root.2))
    else if s2.root.1 = 0 then (0, (s1.root.2, s2.root.2))
    else (alignLoop s1 s2 (alignFuel s1.root.1 s2.root.1) s1.root s2.root).getD
      (-2, (s1.root.2, s2.root.2))
  child p l take :=
    let c1 := s1.child p.1 l take
    if c1.1 = 0 then (0, (c1.2, p.2)) else
    let c2 := s2.child p.2 l take
    if c2.1 = 0 then (0, (c1.2, c2.2)) else
    (alignLoop s1 s2 (alignFuel c1.1 c2.1) c1 c2).getD (ubCode l, p)
  eqv l p q := s1.eqv l p.1 q.1 && s2.eqv l p.2 q.2
  hash l p := (s1.hash l p.1 * 314159257 + s2.hash l p.2 * 271828171) % 2 ^ 64
  merge p q := s1.merge p.1 q.1 ||| s2.merge p.2 q.2

end TdZdd
