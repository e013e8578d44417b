import Verif.Builder

/-!
# Model of `ZddSubsetter` (`dd/DdBuilder.hpp` 678-952) and `DdStructure::zddSubset_`

The subsetter works like `DdBuilder` on pairs of an input node and a state of the specification;
both sides skip levels independently and are brought to a common level by following 0-edges.
Undefined behaviour (a failed `assert`, an access outside of the input table or a
loop that does not end) is the outcome `none`.
-/

namespace TdZdd

variable {N : Nat} {S : Type}

/-- The loop of `downTable` (936-938): `while (f.row() > z) f = input.child(f, 0)`. `fuel` bounds
the number of iterations; in a well-formed table `f.row` iterations suffice. -/
def downTableLoop (T : Table (N + 1)) (z : Int) : Nat → NodeId → Option NodeId
  | 0, _ => none
  | fuel + 1, f =>
    if (f.row : Int) > z then
      match T.node? f with
      | none => none
      | some nd => downTableLoop T z fuel (nd 0)
    else some f

/-- `if (zerosupLevel < 0) zerosupLevel = 0` (933, 943). -/
def clampZ (z : Int) : Int := if z < 0 then 0 else z

/-- `ZddSubsetter::downTable(f, b, z)` (932-940): the new code and the new value of `f`. The code is
`rootCode f` (939: -1 for the 1-terminal, else the row). -/
def downTable (T : Table (N + 1)) (f : NodeId) (b : Fin (N + 1)) (z : Int) :
    Option (Int × NodeId) :=
  match T.node? f with
  | none => none
  | some nd =>
    (downTableLoop T (clampZ z) ((nd b).row + 1) (nd b)).map fun g => (rootCode g, g)

/-- The loop of `downSpec` (947-949): `while (i > z) i = spec.get_child(p, i, 0)`. -/
def downSpecLoop (sp : DdSpec (N + 1) S) (z : Int) : Nat → Int × S → Option (Int × S)
  | 0, _ => none
  | fuel + 1, c =>
    if c.1 > z then downSpecLoop sp z fuel (sp.child c.2 c.1.toNat 0)
    else some c

/-- `ZddSubsetter::downSpec(p, level, b, z)` (942-951). -/
def downSpec (sp : DdSpec (N + 1) S) (s : S) (level : Int) (b : Fin (N + 1)) (z : Int) :
    Option (Int × S) :=
  if ¬ level > clampZ z then none
  else
    let c := sp.child s level.toNat b
    downSpecLoop sp (clampZ z) (c.1.toNat + 1) c

/-- The synchronisation loop (729-738 in `initialize`, 856-865 in `subset`); the pair holds
(kk, f) and (ii, state). -/
def syncLoop (T : Table (N + 1)) (sp : DdSpec (N + 1) S) :
    Nat → Int × NodeId → Int × S → Option ((Int × NodeId) × (Int × S))
  | 0, _, _ => none
  | fuel + 1, k, n =>
    if n.1 ≠ 0 ∧ k.1 ≠ 0 ∧ n.1 ≠ k.1 then
      if n.1 < k.1 then
        if k.1 < 1 then none
        else match downTable T k.2 0 n.1 with
          | none => none
          | some k' => syncLoop T sp fuel k' n
      else
        if n.1 < 1 then none
        else match downSpec sp n.2 n.1 0 k.1 with
          | none => none
          | some n' => syncLoop T sp fuel k n'
    else some (k, n)

/-- Number of iterations that suffices for lawful arguments. -/
def syncFuel (k n : Int) : Nat := k.toNat + n.toNat + 3

/-- Evaluation of the result of the synchronisation (740-756, 867-914) as the level code of a pair:
0 if one side is the 0-terminal, -1 if both are the 1-terminal, else the common level. A failed
`assert` (741, 746-747, 906) or a column outside of `work[ii]` is `none`. `lim` is the level
that must not be reached (`ii < i` in 906). -/
def pairCode (T : Table (N + 1)) (lim : Option Int) (r : (Int × NodeId) × (Int × S)) :
    Option (Int × (NodeId × S)) :=
  if r.2.1 ≤ 0 ∨ r.1.1 ≤ 0 then
    if r.2.1 = 0 ∨ r.1.1 = 0 then some (0, (r.1.2, r.2.2))
    else if lim = none ∧ ¬ (r.2.1 = -1 ∧ r.1.1 = -1) then none
    else some (-1, (r.1.2, r.2.2))
  else if r.2.1 = r.1.1 ∧ r.2.1 = r.1.2.row ∧ (∀ l, lim = some l → r.2.1 < l) ∧
      (T.node? r.1.2).isSome then some (r.2.1, (r.1.2, r.2.2))
  else none

/-- The pair for branch `b` of the pair `(f, s)` at level `i` (851-865). -/
def subChild (T : Table (N + 1)) (sp : DdSpec (N + 1) S) (p : NodeId × S) (i : Nat)
    (b : Fin (N + 1)) : Option (Int × (NodeId × S)) :=
  match downTable T p.1 b ((i : Int) - 1) with
  | none => none
  | some k =>
    match downSpec sp p.2 i b k.1 with
    | none => none
    | some n =>
      match syncLoop T sp (syncFuel k.1 n.1) k n with
      | none => none
      | some r => pairCode T (some i) r

/-- The pair of the roots (725-747). -/
def subRoot (T : Table (N + 1)) (root : NodeId) (sp : DdSpec (N + 1) S) :
    Option (Int × (NodeId × S)) :=
  match syncLoop T sp (syncFuel (rootCode root) sp.root.1) (rootCode root, root) sp.root with
  | none => none
  | some r => pairCode T none r

/-- The functions used for the pairs at level `i`: the states are compared, hashed and merged by
the specification alone (the input node does not take part, 786-824); children come from
`subChild` and an undefined outcome is reported by an illegal level code, which `branchStep`
turns into `none`. The root is not used by the level step. -/
def pairSpec (T : Table (N + 1)) (root : Int × (NodeId × S)) (sp : DdSpec (N + 1) S) :
    DdSpec (N + 1) (NodeId × S) where
  root := root
  child p i b := (subChild T sp p i b).getD (ubCode i, p)
  eqv n p q := sp.eqv n p.2 q.2
  hash n p := sp.hash n p.2
  merge p q := sp.merge p.2 q.2

/-- The list `work[i][j]`. Simplification: the lists `work[i][0]`, .., `work[i][m-1]` of a level are
kept as one list whose elements are tagged with their input node; pushing to the front of
`work[i][j]` pushes to the front of the common list, so `work[i][j]` is the sublist with tag `j`. -/
def workAt (st : BSt N (NodeId × S)) (i j : Nat) : List (Loc N × Nat × (NodeId × S)) :=
  (st.pend i).filter fun x => decide (x.2.2.1.col = j)

/-- First loop of `subset` (786-824) for column `j`: a unique table of its own for every column (a
list with one element does without a table, which makes no difference). -/
def subColumn (ps : DdSpec N (NodeId × S)) (st : BSt N (NodeId × S)) (i : Nat)
    (a : P1 N (NodeId × S)) (j : Nat) : Option (P1 N (NodeId × S)) :=
  (workAt st i j).foldlM (phase1Step ps i) { a with uniq := [] }

/-- `ZddSubsetter::subset(i)` (771-929). `m` is `input[i].size()`. The second loop visits the same
nodes in the same order (`done`); its body is that of `DdBuilder` (830-923 against 319-383). -/
def subset (sp : DdSpec (N + 1) S) (T : Table (N + 1)) (st : BSt (N + 1) (NodeId × S)) (i : Nat) :
    Option (BSt (N + 1) (NodeId × S)) :=
  if ¬ (0 < i ∧ i < st.numRows ∧ i < T.numRows) then none else
  let ps := pairSpec T (0, (.zero, sp.root.2)) sp
  ((List.range (T.row i).length).foldlM (subColumn ps st i)
    { st := st, m := 0, done := [], uniq := [] }).bind fun a =>
  -- output.initRow(i, mm)
  let st := { a.st with
    row := upd a.st.row i (List.replicate a.m fun _ => none),
    gen := upd a.st.gen i (a.st.gen i + 1),
    pend := upd a.st.pend i [] }
  (a.done.foldlM (phase2Step ps i) { st := st, jj := 0, lowest := i - 1, deadCount := 0 }).bind
  fun p => update i p.lowest p.deadCount p.st

/-- `ZddSubsetter::initialize` (721-765). The variable `root` still holds an id of the input table
until the level of the root is processed; the model treats it as unwritten. -/
def subInit (r : Int × (NodeId × S)) : BSt (N + 1) (NodeId × S) :=
  initBuild { root := r, child := fun p _ _ => (0, p), eqv := fun _ _ _ => false,
              hash := fun _ _ => 0, merge := fun _ _ => 0 }

/-- One iteration of the loop of `zddSubset_` (185-189): `subset(i)`, then `derefLevel(i)`
(`NodeTable.hpp` 489-491), which clears row `i` of the input table unless the table is shared. -/
def subsetStep (sp : DdSpec (N + 1) S) (shared : Bool)
    (a : Table (N + 1) × BSt (N + 1) (NodeId × S)) (i : Nat) :
    Option (Table (N + 1) × BSt (N + 1) (NodeId × S)) :=
  (subset sp a.1 a.2 i).map fun st =>
    (if shared then a.1 else { a.1 with row := upd a.1.row i [] }, st)

/-- `DdStructure::zddSubset_` (`DdStructure.hpp` 175-197): the new structure. `shared` tells whether
the node table has other owners. -/
def zddSubset (D : Dd (N + 1)) (sp : DdSpec (N + 1) S) (shared : Bool) : Option (Dd (N + 1)) :=
  match subRoot D.table D.root sp with
  | none => none
  | some r =>
    ((levels r.1.toNat).foldlM (subsetStep sp shared) (D.table, subInit r)).bind fun a =>
      a.2.finish

end TdZdd
