import Verif.Subsetter

/-!
# Model of the parallel builders (`DdBuilderMP`, `ZddSubsetterMP`, `dd/DdBuilder.hpp` 391-672, 954-1243)

The pending specification nodes of a level are distributed over lists `snodeTables[y][x][i]`: `y` is the thread
that created the node, `x` the group (for `DdBuilderMP` the task `hash % tasks`, for `ZddSubsetterMP` the column of the
input node). One parallel region per level has two work-shared loops over the groups with a single section in between.

* First loop: the iteration for group `x` writes only the `code` fields of the nodes of the group and
  `nodeColumn[x]` and reads nothing that another iteration writes, so its outcome is a function of the group.
* Second loop: the memory writes are made explicit. An iteration executed by thread `y` is a list of effects (`Eff`): writing
  through a source pointer, writing a branch, pushing a specification node on a list of thread `y`,
  counting a dead node. The schedule chooses a thread for each group and an arbitrary interleaving of the effects of
  all iterations; here it is any permutation of all effects, which includes the orders that respect the program order
  of the threads.

Undefined behaviour is `none`.
-/

namespace TdZdd

variable {N : Nat} {S : Type}

/-- A specification node (`DdBuilder.hpp` 108-165): source pointer, generation of the row it points to, state. -/
abbrev SNode (N : Nat) (S : Type) := Loc N × Nat × S

/-- Effects of the second loop on shared memory. `fail` is a failed assertion. -/
inductive Eff (N : Nat) (S : Type)
  | write (l : Loc N) (g : Nat) (v : NodeId)
  | push (y x j : Nat) (p : SNode N S)
  | dead
  | fail

/-- State of a parallel builder between two levels: the output table, root and sweeper (the fields `pend`, `one` and `oneSrc`
of `core` are not used, there is no `oneStorage`), `snodeTables[y][x][i]`. -/
structure BmSt (N : Nat) (S : Type) where
  core : BSt N S
  tab : Nat → Nat → Nat → List (SNode N S)

/-- State during the second loop: `lowestChild` (the minimum of the variables `lc` of all threads) and
`deadCount` (an OpenMP reduction). -/
structure BmRun (N : Nat) (S : Type) where
  core : BSt N S
  tab : Nat → Nat → Nat → List (SNode N S)
  lowest : Nat
  dead : Nat

/-- `snodeTables[y][x][j].alloc_front()` -/
def pushTab (tab : Nat → Nat → Nat → List (SNode N S)) (y x j : Nat) (p : SNode N S) :
    Nat → Nat → Nat → List (SNode N S) :=
  fun y' x' j' => if y' = y ∧ x' = x ∧ j' = j then p :: tab y x j else tab y' x' j'

/-- One effect. -/
def runEff (a : BmRun N S) : Eff N S → Option (BmRun N S)
  | .write l g v => (a.core.write l g v).map fun c => { a with core := c }
  | .push y x j p => some { a with tab := pushTab a.tab y x j p, lowest := if j < a.lowest then j else a.lowest }
  | .dead => some { a with dead := a.dead + 1 }
  | .fail => none

/-! ### First loop -/

/-- Local variables of an iteration of the first loop: `j`, the nodes processed so far with their `code`, the elements of the
unique table as (position in `done`, state). -/
structure BmCodes (N : Nat) (S : Type) where
  j : Nat
  done : List (SNode N S × Int)
  uniq : List (Nat × S)

/-- Body of the first loop of `DdBuilderMP::construct` (526-567). -/
def bmCode (sp : DdSpec N S) (i : Nat) (a : BmCodes N S) (p : SNode N S) : Option (BmCodes N S) :=
  match a.uniq.find? (fun e => sp.eqv i e.2 p.2.2) with
  | none => some { j := a.j + 1, done := a.done ++ [(p, (a.j : Int) + 1)], uniq := (a.done.length, p.2.2) :: a.uniq }
  | some e =>
    match a.done[e.1]? with
    | none => none
    | some q =>
      if sp.merge e.2 p.2.2 = 1 then
        -- code(p0) = 0; code(p) = ++j; p0 = p
        some { j := a.j + 1, done := a.done.set e.1 (q.1, 0) ++ [(p, (a.j : Int) + 1)],
               uniq := a.uniq.map fun e' => if e'.1 = e.1 then (a.done.length, p.2.2) else e' }
      else if sp.merge e.2 p.2.2 = 2 then some { a with done := a.done ++ [(p, 0)] }
      else some { a with done := a.done ++ [(p, -q.2)] }

/-- Body of the first loop of `ZddSubsetterMP::subset` (1074-1109). `prune & 1` and `prune & 2` of a
nonzero answer. -/
def bmCodeSub (sp : DdSpec N S) (i : Nat) (a : BmCodes N S) (p : SNode N S) : Option (BmCodes N S) :=
  match a.uniq.find? (fun e => sp.eqv i e.2 p.2.2) with
  | none => some { j := a.j + 1, done := a.done ++ [(p, (a.j : Int) + 1)], uniq := (a.done.length, p.2.2) :: a.uniq }
  | some e =>
    match a.done[e.1]? with
    | none => none
    | some q =>
      some { a with done := (if sp.merge e.2 p.2.2 % 2 = 1 then a.done.set e.1 (q.1, 0) else a.done) ++
                      [(p, if sp.merge e.2 p.2.2 / 2 % 2 = 1 then 0 else -q.2)] }

/-- The nodes of group `x` at level `i`: the lists of all threads one after the other. -/
def bmGroup (threads : Nat) (tab : Nat → Nat → Nat → List (SNode N S)) (x i : Nat) : List (SNode N S) :=
  (List.range threads).flatMap fun y => tab y x i

/-- One iteration of the first loop. -/
def bmCodes (cstep : BmCodes N S → SNode N S → Option (BmCodes N S)) (threads i : Nat)
    (tab : Nat → Nat → Nat → List (SNode N S)) (x : Nat) : Option (Nat × BmCodes N S) :=
  ((bmGroup threads tab x i).foldlM cstep { j := 0, done := [], uniq := [] }).map fun c => (x, c)

/-- The `single` section (577-597, 1112-1124): `nodeColumn[x]` becomes the first column of group `x`. Groups without nodes get -1 in
`DdBuilderMP`; their lists are empty, so it is not used. -/
def bmBases : Nat → List (Nat × BmCodes N S) → List (Nat × Nat × BmCodes N S)
  | _, [] => []
  | m, (x, c) :: l => (x, m, c) :: bmBases (m + c.j) l

/-- Number of new nodes of the level. -/
def bmTotal (cs : List (Nat × BmCodes N S)) : Nat := (cs.map fun c => c.2.j).sum

/-! ### Second loop -/

/-- Branch `b` of the node in column `col` (625-652, 1153-1200). `key` gives the group of a new specification node, `groups` the number of groups
of a level, `gi` the generation of row `i`. -/
def bmBranch (sp : DdSpec N S) (key : Nat → S → Nat) (groups : Nat → Nat) (i gi y col : Nat) (s : S) (b : Fin N) : Eff N S :=
  let c := sp.child s i b
  if c.1 = 0 then .write (.cell i col b) gi .zero
  else if c.1 < 0 then .write (.cell i col b) gi .one
  else if c.1 ≤ (i : Int) - 1 ∧ key c.1.toNat c.2 < groups c.1.toNat then
    .push y (key c.1.toNat c.2) c.1.toNat (.cell i col b, gi, c.2)
  else .fail

/-- The branches of a new node and the count of dead nodes (619-654, 1147-1202). -/
def bmNode (sp : DdSpec N S) (key : Nat → S → Nat) (groups : Nat → Nat) (i gi y col : Nat) (s : S) : List (Eff N S) :=
  (List.finRange N).map (bmBranch sp key groups i gi y col s) ++
    if ∀ b, (sp.child s i b).1 = 0 then [.dead] else []

/-- One specification node in the second loop (609-655, 1138-1203); `base` is `nodeColumn[x]`. -/
def bmItem (sp : DdSpec N S) (key : Nat → S → Nat) (groups : Nat → Nat) (i gi y base : Nat) (e : SNode N S × Int) : List (Eff N S) :=
  if e.2 ≤ 0 then [.write e.1.1 e.1.2.1 (if e.2 = 0 then .zero else ⟨i, base + (-e.2).toNat - 1⟩)]
  else .write e.1.1 e.1.2.1 ⟨i, base + e.2.toNat - 1⟩ :: bmNode sp key groups i gi y (base + e.2.toNat - 1) e.1.2.2

/-- Schedule of a level: the thread of each group in the second loop, the order of the effects. -/
structure BmSched (N : Nat) (S : Type) where
  thr : Nat → Nat
  ord : List (Eff N S) → List (Eff N S)

structure BmSched.Ok (sc : BmSched N S) (threads : Nat) : Prop where
  thr : ∀ x, sc.thr x < threads
  ord : ∀ l, (sc.ord l).Perm l

/-- All effects of the second loop in the order of the groups. -/
def bmEffs (sp : DdSpec N S) (key : Nat → S → Nat) (groups : Nat → Nat) (i gi : Nat) (thr : Nat → Nat)
    (l : List (Nat × Nat × BmCodes N S)) : List (Eff N S) :=
  l.flatMap fun t => t.2.2.done.flatMap (bmItem sp key groups i gi (thr t.1) t.2.1)

/-- `DdBuilderMP::construct(i)` (494-671) and `ZddSubsetterMP::subset(i)` (1048-1218); `m0` is the column of the first new node. -/
def bmLevel (cstep : BmCodes N S → SNode N S → Option (BmCodes N S)) (sp : DdSpec N S) (key : Nat → S → Nat)
    (groups : Nat → Nat) (threads : Nat) (sc : BmSched N S) (m0 : Nat) (a : BmSt N S) (i : Nat) : Option (BmSt N S) :=
  if ¬ (0 < i ∧ i < a.core.numRows) then none else
  match (List.range (groups i)).mapM (bmCodes cstep threads i a.tab) with
  | none => none
  | some cs =>
    -- output.initRow(i, m)
    let core := { a.core with
      row := upd a.core.row i (List.replicate (m0 + bmTotal cs) fun _ => none),
      gen := upd a.core.gen i (a.core.gen i + 1) }
    let effs := bmEffs sp key groups i (core.gen i) sc.thr (bmBases m0 cs)
    ((sc.ord effs).foldlM runEff
      { core := core, tab := fun y x j => if j = i then [] else a.tab y x j, lowest := i - 1, dead := 0 }).bind fun r =>
    (update i r.lowest r.dead r.core).map fun c => { core := c, tab := r.tab }

/-- forget the parts of the state that the parallel builders do not have -/
def BSt.bare (st : BSt N S) : BSt N S := { st with pend := fun _ => [], one := none, oneSrc := [] }

/-- `DdBuilderMP::initialize` (471-488) and the end of `ZddSubsetterMP::initialize` (998-1042): one specification
node on the list of thread 0 and group `x`. -/
def bmInit (st : BSt N S) (x : Nat) : BmSt N S :=
  { core := st.bare, tab := fun y x' j => if y = 0 ∧ x' = x then st.pend j else [] }

/-- `DdStructure::constructMP_` (`DdStructure.hpp` 136-157): the constructor `DdStructure(spec, true)`. -/
def buildMP (sp : DdSpec N S) (threads tasks : Nat) (sched : Nat → BmSched N S) : Option (Dd N) :=
  ((levels sp.root.1.toNat).foldlM (fun a i =>
      bmLevel (bmCode sp i) sp (fun j s => sp.hash j s % tasks) (fun _ => tasks) threads (sched i) (a.core.row i).length a i)
    (bmInit (initBuild sp) 0)).bind fun a => a.core.finish

/-- One iteration of the loop of `zddSubsetMP_` (`DdStructure.hpp` 211-215). The groups of level `j` are the columns of row `j` of the
input table. -/
def subsetMPStep (sp : DdSpec (N + 1) S) (shared : Bool) (threads : Nat) (sched : Nat → BmSched (N + 1) (NodeId × S))
    (a : Table (N + 1) × BmSt (N + 1) (NodeId × S)) (i : Nat) : Option (Table (N + 1) × BmSt (N + 1) (NodeId × S)) :=
  if ¬ i < a.1.numRows then none else
  let ps := pairSpec a.1 (0, (.zero, sp.root.2)) sp
  (bmLevel (bmCodeSub ps i) ps (fun _ p => p.1.col) (fun j => (a.1.row j).length) threads (sched i) 0 a.2 i).map fun st =>
    (if shared then a.1 else { a.1 with row := upd a.1.row i [] }, st)

/-- `DdStructure::zddSubsetMP_` (`DdStructure.hpp` 199-224). -/
def zddSubsetMP (D : Dd (N + 1)) (sp : DdSpec (N + 1) S) (shared : Bool) (threads : Nat)
    (sched : Nat → BmSched (N + 1) (NodeId × S)) : Option (Dd (N + 1)) :=
  match subRoot D.table D.root sp with
  | none => none
  | some r =>
    ((levels r.1.toNat).foldlM (subsetMPStep sp shared threads sched) (D.table, bmInit (subInit r) r.2.1.col)).bind fun a =>
      a.2.core.finish

end TdZdd
