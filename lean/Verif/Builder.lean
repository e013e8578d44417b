import Verif.Structure

/-!
# Model of `dd/DdBuilder.hpp` (`DdBuilder`) and `dd/DdSweeper.hpp`

The builder is a machine over partially written memory: a branch cell that has not been written
is `none`; pending specification nodes hold pointers (`Loc` plus the generation of the row storage
they point into). Undefined behaviour (reading an unwritten cell, writing through a stale or
out-of-range pointer, indexing out of bounds, violating an `assert`) is the outcome `none`.
-/

namespace TdZdd

variable {N : Nat} {S : Type}

/-- What a `NodeId*` (`srcPtr`, `DdBuilder.hpp` 57-64) can point to: the root variable or a branch
of a node. -/
inductive Loc (N : Nat)
  | root
  | cell (r c : Nat) (b : Fin N)
deriving DecidableEq

/-- Members of `DdSweeper` (`DdSweeper.hpp` 46-53). `deadCount.size()` is `size + 1`.
New elements of the vectors are 0 (`MyVector::resize` value-initialises). -/
structure Sweep where
  size : Nat
  level : Nat → Nat
  dead : Nat → Nat
  all : Nat
  max : Nat

/-- State of the builder (`DdBuilder.hpp` 175-189): the output table with unwritten cells, a
generation counter per row (bumped whenever the row storage may move, conservatively at every
`resize`), the root variable, the pending specification nodes per level (`snodeTable`, front
first: target pointer, its generation, state), the 1-terminal bookkeeping and the sweeper. -/
structure BSt (N : Nat) (S : Type) where
  numRows : Nat
  row : Nat → List (Fin N → Option NodeId)
  gen : Nat → Nat
  root : Option NodeId
  pend : Nat → List (Loc N × Nat × S)
  one : Option S
  oneSrc : List (Nat × Nat × Fin N)
  sw : Sweep

/-- function update -/
def upd {α : Type} (f : Nat → α) (i : Nat) (v : α) : Nat → α := fun j => if j = i then v else f j

/-- overwrite one branch of a node -/
def setBranch (nd : Fin N → Option NodeId) (b : Fin N) (v : NodeId) : Fin N → Option NodeId :=
  fun b' => if b' = b then some v else nd b'

/-- `output[r][c].branch[b] = v` with bounds check. -/
def BSt.writeCell (st : BSt N S) (r c : Nat) (b : Fin N) (v : NodeId) : Option (BSt N S) :=
  if r < st.numRows then
    match (st.row r)[c]? with
    | none => none
    | some nd => some { st with row := upd st.row r ((st.row r).set c (setBranch nd b v)) }
  else none

/-- `*srcPtr(p) = v`: valid only if the storage of the row has not moved since the pointer was
taken. -/
def BSt.write (st : BSt N S) (l : Loc N) (g : Nat) (v : NodeId) : Option (BSt N S) :=
  match l with
  | .root => some { st with root := some v }
  | .cell r c b => if st.gen r = g then st.writeCell r c b v else none

/-! ### First loop of `construct` (258-301): unifying equal states -/

/-- Local variables of the first loop. `done` lists the specification nodes processed so far with
their `nodeId` field; `uniq` lists the elements of the unique table as (position in `done`, state).
The hash table is abstracted to a search for an equal state (see `HashTable.lean` for
the refinement). -/
structure P1 (N : Nat) (S : Type) where
  st : BSt N S
  m : Nat
  done : List (S × NodeId)
  uniq : List (Nat × S)

/-- Body of the first loop (271-296). -/
def phase1Step (sp : DdSpec N S) (i : Nat) (a : P1 N S) (x : Loc N × Nat × S) :
    Option (P1 N S) :=
  let s := x.2.2
  match a.uniq.find? (fun e => sp.eqv i e.2 s) with
  | none =>
    match a.st.write x.1 x.2.1 ⟨i, a.m⟩ with
    | none => none
    | some st' => some { st := st', m := a.m + 1, done := a.done ++ [(s, ⟨i, a.m⟩)],
                         uniq := (a.done.length, s) :: a.uniq }
  | some e =>
    if sp.merge e.2 s = 1 then
      -- nodeId(p0) = 0; nodeId(p) = *srcPtr(p) = NodeId(i, m++); p0 = p
      match a.st.write x.1 x.2.1 ⟨i, a.m⟩ with
      | none => none
      | some st' =>
        some { st := st', m := a.m + 1,
               done := a.done.set e.1 (e.2, .zero) ++ [(s, ⟨i, a.m⟩)],
               uniq := a.uniq.map fun e' => if e'.1 = e.1 then (a.done.length, s) else e' }
    else if sp.merge e.2 s = 2 then
      match a.st.write x.1 x.2.1 .zero with
      | none => none
      | some st' => some { a with st := st', done := a.done ++ [(s, .one)] }
    else
      match a.done[e.1]? with
      | none => none
      | some q =>
        match a.st.write x.1 x.2.1 q.2 with
        | none => none
        | some st' => some { a with st := st', done := a.done ++ [(s, .one)] }

/-! ### Second loop of `construct` (303-383): writing the new nodes -/

/-- Local variables of the branch loop. -/
structure P2 (N : Nat) (S : Type) where
  st : BSt N S
  lowest : Nat
  allZero : Bool

/-- `while (!oneSrcPtr.empty())` loop (341-346): redirect all recorded 1-edges to the
0-terminal. -/
def clearOnes (i : Nat) (st : BSt N S) : Option (BSt N S) :=
  st.oneSrc.foldlM (fun st x => if x.1 < i then none else st.writeCell x.1 x.2.1 x.2.2 .zero)
    { st with oneSrc := [] }

/-- `q.branch[b] = 1; oneSrcPtr.push_back(NodeBranchId(i, jj, b))`. -/
def BSt.writeOne (st : BSt N S) (i jj : Nat) (b : Fin N) : Option (BSt N S) :=
  (st.writeCell i jj b .one).map fun st => { st with oneSrc := (i, jj, b) :: st.oneSrc }

/-- The case `ii < 0` (332-363). -/
def oneCase (sp : DdSpec N S) (i jj : Nat) (b : Fin N) (s : S) (st : BSt N S) :
    Option (BSt N S) :=
  if st.oneSrc.isEmpty then
    (st.writeOne i jj b).map fun st => { st with one := some s }
  else
    match st.one with
    | none => none
    | some o =>
      if sp.merge o s = 1 then
        (clearOnes i st).bind fun st =>
        (st.writeOne i jj b).map fun st => { st with one := some s }
      else if sp.merge o s = 2 then st.writeCell i jj b .zero
      else st.writeOne i jj b

/-- Body of the branch loop for an ordinary node in state `s` (319-378). The preallocated
specification node `pp` is only a buffer; pushing it is modelled at the point where its `srcPtr`
is set. -/
def branchStep (sp : DdSpec N S) (i jj : Nat) (s : S) (a : P2 N S) (b : Fin N) :
    Option (P2 N S) :=
  let c := sp.child s i b
  if c.1 = 0 then
    (a.st.writeCell i jj b .zero).map fun st => { a with st := st }
  else if c.1 < 0 then
    (oneCase sp i jj b c.2 a.st).map fun st => { a with st := st, allZero := false }
  else if c.1 ≤ (i : Int) - 1 then
    some { st := { a.st with pend := upd a.st.pend c.1.toNat
                              ((.cell i jj b, a.st.gen i, c.2) :: a.st.pend c.1.toNat) },
           lowest := if c.1.toNat < a.lowest then c.1.toNat else a.lowest,
           allZero := false }
  else none

/-- Local variables of the second loop. -/
structure P3 (N : Nat) (S : Type) where
  st : BSt N S
  jj : Nat
  lowest : Nat
  deadCount : Nat

/-- Body of the second loop (308-383). -/
def phase2Step (sp : DdSpec N S) (i : Nat) (a : P3 N S) (x : S × NodeId) : Option (P3 N S) :=
  if x.2 = .one then some a
  else if x.2 = .zero then
    -- all branches of a pruned node are the 0-terminal
    ((List.finRange N).foldlM (fun (st : BSt N S) b => st.writeCell i a.jj b .zero) a.st).map fun st =>
      { st := st, jj := a.jj + 1, lowest := a.lowest, deadCount := a.deadCount + 1 }
  else
    ((List.finRange N).foldlM (branchStep sp i a.jj x.1)
      { st := a.st, lowest := a.lowest, allZero := true }).map fun p =>
      { st := p.st, jj := a.jj + 1, lowest := p.lowest,
        deadCount := if p.allZero then a.deadCount + 1 else a.deadCount }

/-! ### `DdSweeper::update` (`DdSweeper.hpp` 92-167) -/

/-- Loop 102-105, starting at index `j` with `fuel` indices left. -/
def markLoop (cur : Nat) (lev : Nat → Nat) (j : Nat) : Nat → (Nat → Nat)
  | 0 => lev
  | fuel + 1 => if lev j > 0 then lev else markLoop cur (upd lev j (cur + 1)) (j + 1) fuel

/-- Loop 111-114 with `i = k + fuel`. -/
def sumLoop (k : Nat) : Nat → (Nat → Nat) → (Nat → Nat)
  | 0, d => d
  | fuel + 1, d =>
    sumLoop k fuel (upd (upd d k (d k + d (k + fuel + 1))) (k + fuel + 1) 0)

/-- turn a node with all branches present into a node without options -/
def allSome (nd : Fin N → Option NodeId) : Option (Node N) :=
  if h : ∀ b, (nd b).isSome then some fun b => (nd b).get (h b) else none

/-- Line 135: redirect one edge; an unwritten edge or an index without an entry is undefined
behaviour. -/
def sweepEdge (k : Nat) (newId : Nat → List NodeId) (f : Option NodeId) : Option NodeId :=
  match f with
  | none => none
  | some f => if f.row ≥ k then (newId f.row)[f.col]? else some f

/-- Loop over the nodes of one row (129-147): `ids` is `newId[i]` so far, `kept` the compacted row
so far. -/
def sweepNode (k i : Nat) (newId : Nat → List NodeId)
    (a : List NodeId × List (Fin N → Option NodeId)) (nd : Fin N → Option NodeId) :
    Option (List NodeId × List (Fin N → Option NodeId)) :=
  match allSome fun b => sweepEdge k (upd newId i a.1) (nd b) with
  | none => none
  | some nd' =>
    if ∀ b, nd' b = .zero then some (a.1 ++ [.zero], a.2)
    else some (a.1 ++ [⟨i, a.2.length⟩], a.2 ++ [fun b => some (nd' b)])

/-- Loop over the rows (123-150). -/
def sweepRow (k : Nat) (a : BSt N S × (Nat → List NodeId)) (i : Nat) :
    Option (BSt N S × (Nat → List NodeId)) :=
  ((a.1.row i).foldlM (sweepNode k i a.2) ([], [])).map fun q =>
    ({ a.1 with row := upd a.1.row i q.2, gen := upd a.1.gen i (a.1.gen i + 1) }, upd a.2 i q.1)

/-- Lines 152-161: the recorded 1-edges follow their nodes. -/
def sweepOne (k : Nat) (newId : Nat → List NodeId) (x : Nat × Nat × Fin N) :
    Option (Nat × Nat × Fin N) :=
  if x.1 ≥ k then ((newId x.1)[x.2.1]?).map fun f => (f.row, f.col, x.2.2) else some x

/-- Number of non-terminal nodes (`NodeTable.hpp` 100-102). -/
def BSt.size (st : BSt N S) : Nat :=
  ((List.range st.numRows).map fun i => (st.row i).length).sum - (st.row 0).length

/-- Lines 118-165: the sweep proper. -/
def sweep (k : Nat) (st : BSt N S) : Option (BSt N S) :=
  ((List.range' k (st.numRows - k)).foldlM (sweepRow k) (st, fun _ => [])).bind fun p =>
  (p.1.oneSrc.mapM (sweepOne k p.2)).bind fun ones =>
  p.1.root.bind fun root =>
  ((p.2 root.row)[root.col]?).map fun root' =>
  let st' := { p.1 with oneSrc := ones, root := some root' }
  { st' with sw := { st'.sw with dead := upd st'.sw.dead k 0, all := st'.size } }

/-- `DdSweeper::update(current, child, count)` (92-167). -/
def update (cur child count : Nat) (st : BSt N S) : Option (BSt N S) :=
  if cur ≤ 1 then some st else
  let sw := if cur ≥ st.sw.size then { st.sw with size := cur + 1 } else st.sw
  let lev := markLoop cur sw.level child (cur + 1 - child)
  let all := sw.all + (st.row cur).length
  let k := lev (cur - 1)
  if k ≤ sw.size ∧ lev cur ≤ sw.size then
    let dead := sumLoop k (lev cur - k) (upd sw.dead cur count)
    let max := if sw.max < all then all else sw.max
    let st := { st with sw := { size := sw.size, level := lev, dead := dead, all := all,
                                max := max } }
    if dead k * 20 < max then some st else sweep k st
  else none

/-! ### Whole construction -/

/-- `DdBuilder::construct(i)` (258-388). -/
def construct (sp : DdSpec N S) (st : BSt N S) (i : Nat) : Option (BSt N S) :=
  let j0 := (st.row i).length
  ((st.pend i).foldlM (phase1Step sp i) { st := st, m := j0, done := [], uniq := [] }).bind fun a =>
  let st := { a.st with
    row := upd a.st.row i (a.st.row i ++ List.replicate (a.m - j0) fun _ => none),
    gen := upd a.st.gen i (a.st.gen i + 1),
    pend := upd a.st.pend i [] }
  (a.done.foldlM (phase2Step sp i) { st := st, jj := j0, lowest := i - 1, deadCount := 0 }).bind
  fun p => update i p.lowest p.deadCount p.st

/-- `DdBuilder::initialize` (231-252) on an empty output table (`NodeTable.hpp` 49-53, 401-432). -/
def initBuild (sp : DdSpec N S) : BSt N S :=
  let st : BSt N S :=
    { numRows := 1, row := fun r => if r = 0 then [fun _ => some .zero, fun _ => some .one] else [],
      gen := fun _ => 0, root := none, pend := fun _ => [], one := none, oneSrc := [],
      sw := { size := 0, level := fun _ => 0, dead := fun _ => 0, all := 0, max := 0 } }
  if sp.root.1 ≤ 0 then { st with root := some (if sp.root.1 ≠ 0 then .one else .zero) }
  else { st with numRows := sp.root.1.toNat + 1,
                 pend := upd st.pend sp.root.1.toNat [(.root, 0, sp.root.2)] }

/-- the levels `n, n-1, .., 1` in the order of the loop of `construct_` -/
def levels (n : Nat) : List Nat := (List.range n).reverse.map (· + 1)

/-- Reading the finished table; an unwritten cell makes it undefined. -/
def BSt.finish (st : BSt N S) : Option (Dd N) :=
  match st.root with
  | none => none
  | some root =>
    if ∀ r, r < st.numRows → ∀ nd ∈ st.row r, (allSome nd).isSome then
      some { table := { numRows := st.numRows, row := fun r => (st.row r).filterMap allSome },
             root := root }
    else none

/-- `DdStructure::construct_` (`DdStructure.hpp` 116-134): the constructor `DdStructure(spec)`. -/
def build (sp : DdSpec N S) : Option (Dd N) :=
  ((levels sp.root.1.toNat).foldlM (construct sp) (initBuild sp)).bind BSt.finish

end TdZdd
