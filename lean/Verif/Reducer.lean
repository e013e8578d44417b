import Verif.HashTable
import Verif.ReduceTheory

/-!
# Model of `dd/DdReducer.hpp` (sequential) and of `NodeTableEntity::makeIndex`

`none` is undefined behaviour: an index out of bounds, an entry read before it is written, or a
loop that does not stop. The attribute bit of node ids (`hasEmpty`) is added in `Attr.lean`.
-/

namespace TdZdd

variable {N : Nat}

/-- The rows of a node table. -/
abbrev Rows (N : Nat) := Nat → List (Node N)

/-- `NodeTableEntity::node` (`NodeTable.hpp` 167-178) on a table with `nr` rows. -/
def nodeAt (nr : Nat) (T : Rows N) (f : NodeId) : Option (Node N) :=
  if f.row < nr then (T f.row)[f.col]? else none

/-- Overwrite a whole node. -/
def setNode (nr : Nat) (T : Rows N) (f : NodeId) (nd : Node N) : Option (Rows N) :=
  if f.row < nr ∧ f.col < (T f.row).length then some (upd T f.row ((T f.row).set f.col nd)) else none

/-- `input.child(f, b) = v` (`NodeTable.hpp` 196-198, 219-222). -/
def setCell (nr : Nat) (T : Rows N) (f : NodeId) (b : Fin N) (v : NodeId) : Option (Rows N) :=
  (nodeAt nr T f).bind fun nd => setNode nr T f fun b' => if b' = b then v else nd b'

/-! ### `makeIndex` -/

/-- Local variables of one round of `makeIndex` (`NodeTable.hpp` 257-302): `lowest`, `myLower`
and the shared `lowerMark`. -/
structure IdxSt where
  lowest : Nat
  my : Nat → Bool
  mark : Nat → Bool

/-- One edge (`NodeTable.hpp` 287-293); `mark` has `n + 1` entries. -/
def idxEdge (n : Nat) (a : IdxSt) (f : NodeId) : Option IdxSt :=
  if f.row = 0 then some a
  else if n < f.row then none
  else
    let lowest := if f.row < a.lowest then f.row else a.lowest
    if a.mark f.row then some { a with lowest := lowest }
    else some { lowest := lowest, my := upd a.my f.row true, mark := upd a.mark f.row true }

/-- The edges of a row in the order in which `makeIndex` visits them. -/
def rowEdges (row : List (Node N)) : List NodeId := row.flatMap fun nd => List.ofFn nd

/-- One level of `makeIndex` (259-302): the tables `higherLevelTable`, `lowerLevelTable` and
`lowerMark`; `E i` are the edges of row `i` in the order in which they are visited. -/
def idxRow (n : Nat) (E : Nat → List NodeId) (a : (Nat → List Nat) × (Nat → List Nat) × (Nat → Bool)) (i : Nat) :
    Option ((Nat → List Nat) × (Nat → List Nat) × (Nat → Bool)) :=
  ((E i).foldlM (idxEdge n) { lowest := i, my := fun _ => false, mark := a.2.2 }).map fun s =>
    (upd a.1 s.lowest (a.1 s.lowest ++ [i]),
     upd a.2.1 i (((List.range i).filter fun r => s.lowest ≤ r).filter s.my), s.mark)

/-- `NodeTableEntity::makeIndex` (251-303) for a table with `n + 1` rows, visiting the edges of each row in the given
order: `higherLevelTable` and `lowerLevelTable`. -/
def makeIndexOrd (n : Nat) (E : Nat → List NodeId) : Option ((Nat → List Nat) × (Nat → List Nat)) :=
  ((levels n).foldlM (idxRow n E) (fun _ => [], fun _ => [], fun _ => false)).map fun a => (a.1, a.2.1)

/-- `NodeTableEntity::makeIndex`, sequential. -/
def makeIndex (n : Nat) (T : Rows N) : Option ((Nat → List Nat) × (Nat → List Nat)) :=
  makeIndexOrd n fun i => rowEdges (T i)

/-! ### State of the reducer -/

/-- `DdReducer`'s `input`, `newIdTable` (entries of a resized vector are uninitialised), `output`
(46-84) and the root registered with `setRoot` (199-201). -/
structure RSt (N : Nat) where
  input : Rows N
  newId : Nat → List (Option NodeId)
  output : Rows N
  root : NodeId

/-- `newIdTable[f.row()][f.col()]`. -/
def RSt.look (st : RSt N) (f : NodeId) : Option NodeId := ((st.newId f.row)[f.col]?).join

/-- `newIdTable[i][j] = v`. -/
def RSt.setId (st : RSt N) (i j : Nat) (v : NodeId) : Option (RSt N) :=
  if j < (st.newId i).length then some { st with newId := upd st.newId i ((st.newId i).set j (some v)) }
  else none

/-- Apply a partial function to all branches of a node. Simplification: the branches of one node
are updated together, where the code updates them one after another. -/
def mapNode (g : NodeId → Option NodeId) (nd : Node N) : Option (Node N) := allSome fun b => g (nd b)

/-- `newIdTable[*t].clear()` for the lower levels (260-265, 379-382). -/
def clearIds (lower : List Nat) (t : Nat → List (Option NodeId)) : Nat → List (Option NodeId) :=
  lower.foldl (fun t r => upd t r []) t

/-- `input[*t].clear()` for the lower levels (299-304). -/
def clearRows (lower : List Nat) (t : Rows N) : Rows N := lower.foldl (fun t r => upd t r []) t

/-- A row of `output` after it has been filled; an uninitialised node is undefined behaviour. -/
def fullRow (row : List (Option (Node N))) : Option (List (Node N)) := row.mapM id

/-- The update of the registered root after its level is done (328-331, 395-398). -/
def rootUpdate (top i : Nat) (st : RSt N) : Option (RSt N) :=
  if i = top then (st.look ⟨i, st.root.col⟩).map fun f => { st with root := f } else some st

/-! ### `makeReadyForSequentialReduction` -/

/-- The redirection of one edge `f` (164-182). -/
def redirect (bdd zdd : Bool) (nr : Nat) (T : Rows (N + 1)) (f : NodeId) : Option NodeId :=
  if f.row = 0 then some f
  else (nodeAt nr T f).map fun nd =>
    let deletable := if bdd then nd 0 else .zero
    if ∀ b : Fin (N + 1), ((bdd || zdd) = true → b ≠ 0) → nd b = deletable then nd 0 else f

/-- One node (162-185). -/
def readyNode (bdd zdd : Bool) (nr i : Nat) (T : Rows (N + 1)) (j : Nat) : Option (Rows (N + 1)) :=
  (nodeAt nr T ⟨i, j⟩).bind fun nd => (mapNode (redirect bdd zdd nr T) nd).bind fun nd' =>
    setNode nr T ⟨i, j⟩ nd'

/-- One level (158-186). -/
def readyRow (bdd zdd : Bool) (nr : Nat) (T : Rows (N + 1)) (i : Nat) : Option (Rows (N + 1)) :=
  (List.range (T i).length).foldlM (readyNode bdd zdd nr i) T

/-- `makeReadyForSequentialReduction` (153-192) without the final `makeIndex`: levels `2..nr-1`. -/
def makeReady (bdd zdd : Bool) (nr : Nat) (T : Rows (N + 1)) : Option (Rows (N + 1)) :=
  ((List.range (nr - 2)).map (· + 2)).foldlM (readyRow bdd zdd nr) T

/-! ### `algorithmR` (ARITY = 2) -/

/-- Node with two branches. -/
def pair (f0 f1 : NodeId) : Node 2 := fun b => if b = 0 then f0 else f1

/-- The deletion test of `algorithmR` (242, 318). -/
def delR (bdd zdd : Bool) (nd : Node 2) : Bool := (bdd && nd 1 == nd 0) || (zdd && nd 1 == .zero)

/-- `if (f.row() != 0) f = newIdTable[f.row()][f.col()]` (239-240). -/
def remap (st : RSt N) (f : NodeId) : Option NodeId := if f.row ≠ 0 then st.look f else some f

/-- Body of the first loop (235-258): canonical children, and lists of nodes with equal 0-child
threaded through `newIdTable[i]` with heads stored in the 0-child's own branch fields. -/
def loop1 (bdd zdd : Bool) (nr i m : Nat) (st : RSt 2) (j : Nat) : Option (RSt 2) := do
  let nd ← nodeAt nr st.input ⟨i, j⟩
  let f0 ← remap st (nd 0)
  let f1 ← remap st (nd 1)
  let T ← setNode nr st.input ⟨i, j⟩ (pair f0 f1)
  let st := { st with input := T }
  if delR bdd zdd (pair f0 f1) then st.setId i j f0
  else
    let c ← nodeAt nr st.input f0
    if c 1 ≠ ⟨i, m⟩ then
      let T ← setCell nr st.input f0 1 ⟨i, m⟩
      let st ← RSt.setId { st with input := T } i j ⟨i + 1, m⟩
      let T ← setCell nr st.input f0 0 ⟨i + 1, j⟩
      some { st with input := T }
    else
      let st ← st.setId i j (c 0)
      let T ← setCell nr st.input f0 0 ⟨i + 1, j⟩
      some { st with input := T }

/-- Inner loop over a list of nodes with equal 0-child (273-296); `f` is the head of the list. -/
def inner (nr i m : Nat) (f : NodeId) : Nat → Nat → RSt 2 × Nat → Option (RSt 2 × Nat)
  | 0, _, _ => none
  | fuel + 1, k, (st, mm) =>
    if k < m then do
      let nd ← nodeAt nr st.input ⟨i, k⟩
      let c ← nodeAt nr st.input (nd 1)
      let id ← st.look ⟨i, k⟩
      if c 1 ≠ f then
        let T ← setCell nr st.input (nd 1) 1 f
        let T ← setCell nr T (nd 1) 0 ⟨i, k⟩
        let st ← RSt.setId { st with input := T } i k ⟨i, mm⟩
        inner nr i m f fuel id.col (st, mm + 1)
      else
        let T ← setNode nr st.input ⟨i, k⟩ (pair (c 0) ⟨i, m⟩)
        let st ← RSt.setId { st with input := T } i k .zero
        inner nr i m f fuel id.col (st, mm)
    else some (st, mm)

/-- Body of the second loop (268-297). -/
def loop2 (nr i m : Nat) (a : RSt 2 × Nat) (j : Nat) : Option (RSt 2 × Nat) :=
  (a.1.look ⟨i, j⟩).bind fun id =>
    if id.row ≤ i then some a else inner nr i m ⟨i, j⟩ (m + 1) j a

/-- Body of the third loop (309-326); the second component is the output row. -/
def loop3 (bdd zdd : Bool) (nr i m : Nat) (a : RSt 2 × List (Option (Node 2))) (j : Nat) :
    Option (RSt 2 × List (Option (Node 2))) := do
  let nd ← nodeAt nr a.1.input ⟨i, j⟩
  if nd 1 = ⟨i, m⟩ then
    let id ← a.1.look ⟨i, (nd 0).col⟩
    let st ← a.1.setId i j id
    some (st, a.2)
  else if delR bdd zdd nd then some a
  else
    let id ← a.1.look ⟨i, j⟩
    if id.col < a.2.length then some (a.1, a.2.set id.col (some nd)) else none

/-- `algorithmR(i)` (225-332). -/
def algorithmR (bdd zdd : Bool) (nr top : Nat) (lower : Nat → List Nat) (st : RSt 2) (i : Nat) :
    Option (RSt 2) := do
  let m := (st.input i).length
  let st := { st with newId := upd st.newId i (List.replicate m none) }
  let st ← (List.range m).reverse.foldlM (loop1 bdd zdd nr i m) st
  let st := { st with newId := clearIds (lower i) st.newId }
  let (st, mm) ← (List.range m).foldlM (loop2 nr i m) (st, 0)
  let st := if bdd then st else { st with input := clearRows (lower i) st.input }
  let (st, row) ← (List.range m).foldlM (loop3 bdd zdd nr i m) (st, List.replicate mm none)
  let row ← fullRow row
  rootUpdate top i { st with output := upd st.output i row }

/-! ### `reduce_` (any arity) -/

/-- The deletion test of `reduce_` (355-361) on canonical children. -/
def delN (bdd zdd : Bool) (nd : Node (N + 1)) : Bool :=
  (bdd || zdd || nd 0 == .zero) && decide (∀ b, b ≠ 0 → nd b = if bdd then nd 0 else .zero)

/-- `Node::hash` (`Node.hpp` 171-177) of a node; entries of the unique table are pointers to nodes of
the row, modelled as column and contents (the contents do not change once the pointer is stored). -/
def nodeHash (e : Nat × Node (N + 1)) : Nat :=
  (List.ofFn e.2).tail.foldl
    (fun h f => (h * 314159257 + (f.row * 2 ^ 44 + f.col) * 271828171) % 2 ^ 64)
    ((e.2 0).row * 2 ^ 44 + (e.2 0).col)

/-- `Node::operator==` (`Node.hpp` 179-184). -/
def nodeEq (e e' : Nat × Node (N + 1)) : Bool := decide (∀ b, e.2 b = e'.2 b)

/-- Local variables of the loop of `reduce_`: `uniq` and `jj`. -/
structure RedSt (N : Nat) where
  st : RSt (N + 1)
  uniq : HT (Nat × Node (N + 1))
  jj : Nat

/-- Body of the main loop of `reduce_` (348-376). -/
def reduceStep (bdd zdd : Bool) (nr i : Nat) (a : RedSt N) (j : Nat) : Option (RedSt N) := do
  let nd ← nodeAt nr a.st.input ⟨i, j⟩
  let c ← mapNode a.st.look nd
  let T ← setNode nr a.st.input ⟨i, j⟩ c
  let st := { a.st with input := T }
  if delN bdd zdd c then
    let st ← st.setId i j (c 0)
    some { a with st := st }
  else
    let (u, k) ← HT.add nodeHash nodeEq a.uniq (j, c)
    let e ← u.mem k
    if e.1 = j then
      let st ← st.setId i j ⟨i, a.jj⟩
      some { st := st, uniq := u, jj := a.jj + 1 }
    else
      let id ← st.look ⟨i, e.1⟩
      let st ← st.setId i j id
      some { st := st, uniq := u, jj := a.jj }

/-- Body of the copy loop of `reduce_` (386-391). -/
def copyStep (nr i : Nat) (st : RSt (N + 1)) (row : List (Option (Node (N + 1)))) (j : Nat) :
    Option (List (Option (Node (N + 1)))) := do
  let ff ← st.look ⟨i, j⟩
  if ff.row = i then
    let nd ← nodeAt nr st.input ⟨i, j⟩
    if ff.col < row.length then some (row.set ff.col (some nd)) else none
  else some row

/-- `reduce_(i)` (338-399). -/
def reduceLevel (bdd zdd : Bool) (nr top : Nat) (lower : Nat → List Nat) (st : RSt (N + 1)) (i : Nat) :
    Option (RSt (N + 1)) := do
  let m := (st.input i).length
  let st := { st with newId := upd st.newId i (List.replicate m none) }
  let u ← HT.init (m * 2) HT.empty
  let a ← (List.range m).foldlM (reduceStep bdd zdd nr i) { st := st, uniq := u, jj := 0 }
  let st := { a.st with newId := clearIds (lower i) a.st.newId }
  let row ← (List.range m).foldlM (copyStep nr i st) (List.replicate a.jj none)
  let row ← fullRow row
  rootUpdate top i { st with input := upd st.input i [], output := upd st.output i row }

/-! ### The whole reduction -/

/-- Constructor of `DdReducer` (87-127) and `setRoot` (199-201). -/
def reduceInit (D : Dd N) : RSt N :=
  { input := upd D.table.row 0 (terminalRow N)
    newId := fun r => if r = 0 then [some .zero, some .one] else []
    output := fun r => if r = 0 then terminalRow N else []
    root := D.root }

/-- Read the result: `diagram` is `output`, `root_` has been updated in place. -/
def reduceResult (D : Dd N) (st : RSt N) : Dd N :=
  { table := { numRows := D.table.numRows, row := st.output }, root := st.root }

/-- Levels in increasing order `1..n`. -/
def levelsUp (n : Nat) : List Nat := (List.range n).map (· + 1)

/-- `DdStructure<2>::reduce<BDD,ZDD>()` (`DdStructure.hpp` 389-409), sequential. The preparation is
done by the first call of `algorithmR`, so not at all if the root is a terminal. -/
def reduce2 (bdd zdd : Bool) (D : Dd 2) : Option (Dd 2) := do
  let nr := D.table.numRows
  let st := reduceInit D
  let _ ← makeIndex (nr - 1) st.input
  if D.root.row = 0 then some (reduceResult D st)
  else
    let T ← makeReady bdd zdd nr st.input
    let idx ← makeIndex (nr - 1) T
    let st ← (levelsUp D.root.row).foldlM (algorithmR bdd zdd nr D.root.row idx.2) { st with input := T }
    some (reduceResult D st)

/-- `DdStructure<ARITY>::reduce<BDD,ZDD>()` (`DdStructure.hpp` 389-409) for `ARITY ≠ 2`, sequential. -/
def reduceN (bdd zdd : Bool) (D : Dd (N + 1)) : Option (Dd (N + 1)) := do
  let nr := D.table.numRows
  let st := reduceInit D
  let idx ← makeIndex (nr - 1) st.input
  let st ← (levelsUp D.root.row).foldlM (reduceLevel bdd zdd nr D.root.row idx.2) st
  some (reduceResult D st)

end TdZdd
