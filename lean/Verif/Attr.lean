import Verif.Reducer
import Verif.Dump
import Verif.Equality

/-!
# Model of the attribute bit of node ids

`NodeId` (`dd/Node.hpp`) contains, besides row and column, one bit (`getAttr`, `setAttr`). `DdReducer` sets it in the ids that it makes
(`DdReducer.hpp` 287, 370) and copies it with the ids. The other modules leave it out. Here the sequential reducer is modelled once more with the bit.
The bits are kept beside the ids: every place that holds a `NodeId` in `Reducer.lean` has a place for a bit here, and every statement that copies or
makes an id copies or makes a bit. Reading an id that is not there is undefined in the part without bits, so the places for the bits are total functions.
-/

namespace TdZdd

namespace Attr

variable {N : Nat}

/-- The bits of the ids in `newIdTable`, `input`, `output` and of the root. -/
structure Bits (N : Nat) where
  newId : Nat → Nat → Bool
  input : NodeId → Fin N → Bool
  output : NodeId → Fin N → Bool
  root : Bool

/-- `hasEmpty` (`Node.hpp` 95-97) of the id `f` with bit `a` -/
def hasEmpty (f : NodeId) (a : Bool) : Bool := decide (f = .one) || a

/-- the bit of `newIdTable[i][j]` is assigned -/
def Bits.setId (s : Bits N) (i j : Nat) (v : Bool) : Bits N :=
  { s with newId := fun r c => if r = i ∧ c = j then v else s.newId r c }

/-- the bits of a node of `input` are assigned -/
def Bits.setNode (s : Bits N) (f : NodeId) (v : Fin N → Bool) : Bits N :=
  { s with input := fun g => if g = f then v else s.input g }

/-- the bit of one branch of a node of `input` is assigned -/
def Bits.setCell (s : Bits N) (f : NodeId) (b : Fin N) (v : Bool) : Bits N :=
  { s with input := fun g b' => if g = f ∧ b' = b then v else s.input g b' }

/-- the bits of a node of `output` are assigned -/
def Bits.setOut (s : Bits N) (f : NodeId) (v : Fin N → Bool) : Bits N :=
  { s with output := fun g => if g = f then v else s.output g }

/-- the update of the root (328-331, 395-398) -/
def Bits.rootUpdate (s : Bits N) (top i col : Nat) : Bits N := if i = top then { s with root := s.newId i col } else s

/-! ### `reduce_` (any arity) -/

/-- Body of the main loop of `reduce_` (348-376) -/
def reduceStep (bdd zdd : Bool) (nr i : Nat) (x : RedSt N × Bits (N + 1)) (j : Nat) : Option (RedSt N × Bits (N + 1)) := do
  let nd ← nodeAt nr x.1.st.input ⟨i, j⟩
  let c ← mapNode x.1.st.look nd
  let T ← TdZdd.setNode nr x.1.st.input ⟨i, j⟩ c
  let st := { x.1.st with input := T }
  let s := x.2.setNode ⟨i, j⟩ fun b => x.2.newId (nd b).row (nd b).col
  if delN bdd zdd c then
    let st ← st.setId i j (c 0)
    some ({ x.1 with st := st }, s.setId i j (s.input ⟨i, j⟩ 0))
  else
    let (u, k) ← HT.add nodeHash nodeEq x.1.uniq (j, c)
    let e ← u.mem k
    if e.1 = j then
      let st ← st.setId i j ⟨i, x.1.jj⟩
      some ({ st := st, uniq := u, jj := x.1.jj + 1 }, s.setId i j (hasEmpty (c 0) (s.input ⟨i, j⟩ 0)))
    else
      let id ← st.look ⟨i, e.1⟩
      let st ← st.setId i j id
      some ({ st := st, uniq := u, jj := x.1.jj }, s.setId i j (s.newId i e.1))

/-- Body of the copy loop of `reduce_` (386-391) -/
def copyStep (nr i : Nat) (st : RSt (N + 1)) (x : List (Option (Node (N + 1))) × Bits (N + 1)) (j : Nat) :
    Option (List (Option (Node (N + 1))) × Bits (N + 1)) := do
  let ff ← st.look ⟨i, j⟩
  if ff.row = i then
    let nd ← nodeAt nr st.input ⟨i, j⟩
    if ff.col < x.1.length then some (x.1.set ff.col (some nd), x.2.setOut ⟨i, ff.col⟩ (x.2.input ⟨i, j⟩)) else none
  else some x

/-- `reduce_(i)` (338-399) -/
def reduceLevel (bdd zdd : Bool) (nr top : Nat) (lower : Nat → List Nat) (x : RSt (N + 1) × Bits (N + 1)) (i : Nat) :
    Option (RSt (N + 1) × Bits (N + 1)) := do
  let m := (x.1.input i).length
  let st := { x.1 with newId := upd x.1.newId i (List.replicate m none) }
  let u ← HT.init (m * 2) HT.empty
  let a ← (List.range m).foldlM (reduceStep bdd zdd nr i) ({ st := st, uniq := u, jj := 0 }, x.2)
  let st := { a.1.st with newId := clearIds (lower i) a.1.st.newId }
  let r ← (List.range m).foldlM (copyStep nr i st) (List.replicate a.1.jj none, a.2)
  let row ← fullRow r.1
  let st' ← rootUpdate top i { st with input := upd st.input i [], output := upd st.output i row }
  some (st', r.2.rootUpdate top i st.root.col)

/-! ### `algorithmR` (ARITY = 2) -/

/-- The redirection of one edge `f` with bit `a` (164-182), `f = f0` copies the bit of `f0`. -/
def redirect (bdd zdd : Bool) (nr : Nat) (T : Rows (N + 1)) (s : Bits (N + 1)) (f : NodeId) (a : Bool) : Bool :=
  if f.row = 0 then a
  else match nodeAt nr T f with
    | none => a
    | some nd => if ∀ b : Fin (N + 1), ((bdd || zdd) = true → b ≠ 0) → nd b = (if bdd then nd 0 else .zero) then s.input f 0 else a

/-- One node (162-185) -/
def readyNode (bdd zdd : Bool) (nr i : Nat) (x : Rows (N + 1) × Bits (N + 1)) (j : Nat) : Option (Rows (N + 1) × Bits (N + 1)) := do
  let nd ← nodeAt nr x.1 ⟨i, j⟩
  let T ← TdZdd.readyNode bdd zdd nr i x.1 j
  some (T, x.2.setNode ⟨i, j⟩ fun b => redirect bdd zdd nr x.1 x.2 (nd b) (x.2.input ⟨i, j⟩ b))

/-- One level (158-186) -/
def readyRow (bdd zdd : Bool) (nr : Nat) (x : Rows (N + 1) × Bits (N + 1)) (i : Nat) : Option (Rows (N + 1) × Bits (N + 1)) :=
  (List.range (x.1 i).length).foldlM (readyNode bdd zdd nr i) x

/-- `makeReadyForSequentialReduction` (153-192) without the final `makeIndex` -/
def makeReady (bdd zdd : Bool) (nr : Nat) (x : Rows (N + 1) × Bits (N + 1)) : Option (Rows (N + 1) × Bits (N + 1)) :=
  ((List.range (nr - 2)).map (· + 2)).foldlM (readyRow bdd zdd nr) x

/-- the bit of `f` with bit `a` after `if (f.row() != 0) f = newIdTable[f.row()][f.col()]` (239-240) -/
def remap (s : Bits N) (f : NodeId) (a : Bool) : Bool := if f.row ≠ 0 then s.newId f.row f.col else a

/-- Body of the first loop (235-258) -/
def loop1 (bdd zdd : Bool) (nr i m : Nat) (x : RSt 2 × Bits 2) (j : Nat) : Option (RSt 2 × Bits 2) := do
  let nd ← nodeAt nr x.1.input ⟨i, j⟩
  let f0 ← TdZdd.remap x.1 (nd 0)
  let f1 ← TdZdd.remap x.1 (nd 1)
  let T ← TdZdd.setNode nr x.1.input ⟨i, j⟩ (pair f0 f1)
  let st := { x.1 with input := T }
  let s := x.2.setNode ⟨i, j⟩ fun b => remap x.2 (nd b) (x.2.input ⟨i, j⟩ b)
  if delR bdd zdd (pair f0 f1) then
    let st ← st.setId i j f0
    some (st, s.setId i j (s.input ⟨i, j⟩ 0))
  else
    let c ← nodeAt nr st.input f0
    if c 1 ≠ ⟨i, m⟩ then
      let T ← TdZdd.setCell nr st.input f0 1 ⟨i, m⟩
      let st ← RSt.setId { st with input := T } i j ⟨i + 1, m⟩
      let T ← TdZdd.setCell nr st.input f0 0 ⟨i + 1, j⟩
      some ({ st with input := T }, ((s.setCell f0 1 false).setId i j false).setCell f0 0 false)
    else
      let st ← st.setId i j (c 0)
      let T ← TdZdd.setCell nr st.input f0 0 ⟨i + 1, j⟩
      some ({ st with input := T }, (s.setId i j (s.input f0 0)).setCell f0 0 false)

/-- Inner loop (273-296) -/
def inner (nr i m : Nat) (f : NodeId) : Nat → Nat → (RSt 2 × Nat) × Bits 2 → Option ((RSt 2 × Nat) × Bits 2)
  | 0, _, _ => none
  | fuel + 1, k, ((st, mm), s) =>
    if k < m then do
      let nd ← nodeAt nr st.input ⟨i, k⟩
      let c ← nodeAt nr st.input (nd 1)
      let id ← st.look ⟨i, k⟩
      if c 1 ≠ f then
        let T ← TdZdd.setCell nr st.input (nd 1) 1 f
        let T ← TdZdd.setCell nr T (nd 1) 0 ⟨i, k⟩
        let st ← RSt.setId { st with input := T } i k ⟨i, mm⟩
        inner nr i m f fuel id.col ((st, mm + 1),
          ((s.setCell (nd 1) 1 false).setCell (nd 1) 0 false).setId i k (hasEmpty (nd 0) (s.input ⟨i, k⟩ 0)))
      else
        let T ← TdZdd.setNode nr st.input ⟨i, k⟩ (pair (c 0) ⟨i, m⟩)
        let st ← RSt.setId { st with input := T } i k .zero
        inner nr i m f fuel id.col ((st, mm),
          (s.setNode ⟨i, k⟩ fun b => if b = 0 then s.input (nd 1) 0 else false).setId i k false)
    else some ((st, mm), s)

/-- Body of the second loop (268-297) -/
def loop2 (nr i m : Nat) (x : (RSt 2 × Nat) × Bits 2) (j : Nat) : Option ((RSt 2 × Nat) × Bits 2) :=
  (x.1.1.look ⟨i, j⟩).bind fun id => if id.row ≤ i then some x else inner nr i m ⟨i, j⟩ (m + 1) j x

/-- Body of the third loop (309-326) -/
def loop3 (bdd zdd : Bool) (nr i m : Nat) (x : (RSt 2 × List (Option (Node 2))) × Bits 2) (j : Nat) :
    Option ((RSt 2 × List (Option (Node 2))) × Bits 2) := do
  let nd ← nodeAt nr x.1.1.input ⟨i, j⟩
  if nd 1 = ⟨i, m⟩ then
    let id ← x.1.1.look ⟨i, (nd 0).col⟩
    let st ← x.1.1.setId i j id
    some ((st, x.1.2), x.2.setId i j (x.2.newId i (nd 0).col))
  else if delR bdd zdd nd then some x
  else
    let id ← x.1.1.look ⟨i, j⟩
    if id.col < x.1.2.length then some ((x.1.1, x.1.2.set id.col (some nd)), x.2.setOut ⟨i, id.col⟩ (x.2.input ⟨i, j⟩)) else none

/-- `algorithmR(i)` (225-332) -/
def algorithmR (bdd zdd : Bool) (nr top : Nat) (lower : Nat → List Nat) (x : RSt 2 × Bits 2) (i : Nat) :
    Option (RSt 2 × Bits 2) := do
  let m := (x.1.input i).length
  let st := { x.1 with newId := upd x.1.newId i (List.replicate m none) }
  let y ← (List.range m).reverse.foldlM (loop1 bdd zdd nr i m) (st, x.2)
  let st := { y.1 with newId := clearIds (lower i) y.1.newId }
  let z ← (List.range m).foldlM (loop2 nr i m) ((st, 0), y.2)
  let st := if bdd then z.1.1 else { z.1.1 with input := clearRows (lower i) z.1.1.input }
  let w ← (List.range m).foldlM (loop3 bdd zdd nr i m) ((st, List.replicate z.1.2 none), z.2)
  let row ← fullRow w.1.2
  let st' ← rootUpdate top i { w.1.1 with output := upd w.1.1.output i row }
  some (st', w.2.rootUpdate top i w.1.1.root.col)

/-! ### The whole reduction -/

/-- Constructor of `DdReducer` (87-127): the bits of the terminals in `newIdTable` are not set; those of `input` are what they are. -/
def start (inp : NodeId → Fin N → Bool) (root : Bool) : Bits N :=
  { newId := fun _ _ => false, input := fun f => if f.row = 0 then fun _ => false else inp f, output := fun _ _ => false, root := root }

/-- `DdStructure<2>::reduce<BDD,ZDD>()` (`DdStructure.hpp` 389-409), sequential, for a structure whose ids have the given bits -/
def reduce2 (bdd zdd : Bool) (D : Dd 2) (inp : NodeId → Fin 2 → Bool) (root : Bool) : Option (Dd 2 × Bits 2) := do
  let nr := D.table.numRows
  let st := reduceInit D
  let _ ← makeIndex (nr - 1) st.input
  if D.root.row = 0 then some (reduceResult D st, start inp root)
  else
    let x ← makeReady bdd zdd nr (st.input, start inp root)
    let idx ← makeIndex (nr - 1) x.1
    let y ← (levelsUp D.root.row).foldlM (algorithmR bdd zdd nr D.root.row idx.2) ({ st with input := x.1 }, x.2)
    some (reduceResult D y.1, y.2)

/-- `DdStructure<ARITY>::reduce<BDD,ZDD>()` (`DdStructure.hpp` 389-409) for `ARITY ≠ 2`, sequential -/
def reduceN (bdd zdd : Bool) (D : Dd (N + 1)) (inp : NodeId → Fin (N + 1) → Bool) (root : Bool) : Option (Dd (N + 1) × Bits (N + 1)) := do
  let nr := D.table.numRows
  let st := reduceInit D
  let idx ← makeIndex (nr - 1) st.input
  let y ← (levelsUp D.root.row).foldlM (reduceLevel bdd zdd nr D.root.row idx.2) (st, start inp root)
  some (reduceResult D y.1, y.2)

/-! ### Readers of the bit -/

/-- The loop of `getZeroDescendant` (`NodeTable.hpp` 233-235); it runs at most `f.row` times in a table whose branches
go down. Reading outside of the table is undefined behaviour (`none`). -/
def zeroDescendant (T : Table (N + 1)) (stop : Nat) : Nat → NodeId → Option NodeId
  | 0, f => if stop < f.row then none else some f
  | fuel + 1, f => if stop < f.row then (T.node? f).bind fun nd => zeroDescendant T stop fuel (nd 0) else some f

/-- `getZeroDescendant(f, stopLevel)` (`NodeTable.hpp` 230-237) -/
def getZeroDescendant (T : Table (N + 1)) (f : NodeId) (a : Bool) (stop : Nat) : Option NodeId :=
  if stop = 0 ∧ hasEmpty f a = true then some .one else zeroDescendant T stop f.row f

/-- `operator<<` of `NodeId` (`Node.hpp` 131-135) -/
def show' (f : NodeId) (a : Bool) : String := toString f.row ++ ":" ++ toString f.col ++ (if a then "+" else "")

/-- A line of `NodeTableEntity::dumpDot` (`NodeTable.hpp` 351-382): the bit of an edge is drawn as a dot at its tail; line 364 removes it before the id is printed,
and line 360 prints `$` for the 1-terminal. -/
def lineText (out : NodeId → Fin N → Bool) : Dot.TLine N → String
  | .edge f b g => "  \"" ++ show' f false ++ "\" -> \"" ++ ((g.map fun g => show' g false).getD "$") ++ "\" [style=" ++ Dot.style N b ++
      (if out f b then ",arrowtail=dot" else "") ++ "];\n"
  | l => l.text

/-- `NodeTableEntity::dumpDot` (`NodeTable.hpp` 331-398) with the bits -/
def dumpText (T : Table N) (out : NodeId → Fin N → Bool) (title : String) : String := String.join ((Dot.tdump T title).map (lineText out))

/-- `DdStructure::reduce` (`DdStructure.hpp` 389-409, without `useMP`) with the bits: the reducer of arity 2 is the specialisation `DdReducer<2, …>` -/
def reduce (bdd zdd : Bool) {N : Nat} (D : Dd (N + 1)) (inp : NodeId → Fin (N + 1) → Bool) (root : Bool) : Option (Dd (N + 1) × Bits (N + 1)) :=
  match N, D, inp with
  | 1, D, inp => reduce2 bdd zdd D inp root
  | _, D, inp => reduceN bdd zdd D inp root

end Attr

end TdZdd
