import Verif.Attr
import Verif.ReducerMP

/-!
# Model of the attribute bit in the parallel reducer (`DdReducer::reduceMP_`, `DdReducer.hpp` 405-561)

The model of `ReducerMP.lean` with the bits of `Attr.lean` beside the ids. The elements of the task lists are copies of nodes of `input` (447); the
bits of the copies are not kept, line 493 takes them from the node of `input`, which nobody writes between the copy and that line.
-/

namespace TdZdd

namespace Attr

variable {N : Nat}

/-- First loop, thread `y`, column `j` (425-449). -/
def mpScan (bdd zdd : Bool) (nr i tasks : Nat) (x : MpSt N × Bits (N + 1)) (e : Nat × Nat) : Option (MpSt N × Bits (N + 1)) := do
  let nd ← nodeAt nr x.1.st.input ⟨i, e.2⟩
  let c ← mapNode x.1.st.look nd
  let T ← TdZdd.setNode nr x.1.st.input ⟨i, e.2⟩ c
  let st := { x.1.st with input := T }
  let s := x.2.setNode ⟨i, e.2⟩ fun b => x.2.newId (nd b).row (nd b).col
  if delN bdd zdd c then
    let st ← st.setId i e.2 (c 0)
    some ({ x.1 with st := st }, s.setId i e.2 (s.input ⟨i, e.2⟩ 0))
  else if tasks = 0 then none
  else
    let y := nodeHash (e.2, c) % tasks
    some ({ x.1 with st := st, matrix := upd x.1.matrix e.1 (upd (x.1.matrix e.1) y ((e.2, c) :: x.1.matrix e.1 y)) }, s)

/-- One element of the task lists (484-499); the bit of a new id is `hasEmpty()` of branch 0 (490-493). -/
def mpEntry (i x : Nat) (a : TaskSt N × Bits (N + 1)) (e : Nat × Node (N + 1)) : Option (TaskSt N × Bits (N + 1)) := do
  let (u, k) ← HT.add nodeHash nodeEq a.1.uniq e
  let e' ← u.mem k
  if e'.1 = e.1 then
    if i + x < 2 ^ 20 then
      let st ← a.1.st.setId i e.1 ⟨i + x, a.1.j⟩
      some ({ st := st, uniq := u, j := a.1.j + 1 }, a.2.setId i e.1 (hasEmpty (e.2 0) (a.2.input ⟨i, e.1⟩ 0)))
    else none
  else
    let id ← a.1.st.look ⟨i, e'.1⟩
    let st ← a.1.st.setId i e.1 id
    some ({ st := st, uniq := u, j := a.1.j }, a.2.setId i e.1 (a.2.newId i e'.1))

/-- Second loop, thread `y`, task `x` (468-503). -/
def mpTask (i threads : Nat) (a : MpSt N × Bits (N + 1)) (e : Nat × Nat) : Option (MpSt N × Bits (N + 1)) := do
  let l := taskList threads a.1.matrix e.2
  if l.length = 0 then some ({ a.1 with base := upd a.1.base (e.2 + 1) 0 }, a.2)
  else
    let u ← HT.init (l.length * 2) (a.1.uniq e.1)
    let r ← l.foldlM (mpEntry i e.2) ({ st := a.1.st, uniq := u, j := 0 }, a.2)
    some ({ a.1 with st := r.1.st, uniq := upd a.1.uniq e.1 r.1.uniq, base := upd a.1.base (e.2 + 1) r.1.j }, r.2)

/-- Third loop, column `j` (537-545); the final id has the bit of the temporary one (542). -/
def mpCopy (nr i tasks : Nat) (base : Nat → Nat) (a : (RSt (N + 1) × List (Option (Node (N + 1)))) × Bits (N + 1)) (j : Nat) :
    Option ((RSt (N + 1) × List (Option (Node (N + 1)))) × Bits (N + 1)) := do
  let ff ← a.1.1.look ⟨i, j⟩
  if i ≤ ff.row then
    if ff.row - i ≤ tasks then
      let col := ff.col + base (ff.row - i)
      let st ← a.1.1.setId i j ⟨i, col⟩
      let nd ← nodeAt nr st.input ⟨i, j⟩
      if col < a.1.2.length then some ((st, a.1.2.set col (some nd)), (a.2.setId i j (a.2.newId i j)).setOut ⟨i, col⟩ (a.2.input ⟨i, j⟩)) else none
    else none
  else some a

/-- `reduceMP_(i)` (405-561) -/
def mpLevel (bdd zdd : Bool) (threads tasks nr top : Nat) (lower : Nat → List Nat) (sched : Nat → MpSched)
    (a : (RSt (N + 1) × (Nat → Nat)) × Bits (N + 1)) (i : Nat) : Option ((RSt (N + 1) × (Nat → Nat)) × Bits (N + 1)) := do
  let m := (a.1.1.input i).length
  let st := { a.1.1 with newId := upd a.1.1.newId i (List.replicate m none) }
  let x ← (sched i).p1.foldlM (mpScan bdd zdd nr i tasks)
    ({ st := st, matrix := fun _ _ => [], uniq := fun _ => HT.empty, base := a.1.2 }, a.2)
  let s := { x.1 with st := { x.1.st with newId := clearIds (lower i) x.1.st.newId } }
  let y ← (sched i).p2.foldlM (mpTask i threads) (s, x.2)
  let base := mpSums tasks y.1.base
  let z ← (sched i).p3.foldlM (mpCopy nr i tasks base) ((y.1.st, List.replicate (base tasks) none), y.2)
  let row ← fullRow z.1.2
  let st ← rootUpdate top i { z.1.1 with input := upd z.1.1.input i [], output := upd z.1.1.output i row }
  some ((st, base), z.2.rootUpdate top i z.1.1.root.col)

/-- `DdStructure<ARITY>::reduce<BDD,ZDD>()` (`DdStructure.hpp` 389-409) with `useMP`, for a structure whose ids have the given bits -/
def reduceMP (bdd zdd : Bool) (threads tasks : Nat) (E : Nat → List NodeId) (sched : Nat → MpSched)
    (D : Dd (N + 1)) (inp : NodeId → Fin (N + 1) → Bool) (root : Bool) : Option (Dd (N + 1) × Bits (N + 1)) := do
  let nr := D.table.numRows
  let st := reduceInit D
  let idx ← makeIndexOrd (nr - 1) E
  let r ← (levelsUp D.root.row).foldlM (mpLevel bdd zdd threads tasks nr D.root.row idx.2 sched) ((st, fun _ => 0), start inp root)
  some (reduceResult D r.1.1, r.2)

end Attr

end TdZdd
