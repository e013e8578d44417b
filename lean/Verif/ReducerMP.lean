import Verif.Reducer

/-!
# Model of the parallel reducer (`DdReducer::reduceMP_`, `DdReducer.hpp` 405-561)

One parallel region per level with three work-shared loops separated by barriers. A schedule says which thread runs
which iteration and in which order the iterations take effect: for the first and the third loop any assignment of
columns to threads and any interleaving (the code uses `schedule(static)`, which is one of them), for the second loop
any assignment and order of tasks (`schedule(dynamic)`).

Simplifications. An iteration takes effect at once: iterations of the same loop that run on different threads
write to different entries (own column, own task lists, own hash table, own `baseColumn` entry) and read nothing that
another iteration of the loop writes. The exception is the copy in the third loop, where equal nodes are
copied to the same output entry by several threads; the values are equal, but by the letter of the C++ standard this is a
data race. Entries of the unique table are pointers to list elements, modelled as column and contents.
`none` is undefined behaviour, including a row number beyond the 20 bits of `NodeId` (`Node.hpp` 56-60).
-/

namespace TdZdd

variable {N : Nat}

/-- The schedule of one level. -/
structure MpSched where
  /-- (thread, column) in the order of execution of the first loop -/
  p1 : List (Nat × Nat)
  /-- (thread, task) in the order of execution of the second loop -/
  p2 : List (Nat × Nat)
  /-- columns in the order of execution of the third loop -/
  p3 : List Nat

/-- Every iteration of each loop is executed exactly once, by an existing thread. -/
structure MpSched.Ok (s : MpSched) (threads tasks m : Nat) : Prop where
  cols1 : (s.p1.map (·.2)).Perm (List.range m)
  thr1 : ∀ e ∈ s.p1, e.1 < threads
  tasks2 : (s.p2.map (·.2)).Perm (List.range tasks)
  cols3 : s.p3.Perm (List.range m)

/-- Shared state: `taskMatrix[y][x]`, the hash tables of the threads, `baseColumn`. -/
structure MpSt (N : Nat) where
  st : RSt (N + 1)
  matrix : Nat → Nat → List (Nat × Node (N + 1))
  uniq : Nat → HT (Nat × Node (N + 1))
  base : Nat → Nat

/-- First loop, thread `y`, column `j` (425-449). -/
def mpScan (bdd zdd : Bool) (nr i tasks : Nat) (a : MpSt N) (e : Nat × Nat) : Option (MpSt N) := do
  let nd ← nodeAt nr a.st.input ⟨i, e.2⟩
  let c ← mapNode a.st.look nd
  let T ← setNode nr a.st.input ⟨i, e.2⟩ c
  let st := { a.st with input := T }
  if delN bdd zdd c then
    let st ← st.setId i e.2 (c 0)
    some { a with st := st }
  else if tasks = 0 then none
  else
    let x := nodeHash (e.2, c) % tasks
    some { a with st := st, matrix := upd a.matrix e.1 (upd (a.matrix e.1) x ((e.2, c) :: a.matrix e.1 x)) }

/-- Local variables of a task: `newIdTable`, `uniq`, `j`. -/
structure TaskSt (N : Nat) where
  st : RSt (N + 1)
  uniq : HT (Nat × Node (N + 1))
  j : Nat

/-- One element of the task lists (484-499). -/
def mpEntry (i x : Nat) (a : TaskSt N) (e : Nat × Node (N + 1)) : Option (TaskSt N) := do
  let (u, k) ← HT.add nodeHash nodeEq a.uniq e
  let e' ← u.mem k
  if e'.1 = e.1 then
    if i + x < 2 ^ 20 then
      let st ← a.st.setId i e.1 ⟨i + x, a.j⟩
      some { st := st, uniq := u, j := a.j + 1 }
    else none
  else
    let id ← a.st.look ⟨i, e'.1⟩
    let st ← a.st.setId i e.1 id
    some { st := st, uniq := u, j := a.j }

/-- All elements of task `x`: the lists of the threads one after the other (481-500). -/
def taskList (threads : Nat) (matrix : Nat → Nat → List (Nat × Node (N + 1))) (x : Nat) : List (Nat × Node (N + 1)) :=
  (List.range threads).flatMap fun y => matrix y x

/-- Second loop, thread `y`, task `x` (468-503). -/
def mpTask (i threads : Nat) (a : MpSt N) (e : Nat × Nat) : Option (MpSt N) := do
  let l := taskList threads a.matrix e.2
  if l.length = 0 then some { a with base := upd a.base (e.2 + 1) 0 }
  else
    let u ← HT.init (l.length * 2) (a.uniq e.1)
    let r ← l.foldlM (mpEntry i e.2) { st := a.st, uniq := u, j := 0 }
    some { a with st := r.st, uniq := upd a.uniq e.1 r.uniq, base := upd a.base (e.2 + 1) r.j }

/-- Prefix sums of `baseColumn` (515-517). -/
def mpSums (tasks : Nat) (base : Nat → Nat) : Nat → Nat :=
  (List.range (tasks - 1)).foldl (fun b x => upd b (x + 2) (b (x + 2) + b (x + 1))) base

/-- Third loop, column `j` (537-545). -/
def mpCopy (nr i tasks : Nat) (base : Nat → Nat) (a : RSt (N + 1) × List (Option (Node (N + 1)))) (j : Nat) :
    Option (RSt (N + 1) × List (Option (Node (N + 1)))) := do
  let ff ← a.1.look ⟨i, j⟩
  if i ≤ ff.row then
    if ff.row - i ≤ tasks then
      let col := ff.col + base (ff.row - i)
      let st ← a.1.setId i j ⟨i, col⟩
      let nd ← nodeAt nr st.input ⟨i, j⟩
      if col < a.2.length then some (st, a.2.set col (some nd)) else none
    else none
  else some a

/-- `reduceMP_(i)` (405-561); `baseColumn` and the hash tables start as left by the previous level, except that the
hash tables are local to the parallel region. -/
def mpLevel (bdd zdd : Bool) (threads tasks nr top : Nat) (lower : Nat → List Nat) (sched : Nat → MpSched)
    (a : RSt (N + 1) × (Nat → Nat)) (i : Nat) : Option (RSt (N + 1) × (Nat → Nat)) := do
  let m := (a.1.input i).length
  let st := { a.1 with newId := upd a.1.newId i (List.replicate m none) }
  let s ← (sched i).p1.foldlM (mpScan bdd zdd nr i tasks)
    { st := st, matrix := fun _ _ => [], uniq := fun _ => HT.empty, base := a.2 }
  let s := { s with st := { s.st with newId := clearIds (lower i) s.st.newId } }
  let s ← (sched i).p2.foldlM (mpTask i threads) s
  let base := mpSums tasks s.base
  let (st, row) ← (sched i).p3.foldlM (mpCopy nr i tasks base) (s.st, List.replicate (base tasks) none)
  let row ← fullRow row
  let st ← rootUpdate top i { st with input := upd st.input i [], output := upd st.output i row }
  some (st, base)

/-- `DdStructure<ARITY>::reduce<BDD,ZDD>()` (`DdStructure.hpp` 389-409) with `useMP`; `E i` is the order in which
`makeIndex(true)` visits the edges of row `i`. -/
def Dd.reduceMP (bdd zdd : Bool) (threads tasks : Nat) (E : Nat → List NodeId) (sched : Nat → MpSched)
    (D : Dd (N + 1)) : Option (Dd (N + 1)) := do
  let nr := D.table.numRows
  let st := reduceInit D
  let idx ← makeIndexOrd (nr - 1) E
  let r ← (levelsUp D.root.row).foldlM (mpLevel bdd zdd threads tasks nr D.root.row idx.2 sched) (st, fun _ => 0)
  some (reduceResult D r.1)

end TdZdd
