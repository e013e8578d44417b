import Verif.Conc
import Verif.ReducerMP

/-!
# The parallel reducer at single memory accesses

`DdReducer::reduceMP_` (`DdReducer.hpp` 405-561) once more. Here the iterations of the three work-shared loops are not atomic: every thread runs a program of
single reads and writes (`Conc.lean`), and the accesses of the threads interleave arbitrarily between the barriers at the ends of the loops and of the `single` sections.
Locations are the nodes of row `i` of the input, the entries of `newIdTable`, the lists `taskMatrix[y][x]`, the entries of `baseColumn` and the
nodes of row `i` of the output. The local variables of a thread, in particular its hash table `uniq` with pointers to list elements, are in its program.

Simplifications. Branches of one node are one location. A list is read at once, where the code reads its size and later its elements. What a thread has just written to
a location is not always read again, where the code goes through a reference. The `single` sections and the code behind the parallel region are as in `ReducerMP.lean`.
-/

namespace TdZdd

namespace Fine

open Conc

variable {N : Nat}

/-- shared locations; `inp` and `out` are in row `i` -/
inductive Loc where
  | inp (j : Nat)
  | nid (r j : Nat)
  | mat (y x : Nat)
  | base (x : Nat)
  | out (j : Nat)

/-- their contents -/
inductive Val (N : Nat) where
  | node (nd : Node (N + 1))
  | id (f : NodeId)
  | list (l : List (Nat × Node (N + 1)))
  | num (n : Nat)

/-- the shared memory and the row of the output -/
abbrev FMem (N : Nat) := MpSt N × List (Option (Node (N + 1)))

/-- value of a location; the output is not read -/
def get (nr i : Nat) (m : FMem N) : Loc → Option (Val N)
  | .inp j => (nodeAt nr m.1.st.input ⟨i, j⟩).map .node
  | .nid r j => (m.1.st.look ⟨r, j⟩).map .id
  | .mat y x => some (.list (m.1.matrix y x))
  | .base x => some (.num (m.1.base x))
  | .out _ => none

/-- the location exists -/
def can (nr i tasks : Nat) (m : FMem N) : Loc → Bool
  | .inp j => decide (i < nr) && decide (j < (m.1.st.input i).length)
  | .nid r j => decide (j < (m.1.st.newId r).length)
  | .mat _ _ => true
  | .base x => decide (x ≤ tasks)
  | .out j => decide (j < m.2.length)

/-- overwrite a location -/
def put (i : Nat) (m : FMem N) : Loc → Val N → FMem N
  | .inp j, .node nd => ({ m.1 with st := { m.1.st with input := upd m.1.st.input i ((m.1.st.input i).set j nd) } }, m.2)
  | .nid r j, .id f => ({ m.1 with st := { m.1.st with newId := upd m.1.st.newId r ((m.1.st.newId r).set j (some f)) } }, m.2)
  | .mat y x, .list l => ({ m.1 with matrix := upd m.1.matrix y (upd (m.1.matrix y) x l) }, m.2)
  | .base x, .num n => ({ m.1 with base := upd m.1.base x n }, m.2)
  | .out j, .node nd => (m.1, m.2.set j (some nd))
  | _, _ => m

def mem (nr i tasks : Nat) : Mem (FMem N) Loc (Val N) := ⟨get nr i, can nr i tasks, put i⟩

/-- the programs of the threads -/
abbrev P (N : Nat) := Prog Loc (Val N)

/-- read a node, an id, a list, a number -/
def rdNode (l : Loc) (k : Node (N + 1) → P N) : P N := .rd l fun | .node nd => k nd | _ => .ub
def rdId (l : Loc) (k : NodeId → P N) : P N := .rd l fun | .id f => k f | _ => .ub
def rdList (l : Loc) (k : List (Nat × Node (N + 1)) → P N) : P N := .rd l fun | .list v => k v | _ => .ub
def rdNum (l : Loc) (k : Nat → P N) : P N := .rd l fun | .num n => k n | _ => .ub

/-- the branches of node `j` are replaced by their new ids (429-436) -/
def branches (j : Nat) : List (Fin (N + 1)) → P N → P N
  | [], k => k
  | b :: bs, k => rdNode (.inp j) fun nd => rdId (.nid (nd b).row (nd b).col) fun f => .wr (.inp j) (.node fun b' => if b' = b then f else nd b') (branches j bs k)

/-- First loop, thread `y`, column `j` (425-449). -/
def scan (bdd zdd : Bool) (i tasks y j : Nat) (k : P N) : P N :=
  branches j (List.finRange (N + 1)) <| rdNode (.inp j) fun c =>
    if delN bdd zdd c then .wr (.nid i j) (.id (c 0)) k
    else if tasks = 0 then .ub
    else rdList (.mat y (nodeHash (j, c) % tasks)) fun l => .wr (.mat y (nodeHash (j, c) % tasks)) (.list ((j, c) :: l)) k

/-- all columns of a thread -/
def scans (bdd zdd : Bool) (i tasks y : Nat) (js : List Nat) : P N := js.foldr (scan bdd zdd i tasks y) .ret

/-- elements of task `x`, with the local variables `uniq` and `j` (484-499) -/
def entries (i x : Nat) : List (Nat × Node (N + 1)) → HT (Nat × Node (N + 1)) → Nat → (HT (Nat × Node (N + 1)) → Nat → P N) → P N
  | [], u, j, k => k u j
  | e :: es, u, j, k =>
    match HT.add nodeHash nodeEq u e with
    | none => .ub
    | some (u', z) =>
      match u'.mem z with
      | none => .ub
      | some e' =>
        if e'.1 = e.1 then
          if i + x < 2 ^ 20 then .wr (.nid i e.1) (.id ⟨i + x, j⟩) (entries i x es u' (j + 1) k) else .ub
        else rdId (.nid i e'.1) fun f => .wr (.nid i e.1) (.id f) (entries i x es u' j k)

/-- the lists of task `x` (469-471, 481-482) -/
def lists (x : Nat) : List Nat → List (Nat × Node (N + 1)) → (List (Nat × Node (N + 1)) → P N) → P N
  | [], l, k => k l
  | y :: ys, l, k => rdList (.mat y x) fun v => lists x ys (l ++ v) k

/-- Second loop, task `x` (468-503) -/
def task (i threads x : Nat) (u : HT (Nat × Node (N + 1))) (k : HT (Nat × Node (N + 1)) → P N) : P N :=
  lists x (List.range threads) [] fun l =>
    if l.length = 0 then .wr (.base (x + 1)) (.num 0) (k u)
    else
      match HT.init (l.length * 2) u with
      | none => .ub
      | some u => entries i x l u 0 fun u j => .wr (.base (x + 1)) (.num j) (k u)

/-- all tasks of a thread -/
def tasksOf (i threads : Nat) : List Nat → HT (Nat × Node (N + 1)) → P N
  | [], _ => .ret
  | x :: xs, u => task i threads x u (tasksOf i threads xs)

/-- Third loop, column `j` (537-545). -/
def copy (i tasks j : Nat) (k : P N) : P N :=
  rdId (.nid i j) fun f =>
    if i ≤ f.row then
      if f.row - i ≤ tasks then
        rdNum (.base (f.row - i)) fun b => .wr (.nid i j) (.id ⟨i, f.col + b⟩) <| rdNode (.inp j) fun nd => .wr (.out (f.col + b)) (.node nd) k
      else .ub
    else k

/-- all columns of a thread -/
def copies (i tasks : Nat) (js : List Nat) : P N := js.foldr (copy i tasks) .ret

/-- The schedule of one level: which thread runs which iterations of the three loops, in which order, and how the accesses interleave. -/
structure Sched where
  c1 : Nat → List Nat
  c2 : Nat → List Nat
  c3 : Nat → List Nat
  w1 : List Nat
  w2 : List Nat
  w3 : List Nat

/-- every iteration is executed exactly once -/
structure Sched.Ok (s : Sched) (threads tasks m : Nat) : Prop where
  cols1 : ((List.range threads).flatMap s.c1).Perm (List.range m)
  tasks2 : ((List.range threads).flatMap s.c2).Perm (List.range tasks)
  cols3 : ((List.range threads).flatMap s.c3).Perm (List.range m)

/-- the memory before the first loop (412-413, 421-422); the lists are empty since each thread clears its own ones (505-507) before the level ends -/
def start (a : RSt (N + 1) × (Nat → Nat)) (i : Nat) : FMem N :=
  ({ st := { a.1 with newId := upd a.1.newId i (List.replicate (a.1.input i).length none) }, matrix := fun _ _ => [], uniq := fun _ => HT.empty, base := a.2 }, [])

/-- the memory before the second loop: the ids of the rows in `lower` are cleared (457-460) -/
def clear (lower : List Nat) (s : FMem N) : FMem N := ({ s.1 with st := { s.1.st with newId := clearIds lower s.1.st.newId } }, [])

/-- the memory before the third loop: prefix sums, row of the output (515-517, 529) -/
def sums (tasks : Nat) (s : FMem N) : FMem N := ({ s.1 with base := mpSums tasks s.1.base }, List.replicate (mpSums tasks s.1.base tasks) none)

/-- the programs of the threads in the three loops; the hash tables `u` are those of the threads -/
def prog1 (bdd zdd : Bool) (i tasks : Nat) (s : Sched) (y : Nat) : P N := scans bdd zdd i tasks y (s.c1 y)
def prog2 (i threads : Nat) (s : Sched) (u : Nat → HT (Nat × Node (N + 1))) (y : Nat) : P N := tasksOf i threads (s.c2 y) (u y)
def prog3 (i tasks : Nat) (s : Sched) (y : Nat) : P N := copies i tasks (s.c3 y)

/-- `reduceMP_(i)` (405-561) -/
def level (bdd zdd : Bool) (threads tasks nr top : Nat) (lower : Nat → List Nat) (sched : Nat → Sched)
    (a : RSt (N + 1) × (Nat → Nat)) (i : Nat) : Option (RSt (N + 1) × (Nat → Nat)) := do
  let s1 ← par (mem nr i tasks) threads (sched i).w1 (prog1 bdd zdd i tasks (sched i)) (start a i)
  let s2 ← par (mem nr i tasks) threads (sched i).w2 (prog2 i threads (sched i) (clear (lower i) s1).1.uniq) (clear (lower i) s1)
  let s3 ← par (mem nr i tasks) threads (sched i).w3 (prog3 i tasks (sched i)) (sums tasks s2)
  let row ← fullRow s3.2
  let st ← rootUpdate top i { s3.1.st with input := upd s3.1.st.input i [], output := upd s3.1.st.output i row }
  some (st, s3.1.base)

/-- `DdStructure<ARITY>::reduce<BDD,ZDD>()` (`DdStructure.hpp` 389-409) with `useMP` -/
def reduce (bdd zdd : Bool) (threads tasks : Nat) (E : Nat → List NodeId) (sched : Nat → Sched) (D : Dd (N + 1)) : Option (Dd (N + 1)) := do
  let nr := D.table.numRows
  let st := reduceInit D
  let idx ← makeIndexOrd (nr - 1) E
  let r ← (levelsUp D.root.row).foldlM (level bdd zdd threads tasks nr D.root.row idx.2 sched) (st, fun _ => 0)
  some (reduceResult D r.1)

/-- conflicting accesses are writes of the same node to the same place of the output -/
def OnlyOut (T : Nat) (P : Nat → Fine.P N) : Prop :=
  ∀ y y' e e', y < T → y' < T → y ≠ y' → (P y).next = some e → (P y').next = some e' → e.Free e' ∨ ∃ p v, e = .wr (.out p) v ∧ e' = .wr (.out p) v

end Fine

end TdZdd
