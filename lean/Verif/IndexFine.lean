import Verif.ReducerFine

/-!
# The parallel `makeIndex` at single memory accesses

`NodeTableEntity::makeIndex(true)` (`NodeTable.hpp` 251-303): the loop over the nodes of a row is shared by threads (267-281) whose accesses of the common variables `lowest`,
`lowerMark` and `myLower` interleave arbitrarily. The critical section (273-274) is one step; the test of `lowest` before it (272) is outside. `MyVector<bool>` has one
byte for each element, so that writes to different elements do not meet. Memory is sequentially consistent.
-/

namespace TdZdd

namespace IdxFine

variable {N : Nat}

/-- what a thread does next with its present edge: test `lowest` (272), the critical section (273-274), test `lowerMark` (276), set `myLower` (277), set `lowerMark` (278) -/
inductive Pc where
  | test | crit | mark | setMy | setMark

/-- a thread: its present activity and its edges (column and branch), the present one first -/
structure Th (N : Nat) where
  pc : Pc
  rest : List (Nat × Fin N)

/-- One step of a thread in the row `row` of a table with `n + 1` rows. -/
def step (n : Nat) (row : List (Node N)) (th : Th N) (a : IdxSt) : Option (Th N × IdxSt) :=
  match th.rest with
  | [] => some (th, a)
  | e :: es =>
    (row[e.1]?).bind fun nd =>
      let r := (nd e.2).row
      if r = 0 then some (⟨.test, es⟩, a)
      else
        match th.pc with
        | .test => some (⟨if r < a.lowest then .crit else .mark, e :: es⟩, a)
        | .crit => some (⟨.mark, e :: es⟩, { a with lowest := if r < a.lowest then r else a.lowest })
        | .mark => if n < r then none else if a.mark r then some (⟨.test, es⟩, a) else some (⟨.setMy, e :: es⟩, a)
        | .setMy => some (⟨.setMark, e :: es⟩, { a with my := upd a.my r true })
        | .setMark => some (⟨.test, es⟩, { a with mark := upd a.mark r true })

/-- threads make steps in the order of the list -/
def exec (n : Nat) (row : List (Node N)) (T : Nat) : List Nat → (Nat → Th N) × IdxSt → Option ((Nat → Th N) × IdxSt)
  | [], s => some s
  | k :: w, s => if k < T then (step n row (s.1 k) s.2).bind fun r => exec n row T w (upd s.1 k r.1, r.2) else exec n row T w s

/-- the threads at the beginning of the loop; thread `y` has the columns `cols y` -/
def threads (cols : Nat → List Nat) (y : Nat) : Th N := ⟨.test, (cols y).flatMap fun j => (List.finRange N).map fun b => (j, b)⟩

/-- The loop: first the interleaving `w`, then each thread goes on to its end, which takes at most five steps for each edge. -/
def loop (n : Nat) (row : List (Node N)) (T : Nat) (cols : Nat → List Nat) (w : List Nat) (a : IdxSt) : Option IdxSt :=
  (exec n row T (w ++ (List.range T).flatMap fun y => List.replicate (5 * (threads (N := N) cols y).rest.length) y) (threads cols, a)).map fun s => s.2

/-- schedule of one row -/
structure ISched where
  cols : Nat → List Nat
  w : List Nat

/-- One level of `makeIndex` (259-302). -/
def row (n : Nat) (T : Rows N) (ths : Nat) (sched : Nat → ISched) (a : (Nat → List Nat) × (Nat → List Nat) × (Nat → Bool)) (i : Nat) : Option ((Nat → List Nat) × (Nat → List Nat) × (Nat → Bool)) :=
  (loop n (T i) ths (sched i).cols (sched i).w { lowest := i, my := fun _ => false, mark := a.2.2 }).map fun s =>
    (upd a.1 s.lowest (a.1 s.lowest ++ [i]), upd a.2.1 i (((List.range i).filter fun r => s.lowest ≤ r).filter s.my), s.mark)

/-- `makeIndex(true)` (251-303) -/
def makeIndex (n : Nat) (T : Rows N) (ths : Nat) (sched : Nat → ISched) : Option ((Nat → List Nat) × (Nat → List Nat)) :=
  ((levels n).foldlM (row n T ths sched) (fun _ => [], fun _ => [], fun _ => false)).map fun a => (a.1, a.2.1)

/-- every column is handled exactly once -/
def ISched.Ok (s : ISched) (ths m : Nat) : Prop := ((List.range ths).flatMap s.cols).Perm (List.range m)

/-- `DdStructure<ARITY>::reduce<BDD,ZDD>()` (`DdStructure.hpp` 389-409) with `useMP`, all threads interleaved at single accesses -/
def reduce (bdd zdd : Bool) (ths tasks : Nat) (isched : Nat → ISched) (sched : Nat → Fine.Sched) (D : Dd (N + 1)) : Option (Dd (N + 1)) := do
  let nr := D.table.numRows
  let st := reduceInit D
  let idx ← makeIndex (nr - 1) st.input ths isched
  let r ← (levelsUp D.root.row).foldlM (Fine.level bdd zdd ths tasks nr D.root.row idx.2 sched) (st, fun _ => 0)
  some (reduceResult D r.1)

end IdxFine

end TdZdd
