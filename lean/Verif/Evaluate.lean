import Verif.Reducer

/-!
# Model of `DdStructure::evaluate` (`DdStructure.hpp` 455-551, `DdEval.hpp`)

One model for the sequential and the OpenMP variant: `eval` is object 0, `evals[k]` is object `k + 1`; a schedule lists,
for each level, which object evaluates which column, in the order of execution. The sequential code is
the schedule `seqSched`. Messages are left out. The value slots of a level are write-once: reading an unwritten
slot, a cleared row or an index out of bounds is `none`. Iterations of the parallel loop write different slots
and use the object of their own thread, so they are taken to be atomic; `EvaluateFine.lean` interleaves single accesses.
-/

namespace TdZdd

variable {N : Nat} {σ T R : Type}

/-- The interface `DdEval<E,T,R>` (`DdEval.hpp` 84-150). An object has state `σ`; `none` is undefined behaviour inside
the callback. -/
structure Evaluator (N : Nat) (σ T R : Type) where
  /-- a copy of the evaluator after `initialize(n)` -/
  start : Nat → σ
  /-- `evalTerminal(v, id)` -/
  term : σ → Nat → Option (σ × T)
  /-- `evalNode(v, level, values)` with `values.get(b)` and `values.getLevel(b)` -/
  node : σ → Nat → (Fin N → T × Nat) → Option (σ × T)
  /-- `destructLevel(i)` -/
  clean : σ → Nat → σ
  /-- `getValue(v)` -/
  value : σ → T → Option R

/-- An evaluator without state and failure. -/
def Evaluator.pure (tv : Nat → T) (nv : Nat → (Fin N → T × Nat) → T) (g : T → R) : Evaluator N Unit T R where
  start _ := ()
  term _ j := some ((), tv j)
  node _ i vals := some ((), nv i vals)
  clean _ _ := ()
  value _ t := some (g t)

/-- Objects and the `work` table. -/
structure EvSt (σ T : Type) where
  obj : Nat → σ
  work : Nat → List (Option T)

/-- `work[f.row()][f.col()]`. -/
def EvSt.look (a : EvSt σ T) (f : NodeId) : Option T := ((a.work f.row)[f.col]?).join

/-- `work[i][j] = v`, by object `k` which is then in state `s`. -/
def EvSt.put (a : EvSt σ T) (k i j : Nat) (r : σ × T) : Option (EvSt σ T) :=
  if j < (a.work i).length then some ⟨upd a.obj k r.1, upd a.work i ((a.work i).set j (some r.2))⟩ else none

/-- The terminals (487-494). -/
def evTerm (ev : Evaluator N σ T R) (a : EvSt σ T) (j : Nat) : Option (EvSt σ T) :=
  (ev.term (a.obj 0) j).bind (a.put 0 0 j)

/-- All elements of a finite family, if they exist. -/
def allSome' {α : Type} (f : Fin N → Option α) : Option (Fin N → α) :=
  if h : ∀ b, (f b).isSome then some fun b => (f b).get (h b) else none

/-- One node (508-516, 520-528). -/
def evNode (ev : Evaluator N σ T R) (row : List (Node N)) (i : Nat) (a : EvSt σ T) (e : Nat × Nat) :
    Option (EvSt σ T) :=
  (row[e.2]?).bind fun nd =>
  (allSome' fun b => (a.look (nd b)).map fun t => (t, (nd b).row)).bind fun vals =>
  (ev.node (a.obj e.1) i vals).bind (a.put e.1 i e.2)

/-- One level (496-546). -/
def evLevel (ev : Evaluator N σ T R) (D : Dd N) (lower : Nat → List Nat) (sched : Nat → List (Nat × Nat))
    (a : EvSt σ T) (i : Nat) : Option (EvSt σ T) :=
  ((sched i).foldlM (evNode ev (D.table.row i) i)
    { a with work := upd a.work i (List.replicate (D.table.row i).length none) }).map fun a =>
    { obj := fun k => (lower i).foldl ev.clean (a.obj k),
      work := (lower i).foldl (fun w r => upd w r []) a.work }

/-- The objects and the value of the root (455-548). -/
def evalWork (ev : Evaluator N σ T R) (D : Dd N) (sched : Nat → List (Nat × Nat)) : Option (σ × T) := do
  if D.table.numRows ≤ D.root.row then none else
  let m := (D.table.row 0).length
  let a ← (List.range m).foldlM (evTerm ev)
    { obj := fun _ => ev.start D.root.row, work := fun r => if r = 0 then List.replicate m none else [] }
  let idx ← makeIndex (D.table.numRows - 1) D.table.row
  let a ← (levelsUp D.root.row).foldlM (evLevel ev D idx.2 sched) a
  let t ← a.look D.root
  some (a.obj 0, t)

/-- `evaluate(evaluator)` (455-551). -/
def Dd.evaluate (D : Dd N) (ev : Evaluator N σ T R) (sched : Nat → List (Nat × Nat)) : Option R :=
  (evalWork ev D sched).bind fun r => ev.value r.1 r.2

/-- The sequential schedule. -/
def seqSched (D : Dd N) (i : Nat) : List (Nat × Nat) := (List.range (D.table.row i).length).map fun j => (0, j)

end TdZdd
