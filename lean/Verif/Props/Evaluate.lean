import Verif.EvaluateProofs
import Verif.SampleDds
import Verif.Props.Builder

/-!
# Property C29: `evaluate`

`FoldVal tab tv nv f v`: the recursion with terminal values `tv` and node function `nv` (level, values and
levels of the children) has value `v` at node `f`. `EvSched D sched` says that every column of every level is
evaluated exactly once, in any order, by any object (so it covers the sequential and the OpenMP code).
-/

namespace TdZdd

variable {N : Nat} {σ T R V : Type}

/-- C29: `evaluate` computes the bottom-up recursion; in particular no value is read after its level has been
released. -/
theorem C29_evaluate (D : Dd N) (hw : D.Wf) (h0 : D.table.row 0 = terminalRow N) (hn : 0 < D.table.numRows)
    (tv : Nat → T) (nv : Nat → (Fin N → T × Nat) → T) (g : T → R) (sched : Nat → List (Nat × Nat))
    (hs : EvSched D sched) :
    ∃ v, D.evaluate (Evaluator.pure tv nv g) sched = some (g v) ∧ FoldVal D.table tv nv D.root v ∧
      ∀ v', FoldVal D.table tv nv D.root v' → v' = v := by
  obtain ⟨s, t, v, e, _, h1, h2⟩ := evalWork_spec (Evaluator.pure_sim tv nv g D.root.row) hw h0 hn hs
  refine ⟨v, ?_, h2, fun v' h => h.unique h2⟩
  unfold Dd.evaluate
  rw [e, h1]
  rfl

/-- C29, evaluators with state and partial operations: if the callbacks work on representations of the values of a
recursion, keeping an invariant `P` of the object, then `evaluate` calls them only within their preconditions and ends
with a representation of the value at the root. -/
theorem C29_evaluate_state (D : Dd N) (hw : D.Wf) (h0 : D.table.row 0 = terminalRow N) (hn : 0 < D.table.numRows)
    {ev : Evaluator N σ T R} {P : σ → Prop} {Rep : Nat → T → V → Prop} {tv : Nat → V}
    {nv : Nat → (Fin N → V × Nat) → V} (hev : ev.Sim D.root.row P Rep tv nv) (sched : Nat → List (Nat × Nat))
    (hs : EvSched D sched) : ∃ s t v, D.evaluate ev sched = ev.value s t ∧ P s ∧ Rep D.root.row t v ∧
      FoldVal D.table tv nv D.root v := by
  obtain ⟨s, t, v, e, h1, h2, h3⟩ := evalWork_spec hev hw h0 hn hs
  refine ⟨s, t, v, ?_, h1, h2, h3⟩
  unfold Dd.evaluate
  rw [e]
  rfl

/-- a non-symmetric recursion on a structure with skipped levels, sequential and with two objects backwards -/
example : dupDd.evaluate (Evaluator.pure (R := Nat) (fun j => j + 1)
      (fun i (vs : Fin 2 → Nat × Nat) => i + 2 * (vs 0).1 + 3 * (vs 1).1 * (1 + (vs 1).2)) id) (seqSched dupDd) =
    dupDd.evaluate (Evaluator.pure (fun j => j + 1)
      (fun i (vs : Fin 2 → Nat × Nat) => i + 2 * (vs 0).1 + 3 * (vs 1).1 * (1 + (vs 1).2)) id)
      (fun i => (List.range (dupDd.table.row i).length).reverse.map fun j => (j % 2 + 1, j)) ∧
    (dupDd.evaluate (Evaluator.pure (R := Nat) (fun j => j + 1)
      (fun i (vs : Fin 2 → Nat × Nat) => i + 2 * (vs 0).1 + 3 * (vs 1).1 * (1 + (vs 1).2)) id) (seqSched dupDd)).isSome :=
  by decide +kernel

example : ∃ v, dupDd.evaluate (Evaluator.pure (fun j => j) (fun _ (vs : Fin 2 → Nat × Nat) => (vs 0).1 + (vs 1).1) id)
    (seqSched dupDd) = some v := by
  obtain ⟨v, h, _⟩ := C29_evaluate dupDd dupDd_wf rfl (by decide) (fun j => j)
    (fun _ (vs : Fin 2 → Nat × Nat) => (vs 0).1 + (vs 1).1) id _ (seqSched_ok dupDd)
  exact ⟨v, h⟩

end TdZdd
