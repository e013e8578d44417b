import Verif.EvaluateFineProofs
import Verif.Props.Evaluate
import Verif.Props.ReducerFine

/-!
# Property C98: the parallel `evaluate` with interleaved memory accesses

`EvFine.evaluate D ev ths sched` models `evaluate` with `useMP`, where `ths` threads share the columns of a level in any way and their reads and writes of the values
interleave in any way. `FoldVal` is the recursion (C29).
-/

namespace TdZdd

namespace EvFine

open Conc

variable {N : Nat} {σ T R V : Type}

/-- C98: however the accesses interleave, `evaluate` computes the bottom-up recursion. -/
theorem _root_.TdZdd.C98_evaluate (D : Dd N) (hw : D.Wf) (h0 : D.table.row 0 = terminalRow N) (hn : 0 < D.table.numRows)
    (tv : Nat → T) (nv : Nat → (Fin N → T × Nat) → T) (g : T → R) (ths : Nat) (sched : Nat → ESched)
    (hs : ∀ i, 1 ≤ i → i ≤ D.root.row → (sched i).Ok ths (D.table.row i).length) :
    ∃ v, evaluate D (Evaluator.pure tv nv g) ths sched = some (g v) ∧ FoldVal D.table tv nv D.root v := by
  obtain ⟨s, t, v, e, _, h1, h2⟩ := evalWork_spec (Evaluator.pure_sim tv nv g D.root.row) hw h0 hn (sched := fun i => flat (sched i) ths) fun i h1 h2 => flat_sched (hs i h1 h2)
  refine ⟨v, ?_, h2⟩
  rw [(evaluate_spec hw hs e).1, h1]
  rfl

/-- C98, evaluators with state and partial operations, as in `C29_evaluate_state`. -/
theorem _root_.TdZdd.C98_evaluate_state (D : Dd N) (hw : D.Wf) (h0 : D.table.row 0 = terminalRow N) (hn : 0 < D.table.numRows)
    {ev : Evaluator N σ T R} {P : σ → Prop} {Rep : Nat → T → V → Prop} {tv : Nat → V}
    {nv : Nat → (Fin N → V × Nat) → V} (hev : ev.Sim D.root.row P Rep tv nv) (ths : Nat) (sched : Nat → ESched)
    (hs : ∀ i, 1 ≤ i → i ≤ D.root.row → (sched i).Ok ths (D.table.row i).length) : ∃ s t v, evaluate D ev ths sched = ev.value s t ∧ P s ∧ Rep D.root.row t v ∧
      FoldVal D.table tv nv D.root v := by
  obtain ⟨s, t, v, e, h1, h2, h3⟩ := evalWork_spec hev hw h0 hn (sched := fun i => flat (sched i) ths) fun i h1 h2 => flat_sched (hs i h1 h2)
  exact ⟨s, t, v, (evaluate_spec hw hs e).1, h1, h2, h3⟩

/-- C98: at each level no interleaving meets undefined behaviour or has two threads at conflicting accesses of one location. -/
theorem _root_.TdZdd.C98_no_race (D : Dd N) (hw : D.Wf) (h0 : D.table.row 0 = terminalRow N) (hn : 0 < D.table.numRows)
    {ev : Evaluator N σ T R} {P : σ → Prop} {Rep : Nat → T → V → Prop} {tv : Nat → V}
    {nv : Nat → (Fin N → V × Nat) → V} (hev : ev.Sim D.root.row P Rep tv nv) (ths : Nat) (sched : Nat → ESched)
    (hs : ∀ i, 1 ≤ i → i ≤ D.root.row → (sched i).Ok ths (D.table.row i).length) :
    ∃ a idx, terms ev D = some a ∧ makeIndex (D.table.numRows - 1) D.table.row = some idx ∧
      ∀ i, 1 ≤ i → i ≤ D.root.row → ∃ b, (levelsUp (i - 1)).foldlM (level ev D idx.2 ths sched) a = some b ∧
        ∀ w, ∃ s, exec mem ths w (prog ev D (sched i) i, start D b i) = some s ∧ ¬ Race ths s.1 := by
  obtain ⟨s, t, v, e, h1, h2, h3⟩ := evalWork_spec hev hw h0 hn (sched := fun i => flat (sched i) ths) fun i h1 h2 => flat_sched (hs i h1 h2)
  exact (evaluate_spec hw hs e).2

/-- two threads, even columns on thread 0, odd ones on thread 1, taking turns -/
def eturns (m : Nat) : ESched where
  cols y := if y = 0 then (List.range m).filter (· % 2 = 0) else if y = 1 then (List.range m).filter (· % 2 = 1) else []
  w := (List.range 100).map (· % 2)

theorem eturns_ok (m : Nat) : (eturns m).Ok 2 m := by
  show ((eturns m).cols 0 ++ ((eturns m).cols 1 ++ [])).Perm _
  rw [List.append_nil]
  exact Fine.halves_perm m

/-- a non-symmetric recursion, sequential and with two threads taking turns -/
example : (evaluate dupDd (Evaluator.pure (R := Nat) (fun j => j + 1)
      (fun i (vs : Fin 2 → Nat × Nat) => i + 2 * (vs 0).1 + 3 * (vs 1).1 * (1 + (vs 1).2)) id) 2 fun i => eturns (dupDd.table.row i).length) =
    dupDd.evaluate (Evaluator.pure (fun j => j + 1)
      (fun i (vs : Fin 2 → Nat × Nat) => i + 2 * (vs 0).1 + 3 * (vs 1).1 * (1 + (vs 1).2)) id) (seqSched dupDd) ∧
    (evaluate dupDd (Evaluator.pure (R := Nat) (fun j => j + 1)
      (fun i (vs : Fin 2 → Nat × Nat) => i + 2 * (vs 0).1 + 3 * (vs 1).1 * (1 + (vs 1).2)) id) 2 fun i => eturns (dupDd.table.row i).length).isSome := by
  decide +kernel

example : ∃ v, evaluate Fine.twinDd (Evaluator.pure (fun j => j) (fun _ (vs : Fin 2 → Nat × Nat) => (vs 0).1 + (vs 1).1) id) 2 (fun i => eturns (Fine.twinDd.table.row i).length) = some v := by
  obtain ⟨v, h, _⟩ := C98_evaluate Fine.twinDd Fine.twinDd_wf rfl (by decide) (fun j => j) (fun _ (vs : Fin 2 → Nat × Nat) => (vs 0).1 + (vs 1).1) id 2 _ fun _ _ _ => eturns_ok _
  exact ⟨v, h⟩

end EvFine

end TdZdd
