import Verif.ReducerFineProofs4
import Verif.Props.ReducerMP

/-!
# Property C96: parallel reduction with interleaved memory accesses

`Fine.reduce bdd zdd threads tasks E sched D` models `reduce<BDD,ZDD>()` with `useMP` where the threads interleave at single reads and writes of shared memory.
The theorems hold for all numbers of threads and tasks, all distributions of the iterations over the threads and all interleavings.
-/

namespace TdZdd

namespace Fine

open Conc

variable {N : Nat}

/-- The executions that are considered. -/
structure Run (D : Dd (N + 1)) (threads tasks : Nat) (E : Nat → List NodeId) (sched : Nat → Sched) : Prop where
  tasks_pos : 0 < tasks
  row_bits : D.root.row + tasks ≤ 2 ^ 20
  edges : ∀ i, 1 ≤ i → (E i).Perm (rowEdges (D.table.row i))
  sched_ok : ∀ i, 1 ≤ i → i ≤ D.root.row → (sched i).Ok threads tasks (D.table.row i).length

/-- C96 for `bddReduce()`: however the accesses interleave, no undefined behaviour of the model, the Boolean function is kept, the result is reduced, its size does not
exceed the original one, and it is `==` to the result of the sequential algorithm. -/
theorem _root_.TdZdd.C96_bddReduce (D : Dd (N + 1)) (hw : D.Wf) {threads tasks : Nat} {E : Nat → List NodeId} {sched : Nat → Sched} (hr : Run D threads tasks E sched) :
    ∃ D' Ds, reduce true false threads tasks E sched D = some D' ∧ D'.Wf ∧
      (∀ a, BddSat D'.spec a ↔ BddSat D.spec a) ∧
      (∀ f nd, 0 < f.row → D'.table.node? f = some nd → ¬ ∀ b b', nd b = nd b') ∧
      (∀ f g nd, 0 < f.row → f.row = g.row → D'.table.node? f = some nd → D'.table.node? g = some nd → f = g) ∧
      D'.table.size ≤ D.table.size ∧ D.bddReduce = some Ds ∧ ddEq false D' Ds = some true := by
  obtain ⟨D', nid, e, h1, h2, h3, h4⟩ := reduce_spec (bdd := true) (zdd := false) hw hr.tasks_pos hr.row_bits hr.edges hr.sched_ok
  have rA : IsRed delB D D' := ⟨h1, h2, nid, h3.congr_del delN_bdd, h4⟩
  obtain ⟨Ds, eB, rB⟩ := bddReduce_spec hw
  refine ⟨D', Ds, e, rA.wf hw, rA.bddSat hw, fun f nd h0 hn h => (rA.canon hw).keep h0 hn fun b => h b 0,
    (rA.canon hw).uniq, rA.size_le, eB, ?_⟩
  obtain ⟨r, e, _, k⟩ := C15_eq false D' Ds (rA.wf hw) (rB.wf hw) rA.2.1 rB.2.1 (fun h => nomatch h)
  rw [e, (k (rA.canon hw).uniq (rB.canon hw).uniq).2 (rA.isoB hw rB hw fun _ => Iff.rfl)]

/-- C96 for `zddReduce()`. -/
theorem _root_.TdZdd.C96_zddReduce (D : Dd (N + 1)) (hw : D.Wf) {threads tasks : Nat} {E : Nat → List NodeId} {sched : Nat → Sched} (hr : Run D threads tasks E sched) :
    ∃ D' Ds, reduce false true threads tasks E sched D = some D' ∧ D'.Wf ∧
      (∀ n, D.root.row ≤ n → ∀ a, ZddMem D'.spec n a ↔ ZddMem D.spec n a) ∧
      (∀ f nd, 0 < f.row → D'.table.node? f = some nd → ¬ ∀ b, b ≠ 0 → nd b = .zero) ∧
      (∀ f g nd, 0 < f.row → f.row = g.row → D'.table.node? f = some nd → D'.table.node? g = some nd → f = g) ∧
      D'.table.size ≤ D.table.size ∧ D.zddReduce = some Ds ∧ ddEq false D' Ds = some true := by
  obtain ⟨D', nid, e, h1, h2, h3, h4⟩ := reduce_spec (bdd := false) (zdd := true) hw hr.tasks_pos hr.row_bits hr.edges hr.sched_ok
  have rA : IsRed delZ D D' := ⟨h1, h2, nid, h3.congr_del delN_zdd, h4⟩
  obtain ⟨Ds, eB, rB⟩ := zddReduce_spec hw
  refine ⟨D', Ds, e, rA.wf hw, rA.zddMem hw, fun f nd h0 hn h => (rA.canon hw).keep h0 hn h,
    (rA.canon hw).uniq, rA.size_le, eB, ?_⟩
  obtain ⟨r, e, _, k⟩ := C15_eq false D' Ds (rA.wf hw) (rB.wf hw) rA.2.1 rB.2.1 (fun h => nomatch h)
  rw [e, (k (rA.canon hw).uniq (rB.canon hw).uniq).2 (rA.isoZ hw rB hw (Nat.le_refl _) (Nat.le_refl _) fun _ => Iff.rfl)]

/-- C96 for `qddReduce()`: both readings are kept, no two nodes of a level have the same edges. -/
theorem _root_.TdZdd.C96_qddReduce (D : Dd (N + 1)) (hw : D.Wf) {threads tasks : Nat} {E : Nat → List NodeId} {sched : Nat → Sched} (hr : Run D threads tasks E sched) :
    ∃ D', reduce false false threads tasks E sched D = some D' ∧ D'.Wf ∧
      (∀ a, BddSat D'.spec a ↔ BddSat D.spec a) ∧ (∀ n a, ZddMem D'.spec n a ↔ ZddMem D.spec n a) ∧
      (∀ f g nd, 0 < f.row → f.row = g.row → D'.table.node? f = some nd → D'.table.node? g = some nd → f = g) ∧
      D'.table.size ≤ D.table.size := by
  obtain ⟨D', nid, e, h1, h2, h3, h4⟩ := reduce_spec (bdd := false) (zdd := false) hw hr.tasks_pos hr.row_bits hr.edges hr.sched_ok
  have h : IsQRed D D' := ⟨h1, h2, D.table, id, nid, _, comp_refl, h3, fun c hc => (delN_qdd c).1 hc, h4⟩
  exact ⟨D', e, h.wf hw, bddSat_congr fun p => h.accepts hw p, fun n => zddMem_congr (fun p => h.accepts hw p) n, h.unique, h.size_le⟩

/-- C96: at each level, in the first and the second loop no interleaving ever has two threads at conflicting accesses of one location, and in the third loop the only
conflicting accesses are two writes of the same node to the same place of the output. -/
theorem _root_.TdZdd.C96_races (bdd zdd : Bool) (D : Dd (N + 1)) (hw : D.Wf) {threads tasks : Nat} {E : Nat → List NodeId} {sched : Nat → Sched} (hr : Run D threads tasks E sched) :
    ∃ idx, makeIndexOrd (D.table.numRows - 1) E = some idx ∧ ∀ i, 1 ≤ i → i ≤ D.root.row →
      ∃ a, (levelsUp (i - 1)).foldlM (level bdd zdd threads tasks D.table.numRows D.root.row idx.2 sched) (reduceInit D, fun _ => 0) = some a ∧
        Clean (mem D.table.numRows i tasks) threads (prog1 bdd zdd i tasks (sched i)) (start a i) ∧
        ∀ w1 s1, par (mem D.table.numRows i tasks) threads w1 (prog1 bdd zdd i tasks (sched i)) (start a i) = some s1 →
          Clean (mem D.table.numRows i tasks) threads (prog2 i threads (sched i) (clear (idx.2 i) s1).1.uniq) (clear (idx.2 i) s1) ∧
          ∀ w2 s2, par (mem D.table.numRows i tasks) threads w2 (prog2 i threads (sched i) (clear (idx.2 i) s1).1.uniq) (clear (idx.2 i) s1) = some s2 →
            ∀ w, ∃ t, exec (mem D.table.numRows i tasks) threads w (prog3 i tasks (sched i), sums tasks s2) = some t ∧ OnlyOut threads t.1 := by
  obtain ⟨hi0, lo, e0, hlo⟩ := index_spec (E := E) hw hr.edges
  refine ⟨(hi0, lo), e0, fun i h1 h2 => ?_⟩
  obtain ⟨a, ea, ha⟩ := fold_spec (bdd := bdd) (zdd := zdd) hw hr.tasks_pos hr.row_bits hr.sched_ok hlo (k := i - 1) (by omega)
  have := (inv_step hw hr.tasks_pos hr.row_bits hr.sched_ok hlo (t := i - 1) (by omega) ha).1
  rw [Nat.sub_add_cancel h1] at this
  exact ⟨a, ea, this⟩

/-- 2 threads and 3 tasks: even columns on thread 0, odd ones on thread 1; the threads take turns -/
def turns (m : Nat) : Sched where
  c1 y := if y = 0 then (List.range m).filter (· % 2 = 0) else if y = 1 then (List.range m).filter (· % 2 = 1) else []
  c2 y := if y = 0 then [1] else if y = 1 then [2, 0] else []
  c3 y := if y = 0 then (List.range m).filter (· % 2 = 0) else if y = 1 then (List.range m).filter (· % 2 = 1) else []
  w1 := (List.range 100).map (· % 2)
  w2 := (List.range 100).map (· % 2)
  w3 := (List.range 100).map (· % 2)

theorem halves_perm (m : Nat) : ((List.range m).filter (· % 2 = 0) ++ (List.range m).filter (· % 2 = 1)).Perm (List.range m) := by
  have : (List.range m).filter (fun j => decide (j % 2 = 1)) = (List.range m).filter (fun j => !decide (j % 2 = 0)) := by
    refine List.filter_congr fun j _ => ?_
    by_cases h : j % 2 = 0
    · simp [h]
    · have : j % 2 = 1 := by omega
      simp [this]
  rw [this]
  exact List.filter_append_perm _ _

theorem turns_ok (m : Nat) : (turns m).Ok 2 3 m where
  cols1 := by
    show ((turns m).c1 0 ++ ((turns m).c1 1 ++ [])).Perm _
    rw [List.append_nil]
    exact halves_perm m
  tasks2 := (by decide : [1, 2, 0].Perm (List.range 3))
  cols3 := by
    show ((turns m).c3 0 ++ ((turns m).c3 1 ++ [])).Perm _
    rw [List.append_nil]
    exact halves_perm m

theorem dupDd_fine : Run dupDd 2 3 (fun i => (rowEdges (dupDd.table.row i)).reverse) (fun i => turns (dupDd.table.row i).length) :=
  ⟨by decide, by decide, fun _ _ => List.reverse_perm _, fun _ _ _ => turns_ok _⟩

example : ∃ D' Ds, reduce false true 2 3 (fun i => (rowEdges (dupDd.table.row i)).reverse) (fun i => turns (dupDd.table.row i).length) dupDd = some D' ∧ dupDd.zddReduce = some Ds ∧
    ddEq false D' Ds = some true := by
  obtain ⟨D', Ds, h1, _, _, _, _, _, h2, h3⟩ := C96_zddReduce dupDd dupDd_wf dupDd_fine
  exact ⟨D', Ds, h1, h2, h3⟩

example : (reduce false true 2 3 (fun i => (rowEdges (dupDd.table.row i)).reverse) (fun i => turns (dupDd.table.row i).length) dupDd).map (fun D => D.table.size) = some 3 := by decide +kernel

/-- two equal nodes below the root -/
def twinDd : Dd 2 := mkDd [[nd2 .zero .one, nd2 .zero .one], [nd2 ⟨1, 0⟩ ⟨1, 1⟩]] ⟨2, 0⟩

theorem twinDd_wf : twinDd.Wf := wf_of_check (by decide +kernel)

theorem twinDd_run : Run twinDd 2 3 (fun i => rowEdges (twinDd.table.row i)) (fun i => turns (twinDd.table.row i).length) :=
  ⟨by decide, by decide, fun _ _ => .refl _, fun _ _ _ => turns_ok _⟩

/-- the column of the output that the program is about to write -/
def pend : P N → Option Nat
  | .wr (.out p) _ _ => some p
  | _ => none

theorem race_of_pend {T p : Nat} {P : Nat → P N} {y y' : Nat} (hy : y < T) (hy' : y' < T) (hne : y ≠ y') (h : pend (P y) = some p) (h' : pend (P y') = some p) : Race T P := by
  have key : ∀ {q : Fine.P N}, pend q = some p → ∃ v, q.next = some (.wr (.out p) v) := by
    intro q hq
    rcases q with _ | _ | ⟨l, k⟩ | ⟨l, v, k⟩
    · cases hq
    · cases hq
    · cases hq
    · cases l <;> first
        | (cases hq; done)
        | (cases hq; exact ⟨v, rfl⟩)
  obtain ⟨v, hv⟩ := key h
  obtain ⟨v', hv'⟩ := key h'
  exact ⟨y, y', _, _, hy, hy', hne, hv, hv', fun hf => hf rfl⟩

/-- C96: there really are executions where two threads are about to write the same node of the output in the third loop; without atomic operations that is a data race in
the sense of the C++ standard, although both write the same value. -/
theorem _root_.TdZdd.C96_output_race : ∃ (D : Dd 2) (threads tasks : Nat) (E : Nat → List NodeId) (sched : Nat → Sched), D.Wf ∧ Run D threads tasks E sched ∧
    ∃ idx s1 s2 w t, makeIndexOrd (D.table.numRows - 1) E = some idx ∧
      par (mem D.table.numRows 1 tasks) threads (sched 1).w1 (prog1 false true 1 tasks (sched 1)) (start (reduceInit D, fun _ => 0) 1) = some s1 ∧
      par (mem D.table.numRows 1 tasks) threads (sched 1).w2 (prog2 1 threads (sched 1) (clear (idx.2 1) s1).1.uniq) (clear (idx.2 1) s1) = some s2 ∧
      exec (mem D.table.numRows 1 tasks) threads w (prog3 1 tasks (sched 1), sums tasks s2) = some t ∧ Race threads t.1 := by
  refine ⟨twinDd, 2, 3, _, _, twinDd_wf, twinDd_run, ?_⟩
  have h : (do
      let idx ← makeIndexOrd (twinDd.table.numRows - 1) fun i => rowEdges (twinDd.table.row i)
      let s1 ← par (mem twinDd.table.numRows 1 3) 2 (turns (twinDd.table.row 1).length).w1 (prog1 false true 1 3 (turns (twinDd.table.row 1).length)) (start (reduceInit twinDd, fun _ => 0) 1)
      let s2 ← par (mem twinDd.table.numRows 1 3) 2 (turns (twinDd.table.row 1).length).w2 (prog2 1 2 (turns (twinDd.table.row 1).length) (clear (idx.2 1) s1).1.uniq) (clear (idx.2 1) s1)
      let t ← exec (mem twinDd.table.numRows 1 3) 2 [0, 1, 0, 1, 0, 1, 0, 1] (prog3 1 3 (turns (twinDd.table.row 1).length), sums 3 s2)
      some (pend (t.1 0), pend (t.1 1))) = some (some 0, some 0) := by decide +kernel
  simp only [Option.bind_eq_bind, Option.bind_eq_some_iff] at h
  obtain ⟨idx, h0, s1, h1, s2, h2, t, h3, h4⟩ := h
  have h4 := Option.some.inj h4
  exact ⟨idx, s1, s2, _, t, h0, h1, h2, h3, race_of_pend (y := 0) (y' := 1) (by decide) (by decide) (by decide) (congrArg Prod.fst h4) (congrArg Prod.snd h4)⟩

end Fine

end TdZdd
