import Verif.ReducerMPProofs
import Verif.Props.Reducer

/-!
# Property C12: parallel reduction

`D.reduceMP bdd zdd threads tasks E sched` models `reduce<BDD,ZDD>()` with `useMP`. All theorems hold for every number
of threads and tasks, every execution order of the three work-shared loops and every assignment of their
iterations to threads (`MpSched.Ok`), and every order in which the parallel `makeIndex` visits edges (`E`).
The temporary row numbers `i + task` must fit in the 20-bit row field of `NodeId`.
-/

namespace TdZdd

variable {N : Nat}

/-- The executions of the parallel reducer that are considered. -/
structure MpRun (D : Dd (N + 1)) (threads tasks : Nat) (E : Nat → List NodeId) (sched : Nat → MpSched) : Prop where
  tasks_pos : 0 < tasks
  row_bits : D.root.row + tasks ≤ 2 ^ 20
  edges : ∀ i, 1 ≤ i → (E i).Perm (rowEdges (D.table.row i))
  sched_ok : ∀ i, 1 ≤ i → i ≤ D.root.row → (sched i).Ok threads tasks (D.table.row i).length

/-- C12 for `bddReduce()`: no undefined behaviour, the Boolean function is kept, the result is reduced, its size does not
exceed the original one, and it is `==` to the result of the sequential algorithm. -/
theorem C12_bddReduce (D : Dd (N + 1)) (hw : D.Wf) {threads tasks : Nat} {E : Nat → List NodeId} {sched : Nat → MpSched}
    (hr : MpRun D threads tasks E sched) :
    ∃ D' Ds, D.reduceMP true false threads tasks E sched = some D' ∧ D'.Wf ∧
      (∀ a, BddSat D'.spec a ↔ BddSat D.spec a) ∧
      (∀ f nd, 0 < f.row → D'.table.node? f = some nd → ¬ ∀ b b', nd b = nd b') ∧
      (∀ f g nd, 0 < f.row → f.row = g.row → D'.table.node? f = some nd → D'.table.node? g = some nd → f = g) ∧
      D'.table.size ≤ D.table.size ∧ D.bddReduce = some Ds ∧ ddEq false D' Ds = some true := by
  obtain ⟨D', nid, e, h1, h2, h3, h4⟩ := reduceMP_spec (bdd := true) (zdd := false) hw hr.tasks_pos hr.row_bits hr.edges
    hr.sched_ok
  have rA : IsRed delB D D' := ⟨h1, h2, nid, h3.congr_del delN_bdd, h4⟩
  obtain ⟨Ds, eB, rB⟩ := bddReduce_spec hw
  refine ⟨D', Ds, e, rA.wf hw, rA.bddSat hw, fun f nd h0 hn h => (rA.canon hw).keep h0 hn fun b => h b 0,
    (rA.canon hw).uniq, rA.size_le, eB, ?_⟩
  obtain ⟨r, e, _, k⟩ := C15_eq false D' Ds (rA.wf hw) (rB.wf hw) rA.2.1 rB.2.1 (fun h => nomatch h)
  rw [e, (k (rA.canon hw).uniq (rB.canon hw).uniq).2 (rA.isoB hw rB hw fun _ => Iff.rfl)]

/-- C12 for `zddReduce()`. -/
theorem C12_zddReduce (D : Dd (N + 1)) (hw : D.Wf) {threads tasks : Nat} {E : Nat → List NodeId} {sched : Nat → MpSched}
    (hr : MpRun D threads tasks E sched) :
    ∃ D' Ds, D.reduceMP false true threads tasks E sched = some D' ∧ D'.Wf ∧
      (∀ n, D.root.row ≤ n → ∀ a, ZddMem D'.spec n a ↔ ZddMem D.spec n a) ∧
      (∀ f nd, 0 < f.row → D'.table.node? f = some nd → ¬ ∀ b, b ≠ 0 → nd b = .zero) ∧
      (∀ f g nd, 0 < f.row → f.row = g.row → D'.table.node? f = some nd → D'.table.node? g = some nd → f = g) ∧
      D'.table.size ≤ D.table.size ∧ D.zddReduce = some Ds ∧ ddEq false D' Ds = some true := by
  obtain ⟨D', nid, e, h1, h2, h3, h4⟩ := reduceMP_spec (bdd := false) (zdd := true) hw hr.tasks_pos hr.row_bits hr.edges
    hr.sched_ok
  have rA : IsRed delZ D D' := ⟨h1, h2, nid, h3.congr_del delN_zdd, h4⟩
  obtain ⟨Ds, eB, rB⟩ := zddReduce_spec hw
  refine ⟨D', Ds, e, rA.wf hw, rA.zddMem hw, fun f nd h0 hn h => (rA.canon hw).keep h0 hn h,
    (rA.canon hw).uniq, rA.size_le, eB, ?_⟩
  obtain ⟨r, e, _, k⟩ := C15_eq false D' Ds (rA.wf hw) (rB.wf hw) rA.2.1 rB.2.1 (fun h => nomatch h)
  rw [e, (k (rA.canon hw).uniq (rB.canon hw).uniq).2
    (rA.isoZ hw rB hw (Nat.le_refl _) (Nat.le_refl _) fun _ => Iff.rfl)]

/-- C12 for `qddReduce()`: both readings are kept, no two nodes of a level have the same edges. -/
theorem C12_qddReduce (D : Dd (N + 1)) (hw : D.Wf) {threads tasks : Nat} {E : Nat → List NodeId} {sched : Nat → MpSched}
    (hr : MpRun D threads tasks E sched) :
    ∃ D', D.reduceMP false false threads tasks E sched = some D' ∧ D'.Wf ∧
      (∀ a, BddSat D'.spec a ↔ BddSat D.spec a) ∧ (∀ n a, ZddMem D'.spec n a ↔ ZddMem D.spec n a) ∧
      (∀ f g nd, 0 < f.row → f.row = g.row → D'.table.node? f = some nd → D'.table.node? g = some nd → f = g) ∧
      D'.table.size ≤ D.table.size := by
  obtain ⟨D', nid, e, h1, h2, h3, h4⟩ := reduceMP_spec (bdd := false) (zdd := false) hw hr.tasks_pos hr.row_bits hr.edges
    hr.sched_ok
  have h : IsQRed D D' := ⟨h1, h2, D.table, id, nid, _, comp_refl, h3, fun c hc => (delN_qdd c).1 hc, h4⟩
  exact ⟨D', e, h.wf hw, bddSat_congr fun p => h.accepts hw p, fun n => zddMem_congr (fun p => h.accepts hw p) n,
    h.unique, h.size_le⟩

/-- a schedule for `m` columns, 2 threads and 3 tasks: even columns on thread 0, odd ones on thread 1; tasks backwards -/
def sampleSched (m : Nat) : MpSched :=
  ⟨(List.range m).reverse.map fun j => (j % 2, j), [(1, 2), (0, 1), (1, 0)], (List.range m).reverse⟩

theorem sampleSched_ok (m : Nat) : (sampleSched m).Ok 2 3 m where
  cols1 := by
    have : (sampleSched m).p1.map (·.2) = (List.range m).reverse := by
      unfold sampleSched
      rw [List.map_map]
      exact (List.map_congr_left (fun _ _ => rfl)).trans (List.map_id _)
    rw [this]
    exact List.reverse_perm _
  thr1 := by
    intro e he
    unfold sampleSched at he
    obtain ⟨j, _, rfl⟩ := List.mem_map.1 he
    exact Nat.mod_lt _ (by decide)
  tasks2 := (by decide : [2, 1, 0].Perm (List.range 3))
  cols3 := List.reverse_perm _

/-- a run on a structure with duplicates, in the order opposite to the sequential one -/
theorem dupDd_run : MpRun dupDd 2 3 (fun i => (rowEdges (dupDd.table.row i)).reverse)
    (fun i => sampleSched (dupDd.table.row i).length) :=
  ⟨by decide, by decide, fun _ _ => List.reverse_perm _, fun _ _ _ => sampleSched_ok _⟩

example : ∃ D' Ds, dupDd.reduceMP false true 2 3 (fun i => (rowEdges (dupDd.table.row i)).reverse)
    (fun i => sampleSched (dupDd.table.row i).length) = some D' ∧ dupDd.zddReduce = some Ds ∧
    ddEq false D' Ds = some true := by
  obtain ⟨D', Ds, h1, _, _, _, _, _, h2, h3⟩ := C12_zddReduce dupDd dupDd_wf dupDd_run
  exact ⟨D', Ds, h1, h2, h3⟩

example : (dupDd.reduceMP false true 2 3 (fun i => (rowEdges (dupDd.table.row i)).reverse)
    (fun i => sampleSched (dupDd.table.row i).length)).map (fun D => D.table.size) = some 3 := by decide +kernel

end TdZdd
