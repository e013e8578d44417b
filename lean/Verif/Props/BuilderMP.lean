import Verif.BuilderMPProofs5
import Verif.Props.Subset

/-!
# Properties C05 and C28: the parallel builders

`buildMP sp threads tasks sched` is the model of `DdStructure(spec, true)` and
`zddSubsetMP D sp shared threads sched` that of `dd.zddSubset(spec)` with `useMP`, both with OpenMP;
`none` is undefined behaviour. For each level `sched` chooses the thread that executes each task in
the second loop and an arbitrary order of all its memory accesses.
-/

namespace TdZdd

variable {N : Nat} {S : Type}

/-! ## C05 -/

/-- C05: for every number of threads and tasks and every schedule the parallel builder finishes without
undefined behaviour; the result is well-formed and has the function and the families of the structure that the
sequential builder makes, and of the specification. -/
theorem C05_same (sp : DdSpec N S) (hl : Lawful sp) (hm : NoMerge sp) (threads tasks : Nat) (ht : 0 < threads)
    (hk : 0 < tasks) (sched : Nat → BmSched N S) (hsc : ∀ i, (sched i).Ok threads) :
    ∃ D D', build sp = some D ∧ buildMP sp threads tasks sched = some D' ∧ D'.Wf ∧
      (∀ a, BddSat D'.spec a ↔ BddSat D.spec a) ∧ (∀ n a, ZddMem D'.spec n a ↔ ZddMem D.spec n a) ∧
      (∀ a, BddSat D'.spec a ↔ BddSat sp a) ∧ ∀ n a, ZddMem D'.spec n a ↔ ZddMem sp n a := by
  obtain ⟨D, lab, h1, h2, _⟩ := build_main hl
  obtain ⟨D', lab', k1, k2, _⟩ := buildMP_main hl hm ht hk hsc
  have e : ∀ p, Accepts D.spec D.spec.root.1 D.spec.root.2 p ↔ Accepts sp sp.root.1 sp.root.2 p :=
    fun p => ⟨h2.sub, h2.sup hm⟩
  have e' : ∀ p, Accepts D'.spec D'.spec.root.1 D'.spec.root.2 p ↔ Accepts sp sp.root.1 sp.root.2 p :=
    fun p => ⟨k2.sub, k2.sup hm⟩
  exact ⟨D, D', h1, k1, k2.wf hl.toDesc, bddSat_congr fun p => (e' p).trans (e p).symm,
    fun n => zddMem_congr (fun p => (e' p).trans (e p).symm) n, bddSat_congr e',
    fun n => zddMem_congr e' n⟩

/-- C05, shape of the result: as for the sequential builder (C03) all nodes can be reached from the root, and two nodes
of a level carry states that are not equivalent (C04). -/
theorem C05_shape (sp : DdSpec N S) (hl : Lawful sp) (hm : NoMerge sp) (threads tasks : Nat) (ht : 0 < threads)
    (hk : 0 < tasks) (sched : Nat → BmSched N S) (hsc : ∀ i, (sched i).Ok threads) :
    ∃ D, buildMP sp threads tasks sched = some D ∧ D.table.row 0 = terminalRow N ∧
      D.table.numRows = sp.root.1.toNat + 1 ∧
      (∀ f nd, 0 < f.row → D.table.node? f = some nd → D.Live f) ∧
      ∃ lab : NodeId → Option S,
        (∀ f nd, 0 < f.row → D.table.node? f = some nd → ∃ s, lab f = some s ∧ Reach sp (f.row : Int) s) ∧
        ∀ f f' s s', lab f = some s → lab f' = some s' → f.row = f'.row → sp.eqv f.row s s' = true → f = f' := by
  obtain ⟨D, lab, k1, k2, k3, k4, k5⟩ := buildMP_main hl hm ht hk hsc
  refine ⟨D, k1, k4, k3, fun f nd hf hnd => k5 f hf (.inr (.inr ⟨hf, nd, hnd⟩)), lab, ?_,
    fun f f' s s' a b c d => k2.uniq hm a b c d⟩
  intro f nd hf hnd
  obtain ⟨s, h1, h2, _⟩ := k2.node hf hnd
  exact ⟨s, h1, h2⟩

/-! Examples: three threads, five tasks, the memory accesses of each level in reverse order. -/

/-- tasks are assigned to threads in turn, effects are executed backwards -/
def revSched (N : Nat) (S : Type) (threads : Nat) : BmSched N S := ⟨fun x => x % threads, List.reverse⟩

theorem revSched_ok {threads : Nat} (h : 0 < threads) : (revSched N S threads).Ok threads :=
  ⟨fun _ => Nat.mod_lt _ h, fun l => l.reverse_perm⟩

example : ∃ D D', build atMostOne = some D ∧ buildMP atMostOne 3 5 (fun _ => revSched _ _ 3) = some D' ∧
    D'.Wf ∧ (∀ a, BddSat D'.spec a ↔ BddSat D.spec a) ∧ (∀ n a, ZddMem D'.spec n a ↔ ZddMem D.spec n a) ∧
    (∀ a, BddSat D'.spec a ↔ BddSat atMostOne a) ∧ ∀ n a, ZddMem D'.spec n a ↔ ZddMem atMostOne n a :=
  C05_same _ atMostOne_lawful.lawful (fun _ _ => rfl) _ _ (by decide) (by decide) _ fun _ => revSched_ok (by decide)

/-- both builders make five nodes -/
example : (build atMostOne).map (fun D => D.table.size) = some 5 ∧
    (buildMP atMostOne 3 5 fun _ => revSched _ _ 3).map (fun D => D.table.size) = some 5 := by decide +kernel

/-- but the order of the nodes in a row depends on the schedule -/
example : (buildMP atMostOne 1 1 fun _ => revSched _ _ 1).map (fun D => (D.table.row 3).map fun nd => (nd 0, nd 1)) =
      some [(⟨2, 0⟩, ⟨2, 1⟩)] ∧
    (buildMP atMostOne 1 1 fun _ => ⟨fun _ => 0, id⟩).map (fun D => (D.table.row 3).map fun nd => (nd 0, nd 1)) =
      some [(⟨2, 1⟩, ⟨2, 0⟩)] := by
  decide +kernel

/-- Pruning is not safe in the parallel builder: when `merge_states` answers 1, `code(p0) = 0` leaves the node
already reserved for `p0` without branches. The specification is lawful and the sequential builder handles it. -/
theorem C05_pruning_unsafe : ∃ sp : DdSpec 2 Nat, LawfulC sp ∧ (∃ D, build sp = some D ∧ D.Wf) ∧
    ∃ sched : Nat → BmSched 2 Nat, (∀ i, (sched i).Ok 1) ∧ buildMP sp 1 1 sched = none := by
  refine ⟨minTwo, minTwo_lawful, ?_, fun _ => ⟨fun _ => 0, id⟩, fun _ => ⟨fun _ => Nat.one_pos, fun _ => .refl _⟩,
    by decide +kernel⟩
  obtain ⟨D, h1, h2, _⟩ := C03_build_safe minTwo minTwo_lawful.lawful
  exact ⟨D, h1, h2⟩

/-! ## C28 -/

/-- C28: for every number of threads and every schedule the parallel subsetter finishes without undefined behaviour and leaves the
intersection of the two families, the same family as the sequential subsetter. -/
theorem C28_same (D : Dd (N + 1)) (sp : DdSpec (N + 1) S) (shared : Bool) (hw : D.Wf) (hl : Lawful sp) (hm : NoMerge sp)
    (threads : Nat) (ht : 0 < threads) (sched : Nat → BmSched (N + 1) (NodeId × S)) (hsc : ∀ i, (sched i).Ok threads) :
    ∃ D' D'', zddSubset D sp shared = some D' ∧ zddSubsetMP D sp shared threads sched = some D'' ∧ D''.Wf ∧
      (∀ (m : Nat) (a : Asg (N + 1)), ZddMem D''.spec m a ↔ ZddMem D'.spec m a) ∧
      ∀ (m : Nat) (a : Asg (N + 1)), D.spec.root.1 ≤ m → sp.root.1 ≤ m →
        (ZddMem D''.spec m a ↔ ZddMem D.spec m a ∧ ZddMem sp m a) := by
  obtain ⟨rt, D', lab, e, hrt, h1, h2, _⟩ := zddSubset_main hw hl shared
  obtain ⟨rt', D'', lab', e', _, k1, k2, _⟩ := zddSubsetMP_main hw hl hm shared ht hsc
  cases e.symm.trans e'
  have hpl := prod_lawful hw hl hrt
  have hpm : NoMerge (prodSpec D.table rt sp) := fun s t => hm s.2 t.2
  refine ⟨D', D'', h1, k1, k2.wf hpl.toDesc, ?_, fun m a l1 l2 => ?_⟩
  · exact fun m => zddMem_congr (fun p => ⟨fun h => h2.sup hpm (k2.sub h), fun h => k2.sup hpm (h2.sub h)⟩) m
  · rw [← prod_mem hw hl.toDesc hrt l1 l2]
    exact zddMem_congr (fun p => ⟨k2.sub, k2.sup hpm⟩) m a

/-- C28, shape of the result, as in C27. -/
theorem C28_live (D : Dd (N + 1)) (sp : DdSpec (N + 1) S) (shared : Bool) (hw : D.Wf) (hl : Lawful sp) (hm : NoMerge sp)
    (threads : Nat) (ht : 0 < threads) (sched : Nat → BmSched (N + 1) (NodeId × S)) (hsc : ∀ i, (sched i).Ok threads)
    (D' : Dd (N + 1)) (hD : zddSubsetMP D sp shared threads sched = some D') :
    D'.table.row 0 = terminalRow (N + 1) ∧ D'.table.numRows ≤ D.root.row + 1 ∧
      (D'.table.numRows : Int) ≤ max (sp.root.1 + 1) 1 ∧
      ∀ f nd, 0 < f.row → D'.table.node? f = some nd → D'.Live f := by
  obtain ⟨rt, D'', lab, _, hrt, h1, _, h3, h4, h5⟩ := zddSubsetMP_main hw hl hm shared ht hsc
  cases h1.symm.trans hD
  refine ⟨h4, ?_, ?_, fun f nd hf hnd => h5 f hf (.inr (.inr ⟨hf, nd, hnd⟩))⟩
  · rw [h3]
    by_cases h0 : rt.1 = 0
    · rw [h0]; simp
    · have := hrt.le1 h0
      have h2 : D.spec.root.1 ≤ D.root.row := rootCode_le D.root
      omega
  · rw [h3]
    by_cases h0 : rt.1 = 0
    · rw [h0]; omega
    · have := hrt.le2 h0
      omega

example : ∃ D' D'', zddSubset sampleSub imply31 false = some D' ∧
    zddSubsetMP sampleSub imply31 false 2 (fun _ => revSched _ _ 2) = some D'' ∧ D''.Wf ∧
    (∀ (m : Nat) (a : Asg 2), ZddMem D''.spec m a ↔ ZddMem D'.spec m a) ∧
    ∀ (m : Nat) (a : Asg 2), sampleSub.spec.root.1 ≤ m → imply31.root.1 ≤ m →
      (ZddMem D''.spec m a ↔ ZddMem sampleSub.spec m a ∧ ZddMem imply31 m a) :=
  C28_same _ _ _ sampleSub_wf imply31_lawful.lawful (fun _ _ => rfl) _ (by decide) _ fun _ => revSched_ok (by decide)

example : (zddSubsetMP sampleSub imply31 false 2 fun _ => revSched _ _ 2).map (fun D => D.table.size) = some 2 := by
  decide +kernel

/-- Pruning is not safe in the parallel subsetter either. -/
theorem C28_pruning_unsafe : ∃ (D : Dd 2) (sp : DdSpec 2 Nat), D.Wf ∧ LawfulC sp ∧
    (∃ D', zddSubset D sp true = some D' ∧ D'.Wf) ∧
    ∃ sched : Nat → BmSched 2 (NodeId × Nat), (∀ i, (sched i).Ok 1) ∧ zddSubsetMP D sp true 1 sched = none := by
  refine ⟨universal 2 2, minTwo, universal_wf 2 2, minTwo_lawful, ?_, fun _ => ⟨fun _ => 0, id⟩,
    fun _ => ⟨fun _ => Nat.one_pos, fun _ => .refl _⟩, by decide +kernel⟩
  obtain ⟨D', h1, h2, _⟩ := C27_pruning (universal 2 2) minTwo true (universal_wf 2 2) minTwo_lawful.lawful
  exact ⟨D', h1, h2⟩

end TdZdd
