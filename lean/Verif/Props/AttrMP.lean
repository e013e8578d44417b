import Verif.AttrMPProofs
import Verif.Props.Attr
import Verif.Props.ReducerMP

/-!
# Property C100: the attribute bit of node ids in the parallel reducer

Whatever the threads do, the bits of the result of a parallel reduction are right.
-/

namespace TdZdd

variable {N : Nat}

open Attr

/-- For every execution of the parallel reducer: the ids are those of `ReducerMP.lean` and the result has the right bits. -/
theorem C100_bits {bdd zdd : Bool} {D : Dd (N + 1)} (hw : D.Wf) {inp : NodeId → Fin (N + 1) → Bool} {root : Bool} (ht : D.root.row = 0 → root = false)
    {threads tasks : Nat} {E : Nat → List NodeId} {sched : Nat → MpSched} (hr : MpRun D threads tasks E sched) :
    ∃ D' s, Attr.reduceMP bdd zdd threads tasks E sched D inp root = some (D', s) ∧ D.reduceMP bdd zdd threads tasks E sched = some D' ∧ D'.Wf ∧
      RightBits D' s.output s.root := by
  obtain ⟨D', s, e, e', h⟩ := reduceMP_bits (bdd := bdd) (zdd := zdd) hw (inp := inp) ht hr.tasks_pos hr.row_bits hr.edges hr.sched_ok
  obtain ⟨D1, nid, e1, h1, h2, h3, h4⟩ := reduceMP_spec (bdd := bdd) (zdd := zdd) hw hr.tasks_pos hr.row_bits hr.edges hr.sched_ok
  rw [e'] at e1
  cases e1
  have hw' : D'.Wf := by
    refine ⟨h3.wf hw.table, ?_⟩
    rw [h4]
    exact (h3.valid hw.table _ (Nat.le_refl _) (Nat.le_refl _) hw.root).1
  exact ⟨D', s, e, e', hw', h.right hw'⟩

/-- `hasEmpty()` of the root after a parallel `zddReduce()`: the family contains the empty set. -/
theorem C100_empty {D D' : Dd (N + 1)} (hw : D.Wf) {inp : NodeId → Fin (N + 1) → Bool} {root : Bool} (ht : D.root.row = 0 → root = false)
    {threads tasks : Nat} {E : Nat → List NodeId} {sched : Nat → MpSched} (hr : MpRun D threads tasks E sched)
    {s : Bits (N + 1)} (e : Attr.reduceMP false true threads tasks E sched D inp root = some (D', s)) {n : Nat} (hn : D.root.row ≤ n) :
    hasEmpty D'.root s.root = true ↔ ZddMem D.spec n fun _ => 0 := by
  obtain ⟨D1, s1, e1, e2, hw', h⟩ := C100_bits (bdd := false) (zdd := true) hw (inp := inp) ht hr
  rw [e] at e1
  cases e1
  obtain ⟨D2, _, e3, _, hmem, _⟩ := C12_zddReduce D hw hr
  rw [e2] at e3
  cases e3
  rw [← hmem n hn, hw'.zddMem_iff]
  have : TMem D'.table n D'.root (fun _ => 0) ↔ ZeroChain D'.table D'.root := by
    rw [zeroChain_acc]
    constructor
    · rintro ⟨p, h1, h2, _⟩; exact ⟨p, h1, h2⟩
    · rintro ⟨p, h1, h2⟩; exact ⟨p, h1, h2, fun _ _ _ _ => rfl⟩
  rw [this]
  exact h.empty_iff hw'

/-- The same after a parallel `bddReduce()`: the function is 1 if all variables are 0. -/
theorem C100_zero {D D' : Dd (N + 1)} (hw : D.Wf) {inp : NodeId → Fin (N + 1) → Bool} {root : Bool} (ht : D.root.row = 0 → root = false)
    {threads tasks : Nat} {E : Nat → List NodeId} {sched : Nat → MpSched} (hr : MpRun D threads tasks E sched)
    {s : Bits (N + 1)} (e : Attr.reduceMP true false threads tasks E sched D inp root = some (D', s)) :
    hasEmpty D'.root s.root = true ↔ BddSat D.spec fun _ => 0 := by
  obtain ⟨D1, s1, e1, e2, hw', h⟩ := C100_bits (bdd := true) (zdd := false) hw (inp := inp) ht hr
  rw [e] at e1
  cases e1
  obtain ⟨D2, _, e3, _, hsat, _⟩ := C12_bddReduce D hw hr
  rw [e2] at e3
  cases e3
  rw [← hsat, hw'.bddSat_iff, h.empty_iff hw']
  exact zeroChain_acc

/-- A sequential reduction of the result of a parallel one, or the other way round, finds the bits as it needs them. -/
theorem C100_again {bdd zdd : Bool} {D : Dd (N + 1)} (hw : D.Wf) {inp : NodeId → Fin (N + 1) → Bool} {root : Bool} (ht : D.root.row = 0 → root = false)
    {threads tasks : Nat} {E : Nat → List NodeId} {sched : Nat → MpSched} (hr : MpRun D threads tasks E sched) (bdd' zdd' : Bool) :
    ∃ D' s D'' s'', Attr.reduceMP bdd zdd threads tasks E sched D inp root = some (D', s) ∧
      Attr.reduce bdd' zdd' D' s.output s.root = some (D'', s'') ∧ RightBits D'' s''.output s''.root := by
  obtain ⟨D', s, e, _, hw', h⟩ := C100_bits (bdd := bdd) (zdd := zdd) hw (inp := inp) ht hr
  obtain ⟨D'', s'', e', _, _, h'⟩ := C92_bits (bdd := bdd') (zdd := zdd') hw' (C92_again h)
  exact ⟨D', s, D'', s'', e, e', h'⟩

/-! ## Examples -/

/-- two threads and three tasks, in the order opposite to the sequential one -/
theorem attrDd_run : MpRun attrDd 2 3 (fun i => (rowEdges (attrDd.table.row i)).reverse) (fun i => sampleSched (attrDd.table.row i).length) :=
  ⟨by decide, by decide, fun _ _ => List.reverse_perm _, fun _ _ _ => sampleSched_ok _⟩

example : attrDd.Wf ∧ (attrDd.root.row = 0 → false = false) := ⟨attrDd_wf, fun _ => rfl⟩
example : ((Attr.reduceMP false true 2 3 (fun i => (rowEdges (attrDd.table.row i)).reverse) (fun i => sampleSched (attrDd.table.row i).length)
    attrDd (fun _ _ => false) false).map fun r => (r.1.root, r.2.root, (List.finRange 2).map (r.2.output r.1.root))) =
    some (⟨3, 0⟩, true, [true, false]) := by decide +kernel
example : ((Attr.reduceMP false true 2 3 (fun i => (rowEdges (dupDd.table.row i)).reverse) (fun i => sampleSched (dupDd.table.row i).length)
    dupDd (fun _ _ => false) false).map fun r => (r.1.root, r.2.root, (List.finRange 2).map (r.2.output r.1.root))) =
    some (⟨3, 0⟩, false, [false, false]) := by decide +kernel

end TdZdd
