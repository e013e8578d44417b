import Verif.ReducerFineProofs3

/-! The parallel reducer at single accesses: all levels. -/

namespace TdZdd

namespace Fine

open Conc

variable {N : Nat}

/-- what is claimed about the accesses at level `i`, which starts with `a` -/
def LevelSafe (bdd zdd : Bool) (threads tasks nr : Nat) (lower : List Nat) (s : Sched) (a : RSt (N + 1) × (Nat → Nat)) (i : Nat) : Prop :=
  Clean (mem nr i tasks) threads (prog1 bdd zdd i tasks s) (start a i) ∧
  ∀ w1 s1, par (mem nr i tasks) threads w1 (prog1 bdd zdd i tasks s) (start a i) = some s1 →
    Clean (mem nr i tasks) threads (prog2 i threads s (clear lower s1).1.uniq) (clear lower s1) ∧
    ∀ w2 s2, par (mem nr i tasks) threads w2 (prog2 i threads s (clear lower s1).1.uniq) (clear lower s1) = some s2 →
      ∀ w, ∃ t, exec (mem nr i tasks) threads w (prog3 i tasks s, sums tasks s2) = some t ∧ OnlyOut threads t.1

section
variable {bdd zdd : Bool} {threads tasks : Nat} {E : Nat → List NodeId} {sched : Nat → Sched} {D : Dd (N + 1)}

theorem index_spec (hw : D.Wf) (hE : ∀ i, 1 ≤ i → (E i).Perm (rowEdges (D.table.row i))) :
    ∃ hi lo, makeIndexOrd (D.table.numRows - 1) E = some (hi, lo) ∧
      ∀ i r, r ∈ lo i ↔ 1 ≤ i ∧ i ≤ D.table.numRows - 1 ∧ 0 < r ∧ r < i ∧ Refs (reduceInit D).input i r ∧ ∀ i', i < i' → i' ≤ D.table.numRows - 1 → ¬ Refs (reduceInit D).input i' r := by
  have hwt : Table.Wf ⟨D.table.numRows, (reduceInit D).input⟩ := Table.wf_congr (reduceInit_node D) hw.table
  have hin : ∀ i, 1 ≤ i → (reduceInit D).input i = D.table.row i := by
    intro i hi
    unfold reduceInit
    dsimp only
    rw [upd_eq_ne _ _ (by omega)]
  obtain ⟨hi0, lo, e0, hlo⟩ := makeIndexOrd_spec (E := fun i => if i = 0 then rowEdges ((reduceInit D).input 0) else E i)
    hwt.down (by
      intro i f
      by_cases h0 : i = 0
      · rw [if_pos h0, h0]
      · rw [if_neg h0, hin i (by omega)]
        exact (hE i (by omega)).mem_iff)
  rw [makeIndexOrd_congr (E' := E) fun i hi => if_neg (by omega)] at e0
  exact ⟨hi0, lo, e0, hlo⟩

/-- invariant between the levels -/
def Inv (bdd zdd : Bool) (D : Dd (N + 1)) (k : Nat) (a : RSt (N + 1) × (Nat → Nat)) : Prop :=
  (∃ nid, RInvN bdd zdd D.table.numRows D.root.row (reduceInit D).input D.root k nid a.1) ∧ a.2 0 = 0

theorem inv_start : Inv bdd zdd D 0 (reduceInit D, fun _ => 0) := by
  refine ⟨⟨id, redOf_zero fun r h0 => by unfold reduceInit; dsimp only; rw [if_neg (by omega)], fun _ _ => rfl,
    rfl, fun r h0 h1 => by omega, fun r h0 => by unfold reduceInit; dsimp only; rw [if_neg (by omega)], ?_, rfl⟩, rfl⟩
  by_cases h : 0 < D.root.row
  · rw [if_pos h]; rfl
  · rw [if_neg h]; rfl

open Classical in
theorem inv_step (hw : D.Wf) (htask : 0 < tasks) (hrow : D.root.row + tasks ≤ 2 ^ 20)
    (hs : ∀ i, 1 ≤ i → i ≤ D.root.row → (sched i).Ok threads tasks (D.table.row i).length) {lo : Nat → List Nat}
    (hlo : ∀ i r, r ∈ lo i ↔ 1 ≤ i ∧ i ≤ D.table.numRows - 1 ∧ 0 < r ∧ r < i ∧ Refs (reduceInit D).input i r ∧ ∀ i', i < i' → i' ≤ D.table.numRows - 1 → ¬ Refs (reduceInit D).input i' r)
    {t : Nat} (ht : t < D.root.row) {a : RSt (N + 1) × (Nat → Nat)} (h : Inv bdd zdd D t a) :
    LevelSafe bdd zdd threads tasks D.table.numRows (lo (t + 1)) (sched (t + 1)) a (t + 1) ∧
      ∃ a', level bdd zdd threads tasks D.table.numRows D.root.row lo sched a (t + 1) = some a' ∧ Inv bdd zdd D (t + 1) a' := by
  obtain ⟨st, base⟩ := a
  obtain ⟨⟨nid, h⟩, hb⟩ := h
  dsimp only at h hb
  have hwt : Table.Wf ⟨D.table.numRows, (reduceInit D).input⟩ := Table.wf_congr (reduceInit_node D) hw.table
  have hin : ∀ i, 1 ≤ i → (reduceInit D).input i = D.table.row i := by
    intro i hi
    unfold reduceInit
    dsimp only
    rw [upd_eq_ne _ _ (by omega)]
  obtain ⟨nd, hnd⟩ := hw.root.pos (by omega)
  have hrlt : D.root.row < D.table.numRows ∧ D.root.col < (D.table.row D.root.row).length :=
    nodeAt_lt (T := D.table.row) hnd
  have hrc : D.root.col < ((reduceInit D).input D.root.row).length := by
    rw [hin _ (by omega)]
    exact hrlt.2
  have hso := hs (t + 1) (by omega) (by omega)
  rw [← hin (t + 1) (by omega)] at hso
  have key := h.stepWith (lower := lo)
    (lev := fun st i => (level bdd zdd threads tasks D.table.numRows D.root.row lo sched (st, base) i).bind
      fun r => if r.2 0 = 0 ∧ LevelSafe bdd zdd threads tasks D.table.numRows (lo i) (sched i) (st, base) i then some r.1 else none) hwt
    (by
      intro c hp h1 h2
      have hsafe : LevelSafe bdd zdd threads tasks D.table.numRows (lo (t + 1)) (sched (t + 1)) (st, base) (t + 1) := by
        obtain ⟨q1, s1, p1, _, q2, s2, _, p2, _, _, _, q3, _⟩ := level_main (bdd := bdd) (zdd := zdd) hp h1 htask (by omega) hso hb
        refine ⟨q1, fun w1 s1' e1 => ?_⟩
        rw [p1] at e1
        obtain rfl := Option.some.inj e1
        refine ⟨q2, fun w2 s2' e2 => ?_⟩
        rw [p2] at e2
        obtain rfl := Option.some.inj e2
        exact q3
      obtain ⟨st', base', ids, out, e, hl, hb'⟩ := mpLevel_spec (bdd := bdd) (zdd := zdd) (threads := threads)
        (tasks := tasks) (sched := fun i => (sched i).coarse threads) hp h1 h2 htask (by omega) hso.coarse hb
      refine ⟨st', ids, out, ?_, hl⟩
      rw [level_eq hp h1 htask (by omega) hso hb, e, Option.bind_some, if_pos ⟨hb', hsafe⟩]) hlo rfl hrc (by omega)
  obtain ⟨nid', st', e, h'⟩ := key
  rw [Option.bind_eq_some_iff] at e
  obtain ⟨⟨st'', b''⟩, e, e'⟩ := e
  dsimp only at e'
  by_cases hb' : b'' 0 = 0 ∧ LevelSafe bdd zdd threads tasks D.table.numRows (lo (t + 1)) (sched (t + 1)) (st, base) (t + 1)
  · rw [if_pos hb'] at e'
    obtain rfl := Option.some.inj e'
    exact ⟨hb'.2, _, e, ⟨nid', h'⟩, hb'.1⟩
  · rw [if_neg hb'] at e'; cases e'

theorem fold_spec (hw : D.Wf) (htask : 0 < tasks) (hrow : D.root.row + tasks ≤ 2 ^ 20)
    (hs : ∀ i, 1 ≤ i → i ≤ D.root.row → (sched i).Ok threads tasks (D.table.row i).length) {lo : Nat → List Nat}
    (hlo : ∀ i r, r ∈ lo i ↔ 1 ≤ i ∧ i ≤ D.table.numRows - 1 ∧ 0 < r ∧ r < i ∧ Refs (reduceInit D).input i r ∧ ∀ i', i < i' → i' ≤ D.table.numRows - 1 → ¬ Refs (reduceInit D).input i' r)
    {k : Nat} (hk : k ≤ D.root.row) :
    ∃ a, (levelsUp k).foldlM (level bdd zdd threads tasks D.table.numRows D.root.row lo sched) (reduceInit D, fun _ => 0) = some a ∧ Inv bdd zdd D k a :=
  levelsUp_fold (Inv bdd zdd D) k _ inv_start fun t b ht hb => (inv_step hw htask hrow hs hlo (by omega) hb).2

theorem reduce_spec (hw : D.Wf) (htask : 0 < tasks) (hrow : D.root.row + tasks ≤ 2 ^ 20)
    (hE : ∀ i, 1 ≤ i → (E i).Perm (rowEdges (D.table.row i)))
    (hs : ∀ i, 1 ≤ i → i ≤ D.root.row → (sched i).Ok threads tasks (D.table.row i).length) :
    ∃ D' nid, reduce bdd zdd threads tasks E sched D = some D' ∧ D'.table.numRows = D.table.numRows ∧
      D'.table.row 0 = terminalRow (N + 1) ∧
      RedOf (fun c => delN bdd zdd c = true) D.table D.root.row nid D'.table ∧ D'.root = nid D.root := by
  obtain ⟨hi0, lo, e0, hlo⟩ := index_spec (E := E) hw hE
  obtain ⟨⟨st', base'⟩, e2, ⟨nid, h⟩, _⟩ := fold_spec (bdd := bdd) (zdd := zdd) hw htask hrow hs hlo (Nat.le_refl _)
  unfold reduce
  simp only [e0, Option.bind_eq_bind, Option.bind_some, e2]
  refine ⟨_, nid, rfl, rfl, h.out0, h.red.congr_table fun f h0 => (reduceInit_node D f h0).symm, ?_⟩
  unfold reduceResult
  dsimp only
  rw [h.root, if_neg (by omega)]

end

end Fine

end TdZdd
