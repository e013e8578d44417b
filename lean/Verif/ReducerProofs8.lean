import Verif.ReducerProofs7

/-! The whole reduction for any arity. -/

namespace TdZdd

variable {N : Nat} {bdd zdd : Bool} {nr top : Nat} {T : Rows (N + 1)} {root : NodeId}

/-- invariant between the levels: rows `1..k` are done -/
structure RInvN (bdd zdd : Bool) (nr top : Nat) (T : Rows (N + 1)) (root : NodeId) (k : Nat) (nid : NodeId → NodeId)
    (st : RSt (N + 1)) : Prop where
  red : RedOf (fun c => delN bdd zdd c = true) ⟨nr, T⟩ k nid ⟨nr, st.output⟩
  high : ∀ r, k < r → st.input r = T r
  id0 : st.newId 0 = [some .zero, some .one]
  ids : ∀ r, 0 < r → r ≤ k → (∃ i', k < i' ∧ i' < nr ∧ Refs T i' r) →
    st.newId r = (List.range (T r).length).map fun j => some (nid ⟨r, j⟩)
  outHigh : ∀ r, k < r → st.output r = []
  root : st.root = if k < top then root else nid root
  out0 : st.output 0 = terminalRow (N + 1)

theorem RInvN.stepWith {k : Nat} {nid : NodeId → NodeId} {st : RSt (N + 1)} {lower : Nat → List Nat}
    {lev : RSt (N + 1) → Nat → Option (RSt (N + 1))}
    (h : RInvN bdd zdd nr top T root k nid st) (hw : Table.Wf ⟨nr, T⟩)
    (hlev : ∀ {c : Nat → Node (N + 1)}, PreN nr (k + 1) (T (k + 1)).length c (T (k + 1))
        { st with newId := upd st.newId (k + 1) (List.replicate (T (k + 1)).length none) } →
      (∀ r ∈ lower (k + 1), r < k + 1) → (k + 1 = top → st.root.col < (T (k + 1)).length) →
      ∃ st' ids out, lev st (k + 1) = some st' ∧
        LevelN bdd zdd top (k + 1) (T (k + 1)).length c (lower (k + 1)) st st' ids out)
    (hlo : ∀ i r, r ∈ lower i ↔ 1 ≤ i ∧ i ≤ nr - 1 ∧ 0 < r ∧ r < i ∧ Refs T i r ∧
        ∀ i', i < i' → i' ≤ nr - 1 → ¬ Refs T i' r)
    (hroot : root.row = top) (hrv : root.col < (T top).length) (hk : k + 1 < nr) :
    ∃ nid' st', lev st (k + 1) = some st' ∧ RInvN bdd zdd nr top T root (k + 1) nid' st' := by
  have hnode : ∀ {j : Nat} {nd : Node (N + 1)}, (T (k + 1))[j]? = some nd →
      Table.node? ⟨nr, T⟩ ⟨k + 1, j⟩ = some nd := by
    intro j nd hj; unfold Table.node?; dsimp only; rw [if_pos hk]; exact hj
  have hchild : ∀ {j : Nat} {nd : Node (N + 1)} (b : Fin (N + 1)), (T (k + 1))[j]? = some nd →
      Table.Valid ⟨nr, T⟩ (nd b) ∧ (nd b).row < k + 1 :=
    fun b hj => hw.child (f := ⟨k + 1, _⟩) (Nat.succ_pos _) (hnode hj) b
  have hrefs : ∀ {j : Nat} {nd : Node (N + 1)} (b : Fin (N + 1)), (T (k + 1))[j]? = some nd →
      Refs T (k + 1) (nd b).row := fun b hj => ⟨_, mem_of_getElem?' hj, b, rfl⟩
  let c : Nat → Node (N + 1) := fun j => match (T (k + 1))[j]? with
    | some nd => nid ∘ nd
    | none => fun _ => .zero
  have hc : ∀ {j : Nat} {nd : Node (N + 1)}, (T (k + 1))[j]? = some nd → c j = nid ∘ nd := by
    intro j nd hj; simp only [c, hj]
  have hp : PreN nr (k + 1) (T (k + 1)).length c (T (k + 1))
      { st with newId := upd st.newId (k + 1) (List.replicate (T (k + 1)).length none) } := by
    refine ⟨hk, h.high _ (by omega), rfl, ?_, ?_⟩
    · intro j nd b hj
      obtain ⟨h1, h2⟩ := hchild b hj
      refine ⟨h2, ?_⟩
      rw [hc hj]
      unfold RSt.look
      dsimp only [upd]
      rw [if_neg (by omega)]
      simp only [Function.comp]
      by_cases h0 : (nd b).row = 0
      · rw [h.red.term h0, h0, h.id0]
        rcases h1.row0 h0 with e | e <;> rw [e] <;> rfl
      · rw [h.ids _ (by omega) (by omega) ⟨k + 1, by omega, hk, hrefs b hj⟩]
        obtain ⟨nd', hn'⟩ := h1.pos (by omega)
        have hcol := (nodeAt_lt (T := T) hn').2
        rw [List.getElem?_map, List.getElem?_range hcol]
        rfl
    · intro j b hj
      obtain ⟨nd, hnd⟩ := getElem?_of_lt hj
      rw [hc hnd]
      have h1 := hchild b hnd
      have := (h.red.valid hw _ (Nat.le_refl _) (by omega) h1.1).2
      simp only [Function.comp]
      omega
  have hrc : k + 1 = top → st.root.col < (T (k + 1)).length := by
    intro ht
    rw [h.root, if_pos (by omega), ht]
    exact hrv
  obtain ⟨st', ids, out, e, L⟩ := hlev hp
    (fun r hr => ((hlo _ _).1 hr).2.2.2.1) hrc
  have hkeepIds : ∀ r, r ≠ k + 1 → (∃ i', k + 1 < i' ∧ i' < nr ∧ Refs T i' r) → st'.newId r = st.newId r := by
    rintro r hr ⟨i', a1, a2, a3⟩
    rw [L.other r hr, if_neg fun hl => ((hlo _ _).1 hl).2.2.2.2.2 i' a1 (by omega) a3]
  refine ⟨nidUpd nid (k + 1) ids, st', e, ?_, ?_, ?_, ?_, ?_, ?_, ?_⟩
  · rw [L.out]; exact h.red.extend hw hk hc L.row
  · intro r hr
    rw [L.inp r (by omega)]
    exact h.high r (by omega)
  · rw [L.other 0 (by omega), if_neg fun hl => by have := ((hlo _ _).1 hl).2.2.1; omega]
    exact h.id0
  · rintro r h0 hr ⟨i', a1, a2, a3⟩
    by_cases e' : r = k + 1
    · subst e'
      rw [L.newId]
      apply List.ext_getElem?
      intro j
      rw [List.getElem?_map, List.getElem?_map]
      by_cases hj : j < (T (k + 1)).length
      · obtain ⟨id, h1, _⟩ := L.row.node hj
        rw [List.getElem?_range hj, h1]
        simp [nidUpd, h1]
      · rw [List.getElem?_eq_none (by rw [L.row.len]; omega), List.getElem?_eq_none (by simp; omega)]
        rfl
    · rw [hkeepIds r e' ⟨i', a1, a2, a3⟩, h.ids r h0 (by omega) ⟨i', by omega, a2, a3⟩]
      apply List.map_congr_left
      intro j _
      rw [nidUpd_ne e']
  · intro r hr
    rw [L.out]
    unfold upd
    rw [if_neg (by omega)]
    exact h.outHigh r (by omega)
  · have hr := L.root
    by_cases ht : k + 1 = top
    · rw [if_pos ht, h.root, if_pos (by omega)] at hr
      unfold nidUpd
      rw [if_neg (by omega), if_pos (by omega), hr]
      rfl
    · rw [if_neg ht, h.root] at hr
      rw [hr]
      by_cases hkt : k + 1 < top
      · rw [if_pos (by omega), if_pos hkt]
      · rw [if_neg (by omega), if_neg hkt, nidUpd_ne]
        omega
  · rw [L.out]
    unfold upd
    rw [if_neg (by omega)]
    exact h.out0

theorem RInvN.step {k : Nat} {nid : NodeId → NodeId} {st : RSt (N + 1)} {lower : Nat → List Nat}
    (h : RInvN bdd zdd nr top T root k nid st) (hw : Table.Wf ⟨nr, T⟩)
    (hlo : ∀ i r, r ∈ lower i ↔ 1 ≤ i ∧ i ≤ nr - 1 ∧ 0 < r ∧ r < i ∧ Refs T i r ∧
        ∀ i', i < i' → i' ≤ nr - 1 → ¬ Refs T i' r)
    (hroot : root.row = top) (hrv : root.col < (T top).length) (hk : k + 1 < nr) :
    ∃ nid' st', reduceLevel bdd zdd nr top lower st (k + 1) = some st' ∧
      RInvN bdd zdd nr top T root (k + 1) nid' st' :=
  h.stepWith hw (fun hp h1 h2 => reduceLevel_spec hp h1 h2) hlo hroot hrv hk

theorem reduceN_spec {D : Dd (N + 1)} (hw : D.Wf) :
    ∃ D' nid, reduceN bdd zdd D = some D' ∧ D'.table.numRows = D.table.numRows ∧
      D'.table.row 0 = terminalRow (N + 1) ∧
      RedOf (fun c => delN bdd zdd c = true) D.table D.root.row nid D'.table ∧ D'.root = nid D.root := by
  have hwt : Table.Wf ⟨D.table.numRows, (reduceInit D).input⟩ := Table.wf_congr (reduceInit_node D) hw.table
  obtain ⟨hi0, lo, e0, hlo⟩ := makeIndex_spec hwt.down
  unfold reduceN
  simp only [e0, Option.bind_eq_bind, Option.bind_some]
  have hstart : ∃ nid, RInvN bdd zdd D.table.numRows D.root.row (reduceInit D).input D.root 0 nid (reduceInit D) := by
    refine ⟨id, redOf_zero fun r h0 => by unfold reduceInit; dsimp only; rw [if_neg (by omega)], fun _ _ => rfl,
      rfl, fun r h0 h1 => by omega, fun r h0 => by unfold reduceInit; dsimp only; rw [if_neg (by omega)], ?_, rfl⟩
    by_cases h : 0 < D.root.row
    · rw [if_pos h]; rfl
    · rw [if_neg h]; rfl
  obtain ⟨st', e2, nid, h⟩ := levelsUp_fold
    (f := reduceLevel bdd zdd D.table.numRows D.root.row lo)
    (fun k st => ∃ nid, RInvN bdd zdd D.table.numRows D.root.row (reduceInit D).input D.root k nid st)
    D.root.row (reduceInit D) hstart
    (by
      rintro t st ht ⟨nid, h⟩
      obtain ⟨nd, hnd⟩ := hw.root.pos (by omega)
      have hrlt : D.root.row < D.table.numRows ∧ D.root.col < (D.table.row D.root.row).length :=
        nodeAt_lt (T := D.table.row) hnd
      have hrc : D.root.col < ((reduceInit D).input D.root.row).length := by
        unfold reduceInit upd
        dsimp only
        rw [if_neg (by omega)]
        exact hrlt.2
      obtain ⟨nid', st', e, h'⟩ := h.step hwt hlo rfl hrc (by omega)
      exact ⟨st', e, nid', h'⟩)
  simp only [e2, Option.bind_some]
  refine ⟨_, nid, rfl, rfl, h.out0, h.red.congr_table fun f h0 => (reduceInit_node D f h0).symm, ?_⟩
  unfold reduceResult
  dsimp only
  rw [h.root, if_neg (by omega)]

theorem delN_bdd (c : Node (N + 1)) : delN true false c = true ↔ delB c := by
  rw [← delM_bdd]
  unfold delN delM
  simp

theorem delN_zdd (c : Node (N + 1)) : delN false true c = true ↔ delZ c := by
  unfold delN delZ
  simp

theorem delN_qdd (c : Node (N + 1)) : delN false false c = true ↔ delQ c := by
  unfold delN delQ
  simp only [Bool.false_or, Bool.and_eq_true, beq_iff_eq, decide_eq_true_iff, Bool.false_eq_true, if_false]
  constructor
  · rintro ⟨h0, h⟩ b
    by_cases hb : b = 0
    · rw [hb]; exact h0
    · exact h b hb
  · exact fun h => ⟨h 0, fun b _ => h b⟩

theorem reduceN_bdd {D : Dd (N + 1)} (hw : D.Wf) : ∃ D', reduceN true false D = some D' ∧ IsRed delB D D' := by
  obtain ⟨D', nid, e, h1, h2, h3, h4⟩ := reduceN_spec (bdd := true) (zdd := false) hw
  exact ⟨D', e, h1, h2, nid, h3.congr_del delN_bdd, h4⟩

theorem reduceN_zdd {D : Dd (N + 1)} (hw : D.Wf) : ∃ D', reduceN false true D = some D' ∧ IsRed delZ D D' := by
  obtain ⟨D', nid, e, h1, h2, h3, h4⟩ := reduceN_spec (bdd := false) (zdd := true) hw
  exact ⟨D', e, h1, h2, nid, h3.congr_del delN_zdd, h4⟩

theorem reduceN_qdd {D : Dd (N + 1)} (hw : D.Wf) : ∃ D', reduceN false false D = some D' ∧ IsQRed D D' := by
  obtain ⟨D', nid, e, h1, h2, h3, h4⟩ := reduceN_spec (bdd := false) (zdd := false) hw
  exact ⟨D', e, h1, h2, D.table, id, nid, _, comp_refl, h3, fun c hc => (delN_qdd c).1 hc, h4⟩

end TdZdd
