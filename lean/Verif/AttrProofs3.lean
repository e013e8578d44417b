import Verif.AttrProofs2

/-! The bits between the levels, and the whole reduction of any arity. -/

namespace TdZdd

namespace Attr

variable {N : Nat}

/-- the bits after rows `1..k` are done; `E` gives the bit of every id of the result -/
structure BInv (top k : Nat) (E : NodeId → Bool) (st : RSt (N + 1)) (s : Bits (N + 1)) : Prop where
  term : ∀ f : NodeId, f.row = 0 → E f = false
  node : ∀ {f : NodeId} {nd : Node (N + 1)}, 0 < f.row → f.row ≤ k → (st.output f.row)[f.col]? = some nd →
    E f = hasEmpty (nd 0) (E (nd 0)) ∧ ∀ b, (nd b).row < f.row ∧ s.output f b = E (nd b)
  ids : ∀ {f id : NodeId}, f.row ≤ k → st.look f = some id → id.row ≤ k ∧ s.newId f.row f.col = E id
  root : ¬ k < top → st.root.row ≤ k ∧ s.root = E st.root

theorem BInv.extend {top k m : Nat} {E : NodeId → Bool} {st st' : RSt (N + 1)} {s s' : Bits (N + 1)}
    (h : BInv top k E st s) {del : Node (N + 1) → Bool} {c : Nat → Node (N + 1)} {ids : List NodeId} {out : List (Node (N + 1))}
    {lower : List Nat} (hc : ∀ {j : Nat} (b), j < m → (c j b).row < k + 1)
    (R : RowOk (fun c => del c = true) (k + 1) m c ids out) (hn : st'.newId (k + 1) = ids.map some)
    (ho : ∀ r, r ≠ k + 1 → st'.newId r = if r ∈ lower then [] else st.newId r) (hout : st'.output = upd st.output (k + 1) out)
    (hr : if k + 1 = top then ids[st.root.col]? = some st'.root else st'.root = st.root)
    (B : BLevel del top (k + 1) m c E out st.root.col s s') :
    ∃ E', BInv top (k + 1) E' st' s' := by
  let E' : NodeId → Bool := fun f => if f.row = k + 1 then
    (match out[f.col]? with | some nd => hasEmpty (nd 0) (E (nd 0)) | none => false) else E f
  have hlow : ∀ {f : NodeId}, f.row < k + 1 → E' f = E f := by
    intro f hf; simp only [E']; rw [if_neg (by omega)]
  have hhigh : ∀ {f : NodeId} {nd}, f.row = k + 1 → out[f.col]? = some nd → E' f = hasEmpty (nd 0) (E (nd 0)) := by
    intro f nd hf hq; simp only [E']; rw [if_pos hf, hq]
  have hmem : ∀ {q : Nat} {nd}, out[q]? = some nd → ∃ j, j < m ∧ nd = c j := by
    intro q nd hq
    obtain ⟨j, hj, hjq⟩ := R.hit hq
    obtain ⟨id, g1, g2⟩ := R.node hj
    rw [hjq] at g1
    cases g1
    have := hc (j := j) 0 hj
    rcases g2 with ⟨_, g2⟩ | ⟨_, _, g2⟩
    · rw [← g2] at this; exact absurd this (Nat.lt_irrefl _)
    · dsimp only at g2; rw [hq] at g2; cases g2; exact ⟨j, hj, rfl⟩
  have hids : ∀ {j : Nat} {id}, ids[j]? = some id → id.row ≤ k + 1 ∧ s'.newId (k + 1) j = E' id := by
    intro j id hj
    have hjm : j < m := by rw [← R.len]; exact getElem?_lt hj
    obtain ⟨id', g1, g2⟩ := R.node hjm
    rw [hj] at g1
    cases g1
    rw [B.ids hjm]
    unfold bitOf
    have := hc (j := j) 0 hjm
    rcases g2 with ⟨g2, g3⟩ | ⟨g2, g3, g4⟩
    · subst g3; rw [if_pos g2, hlow this]; exact ⟨by omega, rfl⟩
    · rw [if_neg g2, hhigh g3 g4]; exact ⟨by omega, rfl⟩
  refine ⟨E', ?_, ?_, ?_, ?_⟩
  · intro f hf; rw [hlow (by omega)]; exact h.term f hf
  · intro f nd h0 h1 h2
    rw [hout] at h2
    unfold upd at h2
    by_cases hf : f.row = k + 1
    · rw [if_pos hf] at h2
      obtain ⟨j, hj, rfl⟩ := hmem h2
      have hef : f = ⟨k + 1, f.col⟩ := by cases f; simp only at hf; subst hf; rfl
      refine ⟨by rw [hhigh hf h2, hlow (hc 0 hj)], fun b => ⟨by rw [hf]; exact hc b hj, ?_⟩⟩
      rw [hlow (hc b hj), hef]
      exact B.out h2 b
    · rw [if_neg hf] at h2
      obtain ⟨g1, g2⟩ := h.node h0 (by omega) h2
      refine ⟨by rw [hlow (by omega), hlow (by have := (g2 0).1; omega)]; exact g1, fun b => ⟨(g2 b).1, ?_⟩⟩
      rw [B.low f hf, hlow (by have := (g2 b).1; omega)]
      exact (g2 b).2
  · intro f id h1 h2
    by_cases hf : f.row = k + 1
    · unfold RSt.look at h2
      rw [hf, hn, List.getElem?_map] at h2
      cases hq : ids[f.col]? with
      | none => rw [hq] at h2; cases h2
      | some id' =>
        rw [hq] at h2
        cases h2
        rw [hf]
        exact hids hq
    · have h3 : st.look f = some id := by
        unfold RSt.look at h2 ⊢
        rw [ho _ hf] at h2
        by_cases hl : f.row ∈ lower
        · rw [if_pos hl] at h2; cases h2
        · rw [if_neg hl] at h2; exact h2
      obtain ⟨g1, g2⟩ := h.ids (by omega) h3
      refine ⟨by omega, ?_⟩
      rw [B.other _ hf, g2, hlow (by omega)]
  · intro ht
    have hB := B.root
    by_cases e : k + 1 = top
    · rw [if_pos e] at hr hB
      obtain ⟨g1, g2⟩ := hids hr
      exact ⟨g1, by rw [hB, g2]⟩
    · rw [if_neg e] at hr hB
      obtain ⟨g1, g2⟩ := h.root (by omega)
      rw [hr, hB, hlow (by omega)]
      exact ⟨by omega, g2⟩

theorem BInv.start {D : Dd (N + 1)} {root : Bool}
    (hroot : D.root.row = 0 → root = false) {st : RSt (N + 1)} (hn : st.newId = (reduceInit D).newId) (hr : st.root = D.root)
    {s : Bits (N + 1)} (h1 : s.newId = fun _ _ => false) (h2 : s.root = root) :
    BInv D.root.row 0 (fun _ => false) st s := by
  refine ⟨fun _ _ => rfl, fun h0 h1 => by omega, ?_, ?_⟩
  · intro f id hf hl
    refine ⟨?_, by rw [h1]⟩
    unfold RSt.look at hl
    have hf0 : f.row = 0 := by omega
    rw [hf0, hn] at hl
    unfold reduceInit at hl
    dsimp only at hl
    rw [if_pos rfl] at hl
    rcases hq : f.col with _ | _ | q
    · rw [hq] at hl; cases hl; exact Nat.le_refl _
    · rw [hq] at hl; cases hl; exact Nat.le_refl _
    · rw [hq] at hl; simp at hl
  · intro h
    rw [hr, h2]
    exact ⟨by omega, hroot (by omega)⟩

/-- the bits of a finished structure: `E` is the bit of every id, and it is a function of the 0-branch -/
def Good (D : Dd (N + 1)) (s : Bits (N + 1)) : Prop :=
  ∃ E : NodeId → Bool, (∀ f : NodeId, f.row = 0 → E f = false) ∧ s.root = E D.root ∧
    ∀ {f : NodeId} {nd : Node (N + 1)}, 0 < f.row → D.table.node? f = some nd →
      E f = hasEmpty (nd 0) (E (nd 0)) ∧ ∀ b, s.output f b = E (nd b)

open Classical in
theorem reduceN_bits {bdd zdd : Bool} {D : Dd (N + 1)} (hw : D.Wf) {inp : NodeId → Fin (N + 1) → Bool} {root : Bool}
    (hr0 : D.root.row = 0 → root = false) :
    ∃ D' s, reduceN bdd zdd D inp root = some (D', s) ∧ TdZdd.reduceN bdd zdd D = some D' ∧ Good D' s := by
  have hwt : Table.Wf ⟨D.table.numRows, (reduceInit D).input⟩ := Table.wf_congr (reduceInit_node D) hw.table
  obtain ⟨hi0, lo, e0, hlo⟩ := makeIndex_spec hwt.down
  have hstart : ∃ nid, RInvN bdd zdd D.table.numRows D.root.row (reduceInit D).input D.root 0 nid (reduceInit D) := by
    refine ⟨id, redOf_zero fun r h0 => by unfold reduceInit; dsimp only; rw [if_neg (by omega)], fun _ _ => rfl,
      rfl, fun r h0 h1 => by omega, fun r h0 => by unfold reduceInit; dsimp only; rw [if_neg (by omega)], ?_, rfl⟩
    by_cases h : 0 < D.root.row
    · rw [if_pos h]; rfl
    · rw [if_neg h]; rfl
  obtain ⟨y, e2, ⟨nid, h⟩, E, hE⟩ := levelsUp_fold
    (f := reduceLevel bdd zdd D.table.numRows D.root.row lo)
    (fun k (x : RSt (N + 1) × Bits (N + 1)) =>
      (∃ nid, RInvN bdd zdd D.table.numRows D.root.row (reduceInit D).input D.root k nid x.1) ∧
      ∃ E, BInv D.root.row k E x.1 x.2)
    D.root.row (reduceInit D, start inp root) ⟨hstart, _, BInv.start hr0 rfl rfl rfl rfl⟩
    (by
      rintro t ⟨st, s⟩ ht ⟨⟨nid, h⟩, E, hE⟩
      obtain ⟨nd, hnd⟩ := hw.root.pos (by omega)
      have hrlt : D.root.row < D.table.numRows ∧ D.root.col < (D.table.row D.root.row).length :=
        nodeAt_lt (T := D.table.row) hnd
      have hrc : D.root.col < ((reduceInit D).input D.root.row).length := by
        unfold reduceInit upd
        dsimp only
        rw [if_neg (by omega)]
        exact hrlt.2
      obtain ⟨nid', st', e, h'⟩ := h.stepWith (lower := lo) (lev := fun st0 i => if
          ∃ st' s' E', reduceLevel bdd zdd D.table.numRows D.root.row lo (st, s) i = some (st', s') ∧
            TdZdd.reduceLevel bdd zdd D.table.numRows D.root.row lo st i = some st' ∧ BInv D.root.row i E' st' s'
          then TdZdd.reduceLevel bdd zdd D.table.numRows D.root.row lo st0 i else none) hwt (by
        intro c hp h1 h2
        obtain ⟨st', s', ids, out, e, L, B⟩ := reduceLevel_bits (bdd := bdd) (zdd := zdd) (top := D.root.row) (lower := lo) (s0 := s) (E := E)
          hp h1 h2 (by
            intro j nd b hj
            obtain ⟨g1, g2⟩ := hp.map b hj
            refine (hE.ids (f := nd b) (by omega) ?_).2
            rw [← g2]
            unfold RSt.look upd
            dsimp only
            rw [if_neg (by omega)])
        have ep : TdZdd.reduceLevel bdd zdd D.table.numRows D.root.row lo st (t + 1) = some st' := by
          rw [← reduceLevel_fst bdd zdd D.table.numRows D.root.row lo (st, s) (t + 1), e]; rfl
        obtain ⟨E', hE'⟩ := hE.extend (fun b hj => hp.low b hj) L.row L.newId L.other L.out L.root B
        refine ⟨st', ids, out, ?_, L⟩
        exact (if_pos ⟨st', s', E', e, ep, hE'⟩).trans ep) hlo rfl hrc (by omega)
      dsimp only at e
      split at e
      · rename_i hex
        obtain ⟨st2, s2, E2, g1, g2, g3⟩ := hex
        rw [g2] at e
        cases e
        exact ⟨_, g1, ⟨nid', h'⟩, E2, g3⟩
      · cases e)
  have e : reduceN bdd zdd D inp root = some (reduceResult D y.1, y.2) := by
    unfold reduceN
    simp only [e0, Option.bind_eq_bind, Option.bind_some, e2]
  refine ⟨_, _, e, ?_, E, hE.term, ?_, ?_⟩
  · rw [← reduceN_fst bdd zdd D inp root, e]; rfl
  · exact (hE.root (by omega)).2
  · intro f nd h0 hn
    have hn' : nodeAt D.table.numRows y.1.output f = some nd := hn
    have hf : f.row ≤ D.root.row := by
      apply Classical.byContradiction
      intro hlt
      have := (nodeAt_lt hn').2
      rw [h.outHigh _ (by omega)] at this
      simp at this
    have hq : (y.1.output f.row)[f.col]? = some nd := by
      unfold nodeAt at hn'
      by_cases hc : f.row < D.table.numRows
      · rw [if_pos hc] at hn'; exact hn'
      · rw [if_neg hc] at hn'; cases hn'
    obtain ⟨g1, g2⟩ := hE.node h0 hf hq
    exact ⟨g1, fun b => (g2 b).2⟩

end Attr

end TdZdd
