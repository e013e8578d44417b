import Verif.ReducerProofs3
import Verif.ReduceCanon

/-! All levels of the binary reducer. -/

namespace TdZdd

variable {N : Nat}

theorem RedOf.rowLen_le {del : Node (N + 1) → Prop} {T : Table (N + 1)} {n : Nat} {nid : NodeId → NodeId}
    {out : Table (N + 1)} (h : RedOf del T n nid out) {i : Nat} (hi : 0 < i) : out.rowLen i ≤ T.rowLen i := by
  refine pigeonhole (R := fun c c' => nid ⟨i, c'⟩ = ⟨i, c⟩) ?_ ?_
  · intro c hc
    obtain ⟨nd, hn⟩ := Table.node?_isSome.2 hc
    obtain ⟨_, f, nd', h1, h2, h3⟩ := h.hit (g := ⟨i, c⟩) hi hn
    have ef : f = ⟨i, f.col⟩ := by cases f; simp only at h1; subst h1; rfl
    rw [ef] at h2 h3
    exact ⟨f.col, Table.node?_isSome.1 ⟨_, h2⟩, h3⟩
  · intro c c' j h1 h2
    rw [h1] at h2
    exact congrArg NodeId.col h2

section
variable {bdd zdd : Bool} {nr top : Nat} {T : Rows 2} {root : NodeId}

/-- the deletion rule of `algorithmR` as a proposition -/
def delP (bdd zdd : Bool) (c : Node 2) : Prop := delR bdd zdd c = true

/-- invariant between the levels: rows `1..k` are done -/
structure RInv (bdd zdd : Bool) (nr top : Nat) (T : Rows 2) (root : NodeId) (k : Nat) (nid : NodeId → NodeId)
    (st : RSt 2) : Prop where
  red : RedOf (delP bdd zdd) ⟨nr, T⟩ k nid ⟨nr, st.output⟩
  high : ∀ r, k < r → st.input r = T r
  len0 : (st.input 0).length = 2
  lens : ∀ r, 0 < r → r ≤ k → (bdd = true ∨ ∃ i', k < i' ∧ i' < nr ∧ Refs T i' r) →
    (st.input r).length = (T r).length
  br : ∀ {f nd}, f.row ≤ k → nodeAt nr st.input f = some nd → (nd 1).row ≤ k
  ids : ∀ r, 0 < r → r ≤ k → (∃ i', k < i' ∧ i' < nr ∧ Refs T i' r) →
    st.newId r = (List.range (T r).length).map fun j => some (nid ⟨r, j⟩)
  outHigh : ∀ r, k < r → st.output r = []
  root : st.root = if k < top then root else nid root
  out0 : st.output 0 = terminalRow 2

/-- what `makeReadyForSequentialReduction` guarantees: no edge points to a deletable node -/
def NoDelEdge (zdd : Bool) (nr : Nat) (T : Rows 2) : Prop :=
  ∀ {g nd b nd'}, 0 < g.row → nodeAt nr T g = some nd → 0 < (nd b).row → nodeAt nr T (nd b) = some nd' →
    zdd = true → nd' 1 ≠ .zero

/-- without BDD deletion, targets of edges keep their row -/
theorem RedOf.row_eq {k : Nat} {nid : NodeId → NodeId} {out : Rows 2} (hb : bdd = false)
    (h : RedOf (delP bdd zdd) ⟨nr, T⟩ k nid ⟨nr, out⟩) (hw : Table.Wf ⟨nr, T⟩) (he : NoDelEdge zdd nr T) :
    ∀ (r : Nat) {g nd b}, 0 < g.row → nodeAt nr T g = some nd → (nd b).row ≤ r → 0 < (nd b).row → (nd b).row ≤ k →
      (nid (nd b)).row = (nd b).row := by
  intro r
  induction r with
  | zero => intro g nd b _ _ h1 h2; omega
  | succ r ih =>
    intro g nd b h0 hn h1 h2 h3
    obtain ⟨nd', hn'⟩ := (hw.child (f := g) h0 hn b).1.pos h2
    rcases h.node h2 h3 hn' with ⟨hd, _⟩ | ⟨_, h4, _⟩
    · exfalso
      unfold delP delR at hd
      rw [hb] at hd
      simp only [Bool.false_and, Bool.false_or, Bool.and_eq_true, beq_iff_eq, Function.comp] at hd
      have hne := he h0 hn h2 hn' hd.1
      have hc := hw.child h2 hn' 1
      by_cases hz : (nd' 1).row = 0
      · rw [h.term hz] at hd; exact hne hd.2
      · have := ih h2 hn' (by omega) (by omega) (by omega) (b := 1)
        rw [hd.2] at this
        simp only [NodeId.zero] at this
        omega
    · exact h4

theorem RInv.stepWith {k : Nat} {nid : NodeId → NodeId} {st : RSt 2} {lower : Nat → List Nat}
    {lev : RSt 2 → Nat → Option (RSt 2)}
    (h : RInv bdd zdd nr top T root k nid st) (hw : Table.Wf ⟨nr, T⟩) (he : bdd = true ∨ NoDelEdge zdd nr T)
    (hlev : ∀ {c : Nat → Node 2}, Pre bdd zdd nr (k + 1) (T (k + 1)).length c (T (k + 1))
        { st with newId := upd st.newId (k + 1) (List.replicate (T (k + 1)).length none) } →
      (∀ r ∈ lower (k + 1), r < k + 1) → (k + 1 = top → st.root.col < (T (k + 1)).length) →
      ∃ st' ids out, lev st (k + 1) = some st' ∧
        LevelOk bdd zdd nr top (k + 1) (T (k + 1)).length c (lower (k + 1)) st st' ids out)
    (hlo : ∀ i r, r ∈ lower i ↔ 1 ≤ i ∧ i ≤ nr - 1 ∧ 0 < r ∧ r < i ∧ Refs T i r ∧
        ∀ i', i < i' → i' ≤ nr - 1 → ¬ Refs T i' r)
    (hroot : root.row = top) (hrv : root.col < (T top).length) (hk : k + 1 < nr) :
    ∃ nid' st', lev st (k + 1) = some st' ∧
      RInv bdd zdd nr top T root (k + 1) nid' st' := by
  have hnode : ∀ {j : Nat} {nd : Node 2}, (T (k + 1))[j]? = some nd → nodeAt nr T ⟨k + 1, j⟩ = some nd := by
    intro j nd hj; unfold nodeAt; rw [if_pos hk]; exact hj
  have hchild : ∀ {j : Nat} {nd : Node 2} (b : Fin 2), (T (k + 1))[j]? = some nd →
      Table.Valid ⟨nr, T⟩ (nd b) ∧ (nd b).row < k + 1 :=
    fun b hj => hw.child (f := ⟨k + 1, _⟩) (Nat.succ_pos _) (hnode hj) b
  have hrefs : ∀ {j : Nat} {nd : Node 2} (b : Fin 2), (T (k + 1))[j]? = some nd → Refs T (k + 1) (nd b).row :=
    fun b hj => ⟨_, mem_of_getElem?' hj, b, rfl⟩
  -- canonical children
  let c : Nat → Node 2 := fun j => match (T (k + 1))[j]? with
    | some nd => nid ∘ nd
    | none => fun _ => .zero
  have hc : ∀ {j : Nat} {nd : Node 2}, (T (k + 1))[j]? = some nd → c j = nid ∘ nd := by
    intro j nd hj; simp only [c, hj]
  have hval : ∀ {j : Nat} {nd : Node 2} (b : Fin 2), (T (k + 1))[j]? = some nd →
      Table.Valid ⟨nr, st.output⟩ (nid (nd b)) ∧ (nid (nd b)).row ≤ (nd b).row := by
    intro j nd b hj
    have := hchild b hj
    exact h.red.valid hw _ (Nat.le_refl _) (by omega) this.1
  have hp : Pre bdd zdd nr (k + 1) (T (k + 1)).length c (T (k + 1))
      { st with newId := upd st.newId (k + 1) (List.replicate (T (k + 1)).length none) } := by
    refine ⟨hk, h.high _ (by omega), rfl, ?_, ?_, ?_, ?_⟩
    · intro j nd b hj
      obtain ⟨h1, h2⟩ := hchild b hj
      refine ⟨h2, ?_⟩
      rw [hc hj]
      unfold remap
      by_cases h0 : (nd b).row = 0
      · rw [if_neg (by simpa using h0)]
        simp only [Function.comp]
        rw [h.red.term h0]
      · rw [if_pos h0]
        unfold RSt.look
        dsimp only [upd]
        rw [if_neg (by omega), h.ids _ (by omega) (by omega) ⟨k + 1, by omega, hk, hrefs b hj⟩]
        obtain ⟨nd', hn'⟩ := h1.pos (by omega)
        have hcol := (nodeAt_lt (T := T) hn').2
        rw [List.getElem?_map, List.getElem?_range hcol]
        rfl
    · intro j b hj
      obtain ⟨nd, hnd⟩ := getElem?_of_lt hj
      rw [hc hnd]
      have := (hval b hnd).2
      have := (hchild b hnd).2
      simp only [Function.comp]
      omega
    · intro j b hj
      obtain ⟨nd, hnd⟩ := getElem?_of_lt hj
      rw [hc hnd]
      have hv := hval b hnd
      have hlt := (hchild b hnd).2
      simp only [Function.comp]
      by_cases h0 : (nid (nd b)).row = 0
      · refine nodeAt_of_lt (by omega) ?_
        rw [h0, h.len0]
        rcases hv.1.row0 h0 with e | e <;> rw [e] <;> decide
      · obtain ⟨x, hx⟩ := hv.1.pos (by omega)
        have h1 := (Table.node?_isSome (i := (nid (nd b)).row) (c := (nid (nd b)).col)).1 ⟨x, hx⟩
        have h2 := h.red.rowLen_le (i := (nid (nd b)).row) (by omega)
        have h3 : Table.rowLen ⟨nr, T⟩ (nid (nd b)).row = (T (nid (nd b)).row).length := by
          unfold Table.rowLen
          rw [if_pos (by dsimp only; omega)]
        refine nodeAt_of_lt (by omega) ?_
        rw [h.lens _ (by omega) (by omega)]
        · omega
        · cases hbb : bdd
          · right
            refine ⟨k + 1, by omega, hk, ?_⟩
            rcases he with he | he
            · rw [hbb] at he; cases he
            · have := h.red.row_eq hbb hw he _ (Nat.succ_pos _) (hnode hnd) (Nat.le_refl _) (b := b) (by omega) (by omega)
              rw [this]
              exact hrefs b hnd
          · exact .inl rfl
    · intro f nd hf hn
      have := h.br (f := f) (by omega) hn
      omega
  have hrc : k + 1 = top → st.root.col < (T (k + 1)).length := by
    intro ht
    rw [h.root, if_pos (by omega), ht]
    exact hrv
  obtain ⟨st', ids, out, e, L⟩ := hlev hp
    (fun r hr => ((hlo _ _).1 hr).2.2.2.1) hrc
  refine ⟨fun f => if f.row = k + 1 then (ids[f.col]?).getD .zero else nid f, st', e, ?_⟩
  have hlow : ∀ {f : NodeId}, f.row < k + 1 →
      (if f.row = k + 1 then (ids[f.col]?).getD NodeId.zero else nid f) = nid f := by
    intro f hf; rw [if_neg (by omega)]
  have hcomp : ∀ {j : Nat} {nd : Node 2}, (T (k + 1))[j]? = some nd →
      (fun f : NodeId => if f.row = k + 1 then (ids[f.col]?).getD NodeId.zero else nid f) ∘ nd = c j := by
    intro j nd hj
    rw [hc hj]
    funext b
    exact hlow (hchild b hj).2
  have hout : ∀ r, r ≠ k + 1 → st'.output r = st.output r := by
    intro r hr; rw [L.out]; simp [upd, hr]
  have houti : st'.output (k + 1) = out := by rw [L.out]; simp [upd]
  have hnodeOut : ∀ {f : NodeId}, f.row ≠ k + 1 →
      Table.node? ⟨nr, st'.output⟩ f = Table.node? ⟨nr, st.output⟩ f := by
    intro f hf; unfold Table.node?; dsimp only; rw [hout _ hf]
  refine ⟨⟨?_, ?_, ?_, ?_⟩, ?_, ?_, ?_, ?_, ?_, ?_, ?_, by rw [hout 0 (by omega)]; exact h.out0⟩
  · intro f hf
    rw [hlow (by omega)]
    exact h.red.term hf
  · intro f nd h0 hn hnd
    by_cases hf : f.row = k + 1
    · have hj : (T (k + 1))[f.col]? = some nd := by
        unfold Table.node? at hnd
        dsimp only at hnd
        rw [hf, if_pos hk] at hnd
        exact hnd
      rw [hcomp hj]
      obtain ⟨id, h1, h2⟩ := L.node (getElem?_lt hj)
      rw [if_pos hf, h1]
      simp only [Option.getD_some]
      rcases h2 with ⟨h2, h3⟩ | ⟨h2, h3, h4⟩
      · left
        refine ⟨h2, ?_⟩
        rw [h3, hlow (hchild 0 hj).2, hc hj]; rfl
      · right
        refine ⟨by unfold delP; rw [h2]; decide, by rw [h3, hf], ?_⟩
        unfold Table.node?
        dsimp only
        rw [h3, if_pos hk, houti]
        exact h4
    · have hcomp' : (fun f : NodeId => if f.row = k + 1 then (ids[f.col]?).getD NodeId.zero else nid f) ∘ nd = nid ∘ nd := by
        funext b
        have := (hw.child h0 hnd b).2
        exact hlow (by omega)
      rw [hcomp']
      have := (hw.child h0 hnd 0).2
      rw [hlow (by omega), hlow (f := nd 0) (by omega)]
      rcases h.red.node h0 (by omega) hnd with h1 | ⟨h1, h2, h3⟩
      · exact .inl h1
      · exact .inr ⟨h1, h2, by rw [hnodeOut (by omega)]; exact h3⟩
  · intro g nd h0 hg
    by_cases hf : g.row = k + 1
    · have hj : out[g.col]? = some nd := by
        unfold Table.node? at hg
        dsimp only at hg
        rw [hf, if_pos hk, houti] at hg
        exact hg
      obtain ⟨j, h1, h2⟩ := L.hit hj
      obtain ⟨nd', hnd'⟩ := getElem?_of_lt h1
      refine ⟨by omega, ⟨k + 1, j⟩, nd', hf.symm, hnode hnd', ?_⟩
      dsimp only
      rw [if_pos rfl, h2, ← hf]
      rfl
    · rw [hnodeOut hf] at hg
      obtain ⟨h1, f, nd', h2, h3, h4⟩ := h.red.hit h0 hg
      exact ⟨by omega, f, nd', h2, h3, by rw [hlow (by omega)]; exact h4⟩
  · intro f g nd h0 hr hf hg
    by_cases e' : f.row = k + 1
    · have h1 : out[f.col]? = some nd := by
        unfold Table.node? at hf
        dsimp only at hf
        rw [e', if_pos hk, houti] at hf
        exact hf
      have h2 : out[g.col]? = some nd := by
        unfold Table.node? at hg
        dsimp only at hg
        rw [← hr, e', if_pos hk, houti] at hg
        exact hg
      have := L.nodup h1 h2
      cases f; cases g
      simp only at hr this
      rw [hr, this]
    · rw [hnodeOut e'] at hf
      rw [hnodeOut (by omega)] at hg
      exact h.red.nodup f g nd h0 hr hf hg
  · intro r hr
    rw [L.high r hr]
    exact h.high r (by omega)
  · rw [L.shape 0 (by omega) (.inr fun h' => by have := ((hlo _ _).1 h').2.2.1; omega)]
    exact h.len0
  · intro r h0 hr hb
    have hnl : bdd = true ∨ r ∉ lower (k + 1) := by
      rcases hb with hb | ⟨i', a1, a2, a3⟩
      · exact .inl hb
      · right
        intro hl
        exact ((hlo _ _).1 hl).2.2.2.2.2 i' a1 (by omega) a3
    rw [L.shape r hr hnl]
    by_cases e' : r = k + 1
    · rw [e', h.high _ (by omega)]
    · refine h.lens r h0 (by omega) ?_
      rcases hb with hb | ⟨i', a1, a2, a3⟩
      · exact .inl hb
      · exact .inr ⟨i', by omega, a2, a3⟩
  · intro f nd hf hn
    exact L.br hf hn
  · rintro r h0 hr ⟨i', a1, a2, a3⟩
    by_cases e' : r = k + 1
    · subst e'
      rw [L.newId]
      apply List.ext_getElem?
      intro j
      rw [List.getElem?_map, List.getElem?_map]
      by_cases hj : j < (T (k + 1)).length
      · obtain ⟨id, h1, _⟩ := L.node hj
        rw [List.getElem?_range hj, h1]
        simp [h1]
      · rw [List.getElem?_eq_none (by rw [L.len]; omega), List.getElem?_eq_none (by simp; omega)]
        rfl
    · rw [L.other r e', if_neg fun hl => ((hlo _ _).1 hl).2.2.2.2.2 i' a1 (by omega) a3,
        h.ids r h0 (by omega) ⟨i', by omega, a2, a3⟩]
      apply List.map_congr_left
      intro j _
      dsimp only
      rw [if_neg e']
  · intro r hr
    rw [hout r (by omega)]
    exact h.outHigh r (by omega)
  · have hr := L.root
    by_cases ht : k + 1 = top
    · rw [if_pos ht, h.root, if_pos (by omega)] at hr
      rw [if_neg (by omega), if_pos (by omega), hr]
      rfl
    · rw [if_neg ht, h.root] at hr
      rw [hr]
      by_cases hkt : k + 1 < top
      · rw [if_pos (by omega), if_pos hkt]
      · rw [if_neg (by omega), if_neg hkt, hlow]
        exact Nat.lt_of_le_of_ne (by omega) (by omega)

theorem RInv.step {k : Nat} {nid : NodeId → NodeId} {st : RSt 2} {lower : Nat → List Nat}
    (h : RInv bdd zdd nr top T root k nid st) (hw : Table.Wf ⟨nr, T⟩) (he : bdd = true ∨ NoDelEdge zdd nr T)
    (hlo : ∀ i r, r ∈ lower i ↔ 1 ≤ i ∧ i ≤ nr - 1 ∧ 0 < r ∧ r < i ∧ Refs T i r ∧
        ∀ i', i < i' → i' ≤ nr - 1 → ¬ Refs T i' r)
    (hroot : root.row = top) (hrv : root.col < (T top).length) (hk : k + 1 < nr) :
    ∃ nid' st', algorithmR bdd zdd nr top lower st (k + 1) = some st' ∧
      RInv bdd zdd nr top T root (k + 1) nid' st' :=
  h.stepWith hw he (fun hp h1 h2 => algorithmR_spec hp h1 h2) hlo hroot hrv hk

theorem levelsUp_fold {β : Type} {f : β → Nat → Option β} (P : Nat → β → Prop) (n : Nat) (b : β) (h0 : P 0 b)
    (hs : ∀ t b, t < n → P t b → ∃ b', f b (t + 1) = some b' ∧ P (t + 1) b') :
    ∃ b', (levelsUp n).foldlM f b = some b' ∧ P n b' := by
  obtain ⟨b', h1, h2⟩ := foldlM_up (f := fun b t => f b (t + 1)) P n b h0 hs
  refine ⟨b', ?_, h2⟩
  unfold levelsUp
  rw [List.foldlM_map]
  exact h1

end

end TdZdd
