import Verif.ReducerProofs1

/-! Second and third loop of `algorithmR`. -/

namespace TdZdd

section
variable {bdd zdd : Bool} {nr i m : Nat} {c : Nat → Node 2}

/-- invariant of the second loop: the kept nodes in `Dn` are numbered, `outs` lists the
representatives in the order of their new columns; scratch marks `(i, j)` have `j < t` -/
structure I2 (bdd zdd : Bool) (nr i m : Nat) (c : Nat → Node 2) (st0 : RSt 2) (Dn : Nat → Prop) (t : Nat)
    (outs : List Nat) (st : RSt 2) : Prop where
  idDel : ∀ {j : Nat}, j < m → delR bdd zdd (c j) = true →
    (st.newId i)[j]? = some (some (c j 0)) ∧ nodeAt nr st.input ⟨i, j⟩ = some (c j)
  idTodo : ∀ {j : Nat}, j < m → delR bdd zdd (c j) = false → ¬ Dn j →
    nodeAt nr st.input ⟨i, j⟩ = some (c j) ∧
    ∃ k, IsNext bdd zdd m c (j + 1) (c j 0) k ∧ (st.newId i)[j]? = some (some ⟨i + 1, k⟩)
  idDone : ∀ {j : Nat}, j < m → delR bdd zdd (c j) = false → Dn j →
    (∃ q : Nat, outs[q]? = some j ∧ (st.newId i)[j]? = some (some ⟨i, q⟩) ∧
      nodeAt nr st.input ⟨i, j⟩ = some (c j)) ∨
    (∃ k, k ∈ outs ∧ c k = c j ∧ j ∉ outs ∧ (st.newId i)[j]? = some (some .zero) ∧
      nodeAt nr st.input ⟨i, j⟩ = some (pair ⟨i, k⟩ ⟨i, m⟩))
  outsOk : ∀ {k}, k ∈ outs → k < m ∧ delR bdd zdd (c k) = false ∧ Dn k
  uniq : ∀ {q q' k k' : Nat}, outs[q]? = some k → outs[q']? = some k' → c k = c k' → q = q'
  high : ∀ r, i < r → st.input r = st0.input r
  shape : ∀ r, (st.input r).length = (st0.input r).length
  scr : ∀ {f nd}, f.row < i → nodeAt nr st.input f = some nd →
    (nd 1).row < i ∨ nd 1 = ⟨i, m⟩ ∨ ∃ j, j < t ∧ nd 1 = ⟨i, j⟩
  ids : ∀ r, r ≠ i → st.newId r = st0.newId r
  idlen : (st.newId i).length = m
  out : st.output = st0.output
  root : st.root = st0.root

/-- nodes whose 0-child also occurs before `t` -/
def DoneBelow (bdd zdd : Bool) (c : Nat → Node 2) (t k : Nat) : Prop := ∃ j, j < t ∧ Kept bdd zdd c j (c k 0)

/-- the done nodes in the inner loop -/
def DoneIn (bdd zdd : Bool) (c : Nat → Node 2) (t k j : Nat) : Prop :=
  DoneBelow bdd zdd c t j ∨ Kept bdd zdd c j (c t 0) ∧ j < k

theorem I2.congr {st0 : RSt 2} {Dn Dn' : Nat → Prop} {t : Nat} {outs : List Nat} {st : RSt 2}
    (h : I2 bdd zdd nr i m c st0 Dn t outs st)
    (he : ∀ j, j < m → delR bdd zdd (c j) = false → (Dn j ↔ Dn' j)) :
    I2 bdd zdd nr i m c st0 Dn' t outs st := by
  refine ⟨h.idDel, ?_, ?_, ?_, h.uniq, h.high, h.shape, h.scr, h.ids, h.idlen, h.out, h.root⟩
  · intro j h1 h2 h3; exact h.idTodo h1 h2 (by rw [he j h1 h2]; exact h3)
  · intro j h1 h2 h3; exact h.idDone h1 h2 (by rw [he j h1 h2]; exact h3)
  · intro k hk
    obtain ⟨h1, h2, h3⟩ := h.outsOk hk
    exact ⟨h1, h2, (he k h1 h2).1 h3⟩

/-- invariant of the inner loop at list element `k` -/
structure InnerInv (bdd zdd : Bool) (nr i m : Nat) (c : Nat → Node 2) (st0 : RSt 2) (t k : Nat) (outs : List Nat) (st : RSt 2) :
    Prop where
  inv : I2 bdd zdd nr i m c st0 (DoneIn bdd zdd c t k) (t + 1) outs st
  marks : ∀ {f nd}, f.row < i → nodeAt nr st.input f = some nd →
    (nd 1 = ⟨i, t⟩ → ∃ k', nd 0 = ⟨i, k'⟩ ∧ k' ∈ outs ∧ c k' 0 = c t 0 ∧ c k' 1 = f) ∧
    (∀ k', k' < k → Kept bdd zdd c k' (c t 0) → c k' 1 = f → nd 1 = ⟨i, t⟩)

/-- one turn of the inner loop -/
theorem inner_step {st0 : RSt 2}
    (hlow : ∀ {j : Nat} (b : Fin 2), j < m → (c j b).row < i)
    (hex : ∀ {j : Nat} (b : Fin 2), j < m → ∃ nd, nodeAt nr st0.input (c j b) = some nd)
    {t : Nat} (hnt : ¬ DoneBelow bdd zdd c t t) {k : Nat} {outs : List Nat} {st : RSt 2} (htk : t ≤ k) (hkm : k < m)
    (hkk : Kept bdd zdd c k (c t 0)) (hinv : InnerInv bdd zdd nr i m c st0 t k outs st) :
    ∃ k2 c1, nodeAt nr st.input ⟨i, k⟩ = some (c k) ∧ nodeAt nr st.input (c k 1) = some c1 ∧
      st.look ⟨i, k⟩ = some ⟨i + 1, k2⟩ ∧ k < k2 ∧ (k2 < m ∧ Kept bdd zdd c k2 (c t 0) ∨ k2 = m) ∧ k < (st.newId i).length ∧ k ∉ outs ∧
      ((c1 1 = ⟨i, t⟩ ∧ ∃ T1, setNode nr st.input ⟨i, k⟩ (pair (c1 0) ⟨i, m⟩) = some T1 ∧
          InnerInv bdd zdd nr i m c st0 t k2 outs ⟨T1, upd st.newId i ((st.newId i).set k (some .zero)), st.output, st.root⟩) ∨
       (c1 1 ≠ ⟨i, t⟩ ∧ ∃ T1 T2, setCell nr st.input (c k 1) 1 ⟨i, t⟩ = some T1 ∧ setCell nr T1 (c k 1) 0 ⟨i, k⟩ = some T2 ∧
          InnerInv bdd zdd nr i m c st0 t k2 (outs ++ [k])
            ⟨T2, upd st.newId i ((st.newId i).set k (some ⟨i, outs.length⟩)), st.output, st.root⟩)) := by
  have hne : ∀ {f : NodeId} {j : Nat}, f.row < i → f ≠ ⟨i, j⟩ := by
    intro f j hf e; rw [e] at hf; exact absurd hf (Nat.lt_irrefl _)
  have hne' : ∀ {f : NodeId} {j : Nat}, f.row < i → (⟨i, j⟩ : NodeId) ≠ f := fun hf e => hne hf e.symm
  have h := hinv.inv
  have hs := @hinv.marks
  have hkd : ¬ DoneIn bdd zdd c t k k := by
    rintro (⟨j, h1, h2⟩ | ⟨_, h1⟩)
    · exact hnt ⟨j, h1, by rw [hkk.2] at h2; exact h2⟩
    · omega
  obtain ⟨hat, k2, hnx, hid⟩ := h.idTodo hkm hkk.1 hkd
  have hg1 := hlow (j := k) 1 hkm
  obtain ⟨c1, hc1⟩ : ∃ c1, nodeAt nr st.input (c k 1) = some c1 := by
    obtain ⟨nd, hnd⟩ := hex (j := k) 1 hkm
    have := nodeAt_lt hnd
    exact nodeAt_of_lt this.1 (by rw [h.shape]; exact this.2)
  have hlook : st.look ⟨i, k⟩ = some ⟨i + 1, k2⟩ := by unfold RSt.look; simp [hid]
  have hk2 : t ≤ k2 ∧ (k2 < m ∧ Kept bdd zdd c k2 (c t 0) ∨ k2 = m) := by
    rcases hnx with ⟨a1, a2, a3, _⟩ | ⟨a1, _⟩
    · exact ⟨by omega, .inl ⟨a2, by rw [hkk.2] at a3; exact a3⟩⟩
    · exact ⟨by omega, .inr a1⟩
  have hk2' : k < k2 := by rcases hnx with ⟨a1, a2, _⟩ | ⟨a1, _⟩ <;> omega
  -- being done up to `k2` means being done up to `k` or being `k`
  have hstep : ∀ j, DoneIn bdd zdd c t k2 j ↔ DoneIn bdd zdd c t k j ∨ j = k := by
    intro j
    constructor
    · rintro (h1 | ⟨h1, h2⟩)
      · exact .inl (.inl h1)
      · by_cases e : j = k
        · exact .inr e
        · refine .inl (.inr ⟨h1, ?_⟩)
          apply Classical.byContradiction
          intro hjk
          have h1' : Kept bdd zdd c j (c k 0) := by rw [hkk.2]; exact h1
          rcases hnx with ⟨_, _, _, a4⟩ | ⟨a1, a2⟩
          · exact a4 j (by omega) h2 h1'
          · exact a2 j (by omega) (by omega) h1'
    · rintro ((h1 | ⟨h1, h2⟩) | rfl)
      · exact .inl h1
      · refine .inr ⟨h1, ?_⟩
        rcases hnx with ⟨a1, _⟩ | ⟨a1, _⟩ <;> omega
      · refine .inr ⟨hkk, ?_⟩
        rcases hnx with ⟨a1, _⟩ | ⟨a1, _⟩ <;> omega
  refine ⟨k2, c1, hat, hc1, hlook, hk2', hk2.2, by rw [h.idlen]; exact hkm, fun hin => hkd (h.outsOk hin).2.2, ?_⟩
  by_cases hmark : c1 1 = ⟨i, t⟩
  · -- duplicate
    obtain ⟨k', e0, e1, e2, e3⟩ := (hs hg1 hc1).1 hmark
    obtain ⟨T1, w, w1⟩ := setNode_spec (pair (c1 0) ⟨i, m⟩) hat
    have low1 : ∀ {f : NodeId}, f.row < i → nodeAt nr T1 f = nodeAt nr st.input f := by
      intro f hf; rw [w1.at', if_neg (hne hf)]
    have at1 : ∀ {j : Nat}, j ≠ k → nodeAt nr T1 ⟨i, j⟩ = nodeAt nr st.input ⟨i, j⟩ := by
      intro j hj
      rw [w1.at', if_neg (by intro e'; exact hj (congrArg NodeId.col e'))]
    have hid' : ∀ {j : Nat}, j ≠ k → ((st.newId i).set k (some NodeId.zero))[j]? = (st.newId i)[j]? :=
      fun hj => List.getElem?_set_ne (by omega)
    refine .inl ⟨hmark, T1, w, ⟨?_, ?_, ?_, ?_, h.uniq, ?_, ?_, ?_, ?_, ?_, h.out, h.root⟩, ?_⟩
    · intro j h1 h2
      have hjk : j ≠ k := by rintro rfl; rw [hkk.1] at h2; cases h2
      dsimp only [upd]
      rw [if_pos rfl, hid' hjk, at1 hjk]
      exact h.idDel h1 h2
    · intro j h1 h2 h3
      have hjk : j ≠ k := by rintro rfl; exact h3 ((hstep _).2 (.inr rfl))
      dsimp only [upd]
      rw [if_pos rfl, hid' hjk, at1 hjk]
      exact h.idTodo h1 h2 fun hd => h3 ((hstep _).2 (.inl hd))
    · intro j h1 h2 h3
      dsimp only [upd]
      rw [if_pos rfl]
      by_cases hjk : j = k
      · subst hjk
        refine .inr ⟨k', e1, ?_, fun hin => hkd (h.outsOk hin).2.2, ?_, ?_⟩
        · rw [← pair_eta (c k'), ← pair_eta (c j), e2, e3, hkk.2]
        · exact List.getElem?_set_self (by rw [h.idlen]; exact hkm)
        · rw [w1.at', if_pos rfl, e0]
      · rw [hid' hjk, at1 hjk]
        exact h.idDone h1 h2 (((hstep _).1 h3).resolve_right hjk)
    · intro k0 hk0
      obtain ⟨a1, a2, a3⟩ := h.outsOk hk0
      exact ⟨a1, a2, (hstep _).2 (.inl a3)⟩
    · intro r hr; rw [← h.high r hr]; exact w1.row r (by dsimp only; omega)
    · intro r; rw [← h.shape r]; exact w1.len r
    · intro f nd hf hn; dsimp only at hn; rw [low1 hf] at hn; exact h.scr hf hn
    · intro r hr; dsimp only [upd]; rw [if_neg hr]; exact h.ids r hr
    · dsimp only [upd]; rw [if_pos rfl, List.length_set]; exact h.idlen
    · intro f nd hf hn
      dsimp only at hn
      rw [low1 hf] at hn
      refine ⟨(hs hf hn).1, ?_⟩
      intro k3 h1 h2 h3
      by_cases e : k3 = k
      · subst e
        rw [← h3, hc1] at hn
        cases hn
        exact hmark
      · refine (hs hf hn).2 k3 ?_ h2 h3
        have := (hstep k3).1 (.inr ⟨h2, h1⟩)
        rcases this with (⟨j, b1, b2⟩ | ⟨_, b⟩) | b
        · exact (hnt ⟨j, b1, by rw [h2.2] at b2; exact b2⟩).elim
        · exact b
        · exact absurd b e
  · -- new representative
    obtain ⟨T1, w, w1⟩ := setCell_spec 1 ⟨i, t⟩ hc1
    obtain ⟨T2, w', w2⟩ := setCell_spec (nr := nr) (T := T1) (f := c k 1) 0 ⟨i, k⟩
      (by rw [w1.at', if_pos rfl])
    have hT2 : ∀ g, nodeAt nr T2 g = if g = c k 1 then some (pair ⟨i, k⟩ ⟨i, t⟩) else nodeAt nr st.input g := by
      intro g
      rw [w2.at', w1.at']
      by_cases e : g = c k 1
      · rw [if_pos e, if_pos e]
        congr 1
        funext b
        unfold pair
        by_cases hb : b = 0
        · rw [if_pos hb, if_pos hb]
        · rw [if_neg hb, if_neg hb, if_pos (show b = 1 by omega)]
      · rw [if_neg e, if_neg e, if_neg e]
    have at1 : ∀ {j : Nat}, nodeAt nr T2 ⟨i, j⟩ = nodeAt nr st.input ⟨i, j⟩ := by
      intro j; rw [hT2, if_neg (hne' hg1)]
    have hid' : ∀ {j : Nat}, j ≠ k →
        ((st.newId i).set k (some (⟨i, outs.length⟩ : NodeId)))[j]? = (st.newId i)[j]? :=
      fun hj => List.getElem?_set_ne (by omega)
    have hfresh : ∀ k0 ∈ outs, c k0 ≠ c k := by
      intro k0 h0 he
      obtain ⟨a1, a2, a3⟩ := h.outsOk h0
      rcases a3 with ⟨j, b1, b2⟩ | ⟨b1, b2⟩
      · rw [he, hkk.2] at b2; exact hnt ⟨j, b1, b2⟩
      · exact hmark ((hs hg1 hc1).2 k0 b2 b1 (by rw [he]))
    refine .inr ⟨hmark, T1, T2, w, w', ?_, ?_⟩
    · refine ⟨?_, ?_, ?_, ?_, ?_, ?_, ?_, ?_, ?_, ?_, h.out, h.root⟩
      · intro j h1 h2
        have hjk : j ≠ k := by rintro rfl; rw [hkk.1] at h2; cases h2
        dsimp only [upd]
        rw [if_pos rfl, hid' hjk, at1]
        exact h.idDel h1 h2
      · intro j h1 h2 h3
        have hjk : j ≠ k := by rintro rfl; exact h3 ((hstep _).2 (.inr rfl))
        dsimp only [upd]
        rw [if_pos rfl, hid' hjk, at1]
        exact h.idTodo h1 h2 fun hd => h3 ((hstep _).2 (.inl hd))
      · intro j h1 h2 h3
        dsimp only [upd]
        rw [if_pos rfl, at1]
        by_cases hjk : j = k
        · subst hjk
          refine .inl ⟨outs.length, by simp, ?_, hat⟩
          exact List.getElem?_set_self (by rw [h.idlen]; exact hkm)
        · rw [hid' hjk]
          rcases h.idDone h1 h2 (((hstep _).1 h3).resolve_right hjk) with ⟨q, b1, b2, b3⟩ | ⟨k', b1, b2, b3, b4⟩
          · exact .inl ⟨q, getElem?_append_of_some b1, b2, b3⟩
          · exact .inr ⟨k', by simp [b1], b2, by simp [b3, hjk], b4⟩
      · intro k0 hk0
        rw [List.mem_append, List.mem_singleton] at hk0
        rcases hk0 with hk0 | rfl
        · obtain ⟨a1, a2, a3⟩ := h.outsOk hk0
          exact ⟨a1, a2, (hstep _).2 (.inl a3)⟩
        · exact ⟨hkm, hkk.1, (hstep _).2 (.inr rfl)⟩
      · intro q q' a b h1 h2 h3
        have split : ∀ {q a : Nat}, (outs ++ [k])[q]? = some a → (outs[q]? = some a ∧ a ∈ outs) ∨ q = outs.length ∧ a = k := by
          intro q a h1
          by_cases hq : q < outs.length
          · rw [List.getElem?_append_left hq] at h1; exact .inl ⟨h1, mem_of_getElem?' h1⟩
          · rw [List.getElem?_append_right (by omega)] at h1
            have := getElem?_lt h1
            simp only [List.length_singleton] at this
            have hq' : q - outs.length = 0 := by omega
            rw [hq'] at h1
            simp at h1
            exact .inr ⟨by omega, h1.symm⟩
        rcases split h1 with ⟨h1, m1⟩ | ⟨h1, rfl⟩ <;> rcases split h2 with ⟨h2, m2⟩ | ⟨h2, rfl⟩
        · exact h.uniq h1 h2 h3
        · exact absurd h3 (hfresh _ m1)
        · exact absurd h3.symm (hfresh _ m2)
        · omega
      · intro r hr
        dsimp only
        rw [w2.row r (by omega), w1.row r (by omega)]; exact h.high r hr
      · intro r; dsimp only; rw [w2.len, w1.len]; exact h.shape r
      · intro f nd hf hn
        dsimp only at hn
        rw [hT2] at hn
        by_cases e : f = c k 1
        · rw [if_pos e] at hn
          cases hn
          exact .inr (.inr ⟨t, by omega, rfl⟩)
        · rw [if_neg e] at hn; exact h.scr hf hn
      · intro r hr; dsimp only [upd]; rw [if_neg hr]; exact h.ids r hr
      · dsimp only [upd]; rw [if_pos rfl, List.length_set]; exact h.idlen
    · intro f nd hf hn
      dsimp only at hn
      rw [hT2] at hn
      by_cases e : f = c k 1
      · rw [if_pos e] at hn
        cases hn
        refine ⟨fun _ => ⟨k, rfl, by simp, hkk.2, e.symm⟩, fun _ _ _ _ => rfl⟩
      · rw [if_neg e] at hn
        refine ⟨fun h1 => ?_, fun k3 h1 h2 h3 => ?_⟩
        · obtain ⟨k', b1, b2, b3⟩ := (hs hf hn).1 h1
          exact ⟨k', b1, by simp [b2], b3⟩
        · have hk3 : k3 ≠ k := by rintro rfl; exact e h3.symm
          refine (hs hf hn).2 k3 ?_ h2 h3
          have := (hstep k3).1 (.inr ⟨h2, h1⟩)
          rcases this with (⟨j, b1, b2⟩ | ⟨_, b⟩) | b
          · exact (hnt ⟨j, b1, by rw [h2.2] at b2; exact b2⟩).elim
          · exact b
          · exact absurd b hk3

theorem inner_spec {st0 : RSt 2}
    (hlow : ∀ {j : Nat} (b : Fin 2), j < m → (c j b).row < i)
    (hex : ∀ {j : Nat} (b : Fin 2), j < m → ∃ nd, nodeAt nr st0.input (c j b) = some nd)
    {t : Nat} (hnt : ¬ DoneBelow bdd zdd c t t) :
    ∀ (fuel k : Nat) (outs : List Nat) (st : RSt 2), m < k + fuel → t ≤ k →
      (k < m ∧ Kept bdd zdd c k (c t 0) ∨ k = m) →
      InnerInv bdd zdd nr i m c st0 t k outs st →
      ∃ outs' st', inner nr i m ⟨i, t⟩ fuel k (st, outs.length) = some (st', outs'.length) ∧
        I2 bdd zdd nr i m c st0 (DoneIn bdd zdd c t m) (t + 1) outs' st' := by
  intro fuel
  induction fuel with
  | zero => intro k outs st hf _ hk _; rcases hk with ⟨h, _⟩ | h <;> omega
  | succ fuel ih =>
    intro k outs st hfuel htk hk h
    rcases hk with ⟨hkm, hkk⟩ | rfl
    · obtain ⟨k2, c1, hat, hc1, hlook, hk2, hk2', hlen, _, hor⟩ := inner_step hlow hex hnt htk hkm hkk h
      have hlen' : ∀ T : Rows 2, k < (RSt.newId { st with input := T } i).length := fun T => hlen
      rw [inner, if_pos hkm]
      simp only [hat, Option.bind_eq_bind, Option.bind_some, hc1, hlook]
      rcases hor with ⟨hmark, T1, w, h'⟩ | ⟨hmark, T1, T2, w, w', h'⟩
      · rw [if_neg (by simp [hmark])]
        simp only [w, Option.bind_some, setId_spec _ (hlen' _)]
        exact ih k2 outs _ (by omega) (by omega) hk2' h'
      · rw [if_pos hmark]
        simp only [w, Option.bind_some, w', setId_spec _ (hlen' _)]
        have := ih k2 (outs ++ [k]) _ (by omega) (by omega) hk2' h'
        rw [List.length_append] at this
        exact this
    · -- end of the list
      refine ⟨outs, st, ?_, h.inv⟩
      rw [inner, if_neg (Nat.lt_irrefl _)]

theorem InnerInv.start {st0 : RSt 2} {t : Nat} (ht : t < m) {outs : List Nat} {st : RSt 2}
    (h : I2 bdd zdd nr i m c st0 (DoneBelow bdd zdd c t) t outs st) (hdn : ¬ DoneBelow bdd zdd c t t) :
    InnerInv bdd zdd nr i m c st0 t t outs st := by
  have mono : I2 bdd zdd nr i m c st0 (DoneBelow bdd zdd c t) (t + 1) outs st := by
    refine ⟨h.idDel, h.idTodo, h.idDone, h.outsOk, h.uniq, h.high, h.shape, ?_, h.ids, h.idlen, h.out, h.root⟩
    intro f nd hf hn
    rcases h.scr hf hn with h1 | h1 | ⟨j, h1, h2⟩
    · exact .inl h1
    · exact .inr (.inl h1)
    · exact .inr (.inr ⟨j, by omega, h2⟩)
  have start : I2 bdd zdd nr i m c st0 (DoneIn bdd zdd c t t) (t + 1) outs st :=
    mono.congr fun j _ _ => by
      constructor
      · exact .inl
      · rintro (h | ⟨h1, h2⟩)
        · exact h
        · exact (hdn ⟨j, h2, h1⟩).elim
  refine ⟨start, ?_⟩
  intro f nd hf hn
  constructor
  · intro he
    rcases h.scr hf hn with a | a | ⟨j, a, b⟩
    · rw [he] at a; exact absurd a (Nat.lt_irrefl _)
    · rw [he] at a
      have := congrArg NodeId.col a
      dsimp only at this
      omega
    · rw [he] at b
      have := congrArg NodeId.col b
      dsimp only at this
      omega
  · intro k' h1 h2 _
    exact (hdn ⟨k', h1, h2⟩).elim

theorem loop2_step {st0 : RSt 2}
    (hlow : ∀ {j : Nat} (b : Fin 2), j < m → (c j b).row < i)
    (hex : ∀ {j : Nat} (b : Fin 2), j < m → ∃ nd, nodeAt nr st0.input (c j b) = some nd)
    {t : Nat} (ht : t < m) {outs : List Nat} {st : RSt 2}
    (h : I2 bdd zdd nr i m c st0 (DoneBelow bdd zdd c t) t outs st) :
    ∃ outs' st', loop2 nr i m (st, outs.length) t = some (st', outs'.length) ∧
      I2 bdd zdd nr i m c st0 (DoneBelow bdd zdd c (t + 1)) (t + 1) outs' st' := by
  have mono : I2 bdd zdd nr i m c st0 (DoneBelow bdd zdd c t) (t + 1) outs st := by
    refine ⟨h.idDel, h.idTodo, h.idDone, h.outsOk, h.uniq, h.high, h.shape, ?_, h.ids, h.idlen, h.out, h.root⟩
    intro f nd hf hn
    rcases h.scr hf hn with h1 | h1 | ⟨j, h1, h2⟩
    · exact .inl h1
    · exact .inr (.inl h1)
    · exact .inr (.inr ⟨j, by omega, h2⟩)
  have weak : ∀ k, DoneBelow bdd zdd c (t + 1) k ↔ DoneBelow bdd zdd c t k ∨ Kept bdd zdd c t (c k 0) := by
    intro k
    constructor
    · rintro ⟨j, h1, h2⟩
      by_cases e : j = t
      · subst e; exact .inr h2
      · exact .inl ⟨j, by omega, h2⟩
    · rintro (⟨j, h1, h2⟩ | h1)
      · exact ⟨j, by omega, h2⟩
      · exact ⟨t, by omega, h1⟩
  unfold loop2
  by_cases hdel : delR bdd zdd (c t) = true
  · have hl : st.look ⟨i, t⟩ = some (c t 0) := by
      unfold RSt.look; simp [(h.idDel ht hdel).1]
    simp only [hl, Option.bind_some]
    have := hlow (j := t) 0 ht
    rw [if_pos (by omega)]
    refine ⟨outs, st, rfl, mono.congr fun j _ _ => ?_⟩
    rw [weak]
    constructor
    · exact .inl
    · rintro (h | h)
      · exact h
      · rw [h.1] at hdel; cases hdel
  · have hkeep : delR bdd zdd (c t) = false := by simpa using hdel
    by_cases hdn : DoneBelow bdd zdd c t t
    · have : ∃ id, st.look ⟨i, t⟩ = some id ∧ id.row ≤ i := by
        rcases h.idDone ht hkeep hdn with ⟨q, _, h2, _⟩ | ⟨k, _, _, _, h2, _⟩
        · exact ⟨⟨i, q⟩, by unfold RSt.look; simp [h2], Nat.le_refl _⟩
        · exact ⟨.zero, by unfold RSt.look; simp [h2], Nat.zero_le _⟩
      obtain ⟨id, h1, h2⟩ := this
      simp only [h1, Option.bind_some]
      rw [if_pos h2]
      refine ⟨outs, st, rfl, mono.congr fun j _ _ => ?_⟩
      rw [weak]
      constructor
      · exact .inl
      · rintro (h | h)
        · exact h
        · obtain ⟨j', a1, a2⟩ := hdn
          exact ⟨j', a1, by rw [h.2] at a2; exact a2⟩
    · obtain ⟨_, k, _, hk⟩ := h.idTodo ht hkeep hdn
      have hl : st.look ⟨i, t⟩ = some ⟨i + 1, k⟩ := by unfold RSt.look; simp [hk]
      simp only [hl, Option.bind_some]
      rw [if_neg (by omega)]
      have key := inner_spec (fuel := m + 1) (k := t) hlow hex hdn outs st
        (by omega) (Nat.le_refl _) (.inl ⟨ht, hkeep, rfl⟩) (InnerInv.start ht h hdn)
      obtain ⟨outs', st', h1, h2⟩ := key
      refine ⟨outs', st', h1, h2.congr fun j hj hk' => ?_⟩
      rw [weak]
      constructor
      · rintro (h | ⟨h, _⟩)
        · exact .inl h
        · exact .inr ⟨hkeep, h.2.symm⟩
      · rintro (h | h)
        · exact .inl h
        · exact .inr ⟨⟨hk', h.2.symm⟩, hj⟩

theorem loop2_all {row : List (Node 2)} {st0 st1 : RSt 2} (hp : Pre bdd zdd nr i m c row st0)
    (h : I1 bdd zdd nr i m c row st0 0 st1) {st2 : RSt 2} (e1 : st2.input = st1.input)
    (e2 : st2.newId i = st1.newId i) :
    ∃ outs st', (List.range m).foldlM (loop2 nr i m) (st2, 0) = some (st', outs.length) ∧
      I2 bdd zdd nr i m c st2 (fun _ => True) m outs st' := by
  have hex : ∀ {j : Nat} (b : Fin 2), j < m → ∃ nd, nodeAt nr st2.input (c j b) = some nd := by
    intro j b hj
    obtain ⟨nd, hnd⟩ := hp.ex b hj
    have := nodeAt_lt hnd
    exact nodeAt_of_lt this.1 (by rw [e1, h.shape]; exact this.2)
  have key := foldlM_up (f := loop2 nr i m)
    (fun t a => ∃ outs st, a = (st, outs.length) ∧ I2 bdd zdd nr i m c st2 (DoneBelow bdd zdd c t) t outs st)
    m (st2, 0) ?_ ?_
  · obtain ⟨a, h1, outs, st', h2, h3⟩ := key
    subst h2
    refine ⟨outs, st', h1, h3.congr fun j hj hk => ?_⟩
    simp only [iff_true]
    exact ⟨j, hj, hk, rfl⟩
  · refine ⟨[], st2, rfl, ?_, ?_, ?_, ?_, ?_, fun _ _ => rfl, fun _ => rfl, ?_, fun _ _ => rfl, ?_, rfl, rfl⟩
    · intro j h1 h2
      rw [e1, e2]
      exact ⟨h.idDel (Nat.zero_le _) h1 h2, h.done (Nat.zero_le _) h1⟩
    · intro j h1 h2 _
      rw [e1, e2]
      exact ⟨h.done (Nat.zero_le _) h1, h.idKeep (Nat.zero_le _) h1 h2⟩
    · rintro j h1 h2 ⟨_, h3, _⟩; omega
    · intro k hk; cases hk
    · intro q q' k k' hq; cases hq
    · intro f nd hf hn
      rw [e1] at hn
      rcases h.scr hf hn with ⟨h1, _⟩ | ⟨h1, _⟩
      · exact .inl h1
      · exact .inr (.inl h1)
    · rw [e2]; exact h.idlen
  · rintro t a ht ⟨outs, st, rfl, h2⟩
    obtain ⟨outs', st', h3, h4⟩ := loop2_step hp.low hex ht h2
    exact ⟨_, h3, outs', st', rfl, h4⟩

/-! ### Third loop -/

/-- the new id of node `j` -/
def FinalId (bdd zdd : Bool) (i : Nat) (c : Nat → Node 2) (outs : List Nat) (j : Nat) (id : NodeId) : Prop :=
  (delR bdd zdd (c j) = true ∧ id = c j 0) ∨
  (delR bdd zdd (c j) = false ∧ ∃ q k : Nat, outs[q]? = some k ∧ c k = c j ∧ id = ⟨i, q⟩)

structure I3 (bdd zdd : Bool) (nr i m : Nat) (c : Nat → Node 2) (outs : List Nat) (st2 : RSt 2) (t : Nat)
    (a : RSt 2 × List (Option (Node 2))) : Prop where
  inp : a.1.input = st2.input
  ids : ∀ r, r ≠ i → a.1.newId r = st2.newId r
  idlen : (a.1.newId i).length = m
  done : ∀ {j : Nat}, j < t → ∃ id, (a.1.newId i)[j]? = some (some id) ∧ FinalId bdd zdd i c outs j id
  todo : ∀ {j : Nat}, t ≤ j → (a.1.newId i)[j]? = (st2.newId i)[j]?
  keep : ∀ {q k : Nat}, outs[q]? = some k → (a.1.newId i)[k]? = some (some ⟨i, q⟩)
  rowlen : a.2.length = outs.length
  row : ∀ {q k : Nat}, outs[q]? = some k → k < t → a.2[q]? = some (some (c k))
  out : a.1.output = st2.output
  root : a.1.root = st2.root

theorem loop3_step {st0 st2 : RSt 2} {outs : List Nat}
    (hlow : ∀ {j : Nat} (b : Fin 2), j < m → (c j b).row < i)
    (h2 : I2 bdd zdd nr i m c st0 (fun _ => True) m outs st2) {T : Rows 2}
    (hT : T i = st2.input i) {t : Nat} (ht : t < m)
    {a : RSt 2 × List (Option (Node 2))} (h : I3 bdd zdd nr i m c outs { st2 with input := T } t a) :
    ∃ a', loop3 bdd zdd nr i m a t = some a' ∧
      I3 bdd zdd nr i m c outs { st2 with input := T } (t + 1) a' := by
  have hat : nodeAt nr a.1.input ⟨i, t⟩ = nodeAt nr st2.input ⟨i, t⟩ := by
    unfold nodeAt; rw [h.inp]; dsimp only; rw [hT]
  have hmk : ∀ {j : Nat}, j < m → c j 1 ≠ ⟨i, m⟩ := by
    intro j hj e
    have := hlow (j := j) 1 hj
    rw [e] at this; exact absurd this (Nat.lt_irrefl _)
  have hrow : ∀ {q k : Nat}, outs[q]? = some k → k < t + 1 → k ≠ t → a.2[q]? = some (some (c k)) :=
    fun h1 h2 h3 => h.row h1 (by omega)
  unfold loop3
  simp only [hat]
  have hidt := h.todo (Nat.le_refl t)
  dsimp only at hidt
  by_cases hdel : delR bdd zdd (c t) = true
  · obtain ⟨h3, h4⟩ := h2.idDel ht hdel
    simp only [h4, Option.bind_eq_bind, Option.bind_some]
    rw [if_neg (hmk ht), if_pos hdel]
    refine ⟨a, rfl, h.inp, h.ids, h.idlen, ?_, fun hj => h.todo (by omega), h.keep, h.rowlen, ?_, h.out, h.root⟩
    · intro j hj
      by_cases e : j = t
      · subst e
        exact ⟨c j 0, by rw [hidt]; exact h3, .inl ⟨hdel, rfl⟩⟩
      · exact h.done (by omega)
    · intro q k h5 h6
      refine hrow h5 h6 ?_
      rintro rfl
      have := (h2.outsOk (mem_of_getElem?' h5)).2.1
      rw [hdel] at this; cases this
  · have hkeep : delR bdd zdd (c t) = false := by simpa using hdel
    rcases h2.idDone ht hkeep trivial with ⟨q, h3, h4, h5⟩ | ⟨k, h3, h4, _, h5, h6⟩
    · simp only [h5, Option.bind_eq_bind, Option.bind_some]
      rw [if_neg (hmk ht), if_neg hdel]
      have hl : a.1.look ⟨i, t⟩ = some ⟨i, q⟩ := by
        unfold RSt.look; simp [hidt, h4]
      simp only [hl, Option.bind_some]
      have hq := getElem?_lt h3
      rw [if_pos (by rw [h.rowlen]; exact hq)]
      refine ⟨_, rfl, h.inp, h.ids, h.idlen, ?_, fun hj => h.todo (by omega), h.keep, ?_, ?_, h.out, h.root⟩
      · intro j hj
        by_cases e : j = t
        · subst e
          exact ⟨⟨i, q⟩, by rw [hidt]; exact h4, .inr ⟨hkeep, q, j, h3, rfl, rfl⟩⟩
        · exact h.done (by omega)
      · dsimp only; rw [List.length_set]; exact h.rowlen
      · intro q' k' h6 h7
        dsimp only
        by_cases e : q' = q
        · subst e
          rw [h3] at h6
          cases h6
          rw [List.getElem?_set_self (by rw [h.rowlen]; exact hq)]
        · rw [List.getElem?_set_ne (by omega)]
          refine hrow h6 h7 ?_
          rintro rfl
          exact e (h2.uniq h6 h3 rfl)
    · simp only [h6, Option.bind_eq_bind, Option.bind_some]
      rw [if_pos (show pair ⟨i, k⟩ ⟨i, m⟩ 1 = ⟨i, m⟩ from rfl)]
      obtain ⟨q, hq⟩ := List.mem_iff_getElem?.1 h3
      have hl : a.1.look ⟨i, (pair ⟨i, k⟩ ⟨i, m⟩ 0).col⟩ = some ⟨i, q⟩ := by
        unfold RSt.look
        simp only [pair, if_true]
        rw [h.keep hq]; rfl
      simp only [hl, Option.bind_some]
      have hlen : t < (a.1.newId i).length := by rw [h.idlen]; exact ht
      rw [setId_spec _ hlen]
      refine ⟨_, rfl, h.inp, ?_, ?_, ?_, ?_, ?_, h.rowlen, ?_, h.out, h.root⟩
      · intro r hr; dsimp only [upd]; rw [if_neg hr]; exact h.ids r hr
      · dsimp only [upd]; rw [if_pos rfl, List.length_set]; exact h.idlen
      · intro j hj
        dsimp only [upd]
        rw [if_pos rfl]
        by_cases e : j = t
        · subst e
          exact ⟨⟨i, q⟩, List.getElem?_set_self hlen, .inr ⟨hkeep, q, k, hq, h4, rfl⟩⟩
        · rw [List.getElem?_set_ne (by omega)]; exact h.done (by omega)
      · intro j hj
        dsimp only [upd]
        rw [if_pos rfl, List.getElem?_set_ne (by omega)]; exact h.todo (by omega)
      · intro q' k' h7
        dsimp only [upd]
        rw [if_pos rfl]
        by_cases e : k' = t
        · exfalso
          subst e
          have := h.keep h7
          rw [hidt, h5] at this
          cases this
          have := hlow (j := k') 0 ht
          omega
        · rw [List.getElem?_set_ne (by omega)]; exact h.keep h7
      · intro q' k' h7 h8
        by_cases e : k' = t
        · exfalso
          subst e
          have := h.keep h7
          rw [hidt, h5] at this
          cases this
          have := hlow (j := k') 0 ht
          omega
        · exact hrow h7 h8 e

end

end TdZdd
