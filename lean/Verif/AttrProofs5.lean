import Verif.AttrProofs4

/-! `algorithmR` and the whole binary reduction with the bits. -/

namespace TdZdd

namespace Attr

section
variable {bdd zdd : Bool} {nr i m : Nat} {c : Nat → Node 2} {row : List (Node 2)} {E : NodeId → Bool}

theorem algorithmR_bits {top : Nat} {lower : Nat → List Nat} {st : RSt 2} {s0 : Bits 2}
    (hp : Pre bdd zdd nr i m c row { st with newId := upd st.newId i (List.replicate m none) })
    (hlo : ∀ r ∈ lower i, r < i) (hroot : i = top → st.root.col < m)
    (hb : ∀ {j : Nat} {nd : Node 2} (b : Fin 2), row[j]? = some nd → remap s0 (nd b) (s0.input ⟨i, j⟩ b) = E (c j b)) :
    ∃ st' s' ids out, algorithmR bdd zdd nr top lower (st, s0) i = some (st', s') ∧
      LevelOk bdd zdd nr top i m c (lower i) st st' ids out ∧ BLevel (delR bdd zdd) top i m c E out st.root.col s0 s' ∧
      ∀ f : NodeId, i < f.row → s'.input f = s0.input f := by
  obtain ⟨st', ids, out, e, L⟩ := algorithmR_spec (bdd := bdd) (zdd := zdd) (top := top) (lower := lower) hp hlo hroot
  have hfst := algorithmR_fst bdd zdd nr top lower (st, s0) i
  rw [e, Option.map_eq_some_iff] at hfst
  obtain ⟨⟨st'', s'⟩, e', e''⟩ := hfst
  dsimp only at e''
  subst e''
  refine ⟨st'', s', ids, out, e', L, ?_⟩
  have hm : (st.input i).length = m := by rw [← hp.len, ← hp.inp]
  have hni : i ∉ lower i := fun h => absurd (hlo i h) (Nat.lt_irrefl _)
  -- first loop
  obtain ⟨y, e1, h1, s1⟩ := foldlM_down (f := loop1 bdd zdd nr i m)
    (fun t x => I1 bdd zdd nr i m c row { st with newId := upd st.newId i (List.replicate m none) } t x.1 ∧ B1 bdd zdd i m c E s0 t x.2) m
    ({ st with newId := upd st.newId i (List.replicate m none) }, s0)
    ⟨⟨fun {j} hj => by unfold nodeAt; rw [if_pos hp.hi]; exact congrArg (·[j]?) hp.inp, fun h1 h2 => by omega, fun _ _ => rfl, fun _ => rfl,
        fun hf hn => .inl ⟨hp.br hf hn, fun j h1 h2 => by omega⟩, fun _ _ => rfl, by simp [upd], fun h1 h2 => by omega,
        fun h1 h2 => by omega, rfl, rfl⟩,
      ⟨fun h1 h2 => by omega, fun _ => rfl, fun h1 h2 => by omega, ⟨fun _ _ => rfl, fun _ _ => rfl, fun _ _ => rfl, rfl⟩⟩⟩
    (fun t x ht ⟨h, hs⟩ => loop1_bits hp hb ht h hs)
  -- second loop
  have hex : ∀ {j : Nat} (b : Fin 2), j < m → ∃ nd, nodeAt nr y.1.input (c j b) = some nd := by
    intro j b hj
    obtain ⟨nd, hnd⟩ := hp.ex b hj
    have := nodeAt_lt hnd
    exact nodeAt_of_lt this.1 (by rw [h1.shape]; exact this.2)
  have hnew : clearIds (lower i) y.1.newId i = y.1.newId i := by rw [clearIds_at, if_neg hni]
  obtain ⟨z, e2, outs, st2, s2, ez, h2', s2B⟩ := foldlM_up (f := loop2 nr i m)
    (fun t (x : (RSt 2 × Nat) × Bits 2) => ∃ outs st s, x = ((st, outs.length), s) ∧
      I2 bdd zdd nr i m c { y.1 with newId := clearIds (lower i) y.1.newId } (DoneBelow bdd zdd c t) t outs st ∧
      B2 bdd zdd nr i m c E s0 st s) m
    (({ y.1 with newId := clearIds (lower i) y.1.newId }, 0), y.2)
    ⟨[], { y.1 with newId := clearIds (lower i) y.1.newId }, y.2, rfl, ⟨fun hj hd => ⟨by dsimp only; rw [hnew]; exact h1.idDel (Nat.zero_le _) hj hd, h1.done (Nat.zero_le _) hj⟩,
        fun hj hd _ => ⟨h1.done (Nat.zero_le _) hj, by dsimp only; rw [hnew]; exact h1.idKeep (Nat.zero_le _) hj hd⟩,
        fun _ _ ⟨_, h3, _⟩ => (by omega), fun hk => (by cases hk), fun hq => (by simp at hq), fun _ _ => rfl, fun _ => rfl,
        fun hf hn => by
          rcases h1.scr hf hn with ⟨h1, _⟩ | ⟨h1, _⟩
          · exact .inl h1
          · exact .inr (.inl h1),
        fun _ _ => rfl, by dsimp only; rw [hnew]; exact h1.idlen, rfl, rfl⟩,
      ⟨fun hj _ => s1.cells (Nat.zero_le _) hj, fun hj hd => s1.del (Nat.zero_le _) hj hd, fun {j id} hj hd hn hi => by
          dsimp only at hn
          rw [hnew] at hn
          obtain ⟨k, _, hk⟩ := h1.idKeep (Nat.zero_le _) hj hd
          rw [hk] at hn
          cases hn
          exact absurd hi (by dsimp only; omega), s1.same⟩⟩
    (by
      rintro t x ht ⟨outs, st, s, rfl, h, hs⟩
      obtain ⟨outs', st', s', e, h', hs'⟩ := loop2_bits hp.low (st0 := { y.1 with newId := clearIds (lower i) y.1.newId }) hex ht h hs
      exact ⟨_, e, outs', st', s', rfl, h', hs'⟩)
  subst ez
  have h2 := h2'.congr (Dn' := fun _ => True) fun j hj hk => by
    simp only [iff_true]
    exact ⟨j, hj, hk, rfl⟩
  -- third loop
  have hTi : ∀ r, r ∉ lower i → (if bdd then st2.input else clearRows (lower i) st2.input) r = st2.input r := by
    intro r hr
    cases bdd
    · simp only [Bool.false_eq_true, if_false]; rw [clearRows_at, if_neg hr]
    · rfl
  have hkeep0 : ∀ {q k : Nat}, outs[q]? = some k → (st2.newId i)[k]? = some (some ⟨i, q⟩) := by
    intro q k hq
    obtain ⟨a1, a2, _⟩ := h2.outsOk (mem_of_getElem?' hq)
    rcases h2.idDone a1 a2 trivial with ⟨q', b1, b2, _⟩ | ⟨k', b1, b2, b3, _⟩
    · have := h2.uniq hq b1 rfl
      subst this
      exact b2
    · exact (b3 (mem_of_getElem?' hq)).elim
  obtain ⟨w, e3, h3, s3⟩ := foldlM_up (f := loop3 bdd zdd nr i m)
    (fun t x => I3 bdd zdd nr i m c outs { st2 with input := (if bdd then st2.input else clearRows (lower i) st2.input) } t x.1 ∧
      B3 bdd zdd i m c E outs s0 s2 t x.2) m
    (({ st2 with input := (if bdd then st2.input else clearRows (lower i) st2.input) }, List.replicate outs.length none), s2)
    ⟨⟨rfl, fun _ _ => rfl, h2.idlen, fun hj => by omega, fun _ => rfl, hkeep0, by simp, fun _ h => by omega, rfl, rfl⟩,
      ⟨rfl, fun hj => by omega, fun _ => rfl, fun {k} hk => by
          obtain ⟨a1, a2, _⟩ := h2.outsOk hk
          obtain ⟨q, hq⟩ := List.mem_iff_getElem?.1 hk
          exact s2B.kept a1 a2 (hkeep0 hq) rfl, fun _ h => by omega, s2B.same⟩⟩
    (fun t x ht ⟨h, hs⟩ => loop3_bits hp.low h2 s2B (hTi i hni) ht h hs)
  have hrow : w.1.2 = (outs.map c).map some := by
    apply eq_map_some
    · rw [h3.rowlen, List.length_map]
    · intro q nd hq
      rw [List.getElem?_map, Option.map_eq_some_iff] at hq
      obtain ⟨k, h4, h5⟩ := hq
      rw [h3.row h4 (h2.outsOk (mem_of_getElem?' h4)).1, h5]
  have er : w.1.1.root = st.root := by
    rw [h3.root, show (RSt.root { st2 with input := (if bdd then st2.input else clearRows (lower i) st2.input) }) = st2.root from rfl,
      h2.root, show (RSt.root { y.1 with newId := clearIds (lower i) y.1.newId }) = y.1.root from rfl, h1.root]
  -- the result
  unfold algorithmR at e'
  have es : (if bdd = true then st2 else { st2 with input := clearRows (lower i) st2.input }) =
      { st2 with input := (if bdd then st2.input else clearRows (lower i) st2.input) } := by
    cases bdd <;> rfl
  simp only [hm, Option.bind_eq_bind, e1, Option.bind_some, e2] at e'
  rw [es, e3] at e'
  simp only [Option.bind_some, hrow, fullRow_some] at e'
  rw [Option.bind_eq_some_iff] at e'
  obtain ⟨st3, hru, e'⟩ := e'
  simp only [Option.some.injEq, Prod.mk.injEq] at e'
  obtain ⟨e4, e5⟩ := e'
  subst e4
  have keyn : s'.newId = w.2.newId := by
    rw [← e5]; unfold Bits.rootUpdate; by_cases ht : i = top
    · rw [if_pos ht]
    · rw [if_neg ht]
  have keyo : s'.output = w.2.output := by
    rw [← e5]; unfold Bits.rootUpdate; by_cases ht : i = top
    · rw [if_pos ht]
    · rw [if_neg ht]
  have keyi : s'.input = w.2.input := by
    rw [← e5]; unfold Bits.rootUpdate; by_cases ht : i = top
    · rw [if_pos ht]
    · rw [if_neg ht]
  have hout : out = outs.map c := by
    have h4 : st3.output i = outs.map c := by
      unfold rootUpdate at hru
      by_cases ht : i = top
      · rw [if_pos ht, Option.map_eq_some_iff] at hru
        obtain ⟨f, _, hru⟩ := hru
        rw [← hru]
        simp [upd]
      · rw [if_neg ht] at hru
        cases hru
        simp [upd]
    rw [L.out] at h4
    simpa [upd] using h4
  refine ⟨⟨?_, ?_, ?_, ?_, ?_⟩, fun f hf => by rw [keyi, s3.same.high f hf]⟩
  · intro j hj; rw [keyn]; exact s3.ids hj
  · intro r hr; rw [keyn]; exact s3.same.other r hr
  · intro q nd hq b
    rw [hout, List.getElem?_map, Option.map_eq_some_iff] at hq
    obtain ⟨k, h4, h5⟩ := hq
    rw [keyo, ← h5]
    exact s3.row h4 (h2.outsOk (mem_of_getElem?' h4)).1 b
  · intro f hf; rw [keyo, s3.same.out f hf]
  · rw [keyn, ← e5]; unfold Bits.rootUpdate
    by_cases ht : i = top
    · rw [if_pos ht, if_pos ht, er]
    · rw [if_neg ht, if_neg ht]; exact s3.same.root

end

end Attr

end TdZdd
