import Verif.PathCounterProofs3

/-! Proofs about `PathCounter`: `countFast`. -/

namespace TdZdd

open Big

variable {N : Nat} {S : Type} {sp : DdSpec N S}

/-- a ghost node of `countFast` -/
abbrev FNode (S : Type) := S × List Nat × Nat

/-- a well-formed number of at most `w` words -/
def FNum (C : Prop) (w : Nat) (x : List Nat) (v : Nat) : Prop := ∃ s, Num x v s ∧ Big.Canon v s ∧ (C → s ≤ w)

theorem FNum.mono {C : Prop} {w w' : Nat} {x : List Nat} {v : Nat} (h : FNum C w x v) (hw : w ≤ w') : FNum C w' x v := by
  obtain ⟨s, h1, h2, h3⟩ := h
  exact ⟨s, h1, h2, fun c => Nat.le_trans (h3 c) hw⟩

theorem FNum.lt {C : Prop} {w : Nat} {x : List Nat} {v : Nat} (h : FNum C w x v) (c : C) : v < 2 ^ (63 * w) := by
  obtain ⟨s, h1, h2, h3⟩ := h
  exact Nat.lt_of_lt_of_le h1.lt (Nat.pow_le_pow_right (by omega) (Nat.mul_le_mul_left _ (h3 c)))

/-- the list of a level, newest node first: each number has one word more than itself and the older ones need -/
structure FRow (C : Prop) (n lim w j : Nat) (L : List (FNode S)) : Prop where
  len : L.length ≤ max lim 1
  root : j = n → L.length ≤ 1
  num : ∀ x ∈ L, 0 < x.2.2 ∧ FNum C w x.2.1 x.2.2
  self : C → j ≠ n → ∀ x ∈ L, x.2.2 < 2 ^ (63 * (x.2.1.length - 1))
  older : C → j ≠ n → L.Pairwise fun a b => b.2.2 < 2 ^ (63 * (a.2.1.length - 1))

theorem FRow.mono {C : Prop} {n lim w w' j : Nat} {L : List (FNode S)} (h : FRow C n lim w j L) (hw : w ≤ w') :
    FRow C n lim w' j L :=
  ⟨h.len, h.root, fun x hx => ⟨(h.num x hx).1, (h.num x hx).2.mono hw⟩, h.self, h.older⟩

/-- the loop invariant of merging: `D` are the nodes so far, `R` the remaining ones -/
structure MInv (sp : DdSpec N S) (C : Prop) (n i len w : Nat) (Kc Kp : Nat) (D R : List (FNode S)) (w' : Nat) : Prop where
  cnt : rowSum (cntF sp) i D + rowSum (cntF sp) i R = Kc
  pot : rowSum (pot N) i D + rowSum (pot N) i R = Kp
  words : w ≤ w'
  len : D.length + R.length = len
  reach : ∀ x ∈ D, Reach sp (i : Int) x.1
  num : ∀ x ∈ D, FNum C w' x.2.1 x.2.2
  room : C → i ≠ n → ∀ x ∈ D, x.2.2 < D.length * 2 ^ (63 * (x.2.1.length - 1)) ∧
    ∀ y ∈ R, y.2.2 < 2 ^ (63 * (x.2.1.length - 1))
  reachR : ∀ x ∈ R, Reach sp (i : Int) x.1
  numR : ∀ x ∈ R, FNum C w x.2.1 x.2.2
  selfR : C → i ≠ n → ∀ x ∈ R, x.2.2 < 2 ^ (63 * (x.2.1.length - 1))
  olderR : C → i ≠ n → R.Pairwise fun a b => b.2.2 < 2 ^ (63 * (a.2.1.length - 1))

theorem pcMerge_post (hl : Lawful sp) {C : Prop} {n i len lim w Kc Kp : Nat} {th : Prop} (h0 : 0 < i) (hC : C → lim ≤ 2 ^ 63)
    (hlen : len ≤ max lim 1) (hroot : i = n → len ≤ 1) (hw : 1 ≤ w) {e : FNode S} {R D : List (FNode S)} {w' : Nat}
    (h : MInv sp C n i len w Kc Kp D (e :: R) w') :
    Post (¬C, th) (pcMerge bigOps sp i (D.map fun x => (x.1, x.2.1), w') (e.1, e.2.1)) fun a =>
      ∃ D', a.1 = D'.map (fun x => (x.1, x.2.1)) ∧ MInv sp C n i len w Kc Kp D' R a.2 := by
  have hlen' := h.len
  rw [List.length_cons] at hlen'
  have he := h.numR e (List.mem_cons_self ..)
  have hcnt := h.cnt
  have hpot := h.pot
  rw [rowSum_cons] at hcnt hpot
  have hsub : ∀ y ∈ R, y ∈ e :: R := fun y hy => List.mem_cons_of_mem _ hy
  have hpos : ∀ k, 0 < 2 ^ (63 * k) := fun k => Nat.pow_pos (by omega)
  unfold pcMerge
  dsimp only
  cases hf : (D.map fun x => (x.1, x.2.1)).findIdx? (fun e' => sp.eqv i e'.1 e.1) with
  | none =>
    dsimp only
    refine ⟨D ++ [e], by simp, ?_, ?_, h.words, by simp; omega, ?_, ?_, ?_, fun y hy => h.reachR y (hsub y hy),
      fun y hy => h.numR y (hsub y hy), fun c hi y hy => h.selfR c hi y (hsub y hy),
      fun c hi => (List.pairwise_cons.1 (h.olderR c hi)).2⟩
    · rw [rowSum_append, rowSum_cons]; simp only [rowSum, List.map_nil, List.sum_nil] at *; omega
    · rw [rowSum_append, rowSum_cons]; simp only [rowSum, List.map_nil, List.sum_nil] at *; omega
    · intro x hx
      rcases List.mem_append.1 hx with hx | hx
      · exact h.reach x hx
      · rw [List.mem_singleton] at hx; subst hx; exact h.reachR x (List.mem_cons_self ..)
    · intro x hx
      rcases List.mem_append.1 hx with hx | hx
      · exact h.num x hx
      · rw [List.mem_singleton] at hx; subst hx; exact he.mono h.words
    · intro c hi x hx
      rw [List.length_append, List.length_singleton, Nat.succ_mul]
      rcases List.mem_append.1 hx with hx | hx
      · obtain ⟨h1, h2⟩ := h.room c hi x hx
        have := hpos (x.2.1.length - 1)
        exact ⟨by omega, fun y hy => h2 y (hsub y hy)⟩
      · rw [List.mem_singleton] at hx
        subst hx
        have := h.selfR c hi x (List.mem_cons_self ..)
        exact ⟨by omega, fun y hy => (List.pairwise_cons.1 (h.olderR c hi)).1 y hy⟩
  | some k =>
    dsimp only
    obtain ⟨hk1, hk2, _⟩ := List.findIdx?_eq_some_iff_getElem.1 hf
    have hkD : k < D.length := by rw [List.length_map] at hk1; exact hk1
    obtain ⟨g, hg⟩ : ∃ g, D[k]? = some g := ⟨_, List.getElem?_eq_getElem hkD⟩
    have hgm : g ∈ D := mem_of_getElem?' hg
    have hst : (D.map fun x => (x.1, x.2.1))[k]? = some (g.1, g.2.1) := by rw [List.getElem?_map, hg]; rfl
    have hk3 : sp.eqv i g.1 e.1 = true := by
      have : (D.map fun x => (x.1, x.2.1))[k]'hk1 = (g.1, g.2.1) := by
        rw [List.getElem?_eq_getElem hk1] at hst; exact Option.some.inj hst
      rw [this] at hk2; exact hk2
    rw [hst]
    dsimp only
    have hin : i ≠ n := fun hi => by have := hroot hi; omega
    obtain ⟨s, g1, g2, g3⟩ := h.num g hgm
    obtain ⟨t, e1, e2, e3⟩ := he
    have hDlim : C → D.length + 1 ≤ 2 ^ 63 := fun c => by have := hC c; omega
    have hglen := g1.len
    have hgpos := g1.pos
    have hsum : C → g.2.2 + e.2.2 < (D.length + 1) * 2 ^ (63 * (g.2.1.length - 1)) := fun c => by
      obtain ⟨h1, h2⟩ := h.room c hin g hgm
      have := h2 e (List.mem_cons_self ..)
      rw [Nat.succ_mul]; omega
    refine (big_add g1 g2 e1 e2 fun c => ?_).bind fun r hr => ?_
    · have h1 := hsum c
      have h2 : (D.length + 1) * 2 ^ (63 * (g.2.1.length - 1)) ≤ 2 ^ 63 * 2 ^ (63 * (g.2.1.length - 1)) :=
        Nat.mul_le_mul_right _ (hDlim c)
      have h3 : 2 ^ (63 * g.2.1.length) = 2 ^ 63 * 2 ^ (63 * (g.2.1.length - 1)) := by
        rw [← Nat.pow_add]; congr 1; omega
      omega
    · obtain ⟨r1, r2, r3⟩ := hr
      have helen := e1.len
      have hepos := e1.pos
      obtain ⟨z, hz, z1, z2⟩ := storeZero (p := e.2.1) (by omega)
      have ez : bigOps.clear e.2.1 = .ok z := by
        show Out.of ((storeWord e.2.1 0).map (·.1)) = _
        rw [hz]; rfl
      rw [ez]
      refine ⟨D.set k (g.1, r.1, g.2.2 + e.2.2) ++ [(e.1, z, 0)], by simp [List.map_set], ?_, ?_, ?_, by simp; omega, ?_, ?_, ?_,
        fun y hy => h.reachR y (hsub y hy), fun y hy => h.numR y (hsub y hy), fun c hi y hy => h.selfR c hi y (hsub y hy),
        fun c hi => (List.pairwise_cons.1 (h.olderR c hi)).2⟩
      · have h1 := rowSum_set (c := cntF sp) (j := i) (x' := (g.1, r.1, g.2.2 + e.2.2)) hg
        dsimp only at h1
        rw [Nat.add_mul, cntF_congr hl h0 (h.reach g hgm) (h.reachR e (List.mem_cons_self ..)) hk3] at h1
        rw [rowSum_append, rowSum_cons]
        have h2 : rowSum (α := List Nat) (cntF sp) i [] = 0 := rfl
        rw [h2]; dsimp only; omega
      · have h1 := rowSum_set (c := TdZdd.pot N) (j := i) (x' := (g.1, r.1, g.2.2 + e.2.2)) hg
        dsimp only at h1
        rw [Nat.add_mul] at h1
        rw [rowSum_append, rowSum_cons]
        have h2 : rowSum (α := List Nat) (S := S) (TdZdd.pot N) i [] = 0 := rfl
        rw [h2]; dsimp only
        simp only [TdZdd.pot] at *
        omega
      · have := h.words; show w ≤ max w' r.2; omega
      · intro x hx
        rcases List.mem_append.1 hx with hx | hx
        · rcases mem_set_cases hx with rfl | hx
          · exact h.reach g hgm
          · exact h.reach x hx
        · rw [List.mem_singleton] at hx; subst hx; exact h.reachR e (List.mem_cons_self ..)
      · intro x hx
        show FNum C (max w' r.2) _ _
        rcases List.mem_append.1 hx with hx | hx
        · rcases mem_set_cases hx with rfl | hx
          · exact ⟨_, r1, r2, fun _ => Nat.le_max_right ..⟩
          · exact (h.num x hx).mono (Nat.le_max_left ..)
        · rw [List.mem_singleton] at hx; subst hx
          exact ⟨1, z1, .inl rfl, fun _ => by have := h.words; omega⟩
      · intro c hi x hx
        rw [List.length_append, List.length_singleton, List.length_set]
        rcases List.mem_append.1 hx with hx | hx
        · rcases mem_set_cases hx with rfl | hx
          · dsimp only
            rw [r3]
            exact ⟨hsum c, fun y hy => (h.room c hi g hgm).2 y (hsub y hy)⟩
          · obtain ⟨h1, h2⟩ := h.room c hi x hx
            rw [Nat.succ_mul]
            have := hpos (x.2.1.length - 1)
            exact ⟨by omega, fun y hy => h2 y (hsub y hy)⟩
        · rw [List.mem_singleton] at hx
          subst hx
          dsimp only
          rw [z2]
          exact ⟨Nat.mul_pos (Nat.succ_pos _) (hpos _), fun y hy => (List.pairwise_cons.1 (h.olderR c hi)).1 y hy⟩

/-- merging the nodes of a level -/
theorem pcMerges_post (hl : Lawful sp) {C : Prop} {n i lim w : Nat} {th : Prop} (h0 : 0 < i) (hC : C → lim ≤ 2 ^ 63)
    (hw : 1 ≤ w) {L : List (FNode S)} (hrow : FRow C n lim w i L) (hr : ∀ x ∈ L, Reach sp (i : Int) x.1) :
    Post (¬C, th) (Out.fold (pcMerge bigOps sp i) (L.map fun x => (x.1, x.2.1)) ([], w)) fun a =>
      ∃ D, a.1 = D.map (fun x => (x.1, x.2.1)) ∧
        MInv sp C n i L.length w (rowSum (cntF sp) i L) (rowSum (pot N) i L) D [] a.2 := by
  refine Post.fold (γ := FNode S) (fun x => (x.1, x.2.1)) (fun R a => ∃ D, a.1 = D.map (fun x => (x.1, x.2.1)) ∧
    MInv sp C n i L.length w (rowSum (cntF sp) i L) (rowSum (pot N) i L) D R a.2) ?_ L ([], w) ?_
  · rintro e R ⟨d, w'⟩ ⟨D, rfl, h⟩
    exact pcMerge_post hl h0 hC hrow.len hrow.root hw h
  · exact ⟨[], rfl, by simp [rowSum], by simp [rowSum], Nat.le_refl _, by simp, fun x hx => (nomatch hx), fun x hx => (nomatch hx),
      fun _ _ x hx => (nomatch hx),
      hr, fun x hx => (hrow.num x hx).2, hrow.self, hrow.older⟩

/-- representation of the lists below level `i` -/
def FX (C : Prop) (n lim W i : Nat) (G : Nat → List (FNode S)) (w : Nat) : Prop :=
  w = W ∧ ∀ j, 0 < j → j < i → FRow C n lim w j (G j)

theorem insList_post {C th : Prop} {n i lim W K : Nat} (hin : i ≤ n) (hth : lim < N ^ n → th) (hN : 0 < N)
    {ii : Nat} {s : S} {x : List Nat} {v : Nat} (h0 : 0 < ii) (hii : ii < i) (hr : Reach sp (ii : Int) s)
    (hE : FNum C W x v) (hv : 0 < v) {M Bt : Nat} {T : List Nat → Nat → Prop}
    {rc rp : Nat} {st : PcSt S (List Nat)}
    (h : PcI sp (FX C n lim W i) T K M Bt (N ^ n) (i - 1) (v * cntF sp ii s + rc) (v * pot N ii s + rp) st) :
    Post (¬C, th) (insList bigOps lim (W + 1 + (i - ii) / 63) ii s x st) (PcI sp (FX C n lim W i) T K M Bt (N ^ n) (i - 1) rc rp) := by
  obtain ⟨G, t, hi⟩ := h
  obtain ⟨hw, hrow⟩ := hi.rep
  have hrow' := hrow ii h0 hii
  have erow := hi.rows ii
  unfold insList
  split
  next hlim =>
    rw [erow, List.length_map] at hlim
    apply hth
    have h1 := len_le_rowSum (N := N) (j := ii) fun y hy => (hrow'.num y hy).1
    have h2 := rowSum_le_below (c := pot N) (G := G) (i := i - 1) h0 (by omega)
    have h3 := hi.br
    have h4 : 1 * N ^ ii ≤ v * N ^ ii := Nat.mul_le_mul_right _ hv
    have h5 : (G ii).length * 1 ≤ (G ii).length * N ^ ii := Nat.mul_le_mul_left _ (Nat.pow_pos hN)
    have h6 : 0 < N ^ ii := Nat.pow_pos hN
    simp only [pot] at h1 h2 h3
    omega
  next hlim =>
    rw [erow, List.length_map] at hlim
    obtain ⟨sz, x1, x2, x3⟩ := hE
    refine (big_store (C := C) x1 fun c => ?_).bind fun y hy => ?_
    · have := x3 c; omega
    · have hsum : ∀ c : Nat → S → Nat, below c (upd G ii ((s, y, v) :: G ii)) (i - 1) = below c G (i - 1) + v * c ii s := by
        intro c
        have h1 := below_upd (c := c) (G := G) (i := i - 1) (L := (s, y, v) :: G ii) h0 (by omega)
        rw [rowSum_cons] at h1
        dsimp only at h1
        omega
      have hcap : ∀ k, 2 ^ (63 * W) ≤ 2 ^ (63 * (W + 1 + k - 1)) := fun k =>
        Nat.pow_le_pow_right (by omega) (Nat.mul_le_mul_left _ (by omega))
      refine ⟨upd G ii ((s, y, v) :: G ii), t, ?_, ?_, ⟨hw, ?_⟩, hi.tot, ?_, ?_, ?_⟩
      · intro j
        show upd st.rows ii _ j = _
        by_cases hj : j = ii
        · subst hj; rw [upd_same, upd_same, erow]; rfl
        · rw [upd_ne _ _ hj, upd_ne _ _ hj]; exact hi.rows j
      · intro j hj0 z hz
        by_cases hj : j = ii
        · subst hj
          rw [upd_same] at hz
          rcases List.mem_cons.1 hz with rfl | hz
          · exact hr
          · exact hi.reach j hj0 z hz
        · rw [upd_ne _ _ hj] at hz; exact hi.reach j hj0 z hz
      · intro j hj0 hji
        show FRow C n lim st.words j _
        by_cases hj : j = ii
        · subst hj
          rw [upd_same]
          refine ⟨by rw [List.length_cons]; omega, fun h => by omega, ?_, ?_, ?_⟩
          · intro z hz
            rcases List.mem_cons.1 hz with rfl | hz
            · exact ⟨hv, _, hy.1, x2, fun c => by rw [hw]; exact x3 c⟩
            · exact hrow'.num z hz
          · intro c hjn z hz
            rcases List.mem_cons.1 hz with rfl | hz
            · dsimp only
              rw [hy.2]
              exact Nat.lt_of_lt_of_le (FNum.lt ⟨sz, x1, x2, x3⟩ c) (hcap _)
            · exact hrow'.self c hjn z hz
          · intro c hjn
            refine List.pairwise_cons.2 ⟨fun z hz => ?_, hrow'.older c hjn⟩
            dsimp only
            rw [hy.2]
            have := (hrow'.num z hz).2.lt c
            rw [hw] at this
            exact Nat.lt_of_lt_of_le this (hcap _)
        · rw [upd_ne _ _ hj]; exact hrow j hj0 hji
      · rw [hsum, ← hi.cnt]; congr 1; omega
      · rw [hsum]; have := hi.bt; omega
      · rw [hsum]; have := hi.br; omega

theorem pcCountFast_post (hl : Lawful sp) (hN : 0 < N) {n : Nat} (h0 : 0 < n) (hroot : sp.root.1 = n) (lim : Nat) :
    Post (¬(lim ≤ 2 ^ 63 ∧ N ^ n < 2 ^ (63 * (n / 63 + 1))), lim < N ^ n) (pcRun (pcLevelFast bigOps sp lim) sp.root.2 n [1]
      (List.replicate (n / 63 + 1) 0)) fun t => BigTot n t (cntF sp n sp.root.2) := by
  have hr : Reach sp (n : Int) sp.root.2 := by rw [← hroot]; exact .root
  obtain ⟨C, hCdef⟩ : ∃ C : Prop, C = (lim ≤ 2 ^ 63 ∧ N ^ n < 2 ^ (63 * (n / 63 + 1))) := ⟨_, rfl⟩
  rw [← hCdef]
  refine pcRun_post (I := fun i st => PcI sp (fun G w => 1 ≤ w ∧ ∀ j, 0 < j → j ≤ i → FRow C n lim w j (G j)) (BigTot n)
    (cntF sp n sp.root.2) 0 (N ^ n) (N ^ n) i 0 0 st) ?_ ?_ ?_
  · refine ⟨_, _, pc_init h0 hr ⟨Nat.le_refl _, ?_⟩ (bigTot_zero n) (Nat.le_refl _) (Nat.le_refl _)⟩
    intro j hj0 hjn
    by_cases hj : j = n
    · subst hj
      rw [upd_same]
      refine ⟨Nat.le_max_right .., fun _ => Nat.le_refl _, fun x hx => ?_, fun _ h => absurd rfl h, fun _ h => absurd rfl h⟩
      rw [List.mem_singleton] at hx
      subst hx; exact ⟨Nat.one_pos, 1, .last (by decide), .inl rfl, fun _ => Nat.le_refl _⟩
    · rw [upd_ne _ _ hj]
      exact ⟨Nat.zero_le _, fun _ => Nat.zero_le _, fun x hx => (nomatch hx), fun _ _ x hx => (nomatch hx), fun _ _ => List.Pairwise.nil⟩
  · rintro i st hi0 hin ⟨G, t, hi⟩
    have hrow := hi.rep.2 i hi0 (Nat.le_refl _)
    unfold pcLevelFast
    rw [hi.rows i]
    refine (pcMerges_post hl hi0 (fun c => by rw [hCdef] at c; exact c.1) hi.rep.1 hrow (hi.reach i hi0)).bind fun a ha => ?_
    obtain ⟨d, w'⟩ := a
    obtain ⟨D, hD, hm⟩ := ha
    dsimp only at hD hm ⊢
    subst hD
    have hsum : ∀ c : Nat → S → Nat, rowSum c i D + rowSum (α := List Nat) c i [] = rowSum c i (G i) → below c (upd G i D) i = below c G i := by
      intro c hc
      have h1 := below_upd (c := c) (G := G) (i := i) (L := D) hi0 (Nat.le_refl _)
      have h2 : rowSum (α := List Nat) c i [] = 0 := rfl
      omega
    refine (pcLevel_post (X := FX C n lim w' i) (T := BigTot n) (E := FNum C w') (K := cntF sp n sp.root.2) (M := 0) (Bt := N ^ n)
      (Br := N ^ n) (st := ⟨upd st.rows i (D.map fun x => (x.1, x.2.1)), st.total, w'⟩) (G := upd G i D) (t := t) hl.toDesc hN hi0 ⟨?_, ?_, ?_⟩ ?_ ?_ ⟨?_, ?_, ⟨rfl, ?_⟩, hi.tot, ?_, ?_, ?_⟩).imp
      fun st' h' => ?_
    · intro ii s x v rc rp st' hii0 hii hr' _ hE hv h
      exact insList_post hin (fun h => h) hN hii0 hii hr' hE hv h
    · rintro t x a v ht ⟨s, h1, h2, _⟩ hb
      exact bigTot_add (fun c => by rw [hCdef] at c; exact c.2) ht h1 h2 hb
    · rintro x v ⟨s, h1, h2, _⟩
      exact big_isZero h1 h2
    · intro G w ⟨h1, h2⟩
      refine ⟨h1, fun j hj0 hj => ?_⟩
      rw [upd_ne _ _ (by omega)]
      exact h2 j hj0 hj
    · rw [upd_same]; exact hm.num
    · intro j
      show upd st.rows i _ j = _
      by_cases hj : j = i
      · subst hj; rw [upd_same, upd_same]
      · rw [upd_ne _ _ hj, upd_ne _ _ hj]; exact hi.rows j
    · intro j hj0 x hx
      by_cases hj : j = i
      · subst hj; rw [upd_same] at hx; exact hm.reach x hx
      · rw [upd_ne _ _ hj] at hx; exact hi.reach j hj0 x hx
    · intro j hj0 hj
      rw [upd_ne _ _ (by omega)]
      exact (hi.rep.2 j hj0 (by omega)).mono hm.words
    · rw [hsum _ hm.cnt]; exact hi.cnt
    · rw [hsum _ hm.pot]; exact hi.bt
    · rw [hsum _ hm.pot]; exact hi.br
    · obtain ⟨G', t', hi'⟩ := h'
      refine ⟨G', t', hi'.rows, hi'.reach, ⟨?_, fun j hj0 hj => hi'.rep.2 j hj0 (by omega)⟩, hi'.tot, hi'.cnt, hi'.bt, hi'.br⟩
      rw [hi'.rep.1]; exact Nat.le_trans hi.rep.1 hm.words
  · rintro st ⟨G, t, hi⟩
    have h1 := hi.cnt
    simp only [below, Nat.mod_zero, Nat.add_zero] at h1
    rw [← h1]; exact hi.tot

end TdZdd
