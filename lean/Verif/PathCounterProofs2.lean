import Verif.PathCounterProofs

/-! Proofs about `PathCounter`: insertion of nodes, levels, and the functions `count` and `count64`. -/

namespace TdZdd

open Big

variable {N : Nat} {S α : Type} {sp : DdSpec N S}

/-- representation of the lists: at most `L` nodes in a level, with positive numbers that satisfy `R` -/
def XR (W L : Nat) (R : Nat → Nat → α → Nat → Prop) (G : Nat → List (S × α × Nat)) (w : Nat) : Prop :=
  W ≤ w ∧ ∀ j, 0 < j → (G j).length ≤ L ∧ ∀ x ∈ G j, 0 < x.2.2 ∧ R w j x.2.1 x.2.2

theorem len_le_rowSum {j : Nat} {L : List (S × α × Nat)} (h : ∀ x ∈ L, 0 < x.2.2) : L.length * N ^ j ≤ rowSum (pot N) j L := by
  induction L with
  | nil => simp
  | cons x L ih =>
    rw [rowSum_cons, List.length_cons, Nat.succ_mul]
    have h1 := ih fun y hy => h y (List.mem_cons_of_mem _ hy)
    have h2 : 1 * N ^ j ≤ x.2.2 * N ^ j := Nat.mul_le_mul_right _ (h x (List.mem_cons_self ..))
    simp only [pot]
    omega

theorem rowSum_le {j V : Nat} {L : List (S × α × Nat)} (h : ∀ x ∈ L, x.2.2 ≤ V) : rowSum (pot N) j L ≤ L.length * (V * N ^ j) := by
  induction L with
  | nil => simp [rowSum]
  | cons x L ih =>
    rw [rowSum_cons, List.length_cons, Nat.succ_mul]
    have h1 := ih fun y hy => h y (List.mem_cons_of_mem _ hy)
    have h2 : x.2.2 * N ^ j ≤ V * N ^ j := Nat.mul_le_mul_right _ (h x (List.mem_cons_self ..))
    simp only [pot]
    omega

theorem below_le {V L : Nat} (hN : 0 < N) {G : Nat → List (S × α × Nat)} (i : Nat)
    (h : ∀ j, 0 < j → j ≤ i → (G j).length ≤ L ∧ ∀ x ∈ G j, x.2.2 ≤ V) : below (pot N) G i ≤ i * L * (V * N ^ i) := by
  have : ∀ m, m ≤ i → below (pot N) G m ≤ m * L * (V * N ^ i) := by
    intro m
    induction m with
    | zero => intro _; simp [below]
    | succ m ih =>
      intro hm
      obtain ⟨h1, h2⟩ := h (m + 1) (Nat.succ_pos m) hm
      have h3 := rowSum_le (N := N) (j := m + 1) h2
      have h4 : (G (m + 1)).length * (V * N ^ (m + 1)) ≤ L * (V * N ^ i) :=
        Nat.mul_le_mul h1 (Nat.mul_le_mul_left _ (Nat.pow_le_pow_right hN hm))
      have h5 := ih (by omega)
      rw [below, Nat.succ_mul, Nat.add_mul]
      omega
  exact this i (Nat.le_refl _)

/-- lawful specifications: equal states have the same number of accepted paths -/
theorem cntF_congr (hl : Lawful sp) {n : Nat} {s t : S} (h0 : 0 < n) (hs : Reach sp (n : Int) s) (ht : Reach sp (n : Int) t)
    (h : sp.eqv n s t = true) : cntF sp n s = cntF sp n t := by
  have e := hl.sound h0 hs ht h
  have h1 := (count_all hl.toDesc n n t (Int.le_refl _) (by omega) ht).1
  have h2 : cc (cntF sp) ((n : Int), t) = cntF sp n t := by
    unfold cc; rw [if_neg (by dsimp only; omega), if_neg (by dsimp only; omega)]; rfl
  rw [h2] at h1
  exact cntF_eq (h1.congr fun p => (e p).symm)

section ins

variable {ops : CountOps α} {T : α → Nat → Prop} {K M Bt Br i : Nat} {u : Prop × Prop}
  {W L : Nat} {R : Nat → Nat → α → Nat → Prop}

theorem mem_set_cases {β : Type} {L : List β} {k : Nat} {y x : β} (h : x ∈ L.set k y) : x = y ∨ x ∈ L := by
  rcases List.mem_or_eq_of_mem_set h with h | h
  · exact .inr h
  · exact .inl h

theorem insUniq_post (hl : Lawful sp) (lim cap : Nat) {ii : Nat} {s : S} {x : α} {v : Nat} (h0 : 0 < ii) (hii : ii ≤ i)
    (hr : Reach sp (ii : Int) s) (hv : 0 < v) (hL : lim ≤ L) (hth : ∀ len, lim ≤ len → (len + 1) * N ^ ii ≤ Br → u.2)
    (hmono : ∀ w w' j y a, w ≤ w' → R w j y a → R w' j y a)
    (hadd : ∀ w y a, W ≤ w → R w ii y a → (a + v) * N ^ ii ≤ Br → Post u (ops.add y x) fun r => R (max w r.2) ii r.1 (a + v))
    (hstore : ∀ w, W ≤ w → v * N ^ ii ≤ Br → Post u (ops.store cap x) fun y => R w ii y v)
    {rc rp : Nat} {st : PcSt S α}
    (h : PcI sp (XR W L R) T K M Bt Br i (v * cntF sp ii s + rc) (v * pot N ii s + rp) st) :
    Post u (insUniq ops sp lim cap ii s x st) (PcI sp (XR W L R) T K M Bt Br i rc rp) := by
  obtain ⟨G, t, hi⟩ := h
  unfold insUniq
  have erow := hi.rows ii
  cases hf : (st.rows ii).findIdx? (fun e => sp.eqv ii e.1 s) with
  | some k =>
    dsimp only
    have hk := List.findIdx?_eq_some_iff_getElem.1 hf
    obtain ⟨hk1, hk2, _⟩ := hk
    have hkG : k < (G ii).length := by rw [erow, List.length_map] at hk1; exact hk1
    obtain ⟨g, hg⟩ : ∃ g, (G ii)[k]? = some g := ⟨_, List.getElem?_eq_getElem hkG⟩
    have hgm : g ∈ G ii := mem_of_getElem?' hg
    have hst : (st.rows ii)[k]? = some (g.1, g.2.1) := by rw [erow, List.getElem?_map, hg]; rfl
    have hk3 : sp.eqv ii g.1 s = true := by
      have : (st.rows ii)[k]'hk1 = (g.1, g.2.1) := by
        rw [List.getElem?_eq_getElem hk1] at hst; exact Option.some.inj hst
      rw [this] at hk2; exact hk2
    rw [hst]
    dsimp only
    have hb : (g.2.2 + v) * N ^ ii ≤ Br := by
      have h1 := le_rowSum (c := pot N) (j := ii) hg
      have h2 := rowSum_le_below (c := pot N) (G := G) h0 hii
      have h3 := hi.br
      rw [Nat.add_mul]
      simp only [pot] at h1 h2 h3 ⊢
      omega
    refine (hadd st.words g.2.1 g.2.2 hi.rep.1 ((hi.rep.2 ii h0).2 g hgm).2 hb).bind fun r hr' => ?_
    have hcnt := cntF_congr hl h0 (hi.reach ii h0 g hgm) hr hk3
    have hsum : ∀ c : Nat → S → Nat, c ii g.1 = c ii s →
        below c (upd G ii ((G ii).set k (g.1, r.1, g.2.2 + v))) i = below c G i + v * c ii s := by
      intro c hc
      have h1 := below_upd (c := c) (G := G) (L := (G ii).set k (g.1, r.1, g.2.2 + v)) h0 hii
      have h2 := rowSum_set (c := c) (j := ii) (x' := (g.1, r.1, g.2.2 + v)) hg
      dsimp only at h2
      rw [Nat.add_mul, hc] at h2
      omega
    refine ⟨upd G ii ((G ii).set k (g.1, r.1, g.2.2 + v)), t, ?_, ?_, ⟨?_, ?_⟩, hi.tot, ?_, ?_, ?_⟩
    · intro j
      show upd st.rows ii _ j = _
      by_cases hj : j = ii
      · subst hj; rw [upd_same, upd_same, erow, List.map_set]
      · rw [upd_ne _ _ hj, upd_ne _ _ hj]; exact hi.rows j
    · intro j hj0 y hy
      by_cases hj : j = ii
      · subst hj
        rw [upd_same] at hy
        rcases mem_set_cases hy with rfl | hy
        · exact hi.reach j hj0 g hgm
        · exact hi.reach j hj0 y hy
      · rw [upd_ne _ _ hj] at hy; exact hi.reach j hj0 y hy
    · have := hi.rep.1
      show W ≤ max st.words r.2
      omega
    · intro j hj0
      show (upd G ii _ j).length ≤ L ∧ ∀ y ∈ upd G ii _ j, 0 < y.2.2 ∧ R (max st.words r.2) j y.2.1 y.2.2
      obtain ⟨hl1, hl2⟩ := hi.rep.2 j hj0
      by_cases hj : j = ii
      · subst hj
        rw [upd_same, List.length_set]
        refine ⟨hl1, fun y hy => ?_⟩
        rcases mem_set_cases hy with rfl | hy
        · exact ⟨Nat.add_pos_right _ hv, hr'⟩
        · exact ⟨(hl2 y hy).1, hmono _ _ _ _ _ (Nat.le_max_left ..) (hl2 y hy).2⟩
      · rw [upd_ne _ _ hj]
        exact ⟨hl1, fun y hy => ⟨(hl2 y hy).1, hmono _ _ _ _ _ (Nat.le_max_left ..) (hl2 y hy).2⟩⟩
    · rw [hsum _ hcnt, ← hi.cnt]; congr 1; omega
    · rw [hsum (pot N) rfl]; have := hi.bt; omega
    · rw [hsum (pot N) rfl]; have := hi.br; omega
  | none =>
    dsimp only
    split
    next hlim =>
      refine hth (G ii).length (by rw [erow, List.length_map] at hlim; exact hlim) ?_
      have h1 := len_le_rowSum (N := N) (j := ii) fun y hy => ((hi.rep.2 ii h0).2 y hy).1
      have h2 := rowSum_le_below (c := pot N) (G := G) h0 hii
      have h3 := hi.br
      have h4 : 1 * N ^ ii ≤ v * N ^ ii := Nat.mul_le_mul_right _ hv
      rw [Nat.succ_mul]
      simp only [pot] at h1 h2 h3 ⊢
      omega
    next hlim =>
      have hb : v * N ^ ii ≤ Br := by have h3 := hi.br; simp only [pot] at h3; omega
      refine (hstore st.words hi.rep.1 hb).bind fun y hy => ?_
      have hsum : ∀ c : Nat → S → Nat, below c (upd G ii ((s, y, v) :: G ii)) i = below c G i + v * c ii s := by
        intro c
        have h1 := below_upd (c := c) (G := G) (L := (s, y, v) :: G ii) h0 hii
        rw [rowSum_cons] at h1
        dsimp only at h1
        omega
      refine ⟨upd G ii ((s, y, v) :: G ii), t, ?_, ?_, ⟨hi.rep.1, ?_⟩, hi.tot, ?_, ?_, ?_⟩
      · intro j
        show upd st.rows ii _ j = _
        by_cases hj : j = ii
        · subst hj; rw [upd_same, upd_same, erow]; rfl
        · rw [upd_ne _ _ hj, upd_ne _ _ hj]; exact hi.rows j
      · intro j hj0 z hz
        by_cases hj : j = ii
        · subst hj
          rw [upd_same] at hz
          rcases List.mem_cons.1 hz with rfl | hz
          · exact hr
          · exact hi.reach j hj0 z hz
        · rw [upd_ne _ _ hj] at hz; exact hi.reach j hj0 z hz
      · intro j hj0
        show (upd G ii _ j).length ≤ L ∧ ∀ y ∈ upd G ii _ j, 0 < y.2.2 ∧ R st.words j y.2.1 y.2.2
        obtain ⟨hl1, hl2⟩ := hi.rep.2 j hj0
        by_cases hj : j = ii
        · subst hj
          rw [upd_same, List.length_cons]
          rw [erow, List.length_map] at hlim
          refine ⟨by omega, fun z hz => ?_⟩
          rcases List.mem_cons.1 hz with rfl | hz
          · exact ⟨hv, hy⟩
          · exact hl2 z hz
        · rw [upd_ne _ _ hj]; exact ⟨hl1, hl2⟩
      · rw [hsum, ← hi.cnt]; congr 1; omega
      · rw [hsum]; have := hi.bt; omega
      · rw [hsum]; have := hi.br; omega

end ins

section level

variable {ops : CountOps α} {X : (Nat → List (S × α × Nat)) → Nat → Prop} {T : α → Nat → Prop} {K M Bt Br i : Nat}
  {ins : Nat → Nat → S → α → PcSt S α → Out (PcSt S α)} {E : α → Nat → Prop} {u : Prop × Prop}

theorem pcLevel_post (hd : Desc sp) (hN : 0 < N) (h0 : 0 < i) {st : PcSt S α} {G : Nat → List (S × α × Nat)} {t : Nat}
    (ho : PcOk sp ops X T E K M Bt Br i (fun ii => ins (st.words + 1 + (i - ii) / 63) ii) u)
    (hX : ∀ G w, X G w → X (upd G i []) w) (hE : ∀ x ∈ G i, E x.2.1 x.2.2) (hi : PcInv sp X T K M Bt Br i 0 0 G t st) :
    Post u (pcLevel ops sp ins i st) (PcI sp X T K M Bt Br (i - 1) 0 0) := by
  unfold pcLevel
  have ebelow : ∀ c : Nat → S → Nat, below c G i = below c G (i - 1) + rowSum c i (G i) := by
    intro c
    obtain ⟨m, rfl⟩ : ∃ m, i = m + 1 := ⟨i - 1, by omega⟩
    rfl
  rw [hi.rows i]
  refine (pcNodes_post hd hN ho h0 (G i) (fun x hx => ⟨hi.reach i h0 x hx, hE x hx⟩) ⟨G, t, hi.rows, hi.reach, hi.rep, hi.tot,
    ?_, ?_, ?_⟩).bind fun st' h' => ?_
  · have := hi.cnt; rw [ebelow, Nat.add_zero] at this; rw [← this]; congr 1; omega
  · have := hi.bt; rw [ebelow] at this; omega
  · have := hi.br; rw [ebelow] at this; omega
  · obtain ⟨G', t', hi'⟩ := h'
    refine ⟨upd G' i [], t', ?_, ?_, hX _ _ hi'.rep, hi'.tot, ?_, ?_, ?_⟩
    · intro j
      show upd st'.rows i [] j = _
      by_cases hj : j = i
      · subst hj; rw [upd_same, upd_same]; rfl
      · rw [upd_ne _ _ hj, upd_ne _ _ hj]; exact hi'.rows j
    · intro j hj0 y hy
      by_cases hj : j = i
      · subst hj; rw [upd_same] at hy; cases hy
      · rw [upd_ne _ _ hj] at hy; exact hi'.reach j hj0 y hy
    · rw [below_above (by omega)]; exact hi'.cnt
    · rw [below_above (by omega)]; exact hi'.bt
    · rw [below_above (by omega)]; exact hi'.br

/-- the loop over the levels -/
theorem pcRun_post {level : Nat → PcSt S α → Out (PcSt S α)} {I : Nat → PcSt S α → Prop} {s : S} {n : Nat} {one zero : α}
    (hinit : I n ⟨upd (fun _ => []) n [(s, one)], zero, 1⟩)
    (hlev : ∀ i st, 0 < i → i ≤ n → I i st → Post u (level i st) (I (i - 1))) {P : α → Prop} (hfin : ∀ st, I 0 st → P st.total) :
    Post u (pcRun level s n one zero) P := by
  unfold pcRun
  have key := Post.fold (u := u) (f := fun st i => level i st) (fun k => n - k)
    (fun l st => ∃ m, m ≤ n ∧ l = (List.range m).map (· + (n - m)) ∧ I m st) ?_ (List.range n) _
    ⟨n, Nat.le_refl _, by simp, hinit⟩
  · refine key.bind fun st h => ?_
    obtain ⟨m, _, e, hI⟩ := h
    cases m with
    | zero => exact hfin st hI
    | succ m => rw [List.range_succ] at e; simp at e
  · rintro c cs st ⟨m, hm, e, hI⟩
    cases m with
    | zero => cases e
    | succ m =>
      rw [List.range_succ_eq_map, List.map_cons, List.map_map, List.cons.injEq] at e
      have ec : n - c = m + 1 := by have := e.1; omega
      rw [ec]
      refine (hlev (m + 1) st (Nat.succ_pos m) hm hI).imp fun st' h' => ⟨m, by omega, ?_, h'⟩
      rw [e.2]
      apply List.map_congr_left
      intro a _
      show a + 1 + (n - (m + 1)) = a + (n - m)
      omega

end level

section count

variable {ops : CountOps α} {T : α → Nat → Prop} {M Bt Br : Nat} {u : Prop × Prop} {R : Nat → Nat → α → Nat → Prop}

/-- the root is the only node, with number 1 -/
theorem pc_init {X : (Nat → List (S × α × Nat)) → Nat → Prop} {n : Nat} (h0 : 0 < n) {s : S} {one zero : α} (hr : Reach sp (n : Int) s)
    (hX : X (upd (fun _ => []) n [(s, one, 1)]) 1) (ht : T zero 0) (hbt : N ^ n ≤ Bt) (hbr : N ^ n ≤ Br) :
    PcInv sp X T (cntF sp n s) M Bt Br n 0 0 (upd (fun _ => []) n [(s, one, 1)]) 0 ⟨upd (fun _ => []) n [(s, one)], zero, 1⟩ := by
  have hb : ∀ c : Nat → S → Nat, below (α := α) c (upd (fun _ => []) n [(s, one, 1)]) n = c n s := by
    intro c
    have h1 := below_upd (α := α) (c := c) (G := fun _ => []) (i := n) (L := [(s, one, 1)]) h0 (Nat.le_refl _)
    have h2 : ∀ m, below (α := α) c (fun _ => []) m = 0 := by
      intro m
      induction m with
      | zero => rfl
      | succ m ih => rw [below, ih]; rfl
    rw [h2] at h1
    have h3 : rowSum (α := α) c n [] = 0 := rfl
    have h4 : rowSum (α := α) c n [(s, one, 1)] = c n s := by rw [rowSum_cons]; simp [rowSum]
    rw [h3, h4] at h1
    omega
  refine ⟨?_, ?_, hX, ht, ?_, ?_, ?_⟩
  · intro j
    by_cases hj : j = n
    · subst hj; simp
    · dsimp only
      rw [upd_ne _ _ hj, upd_ne _ _ hj]; rfl
  · intro j _ x hx
    by_cases hj : j = n
    · subst hj
      rw [upd_same, List.mem_singleton] at hx
      subst hx; exact hr
    · rw [upd_ne _ _ hj] at hx; cases hx
  · rw [hb]; simp
  · rw [hb]; simp only [pot]; omega
  · rw [hb]; simp only [pot]; omega

/-- `count` and `count64`: `R` may depend on a bound on the weight of the lists -/
theorem count_post (hl : Lawful sp) (hN : 0 < N) {n : Nat} (h0 : 0 < n) (hroot : sp.root.1 = n) (lim : Nat) {one zero : α}
    {R : Nat → Nat → Nat → α → Nat → Prop} (h1 : R (N ^ n) 1 n one 1) (hz : T zero 0)
    (hmono : ∀ B B' w w' j x v, B' ≤ B → w ≤ w' → R B w j x v → R B' w' j x v)
    (hadd : ∀ B W w i ii y a x v, R B w ii y a → R B W i x v → W ≤ w → (a + v) * N ^ ii ≤ B →
      Post u (ops.add y x) fun r => R B (max w r.2) ii r.1 (a + v))
    (hstore : ∀ B W w i ii x v, 0 < ii → ii < i → i ≤ n → (∃ s' b, Reach sp (i : Int) s' ∧ (sp.child s' i b).1 = ii) →
      1 ≤ W → W ≤ w → B ≤ N ^ n → (∀ V, (∀ j x v, R B W j x v → v ≤ V) → B ≤ i * max lim 1 * (V * N ^ i)) → R B W i x v →
      Post u (ops.store (W + 1 + (i - ii) / 63) x) fun y => R B w ii y v)
    (hth : lim < N ^ n → u.2)
    (htot : ∀ B w i t a x v, T t a → R B w i x v → a + v ≤ N ^ n → Post u (ops.add t x) fun r => T r.1 (a + v))
    (hzero : ∀ B w i x v, R B w i x v → 0 < v → Post u (ops.isZero x) fun z => z = true → v % M = 0) :
    Post u (pcRun (pcLevel ops sp (insUniq ops sp lim)) sp.root.2 n one zero) fun t =>
      ∃ v, T t v ∧ v % M = cntF sp n sp.root.2 % M := by
  have hr : Reach sp (n : Int) sp.root.2 := by rw [← hroot]; exact .root
  refine pcRun_post (I := fun i st => ∃ B, B ≤ N ^ n ∧
    PcI sp (XR 1 (max lim 1) (R B)) T (cntF sp n sp.root.2) M (N ^ n) B i 0 0 st) ?_ ?_ ?_
  · refine ⟨N ^ n, Nat.le_refl _, _, _, pc_init h0 hr ⟨Nat.le_refl _, ?_⟩ hz (Nat.le_refl _) (Nat.le_refl _)⟩
    intro j _
    by_cases hj : j = n
    · subst hj
      rw [upd_same]
      refine ⟨Nat.le_max_right .., fun x hx => ?_⟩
      rw [List.mem_singleton] at hx
      subst hx; exact ⟨Nat.one_pos, h1⟩
    · rw [upd_ne _ _ hj]; exact ⟨Nat.zero_le _, fun x hx => by cases hx⟩
  · rintro i st hi0 hin ⟨B, hB, G, t, hi⟩
    obtain ⟨B', hB'⟩ : ∃ B', B' = below (pot N) G i := ⟨_, rfl⟩
    have hle : B' ≤ B := by have := hi.br; omega
    have hle' : B' ≤ N ^ n := by have := hi.bt; omega
    have hrow : ∀ w, st.words ≤ w → ∀ j, 0 < j → (G j).length ≤ max lim 1 ∧ ∀ x ∈ G j, 0 < x.2.2 ∧ R B' w j x.2.1 x.2.2 :=
      fun w hw j hj => ⟨(hi.rep.2 j hj).1, fun x hx =>
        ⟨((hi.rep.2 j hj).2 x hx).1, hmono _ _ _ _ _ _ _ hle hw ((hi.rep.2 j hj).2 x hx).2⟩⟩
    refine (pcLevel_post (X := XR st.words (max lim 1) (R B')) (E := fun x v => 0 < v ∧ R B' st.words i x v) (Br := B')
      (K := cntF sp n sp.root.2) (M := M) (G := G) (t := t) hl.toDesc hN hi0 ⟨?_, fun t x a v ht hE => htot _ _ _ t a x v ht hE.2, ?_⟩ ?_
      (hrow _ (Nat.le_refl _) i hi0).2 ?_).imp fun st' h' => ⟨B', hle', ?_⟩
    · intro ii s x v rc rp st' hii0 hii hr' hex hE hv h
      refine insUniq_post (i := i - 1) (R := R B') hl lim _ hii0 (by omega) hr' hv (Nat.le_max_left ..) ?_
        (fun w w' j y a hw => hmono _ _ _ _ j y a (Nat.le_refl _) hw) ?_ ?_ h
      · intro len h1 h2
        apply hth
        have h3 : (len + 1) * 1 ≤ (len + 1) * N ^ ii := Nat.mul_le_mul_left _ (Nat.pow_pos hN)
        omega
      · intro w y a hw hy hb
        exact hadd _ _ _ _ _ _ _ _ _ hy hE.2 hw hb
      · intro w hw hb
        refine hstore _ _ _ i ii x v hii0 hii hin hex hi.rep.1 hw hle' ?_ hE.2
        intro V hV
        rw [hB']
        exact below_le hN i fun j hj _ => ⟨(hrow _ (Nat.le_refl _) j hj).1,
          fun y hy => hV _ _ _ ((hrow _ (Nat.le_refl _) j hj).2 y hy).2⟩
    · intro x v hE
      exact (hzero _ _ _ x v hE.2 hE.1).imp fun z hz => ⟨hz, fun _ => hE.1⟩
    · intro G w ⟨h1, h2⟩
      refine ⟨h1, fun j hj0 => ?_⟩
      by_cases hj : j = i
      · subst hj; rw [upd_same]; exact ⟨Nat.zero_le _, fun x hx => by cases hx⟩
      · rw [upd_ne _ _ hj]; exact h2 j hj0
    · exact ⟨hi.rows, hi.reach, ⟨Nat.le_refl _, hrow _ (Nat.le_refl _)⟩, hi.tot, hi.cnt, hi.bt, by omega⟩
    · obtain ⟨G', t', hi'⟩ := h'
      exact ⟨G', t', hi'.rows, hi'.reach, ⟨Nat.le_trans hi.rep.1 hi'.rep.1, hi'.rep.2⟩, hi'.tot, hi'.cnt, hi'.bt, hi'.br⟩
  · rintro st ⟨B, _, G, t, hi⟩
    have := hi.cnt
    exact ⟨t, hi.tot, by simpa [below] using this⟩

end count

end TdZdd
