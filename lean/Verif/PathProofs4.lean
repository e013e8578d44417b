import Verif.PathProofs3

/-! Proofs about `PathZdd` (4): paths between the vertices of the same colour. -/

namespace TdZdd.Sp

open Gr Deg

variable {G : Graph} {A : Nat → Nat → Prop} {i : Nat}

/-! ### more about components -/

theorem Comp.congr {n : Nat} {f g : Nat → Nat} (h : Comp A n g) (he : ∀ i, i < n → f i = g i) : Comp A n f where
  pos := h.pos
  inj i j hi hj hij := h.inj i j hi hj (by rw [← he i hi, ← he j hj]; exact hij)
  adj i hi y := by
    rw [he i hi, h.adj i hi]
    constructor
    · rintro (⟨h1, h2⟩ | ⟨k, h1, h2⟩)
      · exact .inl ⟨h1, by rw [he _ h1]; exact h2⟩
      · exact .inr ⟨k, h1, by rw [he _ (by omega)]; exact h2⟩
    · rintro (⟨h1, h2⟩ | ⟨k, h1, h2⟩)
      · exact .inl ⟨h1, by rw [he _ h1] at h2; exact h2⟩
      · exact .inr ⟨k, h1, by rw [he _ (by omega)] at h2; exact h2⟩

theorem Forest.cases (h : Forest A) (v : Nat) : Inner A v ∨ IsEnd A v v ∨ ∃ u, u ≠ v ∧ IsEnd A v u := by
  rcases h v with h | ⟨u, h⟩
  · exact .inl h
  · by_cases hu : u = v
    · subst hu; exact .inr (.inl h)
    · exact .inr (.inr ⟨u, hu, h⟩)

/-- the array elements that are not 0 belong to vertices yet to come -/
theorem Enc.entry {v0 : Nat} {mate : List Int} (hE : Enc G A i v0 mate) {j : Nat} {w : Int} (h : mate[j]? = some w) (hw : w ≠ 0) : Act G i (v0 + j) ∧ MVal G A i (v0 + j) w := by
  have hj : j < mate.length := (List.getElem?_eq_some_iff.1 h).1
  rw [hE.len] at hj
  have hidx : v0 + j - v0 = j := by omega
  by_cases ha : Act G i (v0 + j)
  · obtain ⟨w', h1, h2⟩ := hE.val (v0 + j) (by omega) (by omega) ha
    rw [hidx, h] at h1
    injection h1 with h1
    rw [h1]
    exact ⟨ha, h2⟩
  · have := hE.out (v0 + j) (by omega) (by omega) ha
    rw [hidx, h] at this
    injection this with this
    exact absurd this hw

/-- the array element of a vertex in the frontier -/
theorem Enc.at_win (hH : Hyp G) {e : EdgeInfo} (he : G.info[i]? = some e) {mate : List Int} (hE : Enc G A i e.v0 mate) {v b : Nat} (hb : b ≤ i) (hu : Uses G.info b v) (ha : Act G i v) :
    ∃ j w, mate[j]? = some w ∧ e.v0 + j = v ∧ MVal G A i v w := by
  obtain ⟨h1, h2⟩ := win hH he hb hu ha
  obtain ⟨w, h3, h4⟩ := hE.val v h1 h2 ha
  exact ⟨v - e.v0, w, h3, by omega, h4⟩

theorem Ends.back (hH : Hyp G) {e : EdgeInfo} (he : G.info[i]? = some e) (hS : Struct G A i) {u1 u2 : Nat} (hu : Ends G A e u1 u2) {x y : Nat} (h : IsEnd (addE A e.v1 e.v2) x y)
    (n1 : x ≠ u1) (n2 : x ≠ u2) : IsEnd A x y ∧ x ≠ e.v1 ∧ x ≠ e.v2 := by
  obtain ⟨j1, j2, j3, j4, j5, j6⟩ := join_ends hu.end1 hu.end2 (hH.loop i e he) hu.ne
  have hx1 : x ≠ e.v1 := by
    rintro rfl
    exact h.not_inner (j3 (Ne.symm n1))
  have hx2 : x ≠ e.v2 := by
    rintro rfl
    exact h.not_inner (j4 (Ne.symm n2))
  rcases hS.forest x with hi | ⟨z, hz⟩
  · exact absurd (j6 x hi) h.not_inner
  · have := j5 x z hz hx1 n1 hx2 n2
    rw [h.unique this]
    exact ⟨hz, hx1, hx2⟩

/-! ### the goal -/

/-- all components are single uncoloured vertices or paths between coloured vertices of the same colour, without coloured vertices inside -/
def PathOk (G : Graph) (T : Nat → Nat → Prop) : Prop :=
  ∀ v, (G.color v = 0 ∧ IsEnd T v v) ∨ (G.color v = 0 ∧ Inner T v) ∨ (G.color v ≠ 0 ∧ ∃ u, u ≠ v ∧ IsEnd T v u ∧ G.color u = G.color v)

/-- each colour is the colour of exactly two vertices, and there are some -/
structure Pairs (G : Graph) : Prop where
  two : ∀ c, 1 ≤ c → c ≤ G.numColor → ∃ s t, s ≠ t ∧ ∀ v, G.color v = c ↔ v = s ∨ v = t
  some : 1 ≤ G.numColor

variable {T : Nat → Nat → Prop}

theorem PathOk.forest (h : PathOk G T) : Forest T := by
  intro v
  rcases h v with ⟨_, h⟩ | ⟨_, h⟩ | ⟨_, u, _, h, _⟩
  · exact .inr ⟨_, h⟩
  · exact .inl h
  · exact .inr ⟨_, h⟩

theorem PathOk.colored (h : PathOk G T) {v : Nat} (hc : G.color v ≠ 0) : ∃ u, u ≠ v ∧ IsEnd T v u ∧ G.color u = G.color v := by
  rcases h v with ⟨h, _⟩ | ⟨h, _⟩ | ⟨_, h⟩
  · exact absurd h hc
  · exact absurd h hc
  · exact h

theorem PathOk.uncolored (h : PathOk G T) {v u : Nat} (hc : G.color v = 0) (he : IsEnd T v u) : u = v := by
  rcases h v with ⟨_, h⟩ | ⟨_, h⟩ | ⟨h, _⟩
  · exact he.unique h
  · exact absurd h he.not_inner
  · exact absurd hc h

theorem PathOk.deg (h : PathOk G T) : DegOk G T := by
  refine ⟨fun v y hy hc => ?_, fun v hc => ?_, fun v y y' hc hy hy' => ?_, fun v x y z hx hy hz => ?_⟩
  · rcases h v with ⟨_, h⟩ | ⟨_, h⟩ | ⟨h, _⟩
    · exact absurd hy (h.alone y)
    · obtain ⟨p, q, hne, hp, hq, hpq⟩ := h.two
      rcases hpq y hy with rfl | rfl
      · exact ⟨q, Ne.symm hne, hq⟩
      · exact ⟨p, hne, hp⟩
    · exact absurd hc h
  · obtain ⟨u, h1, h2, _⟩ := h.colored hc
    obtain ⟨x, hx, _⟩ := h2.one h1
    exact ⟨x, hx⟩
  · obtain ⟨u, h1, h2, _⟩ := h.colored hc
    obtain ⟨x, hx, hx1⟩ := h2.one h1
    rw [hx1 y hy, hx1 y' hy']
  · rcases h v with ⟨_, h⟩ | ⟨_, h⟩ | ⟨_, u, h1, h2, _⟩
    · exact absurd hx (h.alone x)
    · obtain ⟨p, q, hne, hp, hq, hpq⟩ := h.two
      rcases hpq x hx with rfl | rfl <;> rcases hpq y hy with rfl | rfl <;> rcases hpq z hz with rfl | rfl <;> simp
    · obtain ⟨p, hp, hp1⟩ := h2.one h1
      exact .inl (by rw [hp1 x hx, hp1 y hy])

/-- a path between coloured vertices cannot be extended -/
theorem PathOk.closed_comp (h : PathOk G T) (hsub : ∀ x y, A x y → T x y) {n : Nat} {f : Nat → Nat} (hc : Comp A n f) (hn : 1 < n) (h0 : G.color (f 0) ≠ 0) (h1 : G.color (f (n - 1)) ≠ 0) : Comp T n f := by
  obtain ⟨u, _, ⟨m, g, hg, g0, g1⟩, _⟩ := h.colored h0
  have hfol := hg.follow hc.inj (fun i hi => hsub _ _ (hc.next hi)) g0.symm
  have hlast := hfol (n - 1) (by omega)
  have hm : n = m := by
    apply Classical.byContradiction
    intro hne
    obtain ⟨u', _, h2, _⟩ := h.colored h1
    exact h2.not_inner ⟨m, g, n - 1, hg, by omega, by omega, hlast.2.symm⟩
  subst hm
  exact hg.congr fun i hi => (hfol i hi).2

theorem PathOk.no_cycle (h : PathOk G T) (hsub : ∀ x y, A x y → T x y) {v w : Nat} (hv : IsEnd A v w) (hne : v ≠ w) (hn : ¬ A v w) (hT : T v w) : False := by
  obtain ⟨n, f, hc, h0, h1⟩ := hv
  obtain ⟨m, g, k, hg, hk, hgk⟩ := h.forest.comp v
  have hp := hc.pos
  have hn3 : 3 ≤ n := by
    rcases Nat.lt_or_ge n 3 with h | h
    · exfalso
      rcases (show n = 1 ∨ n = 2 by omega) with rfl | rfl
      · exact hne (by rw [← h0, ← h1])
      · apply hn; rw [← h0, ← h1]; exact hc.next (by omega)
    · exact h
  exact hg.no_cycle hn3 hc.inj (fun i hi => hsub _ _ (hc.next hi)) (by rw [h0, h1]; exact hT) hk (by rw [h0, hgk])

/-- all terminals are connected -/
def AllDone (G : Graph) (A : Nat → Nat → Prop) : Prop := ∀ t, G.color t ≠ 0 → ∃ u, u ≠ t ∧ IsEnd A t u ∧ G.color u ≠ 0

theorem AllDone.max (hd : AllDone G A) (h : PathOk G T) (hsub : ∀ x y, A x y → T x y) (x y : Nat) (hxy : T x y) : A x y := by
  have key : ∀ {n g k}, Comp T n g → k < n → g k = x → G.color (g 0) ≠ 0 → A x y := by
    intro n g k hg hk hx hc
    obtain ⟨u, h1, ⟨m, f, hf, h2, h3⟩, h4⟩ := hd (g 0) hc
    have hp := hf.pos
    have hm : 1 < m := by
      rcases Nat.lt_or_ge 1 m with h | h
      · exact h
      · exact absurd (by rw [← h2, ← h3]; congr 1; omega) h1
    have hT := h.closed_comp hsub hf hm (by rw [h2]; exact hc) (by rw [h3]; exact h4)
    obtain ⟨e1, e2⟩ := hT.same0 hg h2.symm
    subst e1
    rw [← hx, e2 k hk] at hxy ⊢
    exact (hf.adj k hk y).2 ((hT.adj k hk y).1 hxy)
  rcases h x with ⟨_, h'⟩ | ⟨_, n, f, k, hf, k1, k2, hx⟩ | ⟨hc, u, _, ⟨n, f, hf, h1, h2⟩, _⟩
  · exact absurd hxy (h'.alone y)
  · refine key hf (by omega) hx fun h0 => ?_
    have := h.uncolored h0 ⟨n, f, hf, rfl, rfl⟩
    have := hf.inj _ _ (by omega) (by omega) this
    omega
  · exact key hf hf.pos h1 (by rw [h1]; exact hc)

/-- what is known about the partial solutions -/
structure PathPart (G : Graph) (A : Nat → Nat → Prop) : Prop where
  same : ∀ v u, IsEnd A v u → u ≠ v → G.color v ≠ 0 → G.color u ≠ 0 → G.color v = G.color u
  open_ : ¬ PathOk G A

theorem pathPart_empty (hH : Hyp G) (hP : Pairs G) : PathPart G fun _ _ => False := by
  refine ⟨fun v u h hne => ?_, fun h => ?_⟩
  · obtain ⟨x, hx, _⟩ := h.one hne
    exact hx.elim
  · obtain ⟨v, h1, h2, h3⟩ := hH.ok.color_surj 1 (Nat.le_refl _) hP.some
    obtain ⟨y, hy⟩ := h.deg.d1 v (by omega)
    exact hy

section
variable {e : EdgeInfo} {u1 u2 : Nat}

theorem same_take (hH : Hyp G) (he : G.info[i]? = some e) (hS : Struct G A i) (hP : PathPart G A) (hu : Ends G A e u1 u2) (hc : G.color u1 ≠ 0 → G.color u2 ≠ 0 → G.color u1 = G.color u2) :
    ∀ v u, IsEnd (addE A e.v1 e.v2) v u → u ≠ v → G.color v ≠ 0 → G.color u ≠ 0 → G.color v = G.color u := by
  obtain ⟨j1, j2, j3, j4, j5, j6⟩ := join_ends hu.end1 hu.end2 (hH.loop i e he) hu.ne
  intro v u h hne h1 h2
  by_cases hv1 : v = u1
  · subst hv1
    have := h.unique j1
    subst this
    exact hc h1 h2
  by_cases hv2 : v = u2
  · subst hv2
    have := h.unique j1.symm
    subst this
    exact (hc h2 h1).symm
  · exact hP.same v u (hu.back hH he hS h hv1 hv2).1 hne h1 h2

/-- no terminal in the frontier: all are connected -/
theorem all_done (hH : Hyp G) (hPr : Pairs G) (he : G.info[i]? = some e) (hS : Struct G A i) (hP : PathPart G A) {mate : List Int} (hE : Enc G A i e.v0 mate) (hu : Ends G A e u1 u2)
    (c1 : G.color u1 ≠ 0) (c2 : G.color u2 ≠ 0) (heq : G.color u1 = G.color u2) (hseen : e.allColorsSeen = true)
    (hpos : ∀ (j : Nat) w, mate[j]? = some w → e.v0 + j ≠ e.v1 → e.v0 + j ≠ e.v2 → 0 ≤ w) : AllDone G (addE A e.v1 e.v2) := by
  obtain ⟨j1, j2, j3, j4, j5, j6⟩ := join_ends hu.end1 hu.end2 (hH.loop i e he) hu.ne
  have hS' := take_struct hH he hS hu
  have hsame := same_take hH he hS hP hu fun _ _ => heq
  -- a terminal that has been used is not isolated
  have alone : ∀ t b, G.color t ≠ 0 → b ≤ i → Uses G.info b t → ¬ IsEnd (addE A e.v1 e.v2) t t := by
    intro t b hc hb hub h
    have n1 : t ≠ u1 := by
      rintro rfl
      exact j2 (h.unique j1)
    have n2 : t ≠ u2 := by
      rintro rfl
      exact j2 (h.unique j1.symm).symm
    obtain ⟨h', m1, m2⟩ := hu.back hH he hS h n1 n2
    obtain ⟨j, w, h1, h2, h3⟩ := hE.at_win hH he hb hub (hS.open2 t hc h')
    have := hpos j w h1 (by omega) (by omega)
    rw [h3.of_alone h' hc] at this
    have := (rep_neg (G := G) (u := t)).2 hc
    omega
  -- a terminal is not connected to another vertex
  have half : ∀ t u, G.color t ≠ 0 → IsEnd (addE A e.v1 e.v2) t u → u ≠ t → G.color u ≠ 0 := by
    intro t u hc h hne hcu
    have n1 : u ≠ u1 := by rintro rfl; exact c1 hcu
    have n2 : u ≠ u2 := by rintro rfl; exact c2 hcu
    obtain ⟨h', m1, m2⟩ := hu.back hH he hS h.symm n1 n2
    obtain ⟨b, hb, hub⟩ := hS.used h' (Ne.symm hne)
    obtain ⟨j, w, h1, h2, h3⟩ := hE.at_win hH he (by omega) hub (hS.open1 u t h' (Ne.symm hne) hcu)
    have := hpos j w h1 (by omega) (by omega)
    rw [h3.of_open h' (Ne.symm hne) hcu] at this
    have := (rep_neg (G := G) (u := t)).2 hc
    omega
  intro t hc
  rcases hS'.forest.cases t with h | h | ⟨u, h1, h2⟩
  · exact absurd (hS'.inner t h) hc
  · exfalso
    obtain ⟨b, t', hb, hub, hct'⟩ := (hH.ok.seen i e he).1 hseen (G.color t) (by omega) (hH.ok.color_le t)
    by_cases ht : t' = t
    · subst ht
      exact alone t' b hc hb hub h
    have hc' : G.color t' ≠ 0 := by omega
    rcases hS'.forest.cases t' with h' | h' | ⟨u, h1, h2⟩
    · exact hc' (hS'.inner t' h')
    · exact alone t' b hc' hb hub h'
    · have hcu := half t' u hc' h2 h1
      have := hsame t' u h2 h1 hc' hcu
      obtain ⟨p, q, hpq, hall⟩ := hPr.two (G.color t) (by omega) (hH.ok.color_le t)
      have a1 := (hall t).1 rfl
      have a2 := (hall t').1 hct'
      have a3 := (hall u).1 (by omega)
      have hut : u = t := by omega
      subst hut
      exact ht ((h2.symm.unique h))
  · exact ⟨u, h1, h2, half t u hc h2 h1⟩

end

/-- `PathZdd` and `HamiltonPathZdd` -/
theorem pathSem (hH : Hyp G) (hPr : Pairs G) (ham : Bool) : Sem G false ham (PathOk G) (PathPart G) where
  deg _ h := h.deg
  fin _ _ _ hP := hP.open_
  no {A i e mate u1 u2} he hS hP hE hp ht T hsub hv hA := by
    have hsubA : ∀ x y, A x y → T x y := fun x y h => hsub x y (.inl h)
    have hloop := hH.loop i e he
    have hnew : T e.v1 e.v2 := hsub _ _ (.inr (.inl ⟨rfl, rfl⟩))
    unfold typed at ht
    rw [if_pos rfl] at ht
    by_cases hu : u1 = e.v2
    · subst hu
      refine hv.no_cycle hsubA hp.end1 hloop (fun h => ?_) hnew
      obtain ⟨b, hb, hj⟩ := hS.sub _ _ h
      have := hj.index hH (c := i) ⟨e, he, .inl ⟨rfl, rfl⟩⟩
      omega
    rw [if_neg hu] at ht
    have hu := hp.ends hu
    obtain ⟨j1, j2, j3, j4, j5, j6⟩ := join_ends hu.end1 hu.end2 hloop hu.ne
    by_cases hc : G.color u1 ≠ 0 ∧ G.color u2 ≠ 0
    · rw [if_pos hc] at ht
      by_cases hne : G.color u1 ≠ G.color u2
      · obtain ⟨n, f, hf, f0, f1⟩ := j1
        have hp := hf.pos
        have hn : 1 < n := by
          rcases Nat.lt_or_ge 1 n with h | h
          · exact h
          · exact absurd (by rw [← f0, ← f1]; congr 1; omega) j2
        have hT := hv.closed_comp hsub hf hn (by rw [f0]; exact hc.1) (by rw [f1]; exact hc.2)
        obtain ⟨u, _, h2, h3⟩ := hv.colored hc.1
        have := h2.unique ⟨n, f, hT, f0, f1⟩
        subst this
        exact hne h3.symm
      rw [if_neg hne] at ht
      have heq : G.color u1 = G.color u2 := Classical.byContradiction hne
      by_cases hseen : e.allColorsSeen = false
      · rw [if_pos hseen] at ht; cases ht
      rw [if_neg hseen] at ht
      have hdone := all_done hH hPr he hS hP hE hu hc.1 hc.2 heq (by simpa using hseen) fun j w h1 h2 h3 =>
        clean_pos (ham := ham) (c := true) (k := 0) (by rw [ht]; intro h; cases h) j w h1 (by rw [Nat.zero_add]; exact h2) (by rw [Nat.zero_add]; exact h3)
      have hmax := hdone.max hv hsub
      rcases clean_no ht with h | ⟨j, w, h1, h2, h3, h4, h5, h6⟩
      · cases h
      rw [Nat.zero_add] at h2 h3 h6
      obtain ⟨ha, hm⟩ := hE.entry h1 h5
      generalize e.v0 + j = v at *
      obtain ⟨u, g1, g2, g3⟩ := hm.nonzero h5
      have hcu : G.color u = 0 := Classical.byContradiction fun h => by
        have := (rep_neg (G := G) (u := u)).2 h
        omega
      have hcv : G.color v = 0 := by
        rcases g3 with h | h
        · exact h
        · rw [← h]; exact hcu
      have hend := j5 v u g1 h2 (by rintro rfl; exact hc.1 hcv) h3 (by rintro rfl; exact hc.2 hcv)
      by_cases huv : u = v
      · subst huv
        have hh := h6.resolve_right fun h => h (by rw [g2, rep_zero hcu])
        have hr := ha.range hH
        obtain ⟨y, hy⟩ := hA hh u hr.1 hr.2
        exact hend.alone y (hmax _ _ hy)
      · obtain ⟨x, hx, hx1⟩ := hend.one huv
        obtain ⟨y, hy, hy'⟩ := hv.deg.d0 v x (hsub _ _ hx) hcv
        exact hy (hx1 y (hmax _ _ hy'))
    · rw [if_neg hc] at ht; cases ht
  yes {A i e mate u1 u2} he hS hP hE hp ht := by
    have hu := hp.ends (typed_yes ht)
    obtain ⟨j1, j2, j3, j4, j5, j6⟩ := join_ends hu.end1 hu.end2 (hH.loop i e he) hu.ne
    have hS' := take_struct hH he hS hu
    unfold typed at ht
    rw [if_pos rfl, if_neg hu.ne] at ht
    by_cases hc : G.color u1 ≠ 0 ∧ G.color u2 ≠ 0
    · rw [if_pos hc] at ht
      by_cases hne : G.color u1 ≠ G.color u2
      · rw [if_pos hne] at ht; cases ht
      rw [if_neg hne] at ht
      have heq : G.color u1 = G.color u2 := Classical.byContradiction hne
      refine ⟨same_take hH he hS hP hu fun _ _ => heq, fun hv => ?_⟩
      by_cases hseen : e.allColorsSeen = false
      · have : ∃ c, 1 ≤ c ∧ c ≤ G.numColor ∧ ∀ b v, b ≤ i → Uses G.info b v → G.color v ≠ c := by
          apply Classical.byContradiction
          intro hn
          have := (hH.ok.seen i e he).2 fun c h1 h2 => Classical.byContradiction fun hx => hn ⟨c, h1, h2, fun b v hb hub hcv => hx ⟨b, v, hb, hub, hcv⟩⟩
          rw [hseen] at this; cases this
        obtain ⟨c, h1, h2, h3⟩ := this
        obtain ⟨v, _, _, hcv⟩ := hH.ok.color_surj c h1 h2
        obtain ⟨y, hy⟩ := hv.deg.d1 v (by omega)
        obtain ⟨b, hb, hj⟩ := hS'.sub _ _ hy
        exact h3 b v (by omega) hj.uses.1 hcv
      · rw [if_neg hseen] at ht
        obtain ⟨j, w, h1, h2, h3, h4⟩ := clean_yes ht
        rw [Nat.zero_add] at h2 h3
        obtain ⟨ha, hm⟩ := hE.entry h1 (by omega)
        generalize e.v0 + j = v at *
        obtain ⟨u, g1, g2, g3⟩ := hm.nonzero (by omega)
        have hcu : G.color u ≠ 0 := rep_neg.1 (by omega)
        by_cases huv : u = v
        · subst huv
          have hend := j5 u u g1 h2 (by
              rintro rfl
              exact h2 (hu.end1.symm.unique g1).symm) h3 (by
              rintro rfl
              exact h3 (hu.end2.symm.unique g1).symm)
          obtain ⟨y, hy⟩ := hv.deg.d1 u hcu
          exact hend.alone y hy
        · have hcv := g3.resolve_right huv
          have hend := j5 v u g1 h2 (by rintro rfl; exact hc.1 hcv) h3 (by rintro rfl; exact hc.2 hcv)
          exact huv (hv.uncolored hcv hend)
    · refine ⟨same_take hH he hS hP hu fun h1 h2 => absurd ⟨h1, h2⟩ hc, fun hv => ?_⟩
      by_cases h1 : G.color u1 = 0
      · exact j2 (hv.uncolored h1 j1).symm
      · have h2 : G.color u2 = 0 := Classical.byContradiction fun h => hc ⟨h1, h⟩
        exact j2 (hv.uncolored h2 j1.symm)
  hit {A i e mate u1 u2} he hS hP hE hp ht := by
    unfold typed at ht
    rw [if_pos rfl] at ht
    by_cases hu : u1 = e.v2
    · rw [if_pos hu] at ht; cases ht
    rw [if_neg hu] at ht
    have hu := hp.ends hu
    have hS' := take_struct hH he hS hu
    by_cases hc : G.color u1 ≠ 0 ∧ G.color u2 ≠ 0
    · rw [if_pos hc] at ht
      by_cases hne : G.color u1 ≠ G.color u2
      · rw [if_pos hne] at ht; cases ht
      rw [if_neg hne] at ht
      have heq : G.color u1 = G.color u2 := Classical.byContradiction hne
      by_cases hseen : e.allColorsSeen = false
      · rw [if_pos hseen] at ht; cases ht
      rw [if_neg hseen] at ht
      have hdone := all_done hH hPr he hS hP hE hu hc.1 hc.2 heq (by simpa using hseen) fun j w h1 h2 h3 =>
        clean_pos (ham := ham) (c := true) (k := 0) (by rw [ht]; intro h; cases h) j w h1 (by rw [Nat.zero_add]; exact h2) (by rw [Nat.zero_add]; exact h3)
      refine ⟨fun v => ?_, fun T hsub hv => hdone.max hv hsub⟩
      by_cases hcv : G.color v = 0
      · rcases hS'.forest.cases v with h | h | ⟨u, h1, h2⟩
        · exact .inr (.inl ⟨hcv, h⟩)
        · exact .inl ⟨hcv, h⟩
        · exfalso
          obtain ⟨h', m1, m2⟩ := hu.back hH he hS h2 (by rintro rfl; exact hc.1 hcv) (by rintro rfl; exact hc.2 hcv)
          have ha := hS.open1 v u h' h1 hcv
          obtain ⟨b, hb, hub⟩ := hS.used h' h1
          obtain ⟨j, w, g1, g2, g3⟩ := hE.at_win hH he (by omega) hub ha
          obtain ⟨k1, k2⟩ := (clean_hit ht).2 j w g1 (by omega) (by omega)
          rw [g3.of_open h' h1 hcv] at k2 k1
          have hu1 := hS.end_pos hH h' (ha.range hH).1
          refine k2 ⟨rep_ne hu1, .inr fun hw => ?_⟩
          rw [Nat.zero_add, g2] at hw
          exact h1 (rep_nat hw).1
      · obtain ⟨u, h1, h2, h3⟩ := hdone v hcv
        exact .inr (.inr ⟨hcv, u, h1, h2, (same_take hH he hS hP hu (fun _ _ => heq) v u h2 h1 hcv h3).symm⟩)
    · rw [if_neg hc] at ht; cases ht

end TdZdd.Sp
