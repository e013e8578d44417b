import Verif.PathComb

/-!
# Paths between two vertices, with mates

`A` is the graph of the edges taken so far; it consists of disjoint paths and none of them joins `s` and `t`.
-/

namespace TdZdd.GridPath

open Sp

variable {A B : Nat → Nat → Prop} {s t : Nat} {M : Nat → Int}

/-- the mate of the vertex `v` whose path ends at `u` -/
def mateOf (s t v u : Nat) : Int :=
  if v = s ∨ v = t then (if u = v then -1 else 0) else if u = s ∨ u = t then -1 else u

structure Inv (A : Nat → Nat → Prop) (s t : Nat) (M : Nat → Int) : Prop where
  pos : ∀ x y, A x y → 0 < x ∧ 0 < y
  irr : ∀ x, ¬ A x x
  forest : Forest A
  open' : ¬ IsEnd A s t
  inner : ∀ v, Inner A v → M v = 0
  ends : ∀ v u, IsEnd A v u → M v = mateOf s t v u

/-- the edges are exactly those of a path from `s` to `t` -/
def IsPath (A : Nat → Nat → Prop) (s t : Nat) : Prop := ∃ n f, Comp A n f ∧ f 0 = s ∧ f (n - 1) = t ∧ ∀ x y, A x y → ∃ i, i < n ∧ f i = x

theorem IsPath.mem {n : Nat} {f : Nat → Nat} (hc : Comp A n f) (hall : ∀ x y, A x y → ∃ i, i < n ∧ f i = x) {x y : Nat} (h : A x y) :
    ∃ i, i < n ∧ f i = x ∧ ((i + 1 < n ∧ y = f (i + 1)) ∨ ∃ k, k + 1 = i ∧ y = f k) := by
  obtain ⟨i, hi, rfl⟩ := hall x y h
  exact ⟨i, hi, rfl, (hc.adj i hi y).1 h⟩

/-- at most two neighbours -/
theorem IsPath.two (h : IsPath A s t) {v x y z : Nat} (h1 : A v x) (h2 : A v y) (h3 : A v z) : x = y ∨ x = z ∨ y = z := by
  obtain ⟨n, f, hc, _, _, hall⟩ := h
  obtain ⟨i, hi, rfl⟩ := hall v x h1
  rw [hc.adj i hi] at h1 h2 h3
  have key : ∀ {x y}, (∃ k, k + 1 = i ∧ x = f k) → (∃ k, k + 1 = i ∧ y = f k) → x = y := by
    rintro x y ⟨k, e, rfl⟩ ⟨k', e', rfl⟩
    rw [show k = k' by omega]
  rcases h1 with ⟨_, h1⟩ | h1 <;> rcases h2 with ⟨_, h2⟩ | h2 <;> rcases h3 with ⟨_, h3⟩ | h3
  · exact .inl (h1.trans h2.symm)
  · exact .inl (h1.trans h2.symm)
  · exact .inr (.inl (h1.trans h3.symm))
  · exact .inr (.inr (key h2 h3))
  · exact .inr (.inr (h2.trans h3.symm))
  · exact .inr (.inl (key h1 h3))
  · exact .inl (key h1 h2)
  · exact .inl (key h1 h2)

/-- the ends have at most one neighbour -/
theorem IsPath.one (h : IsPath A s t) {v x y : Nat} (hv : v = s ∨ v = t) (h1 : A v x) (h2 : A v y) : x = y := by
  obtain ⟨n, f, hc, h0, hn, hall⟩ := h
  have hp := hc.pos
  rcases hv with rfl | rfl
  · rw [← h0, hc.adj 0 hp] at h1 h2
    rcases h1 with ⟨_, h1⟩ | ⟨k, h1, _⟩
    · rcases h2 with ⟨_, h2⟩ | ⟨k, h2, _⟩
      · exact h1.trans h2.symm
      · omega
    · omega
  · rw [← hn, hc.adj (n - 1) (by omega)] at h1 h2
    rcases h1 with ⟨h1, _⟩ | ⟨k, h1, e1⟩
    · omega
    · rcases h2 with ⟨h2, _⟩ | ⟨k', h2, e2⟩
      · omega
      · rw [e1, e2, show k = k' by omega]

/-- a vertex that is no end has not exactly one neighbour -/
theorem IsPath.not_one (h : IsPath A s t) {v x : Nat} (h1 : v ≠ s) (h2 : v ≠ t) (hx : A v x) : ∃ y, y ≠ x ∧ A v y := by
  obtain ⟨n, f, hc, h0, hn, hall⟩ := h
  obtain ⟨i, hi, rfl⟩ := hall v x hx
  have i0 : i ≠ 0 := fun e => h1 (by rw [e, h0])
  have i1 : i ≠ n - 1 := fun e => h2 (by rw [e, hn])
  have a1 := hc.next (i := i) (by omega)
  have a2 := hc.prev (i := i - 1) (by omega)
  rw [show i - 1 + 1 = i by omega] at a2
  by_cases e : f (i + 1) = x
  · refine ⟨f (i - 1), fun e' => ?_, a2⟩
    have := hc.inj _ _ (by omega) (by omega) (e'.trans e.symm)
    omega
  · exact ⟨_, e, a1⟩

/-- both ends have a neighbour -/
theorem IsPath.has (h : IsPath A s t) (hst : s ≠ t) {v : Nat} (hv : v = s ∨ v = t) : ∃ y, A v y := by
  obtain ⟨n, f, hc, h0, hn, hall⟩ := h
  have hp := hc.pos
  have h1 : 1 < n := by
    rcases Nat.lt_or_ge 1 n with h | h
    · exact h
    · exact absurd (by rw [← h0, ← hn]; congr 1; omega) hst
  rcases hv with rfl | rfl
  · exact ⟨f 1, by rw [← h0]; exact hc.next h1⟩
  · refine ⟨f (n - 2), ?_⟩
    have := hc.prev (i := n - 2) (by omega)
    rw [show n - 2 + 1 = n - 1 by omega, hn] at this
    exact this

theorem IsPath.isEnd (h : IsPath A s t) : IsEnd A s t := by
  obtain ⟨n, f, hc, h0, hn, _⟩ := h
  exact ⟨n, f, hc, h0, hn⟩

/-- a path in a larger graph is the same path -/
theorem IsPath.super (h : IsPath B s t) (hAB : ∀ x y, A x y → B x y) (hA : IsEnd A s t) : IsPath A s t ∧ ∀ x y, B x y → A x y := by
  obtain ⟨n, f, hf, f0, fn, hall⟩ := h
  obtain ⟨m, g, hg, g0, gm⟩ := hA
  have hp := hf.pos
  have hp' := hg.pos
  have hfol := hf.follow hg.inj (fun i hi => hAB _ _ (hg.next hi)) (g0.trans f0.symm)
  have hmn : m = n := by
    obtain ⟨a1, a2⟩ := hfol (m - 1) (by omega)
    rw [gm, ← fn] at a2
    have := hf.inj _ _ (by omega) a1 a2
    omega
  subst hmn
  have hsub : ∀ x y, B x y → A x y := by
    intro x y hxy
    obtain ⟨i, hi, rfl, h⟩ := IsPath.mem hf hall hxy
    rw [← (hfol i hi).2, hg.adj i hi]
    rcases h with ⟨a, rfl⟩ | ⟨k, a, rfl⟩
    · exact .inl ⟨a, (hfol _ a).2.symm⟩
    · exact .inr ⟨k, a, (hfol _ (by omega)).2.symm⟩
  refine ⟨⟨m, g, hg, g0, gm, fun x y hxy => ?_⟩, hsub⟩
  obtain ⟨i, hi, e⟩ := hall x y (hAB _ _ hxy)
  exact ⟨i, hi, by rw [(hfol i hi).2, e]⟩

/-- no path has a cycle: joining the ends of a path of at least three vertices -/
theorem IsPath.no_cycle (h : IsPath B s t) (hAB : ∀ x y, A x y → B x y) {v w : Nat} (he : IsEnd A v w) (hne : v ≠ w) (hnA : ¬ A v w) (hvw : B v w) : False := by
  obtain ⟨n, f, hf, f0, fn, hall⟩ := h
  obtain ⟨m, g, hg, g0, gm⟩ := he
  have hp := hg.pos
  have hm : 3 ≤ m := by
    rcases Nat.lt_or_ge m 3 with h | h
    · exfalso
      rcases (by omega : m = 1 ∨ m = 2) with e | e
      · rw [e] at gm; exact hne (g0.symm.trans gm)
      · rw [e] at gm hg
        have := hg.next (i := 0) (by omega)
        rw [g0] at this
        rw [show (2 - 1 : Nat) = 0 + 1 from rfl] at gm
        rw [gm] at this
        exact hnA this
    · exact h
  obtain ⟨j, hj, e⟩ := hall v w hvw
  exact hf.no_cycle hm hg.inj (fun i hi => hAB _ _ (hg.next hi)) (by rw [g0, gm]; exact hvw) hj (g0.trans e.symm)

section
variable (h : Inv A s t M) (hst : s ≠ t)
include h hst

omit hst in
/-- the mate 0: no more edges -/
theorem Inv.zero {v : Nat} (hv : 0 < v) (h0 : M v = 0) (hAB : ∀ x y, A x y → B x y) {w : Nat} (hnA : ¬ A v w) (hvw : B v w) : ¬ IsPath B s t := by
  intro hB
  rcases h.forest v with hi | ⟨u, he⟩
  · obtain ⟨x, y, hne, hx, hy, _⟩ := hi.two
    rcases hB.two (hAB _ _ hx) (hAB _ _ hy) hvw with e | e | e
    · exact hne e
    · exact hnA (e ▸ hx)
    · exact hnA (e ▸ hy)
  · rw [h.ends v u he] at h0
    unfold mateOf at h0
    split at h0
    · next hvst =>
      split at h0
      · cases h0
      · next hu =>
        obtain ⟨x, hx, _⟩ := he.one hu
        have := hB.one hvst (hAB _ _ hx) hvw
        exact hnA (this ▸ hx)
    · split at h0
      · cases h0
      · have h00 : u = 0 := by omega
        by_cases huv : u = v
        · omega
        · obtain ⟨x, hx, _⟩ := he.symm.one (Ne.symm huv)
          have := (h.pos _ _ hx).1
          omega

omit hst in
/-- the mate is the other vertex: a cycle -/
theorem Inv.cycle {v w : Nat} (hv : v ≠ w) (h0 : M v = w) (hw : 0 < w) (hAB : ∀ x y, A x y → B x y) (hnA : ¬ A v w) (hvw : B v w) : ¬ IsPath B s t := by
  intro hB
  rcases h.forest v with hi | ⟨u, he⟩
  · rw [h.inner v hi] at h0; omega
  · have h1 := h0
    rw [h.ends v u he] at h1
    unfold mateOf at h1
    split at h1
    · split at h1 <;> omega
    · split at h1
      · omega
      · have : u = w := by omega
        subst this
        exact hB.no_cycle hAB he hv hnA hvw

/-- an open end without further edges -/
theorem Inv.leave {v : Nat} (h1 : M v ≠ 0) (h2 : M v ≠ v) (hAB : ∀ x y, A x y → B x y) (hB' : ∀ y, B v y → A v y) : ¬ IsPath B s t := by
  intro hB
  rcases h.forest v with hi | ⟨u, he⟩
  · exact h1 (h.inner v hi)
  · rw [h.ends v u he] at h1 h2
    unfold mateOf at h1 h2
    split at h1
    · next hvst =>
      split at h1
      · next hu =>
        rw [hu] at he
        obtain ⟨y, hy⟩ := hB.has hst hvst
        exact he.alone y (hB' y hy)
      · exact h1 rfl
    · next hvst =>
      rw [if_neg hvst] at h2
      have huv : u ≠ v := by
        intro e
        rw [if_neg (by rw [e]; exact hvst), e] at h2
        exact h2 rfl
      obtain ⟨x, hx, hone⟩ := he.one huv
      obtain ⟨y, hy, hvy⟩ := hB.not_one (fun e => hvst (.inl e)) (fun e => hvst (.inr e)) (hAB _ _ hx)
      exact hy (hone y (hB' y hvy))

omit hst in
theorem Inv.not_path : ¬ IsPath A s t := fun hp => h.open' hp.isEnd


omit hst in
/-- an end, seen from its mate -/
theorem Inv.endOf {v : Nat} (hv : 0 < v) (h0 : M v ≠ 0) : ∃ u, 0 < u ∧ IsEnd A v u ∧
    ((v ≠ s ∧ v ≠ t ∧ u ≠ s ∧ u ≠ t ∧ M v = u) ∨ ((u = s ∨ u = t) ∧ M v = -1 ∧ (v = s ∨ v = t → u = v))) := by
  rcases h.forest v with hi | ⟨u, he⟩
  · exact absurd (h.inner v hi) h0
  · have hu : 0 < u := by
      by_cases huv : u = v
      · omega
      · obtain ⟨x, hx, _⟩ := he.symm.one (Ne.symm huv)
        exact (h.pos _ _ hx).1
    have hm := h.ends v u he
    refine ⟨u, hu, he, ?_⟩
    unfold mateOf at hm
    split at hm
    · next hvst =>
      split at hm
      · next huv => exact .inr ⟨by rw [huv]; exact hvst, hm, fun _ => huv⟩
      · exact absurd hm h0
    · next hvst =>
      split at hm
      · next hust => exact .inr ⟨hust, hm, fun h => absurd h hvst⟩
      · next hust => exact .inl ⟨fun e => hvst (.inl e), fun e => hvst (.inr e), fun e => hust (.inl e), fun e => hust (.inr e), hm⟩

omit h hst in
theorem forest_join {v1 u1 v2 u2 : Nat} (hf : Forest A) (h1 : IsEnd A v1 u1) (h2 : IsEnd A v2 u2) (hne : v1 ≠ v2) (hd : u1 ≠ v2) : Forest (addE A v1 v2) := by
  obtain ⟨j1, j2, j3, j4, j5, j6⟩ := join_ends h1 h2 hne hd
  intro x
  rcases hf x with hi | ⟨y, he⟩
  · exact .inl (j6 x hi)
  · by_cases e2 : x = u1
    · exact .inr ⟨_, e2 ▸ j1⟩
    by_cases e4 : x = u2
    · exact .inr ⟨_, e4 ▸ j1.symm⟩
    by_cases e1 : x = v1
    · exact .inl (e1 ▸ j3 fun e => e2 (e1.trans e.symm))
    by_cases e3 : x = v2
    · exact .inl (e3 ▸ j4 fun e => e4 (e3.trans e.symm))
    exact .inr ⟨y, j5 x y he e1 e2 e3 e4⟩

omit h hst in
/-- the ends of the two paths are different -/
theorem Inv.apart (h : Inv A s t M) {v w u1 u2 : Nat} (hne : v ≠ w) (h1 : M v ≠ 0) (h2 : M w ≠ 0) (h3 : M v ≠ w) (e1 : IsEnd A v u1) (_e2 : IsEnd A w u2) : u1 ≠ w := by
  intro e
  subst e
  have a1 := h.ends _ _ e1
  have a2 := h.ends _ _ e1.symm
  unfold mateOf at a1 a2
  split at a1
  · rw [if_neg (Ne.symm hne)] at a1; exact h1 a1
  · split at a2
    · exact h2 (by simpa [hne] using a2)
    · next hw => rw [if_neg hw] at a1; exact h3 a1

/-- both mates negative: the new edge completes a path from `s` to `t` -/
theorem Inv.complete {v w : Nat} (hv : 0 < v) (hw : 0 < w) (hne : v ≠ w) (h1 : M v < 0) (h2 : M w < 0) : IsEnd (addE A v w) s t ∧ Forest (addE A v w) ∧
    ∀ x u, IsEnd A x u → M x ≠ 0 → M x ≠ x → x = v ∨ x = w ∨ ((x ≠ s ∧ x ≠ t) ∧ u ≠ x ∧ IsEnd (addE A v w) x u) := by
  obtain ⟨u1, p1, e1, c1⟩ := h.endOf hv (by omega)
  obtain ⟨u2, p2, e2, c2⟩ := h.endOf hw (by omega)
  have c1 : u1 = s ∨ u1 = t := by
    rcases c1 with ⟨_, _, _, _, c⟩ | ⟨c, _⟩
    · omega
    · exact c
  have c2 : u2 = s ∨ u2 = t := by
    rcases c2 with ⟨_, _, _, _, c⟩ | ⟨c, _⟩
    · omega
    · exact c
  have hd := h.apart hne (by omega) (by omega) (by omega) e1 e2
  obtain ⟨j1, j2, j3, j4, j5, j6⟩ := join_ends e1 e2 hne hd
  refine ⟨?_, forest_join h.forest e1 e2 hne hd, ?_⟩
  · rcases c1 with rfl | rfl
    · rcases c2 with rfl | rfl
      · exact absurd rfl j2
      · exact j1
    · rcases c2 with rfl | rfl
      · exact j1.symm
      · exact absurd rfl j2
  · intro x u he m0 mx
    by_cases xv : x = v
    · exact .inl xv
    by_cases xw : x = w
    · exact .inr (.inl xw)
    have hu12 : ∀ {y z}, IsEnd A y z → (y = s ∨ y = t) → y = u1 ∨ y = u2 := by
      intro y z _ hy
      rcases hy with rfl | rfl
      · rcases c1 with c1 | c1
        · exact .inl c1.symm
        · rcases c2 with c2 | c2
          · exact .inr c2.symm
          · exact absurd (c1.trans c2.symm) j2
      · rcases c1 with c1 | c1
        · rcases c2 with c2 | c2
          · exact absurd (c1.trans c2.symm) j2
          · exact .inr c2.symm
        · exact .inl c1.symm
    have xu1 : ∀ {y z}, IsEnd A y z → (y = s ∨ y = t) → z = v ∨ z = w := by
      intro y z hyz hy
      rcases hu12 hyz hy with rfl | rfl
      · exact .inl (hyz.unique e1.symm)
      · exact .inr (hyz.unique e2.symm)
    have hmx := h.ends x u he
    have nx : ¬ (x = s ∨ x = t) := by
      intro hx
      unfold mateOf at hmx
      rw [if_pos hx] at hmx
      split at hmx
      · next hux =>
        rcases xu1 he hx with e | e
        · exact xv (hux.symm.trans e)
        · exact xw (hux.symm.trans e)
      · exact m0 hmx
    have nu : ¬ (u = s ∨ u = t) := fun hu => by
      rcases xu1 he.symm hu with e | e
      · exact xv e
      · exact xw e
    unfold mateOf at hmx
    rw [if_neg nx, if_neg nu] at hmx
    refine .inr (.inr ⟨⟨fun e => nx (.inl e), fun e => nx (.inr e)⟩, fun e => mx (by rw [hmx, e]), j5 x u he xv ?_ xw ?_⟩)
    · intro e; exact nx (e ▸ c1)
    · intro e; exact nx (e ▸ c2)

/-- completed while another path is open: rejected rightly -/
theorem Inv.complete_open {v w x : Nat} (hv : 0 < v) (hw : 0 < w) (hne : v ≠ w) (h1 : M v < 0) (h2 : M w < 0) (m0 : M x ≠ 0) (mx : M x ≠ x) (xv : x ≠ v) (xw : x ≠ w)
    (hAB : ∀ x y, addE A v w x y → B x y) : ¬ IsPath B s t := by
  intro hB
  obtain ⟨k1, _, k3⟩ := h.complete hst hv hw hne h1 h2
  obtain ⟨hp, _⟩ := hB.super hAB k1
  rcases h.forest x with hi | ⟨u, he⟩
  · exact m0 (h.inner x hi)
  · rcases k3 x u he m0 mx with e | e | ⟨⟨n1, n2⟩, hux, he'⟩
    · exact xv e
    · exact xw e
    · obtain ⟨y, hy, hone⟩ := he'.one hux
      obtain ⟨z, hz, hxz⟩ := hp.not_one n1 n2 hy
      exact hz (hone z hxz)

/-- completed without another open path -/
theorem Inv.complete_ok {v w : Nat} (hv : 0 < v) (hw : 0 < w) (hne : v ≠ w) (h1 : M v < 0) (h2 : M w < 0)
    (hno : ∀ x, x ≠ v → x ≠ w → M x = 0 ∨ M x = x) : IsPath (addE A v w) s t := by
  obtain ⟨⟨n, f, hc, f0, fn⟩, kf, _⟩ := h.complete hst hv hw hne h1 h2
  have hp := hc.pos
  have closed : ∀ {x y}, addE A v w x y → (∃ i, i < n ∧ f i = x) → ∃ i, i < n ∧ f i = y := by
    rintro x y hxy ⟨i, hi, rfl⟩
    obtain ⟨k, hk, e⟩ := hc.closed hi hxy
    exact ⟨k, hk, e.symm⟩
  have vin : ∃ i, i < n ∧ f i = v := by
    apply Classical.byContradiction
    intro hn
    have wn : ¬ ∃ i, i < n ∧ f i = w := fun hi => hn (closed (.inr (.inr ⟨rfl, rfl⟩)) hi)
    exact h.open' ⟨n, f, hc.unframe fun i hi => ⟨fun e => hn ⟨i, hi, e⟩, fun e => wn ⟨i, hi, e⟩⟩, f0, fn⟩
  have win : ∃ i, i < n ∧ f i = w := closed (.inr (.inl ⟨rfl, rfl⟩)) vin
  refine ⟨n, f, hc, f0, fn, fun x y hxy => ?_⟩
  apply Classical.byContradiction
  intro hx
  obtain ⟨m, g, j, hg, hj, rfl⟩ := kf.comp x
  have hgp := hg.pos
  have off : ∀ k, k < m → ¬ ∃ i, i < n ∧ f i = g k := by
    intro k hk hi
    exact hx (hg.stay (P := fun z => ∃ i, i < n ∧ f i = z) (fun x y hx hxy => closed hxy hx) hk hi j hj)
  have hm : 1 < m := by
    rcases (hg.adj j hj y).1 hxy with ⟨a, _⟩ | ⟨k, a, _⟩ <;> omega
  have nv : ∀ k, k < m → g k ≠ v ∧ g k ≠ w := fun k hk => ⟨fun e => off k hk (e ▸ vin), fun e => off k hk (e ▸ win)⟩
  have ns : ∀ k, k < m → g k ≠ s ∧ g k ≠ t := fun k hk => ⟨fun e => off k hk ⟨0, hp, f0.trans e.symm⟩, fun e => off k hk ⟨n - 1, by omega, fn.trans e.symm⟩⟩
  have hgA := hg.unframe nv
  have he : IsEnd A (g 0) (g (m - 1)) := ⟨m, g, hgA, rfl, rfl⟩
  have n0 := ns 0 hgp
  have n1 := ns (m - 1) (by omega)
  have hmt := h.ends _ _ he
  unfold mateOf at hmt
  rw [if_neg (fun h => h.elim n0.1 n0.2), if_neg (fun h => h.elim n1.1 n1.2)] at hmt
  have hne' : g 0 ≠ g (m - 1) := fun e => by have := hgA.inj _ _ hgp (by omega) e; omega
  have hpos := (h.pos _ _ (hgA.prev (i := m - 2) (by omega))).1
  rw [show m - 2 + 1 = m - 1 by omega] at hpos
  rcases hno (g 0) (nv 0 hgp).1 (nv 0 hgp).2 with e | e <;> omega

/-- the mates after joining -/
def joinF (M : Nat → Int) (v w : Nat) (x : Nat) : Int :=
  if M w > 0 ∧ x = (M w).toNat then M v else if M v > 0 ∧ x = (M v).toNat then M w else if x = v ∨ x = w then 0 else M x

omit hst in
theorem Inv.join {v w : Nat} (hv : 0 < v) (hw : 0 < w) (hne : v ≠ w) (h1 : M v ≠ 0) (h2 : M w ≠ 0) (h3 : M v ≠ w) (h4 : ¬ (M v < 0 ∧ M w < 0)) :
    Inv (addE A v w) s t (joinF M v w) := by
  obtain ⟨u1, p1, e1, c1⟩ := h.endOf hv h1
  obtain ⟨u2, p2, e2, c2⟩ := h.endOf hw h2
  have hd := h.apart hne h1 h2 h3 e1 e2
  have hd' : u2 ≠ v := fun e => by
    subst e
    exact hd (e1.unique e2.symm)
  obtain ⟨j1, j2, j3, j4, j5, j6⟩ := join_ends e1 e2 hne hd
  have hM1 : M v = u1 ∧ 0 < M v ∨ M v = -1 := by
    rcases c1 with ⟨_, _, _, _, c⟩ | ⟨_, c, _⟩
    · exact .inl ⟨c, by omega⟩
    · exact .inr c
  have hM2 : M w = u2 ∧ 0 < M w ∨ M w = -1 := by
    rcases c2 with ⟨_, _, _, _, c⟩ | ⟨_, c, _⟩
    · exact .inl ⟨c, by omega⟩
    · exact .inr c
  have hu1 : joinF M v w u1 = mateOf s t u1 u2 := by
    unfold joinF mateOf
    rcases c1 with ⟨a1, a2, a3, a4, a5⟩ | ⟨a1, a2, a3⟩
    · rw [if_neg (by rintro ⟨b1, b2⟩; omega), if_pos ⟨by omega, by omega⟩, if_neg (fun h => h.elim a3 a4)]
      rcases c2 with ⟨b1, b2, b3, b4, b5⟩ | ⟨b1, b2, b3⟩
      · rw [if_neg (fun h => h.elim b3 b4), b5]
      · rw [if_pos b1, b2]
    · have a6 : u1 = v ∨ M u1 = 0 := by
        by_cases e : u1 = v
        · exact .inl e
        · refine .inr ?_
          rw [h.ends _ _ e1.symm]
          unfold mateOf
          rw [if_pos a1, if_neg (Ne.symm e)]
      rw [if_neg (by rintro ⟨b1, b2⟩; omega), if_neg (by rintro ⟨b1, b2⟩; omega), if_pos a1, if_neg (Ne.symm j2)]
      split
      · rfl
      · next hn => exact a6.elim (fun e => absurd (.inl e) hn) id
  have hu2 : joinF M v w u2 = mateOf s t u2 u1 := by
    unfold joinF mateOf
    rcases c2 with ⟨a1, a2, a3, a4, a5⟩ | ⟨a1, a2, a3⟩
    · rw [if_pos ⟨by omega, by omega⟩, if_neg (fun h => h.elim a3 a4)]
      rcases c1 with ⟨b1, b2, b3, b4, b5⟩ | ⟨b1, b2, b3⟩
      · rw [if_neg (fun h => h.elim b3 b4), b5]
      · rw [if_pos b1, b2]
    · have a6 : u2 = w ∨ M u2 = 0 := by
        by_cases e : u2 = w
        · exact .inl e
        · refine .inr ?_
          rw [h.ends _ _ e2.symm]
          unfold mateOf
          rw [if_pos a1, if_neg (Ne.symm e)]
      rw [if_neg (by rintro ⟨b1, b2⟩; omega), if_neg (by rintro ⟨b1, b2⟩; omega), if_pos a1, if_neg j2]
      split
      · rfl
      · next hn => exact a6.elim (fun e => absurd (.inr e) hn) id
  have hold : ∀ x, x ≠ u1 → x ≠ u2 → joinF M v w x = if x = v ∨ x = w then 0 else M x := by
    intro x n1 n2
    unfold joinF
    rw [if_neg (by rintro ⟨b1, b2⟩; omega), if_neg (by rintro ⟨b1, b2⟩; omega)]
  have cls : ∀ x, (Inner (addE A v w) x ∧ joinF M v w x = 0) ∨ ∃ y, IsEnd (addE A v w) x y ∧ joinF M v w x = mateOf s t x y := by
    intro x
    by_cases x1 : x = u1
    · exact .inr ⟨u2, x1 ▸ j1, by rw [x1]; exact hu1⟩
    by_cases x2 : x = u2
    · exact .inr ⟨u1, x2 ▸ j1.symm, by rw [x2]; exact hu2⟩
    by_cases x3 : x = v
    · exact .inl ⟨x3 ▸ j3 fun e => x1 (x3.trans e.symm), by rw [hold x x1 x2, if_pos (.inl x3)]⟩
    by_cases x4 : x = w
    · exact .inl ⟨x4 ▸ j4 fun e => x2 (x4.trans e.symm), by rw [hold x x1 x2, if_pos (.inr x4)]⟩
    rw [hold x x1 x2, if_neg (fun h => h.elim x3 x4)]
    rcases h.forest x with hi | ⟨y, he⟩
    · exact .inl ⟨j6 x hi, h.inner x hi⟩
    · exact .inr ⟨y, j5 x y he x3 x1 x4 x2, h.ends x y he⟩
  refine ⟨?_, ?_, forest_join h.forest e1 e2 hne hd, ?_, ?_, ?_⟩
  · rintro x y (hxy | ⟨rfl, rfl⟩ | ⟨rfl, rfl⟩)
    · exact h.pos x y hxy
    · exact ⟨hv, hw⟩
    · exact ⟨hw, hv⟩
  · rintro x (hxx | ⟨e, e'⟩ | ⟨e, e'⟩)
    · exact h.irr x hxx
    · exact hne (e.symm.trans e')
    · exact hne (e'.symm.trans e)
  · intro hend
    rcases h.forest s with hi | ⟨y, he⟩
    · exact hend.not_inner (j6 s hi)
    · by_cases x1 : s = u1
      · have : u2 = t := (x1 ▸ j1).unique (x1 ▸ hend)
        apply h4
        rcases c1 with ⟨_, _, c, _⟩ | ⟨_, c, _⟩
        · exact absurd x1.symm c
        · rcases c2 with ⟨_, _, _, c', _⟩ | ⟨_, c', _⟩
          · exact absurd this c'
          · exact ⟨by omega, by omega⟩
      by_cases x2 : s = u2
      · have : u1 = t := (x2 ▸ j1.symm).unique (x2 ▸ hend)
        apply h4
        rcases c2 with ⟨_, _, c, _⟩ | ⟨_, c, _⟩
        · exact absurd x2.symm c
        · rcases c1 with ⟨_, _, _, c', _⟩ | ⟨_, c', _⟩
          · exact absurd this c'
          · exact ⟨by omega, by omega⟩
      by_cases x3 : s = v
      · exact hend.not_inner (x3 ▸ j3 fun e => x1 (x3.trans e.symm))
      by_cases x4 : s = w
      · exact hend.not_inner (x4 ▸ j4 fun e => x2 (x4.trans e.symm))
      have := (j5 s y he x3 x1 x4 x2).unique hend
      exact h.open' (this ▸ he)
  · intro x hi
    rcases cls x with ⟨_, e⟩ | ⟨y, he, _⟩
    · exact e
    · exact absurd hi he.not_inner
  · intro x u he
    rcases cls x with ⟨hi, _⟩ | ⟨y, he', e⟩
    · exact absurd hi he.not_inner
    · rw [e, he.unique he']

end

/-- the graph without edges -/
theorem inv_empty (hst : s ≠ t) : Inv (fun _ _ => False) s t (fun v => if v = s ∨ v = t then -1 else (v : Int)) where
  pos _ _ h := h.elim
  irr _ h := h
  forest v := .inr ⟨v, isEnd_self fun _ h => h⟩
  open' h := hst ((isEnd_self (A := fun _ _ => False) fun _ h => h).unique h)
  inner v h := absurd h (isEnd_self fun _ h => h).not_inner
  ends v u h := by
    have : u = v := h.unique (isEnd_self fun _ h => h)
    subst this
    unfold mateOf
    by_cases e : u = s ∨ u = t
    · rw [if_pos e, if_pos e, if_pos rfl]
    · simp only [if_neg e]

/-- a vertex without edges -/
theorem Inv.alone (h : Inv A s t M) {v : Nat} (hv : ∀ y, ¬ A v y) : M v = if v = s ∨ v = t then -1 else (v : Int) := by
  rw [h.ends v v (isEnd_self hv)]
  unfold mateOf
  by_cases e : v = s ∨ v = t
  · rw [if_pos e, if_pos e, if_pos rfl]
  · simp only [if_neg e]

end TdZdd.GridPath
