/-! Components of a graph (a symmetric relation `A`) that are paths: used for `PathZdd` and `CycleZdd`. -/

namespace TdZdd.Sp

/-- the vertices `f 0, …, f (n - 1)` are a component of the graph, and this component is a path -/
structure Comp (A : Nat → Nat → Prop) (n : Nat) (f : Nat → Nat) : Prop where
  pos : 0 < n
  inj : ∀ i j, i < n → j < n → f i = f j → i = j
  adj : ∀ i, i < n → ∀ y, A (f i) y ↔ (i + 1 < n ∧ y = f (i + 1)) ∨ ∃ k, k + 1 = i ∧ y = f k

variable {A B : Nat → Nat → Prop} {n m : Nat} {f g : Nat → Nat}

theorem Comp.rev (h : Comp A n f) : Comp A n (fun i => f (n - 1 - i)) where
  pos := h.pos
  inj i j hi hj he := by
    have := h.inj _ _ (by omega) (by omega) he
    omega
  adj i hi y := by
    try dsimp only
    rw [h.adj _ (by omega)]
    constructor
    · rintro (⟨h1, h2⟩ | ⟨k, h1, h2⟩)
      · exact .inr ⟨i - 1, by omega, by rw [h2]; congr 1; omega⟩
      · exact .inl ⟨by omega, by rw [h2]; congr 1; omega⟩
    · rintro (⟨h1, h2⟩ | ⟨k, h1, h2⟩)
      · exact .inr ⟨n - 1 - (i + 1), by omega, h2⟩
      · exact .inl ⟨by omega, by rw [h2]; congr 1; omega⟩

theorem Comp.next (h : Comp A n f) {i : Nat} (hi : i + 1 < n) : A (f i) (f (i + 1)) := (h.adj i (by omega) _).2 (.inl ⟨hi, rfl⟩)

theorem Comp.prev (h : Comp A n f) {i : Nat} (hi : i + 1 < n) : A (f (i + 1)) (f i) := (h.adj (i + 1) hi _).2 (.inr ⟨i, rfl, rfl⟩)

/-- a path that follows a component for one step follows it on -/
theorem Comp.follow_from (h : Comp A n f) {g : Nat → Nat} {m j : Nat} (hinj : ∀ i k, i < m → k < m → g i = g k → i = k) (hch : ∀ i, i + 1 < m → A (g i) (g (i + 1)))
    (h0 : j < n ∧ g 0 = f j) (h1 : 1 < m → j + 1 < n ∧ g 1 = f (j + 1)) : ∀ i, i < m → j + i < n ∧ g i = f (j + i)
  | 0, _ => h0
  | 1, hi => h1 hi
  | i + 2, hi => by
    obtain ⟨a1, a2⟩ := h.follow_from hinj hch h0 h1 (i + 1) (by omega)
    obtain ⟨b1, b2⟩ := h.follow_from hinj hch h0 h1 i (by omega)
    have := hch (i + 1) hi
    rw [a2, h.adj _ a1] at this
    rcases this with ⟨c1, c2⟩ | ⟨k, c1, c2⟩
    · exact ⟨c1, c2⟩
    · exfalso
      have hk : k = j + i := by omega
      rw [hk, ← b2] at c2
      have := hinj _ _ hi (by omega) c2
      omega

theorem Comp.follow (h : Comp A n f) {g : Nat → Nat} {m : Nat} (hinj : ∀ i k, i < m → k < m → g i = g k → i = k) (hch : ∀ i, i + 1 < m → A (g i) (g (i + 1)))
    (h0 : g 0 = f 0) : ∀ i, i < m → i < n ∧ g i = f i := by
  intro i hi
  have key := h.follow_from (j := 0) hinj hch ⟨h.pos, h0⟩ ?_ i hi
  · rw [Nat.zero_add] at key; exact key
  · intro h1
    have := hch 0 h1
    rw [h0, h.adj 0 h.pos] at this
    rcases this with ⟨c1, c2⟩ | ⟨k, c1, _⟩
    · exact ⟨c1, c2⟩
    · omega

/-- two components with a common first vertex are the same -/
theorem Comp.same0 (h : Comp A n f) (h' : Comp A m g) (h0 : g 0 = f 0) : m = n ∧ ∀ i, i < n → g i = f i := by
  have h1 := h.follow h'.inj (fun i hi => h'.next hi) h0
  have h2 := h'.follow h.inj (fun i hi => h.next hi) h0.symm
  have hp := h.pos
  have hp' := h'.pos
  refine ⟨?_, fun i hi => (h2 i hi).2.symm⟩
  have a1 := (h1 (m - 1) (by omega)).1
  have a2 := (h2 (n - 1) (by omega)).1
  omega

/-- walking within a closed set -/
theorem Comp.stay (h : Comp A n f) {P : Nat → Prop} (hP : ∀ x y, P x → A x y → P y) {i : Nat} (hi : i < n) (hx : P (f i)) : ∀ k, k < n → P (f k) := by
  have up : ∀ d, i + d < n → P (f (i + d)) := by
    intro d
    induction d with
    | zero => exact fun _ => hx
    | succ d ih => exact fun hd => hP _ _ (ih (by omega)) (h.next (by omega))
  have down : ∀ d, d ≤ i → P (f (i - d)) := by
    intro d
    induction d with
    | zero => exact fun _ => hx
    | succ d ih =>
      intro hd
      have := h.prev (i := i - (d + 1)) (by omega)
      rw [show i - (d + 1) + 1 = i - d by omega] at this
      exact hP _ _ (ih (by omega)) this
  intro k hk
  rcases Nat.lt_or_ge k i with hlt | hge
  · have := down (i - k) (by omega)
    rwa [show i - (i - k) = k by omega] at this
  · have := up (k - i) (by omega)
    rwa [show i + (k - i) = k by omega] at this

theorem Comp.closed (h : Comp A n f) {i : Nat} (hi : i < n) {y : Nat} (hy : A (f i) y) : ∃ k, k < n ∧ y = f k := by
  rcases (h.adj i hi y).1 hy with ⟨h1, h2⟩ | ⟨k, h1, h2⟩
  · exact ⟨_, h1, h2⟩
  · exact ⟨k, by omega, h2⟩

/-- the first vertex of a component is an end of every component in which it is -/
theorem Comp.end_of (h : Comp A n f) (h' : Comp A m g) {k : Nat} (hk : k < m) (he : f 0 = g k) : k = 0 ∨ k = m - 1 := by
  apply Classical.byContradiction
  intro hc
  have h1 := h'.next (i := k) (by omega)
  have h2 := h'.prev (i := k - 1) (by omega)
  rw [show k - 1 + 1 = k by omega] at h2
  rw [← he, h.adj 0 h.pos] at h1 h2
  rcases h1 with ⟨_, h1⟩ | ⟨_, h1, _⟩
  · rcases h2 with ⟨_, h2⟩ | ⟨_, h2, _⟩
    · have := h'.inj _ _ (by omega) (by omega) (h1.trans h2.symm)
      omega
    · omega
  · omega

/-- components with a common vertex are the same up to the direction -/
theorem Comp.same (h : Comp A n f) (h' : Comp A m g) {i j : Nat} (hi : i < n) (hj : j < m) (he : f i = g j) :
    m = n ∧ ((∀ k, k < n → g k = f k) ∨ ∀ k, k < n → g k = f (n - 1 - k)) := by
  have hst := h.stay (P := fun x => ∃ k, k < m ∧ x = g k) (fun x y hx hxy => by
    obtain ⟨k, hk, rfl⟩ := hx
    exact h'.closed hk hxy) hi ⟨j, hj, he⟩ 0 h.pos
  obtain ⟨k, hk, he0⟩ := hst
  rcases h.end_of h' hk he0 with rfl | rfl
  · obtain ⟨e1, e2⟩ := h.same0 h' he0.symm
    exact ⟨e1, .inl e2⟩
  · obtain ⟨e1, e2⟩ := h.same0 h'.rev (by (try dsimp only); rw [Nat.sub_zero]; exact he0.symm)
    refine ⟨e1, .inr fun k hk => ?_⟩
    have := e2 (n - 1 - k) (by omega)
    rw [← this]
    try dsimp only
    congr 1; omega

/-! ### ends -/

/-- `v` and `u` are the ends of a component that is a path; `v = u` if it has one vertex only -/
def IsEnd (A : Nat → Nat → Prop) (v u : Nat) : Prop := ∃ n f, Comp A n f ∧ f 0 = v ∧ f (n - 1) = u

/-- inside of a path -/
def Inner (A : Nat → Nat → Prop) (v : Nat) : Prop := ∃ n f i, Comp A n f ∧ 0 < i ∧ i + 1 < n ∧ f i = v

/-- all components are paths -/
def Forest (A : Nat → Nat → Prop) : Prop := ∀ v, Inner A v ∨ ∃ u, IsEnd A v u

theorem IsEnd.symm {v u : Nat} (h : IsEnd A v u) : IsEnd A u v := by
  obtain ⟨n, f, hc, h1, h2⟩ := h
  refine ⟨n, _, hc.rev, ?_, ?_⟩
  · (try dsimp only); rw [Nat.sub_zero]; exact h2
  · (try dsimp only); rw [Nat.sub_self]; exact h1

theorem IsEnd.unique {v u u' : Nat} (h : IsEnd A v u) (h' : IsEnd A v u') : u = u' := by
  obtain ⟨n, f, hc, h1, h2⟩ := h
  obtain ⟨m, g, hc', h1', h2'⟩ := h'
  obtain ⟨e1, e2⟩ := hc.same0 hc' (h1'.trans h1.symm)
  subst e1
  have := hc.pos
  rw [← h2, ← h2', e2 _ (by omega)]

theorem IsEnd.not_inner {v u : Nat} (h : IsEnd A v u) : ¬ Inner A v := by
  rintro ⟨m, g, k, hc', k1, k2, k3⟩
  obtain ⟨n, f, hc, h1, h2⟩ := h
  have := hc.end_of hc' (by omega) (h1.trans k3.symm)
  omega

theorem comp_cases (hc : Comp A n f) {i : Nat} (hi : i < n) : Inner A (f i) ∨ IsEnd A (f i) (f 0) ∨ IsEnd A (f i) (f (n - 1)) := by
  by_cases h0 : i = 0
  · subst h0; exact .inr (.inr ⟨n, f, hc, rfl, rfl⟩)
  · by_cases h1 : i + 1 = n
    · refine .inr (.inl (IsEnd.symm ⟨n, f, hc, rfl, ?_⟩)); congr 1; omega
    · exact .inl ⟨n, f, i, hc, by omega, by omega, rfl⟩

theorem Forest.comp (h : Forest A) (v : Nat) : ∃ n f i, Comp A n f ∧ i < n ∧ f i = v := by
  rcases h v with ⟨n, f, i, hc, h1, h2, h3⟩ | ⟨u, n, f, hc, h1, h2⟩
  · exact ⟨n, f, i, hc, by omega, h3⟩
  · exact ⟨n, f, 0, hc, hc.pos, h1⟩

theorem forest_of_comp (h : ∀ v, ∃ n f i, Comp A n f ∧ i < n ∧ f i = v) : Forest A := by
  intro v
  obtain ⟨n, f, i, hc, hi, rfl⟩ := h v
  rcases comp_cases hc hi with h | h | h
  · exact .inl h
  · exact .inr ⟨_, h⟩
  · exact .inr ⟨_, h⟩

/-- an end that is not alone has exactly one neighbour -/
theorem IsEnd.one {v u : Nat} (h : IsEnd A v u) (hne : u ≠ v) : ∃ x, A v x ∧ ∀ y, A v y → y = x := by
  obtain ⟨n, f, hc, h1, h2⟩ := h
  have hn : 1 < n := by
    rcases Nat.lt_or_ge 1 n with h | h
    · exact h
    · have := hc.pos
      exact absurd (by rw [← h2, ← h1]; congr 1; omega) hne
  refine ⟨f 1, by rw [← h1]; exact hc.next hn, fun y hy => ?_⟩
  rw [← h1, hc.adj 0 hc.pos] at hy
  rcases hy with ⟨_, h⟩ | ⟨_, h, _⟩
  · exact h
  · omega

theorem IsEnd.alone {v : Nat} (h : IsEnd A v v) (y : Nat) : ¬ A v y := by
  obtain ⟨n, f, hc, h1, h2⟩ := h
  intro hy
  have hn := hc.inj _ _ (by have := hc.pos; omega) hc.pos (h2.trans h1.symm)
  rw [← h1, hc.adj 0 hc.pos] at hy
  rcases hy with ⟨h, _⟩ | ⟨_, h, _⟩
  · omega
  · omega

theorem isEnd_self {v : Nat} (h : ∀ y, ¬ A v y) : IsEnd A v v :=
  ⟨1, fun _ => v, ⟨by omega, fun i j h1 h2 _ => by omega, fun i hi y => ⟨fun hy => absurd hy (h y), fun hy => by rcases hy with ⟨h, _⟩ | ⟨_, h, _⟩ <;> omega⟩⟩, rfl, rfl⟩

theorem Inner.two {v : Nat} (h : Inner A v) : ∃ x y, x ≠ y ∧ A v x ∧ A v y ∧ ∀ z, A v z → z = x ∨ z = y := by
  obtain ⟨n, f, i, hc, h1, h2, rfl⟩ := h
  have hp := hc.prev (i := i - 1) (by omega)
  rw [show i - 1 + 1 = i by omega] at hp
  refine ⟨f (i - 1), f (i + 1), fun he => ?_, hp, hc.next h2, fun z hz => ?_⟩
  · have := hc.inj _ _ (by omega) h2 he; omega
  · rcases (hc.adj i (by omega) z).1 hz with ⟨_, h⟩ | ⟨k, hk, h⟩
    · exact .inr h
    · exact .inl (by rw [h]; congr 1; omega)

/-! ### a new edge -/

/-- the graph with one more edge -/
def addE (A : Nat → Nat → Prop) (v w : Nat) : Nat → Nat → Prop := fun x y => A x y ∨ (x = v ∧ y = w) ∨ (x = w ∧ y = v)

theorem Comp.frame (h : Comp A n f) {v w : Nat} (hv : ∀ i, i < n → f i ≠ v ∧ f i ≠ w) : Comp (addE A v w) n f where
  pos := h.pos
  inj := h.inj
  adj i hi y := by
    rw [← h.adj i hi]
    have := hv i hi
    exact ⟨fun h => by rcases h with h | ⟨h, _⟩ | ⟨h, _⟩ <;> simp_all, .inl⟩

theorem Comp.unframe {v w : Nat} (h : Comp (addE A v w) n f) (hv : ∀ i, i < n → f i ≠ v ∧ f i ≠ w) : Comp A n f where
  pos := h.pos
  inj := h.inj
  adj i hi y := by
    rw [← h.adj i hi]
    have := hv i hi
    exact ⟨.inl, fun h => by rcases h with h | ⟨h, _⟩ | ⟨h, _⟩ <;> simp_all⟩

/-- joining two components -/
theorem Comp.join (h : Comp A n f) (h' : Comp A m g) (hd : ∀ i j, i < n → j < m → f i ≠ g j) :
    Comp (addE A (f (n - 1)) (g 0)) (n + m) (fun i => if i < n then f i else g (i - n)) where
  pos := by have := h.pos; omega
  inj i j hi hj he := by
    try dsimp only at he
    by_cases h1 : i < n
    · by_cases h2 : j < n
      · rw [if_pos h1, if_pos h2] at he; exact h.inj _ _ h1 h2 he
      · rw [if_pos h1, if_neg h2] at he; exact absurd he (hd _ _ h1 (by omega))
    · by_cases h2 : j < n
      · rw [if_neg h1, if_pos h2] at he; exact absurd he.symm (hd _ _ h2 (by omega))
      · rw [if_neg h1, if_neg h2] at he
        have := h'.inj _ _ (by omega) (by omega) he
        omega
  adj i hi y := by
    have hp := h.pos
    have hp' := h'.pos
    try dsimp only
    unfold addE
    by_cases h1 : i < n
    · rw [if_pos h1, h.adj i h1]
      constructor
      · rintro ((⟨c1, c2⟩ | ⟨k, c1, c2⟩) | ⟨c1, c2⟩ | ⟨c1, _⟩)
        · exact .inl ⟨by omega, by rw [if_pos c1]; exact c2⟩
        · exact .inr ⟨k, c1, by rw [if_pos (by omega)]; exact c2⟩
        · have := h.inj _ _ h1 (by omega) c1
          exact .inl ⟨by omega, by rw [if_neg (by omega), show i + 1 - n = 0 by omega]; exact c2⟩
        · exact absurd c1 (hd _ _ h1 hp')
      · rintro (⟨c1, c2⟩ | ⟨k, c1, c2⟩)
        · by_cases h2 : i + 1 < n
          · rw [if_pos h2] at c2; exact .inl (.inl ⟨h2, c2⟩)
          · rw [if_neg h2, show i + 1 - n = 0 by omega] at c2
            exact .inr (.inl ⟨by congr 1; omega, c2⟩)
        · rw [if_pos (by omega)] at c2; exact .inl (.inr ⟨k, c1, c2⟩)
    · rw [if_neg h1, h'.adj (i - n) (by omega)]
      constructor
      · rintro ((⟨c1, c2⟩ | ⟨k, c1, c2⟩) | ⟨c1, c2⟩ | ⟨c1, c2⟩)
        · exact .inl ⟨by omega, by rw [if_neg (by omega), show i + 1 - n = i - n + 1 by omega]; exact c2⟩
        · exact .inr ⟨n + k, by omega, by rw [if_neg (by omega), show n + k - n = k by omega]; exact c2⟩
        · exact absurd c1.symm (hd _ _ (by omega) (by omega))
        · have := h'.inj _ _ (by omega) (by omega) c1
          exact .inr ⟨n - 1, by omega, by rw [if_pos (by omega)]; exact c2⟩
      · rintro (⟨c1, c2⟩ | ⟨k, c1, c2⟩)
        · rw [if_neg (by omega), show i + 1 - n = i - n + 1 by omega] at c2
          exact .inl (.inl ⟨by omega, c2⟩)
        · by_cases h2 : k < n
          · rw [if_pos h2] at c2
            exact .inr (.inr ⟨by congr 1; omega, by rw [c2]; congr 1; omega⟩)
          · rw [if_neg h2] at c2
            exact .inl (.inr ⟨k - n, by omega, c2⟩)

theorem addE_comm (A : Nat → Nat → Prop) (v w : Nat) : addE A v w = addE A w v := by
  funext x y
  unfold addE
  apply propext
  constructor <;> rintro (h | h | h) <;> simp_all

/-- what a new edge between ends of different components does -/
theorem join_ends {v1 u1 v2 u2 : Nat} (h1 : IsEnd A v1 u1) (h2 : IsEnd A v2 u2) (hne : v1 ≠ v2) (hd : u1 ≠ v2) :
    IsEnd (addE A v1 v2) u1 u2 ∧ u1 ≠ u2 ∧ (u1 ≠ v1 → Inner (addE A v1 v2) v1) ∧ (u2 ≠ v2 → Inner (addE A v1 v2) v2) ∧
      (∀ x y, IsEnd A x y → x ≠ v1 → x ≠ u1 → x ≠ v2 → x ≠ u2 → IsEnd (addE A v1 v2) x y) ∧
      (∀ x, Inner A x → Inner (addE A v1 v2) x) := by
  obtain ⟨n, f, hf, f0, f1⟩ := h1
  obtain ⟨m, g, hg, g0, g1⟩ := h2
  have hp := hf.pos
  have hp' := hg.pos
  have hdis : ∀ i j, i < n → j < m → f i ≠ g j := by
    intro i j hi hj he
    obtain ⟨e1, e2⟩ := hf.same hg hi hj he
    rcases e2 with e2 | e2
    · exact hne (by rw [← f0, ← g0, e2 0 hp])
    · apply hd; rw [← f1, ← g0, e2 0 hp]; rfl
  have hr := hf.rev
  have hc := hr.join hg fun i j hi hj => hdis _ _ (by omega) hj
  try dsimp only at hc
  rw [Nat.sub_self, f0, g0] at hc
  have hframe : ∀ {k h}, Comp A k h → (∀ i, i < k → h i ≠ v1 ∧ h i ≠ v2) → Comp (addE A v1 v2) k h := fun hh hi => hh.frame hi
  have hin : ∀ (x : Nat), (∃ i, i < n ∧ f i = x ∧ i + 1 < n) ∨ (∃ i, i < m ∧ g i = x ∧ i + 1 < m) → x ≠ u1 → x ≠ u2 → Inner (addE A v1 v2) x := by
    rintro x (⟨i, hi, rfl, hi'⟩ | ⟨i, hi, rfl, hi'⟩) hx1 hx2
    · refine ⟨_, _, n - 1 - i, hc, by omega, by omega, ?_⟩
      try dsimp only
      rw [if_pos (by omega)]; congr 1; omega
    · refine ⟨_, _, n + i, hc, by omega, by omega, ?_⟩
      try dsimp only
      rw [if_neg (by omega)]; congr 1; omega
  refine ⟨⟨_, _, hc, ?_, ?_⟩, ?_, ?_, ?_, ?_, ?_⟩
  · (try dsimp only); rw [if_pos hp, Nat.sub_zero]; exact f1
  · (try dsimp only); rw [if_neg (by omega), show n + m - 1 - n = m - 1 by omega]; exact g1
  · rw [← f1, ← g1]; exact hdis _ _ (by omega) (by omega)
  · intro hu
    refine hin v1 (.inl ⟨0, hp, f0, ?_⟩) (Ne.symm hu) (by rw [← f0, ← g1]; exact hdis _ _ hp (by omega))
    rcases Nat.lt_or_ge (0 + 1) n with h | h
    · exact h
    · exact absurd (by rw [← f0, ← f1]; congr 1; omega) hu
  · intro hu
    refine hin v2 (.inr ⟨0, hp', g0, ?_⟩) (by rw [← f1, ← g0]; exact Ne.symm (hdis _ _ (by omega) hp')) (Ne.symm hu)
    rcases Nat.lt_or_ge (0 + 1) m with h | h
    · exact h
    · exact absurd (by rw [← g0, ← g1]; congr 1; omega) hu
  · rintro x y ⟨k, h, hh, h0, h1⟩ n1 n2 n3 n4
    refine ⟨k, h, hframe hh fun i hi => ⟨fun he => ?_, fun he => ?_⟩, h0, h1⟩
    · obtain ⟨e1, e2⟩ := hf.same hh hp hi (f0.trans he.symm)
      subst e1
      rcases e2 with e2 | e2
      · exact n1 (by rw [← h0, ← f0, e2 0 hp])
      · exact n2 (by rw [← h0, ← f1, e2 0 hp]; rfl)
    · obtain ⟨e1, e2⟩ := hg.same hh hp' hi (g0.trans he.symm)
      subst e1
      rcases e2 with e2 | e2
      · exact n3 (by rw [← h0, ← g0, e2 0 hp'])
      · exact n4 (by rw [← h0, ← g1, e2 0 hp']; rfl)
  · rintro x ⟨k, h, i, hh, i1, i2, rfl⟩
    by_cases hx : ∃ j, j < k ∧ (h j = v1 ∨ h j = v2)
    · obtain ⟨j, hj, hj' | hj'⟩ := hx
      · obtain ⟨e1, e2⟩ := hf.same hh hp hj (f0.trans hj'.symm)
        subst e1
        rcases e2 with e2 | e2
        · refine ⟨_, _, k - 1 - i, hc, by omega, by omega, ?_⟩
          try dsimp only
          rw [if_pos (by omega), e2 i (by omega)]; congr 1; omega
        · refine ⟨_, _, i, hc, by omega, by omega, ?_⟩
          try dsimp only
          rw [if_pos (by omega), e2 i (by omega)]
      · obtain ⟨e1, e2⟩ := hg.same hh hp' hj (g0.trans hj'.symm)
        subst e1
        rcases e2 with e2 | e2
        · refine ⟨_, _, n + i, hc, by omega, by omega, ?_⟩
          try dsimp only
          rw [if_neg (by omega), e2 i (by omega)]; congr 1; omega
        · refine ⟨_, _, n + (k - 1 - i), hc, by omega, by omega, ?_⟩
          try dsimp only
          rw [if_neg (by omega), e2 i (by omega)]; congr 1; omega
    · exact ⟨k, h, i, hframe hh fun j hj => ⟨fun he => hx ⟨j, hj, .inl he⟩, fun he => hx ⟨j, hj, .inr he⟩⟩, i1, i2, rfl⟩

/-- a component has no cycle -/
theorem Comp.no_cycle (h : Comp A n f) {m : Nat} {g : Nat → Nat} (hm : 3 ≤ m) (hinj : ∀ i k, i < m → k < m → g i = g k → i = k) (hch : ∀ i, i + 1 < m → A (g i) (g (i + 1)))
    (hcl : A (g 0) (g (m - 1))) {j : Nat} (hj : j < n) (h0 : g 0 = f j) : False := by
  have core : ∀ {f : Nat → Nat} {j : Nat}, Comp A n f → j < n → g 0 = f j → g 1 = f (j + 1) → j + 1 < n → False := by
    intro f j h hj h0 h1 h1'
    obtain ⟨e1, e2⟩ := h.follow_from hinj hch ⟨hj, h0⟩ (fun _ => ⟨h1', h1⟩) (m - 1) (by omega)
    rw [h0, e2, h.adj _ hj] at hcl
    rcases hcl with ⟨c1, c2⟩ | ⟨k, c1, c2⟩
    · have := h.inj _ _ e1 c1 c2; omega
    · have := h.inj _ _ e1 (by omega) c2; omega
  have hstep := hch 0 (by omega)
  rw [h0, h.adj _ hj] at hstep
  rcases hstep with ⟨c1, c2⟩ | ⟨k, c1, c2⟩
  · exact core h hj h0 c2 c1
  · refine core h.rev (j := n - 1 - j) (by omega) ?_ ?_ (by omega)
    · rw [h0]; (try dsimp only); congr 1; omega
    · rw [c2]; (try dsimp only); congr 1; omega

end TdZdd.Sp
