import Verif.GraphillionAppProofs

/-! With the option `-path`, the sets that `graphillion_example` finds are the sets of paths between the vertices of the same colour. -/

namespace TdZdd

namespace Gx

open Sp (IsEnd Inner PathOk Pairs adjA)
open Fb (Conn)
open DdPaths (edgesAt mem_edgesAt edgesAt_nodup)

/-! ### Degrees -/

theorem two_of_length {L : List Nat} (h : L.length = 2) {x : Nat} (hx : x ∈ L) (hn : L.Nodup) : ∃ y ∈ L, y ≠ x := by
  match L, h, hx, hn with
  | [p, q], _, hx, hn =>
    have hpq : p ≠ q := by simpa using hn
    by_cases hxp : x = p
    · exact ⟨q, by simp, by rw [hxp]; exact fun h => hpq h.symm⟩
    · exact ⟨p, by simp, fun h => hxp h.symm⟩

theorem three_of_length {L : List Nat} (h : L.length ≤ 2) {x y z : Nat} (hx : x ∈ L) (hy : y ∈ L) (hz : z ∈ L) : x = y ∨ y = z ∨ x = z := by
  match L, h, hx, hy, hz with
  | [], _, hx, _, _ => cases hx
  | [p], _, hx, hy, _ => exact .inl (by rw [List.mem_singleton.1 hx, List.mem_singleton.1 hy])
  | [p, q], _, hx, hy, hz =>
    simp only [List.mem_cons, List.not_mem_nil, or_false] at hx hy hz
    rcases hx with rfl | rfl <;> rcases hy with rfl | rfl <;> rcases hz with rfl | rfl <;> simp
  | _ :: _ :: _ :: _, h, _, _, _ => simp only [List.length_cons] at h; omega

variable {G : Graph} {a : Asg 2}

/-- what the degrees say about the neighbours -/
theorem deg_of (hH : Sp.Hyp G) (h : ∀ v, 1 ≤ v → v ≤ G.vMax → (G.color v = 0 → edgeDegree G a v = 0 ∨ edgeDegree G a v = 2) ∧ (G.color v ≠ 0 → edgeDegree G a v = 1)) :
    Sp.DegOk G (adjA G a G.info.length) := by
  have key : ∀ v, (G.color v = 0 → (edgesAt G a v).length = 0 ∨ (edgesAt G a v).length = 2) ∧ (G.color v ≠ 0 → (edgesAt G a v).length = 1) := by
    intro v
    by_cases hv : 1 ≤ v ∧ v ≤ G.vMax
    · exact h v hv.1 hv.2
    · have hz := hH.ok.color_out v (by omega)
      refine ⟨fun _ => .inl ?_, fun hc => absurd hz hc⟩
      rw [List.length_eq_zero_iff, List.eq_nil_iff_forall_not_mem]
      intro b hb
      obtain ⟨_, _, y, hj⟩ := mem_edgesAt.1 hb
      exact hv (Sp.Uses.range hH hj.uses.1)
  have mem : ∀ {v y}, adjA G a G.info.length v y → ∃ b, b ∈ edgesAt G a v ∧ Sp.Joins G b v y := fun ⟨b, h1, h2, h3⟩ => ⟨b, mem_edgesAt.2 ⟨h1, h2, _, h3⟩, h3⟩
  have mem' : ∀ {v b}, b ∈ edgesAt G a v → ∃ y, Sp.Joins G b v y ∧ adjA G a G.info.length v y := fun hb => by
    obtain ⟨h1, h2, y, h3⟩ := mem_edgesAt.1 hb
    exact ⟨y, h3, _, h1, h2, h3⟩
  have le2 : ∀ v, (edgesAt G a v).length ≤ 2 := by
    intro v
    by_cases hc : G.color v = 0
    · have := (key v).1 hc; omega
    · have := (key v).2 hc; omega
  refine ⟨fun v y hy hc => ?_, fun v hc => ?_, fun v y y' hc hy hy' => ?_, fun v x y z hx hy hz => ?_⟩
  · obtain ⟨b, hb, hj⟩ := mem hy
    have h2 : (edgesAt G a v).length = 2 := by
      rcases (key v).1 hc with h | h
      · rw [List.length_eq_zero_iff] at h; rw [h] at hb; cases hb
      · exact h
    obtain ⟨c, hc, hne⟩ := two_of_length h2 hb (edgesAt_nodup G a v)
    obtain ⟨y', hj', hy'⟩ := mem' hc
    refine ⟨y', ?_, hy'⟩
    rintro rfl
    exact hne (hj'.index hH hj)
  · have h1 := (key v).2 hc
    obtain ⟨b, hb⟩ := List.exists_mem_of_length_pos (l := edgesAt G a v) (by omega)
    obtain ⟨y, _, hy⟩ := mem' hb
    exact ⟨y, hy⟩
  · have h1 := (key v).2 hc
    obtain ⟨b, hb, hj⟩ := mem hy
    obtain ⟨c, hc, hj'⟩ := mem hy'
    obtain ⟨p, hp⟩ := List.length_eq_one_iff.1 h1
    rw [hp, List.mem_singleton] at hb hc
    subst hb hc
    exact hj.other hH hj'
  · obtain ⟨b, hb, jb⟩ := mem hx
    obtain ⟨c, hc, jc⟩ := mem hy
    obtain ⟨d, hd, jd⟩ := mem hz
    rcases three_of_length (le2 v) hb hc hd with rfl | rfl | rfl
    · exact .inl (jb.other hH jc)
    · exact .inr (.inl (jc.other hH jd))
    · exact .inr (.inr (jb.other hH jd))

/-! ### The path that begins in a coloured vertex -/

/-- a path with `n` vertices that begins in `s` -/
structure Chain (T : Nat → Nat → Prop) (s n : Nat) (f : Nat → Nat) : Prop where
  pos : 0 < n
  start : f 0 = s
  inj : ∀ i j, i < n → j < n → f i = f j → i = j
  next : ∀ i, i + 1 < n → T (f i) (f (i + 1))

variable {T : Nat → Nat → Prop} {s : Nat}

theorem Chain.bound {n : Nat} {f : Nat → Nat} {M : Nat} (h : Chain T s n f) (hs : s ≤ M) (hT : ∀ x y, T x y → y ≤ M) : n ≤ M + 1 := by
  have := nodup_subset_length ((List.range n).map f) (List.range (M + 1)) ?_ ?_
  · simpa using this
  · rw [List.Nodup, List.pairwise_map]
    exact List.Pairwise.imp_of_mem (fun {i j} hi hj hne he => hne (h.inj _ _ (List.mem_range.1 hi) (List.mem_range.1 hj) he)) List.nodup_range
  · intro x hx
    obtain ⟨i, hi, rfl⟩ := List.mem_map.1 hx
    rw [List.mem_range] at hi ⊢
    cases i with
    | zero => rw [h.start]; omega
    | succ i => have := hT _ _ (h.next i hi); omega

theorem Chain.extend {n : Nat} {f : Nat → Nat} (h : Chain T s n f) {y : Nat} (hy : T (f (n - 1)) y) (hn : ∀ k, k < n → y ≠ f k) : Chain T s (n + 1) (fun i => if i < n then f i else y) := by
  have hp := h.pos
  refine ⟨by omega, ?_, fun i j hi hj he => ?_, fun i hi => ?_⟩
  · rw [if_pos hp]; exact h.start
  · try dsimp only at he
    by_cases h1 : i < n <;> by_cases h2 : j < n
    · rw [if_pos h1, if_pos h2] at he; exact h.inj _ _ h1 h2 he
    · rw [if_pos h1, if_neg h2] at he; exact absurd he.symm (hn i h1)
    · rw [if_neg h1, if_pos h2] at he; exact absurd he (hn j h2)
    · omega
  · rw [if_pos (show i < n by omega)]
    by_cases h1 : i + 1 < n
    · rw [if_pos h1]; exact h.next i h1
    · rw [if_neg h1, show i = n - 1 by omega]; exact hy

/-- a path that cannot be extended -/
theorem chain_max {M : Nat} (hs : s ≤ M) (hT : ∀ x y, T x y → y ≤ M) : ∃ n f, Chain T s n f ∧ ∀ f', ¬ Chain T s (n + 1) f' := by
  apply Classical.byContradiction
  intro hc
  have all : ∀ n, ∃ f, Chain T s (n + 1) f := by
    intro n
    induction n with
    | zero => exact ⟨fun _ => s, by omega, rfl, fun i j hi hj _ => by omega, fun i hi => by omega⟩
    | succ n ih =>
      obtain ⟨f, hf⟩ := ih
      apply Classical.byContradiction
      intro hn
      exact hc ⟨n + 1, f, hf, fun f' hf' => hn ⟨f', hf'⟩⟩
  obtain ⟨f, hf⟩ := all (M + 1)
  have := hf.bound hs hT
  omega

/-- the component of a coloured vertex is a path to a coloured vertex -/
theorem comp_of {M : Nat} (hd : Sp.DegOk G T) (hsym : ∀ x y, T x y → T y x) (hirr : ∀ x, ¬ T x x) (hT : ∀ x y, T x y → y ≤ M) (hs : s ≤ M) (hc : G.color s ≠ 0) :
    ∃ n f, Sp.Comp T n f ∧ 1 < n ∧ f 0 = s ∧ G.color (f (n - 1)) ≠ 0 ∧ ∀ i, 0 < i → i + 1 < n → G.color (f i) = 0 := by
  obtain ⟨n, f, hch, hmax⟩ := chain_max hs hT
  have hp := hch.pos
  have hlast : ∀ y, T (f (n - 1)) y → ∃ k, k < n ∧ y = f k := by
    intro y hy
    apply Classical.byContradiction
    intro hn
    exact hmax _ (hch.extend hy fun k hk he => hn ⟨k, hk, he⟩)
  have h1 : 1 < n := by
    rcases Nat.lt_or_ge 1 n with h | h
    · exact h
    · exfalso
      obtain ⟨y, hy⟩ := hd.d1 s hc
      have hn1 : n - 1 = 0 := by omega
      rw [← hch.start] at hy
      obtain ⟨k, hk, rfl⟩ := hlast y (by rw [hn1]; exact hy)
      rw [show k = 0 by omega] at hy
      exact hirr _ hy
  have hprev : ∀ i, i + 1 < n → T (f (i + 1)) (f i) := fun i hi => hsym _ _ (hch.next i hi)
  have hinner : ∀ i, 0 < i → i + 1 < n → T (f i) (f (i - 1)) ∧ T (f i) (f (i + 1)) ∧ f (i - 1) ≠ f (i + 1) := by
    intro i hi hi'
    refine ⟨?_, hch.next i hi', fun he => ?_⟩
    · have := hprev (i - 1) (by omega)
      rwa [show i - 1 + 1 = i by omega] at this
    · have := hch.inj _ _ (by omega) hi' he; omega
  have hfirst : ∀ y, T (f 0) y → y = f 1 := fun y hy => hd.d1u (f 0) y (f 1) (by rw [hch.start]; exact hc) hy (hch.next 0 h1)
  have hmid : ∀ i, 0 < i → i + 1 < n → ∀ y, T (f i) y → y = f (i + 1) ∨ y = f (i - 1) := by
    intro i hi hi' y hy
    obtain ⟨g1, g2, g3⟩ := hinner i hi hi'
    rcases hd.d2 _ _ _ _ hy g1 g2 with h | h | h
    · exact .inr h
    · exact absurd h g3
    · exact .inl h
  have hend : ∀ y, T (f (n - 1)) y → y = f (n - 2) := by
    intro y hy
    obtain ⟨k, hk, rfl⟩ := hlast y hy
    have hkn : k ≠ n - 1 := by rintro rfl; exact hirr _ hy
    rcases Nat.lt_or_ge k (n - 2) with hlt | hge
    · exfalso
      have hb := hsym _ _ hy
      rcases Nat.eq_zero_or_pos k with rfl | hk0
      · have := hch.inj _ _ (by omega) (by omega) (hfirst _ hb); omega
      · rcases hmid k hk0 (by omega) _ hb with h | h
        · have := hch.inj _ _ (by omega) (by omega) h; omega
        · have := hch.inj _ _ (by omega) (by omega) h; omega
    · rw [show k = n - 2 by omega]
  refine ⟨n, f, ⟨hp, hch.inj, fun i hi y => ⟨fun hy => ?_, ?_⟩⟩, h1, hch.start, fun hz => ?_, fun i hi hi' => ?_⟩
  · rcases Nat.eq_zero_or_pos i with rfl | hi0
    · exact .inl ⟨h1, hfirst y hy⟩
    · rcases Nat.lt_or_ge (i + 1) n with hi' | hi'
      · rcases hmid i hi0 hi' y hy with h | h
        · exact .inl ⟨hi', h⟩
        · exact .inr ⟨i - 1, by omega, h⟩
      · have e : i = n - 1 := by omega
        subst e
        exact .inr ⟨n - 2, by omega, hend y hy⟩
  · rintro (⟨g1, rfl⟩ | ⟨k, rfl, rfl⟩)
    · exact hch.next i g1
    · exact hprev k hi
  · have hy := hprev (n - 2) (by omega)
    rw [show n - 2 + 1 = n - 1 by omega] at hy
    obtain ⟨y', hne, hy'⟩ := hd.d0 _ _ hy hz
    exact hne (hend y' hy')
  · apply Classical.byContradiction
    intro hz
    obtain ⟨g1, g2, g3⟩ := hinner i hi hi'
    exact g3 (hd.d1u _ _ _ hz g1 g2)

theorem comp_conn {n : Nat} {f : Nat → Nat} (hc : Sp.Comp T n f) {i k : Nat} (hi : i < n) (hk : k < n) : Conn T (f i) (f k) :=
  hc.stay (P := fun x => Conn T (f i) x) (fun _ _ hx hxy => hx.tail hxy) hi .refl k hk

theorem conn_comp {n : Nat} {f : Nat → Nat} (hc : Sp.Comp T n f) {i v : Nat} (hi : i < n) (h : Conn T (f i) v) : ∃ k, k < n ∧ v = f k :=
  h.stay (P := fun x => ∃ k, k < n ∧ x = f k) (fun x y hx hxy => by obtain ⟨k, hk, rfl⟩ := hx; exact hc.closed hk hxy) ⟨i, hi, rfl⟩

/-! ### The two descriptions of the solutions -/

theorem linked {u v : Nat} : Linked G (Taken G a) u v ↔ Conn (adjA G a G.info.length) u v := Fb.linked_iff fun _ _ => Sp.taken_iff

theorem touched {u : Nat} : Touched G (Taken G a) u ↔ ∃ y, adjA G a G.info.length u y :=
  ⟨fun ⟨b, v, h1, h2⟩ => ⟨v, Sp.taken_iff.2 ⟨b, h1, h2⟩⟩, fun ⟨y, h⟩ => by obtain ⟨b, h1, h2⟩ := Sp.taken_iff.1 h; exact ⟨b, y, h1, h2⟩⟩

theorem pathOk_of (hH : Sp.Hyp G) (h : ∀ v, 1 ≤ v → v ≤ G.vMax → (G.color v = 0 → edgeDegree G a v = 0 ∨ edgeDegree G a v = 2) ∧ (G.color v ≠ 0 → edgeDegree G a v = 1))
    {noloop : Bool} (hw : WantedOk G 0 noloop a) : PathOk G (adjA G a G.info.length) := by
  have hd := deg_of hH h
  have hirr : ∀ x, ¬ adjA G a G.info.length x x := by
    rintro x ⟨b, _, _, e, he, hx | hx⟩
    · exact hH.loop b e he (hx.1.trans hx.2.symm)
    · exact hH.loop b e he (hx.1.trans hx.2.symm)
  have hT : ∀ x y, adjA G a G.info.length x y → y ≤ G.vMax := fun x y ⟨b, _, _, hj⟩ => (Sp.Uses.range hH hj.uses.2).2
  have comp : ∀ {s}, G.color s ≠ 0 → ∃ n f, Sp.Comp (adjA G a G.info.length) n f ∧ 1 < n ∧ f 0 = s ∧ G.color (f (n - 1)) ≠ 0 ∧ ∀ i, 0 < i → i + 1 < n → G.color (f i) = 0 := by
    intro s hs
    refine comp_of hd (fun x y => Sp.adjA_sym) hirr hT ?_ hs
    rcases Nat.lt_or_ge G.vMax s with hlt | hge
    · exact absurd (hH.ok.color_out s (.inr hlt)) hs
    · exact hge
  obtain ⟨reps, hu, hr⟩ := hw.count (Int.le_refl 0)
  have hr : reps = [] := List.length_eq_zero_iff.1 (by omega)
  subst hr
  intro v
  by_cases hc : G.color v = 0
  · by_cases ht : ∃ y, adjA G a G.info.length v y
    · refine .inr (.inl ⟨hc, ?_⟩)
      have : ∃ w, Conn (adjA G a G.info.length) v w ∧ G.color w ≠ 0 := by
        apply Classical.byContradiction
        intro hn
        obtain ⟨r, hr, _⟩ := hu.all v (touched.2 ht) fun w hw => Classical.byContradiction fun hc => hn ⟨w, linked.1 hw, hc⟩
        cases hr
      obtain ⟨w, hvw, hw⟩ := this
      obtain ⟨n, f, hf, h1, rfl, h3, h4⟩ := comp hw
      obtain ⟨k, hk, rfl⟩ := conn_comp hf hf.pos (hvw.symm fun x y => Sp.adjA_sym)
      refine ⟨n, f, k, hf, ?_, ?_, rfl⟩
      · rcases Nat.eq_zero_or_pos k with rfl | h
        · exact absurd hc hw
        · exact h
      · rcases Nat.lt_or_ge (k + 1) n with h | h
        · exact h
        · rw [show n - 1 = k by omega] at h3; exact absurd hc h3
    · exact .inl ⟨hc, Sp.isEnd_self fun y hy => ht ⟨y, hy⟩⟩
  · obtain ⟨n, f, hf, h1, rfl, h3, h4⟩ := comp hc
    refine .inr (.inr ⟨hc, f (n - 1), fun he => ?_, ⟨n, f, hf, rfl, rfl⟩, ?_⟩)
    · have := hf.inj _ _ (by omega) (by omega) he; omega
    · exact ((hw.colors _ _ hc h3).1 (linked.2 (comp_conn hf hf.pos (by omega)))).symm

theorem wantedOk_of (hH : Sp.Hyp G) (hP : Pairs G) (h : PathOk G (adjA G a G.info.length)) (noloop : Bool) : WantedOk G 0 noloop a := by
  refine ⟨fun u v hu hv => ?_, fun _ b u v hb hj => ?_, fun _ => ⟨[], ⟨List.Pairwise.nil, fun _ h => (nomatch h), fun u hu hn => ?_⟩, rfl⟩⟩
  · obtain ⟨u', hne, ⟨n, f, hf, rfl, rfl⟩, hcol⟩ := h.colored hu
    rw [linked]
    constructor
    · intro hc
      obtain ⟨k, hk, rfl⟩ := conn_comp hf hf.pos hc
      rcases Nat.eq_zero_or_pos k with rfl | h0
      · rfl
      · rcases Nat.lt_or_ge (k + 1) n with h1 | h1
        · obtain ⟨w, _, he, _⟩ := h.colored hv
          exact absurd ⟨n, f, k, hf, h0, h1, rfl⟩ he.not_inner
        · rw [show n - 1 = k by omega] at hcol; exact hcol.symm
    · intro he
      obtain ⟨p, q, hpq, hc⟩ := hP.two (G.color (f 0)) (by omega) (hH.ok.color_le _)
      have c1 := (hc _).1 (rfl : G.color (f 0) = _)
      have c2 := (hc _).1 hcol
      have c3 := (hc _).1 he.symm
      have : v = f 0 ∨ v = f (n - 1) := by
        rcases c1 with c1 | c1 <;> rcases c2 with c2 | c2 <;> rcases c3 with c3 | c3
        · exact .inl (c3.trans c1.symm)
        · exact absurd (c2.trans c1.symm) hne
        · exact .inl (c3.trans c1.symm)
        · exact .inr (c3.trans c2.symm)
        · exact .inr (c3.trans c2.symm)
        · exact .inl (c3.trans c1.symm)
        · exact absurd (c2.trans c1.symm) hne
        · exact .inl (c3.trans c1.symm)
      have hp := hf.pos
      rcases this with rfl | rfl
      · exact .refl
      · exact comp_conn hf hf.pos (by omega)
  · have hA : ∀ x y, (∃ c, (Taken G a c ∧ c ≠ b) ∧ EdgeJoins G c x y) → adjA G a G.info.length x y ∧ ¬ (x = u ∧ y = v) := by
      rintro x y ⟨c, ⟨h1, h2⟩, h3⟩
      refine ⟨Sp.taken_iff.2 ⟨c, h1, h3⟩, ?_⟩
      rintro ⟨rfl, rfl⟩
      exact h2 (Sp.Joins.index hH h3 hj)
    rw [Fb.linked_iff (A := fun x y => ∃ c, (Taken G a c ∧ c ≠ b) ∧ EdgeJoins G c x y) (fun _ _ => Iff.rfl)]
    intro hc
    obtain ⟨n, f, i, hf, hi, rfl⟩ := h.forest.comp u
    rcases (hf.adj i hi v).1 (Sp.taken_iff.2 ⟨b, hb, hj⟩) with ⟨g1, rfl⟩ | ⟨k, rfl, rfl⟩
    · obtain ⟨j, hj, he⟩ := hc.stay (P := fun x => ∃ j, j ≤ i ∧ x = f j) (fun x y hx hxy => by
        obtain ⟨j, hj, rfl⟩ := hx
        obtain ⟨q1, q2⟩ := hA _ _ hxy
        rcases (hf.adj j (by omega) y).1 q1 with ⟨_, rfl⟩ | ⟨k, rfl, rfl⟩
        · rcases Nat.lt_or_ge j i with hlt | hge
          · exact ⟨j + 1, by omega, rfl⟩
          · rw [show j = i by omega] at q2
            exact absurd ⟨rfl, rfl⟩ q2
        · exact ⟨k, by omega, rfl⟩) ⟨i, Nat.le_refl _, rfl⟩
      have := hf.inj _ _ g1 (by omega) he; omega
    · obtain ⟨j, hj, hjn, he⟩ := hc.stay (P := fun x => ∃ j, k + 1 ≤ j ∧ j < n ∧ x = f j) (fun x y hx hxy => by
        obtain ⟨j, hj, hjn, rfl⟩ := hx
        obtain ⟨q1, q2⟩ := hA _ _ hxy
        rcases (hf.adj j hjn y).1 q1 with ⟨_, rfl⟩ | ⟨k', rfl, rfl⟩
        · exact ⟨j + 1, by omega, by omega, rfl⟩
        · rcases Nat.lt_or_ge k k' with hlt | hge
          · exact ⟨k', by omega, by omega, rfl⟩
          · rw [show k' = k by omega] at q2
            exact absurd ⟨rfl, rfl⟩ q2) ⟨k + 1, Nat.le_refl _, hi, rfl⟩
      have := hf.inj _ _ (by omega) hjn he; omega
  · exfalso
    obtain ⟨y, hy⟩ := touched.1 hu
    rcases h u with ⟨_, he⟩ | ⟨_, n, f, i, hf, h1, h2, rfl⟩ | ⟨hc, _⟩
    · exact he.alone y hy
    · have h0 := hn (f 0) (linked.2 (comp_conn hf (by omega) hf.pos))
      have := hf.inj _ _ (by omega) (by omega) (h.uncolored h0 ⟨n, f, hf, rfl, rfl⟩)
      omega
    · exact hc (hn u .here)

/-- with the degrees of paths and no component without a coloured vertex, the search finds the sets of paths -/
theorem paths_iff (hH : Sp.Hyp G) (hP : Pairs G) (noloop : Bool) :
    ((∀ v, 1 ≤ v → v ≤ G.vMax → (G.color v = 0 → edgeDegree G a v = 0 ∨ edgeDegree G a v = 2) ∧ (G.color v ≠ 0 → edgeDegree G a v = 1)) ∧ WantedOk G 0 noloop a) ↔ ∃ P, IsPaths G a P := by
  rw [← Sp.path_iff hH hP]
  exact ⟨fun h => pathOk_of hH h.1 h.2, fun h => ⟨fun v _ _ => DdPaths.degree_of hH h.deg v, wantedOk_of hH hP h noloop⟩⟩

end Gx

end TdZdd
