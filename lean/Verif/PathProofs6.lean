import Verif.PathProofs5

/-! Proofs about `PathZdd` (6): paths and cycles as lists of vertices. -/

namespace TdZdd

/-- `y` is the element after `x` -/
def Follows (l : List Nat) (x y : Nat) : Prop := ∃ k : Nat, l[k]? = some x ∧ l[k + 1]? = some y

/-- `y` is the element after `x`, where the first element comes after the last -/
def FollowsCyc (l : List Nat) (x y : Nat) : Prop := ∃ k : Nat, l[k]? = some x ∧ l[(k + 1) % l.length]? = some y

/-- the edge `b` is in the set `a` -/
def Taken (G : Graph) (a : Asg 2) (b : Nat) : Prop := b < G.info.length ∧ a (G.info.length - b) = 1

/-- edge `b` of the graph joins the vertices `x` and `y` -/
def EdgeJoins (G : Graph) (b x y : Nat) : Prop := ∃ e, G.info[b]? = some e ∧ ((e.v1 = x ∧ e.v2 = y) ∨ (e.v1 = y ∧ e.v2 = x))

/-- the edges in `a` are those of the simple cycle through the vertices `l` -/
structure IsCycle (G : Graph) (a : Asg 2) (l : List Nat) : Prop where
  len : 3 ≤ l.length
  nodup : l.Nodup
  has : ∀ x y, FollowsCyc l x y → ∃ b, Taken G a b ∧ EdgeJoins G b x y
  only : ∀ b, Taken G a b → ∃ x y, FollowsCyc l x y ∧ EdgeJoins G b x y

/-- the edges in `a` are those of vertex-disjoint simple paths; `P c` goes from one to the other vertex of colour `c`, for each colour `c` -/
structure IsPaths (G : Graph) (a : Asg 2) (P : Nat → List Nat) : Prop where
  len : ∀ c, 1 ≤ c → c ≤ G.numColor → 2 ≤ (P c).length
  nodup : ∀ c, 1 ≤ c → c ≤ G.numColor → (P c).Nodup
  ends : ∀ c, 1 ≤ c → c ≤ G.numColor → ∀ v, G.color v = c ↔ (P c).head? = some v ∨ (P c).getLast? = some v
  disj : ∀ c d, 1 ≤ c → c ≤ G.numColor → 1 ≤ d → d ≤ G.numColor → ∀ v, v ∈ P c → v ∈ P d → c = d
  has : ∀ c, 1 ≤ c → c ≤ G.numColor → ∀ x y, Follows (P c) x y → ∃ b, Taken G a b ∧ EdgeJoins G b x y
  only : ∀ b, Taken G a b → ∃ c, 1 ≤ c ∧ c ≤ G.numColor ∧ ∃ x y, Follows (P c) x y ∧ EdgeJoins G b x y

namespace Sp

variable {G : Graph} {a : Asg 2}

theorem Joins.same {b x y x' y' : Nat} (h : Joins G b x y) (h' : EdgeJoins G b x' y') : (x = x' ∧ y = y') ∨ (x = y' ∧ y = x') := by
  obtain ⟨e, he, h⟩ := h
  obtain ⟨e', he', h'⟩ := h'
  rw [he] at he'
  injection he' with he'
  subst he'
  omega

theorem taken_iff {x y : Nat} : adjA G a G.info.length x y ↔ ∃ b, Taken G a b ∧ EdgeJoins G b x y :=
  ⟨fun ⟨b, h1, h2, h3⟩ => ⟨b, ⟨h1, h2⟩, h3⟩, fun ⟨b, ⟨h1, h2⟩, h3⟩ => ⟨b, h1, h2, h3⟩⟩

theorem adjA_sym {i x y : Nat} (h : adjA G a i x y) : adjA G a i y x := by
  obtain ⟨b, h1, h2, h3⟩ := h
  exact ⟨b, h1, h2, h3.symm⟩

theorem get_map {n k : Nat} {f : Nat → Nat} : ((List.range n).map f)[k]? = if k < n then some (f k) else none := by
  by_cases h : k < n
  · rw [if_pos h, List.getElem?_map, List.getElem?_range h]; rfl
  · rw [if_neg h, List.getElem?_eq_none]
    rw [List.length_map, List.length_range]; omega

theorem mod_nx {n k : Nat} (h : k < n) : (k + 1) % n = nx n k := by
  unfold nx
  split
  next h => rw [h, Nat.mod_self]
  next h => exact Nat.mod_eq_of_lt (by omega)

theorem nodup_get {l : List Nat} (h : l.Nodup) {i j x : Nat} (hi : l[i]? = some x) (hj : l[j]? = some x) : i = j := by
  obtain ⟨h1, h2⟩ := List.getElem?_eq_some_iff.1 hi
  obtain ⟨h3, h4⟩ := List.getElem?_eq_some_iff.1 hj
  have := List.pairwise_iff_getElem.1 h
  rcases Nat.lt_trichotomy i j with hlt | heq | hlt
  · exact absurd (h2.trans h4.symm) (this i j h1 h3 hlt)
  · exact heq
  · exact absurd (h4.trans h2.symm) (this j i h3 h1 hlt)

theorem getD_get {l : List Nat} {k : Nat} (h : k < l.length) : l[k]? = some (l.getD k 0) := by
  rw [List.getD_eq_getElem?_getD, List.getElem?_eq_getElem h]; rfl

theorem map_nodup {n : Nat} {f : Nat → Nat} (hinj : ∀ i j, i < n → j < n → f i = f j → i = j) : ((List.range n).map f).Nodup := by
  rw [List.Nodup, List.pairwise_map]
  have := List.nodup_range (n := n)
  refine List.Pairwise.imp_of_mem ?_ this
  intro x y hx hy hne he
  exact hne (hinj x y (List.mem_range.1 hx) (List.mem_range.1 hy) he)

theorem cycle_iff : CycleOk (adjA G a G.info.length) ↔ ∃ l, IsCycle G a l := by
  constructor
  · rintro ⟨n, f, hn, hinj, hT⟩
    have hget : ∀ {k x}, ((List.range n).map f)[k]? = some x → k < n ∧ f k = x := by
      intro k x h
      rw [get_map] at h
      split at h
      next hk => injection h with h; exact ⟨hk, h⟩
      next => cases h
    refine ⟨(List.range n).map f, ?_, map_nodup hinj, ?_, ?_⟩
    · rw [List.length_map, List.length_range]; exact hn
    · rintro x y ⟨k, h1, h2⟩
      rw [List.length_map, List.length_range] at h2
      obtain ⟨hk, rfl⟩ := hget h1
      obtain ⟨_, rfl⟩ := hget h2
      exact taken_iff.1 ((hT _ _).2 ⟨k, hk, rfl, .inl (by rw [mod_nx hk])⟩)
    · intro b hb
      obtain ⟨e, he⟩ : ∃ e, G.info[b]? = some e := ⟨_, List.getElem?_eq_getElem hb.1⟩
      have hj : Joins G b e.v1 e.v2 := ⟨e, he, .inl ⟨rfl, rfl⟩⟩
      have hfol : ∀ k, k < n → FollowsCyc ((List.range n).map f) (f k) (f (nx n k)) := by
        intro k hk
        refine ⟨k, by rw [get_map, if_pos hk], ?_⟩
        rw [List.length_map, List.length_range, mod_nx hk, get_map, if_pos (nx_lt hk)]
      obtain ⟨k, hk, h1, h2 | h2⟩ := (hT _ _).1 (taken_iff.2 ⟨b, hb, hj⟩)
      · exact ⟨f k, f (nx n k), hfol k hk, by rw [← h1, ← h2]; exact hj⟩
      · refine ⟨f (pv n k), f k, ?_, by rw [← h1, ← h2]; exact hj.symm⟩
        have := hfol (pv n k) (pv_lt hk)
        rwa [nx_pv hk] at this
  · rintro ⟨l, h⟩
    have hlen := h.len
    refine ⟨l.length, fun k => l.getD k 0, h.len, fun i j hi hj hij => ?_, fun x y => ⟨fun hxy => ?_, ?_⟩⟩
    · refine nodup_get h.nodup (getD_get hi) ?_
      rw [getD_get hj]; exact congrArg some hij.symm
    · obtain ⟨b, hb, hj⟩ := taken_iff.1 hxy
      obtain ⟨x', y', ⟨k, h1, h2⟩, hj'⟩ := h.only b hb
      have hk : k < l.length := (List.getElem?_eq_some_iff.1 h1).1
      rw [mod_nx hk] at h2
      rw [getD_get hk] at h1
      rw [getD_get (nx_lt hk)] at h2
      injection h1 with h1
      injection h2 with h2
      rcases Joins.same hj hj' with ⟨rfl, rfl⟩ | ⟨rfl, rfl⟩
      · exact ⟨k, hk, h1.symm, .inl h2.symm⟩
      · exact ⟨nx l.length k, nx_lt hk, h2.symm, .inr (by rw [pv_nx hk]; exact h1.symm)⟩
    · have hn : ∀ k, k < l.length → adjA G a G.info.length (l.getD k 0) (l.getD (nx l.length k) 0) := fun k hk =>
        taken_iff.2 (h.has _ _ ⟨k, getD_get hk, by rw [mod_nx hk]; exact getD_get (nx_lt hk)⟩)
      rintro ⟨k, hk, rfl, rfl | rfl⟩
      · exact hn k hk
      · have := hn (pv l.length k) (pv_lt hk)
        rw [nx_pv hk] at this
        exact adjA_sym this

theorem path_iff (hH : Hyp G) (hP : Pairs G) : PathOk G (adjA G a G.info.length) ↔ ∃ P, IsPaths G a P := by
  constructor
  · intro h
    have hcomp : ∀ c, ∃ p : Nat × (Nat → Nat), 1 ≤ c → c ≤ G.numColor → 2 ≤ p.1 ∧ Comp (adjA G a G.info.length) p.1 p.2 ∧ G.color (p.2 0) = c ∧ G.color (p.2 (p.1 - 1)) = c := by
      intro c
      by_cases hc : 1 ≤ c ∧ c ≤ G.numColor
      · obtain ⟨v, _, _, hv⟩ := hH.ok.color_surj c hc.1 hc.2
        obtain ⟨u, h1, ⟨n, f, hf, f0, f1⟩, h3⟩ := h.colored (v := v) (by omega)
        refine ⟨(n, f), fun _ _ => ⟨?_, hf, by dsimp only; rw [f0]; exact hv, by dsimp only; rw [f1]; omega⟩⟩
        have hp := hf.pos
        rcases Nat.lt_or_ge 1 n with h | h
        · exact h
        · exact absurd (by rw [← f0, ← f1]; congr 1; omega) h1
      · exact ⟨(0, id), fun h1 h2 => absurd ⟨h1, h2⟩ hc⟩
    obtain ⟨p, hp⟩ := Classical.axiomOfChoice hcomp
    have hget : ∀ {n : Nat} {f : Nat → Nat} {k x : Nat}, ((List.range n).map f)[k]? = some x → k < n ∧ f k = x := by
      intro n f k x h
      rw [get_map] at h
      split at h
      next hk => injection h with h; exact ⟨hk, h⟩
      next => cases h
    refine ⟨fun c => (List.range (p c).1).map (p c).2, fun c h1 h2 => ?_, fun c h1 h2 => map_nodup (hp c h1 h2).2.1.inj, fun c h1 h2 v => ?_, fun c d h1 h2 h3 h4 v hv hv' => ?_,
      fun c h1 h2 x y ⟨k, g1, g2⟩ => ?_, fun b hb => ?_⟩
    · rw [List.length_map, List.length_range]; exact (hp c h1 h2).1
    · obtain ⟨g1, g2, g3, g4⟩ := hp c h1 h2
      (try dsimp only)
      rw [List.head?_eq_getElem?, List.getLast?_eq_getElem?, List.length_map, List.length_range, get_map, get_map, if_pos (by omega), if_pos (by omega), Option.some.injEq, Option.some.injEq]
      constructor
      · intro hv
        obtain ⟨s, t, hst, hall⟩ := hP.two c h1 h2
        have a1 := (hall _).1 g3
        have a2 := (hall _).1 g4
        have a3 := (hall _).1 hv
        have a4 : (p c).2 0 ≠ (p c).2 ((p c).1 - 1) := fun he => by
          have := g2.inj _ _ (by omega) (by omega) he
          omega
        omega
      · rintro (rfl | rfl)
        · exact g3
        · exact g4
    · obtain ⟨i, hi, rfl⟩ := List.mem_map.1 hv
      obtain ⟨j, hj, hij⟩ := List.mem_map.1 hv'
      rw [List.mem_range] at hi hj
      obtain ⟨g1, g2, g3, g4⟩ := hp c h1 h2
      obtain ⟨k1, k2, k3, k4⟩ := hp d h3 h4
      obtain ⟨e1, e2 | e2⟩ := g2.same k2 hi hj hij.symm
      · rw [← g3, ← k3, e2 0 (by omega)]
      · rw [← g4, ← k3, e2 0 (by omega)]; rfl
    · obtain ⟨hk, rfl⟩ := hget g1
      obtain ⟨hk', rfl⟩ := hget g2
      exact taken_iff.1 ((hp c h1 h2).2.1.next hk')
    · obtain ⟨e, he⟩ : ∃ e, G.info[b]? = some e := ⟨_, List.getElem?_eq_getElem hb.1⟩
      have hj : Joins G b e.v1 e.v2 := ⟨e, he, .inl ⟨rfl, rfl⟩⟩
      have hT := taken_iff.2 ⟨b, hb, hj⟩
      obtain ⟨n, f, k, hf, hk, hfk⟩ := h.forest.comp e.v1
      rw [← hfk] at hT
      have hn : 1 < n := by rcases (hf.adj k hk _).1 hT with ⟨h, _⟩ | ⟨_, h, _⟩ <;> omega
      have hc0 : G.color (f 0) ≠ 0 := fun h0 => by
        have := hf.inj _ _ (by omega) (by omega) (h.uncolored h0 ⟨n, f, hf, rfl, rfl⟩)
        omega
      have hcl := hH.ok.color_le (f 0)
      generalize hc : G.color (f 0) = c at *
      obtain ⟨g1, g2, g3, g4⟩ := hp c (by omega) hcl
      -- the two components have a common end
      have hcom : ∃ i, i < (p c).1 ∧ (p c).2 i = f 0 := by
        obtain ⟨s, t, hst, hall⟩ := hP.two c (by omega) hcl
        have a1 := (hall _).1 g3
        have a2 := (hall _).1 g4
        have a3 := (hall _).1 hc
        have a4 : (p c).2 0 ≠ (p c).2 ((p c).1 - 1) := fun he => by
          have := g2.inj _ _ (by omega) (by omega) he
          omega
        rcases (show (p c).2 0 = f 0 ∨ (p c).2 ((p c).1 - 1) = f 0 by omega) with h | h
        · exact ⟨_, by omega, h⟩
        · exact ⟨(p c).1 - 1, by omega, h⟩
      obtain ⟨i0, hi0, hi0'⟩ := hcom
      obtain ⟨e1, e2⟩ := g2.same hf hi0 (by omega) hi0'
      have hidx : ∃ q, q < (p c).1 ∧ (p c).2 q = f k := by
        rcases e2 with e2 | e2
        · exact ⟨k, by omega, (e2 k (by omega)).symm⟩
        · exact ⟨(p c).1 - 1 - k, by omega, (e2 k (by omega)).symm⟩
      obtain ⟨q, hq, hqk⟩ := hidx
      rw [← hqk] at hT hfk
      have hfol : ∀ q, q + 1 < (p c).1 → Follows ((List.range (p c).1).map (p c).2) ((p c).2 q) ((p c).2 (q + 1)) := by
        intro q hq
        exact ⟨q, by rw [get_map, if_pos (by omega)], by rw [get_map, if_pos hq]⟩
      refine ⟨c, by omega, hcl, ?_⟩
      rcases (g2.adj q hq _).1 hT with ⟨h1, h2⟩ | ⟨q', h1, h2⟩
      · exact ⟨_, _, hfol q h1, by rw [hfk, ← h2]; exact hj⟩
      · subst h1
        exact ⟨_, _, hfol q' hq, by rw [hfk, ← h2]; exact hj.symm⟩
  · rintro ⟨P, h⟩
    have hcomp : ∀ c, 1 ≤ c → c ≤ G.numColor → Comp (adjA G a G.info.length) (P c).length fun k => (P c).getD k 0 := by
      intro c h1 h2
      have hlen := h.len c h1 h2
      have hinj : ∀ i j, i < (P c).length → j < (P c).length → (P c).getD i 0 = (P c).getD j 0 → i = j := by
        intro i j hi hj hij
        refine nodup_get (h.nodup c h1 h2) (getD_get hi) ?_
        rw [getD_get hj]; exact congrArg some hij.symm
      have hn : ∀ k, k + 1 < (P c).length → adjA G a G.info.length ((P c).getD k 0) ((P c).getD (k + 1) 0) := fun k hk =>
        taken_iff.2 (h.has c h1 h2 _ _ ⟨k, getD_get (by omega), getD_get hk⟩)
      refine ⟨by omega, hinj, fun i hi y => ⟨fun hy => ?_, ?_⟩⟩
      · obtain ⟨b, hb, hj⟩ := taken_iff.1 hy
        obtain ⟨d, d1, d2, x', y', ⟨k, g1, g2⟩, hj'⟩ := h.only b hb
        have hmem : (P c).getD i 0 ∈ P c := List.mem_of_getElem? (getD_get hi)
        rcases Joins.same hj hj' with ⟨hx, hyy⟩ | ⟨hx, hyy⟩
        · have hcd := h.disj c d h1 h2 d1 d2 _ hmem (by rw [hx]; exact List.mem_of_getElem? g1)
          subst hcd
          rw [← hx] at g1
          have := nodup_get (h.nodup c h1 h2) g1 (getD_get hi)
          subst this
          have hk : k + 1 < (P c).length := (List.getElem?_eq_some_iff.1 g2).1
          rw [getD_get hk] at g2
          injection g2 with g2
          exact .inl ⟨hk, by rw [hyy]; exact g2.symm⟩
        · have hcd := h.disj c d h1 h2 d1 d2 _ hmem (by rw [hx]; exact List.mem_of_getElem? g2)
          subst hcd
          rw [← hx] at g2
          have := nodup_get (h.nodup c h1 h2) g2 (getD_get hi)
          have hk : k < (P c).length := (List.getElem?_eq_some_iff.1 g1).1
          rw [getD_get hk] at g1
          injection g1 with g1
          exact .inr ⟨k, this, by rw [hyy]; exact g1.symm⟩
      · rintro (⟨hk, rfl⟩ | ⟨k, rfl, rfl⟩)
        · exact hn i hk
        · exact adjA_sym (hn k hi)
    have hends : ∀ c, 1 ≤ c → c ≤ G.numColor → ∀ v, G.color v = c ↔ (P c).getD 0 0 = v ∨ (P c).getD ((P c).length - 1) 0 = v := by
      intro c h1 h2 v
      have hlen := h.len c h1 h2
      rw [h.ends c h1 h2, List.head?_eq_getElem?, List.getLast?_eq_getElem?, getD_get (by omega), getD_get (by omega), Option.some.injEq, Option.some.injEq]
    intro v
    by_cases hcv : G.color v = 0
    · by_cases hin : ∃ c, 1 ≤ c ∧ c ≤ G.numColor ∧ v ∈ P c
      · obtain ⟨c, h1, h2, hv⟩ := hin
        obtain ⟨k, hk, rfl⟩ := List.mem_iff_getElem.1 hv
        have hlen := h.len c h1 h2
        have hget : (P c).getD k 0 = (P c)[k] := by rw [List.getD_eq_getElem?_getD, List.getElem?_eq_getElem hk]; rfl
        refine .inr (.inl ⟨hcv, _, _, k, hcomp c h1 h2, ?_, ?_, hget⟩)
        · rcases Nat.eq_zero_or_pos k with h0 | h0
          · subst h0
            have := (hends c h1 h2 _).2 (.inl hget)
            omega
          · exact h0
        · rcases Nat.lt_or_ge (k + 1) (P c).length with h0 | h0
          · exact h0
          · have := (hends c h1 h2 (P c)[k]).2 (.inr (by rw [show (P c).length - 1 = k by omega]; exact hget))
            omega
      · refine .inl ⟨hcv, isEnd_self fun y hy => ?_⟩
        obtain ⟨b, hb, hj⟩ := taken_iff.1 hy
        obtain ⟨d, d1, d2, x', y', ⟨k, g1, g2⟩, hj'⟩ := h.only b hb
        rcases Joins.same hj hj' with ⟨hx, _⟩ | ⟨hx, _⟩
        · exact hin ⟨d, d1, d2, by rw [hx]; exact List.mem_of_getElem? g1⟩
        · exact hin ⟨d, d1, d2, by rw [hx]; exact List.mem_of_getElem? g2⟩
    · have h2 := hH.ok.color_le v
      generalize hc : G.color v = c at *
      have hlen := h.len c (by omega) h2
      have hC := hcomp c (by omega) h2
      have hne : (P c).getD 0 0 ≠ (P c).getD ((P c).length - 1) 0 := fun he => by
        have := hC.inj _ _ (by omega) (by omega) he
        omega
      have hE : IsEnd (adjA G a G.info.length) ((P c).getD 0 0) ((P c).getD ((P c).length - 1) 0) := ⟨_, _, hC, rfl, rfl⟩
      have hv := (hends c (by omega) h2 v).1 hc
      refine .inr (.inr ⟨hcv, ?_⟩)
      rcases hv with hv | hv
      · refine ⟨(P c).getD ((P c).length - 1) 0, by rw [← hv]; exact Ne.symm hne, by rw [← hv]; exact hE, ?_⟩
        exact (hends c (by omega) h2 _).2 (.inr rfl)
      · refine ⟨(P c).getD 0 0, by rw [← hv]; exact hne, by rw [← hv]; exact hE.symm, ?_⟩
        exact (hends c (by omega) h2 _).2 (.inl rfl)

end Sp
end TdZdd
