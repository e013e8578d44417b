import Verif.PathByMapProofs5

/-! # What `PathZddByStdMap` means for no, one and more pairs -/

namespace TdZdd

/-- `v` is one of the two vertices of its colour, and `m` is the number that stands for this colour beyond the vertices of the graph -/
def PairLink (G : Graph) (v m : Nat) : Prop := G.color v ≠ 0 ∧ (∃ u, u ≠ v ∧ ∀ t, G.color t = G.color v ↔ t = v ∨ t = u) ∧ m = G.vMax + G.color v

/-- the edges in `a`, together with a connection of the two vertices of each colour that has two vertices (through the number of this colour), are those of the simple cycle through `l` -/
structure IsRing (G : Graph) (a : Asg 2) (l : List Nat) : Prop where
  len : 3 ≤ l.length
  nodup : l.Nodup
  step : ∀ x y, (FollowsCyc l x y ∨ FollowsCyc l y x) ↔ (∃ b, Taken G a b ∧ EdgeJoins G b x y) ∨ PairLink G x y ∨ PairLink G y x

namespace Ps
open Sp

variable {G : CGraph} {a : Asg 2} {T R : Nat → Nat → Prop}

theorem lk_iff {G : Graph} {x y : Nat} : Lk G x y ↔ PairLink G x y ∨ PairLink G y x := by
  unfold Lk Pair PairLink
  constructor
  · rintro (⟨u, ⟨h1, h2, h3⟩, h4⟩ | ⟨u, ⟨h1, h2, h3⟩, h4⟩)
    · exact .inl ⟨h1, ⟨u, h2, h3⟩, h4⟩
    · exact .inr ⟨h1, ⟨u, h2, h3⟩, h4⟩
  · rintro (⟨h1, ⟨u, h2, h3⟩, h4⟩ | ⟨h1, ⟨u, h2, h3⟩, h4⟩)
    · exact .inl ⟨u, ⟨h1, h2, h3⟩, h4⟩
    · exact .inr ⟨u, ⟨h1, h2, h3⟩, h4⟩

theorem cycle_list : CycleOk T ↔ ∃ l : List Nat, 3 ≤ l.length ∧ l.Nodup ∧ ∀ x y, (FollowsCyc l x y ∨ FollowsCyc l y x) ↔ T x y := by
  constructor
  · rintro ⟨n, f, hn, hinj, hT⟩
    have hget : ∀ {k x}, ((List.range n).map f)[k]? = some x → k < n ∧ f k = x := by
      intro k x h
      rw [get_map] at h
      split at h
      next hk => injection h with h; exact ⟨hk, h⟩
      next => cases h
    have hfol : ∀ k, k < n → FollowsCyc ((List.range n).map f) (f k) (f (nx n k)) := by
      intro k hk
      refine ⟨k, by rw [get_map, if_pos hk], ?_⟩
      rw [List.length_map, List.length_range, mod_nx hk, get_map, if_pos (nx_lt hk)]
    have hfol' : ∀ x y, FollowsCyc ((List.range n).map f) x y → ∃ k, k < n ∧ x = f k ∧ y = f (nx n k) := by
      rintro x y ⟨k, h1, h2⟩
      rw [List.length_map, List.length_range] at h2
      obtain ⟨hk, rfl⟩ := hget h1
      obtain ⟨_, rfl⟩ := hget h2
      exact ⟨k, hk, rfl, by rw [mod_nx hk]⟩
    refine ⟨(List.range n).map f, by rw [List.length_map, List.length_range]; exact hn, map_nodup hinj, fun x y => ?_⟩
    rw [hT]
    constructor
    · rintro (h | h)
      · obtain ⟨k, hk, rfl, rfl⟩ := hfol' _ _ h
        exact ⟨k, hk, rfl, .inl rfl⟩
      · obtain ⟨k, hk, rfl, rfl⟩ := hfol' _ _ h
        exact ⟨nx n k, nx_lt hk, rfl, .inr (by rw [pv_nx hk])⟩
    · rintro ⟨k, hk, rfl, rfl | rfl⟩
      · exact .inl (hfol k hk)
      · have := hfol (pv n k) (pv_lt hk)
        rw [nx_pv hk] at this
        exact .inr this
  · rintro ⟨l, hlen, hnd, hT⟩
    have hfol : ∀ k, k < l.length → FollowsCyc l (l.getD k 0) (l.getD (nx l.length k) 0) := fun k hk =>
      ⟨k, getD_get hk, by rw [mod_nx hk]; exact getD_get (nx_lt hk)⟩
    have hfol' : ∀ x y, FollowsCyc l x y → ∃ k, k < l.length ∧ x = l.getD k 0 ∧ y = l.getD (nx l.length k) 0 := by
      rintro x y ⟨k, h1, h2⟩
      have hk : k < l.length := (List.getElem?_eq_some_iff.1 h1).1
      rw [mod_nx hk] at h2
      rw [getD_get hk] at h1
      rw [getD_get (nx_lt hk)] at h2
      injection h1 with h1
      injection h2 with h2
      exact ⟨k, hk, h1.symm, h2.symm⟩
    refine ⟨l.length, fun k => l.getD k 0, hlen, fun i j hi hj hij => ?_, fun x y => ?_⟩
    · refine nodup_get hnd (getD_get hi) ?_
      rw [getD_get hj]; exact congrArg some hij.symm
    · rw [← hT]
      constructor
      · rintro (h | h)
        · obtain ⟨k, hk, h1, h2⟩ := hfol' _ _ h
          exact ⟨k, hk, h1, .inl h2⟩
        · obtain ⟨k, hk, h1, h2⟩ := hfol' _ _ h
          exact ⟨nx l.length k, nx_lt hk, h2, .inr (by rw [pv_nx hk]; exact h1)⟩
      · rintro ⟨k, hk, rfl, rfl | rfl⟩
        · exact .inl (hfol k hk)
        · have := hfol (pv l.length k) (pv_lt hk)
          rw [nx_pv hk] at this
          exact .inr this

theorem ring_iff : CycleOk (World G a G.info.length) ↔ ∃ l, IsRing G.toGraph a l := by
  rw [cycle_list]
  constructor
  · rintro ⟨l, h1, h2, h3⟩
    refine ⟨l, h1, h2, fun x y => ?_⟩
    rw [h3, ← lk_iff, ← taken_iff]
    exact Iff.rfl
  · rintro ⟨l, h⟩
    refine ⟨l, h.len, h.nodup, fun x y => ?_⟩
    rw [h.step, ← lk_iff, ← taken_iff]
    exact Iff.rfl

/-- a cycle may be gone round from any vertex -/
theorem CycleOk.rot (h : CycleOk T) {m y : Nat} (hm : T m y) :
    ∃ (n : Nat) (f : Nat → Nat), 3 ≤ n ∧ (∀ i j, i < n → j < n → f i = f j → i = j) ∧ (∀ x y, T x y ↔ ∃ i, i < n ∧ x = f i ∧ (y = f (nx n i) ∨ y = f (pv n i))) ∧ f (n - 1) = m := by
  obtain ⟨n, f, hn, hinj, hT⟩ := h
  obtain ⟨j, hj, rfl, _⟩ := (hT _ _).1 hm
  have hpos : ∀ k, k < n → (if j + 1 + k < n then j + 1 + k else j + 1 + k - n) < n := by intro k hk; split <;> omega
  refine ⟨n, fun k => f (if j + 1 + k < n then j + 1 + k else j + 1 + k - n), hn, ?_, ?_, ?_⟩
  · intro i k hi hk h
    have := hinj _ _ (hpos i hi) (hpos k hk) h
    split at this <;> split at this <;> omega
  · intro x y
    rw [hT]
    have e1 : ∀ k, k < n → (if j + 1 + nx n k < n then j + 1 + nx n k else j + 1 + nx n k - n) = nx n (if j + 1 + k < n then j + 1 + k else j + 1 + k - n) := by
      intro k hk
      have hp := hpos k hk
      generalize hq : (if j + 1 + k < n then j + 1 + k else j + 1 + k - n) = q at *
      unfold nx
      split at hq <;> (repeat' split) <;> omega
    have e2 : ∀ k, k < n → (if j + 1 + pv n k < n then j + 1 + pv n k else j + 1 + pv n k - n) = pv n (if j + 1 + k < n then j + 1 + k else j + 1 + k - n) := by
      intro k hk
      have hp := hpos k hk
      generalize hq : (if j + 1 + k < n then j + 1 + k else j + 1 + k - n) = q at *
      unfold pv
      split at hq <;> (repeat' split) <;> omega
    constructor
    · rintro ⟨i, hi, h1, h2⟩
      have : ∃ k, k < n ∧ i = (if j + 1 + k < n then j + 1 + k else j + 1 + k - n) := by
        by_cases hij : j + 1 ≤ i
        · exact ⟨i - (j + 1), by omega, by rw [if_pos (by omega)]; omega⟩
        · exact ⟨i + n - (j + 1), by omega, by rw [if_neg (by omega)]; omega⟩
      obtain ⟨k, hk, hik⟩ := this
      refine ⟨k, hk, by rw [h1, hik], ?_⟩
      dsimp only
      rw [e1 k hk, e2 k hk, ← hik]
      exact h2
    · rintro ⟨k, hk, h1, h2⟩
      refine ⟨_, hpos k hk, h1, ?_⟩
      dsimp only at h2
      rw [e1 k hk, e2 k hk] at h2
      exact h2
  · dsimp only
    congr 1
    split <;> omega

/-- the graph with one pair -/
theorem world_one (hH : Sp.Hyp G.toGraph) (h1 : G.numColor = 1) {s t : Nat} (hst : s ≠ t) (hc : ∀ v, G.color v = 1 ↔ v = s ∨ v = t) :
    World G a G.info.length = addE (addE (adjA G.toGraph a G.info.length) s (G.vMax + 1)) t (G.vMax + 1) := by
  have hcol : ∀ v, G.color v ≠ 0 → G.color v = 1 := by
    intro v hv
    have := hH.ok.color_le v
    omega
  have hs : G.color s = 1 := (hc s).2 (.inl rfl)
  have ht : G.color t = 1 := (hc t).2 (.inr rfl)
  have hps : Pair G.toGraph s t := ⟨by omega, Ne.symm hst, fun v => by rw [hs]; exact hc v⟩
  have hpt := hps.symm
  funext x y
  apply propext
  unfold World addE
  constructor
  · rintro (h | ⟨u, hu, hy⟩ | ⟨u, hu, hy⟩)
    · exact .inl (.inl h)
    · have h := hcol x hu.1
      rw [h] at hy
      rcases (hc x).1 h with e | e
      · exact .inl (.inr (.inl ⟨e, hy⟩))
      · exact .inr (.inl ⟨e, hy⟩)
    · have h := hcol y hu.1
      rw [h] at hy
      rcases (hc y).1 h with e | e
      · exact .inl (.inr (.inr ⟨hy, e⟩))
      · exact .inr (.inr ⟨hy, e⟩)
  · rintro ((h | ⟨e, hy⟩ | ⟨hy, e⟩) | ⟨e, hy⟩ | ⟨hy, e⟩)
    · exact .inl h
    · exact .inr (.inl ⟨t, by rw [e]; exact hps, by rw [e, hs]; exact hy⟩)
    · exact .inr (.inr ⟨t, by rw [e]; exact hps, by rw [e, hs]; exact hy⟩)
    · exact .inr (.inl ⟨s, by rw [e]; exact hpt, by rw [e, ht]; exact hy⟩)
    · exact .inr (.inr ⟨s, by rw [e]; exact hpt, by rw [e, ht]; exact hy⟩)

theorem adj_le (hH : Sp.Hyp G.toGraph) {i x y : Nat} (h : adjA G.toGraph a i x y) : x ≤ G.vMax ∧ y ≤ G.vMax := by
  obtain ⟨b, _, _, hj⟩ := h
  exact Joins.le hH hj

theorem one_iff (hH : Sp.Hyp G.toGraph) (h1 : G.numColor = 1) {s t : Nat} (hst : s ≠ t) (hc : ∀ v, G.color v = 1 ↔ v = s ∨ v = t) :
    CycleOk (World G a G.info.length) ↔ PathOk G.toGraph (adjA G.toGraph a G.info.length) := by
  have hcol : ∀ v, G.color v ≠ 0 → v = s ∨ v = t := by
    intro v hv
    have := hH.ok.color_le v
    exact (hc v).1 (by omega)
  have hs : G.color s = 1 := (hc s).2 (.inl rfl)
  have ht : G.color t = 1 := (hc t).2 (.inr rfl)
  have hrange : ∀ v, G.color v ≠ 0 → v ≤ G.vMax := by
    intro v hv
    apply Classical.byContradiction
    intro hn
    exact hv (hH.ok.color_out v (by omega))
  have hs' := hrange s (by omega)
  have ht' := hrange t (by omega)
  rw [world_one hH h1 hst hc]
  generalize hR : adjA G.toGraph a G.info.length = R
  have hle : ∀ {x y}, R x y → x ≤ G.vMax ∧ y ≤ G.vMax := by intro x y h; rw [← hR] at h; exact adj_le hH h
  have hsym : ∀ x y, R x y → R y x := by intro x y h; rw [← hR] at h ⊢; exact adjA_sym h
  have hmid : ∀ y, ¬ R (G.vMax + 1) y := fun y h => by have := hle h; omega
  constructor
  · intro h
    have hm0 : addE (addE R s (G.vMax + 1)) t (G.vMax + 1) (G.vMax + 1) t := .inr (.inr ⟨rfl, rfl⟩)
    obtain ⟨n, f, hn, hinj, hT, hlast⟩ := CycleOk.rot h hm0
    have hTR : ∀ x y, R x y ↔ addE (addE R s (G.vMax + 1)) t (G.vMax + 1) x y ∧ x ≠ G.vMax + 1 ∧ y ≠ G.vMax + 1 := by
      intro x y
      constructor
      · intro h
        have := hle h
        exact ⟨.inl (.inl h), by omega, by omega⟩
      · rintro ⟨(h | h | h) | h | h, h2, h3⟩
        · exact h
        all_goals omega
    have hfm : ∀ i, i < n - 1 → f i ≠ G.vMax + 1 := by
      intro i hi he
      have := hinj _ _ (by omega) (by omega) (he.trans hlast.symm)
      omega
    have hcomp : Comp R (n - 1) f := by
      refine ⟨by omega, fun i j hi hj => hinj i j (by omega) (by omega), fun i hi y => ?_⟩
      rw [hTR, hT]
      constructor
      · rintro ⟨⟨j, hj, he, hy⟩, _, hym⟩
        have := hinj _ _ (by omega) hj he
        subst this
        rcases hy with hy | hy
        · unfold nx at hy
          by_cases hi' : i + 1 = n - 1
          · exact absurd (by rw [hy, if_neg (by omega), hi', hlast]) hym
          · rw [if_neg (by omega)] at hy
            exact .inl ⟨by omega, hy⟩
        · unfold pv at hy
          by_cases h0 : i = 0
          · rw [if_pos h0, hlast] at hy
            exact absurd hy hym
          · rw [if_neg h0] at hy
            exact .inr ⟨i - 1, by omega, hy⟩
      · rintro (⟨h1, h2⟩ | ⟨k, h1, h2⟩)
        · refine ⟨⟨i, by omega, rfl, .inl ?_⟩, hfm i hi, by rw [h2]; exact hfm _ h1⟩
          unfold nx
          rw [if_neg (by omega)]; exact h2
        · refine ⟨⟨i, by omega, rfl, .inr ?_⟩, hfm i hi, by rw [h2]; exact hfm _ (by omega)⟩
          unfold pv
          rw [if_neg (by omega), h2]
          congr 1
          omega
    -- the ends are the two vertices
    have hends : ∀ v, (v = s ∨ v = t) ↔ (v = f 0 ∨ v = f (n - 2)) := by
      intro v
      have hv : addE (addE R s (G.vMax + 1)) t (G.vMax + 1) (G.vMax + 1) v ↔ v = s ∨ v = t := by
        constructor
        · rintro ((h | h | h) | h | h)
          · exact absurd h (hmid v)
          · omega
          · exact .inl h.2
          · omega
          · exact .inr h.2
        · rintro (h | h)
          · exact .inl (.inr (.inr ⟨rfl, h⟩))
          · exact .inr (.inr ⟨rfl, h⟩)
      rw [← hv, hT]
      constructor
      · rintro ⟨i, hi, he, hy⟩
        have := hinj _ _ hi (by omega) (he.symm.trans hlast.symm)
        subst this
        unfold nx pv at hy
        rw [if_pos (by omega), if_neg (by omega), Nat.sub_sub] at hy
        exact hy
      · intro hy
        refine ⟨n - 1, by omega, hlast.symm, ?_⟩
        unfold nx pv
        rw [if_pos (by omega), if_neg (by omega), Nat.sub_sub]
        exact hy
    have hne : f 0 ≠ f (n - 2) := fun he => by
      have := hinj _ _ (by omega) (by omega) he
      have e1 := (hends s).1 (.inl rfl)
      have e2 := (hends t).1 (.inr rfl)
      rw [← he] at e1 e2
      omega
    have hcf : G.color (f 0) = 1 ∧ G.color (f (n - 2)) = 1 := ⟨(hc _).2 ((hends _).2 (.inl rfl)), (hc _).2 ((hends _).2 (.inr rfl))⟩
    intro v
    by_cases hv : ∃ i, i < n - 1 ∧ v = f i
    · obtain ⟨i, hi, rfl⟩ := hv
      by_cases h0 : i = 0
      · subst h0
        exact .inr (.inr ⟨by omega, f (n - 2), Ne.symm hne, ⟨n - 1, f, hcomp, rfl, by rw [Nat.sub_sub]⟩, by omega⟩)
      by_cases h2 : i = n - 2
      · subst h2
        exact .inr (.inr ⟨by omega, f 0, hne, IsEnd.symm ⟨n - 1, f, hcomp, rfl, by rw [Nat.sub_sub]⟩, by omega⟩)
      · refine .inr (.inl ⟨?_, n - 1, f, i, hcomp, by omega, by omega, rfl⟩)
        apply Classical.byContradiction
        intro hcv
        rcases (hends _).1 (hcol _ hcv) with e | e
        · exact h0 (hinj _ _ (by omega) (by omega) e)
        · exact h2 (hinj _ _ (by omega) (by omega) e)
    · left
      constructor
      · apply Classical.byContradiction
        intro hcv
        rcases (hends _).1 (hcol _ hcv) with e | e
        · exact hv ⟨0, by omega, e⟩
        · exact hv ⟨n - 2, by omega, e⟩
      · refine isEnd_self fun y hy => ?_
        obtain ⟨h2, h3, h4⟩ := (hTR _ _).1 hy
        obtain ⟨i, hi, he, _⟩ := (hT _ _).1 h2
        refine hv ⟨i, ?_, he⟩
        apply Classical.byContradiction
        intro hn
        have : i = n - 1 := by omega
        subst this
        exact h3 (he.trans hlast)
  · intro h
    obtain ⟨u, hu, hend, hcu⟩ := h.colored (v := s) (by omega)
    have hut : u = t := ((hc u).1 (by omega)).resolve_left hu
    subst hut
    have hend' : IsEnd R (G.vMax + 1) (G.vMax + 1) := isEnd_self hmid
    obtain ⟨j1, j2, j3, _, j5, j6⟩ := join_ends hend hend' (by omega) (by omega)
    have hin := j3 (Ne.symm hst)
    have hcases : ∀ v, v = u ∨ v = G.vMax + 1 ∨ Inner (addE R s (G.vMax + 1)) v ∨ IsEnd (addE R s (G.vMax + 1)) v v := by
      intro v
      by_cases hvm : v = G.vMax + 1
      · exact .inr (.inl hvm)
      rcases h v with ⟨h2, h3⟩ | ⟨_, h3⟩ | ⟨h2, _⟩
      · refine .inr (.inr (.inr (j5 v v h3 ?_ ?_ hvm hvm)))
        · intro he; rw [he] at h2; omega
        · intro he; rw [he] at h2; omega
      · exact .inr (.inr (.inl (j6 v h3)))
      · rcases hcol v h2 with rfl | rfl
        · exact .inr (.inr (.inl hin))
        · exact .inl rfl
    refine closed_cycle ?_ ?_ j2 ?_ j1 ?_
    · intro v
      rcases hcases v with rfl | rfl | h | h
      · exact .inr ⟨_, j1⟩
      · exact .inr ⟨_, j1.symm⟩
      · exact .inl h
      · exact .inr ⟨_, h⟩
    · rintro x y (h | ⟨h, h'⟩ | ⟨h, h'⟩)
      · exact .inl (hsym _ _ h)
      · exact .inr (.inr ⟨h', h⟩)
      · exact .inr (.inl ⟨h', h⟩)
    · rintro (h | h | h)
      · exact hmid _ (hsym _ _ h)
      · omega
      · omega
    · intro z z' hz hne
      rcases hcases z with h | h | h | h
      · exact .inl h
      · exact .inr h
      · exact absurd h hz.not_inner
      · exact absurd (hz.unique h) hne

theorem none_iff (h : ∀ v, G.color v = 0) : CycleOk (World G a G.info.length) ↔ ∃ l, IsCycle G.toGraph a l := by
  have : World G a G.info.length = adjA G.toGraph a G.info.length := by
    funext x y
    apply propext
    refine ⟨fun hw => hw.elim id ?_, .inl⟩
    rintro (⟨u, hu, _⟩ | ⟨u, hu, _⟩) <;> exact absurd (h _) hu.1
  rw [this, cycle_iff]

/-- for more than one pair, the sets that have a path for each pair are not accepted -/
theorem not_both (hH : Sp.Hyp G.toGraph) (hP : Pairs G.toGraph) (h2 : 2 ≤ G.numColor) (hp : PathOk G.toGraph (adjA G.toGraph a G.info.length)) : ¬ CycleOk (World G a G.info.length) := by
  intro hc
  obtain ⟨s, t, hst, h1⟩ := hP.two 1 (by omega) (by omega)
  obtain ⟨s', t', hst', h2'⟩ := hP.two 2 (by omega) (by omega)
  have hs : G.color s = 1 := (h1 s).2 (.inl rfl)
  have ht : G.color t = 1 := (h1 t).2 (.inr rfl)
  have hs' : G.color s' = 2 := (h2' s').2 (.inl rfl)
  have hpair : Pair G.toGraph s t := ⟨by omega, Ne.symm hst, fun v => by rw [hs]; exact h1 v⟩
  have hpair' : Pair G.toGraph s' t' := ⟨by omega, Ne.symm hst', fun v => by rw [hs']; exact h2' v⟩
  obtain ⟨u, hu, ⟨n, f, hf, f0, f1⟩, hcu⟩ := hp.colored (v := s) (by omega)
  have hut : u = t := ((h1 u).1 (by omega)).resolve_left hu
  subst hut
  have hle : ∀ i, i < n → 1 < n → f i ≤ G.vMax := by
    intro i hi hn
    by_cases h : i + 1 < n
    · exact (adj_le hH (hf.next h)).1
    · have := (adj_le hH (hf.next (i := i - 1) (by omega))).2
      rwa [show i - 1 + 1 = i by omega] at this
  have hn : 1 < n := by
    apply Classical.byContradiction
    intro hn
    have hp := hf.pos
    have : n - 1 = 0 := by omega
    rw [this, f0] at f1
    exact hst f1
  -- the closed walk through the first pair
  have hcov := hc.cover (n := n + 1) (f := fun i => if i < n then f i else G.vMax + 1) (by omega) ?_ ?_ s' (G.vMax + G.color s') (.inr (.inl ⟨t', hpair', rfl⟩))
  · obtain ⟨i, hi, he, _⟩ := hcov
    by_cases hin : i < n
    · rw [if_pos hin] at he
      rcases hp s' with ⟨h, _⟩ | ⟨h, _⟩ | ⟨_, w, hw, hwe, _⟩
      · omega
      · omega
      · rcases comp_cases hf hin with h | h | h
        · rw [← he] at h
          exact hwe.not_inner h
        · have := (hp.colored (v := f i) (by rw [← he]; omega))
          obtain ⟨z, z1, z2, z3⟩ := this
          have := z2.unique h
          rw [this, f0, ← he] at z3
          omega
        · have := (hp.colored (v := f i) (by rw [← he]; omega))
          obtain ⟨z, z1, z2, z3⟩ := this
          have := z2.unique h
          rw [this, f1, ← he] at z3
          omega
    · rw [if_neg hin] at he
      have := hpair'.range hH
      omega
  · intro i j hi hj he
    by_cases h1 : i < n <;> by_cases h2 : j < n
    · rw [if_pos h1, if_pos h2] at he
      exact hf.inj _ _ h1 h2 he
    · rw [if_pos h1, if_neg h2] at he
      have := hle i h1 hn
      omega
    · rw [if_neg h1, if_pos h2] at he
      have := hle j h2 hn
      omega
    · omega
  · intro i hi
    unfold nx
    by_cases hi1 : i + 1 = n + 1
    · rw [if_pos hi1, if_neg (by omega), if_pos (by omega), f0]
      exact .inr (.inr ⟨u, hpair, by rw [hs]⟩)
    · rw [if_neg hi1, if_pos (by omega)]
      by_cases hi2 : i + 1 < n
      · rw [if_pos hi2]
        exact .inl (hf.next hi2)
      · rw [if_neg hi2]
        have : i = n - 1 := by omega
        subst this
        rw [f1]
        exact .inr (.inl ⟨s, hpair.symm, by rw [ht]⟩)

end Ps

end TdZdd
