import Verif.PathByMapProofs7
import Verif.RunDec
import Std.Data.String.ToInt

/-!
# Properties of the colour members of `Graph` (C60) and of `PathZddByStdMap` (C61)

`IsCycle` and `IsPaths` are in `PathProofs6.lean`, `IsRing` in `PathByMapProofs6.lean`.
-/

namespace TdZdd

open Ps

variable {V K : Type} [DecidableEq V] [DecidableEq K]

/-! ### C60 -/

/-- `update()` with these members succeeds and throws as `gUpdate`, and has its result. -/
theorem C60_update (E : List (V × V)) (C : List (V × K)) (hC : C.Pairwise fun p q => p.1 ≠ q.1) :
    (gUpdate E C = .thrown ∧ cgUpdate E C = .thrown) ∨ ∃ G, cgUpdate E C = .ok G ∧ gUpdate E C = .ok G.toGraph := by
  rcases cgUpdate_of (E := E) hC with h | ⟨G, hG⟩
  · exact .inl h
  · exact .inr ⟨G, hG, (cgUpdate_ok hC hG).1⟩

/-- **C60.** `virtualMate(v)` in terms of names: `num` is the numbering of the vertices (`Graph.Named`). The mate of `s` is `t` exactly when `s` and `t` are two different vertices of one colour and there is no third one of this colour.
It is 0 for all other vertices and outside of `1..vMax`. -/
theorem C60_mates {E : List (V × V)} {C : List (V × K)} (hC : C.Pairwise fun p q => p.1 ≠ q.1) {G : CGraph} (h : cgUpdate E C = .ok G) :
    ∃ (D : List (V × V)) (num : V → Nat), (∀ e ∈ E, e ∈ D ∨ (e.2, e.1) ∈ D) ∧ G.Named C D num ∧
      (∀ s t, 1 ≤ num t → (G.virtualMate (num s) = num t ↔ s ≠ t ∧ ∃ k, (s, k) ∈ C ∧ (t, k) ∈ C ∧ ∀ r, (r, k) ∈ C → r = s ∨ r = t)) ∧
      (∀ v, G.virtualMate v ≤ G.vMax) ∧ ∀ v, v = 0 ∨ G.vMax < v → G.virtualMate v = 0 := by
  obtain ⟨hg, cs, hN, hK, hok, hm, _⟩ := cgUpdate_ok hC h
  refine ⟨_, _, fun e he => ?_, hN, fun s t ht => ?_, fun v => ?_, fun v hv => ?_⟩
  · obtain ⟨f, hf, e1 | e1⟩ := (Gr.unique_spec E).2.2 e he
    · rw [e1]; exact .inl hf
    · rw [e1]; exact .inr hf
  · generalize gNumber (gStack (gUnique E)) = num at *
    have hvm : G.virtualMate (num s) = num t ↔ Pair G.toGraph (num s) (num t) := by
      unfold CGraph.virtualMate
      rw [hm]
      by_cases hv : 1 ≤ num s ∧ num s ≤ G.vMax
      · rw [if_pos hv]; exact hK.mates hC hN hok _ _ ht
      · rw [if_neg hv]
        exact ⟨fun h => by omega, fun hp => absurd (hok.color_out _ (by have := hN.num_out s; omega)) hp.1⟩
    rw [hvm]
    constructor
    · rintro ⟨h1, h2, h3⟩
      have hks : ∃ k, (s, k) ∈ C := Classical.byContradiction fun hn => h1 (hN.uncolored s fun k hk => hn ⟨k, hk⟩)
      obtain ⟨k, hk⟩ := hks
      have hs := (hK.named s k hk).1
      refine ⟨fun e => h2 (by rw [e]), k, hk, ?_, fun r hr => ?_⟩
      · exact (hN.color_iff s t k hs ht hk).2.1 ((h3 _).2 (.inr rfl))
      · have hr1 := (hK.named r k hr).1
        rcases (h3 (num r)).1 ((hN.color_iff s r k hs hr1 hk).2.2 hr) with e | e
        · exact .inl (hN.num_inj _ _ hr1 e)
        · exact .inr (hN.num_inj _ _ hr1 e)
    · rintro ⟨hne, k, h1, h2, h3⟩
      have hs := hK.named s k h1
      have hcs := (hN.color_iff s s k hs.1 hs.1 h1).1
      refine ⟨hcs, fun e => hne (hN.num_inj t s ht e).symm, fun v => ?_⟩
      constructor
      · intro hv
        have hr : 1 ≤ v ∧ v ≤ G.vMax := Classical.byContradiction fun hn => hcs (hv.symm.trans (hok.color_out v (by omega)))
        obtain ⟨r, rfl⟩ := hN.num_surj v hr.1 hr.2
        rcases h3 r ((hN.color_iff s r k hs.1 hr.1 h1).2.1 hv) with e | e
        · exact .inl (by rw [e])
        · exact .inr (by rw [e])
      · rintro (rfl | rfl)
        · rfl
        · exact (hN.color_iff s t k hs.1 ht h1).2.2 h2
  · by_cases h0 : G.virtualMate v = 0
    · omega
    · have hp : Pair G.toGraph v (G.virtualMate v) := by
        have := (hK.mates hC hN hok v (G.virtualMate v) (by omega))
        apply this.1
        unfold CGraph.virtualMate at h0 ⊢
        rw [hm] at h0 ⊢
        split
        · rfl
        next hn => rw [if_neg hn] at h0; exact absurd rfl h0
      apply Classical.byContradiction
      intro hn
      exact hp.symm.1 (hok.color_out _ (by omega))
  · unfold CGraph.virtualMate
    rw [if_neg (by omega)]

/-- **C60.** The mates are mutual. -/
theorem C60_mutual {E : List (V × V)} {C : List (V × K)} (hC : C.Pairwise fun p q => p.1 ≠ q.1) {G : CGraph} (h : cgUpdate E C = .ok G) (v : Nat) (hv : G.virtualMate v ≠ 0) :
    G.virtualMate (G.virtualMate v) = v ∧ G.virtualMate v ≠ v := by
  obtain ⟨D, num, _, hN, hm, hle, hout⟩ := C60_mates hC h
  have h1 : 1 ≤ v ∧ v ≤ G.vMax := Classical.byContradiction fun hn => hv (hout v (by omega))
  obtain ⟨s, rfl⟩ := hN.num_surj v h1.1 h1.2
  obtain ⟨t, ht⟩ := hN.num_surj (G.virtualMate (num s)) (by omega) (hle _)
  obtain ⟨g1, k, g2, g3, g4⟩ := (hm s t (by omega)).1 ht.symm
  refine ⟨?_, ?_⟩
  · rw [← ht]
    exact (hm t s h1.1).2 ⟨Ne.symm g1, k, g3, g2, fun r hr => (g4 r hr).symm⟩
  · intro e
    exact g1 (hN.num_inj s t h1.1 (by omega))

/-- **C60.** `hasColorPairs()` says that there are colours and every colour has exactly two vertices: the hypotheses of `C44_path`. -/
theorem C60_pairs {E : List (V × V)} {C : List (V × K)} (hC : C.Pairwise fun p q => p.1 ≠ q.1) {G : CGraph} (h : cgUpdate E C = .ok G) :
    G.pairs = true ↔ C ≠ [] ∧ ∀ p ∈ C, ∃ q ∈ C, q.1 ≠ p.1 ∧ q.2 = p.2 ∧ ∀ r ∈ C, r.2 = p.2 → r = p ∨ r = q := by
  obtain ⟨hg, cs, hN, hK, hok, hm, hp⟩ := cgUpdate_ok hC h
  rw [hp, hK.pairs hN hok]
  generalize gNumber (gStack (gUnique E)) = num at *
  have hcol : ∀ v, G.color v ≠ 0 → ∃ s k, num s = v ∧ (s, k) ∈ C := by
    intro v hv
    have hr : 1 ≤ v ∧ v ≤ G.vMax := Classical.byContradiction fun hn => hv (hok.color_out v (by omega))
    obtain ⟨s, rfl⟩ := hN.num_surj v hr.1 hr.2
    have hks : ∃ k, (s, k) ∈ C := Classical.byContradiction fun hn => hv (hN.uncolored s fun k hk => hn ⟨k, hk⟩)
    obtain ⟨k, hk⟩ := hks
    exact ⟨s, k, rfl, hk⟩
  constructor
  · rintro ⟨⟨v, hv⟩, h2⟩
    constructor
    · rintro rfl
      obtain ⟨s, k, _, hk⟩ := hcol v hv
      cases hk
    · rintro ⟨s, k⟩ hs
      have h1 := (hK.named s k hs).1
      obtain ⟨u, g1, g2, g3⟩ := h2 (num s) (hN.color_iff s s k h1 h1 hs).1
      have hu : G.color u = G.color (num s) := (g3 u).2 (.inr rfl)
      obtain ⟨t, k', rfl, ht⟩ := hcol u (by rw [hu]; exact g1)
      have ht1 := (hK.named t k' ht).1
      have htk := (hN.color_iff s t k h1 ht1 hs).2.1 hu
      refine ⟨(t, k), htk, fun e => g2 (by rw [show t = s from e]), rfl, ?_⟩
      rintro ⟨r, k2⟩ hr (rfl : k2 = k)
      have hr1 := (hK.named r _ hr).1
      rcases (g3 (num r)).1 ((hN.color_iff s r _ h1 hr1 hs).2.2 hr) with e | e
      · exact .inl (by rw [hN.num_inj r s hr1 e])
      · exact .inr (by rw [hN.num_inj r t hr1 e])
  · rintro ⟨hne, h2⟩
    constructor
    · obtain ⟨⟨s, k⟩, hs⟩ := List.exists_mem_of_ne_nil C hne
      have h1 := (hK.named s k hs).1
      exact ⟨num s, (hN.color_iff s s k h1 h1 hs).1⟩
    · intro v hv
      obtain ⟨s, k, rfl, hs⟩ := hcol v hv
      obtain ⟨⟨t, k'⟩, ht, g1, (g2 : k' = k), g3⟩ := h2 _ hs
      subst g2
      have h1 := (hK.named s _ hs).1
      have ht1 := (hK.named t _ ht).1
      refine ⟨num t, hv, fun e => g1 (hN.num_inj t s ht1 e), fun w => ?_⟩
      constructor
      · intro hw
        obtain ⟨r, k2, rfl, hr⟩ := hcol w (by rw [hw]; exact hv)
        have hr1 := (hK.named r _ hr).1
        have hr' := (hN.color_iff s r _ h1 hr1 hs).2.1 hw
        rcases g3 _ hr' rfl with e | e
        · injection e with e; exact .inl (by rw [e])
        · injection e with e; exact .inr (by rw [e])
      · rintro (rfl | rfl)
        · rfl
        · exact (hN.color_iff s t _ h1 ht1 hs).2.2 ht

/-- every coloured name is an endpoint when `update()` has succeeded -/
theorem occ_of {E : List (V × V)} {C : List (V × K)} (hC : C.Pairwise fun p q => p.1 ≠ q.1) {G : CGraph} (h : cgUpdate E C = .ok G) : ∀ p ∈ C, ∃ e ∈ E, e.1 = p.1 ∨ e.2 = p.1 := by
  obtain ⟨hg, _⟩ := cgUpdate_ok hC h
  rcases Gr.update_spec E C hC with ⟨e, _⟩ | ⟨G', e, _, _, _, hm, _⟩
  · rw [e] at hg; cases hg
  · exact fun p hp => mem_stack_iff.1 (hm p hp)

/-- **C60.** What `ddpaths -t path` does: when `hasColorPairs()`, `PathZdd` has exactly the sets of vertex-disjoint paths that join the pairs. -/
theorem C60_pairs_path {E : List (V × V)} {C : List (V × K)} (hC : C.Pairwise fun p q => p.1 ≠ q.1) {G : CGraph} (h : cgUpdate E C = .ok G) (hp : G.pairs = true) (hloop : ∀ e ∈ E, e.1 ≠ e.2) (hsmall : G.vMax ≤ 32767)
    (lookahead : Bool) (a : Asg 2) : ZddMem (pathZdd G.toGraph lookahead) G.info.length a ↔ ∃ P, IsPaths G.toGraph a P := by
  have := (C60_pairs hC h).1 hp
  exact C44_path hC (cgUpdate_ok hC h).1 hloop hsmall this.1 (occ_of hC h) this.2 lookahead a

/-- **C60.** What `ddpaths -t cycle` does: after `clearColors()`, `CycleZdd` has exactly the simple cycles, whatever the colours were (the flags `allColorsSeen` are left as they were). -/
theorem C60_clear_cycle {E : List (V × V)} {C : List (V × K)} (hC : C.Pairwise fun p q => p.1 ≠ q.1) {G : CGraph} (h : cgUpdate E C = .ok G) (hE : E ≠ []) (hloop : ∀ e ∈ E, e.1 ≠ e.2) (hsmall : G.vMax ≤ 32767)
    (lookahead : Bool) (a : Asg 2) : ZddMem (cycleZdd G.clearColors.toGraph lookahead) G.info.length a ↔ ∃ l, IsCycle G.toGraph a l := by
  obtain ⟨hH, hn⟩ := path_hyp hC (cgUpdate_ok hC h).1 hE hloop hsmall
  have hH' := seeAll_hyp hH
  have hs : cycleZdd G.clearColors.toGraph lookahead = cycleZdd (seeAll G.toGraph) lookahead := (simpath_seen G.toGraph false lookahead).symm
  have hl : G.info.length = (seeAll G.toGraph).info.length := (len_seen _).symm
  have := Sp.means (la := lookahead) (a := a) hH' (Sp.cycleSem hH' (fun _ => rfl) false) trivial (by rw [← hl]; exact hn)
  rw [hs, hl]
  refine Iff.trans ⟨this.1, fun hv => this.2 hv fun h => nomatch h⟩ (Sp.cycle_iff.trans ?_)
  exact ⟨fun ⟨l, h⟩ => ⟨l, cycle_seen.1 h⟩, fun ⟨l, h⟩ => ⟨l, cycle_seen.2 h⟩⟩

/-- **C60.** The same for `PathZddByStdMap`. -/
theorem C60_clear_byMap {E : List (V × V)} {C : List (V × K)} (hC : C.Pairwise fun p q => p.1 ≠ q.1) {G : CGraph} (h : cgUpdate E C = .ok G) (hE : E ≠ []) (hloop : ∀ e ∈ E, e.1 ≠ e.2) (hsmall : G.vMax ≤ 32767)
    (a : Asg 2) : ZddMem (pathByMap G.clearColors) G.info.length a ↔ ∃ l, IsCycle G.toGraph a l := by
  obtain ⟨hH, hn⟩ := path_hyp hC (cgUpdate_ok hC h).1 hE hloop hsmall
  have hH' := seeAllC_hyp (G := G) hH
  have hl : G.info.length = (seeAllC G).info.length := (len_seen _).symm
  rw [← byMap_seen, hl, means hH', none_iff (fun _ => rfl)]
  exact ⟨fun ⟨l, h⟩ => ⟨l, cycle_seen.1 h⟩, fun ⟨l, h⟩ => ⟨l, cycle_seen.2 h⟩⟩

/-- **C60.** `setDefaultPathColor()` throws exactly when there are too many vertices or no vertex with the *name* "1" or the name that is the number of vertices. -/
theorem C60_default_throws (E : List (String × String)) (n : Nat) :
    (cgDefaultColor E n = .thrown ∨ ∃ G, cgDefaultColor E n = .ok G) ∧
    (cgDefaultColor E n = .thrown ↔ (∃ vs : List String, vs.Nodup ∧ (∀ s ∈ vs, ∃ e ∈ E, e.1 = s ∨ e.2 = s) ∧ 65535 ≤ vs.length) ∨
      (∀ e ∈ E, e.1 ≠ "1" ∧ e.2 ≠ "1") ∨ (∀ e ∈ E, e.1 ≠ toString n ∧ e.2 ≠ toString n)) := by
  have h1 : toString 1 = "1" := by decide +kernel
  have hinj : n ≠ 1 → toString n ≠ "1" := fun hn he => hn (Nat.repr_inj.1 (he.trans h1.symm))
  unfold cgDefaultColor
  generalize hc : (if n = 1 then [("1", "#ff7777")] else [("1", "#ff7777"), (toString n, "#ff7777")] : List (String × String)) = C
  have hC : C.Pairwise fun p q => p.1 ≠ q.1 := by
    rw [← hc]
    by_cases hn : n = 1
    · rw [if_pos hn]; simp
    · rw [if_neg hn]
      simpa using Ne.symm (hinj hn)
  have hmem : ∀ p, p ∈ C ↔ p = ("1", "#ff7777") ∨ p = (toString n, "#ff7777") := by
    intro p
    rw [← hc]
    by_cases hn : n = 1
    · rw [if_pos hn, hn, h1]; simp
    · rw [if_neg hn]; simp
  have ht := (C41_throws E C hC)
  have key : cgUpdate E C = .thrown ↔ gUpdate E C = .thrown := by
    rcases cgUpdate_of (E := E) hC with ⟨g1, g2⟩ | ⟨G, hG⟩
    · simp [g1, g2]
    · have := (cgUpdate_ok hC hG).1
      simp [hG, this]
  constructor
  · rcases cgUpdate_of (E := E) hC with ⟨_, h⟩ | h
    · exact .inl h
    · exact .inr h
  · rw [key, ht.2]
    constructor
    · rintro (h | ⟨p, hp, h⟩ | ⟨ks, k1, k2, k3⟩)
      · exact .inl h
      · rcases (hmem p).1 hp with rfl | rfl
        · exact .inr (.inl h)
        · exact .inr (.inr h)
      · exfalso
        have : ks.length ≤ ["#ff7777"].length := k1.length_le_of_subset fun k hk => by
          obtain ⟨s, hs⟩ := k2 k hk
          rcases (hmem _).1 hs with e | e <;> (injection e with _ e; rw [e]; simp)
        simp only [List.length_cons, List.length_nil] at this
        omega
    · rintro (h | h | h)
      · exact .inl h
      · exact .inr (.inl ⟨_, (hmem _).2 (.inl rfl), h⟩)
      · exact .inr (.inl ⟨_, (hmem _).2 (.inr rfl), h⟩)

/-- **C60.** When it does not throw and there are two vertices or more, exactly the vertices named "1" and `n` are coloured, with one colour, and `hasColorPairs()`. -/
theorem C60_default {E : List (String × String)} {n : Nat} (hn : n ≠ 1) {G : CGraph} (h : cgDefaultColor E n = .ok G) :
    G.pairs = true ∧ G.numColor = 1 ∧ ∃ num : String → Nat, (∀ s t, 1 ≤ num s → num s = num t → s = t) ∧ (∀ v, 1 ≤ v → v ≤ G.vMax → ∃ s, num s = v) ∧
      1 ≤ num "1" ∧ 1 ≤ num (toString n) ∧ ∀ s, G.color (num s) = if s = "1" ∨ s = toString n then 1 else 0 := by
  have h1 : toString 1 = "1" := by decide +kernel
  have hinj : toString n ≠ "1" := fun he => hn (Nat.repr_inj.1 (he.trans h1.symm))
  unfold cgDefaultColor at h
  rw [if_neg hn] at h
  have hC : [("1", "#ff7777"), (toString n, "#ff7777")].Pairwise fun (p q : String × String) => p.1 ≠ q.1 := by simpa using Ne.symm hinj
  obtain ⟨hg, cs, hN, hK, hok, hm, hp⟩ := cgUpdate_ok hC h
  have m1 : ("1", "#ff7777") ∈ [("1", "#ff7777"), (toString n, "#ff7777")] := by simp
  have m2 : (toString n, "#ff7777") ∈ [("1", "#ff7777"), (toString n, "#ff7777")] := by simp
  have hmem : ∀ p, p ∈ [("1", "#ff7777"), (toString n, "#ff7777")] ↔ p = ("1", "#ff7777") ∨ p = (toString n, "#ff7777") := by intro p; simp
  have n1 := (hK.named _ _ m1).1
  have n2 := (hK.named _ _ m2).1
  have hnum : G.numColor = 1 := by
    rcases Gr.update_spec E _ hC with ⟨e, _⟩ | ⟨G', e, _, _, _, _, ks, hks, hl⟩
    · rw [e] at hg; cases hg
    · rw [e] at hg
      injection hg with hg
      rw [← hg, ← hl]
      have hk : ∀ k, k ∈ ks ↔ k = "#ff7777" := by
        intro k
        rw [hks.2 k]
        constructor
        · rintro ⟨s, hs⟩
          rcases (hmem _).1 hs with e | e <;> (injection e)
        · rintro rfl; exact ⟨_, m1⟩
      match ks, hks.1, hk with
      | [], _, hk => exact absurd ((hk "#ff7777").2 rfl) (by simp)
      | [_], _, _ => rfl
      | x :: y :: _, hnd, hk =>
        have e1 := (hk x).1 (by simp)
        have e2 := (hk y).1 (by simp)
        simp [e1, e2] at hnd
  refine ⟨?_, hnum, _, hN.num_inj, hN.num_surj, n1, n2, fun s => ?_⟩
  · rw [C60_pairs hC h]
    refine ⟨by simp, ?_⟩
    intro p hp
    rcases (hmem p).1 hp with rfl | rfl
    · exact ⟨_, m2, hinj, rfl, fun r hr _ => (hmem r).1 hr⟩
    · exact ⟨_, m1, Ne.symm hinj, rfl, fun r hr _ => ((hmem r).1 hr).symm⟩
  · generalize gNumber (gStack (gUnique E)) = num at *
    by_cases hs : s = "1" ∨ s = toString n
    · rw [if_pos hs]
      have : G.color (num s) ≠ 0 := by
        rcases hs with rfl | rfl
        · exact (hN.color_iff _ _ _ n1 n1 m1).1
        · exact (hN.color_iff _ _ _ n2 n2 m2).1
      have := hok.color_le (num s)
      omega
    · rw [if_neg hs]
      apply hN.uncolored
      intro k hk
      rcases (hmem _).1 hk with e | e <;> (injection e with e _)
      · exact hs (.inl e)
      · exact hs (.inr e)

/-! ### C61 -/

/-- **C61.** `PathZddByStdMap` contains exactly the edge sets that form one simple cycle together with a connection between the two vertices of each colour that has exactly two vertices. -/
theorem C61_ring {E : List (V × V)} {C : List (V × K)} (hC : C.Pairwise fun p q => p.1 ≠ q.1) {G : CGraph} (h : cgUpdate E C = .ok G) (hE : E ≠ []) (hloop : ∀ e ∈ E, e.1 ≠ e.2) (hsmall : G.vMax ≤ 32767)
    (a : Asg 2) : ZddMem (pathByMap G) G.info.length a ↔ ∃ l, IsRing G.toGraph a l := by
  rw [means (hyp_of hC h hE hloop hsmall).1, ring_iff]

/-- **C61.** Without colours these are the simple cycles. -/
theorem C61_cycle {E : List (V × V)} {G : CGraph} (h : cgUpdate E ([] : List (V × K)) = .ok G) (hE : E ≠ []) (hloop : ∀ e ∈ E, e.1 ≠ e.2) (hsmall : G.vMax ≤ 32767)
    (a : Asg 2) : ZddMem (pathByMap G) G.info.length a ↔ ∃ l, IsCycle G.toGraph a l := by
  rw [means (hyp_of List.Pairwise.nil h hE hloop hsmall).1, none_iff]
  exact no_color (cgUpdate_ok List.Pairwise.nil h).1

/-- **C61.** With one pair of terminals these are the simple paths between them, the same as in `PathZdd`. -/
theorem C61_path {E : List (V × V)} {s t : V} (hst : s ≠ t) {k : K} {G : CGraph} (h : cgUpdate E [(s, k), (t, k)] = .ok G) (hloop : ∀ e ∈ E, e.1 ≠ e.2) (hsmall : G.vMax ≤ 32767) (lookahead : Bool)
    (a : Asg 2) : (ZddMem (pathByMap G) G.info.length a ↔ ∃ P, IsPaths G.toGraph a P) ∧ (ZddMem (pathByMap G) G.info.length a ↔ ZddMem (pathZdd G.toGraph lookahead) G.info.length a) := by
  have hC : [(s, k), (t, k)].Pairwise fun (p q : V × K) => p.1 ≠ q.1 := by simpa using hst
  have hocc := occ_of hC h
  have htwo : ∀ p ∈ [(s, k), (t, k)], ∃ q ∈ [(s, k), (t, k)], q.1 ≠ p.1 ∧ q.2 = p.2 ∧ ∀ r ∈ [(s, k), (t, k)], r.2 = p.2 → r = p ∨ r = q := by
    intro p hp
    simp only [List.mem_cons, List.not_mem_nil, or_false] at hp ⊢
    rcases hp with rfl | rfl
    · exact ⟨(t, k), .inr rfl, Ne.symm hst, rfl, fun r hr _ => hr⟩
    · exact ⟨(s, k), .inl rfl, hst, rfl, fun r hr _ => hr.symm⟩
  have hE : E ≠ [] := by
    rintro rfl
    obtain ⟨e, he, _⟩ := hocc (s, k) (by simp)
    cases he
  obtain ⟨hg, cs, hN, hK, hok, _, _⟩ := cgUpdate_ok hC h
  obtain ⟨hH, hn⟩ := hyp_of hC h hE hloop hsmall
  have hP := path_pairs hC hg (by simp) hocc htwo
  have hnum : G.numColor = 1 := by
    rcases Gr.update_spec E _ hC with ⟨e, _⟩ | ⟨G', e, _, _, _, _, ks, hks, hl⟩
    · rw [e] at hg; cases hg
    · rw [e] at hg
      injection hg with hg
      have hle : ks.length ≤ [k].length := hks.1.length_le_of_subset fun j hj => by
        obtain ⟨r, hr⟩ := (hks.2 j).1 hj
        simp only [List.mem_cons, List.not_mem_nil, or_false, Prod.mk.injEq] at hr
        rcases hr with ⟨_, e⟩ | ⟨_, e⟩ <;> (rw [e]; simp)
      rw [hg] at hl
      have := hP.some
      simp only [List.length_cons, List.length_nil] at hle
      omega
  obtain ⟨x, y, hxy, hc⟩ := hP.two 1 (Nat.le_refl 1) (by omega)
  have key : ZddMem (pathByMap G) G.info.length a ↔ ∃ P, IsPaths G.toGraph a P := by
    rw [means hH, one_iff hH.toHyp hnum hxy hc, Sp.path_iff hH.toHyp hP]
  exact ⟨key, key.trans (C44_path hC hg hloop hsmall (by simp) hocc htwo lookahead a).symm⟩

/-- **C61 is violated for more than one pair:** a set of paths that join the pairs, one for each, is never contained. -/
theorem C61_pairs_disjoint {E : List (V × V)} {C : List (V × K)} (hC : C.Pairwise fun p q => p.1 ≠ q.1) {G : CGraph} (h : cgUpdate E C = .ok G) (hp : G.pairs = true) (h2 : ∃ p ∈ C, ∃ q ∈ C, p.2 ≠ q.2) (hloop : ∀ e ∈ E, e.1 ≠ e.2)
    (hsmall : G.vMax ≤ 32767) (a : Asg 2) (P : Nat → List Nat) (ha : IsPaths G.toGraph a P) : ¬ ZddMem (pathByMap G) G.info.length a := by
  have hpp := (C60_pairs hC h).1 hp
  have hocc := occ_of hC h
  have hE : E ≠ [] := by
    rintro rfl
    obtain ⟨p, hp, _⟩ := h2
    obtain ⟨e, he, _⟩ := hocc p hp
    cases he
  obtain ⟨hg, cs, hN, hK, hok, _, _⟩ := cgUpdate_ok hC h
  obtain ⟨hH, hn⟩ := hyp_of hC h hE hloop hsmall
  have hP := path_pairs hC hg hpp.1 hocc hpp.2
  have hnum : 2 ≤ G.numColor := by
    obtain ⟨⟨s, k⟩, hs, ⟨t, j⟩, ht, hne⟩ := h2
    have s1 := (hK.named s k hs).1
    have t1 := (hK.named t j ht).1
    have e1 := (hN.color_iff s t k s1 t1 hs)
    have e2 := (hN.color_iff t t j t1 t1 ht).1
    have e3 : G.color (gNumber (gStack (gUnique E)) t) ≠ G.color (gNumber (gStack (gUnique E)) s) := fun he => hne (color_unique hC (e1.2.1 he) ht)
    have := hok.color_le (gNumber (gStack (gUnique E)) s)
    have := hok.color_le (gNumber (gStack (gUnique E)) t)
    have := e1.1
    omega
  rw [means hH]
  exact not_both hH.toHyp hP hnum ((Sp.path_iff hH.toHyp hP).2 ⟨P, ha⟩)

/-- **C61.** The specification is lawful for every graph with an edge and without loops: no index is out of bounds, the assertion holds, equal states are interchangeable. -/
theorem C61_lawful {E : List (V × V)} {C : List (V × K)} (hC : C.Pairwise fun p q => p.1 ≠ q.1) {G : CGraph} (h : cgUpdate E C = .ok G) (hE : E ≠ []) (hloop : ∀ e ∈ E, e.1 ≠ e.2) (hsmall : G.vMax ≤ 32767) :
    LawfulC (pathByMap G) :=
  lawfulC_of_eq (desc (hyp_of hC h hE hloop hsmall).1) fun n s t => by simp [pathByMap]

/-- **C61.** The list that stands for the `std::map` has its keys in strictly ascending order in every state at a level, so that equality of the lists is equality of the maps. -/
theorem C61_sorted {E : List (V × V)} {C : List (V × K)} (hC : C.Pairwise fun p q => p.1 ≠ q.1) {G : CGraph} (h : cgUpdate E C = .ok G) (hE : E ≠ []) (hloop : ∀ e ∈ E, e.1 ≠ e.2) (hsmall : G.vMax ≤ 32767)
    {l : Int} {m : List (Int × Int)} (hr : Reach (pathByMap G) l m) (hl : 1 ≤ l) : m.Pairwise fun p q => p.1 < q.1 := by
  obtain ⟨_, A, hA⟩ := reach_inv (hyp_of hC h hE hloop hsmall).1 hr hl
  exact hA.sorted

/-! ### Examples and counterexamples -/

/-- a graph with coloured vertices -/
def colorCGraph (E : List (String × String)) (C : List (String × Nat)) : CGraph :=
  match cgUpdate E C with
  | .ok G => G
  | _ => ⟨⟨[], 0, fun _ => 0, 0⟩, fun _ => 0, false⟩

theorem colorCGraph_eq {E : List (String × String)} {C : List (String × Nat)} (h : (match cgUpdate E C with | .ok _ => true | _ => false) = true) : cgUpdate E C = .ok (colorCGraph E C) := by
  unfold colorCGraph
  cases hg : cgUpdate E C with
  | ok G => rfl
  | thrown => rw [hg] at h; cases h
  | ub => rw [hg] at h; cases h

-- the mates in the grid: `a`, `c` and `d`, `f` (the numbers are 1, 4 and 3, 6)
example : (List.range 8).map (colorCGraph grid6 grid6c).virtualMate = [0, 4, 0, 6, 1, 0, 3, 0] := by decide +kernel

/-- two pairs at the corners of a square: `s`, `t` and `x`, `y` -/
def square : List (String × String) := [("s", "x"), ("s", "t"), ("x", "y"), ("t", "y")]
def squareC : List (String × Nat) := [("s", 1), ("t", 1), ("x", 2), ("y", 2)]

-- the hypotheses of `C61_ring` and `C61_pairs_disjoint`
example : cgUpdate square squareC = .ok (colorCGraph square squareC) ∧ (squareC.Pairwise fun p q => p.1 ≠ q.1) ∧ square ≠ [] ∧ (∀ e ∈ square, e.1 ≠ e.2) ∧ (colorCGraph square squareC).vMax ≤ 32767 ∧
    (colorCGraph square squareC).pairs = true ∧ ∃ p ∈ squareC, ∃ q ∈ squareC, p.2 ≠ q.2 :=
  ⟨colorCGraph_eq (by decide +kernel), by decide +kernel, by decide +kernel, by decide +kernel, by decide +kernel, by decide +kernel, by decide +kernel⟩

/-- **C61 is violated for two pairs:** of the square, `PathZddByStdMap` contains the edges `s x` and `t y`, which join no pair; it does not contain the edges `s t` and `x y`, which `PathZdd` contains. -/
theorem C61_pairs_false : ∃ G, cgUpdate square squareC = .ok G ∧ G.pairs = true ∧ ZddMem (pathByMap G) 4 (edgeSet 4 [0, 3]) ∧ ¬ ZddMem (pathByMap G) 4 (edgeSet 4 [1, 2]) ∧
    ZddMem (pathZdd G.toGraph true) 4 (edgeSet 4 [1, 2]) ∧ ¬ ZddMem (pathZdd G.toGraph true) 4 (edgeSet 4 [0, 3]) := by
  have he : cgUpdate square squareC = .ok (colorCGraph square squareC) := colorCGraph_eq (by decide +kernel)
  refine ⟨_, he, by decide +kernel, ?_⟩
  have hd : Desc (pathByMap (colorCGraph square squareC)) := (C61_lawful (by decide +kernel) he (by decide +kernel) (by decide +kernel) (by decide +kernel)).toDesc
  have hd' : Desc (pathZdd (colorCGraph square squareC).toGraph true) :=
    (C44_lawful (by decide +kernel) (cgUpdate_ok (by decide +kernel) he).1 (by decide +kernel) (by decide +kernel) (by decide +kernel) true).1.toDesc
  rw [← zddRun_mem hd (by decide +kernel), ← zddRun_mem hd (by decide +kernel), ← zddRun_mem hd' (by decide +kernel), ← zddRun_mem hd' (by decide +kernel)]
  decide +kernel

-- one pair: the hypotheses of `C61_path` and two members of three
example : ("s" ≠ "y") ∧ cgUpdate square [("s", 1), ("y", 1)] = .ok (colorCGraph square [("s", 1), ("y", 1)]) ∧ (∀ e ∈ square, e.1 ≠ e.2) ∧ (colorCGraph square [("s", 1), ("y", 1)]).vMax ≤ 32767 ∧
    ZddMem (pathByMap (colorCGraph square [("s", 1), ("y", 1)])) 4 (edgeSet 4 [0, 2]) ∧ ZddMem (pathByMap (colorCGraph square [("s", 1), ("y", 1)])) 4 (edgeSet 4 [1, 3]) ∧
    ¬ ZddMem (pathByMap (colorCGraph square [("s", 1), ("y", 1)])) 4 (edgeSet 4 [0, 1, 2, 3]) := by
  have he : cgUpdate square [("s", 1), ("y", 1)] = .ok (colorCGraph square [("s", 1), ("y", 1)]) := colorCGraph_eq (by decide +kernel)
  have hd : Desc (pathByMap (colorCGraph square [("s", 1), ("y", 1)])) := (C61_lawful (by decide +kernel) he (by decide +kernel) (by decide +kernel) (by decide +kernel)).toDesc
  refine ⟨by decide +kernel, he, by decide +kernel, by decide +kernel, ?_⟩
  rw [← zddRun_mem hd (by decide +kernel), ← zddRun_mem hd (by decide +kernel), ← zddRun_mem hd (by decide +kernel)]
  decide +kernel

-- no colours: the square is the only cycle
example : cgUpdate square ([] : List (String × Nat)) = .ok (colorCGraph square []) ∧ ZddMem (pathByMap (colorCGraph square [])) 4 (edgeSet 4 [0, 1, 2, 3]) ∧ ¬ ZddMem (pathByMap (colorCGraph square [])) 4 (edgeSet 4 [0, 1, 2]) := by
  have he : cgUpdate square ([] : List (String × Nat)) = .ok (colorCGraph square []) := colorCGraph_eq (by decide +kernel)
  have hd : Desc (pathByMap (colorCGraph square [])) := (C61_lawful (by decide +kernel) he (by decide +kernel) (by decide +kernel) (by decide +kernel)).toDesc
  refine ⟨he, ?_⟩
  rw [← zddRun_mem hd (by decide +kernel), ← zddRun_mem hd (by decide +kernel)]
  decide +kernel

/-- **C60:** `hasColorPairs()` stays true after `clearColors()`, although there is no colour any more. -/
theorem C60_clear_flag : ∃ G, cgUpdate square squareC = .ok G ∧ G.clearColors.pairs = true ∧ G.clearColors.numColor = 0 ∧ ∀ v, G.clearColors.color v = 0 ∧ G.clearColors.virtualMate v = 0 :=
  ⟨colorCGraph square squareC, colorCGraph_eq (by decide +kernel), by decide +kernel, rfl, fun v => ⟨rfl, by unfold CGraph.virtualMate; split <;> rfl⟩⟩

/-- **C60:** `setDefaultPathColor()` throws for a graph with vertices of other names, and for vertices named `0`, `1`, `2` it takes the names and not the numbers of the vertices: there is no vertex named `3`. -/
theorem C60_default_names : cgDefaultColor [("a", "b"), ("b", "c")] 3 = .thrown ∧ cgDefaultColor [("0", "1"), ("1", "2")] 3 = .thrown := by
  constructor
  · exact (C60_default_throws _ _).2.2 (.inr (.inl (by decide +kernel)))
  · refine (C60_default_throws _ _).2.2 (.inr (.inr ?_))
    have : toString 3 = "3" := by decide +kernel
    rw [this]
    decide +kernel

-- the hypotheses of `C60_default`
example : (3 : Nat) ≠ 1 ∧ ∃ G, cgDefaultColor [("3", "1"), ("1", "2")] 3 = .ok G := by
  refine ⟨by decide, ?_⟩
  rcases (C60_default_throws [("3", "1"), ("1", "2")] 3).1 with h | h
  · exfalso
    have h3 : toString 3 = "3" := by decide +kernel
    rcases (C60_default_throws _ _).2.1 h with ⟨vs, h1, h2, h4⟩ | h | h
    · have : vs.length ≤ ["1", "2", "3"].length := h1.length_le_of_subset fun s hs => by
        obtain ⟨e, he, h⟩ := h2 s hs
        simp only [List.mem_cons, List.not_mem_nil, or_false] at he ⊢
        rcases he with rfl | rfl <;> rcases h with h | h <;> simp [← h]
      simp only [List.length_cons, List.length_nil] at this
      omega
    · exact absurd h (by decide +kernel)
    · rw [h3] at h
      exact absurd h (by decide +kernel)
  · exact h

end TdZdd
