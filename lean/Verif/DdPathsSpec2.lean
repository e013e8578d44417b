import Verif.DdPathsSpec

/-! The specifications of `ddpaths` have the family that is asked for. -/

namespace TdZdd

namespace DdPaths

open Sp

variable {o : Opts} {E C : List (List Char × List Char)} {G0 G : CGraph}

theorem simpath_good {G : Graph} {cyc ham la : Bool} {Valid Part : (Nat → Nat → Prop) → Prop} (hH : Hyp G) (hn : 0 < G.info.length) (hsem : Sem G cyc ham Valid Part) (hP : Part fun _ _ => False) :
    Good G.info.length (fun a => ZddMem (simpath G cyc ham la) G.info.length a) (simpath G cyc ham la) ∧
    (∀ a, ZddMem (simpath G cyc ham la) G.info.length a → Valid (adjA G a G.info.length)) ∧
    ∀ a, Valid (adjA G a G.info.length) → (ham = true → Spanning G a) → ZddMem (simpath G cyc ham la) G.info.length a := by
  refine ⟨⟨(lawfulC_of_eq (desc hH hn) fun n s t => by simp [simpath]).lawful, fun _ _ => rfl, ?_, fun _ => Iff.rfl⟩, fun a => (means (la := la) (a := a) hH hsem hP hn).1, fun a hv hs => ?_⟩
  · obtain ⟨e, mate, h1, _⟩ := root_eq (cyc := cyc) (ham := ham) (la := la) hH hn
    rw [h1]; exact Int.le_refl _
  · exact (means (la := la) (a := a) hH hsem hP hn).2 hv fun h => spanning_iff.1 (hs h)

theorem Good.cast {S : Type} {n n' : Nat} {F F' : Asg 2 → Prop} {sp : DdSpec 2 S} (h : Good n F sp) (e : n = n') (hF : ∀ a, F a ↔ F' a) : Good n' F' sp := by
  subst e
  exact ⟨h.lawful, h.nomerge, h.root, fun a => (h.mem a).trans (hF a)⟩

theorem cycle_clear {G : CGraph} {a : Asg 2} {l : List Nat} : IsCycle G.clearColors.toGraph a l ↔ IsCycle G.toGraph a l :=
  ⟨fun h => ⟨h.len, h.nodup, h.has, h.only⟩, fun h => ⟨h.len, h.nodup, h.has, h.only⟩⟩

/-- the specifications for cycles -/
theorem cycle_good {G : CGraph} (hH : Sp.Hyp G.toGraph) (hn : 0 < G.info.length) (ham la : Bool) :
    Good G.info.length (fun a => ZddMem (simpath G.clearColors.toGraph true ham la) G.info.length a) (simpath G.clearColors.toGraph true ham la) ∧
    (∀ a, ZddMem (simpath G.clearColors.toGraph true ham la) G.info.length a → ∃ l, IsCycle G.clearColors.toGraph a l) ∧
    ∀ a, (∃ l, IsCycle G.clearColors.toGraph a l) → (ham = true → Spanning G.clearColors.toGraph a) → ZddMem (simpath G.clearColors.toGraph true ham la) G.info.length a := by
  have hH' := Ps.seeAll_hyp hH
  have hs : simpath G.clearColors.toGraph true ham la = simpath (Ps.seeAll G.toGraph) true ham la := (Ps.simpath_seen G.toGraph ham la).symm
  have hl : (Ps.seeAll G.toGraph).info.length = G.info.length := Ps.len_seen _
  obtain ⟨h1, h2, h3⟩ := simpath_good (la := la) hH' (by rw [hl]; exact hn) (Sp.cycleSem hH' (fun _ => rfl) ham) trivial
  rw [hl] at h1 h2 h3
  rw [hs]
  refine ⟨h1, fun a ha => ?_, fun a ⟨l, ha⟩ hsp => h3 a ?_ fun h v v1 v2 => ?_⟩
  · have := h2 a ha
    rw [← hl] at this
    obtain ⟨l, h⟩ := cycle_iff.1 this
    exact ⟨l, cycle_clear.2 (Ps.cycle_seen.1 h)⟩
  · rw [← hl]
    exact cycle_iff.2 ⟨l, Ps.cycle_seen.2 (cycle_clear.1 ha)⟩
  · obtain ⟨b, y, hb, hj⟩ := hsp h v v1 v2
    exact ⟨b, y, Ps.taken_seen.2 hb, Ps.joins_seen.2 hj⟩

theorem byMap_good {G : CGraph} (hH : Ps.Hyp G) : Good G.info.length (fun a => ∃ l, IsRing G.toGraph a l) (pathByMap G) :=
  ⟨(lawfulC_of_eq (Ps.desc hH) fun n s t => by simp [pathByMap]).lawful, fun _ _ => rfl, Int.le_refl _, fun a => by rw [Ps.means hH, Ps.ring_iff]⟩

theorem byMap_cycle_good {G : CGraph} (hH : Sp.Hyp G.toGraph) : Good G.info.length (fun a => ∃ l, IsCycle G.clearColors.toGraph a l) (pathByMap G.clearColors) := by
  have h := byMap_good (Ps.seeAllC_hyp (G := G) hH)
  rw [Ps.byMap_seen] at h
  refine h.cast (Ps.len_seen _) fun a => ?_
  rw [← Ps.ring_iff, Ps.none_iff (fun _ => rfl)]
  exact ⟨fun ⟨l, h⟩ => ⟨l, cycle_clear.2 (Ps.cycle_seen.1 h)⟩, fun ⟨l, h⟩ => ⟨l, Ps.cycle_seen.2 (cycle_clear.1 h)⟩⟩

/-- **the specification of `ddpaths -t path` and `-t cycle`** -/
theorem withSpec_good (h : Made o E C G0 G) (hk : o.kind = .path ∨ o.kind = .cycle) (hl : ∀ e ∈ G.info, e.v1 ≠ e.v2) (hs : G.vMax ≤ 32767) :
    ∃ F, Between o G.toGraph F ∧ o.withSpec (α := Prop) G fun _ sp => Good G.info.length F sp := by
  obtain ⟨hH, hn⟩ := h.hyp hl hs
  rcases hk with hk | hk
  · have hG : G = G0 := by rw [h.graph, hk]; rfl
    subst hG
    have hP := h.pairs' hk
    have hpath : ∀ ham la, Good G.info.length (fun a => ZddMem (simpath G.toGraph false ham la) G.info.length a) (simpath G.toGraph false ham la) ∧
        (∀ a, ZddMem (simpath G.toGraph false ham la) G.info.length a → ∃ P, IsPaths G.toGraph a P) ∧
        ∀ a, (∃ P, IsPaths G.toGraph a P) → (ham = true → Spanning G.toGraph a) → ZddMem (simpath G.toGraph false ham la) G.info.length a := by
      intro ham la
      obtain ⟨h1, h2, h3⟩ := simpath_good (la := la) hH.toHyp hn (pathSem hH.toHyp hP ham) (pathPart_empty hH.toHyp hP)
      exact ⟨h1, fun a ha => (path_iff hH.toHyp hP).1 (h2 a ha), fun a ha => h3 a ((path_iff hH.toHyp hP).2 ha)⟩
    by_cases hham : o.hamilton = true
    · obtain ⟨h1, h2, h3⟩ := hpath true (!o.nola)
      refine ⟨_, ⟨fun a ha => ?_, fun a ha hsp => h3 a ?_ fun _ => hsp hham (.inl hk)⟩, ?_⟩
      · have := h2 a ha
        simpa [Wanted, hk, hham] using this
      · simpa [Wanted, hk, hham] using ha
      · unfold Opts.withSpec
        rw [hk]
        dsimp only
        rw [if_pos hham]
        exact h1
    · by_cases hslow : o.slow = true
      · refine ⟨fun a => ∃ l, IsRing G.toGraph a l, ⟨fun a ha => ?_, fun a ha _ => ?_⟩, ?_⟩
        · simpa [Wanted, hk, hham, hslow] using ha
        · simpa [Wanted, hk, hham, hslow] using ha
        · unfold Opts.withSpec
          rw [hk]
          dsimp only
          rw [if_neg hham, if_pos hslow]
          exact byMap_good hH
      · obtain ⟨h1, h2, h3⟩ := hpath false (!o.nola)
        refine ⟨_, ⟨fun a ha => ?_, fun a ha _ => h3 a ?_ fun h => nomatch h⟩, ?_⟩
        · have := h2 a ha
          simpa [Wanted, hk, hslow] using this
        · simpa [Wanted, hk, hslow] using ha
        · unfold Opts.withSpec
          rw [hk]
          dsimp only
          rw [if_neg hham, if_neg hslow]
          exact h1
  · have hG : G = G0.clearColors := by rw [h.graph, hk]; rfl
    subst hG
    by_cases hham : o.hamilton = true
    · obtain ⟨h1, h2, h3⟩ := cycle_good hH.toHyp hn true (!o.nola)
      refine ⟨_, ⟨fun a ha => ?_, fun a ha hsp => h3 a ?_ fun _ => hsp hham (.inr hk)⟩, ?_⟩
      · have := h2 a ha
        simpa [Wanted, hk] using this
      · simpa [Wanted, hk] using ha
      · unfold Opts.withSpec
        rw [hk]
        dsimp only
        rw [if_pos hham]
        exact h1
    · by_cases hslow : o.slow = true
      · refine ⟨fun a => ∃ l, IsCycle G0.clearColors.toGraph a l, ⟨fun a ha => ?_, fun a ha _ => ?_⟩, ?_⟩
        rotate_left 2
        · unfold Opts.withSpec
          rw [hk]
          dsimp only
          rw [if_neg hham, if_pos hslow]
          exact byMap_cycle_good (G := G0) hH.toHyp
        · simpa [Wanted, hk] using ha
        · simpa [Wanted, hk] using ha
      · obtain ⟨h1, h2, h3⟩ := cycle_good hH.toHyp hn false (!o.nola)
        refine ⟨_, ⟨fun a ha => ?_, fun a ha _ => h3 a ?_ fun h => nomatch h⟩, ?_⟩
        · have := h2 a ha
          simpa [Wanted, hk] using this
        · simpa [Wanted, hk] using ha
        · unfold Opts.withSpec
          rw [hk]
          dsimp only
          rw [if_neg hham, if_neg hslow]
          exact h1

/-- **the specification of `ddpaths -t cc` and `-t forest`** -/
theorem fbs_good (h : Made o E C G0 G) (hk : o.kind = .cc ∨ o.kind = .forest) (hl : ∀ e ∈ G.info, e.v1 ≠ e.v2) (hs : G.vMax ≤ 32766) (h1 : -32768 ≤ o.uec) (h2 : o.uec ≤ 32767) :
    Good G.info.length (Wanted o G.toGraph) (frontierSearch G.toGraph o.uec (o.kind = .forest) true) := by
  obtain ⟨hH, hn⟩ := h.hyp hl (by omega)
  have hG : G = G0 := by
    rw [h.graph, if_neg]
    rcases hk with hk | hk <;> rw [hk] <;> decide
  subst hG
  refine ⟨(lawfulC_of_eq (Fb.desc hH.toHyp hs hn) fun n s t => by simp [frontierSearch]).lawful, fun _ _ => rfl, ?_, fun a => ?_⟩
  · obtain ⟨e, he, hr⟩ := Fb.root_eq (numUEC := o.uec) (noLoop := o.kind = .forest) (la := true) hH.toHyp hn
    rw [hr]; exact Int.le_refl _
  · rw [Fb.means hH.toHyp hs hn h1 h2, Fb.valid_iff]
    rcases hk with hk | hk <;> (unfold Wanted; rw [hk]; exact Iff.rfl)

/-! ### `-dc` -/

/-- a ring has the degrees, too -/
theorem ring_deg {G : CGraph} {a : Asg 2} (hH : Sp.Hyp G.toGraph) (hP : Pairs G.toGraph) (h : CycleOk (Ps.World G a G.info.length)) : DegOk G.toGraph (adjA G.toGraph a G.info.length) := by
  have hd := h.deg (G := ⟨[], 0, fun _ => 0, 0⟩) (fun _ => rfl)
  have hout : ∀ v, G.color v ≠ 0 → v ≤ G.vMax := fun v hv => by
    apply Classical.byContradiction
    intro hn
    exact hv (hH.ok.color_out v (by omega))
  have hlk : ∀ v, G.color v ≠ 0 → Ps.World G a G.info.length v (G.vMax + G.color v) := by
    intro v hv
    obtain ⟨s, t, hst, hc⟩ := hP.two (G.color v) (by omega) (hH.ok.color_le v)
    refine .inr (.inl ?_)
    rcases (hc v).1 rfl with rfl | rfl
    · exact ⟨t, ⟨hv, Ne.symm hst, fun w => hc w⟩, rfl⟩
    · exact ⟨s, ⟨hv, hst, fun w => by rw [hc w]; exact Or.comm⟩, rfl⟩
  refine ⟨fun v y hy hc => ?_, fun v hc => ?_, fun v y y' hc hy hy' => ?_, fun v x y z hx hy hz => h.d2 v x y z (.inl hx) (.inl hy) (.inl hz)⟩
  · obtain ⟨y', hne, hw⟩ := hd.d0 v y (.inl hy) rfl
    refine ⟨y', hne, hw.resolve_right ?_⟩
    have hv := (Ps.adj_le hH hy).1
    rintro (⟨u, hp, _⟩ | ⟨u, hp, he⟩)
    · exact hp.1 hc
    · have := hp.1
      omega
  · obtain ⟨y', hne, hw⟩ := hd.d0 v _ (hlk v hc) rfl
    refine ⟨y', hw.resolve_right ?_⟩
    have hv := hout v hc
    rintro (⟨u, hp, he⟩ | ⟨u, hp, he⟩)
    · exact hne he
    · have := hp.1
      omega
  · have b1 := (Ps.adj_le hH hy).2
    have b2 := (Ps.adj_le hH hy').2
    rcases h.d2 v y y' _ (.inl hy) (.inl hy') (hlk v hc) with e | e | e
    · exact e
    · omega
    · omega

/-- what is asked for meets the degree constraints -/
theorem wanted_deg (h : Made o E C G0 G) (hk : o.kind = .path ∨ o.kind = .cycle) (hl : ∀ e ∈ G.info, e.v1 ≠ e.v2) (hs : G.vMax ≤ 32767) {a : Asg 2} (ha : Wanted o G.toGraph a) (v : Nat) :
    (G.color v = 0 → edgeDegree G.toGraph a v = 0 ∨ edgeDegree G.toGraph a v = 2) ∧ (G.color v ≠ 0 → edgeDegree G.toGraph a v = 1) := by
  obtain ⟨hH, hn⟩ := h.hyp hl hs
  rcases hk with hk | hk
  · have hG : G = G0 := by rw [h.graph, hk]; rfl
    subst hG
    have hP := h.pairs' hk
    refine degree_of hH.toHyp ?_ v
    unfold Wanted at ha
    rw [hk] at ha
    dsimp only at ha
    split at ha
    · exact ring_deg hH.toHyp hP (Ps.ring_iff.2 ha)
    · exact ((path_iff hH.toHyp hP).2 ha).deg
  · have hG : G = G0.clearColors := by rw [h.graph, hk]; rfl
    subst hG
    unfold Wanted at ha
    rw [hk] at ha
    obtain ⟨l, ha⟩ := ha
    have hH' := Ps.seeAll_hyp hH.toHyp
    have hc := cycle_iff.2 ⟨l, Ps.cycle_seen.2 (cycle_clear.1 ha)⟩
    have := degree_of hH' (hc.deg fun _ => rfl) v
    have he : edgeDegree (Ps.seeAll G0.toGraph) a v = edgeDegree G0.clearColors.toGraph a v := by
      unfold edgeDegree
      rw [Ps.len_seen]
      show _ = ((List.range G0.info.length).filter _).length
      congr 1
      refine List.filter_congr fun i _ => ?_
      congr 1
      rw [Bool.eq_iff_iff, C40_usesB, C40_usesB]
      constructor
      · rintro ⟨e, he, hv⟩
        obtain ⟨f, hf, rfl⟩ := Ps.get_seen he
        exact ⟨f, hf, hv⟩
      · rintro ⟨f, hf, hv⟩
        refine ⟨Ps.seen f, ?_, hv⟩
        show (G0.info.map Ps.seen)[i]? = _
        rw [List.getElem?_map, show G0.info[i]? = some f from hf]; rfl
    rw [he] at this
    exact ⟨fun _ => this.1 rfl, fun hc => absurd rfl hc⟩

theorem dcLook_bare (G : Graph) (cs : Nat → Option IntSubset) (la : Bool) : ∀ (fuel i : Nat) (mate : List Int), dcLook (Ps.bare G) cs la fuel i mate = dcLook G cs la fuel i mate
  | 0, _, _ => rfl
  | fuel + 1, i, mate => by
    unfold dcLook
    simp only [dcLook_bare G cs la fuel, show (Ps.bare G).info = G.info from rfl, show (Ps.bare G).vMax = G.vMax from rfl, show (Ps.bare G).maxFrontierSize = G.maxFrontierSize from rfl]
theorem dc_bare (G : Graph) (cs : Nat → Option IntSubset) (la : Bool) : degreeConstraint (Ps.bare G) cs la = degreeConstraint G cs la := by
  unfold degreeConstraint dcChild dcNext
  simp only [dcLook_bare, show (Ps.bare G).info = G.info from rfl, show (Ps.bare G).vMax = G.vMax from rfl, show (Ps.bare G).maxFrontierSize = G.maxFrontierSize from rfl]

/-- **the specification of `-dc`** -/
theorem dc_good (h : Made o E C G0 G) (hl : ∀ e ∈ G.info, e.v1 ≠ e.v2) (hs : G.vMax ≤ 32767) :
    Good G.info.length (fun a => ∀ v, 1 ≤ v → v ≤ G.vMax → (if G.color v = 0 then intRange 0 2 2 else intRange 1 1 1).contains (edgeDegree G.toGraph a v) = true) (degreeConstraint G.toGraph (degrees G) true) := by
  obtain ⟨hH, hn⟩ := h.hyp hl hs
  have hcs : degreeConstraint G.toGraph (degrees G) true = degreeConstraint G0.toGraph (degrees G) true := by
    have : ∀ cs, degreeConstraint G.toGraph cs true = degreeConstraint G0.toGraph cs true := by
      rw [h.graph]
      split
      · exact fun cs => dc_bare G0.toGraph cs true
      · exact fun _ => rfl
    exact this _
  have hg := (Ps.cgUpdate_ok h.keys h.update).1
  have hE : E ≠ [] := h.edges
  rw [hcs]
  refine ⟨(C40_lawful h.keys hg _ _).lawful, fun _ _ => rfl, ?_, fun a => ?_⟩
  · rw [h.info_eq]; exact Int.le_refl _
  · have key := C40_degree h.keys hg hE (h.noLoops hl) (cs := degrees G) (C40_range fun v c hc => ?_) (fun v _ => ?_) true a
    · rw [h.info_eq, key]
      have hd : ∀ v, edgeDegree G0.toGraph a v = edgeDegree G.toGraph a v := fun v => by rw [h.graph]; split <;> rfl
      rw [h.vMax_eq]
      refine forall_congr' fun v => forall_congr' fun h1 => forall_congr' fun h2 => ?_
      rw [hd]
      unfold degrees
      rw [if_pos ⟨h1, by rw [h.vMax_eq]; exact h2⟩]
      exact ⟨fun hc => hc _ rfl, fun hc c e => by injection e with e; rw [← e]; exact hc⟩
    · unfold degrees at hc
      split at hc
      · injection hc with hc
        rw [← hc]
        split
        · exact ⟨_, _, _, rfl⟩
        · exact ⟨_, _, _, rfl⟩
      · cases hc
    · have := degree_le hH.toHyp allEdges v
      rw [h.vMax_eq] at hs
      omega

theorem dc_of_wanted (h : Made o E C G0 G) (hk : o.kind = .path ∨ o.kind = .cycle) (hl : ∀ e ∈ G.info, e.v1 ≠ e.v2) (hs : G.vMax ≤ 32767) {a : Asg 2} (ha : Wanted o G.toGraph a) (v : Nat) :
    (if G.color v = 0 then intRange 0 2 2 else intRange 1 1 1).contains (edgeDegree G.toGraph a v) = true := by
  obtain ⟨h1, h2⟩ := wanted_deg h hk hl hs ha v
  by_cases hc : G.color v = 0
  · rw [if_pos hc]
    rcases h1 hc with e | e <;> rw [e] <;> decide
  · rw [if_neg hc, h2 hc]
    decide

end DdPaths

end TdZdd
