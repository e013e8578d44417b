import Verif.FbConn

/-! Proofs about `FrontierBasedSearch` (7): what is known about the chosen edges. -/

namespace TdZdd.Fb

open Gr Deg
open Sp (Act Joins adjA addE joins_get)

variable {A : Nat → Nat → Prop} {G : Graph} {i : Nat} {a : Asg 2}

/-- the component of `u` has only vertices below `s` -/
def Shut (A : Nat → Nat → Prop) (s u : Nat) : Prop := ∀ w, Conn A u w → w < s

/-- the component of `u` has no colour -/
def Plain (G : Graph) (A : Nat → Nat → Prop) (u : Nat) : Prop := ∀ w, Conn A u w → G.color w = 0

/-- representatives of the uncoloured components with edges and only vertices below `s` -/
structure Reps (G : Graph) (A : Nat → Nat → Prop) (s : Nat) (reps : List Nat) : Prop where
  diff : reps.Pairwise fun r r' => ¬ Conn A r r'
  each : ∀ r ∈ reps, (∃ y, A r y) ∧ Plain G A r ∧ Shut A s r
  all : ∀ u, (∃ y, A u y) → Plain G A u → Shut A s u → ∃ r ∈ reps, Conn A r u

/-- a component without vertices from `s` on that has a colour has all vertices of the colour -/
def Full (G : Graph) (A : Nat → Nat → Prop) (s : Nat) : Prop := ∀ u v, G.color u ≠ 0 → G.color v = G.color u → Shut A s u → Conn A u v

/-- the chosen edges among the first `i`, without edge `b` -/
def adjX (G : Graph) (a : Asg 2) (b i x y : Nat) : Prop := ∃ c, c < i ∧ c ≠ b ∧ a (G.info.length - c) = 1 ∧ Joins G c x y

/-- no cycle among the chosen edges -/
def NoCycle (G : Graph) (a : Asg 2) (i : Nat) : Prop := ∀ b e, b < i → a (G.info.length - b) = 1 → G.info[b]? = some e → ¬ Conn (adjX G a b i) e.v1 e.v2

/-- what is known at all times -/
structure Part (G : Graph) (noLoop : Bool) (numUEC : Int) (a : Asg 2) (i : Nat) (A : Nat → Nat → Prop) (s : Nat) (uec : Int) : Prop where
  one : OneColor G A
  full : Full G A s
  tree : noLoop = true → NoCycle G a i
  count : (numUEC < 0 ∧ uec = numUEC) ∨ (0 ≤ uec ∧ ∃ reps, (reps.length : Int) + uec = numUEC ∧ Reps G A s reps)

/-- what is looked for -/
structure Valid (G : Graph) (noLoop : Bool) (numUEC : Int) (a : Asg 2) : Prop where
  color : ∀ u v, G.color u ≠ 0 → G.color v ≠ 0 → (Conn (adjA G a G.info.length) u v ↔ G.color u = G.color v)
  tree : noLoop = true → NoCycle G a G.info.length
  count : numUEC < 0 ∨ ∃ reps : List Nat, (reps.length : Int) = numUEC ∧ (reps.Pairwise fun r r' => ¬ Conn (adjA G a G.info.length) r r') ∧
    (∀ r ∈ reps, (∃ y, adjA G a G.info.length r y) ∧ Plain G (adjA G a G.info.length) r) ∧
    ∀ u, (∃ y, adjA G a G.info.length u y) → Plain G (adjA G a G.info.length) u → ∃ r ∈ reps, Conn (adjA G a G.info.length) r u

/-- different components need different representatives -/
theorem pigeon (hs : ∀ x y, A x y → A y x) : ∀ (l r : List Nat), (l.Pairwise fun x y => ¬ Conn A x y) → (∀ x ∈ l, ∃ y ∈ r, Conn A y x) → l.length ≤ r.length
  | [], _, _, _ => Nat.zero_le _
  | x :: l, r, hp, hc => by
    obtain ⟨y, hy, hyx⟩ := hc x (List.mem_cons_self ..)
    rw [List.pairwise_cons] at hp
    have := pigeon hs l (r.erase y) hp.2 fun z hz => by
      obtain ⟨w, hw, hwz⟩ := hc z (List.mem_cons_of_mem _ hz)
      refine ⟨w, (List.mem_erase_of_ne ?_).2 hw, hwz⟩
      rintro rfl
      exact hp.1 z hz ((hyx.symm hs).trans hwz)
    rw [List.length_erase_of_mem hy] at this
    have := List.length_pos_of_mem hy
    simp only [List.length_cons]
    omega

theorem adjA_sym (x y : Nat) (h : adjA G a i x y) : adjA G a i y x := by
  obtain ⟨b, hb, ha, hj⟩ := h
  exact ⟨b, hb, ha, hj.symm⟩

theorem adjA_upto : Upto G (adjA G a i) i where
  sym := adjA_sym
  sub := by
    rintro x y ⟨b, hb, _, hj⟩
    exact ⟨b, by omega, hj⟩

theorem adjX_sym {b : Nat} (x y : Nat) (h : adjX G a b i x y) : adjX G a b i y x := by
  obtain ⟨c, hc, hcb, ha, hj⟩ := h
  exact ⟨c, hc, hcb, ha, hj.symm⟩

/-! ### a component that is shut stays as it is -/

theorem shut_final (hH : Sp.Hyp G) {u w : Nat} (hu : Shut (adjA G a i) (st G i) u) (h : Conn (adjA G a G.info.length) u w) : Conn (adjA G a i) u w := by
  refine h.stay (P := fun y => Conn (adjA G a i) u y) (fun x y hx hxy => ?_) .refl
  rcases Sp.adjA_split (i := i) hxy with h | ⟨b, hb, _, hj⟩
  · exact hx.tail h
  · have := hu x hx
    have hx' := Sp.Uses.range hH hj.uses.1
    have := (act_iff hH hx'.2).1 ⟨b, hb, hj.uses.1⟩
    omega

theorem conn_final {u w : Nat} (hi : i ≤ G.info.length) (h : Conn (adjA G a i) u w) : Conn (adjA G a G.info.length) u w :=
  h.mono fun _ _ h => Sp.adjA_mono hi h

theorem shut_all (hH : Sp.Hyp G) {u : Nat} (hA : Upto G A i) (hu : u ≤ G.vMax) : Shut A (G.vMax + 1) u := by
  intro w hw
  rcases Conn.first (hw.symm hA.sym) with rfl | ⟨y, hy⟩
  · omega
  · have := hA.range hH hy
    omega

/-! ### an edge is added -/

theorem shut_addE {s x y u w : Nat} (hx : s ≤ x) (hy : s ≤ y) (hu : Shut A s u) (h : Conn (addE A x y) u w) : Conn A u w := by
  rcases conn_addE.1 h with h | ⟨h, _⟩ | ⟨h, _⟩
  · exact h
  · have := hu x h; omega
  · have := hu y h; omega

theorem conn_mono_addE {x y u w : Nat} (h : Conn A u w) : Conn (addE A x y) u w := conn_addE.2 (.inl h)

theorem shut_addE_iff {s x y u : Nat} (hx : s ≤ x) (hy : s ≤ y) : Shut (addE A x y) s u ↔ Shut A s u :=
  ⟨fun h w hw => h w (conn_mono_addE hw), fun h w hw => h w (shut_addE hx hy h hw)⟩

theorem full_addE {s x y : Nat} (hx : s ≤ x) (hy : s ≤ y) (hF : Full G A s) : Full G (addE A x y) s :=
  fun u v hu hv h => conn_mono_addE (hF u v hu hv ((shut_addE_iff hx hy).1 h))

theorem reps_addE {s x y : Nat} (hx : s ≤ x) (hy : s ≤ y) {reps : List Nat} (hR : Reps G A s reps) : Reps G (addE A x y) s reps where
  diff := by
    refine hR.diff.imp_of_mem fun {r r'} hr _ h hc => h (shut_addE hx hy (hR.each r hr).2.2 hc)
  each r hr := by
    obtain ⟨⟨z, hz⟩, h2, h3⟩ := hR.each r hr
    exact ⟨⟨z, .inl hz⟩, fun w hw => h2 w (shut_addE hx hy h3 hw), (shut_addE_iff hx hy).2 h3⟩
  all u hu h2 h3 := by
    have h3' := (shut_addE_iff hx hy).1 h3
    obtain ⟨z, hz⟩ := hu
    have hz' : A u z := by
      rcases hz with h | ⟨rfl, _⟩ | ⟨rfl, _⟩
      · exact h
      · have := h3' u .refl; omega
      · have := h3' u .refl; omega
    obtain ⟨r, hr, hc⟩ := hR.all u ⟨z, hz'⟩ (fun w hw => h2 w (conn_mono_addE hw)) h3'
    exact ⟨r, hr, conn_mono_addE hc⟩

theorem oneColor_addE (hs : ∀ x y, A x y → A y x) (hO : OneColor G A) {s p q : Nat} (h : ∀ c c', (world G A s).C c p → (world G A s).C c' q → c = c') : OneColor G (addE A (s + p) (s + q)) := by
  intro u v huv hu hv
  rcases conn_addE.1 huv with h' | ⟨h1, h2⟩ | ⟨h1, h2⟩
  · exact hO u v h' hu hv
  · exact h _ _ ⟨hu, u, h1.symm hs, rfl⟩ ⟨hv, v, h2, rfl⟩
  · exact (h _ _ ⟨hv, v, h2, rfl⟩ ⟨hu, u, h1.symm hs, rfl⟩).symm

theorem tree_take (he : ∃ e, G.info[i]? = some e ∧ ¬ Conn (adjA G a i) e.v1 e.v2) (hT : NoCycle G a i) : NoCycle G a (i + 1) := by
  obtain ⟨e, he, hne⟩ := he
  intro b f hb hab hf hc
  have hsub : ∀ x y, adjX G a i (i + 1) x y → adjA G a i x y := by
    rintro x y ⟨c, h1, h2, h3⟩
    exact ⟨c, by omega, h3⟩
  by_cases hbi : b = i
  · subst hbi
    rw [he] at hf
    injection hf with hf
    subst hf
    exact hne (hc.mono hsub)
  · have hA : ∀ {x y}, Conn (adjX G a b i) x y → Conn (adjA G a i) x y := fun h => h.mono fun x y ⟨c, h1, _, h3⟩ => ⟨c, h1, h3⟩
    have hbj : Conn (adjA G a i) f.v1 f.v2 := .one ⟨b, by omega, hab, f, hf, .inl ⟨rfl, rfl⟩⟩
    have hc' : Conn (addE (adjX G a b i) e.v1 e.v2) f.v1 f.v2 := by
      refine hc.mono ?_
      rintro x y ⟨c, h1, h2, h3, hj⟩
      by_cases hci : c = i
      · subst hci
        exact .inr ((joins_get he).1 hj)
      · exact .inl ⟨c, by omega, h2, h3, hj⟩
    rcases conn_addE.1 hc' with h | ⟨h1, h2⟩ | ⟨h1, h2⟩
    · exact hT b f (by omega) hab hf h
    · exact hne ((hA h1).symm adjA_sym |>.trans (hbj.trans ((hA h2).symm adjA_sym)))
    · exact hne ((hA h2).trans ((hbj.symm adjA_sym).trans (hA h1)))

theorem tree_leave (h : a (G.info.length - i) ≠ 1) (hT : NoCycle G a i) : NoCycle G a (i + 1) := by
  intro b f hb hab hf hc
  have hbi : b ≠ i := by rintro rfl; exact h hab
  refine hT b f (by omega) hab hf (hc.mono ?_)
  rintro x y ⟨c, h1, h2, h3, hj⟩
  refine ⟨c, ?_, h2, h3, hj⟩
  have : c ≠ i := by rintro rfl; exact h h3
  omega

/-! ### vertices leave -/

theorem ends_shut {s d k : Nat} (h : Ends (world G A s) d k) : Shut A (s + d) (s + k) := by
  intro w hw
  rcases Nat.lt_or_ge w s with g | g
  · omega
  · have := h (w - s) (by show Conn A (s + k) (s + (w - s)); rw [show s + (w - s) = w by omega]; exact hw)
    omega

theorem shut_ends {s d k : Nat} (h : Shut A (s + d) (s + k)) : Ends (world G A s) d k := by
  intro l hl
  have := h _ hl
  omega

theorem plain_of {s k : Nat} (h : ∀ c, ¬ (world G A s).C c k) : Plain G A (s + k) :=
  fun w hw => Classical.byContradiction fun hc => h (G.color w) ⟨hc, w, hw, rfl⟩

theorem of_plain {s k : Nat} (h : Plain G A (s + k)) (c : Nat) : ¬ (world G A s).C c k := by
  rintro ⟨hc, w, hw, rfl⟩
  exact hc (h w hw)

theorem Plain.conn {u v : Nat} (h : Plain G A u) (hc : Conn A u v) : Plain G A v := fun w hw => h w (hc.trans hw)

theorem Shut.conn {s u v : Nat} (h : Shut A s u) (hc : Conn A u v) : Shut A s v := fun w hw => h w (hc.trans hw)

theorem touched_conn (hs : ∀ x y, A x y → A y x) {u v : Nat} (h : ∃ y, A u y) (hc : Conn A u v) : ∃ y, A v y := by
  rcases Conn.first (hc.symm hs) with rfl | h'
  · exact h
  · exact h'

theorem full_leave (hs : ∀ x y, A x y → A y x) {s d : Nat} (hF : Full G A s) (hC : ColorOk (world G A s) d) : Full G A (s + d) := by
  intro u v hu hv hsh
  by_cases h : Shut A s u
  · exact hF u v hu hv h
  obtain ⟨w, hw⟩ := Classical.not_forall.1 h
  obtain ⟨hw, hws⟩ := Classical.not_imp.1 hw
  have hwd := hsh w hw
  have hk : s + (w - s) = w := by omega
  have hend : Ends (world G A s) d (w - s) := shut_ends (by rw [hk]; exact hsh.conn hw)
  have hck : (world G A s).C (G.color u) (w - s) := ⟨hu, u, by rw [hk]; exact hw.symm hs, rfl⟩
  have key : ∀ x, s ≤ x → Conn A x v → Conn A u v := by
    intro x hx hxv
    have := hC (w - s) (by omega) hend _ hck (x - s) ⟨hu, v, by rw [show s + (x - s) = x by omega]; exact hxv, hv⟩
    have : Conn A w x := by
      have h' : Conn A (s + (w - s)) (s + (x - s)) := this
      rwa [hk, show s + (x - s) = x by omega] at h'
    exact hw.trans (this.trans hxv)
  by_cases hv' : Shut A s v
  · have := hv' w ((hF v u (by omega) hv.symm hv').trans hw)
    omega
  · obtain ⟨x, hx⟩ := Classical.not_forall.1 hv'
    obtain ⟨hx, hxs⟩ := Classical.not_imp.1 hx
    exact key x (by omega) (hx.symm hs)

theorem reps_leave (hs : ∀ x y, A x y → A y x) {s d n : Nat} {reps : List Nat} (hR : Reps G A s reps) (hC : Close (world G A s) d n) :
    ∃ reps', reps'.length = reps.length + n ∧ Reps G A (s + d) reps' := by
  obtain ⟨L, hn, hp, hm, ha⟩ := hC
  refine ⟨reps ++ L.map (s + ·), by rw [List.length_append, List.length_map, hn], ?_, ?_, ?_⟩
  · rw [List.pairwise_append]
    refine ⟨hR.diff, ?_, ?_⟩
    · rw [List.pairwise_map]; exact hp
    · intro r hr x hx hc
      rw [List.mem_map] at hx
      obtain ⟨k, _, rfl⟩ := hx
      have := (hR.each r hr).2.2 _ hc
      omega
  · intro r hr
    rw [List.mem_append, List.mem_map] at hr
    rcases hr with hr | ⟨k, hk, rfl⟩
    · obtain ⟨h1, h2, h3⟩ := hR.each r hr
      exact ⟨h1, h2, fun w hw => by have := h3 w hw; omega⟩
    · obtain ⟨h1, h2, h3, h4⟩ := hm k hk
      exact ⟨h4, plain_of h3, ends_shut h2⟩
  · intro u hu hpl hsh
    by_cases h : Shut A s u
    · obtain ⟨r, hr, hc⟩ := hR.all u hu hpl h
      exact ⟨r, List.mem_append_left _ hr, hc⟩
    obtain ⟨w, hw⟩ := Classical.not_forall.1 h
    obtain ⟨hw, hws⟩ := Classical.not_imp.1 hw
    have hwd := hsh w hw
    have hk : s + (w - s) = w := by omega
    obtain ⟨j, hj, hjk⟩ := ha (w - s) (by omega) (shut_ends (by rw [hk]; exact hsh.conn hw)) (of_plain (by rw [hk]; exact hpl.conn hw))
      (by show ∃ y, A (s + (w - s)) y; rw [hk]; exact touched_conn hs hu hw)
    refine ⟨s + j, List.mem_append_right _ (List.mem_map_of_mem hj), ?_⟩
    have h' : Conn A (s + j) (s + (w - s)) := hjk
    rw [hk] at h'
    exact h'.trans (hw.symm hs)

/-- vertices leave properly -/
theorem part_pass (hs : ∀ x y, A x y → A y x) {noLoop : Bool} {numUEC : Int} {s d : Nat} {uec u : Int} (hP : Part G noLoop numUEC a i A s uec) (h : Passes (world G A s) d uec u) :
    Part G noLoop numUEC a i A (s + d) u := by
  obtain ⟨hC, n, hn, hd⟩ := h
  refine ⟨hP.one, full_leave hs hP.full hC, hP.tree, ?_⟩
  rcases hP.count with ⟨h1, h2⟩ | ⟨h1, reps, h2, h3⟩
  · unfold Dec at hd
    left
    omega
  · obtain ⟨reps', h4, h5⟩ := reps_leave hs h3 hn
    unfold Dec at hd
    right
    exact ⟨by omega, reps', by omega, h5⟩

/-- vertices leave, but not properly -/
theorem part_fail (hH : Sp.Hyp G) (hi : i ≤ G.info.length) {noLoop : Bool} {numUEC : Int} {s d : Nat} (hsd : s + d = st G i) {uec : Int}
    (hP : (numUEC < 0 ∧ uec = numUEC) ∨ (0 ≤ uec ∧ ∃ reps, (reps.length : Int) + uec = numUEC ∧ Reps G (adjA G a i) s reps)) (h : Fails (world G (adjA G a i) s) d uec) : ¬ Valid G noLoop numUEC a := by
  intro hV
  rcases h with h | ⟨n, hn, h0, hlt⟩
  · apply h
    intro k hk hend c hck l hcl
    obtain ⟨hc0, u, hu, hcu⟩ := hck
    obtain ⟨_, v, hv, hcv⟩ := hcl
    have hsh := ends_shut hend
    rw [hsd] at hsh
    have := (hV.color u v (by omega) (by omega)).2 (by omega)
    have := shut_final hH (hsh.conn hu) this
    exact hu.trans (this.trans (hv.symm adjA_sym))
  · rcases hP with ⟨h1, h2⟩ | ⟨h1, reps, h2, h3⟩
    · omega
    obtain ⟨reps', h4, h5⟩ := reps_leave adjA_sym h3 hn
    rw [hsd] at h5
    rcases hV.count with h | ⟨R, hR1, hR2, hR3, hR4⟩
    · omega
    have := pigeon adjA_sym reps' R (A := adjA G a G.info.length) (h5.diff.imp_of_mem fun {r r'} hr _ h hc => h (shut_final hH (h5.each r hr).2.2 hc)) fun x hx => by
      obtain ⟨⟨y, hy⟩, g2, g3⟩ := h5.each x hx
      exact hR4 x ⟨y, Sp.adjA_mono hi hy⟩ fun w hw => g2 w (shut_final hH g3 hw)
    omega

/-- the end -/
theorem part_end (hH : Sp.Hyp G) {noLoop : Bool} {numUEC : Int} {uec : Int} (hP : Part G noLoop numUEC a G.info.length (adjA G a G.info.length) (G.vMax + 1) uec) :
    (uec ≤ 0 → Valid G noLoop numUEC a) ∧ (0 < uec → ¬ Valid G noLoop numUEC a) := by
  have hcr : ∀ u, G.color u ≠ 0 → u ≤ G.vMax := by
    intro u hu
    apply Classical.byContradiction
    intro hn
    exact hu (hH.ok.color_out u (.inr (by omega)))
  have htr : ∀ u, (∃ y, adjA G a G.info.length u y) → u ≤ G.vMax := fun u ⟨y, hy⟩ => (adjA_upto.range hH hy).2
  refine ⟨fun hu => ⟨fun u v h1 h2 => ⟨fun h => hP.one u v h h1 h2, fun h => hP.full u v h1 h.symm (shut_all hH adjA_upto (hcr u h1))⟩, hP.tree, ?_⟩, fun hu hV => ?_⟩
  · rcases hP.count with ⟨h1, h2⟩ | ⟨h1, reps, h2, h3⟩
    · exact .inl h1
    · exact .inr ⟨reps, by omega, h3.diff, fun r hr => ⟨(h3.each r hr).1, (h3.each r hr).2.1⟩, fun u g1 g2 => h3.all u g1 g2 (shut_all hH adjA_upto (htr u g1))⟩
  · rcases hP.count with ⟨h1, h2⟩ | ⟨h1, reps, h2, h3⟩
    · omega
    rcases hV.count with h | ⟨R, hR1, hR2, hR3, hR4⟩
    · omega
    have := pigeon adjA_sym R reps hR2 fun x hx => h3.all x (hR3 x hx).1 (hR3 x hx).2 (shut_all hH adjA_upto (htr x (hR3 x hx).1))
    omega

/-! ### one edge -/

variable {noLoop : Bool} {numUEC uec : Int} {m : List Mt}

/-- what is known about a state before edge `i`, whatever the chosen edges are -/
structure Base (G : Graph) (i : Nat) (A : Nat → Nat → Prop) (uec : Int) (m : List Mt) : Prop where
  upto : Upto G A i
  one : OneColor G A
  enc : Enc (world G A (st G i)) (sz G) m
  big : uec ≤ 32767

theorem index_eq (hH : Sp.Hyp G) {e : EdgeInfo} (he : G.info[i]? = some e) : e.v0 + (e.v1 - e.v0) = e.v1 ∧ e.v0 + (e.v2 - e.v0) = e.v2 ∧ e.v2 - e.v0 < G.vMax + 1 - e.v0 ∧ e.v2 - e.v0 < sz G := by
  have := edge_lt hH he
  have := Sp.win2 hH he
  omega

/-- `update` -/
theorem next_base (hH : Sp.Hyp G) (hv : G.vMax ≤ 32766) {e f : EdgeInfo} (he : G.info[i]? = some e) (hf : G.info[i + 1]? = some f) (hA : Upto G A i) (hO : OneColor G A) (hb : uec ≤ 32767)
    (hE : Enc (world G A e.v0) (sz G) m) : ∃ m', fbUpdate G m e f = some m' ∧ Base G (i + 1) A uec m' := by
  have hlv := leave_edge hH he
  rw [st_some he, st_some hf] at hlv
  have hle : e.v0 ≤ f.v0 := by
    rcases hlv with ⟨_, _, h⟩ | ⟨_, _, _, h⟩ | ⟨_, _, _, _, h⟩ <;> omega
  obtain ⟨i1, i2, i3, i4⟩ := index_eq hH he
  have := edge_lt hH he
  obtain ⟨m', h1, h2⟩ := update_ok (law hH hv he hA hO) hE hlv i3 (by omega) i4 (by have := edge_lt hH hf; omega) (init_out hH hv he hA)
  refine ⟨m', h1, ⟨hA.sym, fun x y hxy => ?_⟩, hO, ?_, hb⟩
  · obtain ⟨b, hb, hj⟩ := hA.sub x y hxy
    exact ⟨b, by omega, hj⟩
  · rw [st_some hf]
    exact h2.same (same_shift hle)

theorem upto_addE (hA : Upto G A i) {e : EdgeInfo} (he : G.info[i]? = some e) : Upto G (addE A e.v1 e.v2) i where
  sym := by
    rintro x y (h | h | h)
    · exact .inl (hA.sym _ _ h)
    · exact .inr (.inr ⟨h.2, h.1⟩)
    · exact .inr (.inl ⟨h.2, h.1⟩)
  sub := by
    rintro x y (h | h)
    · exact hA.sub x y h
    · exact ⟨i, Nat.le_refl _, (joins_get he).2 h⟩

/-- `takable` and `doTake` -/
theorem take_base (hH : Sp.Hyp G) (hv : G.vMax ≤ 32766) {e : EdgeInfo} (he : G.info[i]? = some e) (hB : Base G i A uec m) (noLoop : Bool) :
    ∃ r, fbTakable noLoop uec m e = some (r.bind (fbFinal e)) ∧
      (∀ u, r = some u → u ≤ 32767 ∧ (noLoop = true → ¬ Conn A e.v1 e.v2) ∧ OneColor G (addE A e.v1 e.v2) ∧ Passes (world G (addE A e.v1 e.v2) (st G i)) (st G (i + 1) - st G i) uec u ∧
        ∃ m', fbMerge m ((e.v1 : Int) - e.v0) ((e.v2 : Int) - e.v0) = some m' ∧ Enc (world G (addE A e.v1 e.v2) e.v0) (sz G) m') ∧
      (r = none → (noLoop = true ∧ Conn A e.v1 e.v2) ∨ ¬ OneColor G (addE A e.v1 e.v2) ∨ (OneColor G (addE A e.v1 e.v2) ∧ Fails (world G (addE A e.v1 e.v2) (st G i)) (st G (i + 1) - st G i) uec)) := by
  obtain ⟨i1, i2, i3, i4⟩ := index_eq hH he
  have hlt := edge_lt hH he
  have hlv := leave_edge hH he
  have hE := hB.enc
  rw [st_some he] at hE hlv ⊢
  have hW := law hH hv he hB.upto hB.one
  have hsame := same_merge (G := G) (A := A) (s := e.v0) (a := e.v1 - e.v0) (b := e.v2 - e.v0)
  rw [i1, i2] at hsame
  have hone : (∀ c c', (world G A e.v0).C c (e.v1 - e.v0) → (world G A e.v0).C c' (e.v2 - e.v0) → c = c') → OneColor G (addE A e.v1 e.v2) := by
    intro h
    have := oneColor_addE hB.upto.sym hB.one h
    rwa [i1, i2] at this
  have hlaw : (∀ c c', (world G A e.v0).C c (e.v1 - e.v0) → (world G A e.v0).C c' (e.v2 - e.v0) → c = c') → Law ((world G A e.v0).merge (e.v1 - e.v0) (e.v2 - e.v0)) (sz G) := by
    intro h
    have hL := law hH hv he (upto_addE hB.upto he) (hone h)
    refine ⟨fun k => ?_, fun k l => ?_, fun k l j => ?_, fun k l => ?_, fun c k => ?_, fun c k l => ?_, fun c c' k => ?_, fun k l => ?_, hL.small, hL.size⟩
    · rw [← hsame.R]; exact hL.refl k
    · rw [← hsame.R, ← hsame.R]; exact hL.symm k l
    · rw [← hsame.R, ← hsame.R, ← hsame.R]; exact hL.trans k l j
    · rw [← hsame.R, ← hsame.E]; exact hL.win k l
    · rw [← hsame.C]; exact hL.cin c k
    · rw [← hsame.R, ← hsame.C, ← hsame.C]; exact hL.cc c k l
    · rw [← hsame.C, ← hsame.C]; exact hL.uniq c c' k
    · rw [← hsame.R, ← hsame.E, ← hsame.E]; exact hL.ec k l
  have hco : ∀ d, ColorOk (world G (addE A e.v1 e.v2) e.v0) d ↔ ColorOk ((world G A e.v0).merge (e.v1 - e.v0) (e.v2 - e.v0)) d := by
    intro d
    unfold ColorOk Ends
    simp only [hsame.R, hsame.C]
  have hcl : ∀ d n, Close (world G (addE A e.v1 e.v2) e.v0) d n ↔ Close ((world G A e.v0).merge (e.v1 - e.v0) (e.v2 - e.v0)) d n := by
    intro d n
    unfold Close Ends
    simp only [hsame.R, hsame.C, hsame.E]
  have hR : (world G A e.v0).R (e.v1 - e.v0) (e.v2 - e.v0) ↔ Conn A e.v1 e.v2 := by
    show Conn A (e.v0 + (e.v1 - e.v0)) (e.v0 + (e.v2 - e.v0)) ↔ _
    rw [i1, i2]
  obtain ⟨r, hr, hp, hq⟩ := take_ok hW hE rfl hlv hlt.2.2.1 hlt.2.1 i3 i4 hlaw noLoop hB.big
  refine ⟨r, takable_eq _ _ _ _ hr, fun u hu => ?_, fun hn => ?_⟩
  · obtain ⟨p1, p2, p3⟩ := hp u hu
    obtain ⟨m', hm, hm'⟩ := merge_ok hW hE (a := e.v1 - e.v0) (b := e.v2 - e.v0) (by omega) (show e.v1 - e.v0 < G.vMax + 1 - e.v0 by omega) (by omega) i3 i4 p2
    refine ⟨?_, fun h hc => p1 h (hR.2 hc), hone p2, ?_, m', ?_, hm'.same hsame⟩
    · obtain ⟨_, n, _, hd⟩ := p3
      have := hB.big
      unfold Dec at hd; omega
    · unfold Passes
      rw [hco]
      obtain ⟨q1, n, q2, q3⟩ := p3
      exact ⟨q1, n, (hcl _ _).2 q2, q3⟩
    · rw [← hm]; congr 1 <;> omega
  · rcases hq hn with ⟨h1, h2⟩ | ⟨c, c', h1, h2, h3⟩ | h
    · exact .inl ⟨h1, hR.1 h2⟩
    · refine .inr (.inl fun hO => ?_)
      obtain ⟨c0, u, hu, rfl⟩ := h1
      obtain ⟨c0', u', hu', rfl⟩ := h2
      rw [i1] at hu
      rw [i2] at hu'
      exact h3 (hO u u' (conn_addE.2 (.inr (.inl ⟨hu.symm hB.upto.sym, hu'⟩))) c0 c0')
    · by_cases hO : OneColor G (addE A e.v1 e.v2)
      · refine .inr (.inr ⟨hO, ?_⟩)
        rcases h with h | ⟨n, h1, h2⟩
        · exact .inl (fun h' => h ((hco _).1 h'))
        · exact .inr ⟨n, (hcl _ _).2 h1, h2⟩
      · exact .inr (.inl hO)

/-- `doNotTake` -/
theorem leave_base (hH : Sp.Hyp G) (hv : G.vMax ≤ 32766) {e : EdgeInfo} (he : G.info[i]? = some e) (hB : Base G i A uec m) :
    ∃ r, fbNotTake uec m e = some (r.bind (fbFinal e)) ∧ (∀ u, r = some u → u ≤ 32767 ∧ Passes (world G A (st G i)) (st G (i + 1) - st G i) uec u) ∧
      (r = none → Fails (world G A (st G i)) (st G (i + 1) - st G i) uec) := by
  obtain ⟨i1, i2, i3, i4⟩ := index_eq hH he
  have hlt := edge_lt hH he
  have hlv := leave_edge hH he
  have hE := hB.enc
  rw [st_some he] at hE hlv ⊢
  obtain ⟨r, hr, hp, hq⟩ := leave_ok (law hH hv he hB.upto hB.one) hE rfl hlv hlt.2.2.1 hlt.2.1 i3 i4 hB.big
  refine ⟨r, notTake_eq _ _ _ hr, fun u hu => ⟨?_, hp u hu⟩, hq⟩
  obtain ⟨_, n, _, hd⟩ := hp u hu
  have := hB.big
  unfold Dec at hd; omega

end TdZdd.Fb
