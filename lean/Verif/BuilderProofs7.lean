import Verif.BuilderProofs6

/-! Builder proof, part 7: from the final state of the builder to the finished diagram. -/

namespace TdZdd

variable {N : Nat} {S : Type} {sp : DdSpec N S}

/-- Edge `v` of a diagram whose non-terminal nodes carry states `lab` represents the level code
and state `w`. -/
def Edge (sp : DdSpec N S) (lab : NodeId → Option S) (v : NodeId) (w : Int × S) : Prop :=
  (v = .zero ∧ (NoMerge sp → ∀ p, ¬ Accepts sp w.1 w.2 p)) ∨
  (v = .one ∧ w.1 < 0) ∨
  (0 < v.row ∧ w.1 = (v.row : Int) ∧ ∃ g, lab v = some g ∧ sp.eqv v.row g w.2 = true ∧
    ∀ p, Accepts sp (v.row : Int) w.2 p ↔ Accepts sp (v.row : Int) g p)

/-- A diagram whose nodes carry reachable states of a specification, with matching edges. -/
structure Sim (sp : DdSpec N S) (D : Dd N) (lab : NodeId → Option S) : Prop where
  root : Edge sp lab D.root sp.root
  node : ∀ {f nd}, 0 < f.row → D.table.node? f = some nd → ∃ s, lab f = some s ∧
    Reach sp (f.row : Int) s ∧ ∀ b, Edge sp lab (nd b) (sp.child s f.row b)
  lab_node : ∀ {f s}, lab f = some s → 0 < f.row ∧ ∃ nd, D.table.node? f = some nd
  uniq : NoMerge sp → ∀ {f f' s s'}, lab f = some s → lab f' = some s' → f.row = f'.row →
    sp.eqv f.row s s' = true → f = f'

variable {D : Dd N} {lab : NodeId → Option S}

theorem Edge.valid (h : Sim sp D lab) {v : NodeId} {w : Int × S} (he : Edge sp lab v w) :
    D.table.Valid v := by
  rcases he with ⟨h1, _⟩ | ⟨h1, _⟩ | ⟨h1, _, g, h2, _⟩
  · exact .inl h1
  · exact .inr (.inl h1)
  · exact .inr (.inr ⟨h1, (h.lab_node h2).2⟩)

theorem Edge.row_lt (hd : Desc sp) {r : Nat} {s : S} (b : Fin N) (hr : 0 < r)
    (hreach : Reach sp (r : Int) s) {v : NodeId} (he : Edge sp lab v (sp.child s r b)) : v.row < r := by
  have := hd.child_lt b hr hreach
  rcases he with ⟨h1, _⟩ | ⟨h1, _⟩ | ⟨h1, h2, _⟩
  · rw [h1]; exact hr
  · rw [h1]; exact hr
  · omega

theorem Sim.wf (hd : Desc sp) (h : Sim sp D lab) : D.Wf := by
  refine ⟨?_, h.root.valid h⟩
  intro r c nd hr hnd b
  obtain ⟨s, _, hreach, he⟩ := h.node (f := ⟨r, c⟩) hr hnd
  exact ⟨(he b).valid h, (he b).row_lt hd b hr hreach⟩

theorem rootCode_eq {T : Table N} {f : NodeId} (h : T.Valid f) : rootCode f = childCode f := by
  rcases h with rfl | rfl | ⟨h, _⟩
  · rfl
  · rfl
  · unfold rootCode childCode
    rw [if_neg, if_pos h]
    intro he; rw [he] at h; simp [NodeId.one] at h

theorem childCode_pos {f : NodeId} (h : 0 < f.row) : childCode f = (f.row : Int) := by
  unfold childCode; rw [if_pos h]

theorem Dd.child_eq {f : NodeId} {nd : Node N} (hf : 0 < f.row) (hnd : D.table.node? f = some nd)
    (b : Fin N) : D.spec.child f f.row b = (childCode (nd b), nd b) := by
  simp only [Dd.spec]
  rw [if_neg (by simp [hf])]
  rw [hnd]

/-- one step in a diagram -/
theorem dd_accepts_pos {f : NodeId} {nd : Node N} (hf : 0 < f.row) (hnd : D.table.node? f = some nd)
    {p : Path N} : Accepts D.spec (childCode f) f p ↔
      ∃ b q, p = (f.row, b) :: q ∧ Accepts D.spec (childCode (nd b)) (nd b) q := by
  rw [childCode_pos hf, accepts_pos hf]
  simp only [Dd.child_eq hf hnd]

theorem dd_accepts_zero {p : Path N} : ¬ Accepts D.spec (childCode .zero) .zero p :=
  not_accepts_zero (sp := D.spec)

theorem dd_accepts_one {p : Path N} : Accepts D.spec (childCode .one) .one p ↔ p = [] :=
  accepts_neg (by decide)

/-- every accepted path of the diagram is accepted by the specification -/
theorem Edge.sub (h : Sim sp D lab) : ∀ (p : Path N) {v : NodeId} {w : Int × S},
    Edge sp lab v w → Accepts D.spec (childCode v) v p → Accepts sp w.1 w.2 p := by
  intro p
  induction p with
  | nil =>
    intro v w he hp
    rcases he with ⟨rfl, _⟩ | ⟨rfl, hneg⟩ | ⟨h1, h2, g, h3, _, hacc⟩
    · exact absurd hp dd_accepts_zero
    · exact .one hneg
    · obtain ⟨nd, hnd⟩ := (h.lab_node h3).2
      rw [dd_accepts_pos h1 hnd] at hp
      obtain ⟨_, _, hp, _⟩ := hp
      cases hp
  | cons x p ih =>
    intro v w he hp
    rcases he with ⟨rfl, _⟩ | ⟨rfl, hneg⟩ | ⟨h1, h2, g, h3, _, hacc⟩
    · exact absurd hp dd_accepts_zero
    · rw [dd_accepts_one] at hp; cases hp
    · obtain ⟨nd, hnd⟩ := (h.lab_node h3).2
      rw [dd_accepts_pos h1 hnd] at hp
      obtain ⟨b, q, hq, hp⟩ := hp
      cases hq
      obtain ⟨s, hs, _, hed⟩ := h.node h1 hnd
      rw [h3] at hs
      cases hs
      rw [h2, hacc]
      exact .step h1 (ih (hed b) hp)

/-- without pruning every accepted path of the specification is accepted by the diagram -/
theorem Edge.sup (h : Sim sp D lab) (hm : NoMerge sp) : ∀ (p : Path N) {v : NodeId} {w : Int × S},
    Edge sp lab v w → Accepts sp w.1 w.2 p → Accepts D.spec (childCode v) v p := by
  intro p
  induction p with
  | nil =>
    intro v w he hp
    rcases he with ⟨rfl, hna⟩ | ⟨rfl, hneg⟩ | ⟨h1, h2, g, h3, _, hacc⟩
    · exact absurd hp (hna hm _)
    · rw [dd_accepts_one]
    · rw [h2, accepts_pos h1] at hp
      obtain ⟨_, _, hp, _⟩ := hp
      cases hp
  | cons x p ih =>
    intro v w he hp
    rcases he with ⟨rfl, hna⟩ | ⟨rfl, hneg⟩ | ⟨h1, h2, g, h3, _, hacc⟩
    · exact absurd hp (hna hm _)
    · rw [accepts_neg hneg] at hp; cases hp
    · obtain ⟨nd, hnd⟩ := (h.lab_node h3).2
      rw [h2, hacc, accepts_pos h1] at hp
      obtain ⟨b, q, hq, hp⟩ := hp
      cases hq
      obtain ⟨s, hs, _, hed⟩ := h.node h1 hnd
      rw [h3] at hs
      cases hs
      rw [dd_accepts_pos h1 hnd]
      exact ⟨b, p, rfl, ih (hed b) hp⟩

theorem Sim.sub (h : Sim sp D lab) {p : Path N}
    (hp : Accepts D.spec D.spec.root.1 D.spec.root.2 p) : Accepts sp sp.root.1 sp.root.2 p := by
  have e : D.spec.root = (childCode D.root, D.root) := by
    simp only [Dd.spec]; rw [rootCode_eq (h.root.valid h)]
  rw [e] at hp
  exact h.root.sub h p hp

theorem Sim.sup (h : Sim sp D lab) (hm : NoMerge sp) {p : Path N}
    (hp : Accepts sp sp.root.1 sp.root.2 p) : Accepts D.spec D.spec.root.1 D.spec.root.2 p := by
  have e : D.spec.root = (childCode D.root, D.root) := by
    simp only [Dd.spec]; rw [rootCode_eq (h.root.valid h)]
  rw [e]
  exact h.root.sup h hm p hp

/-- without pruning every reachable state that accepts something has a node -/
theorem Sim.cover (hl : LawfulC sp) (hm : NoMerge sp) (h : Sim sp D lab) {l : Int} {s : S}
    (hr : Reach sp l s) : ∀ {n : Nat}, l = n → 0 < n → (∃ p, Accepts sp l s p) →
    ∃ f g, f.row = n ∧ lab f = some g ∧ sp.eqv n g s = true := by
  induction hr with
  | root =>
    intro n hn hpos ⟨p, hp⟩
    rcases h.root with ⟨_, h2⟩ | ⟨_, h2⟩ | ⟨h1, h2, g, h3, h4, _⟩
    · exact absurd hp (h2 hm p)
    · omega
    · have : D.root.row = n := Int.ofNat.inj (h2.symm.trans hn)
      exact ⟨D.root, g, this, h3, this ▸ h4⟩
  | @step m t b hpos ht ih =>
    intro n hn hnpos ⟨p, hp⟩
    obtain ⟨f, g, hf, hg, he⟩ := ih rfl hpos ⟨_, .step hpos hp⟩
    subst hf
    obtain ⟨_, nd, hnd⟩ := h.lab_node hg
    obtain ⟨g', hg', hreach, hed⟩ := h.node hpos hnd
    rw [hg] at hg'
    cases hg'
    obtain ⟨hc1, hc2⟩ := hl.congr b hpos hreach ht he
    have hce := hc2 n hnpos (hc1.trans hn)
    have hr1 : Reach sp (n : Int) (sp.child g f.row b).2 := by
      have := Reach.step b hpos hreach
      rwa [hc1, hn] at this
    have hr2 : Reach sp (n : Int) (sp.child t f.row b).2 := by
      have := Reach.step b hpos ht
      rwa [hn] at this
    have hacc : Accepts sp (sp.child g f.row b).1 (sp.child g f.row b).2 p := by
      rw [hc1, hn]
      rw [hn] at hp
      exact (hl.lawful.sound hnpos hr1 hr2 hce p).2 hp
    rcases hed b with ⟨_, h2⟩ | ⟨_, h2⟩ | ⟨h1, h2, g2, h3, h4, _⟩
    · exact absurd hacc (h2 hm p)
    · omega
    · have e : (nd b).row = n := Int.ofNat.inj (h2.symm.trans (hc1.trans hn))
      have hr3 : Reach sp (n : Int) g2 := by
        obtain ⟨_, nd2, hnd2⟩ := h.lab_node h3
        obtain ⟨g3, e3, hr, _⟩ := h.node h1 hnd2
        rw [h3] at e3; cases e3
        rwa [e] at hr
      exact ⟨nd b, g2, e, h3, hl.trans hnpos hr3 hr1 hr2 (e ▸ h4) hce⟩

/-! ### Reading off the final state -/

theorem allSome_some {nd : Fin N → Option NodeId} {n : Node N} (h : allSome nd = some n) :
    nd = fun b => some (n b) := by
  unfold allSome at h
  split at h
  · cases h; funext b; simp
  · cases h

theorem filterMap_get {l : List (Fin N → Option NodeId)} (h : ∀ nd ∈ l, (allSome nd).isSome)
    (c : Nat) : (l.filterMap allSome)[c]? = l[c]?.bind allSome := by
  induction l generalizing c with
  | nil => rfl
  | cons x l ih =>
    have hx := h x (by simp)
    cases hxs : allSome x with
    | none => rw [hxs] at hx; cases hx
    | some n =>
      rw [List.filterMap_cons_some hxs]
      cases c with
      | zero => simp [hxs]
      | succ c =>
        simp only [List.getElem?_cons_succ]
        exact ih (fun nd hnd => h nd (by simp [hnd])) c

variable {top : Nat} {G : Nat → List S} {st : BSt N S}

theorem Lv.no_pend (h : Lv sp top G st 1) {j : Nat} : st.pend j = [] := by
  cases hp : st.pend j with
  | nil => rfl
  | cons x l =>
    have hm : x ∈ st.pend j := by rw [hp]; simp
    have h1 := h.pend_lt hm
    obtain ⟨l, g, s⟩ := x
    have h2 := (h.inv.pd_ok hm).2.1
    omega

theorem Lv.full' (hd : Desc sp) (h : Lv sp top G st 1) {r c : Nat} {g : S} (hg : (G r)[c]? = some g) :
    ∃ nd : Node N, (st.row r)[c]? = some (fun b => some (nd b)) ∧
      ∀ b, Rep sp G st.pend (.cell r c b) (some (nd b)) (sp.child g r b) ∧
        (nd b).row < r ∧ (0 < (nd b).row → (nd b).col < (G (nd b).row).length) :=
  h.full hd hg (by intro j; rw [h.no_pend]; simp)

/-- the states of the nodes -/
def labOf (G : Nat → List S) (f : NodeId) : Option S := (G f.row)[f.col]?

theorem edge_of_rep {pd : Nat → List (Loc N × Nat × S)} {l : Loc N} {v : NodeId} {w : Int × S}
    (hr : Rep sp G pd l (some v) w) : Edge sp (labOf G) v w := by
  rcases hr with ⟨h1, h2⟩ | ⟨h1, h2⟩ | ⟨r, c, g, h1, h2, h3, h4, h5⟩ | ⟨h1, _⟩
  · exact .inl ⟨Option.some.inj h1, h2⟩
  · exact .inr (.inl ⟨Option.some.inj h1, h2⟩)
  · cases h1; exact .inr (.inr ⟨h2, h3, g, h4, h5⟩)
  · cases h1

theorem row0_eq (h : Lv sp top G st 1) :
    st.row 0 = [fun _ => some .zero, fun _ => some .one] := by
  have hg : ∀ c b, st.get (.cell 0 c b) = ((st.row 0)[c]?).map (· b) :=
    fun c b => get_cell h.numRows (Nat.zero_le _) c b
  obtain ⟨hl, h2⟩ := h.row0
  match hr : st.row 0, hl with
  | [a, b], _ =>
    congr 1
    · funext x
      have := (h2 x).1
      rw [hg, hr] at this
      simpa using this
    · congr 1
      funext x
      have := (h2 x).2
      rw [hg, hr] at this
      simpa using this

theorem finish_spec (hl : Lawful sp) (h : Lv sp top G st 1) :
    ∃ D, st.finish = some D ∧ Sim sp D (labOf G) ∧ D.table.numRows = top + 1 ∧
      D.table.row 0 = terminalRow N ∧ (∀ f, 0 < f.row → D.table.Valid f → D.Live f) ∧
      ((∃ p, Accepts sp sp.root.1 sp.root.2 p) →
        ∃ p, Accepts D.spec D.spec.root.1 D.spec.root.2 p) := by
  have hd := hl.toDesc
  obtain ⟨w, v, hw, hget, hrep⟩ := h.inv.rep h.inv.root_D
  simp only [want, Option.some.injEq] at hw
  subst hw
  simp only [BSt.get, Option.some.injEq] at hget
  obtain ⟨rt, rfl⟩ : ∃ rt, v = some rt := by
    cases v with
    | some rt => exact ⟨rt, rfl⟩
    | none =>
      rcases hrep with ⟨h1, _⟩ | ⟨h1, _⟩ | ⟨_, _, _, h1, _⟩ | ⟨_, j, g, _, _, hm⟩
      · cases h1
      · cases h1
      · cases h1
      · rw [h.no_pend] at hm; cases hm
  -- all rows are complete
  have hall : ∀ r, r < st.numRows → ∀ nd ∈ st.row r, (allSome nd).isSome := by
    intro r hr nd hnd
    by_cases hr0 : r = 0
    · subst hr0
      rw [row0_eq h] at hnd
      simp at hnd
      rcases hnd with rfl | rfl
      · rw [allSome_of (nv := fun _ => .zero) (fun _ => rfl)]; rfl
      · rw [allSome_of (nv := fun _ => .one) (fun _ => rfl)]; rfl
    · obtain ⟨c, hc⟩ := List.mem_iff_getElem?.1 hnd
      have hlt := getElem?_lt hc
      rw [h.len r (by omega)] at hlt
      obtain ⟨g, hg⟩ := getElem?_of_lt hlt
      obtain ⟨n, hn, _⟩ := h.full' hd hg
      rw [hc] at hn
      cases hn
      rw [allSome_of (nv := n) (fun _ => rfl)]; rfl
  have hfin : st.finish = some ⟨⟨st.numRows, fun r => (st.row r).filterMap allSome⟩, rt⟩ := by
    simp only [BSt.finish, hget]
    rw [if_pos hall]
  generalize hD : (⟨⟨st.numRows, fun r => (st.row r).filterMap allSome⟩, rt⟩ : Dd N) = D at hfin
  -- nodes of the result
  have hnode : ∀ f : NodeId, D.table.node? f =
      if f.row < top + 1 then ((st.row f.row)[f.col]?).bind allSome else none := by
    intro f
    subst hD
    simp only [Table.node?, h.numRows]
    split
    · rename_i hlt; rw [filterMap_get (hall f.row (by rw [h.numRows]; exact hlt))]
    · rfl
  have hnode' : ∀ {r c : Nat} {g : S}, (G r)[c]? = some g → ∃ nd, D.table.node? ⟨r, c⟩ = some nd ∧
      (∀ b, Edge sp (labOf G) (nd b) (sp.child g r b)) ∧ (st.row r)[c]? = some (fun b => some (nd b)) := by
    intro r c g hg
    obtain ⟨nd, h1, h2⟩ := h.full' hd hg
    refine ⟨nd, ?_, fun b => edge_of_rep (h2 b).1, h1⟩
    rw [hnode]
    have := (h.pos hg).2.1
    rw [if_pos (by simp only; omega), h1]
    simp only [Option.bind_some]
    exact allSome_of (fun _ => rfl)
  have hnodeG : ∀ {f : NodeId} {nd}, 0 < f.row → D.table.node? f = some nd → ∃ g, (G f.row)[f.col]? = some g := by
    intro f nd hf hnd
    rw [hnode] at hnd
    split at hnd
    · cases hc : (st.row f.row)[f.col]? with
      | none => rw [hc] at hnd; cases hnd
      | some x =>
        have := getElem?_lt hc
        rw [h.len _ hf] at this
        exact getElem?_of_lt this
    · cases hnd
  have hsim : Sim sp D (labOf G) := by
    refine ⟨?_, ?_, ?_, ?_⟩
    · have : D.root = rt := by subst hD; rfl
      rw [this]; exact edge_of_rep hrep
    · intro f nd hf hnd
      obtain ⟨g, hg⟩ := hnodeG hf hnd
      obtain ⟨nd', h1, h2, _⟩ := hnode' hg
      have : nd' = nd := Option.some.inj (h1.symm.trans hnd)
      subst this
      exact ⟨g, hg, (h.pos hg).2.2.2, h2⟩
    · intro f s hs
      obtain ⟨nd, h1, _⟩ := hnode' (show (G f.row)[f.col]? = some s from hs)
      exact ⟨(h.pos hs).1, nd, h1⟩
    · intro hm f f' s s' hs hs' hrow heq
      have hpw := h.inv.share hm f.row
      rw [List.pairwise_iff_getElem] at hpw
      have h1 : (G f.row)[f.col]? = some s := hs
      have h2 : (G f.row)[f'.col]? = some s' := by rw [hrow]; exact hs'
      obtain ⟨l1, e1⟩ := List.getElem?_eq_some_iff.1 h1
      obtain ⟨l2, e2⟩ := List.getElem?_eq_some_iff.1 h2
      have hp1 := h.pos h1
      have hp2 := h.pos h2
      rcases Nat.lt_trichotomy f.col f'.col with hlt | hlt | hlt
      · have := hpw _ _ l1 l2 hlt
        rw [e1, e2, heq] at this; cases this
      · cases f; cases f'; simp only at hrow hlt; subst hrow; subst hlt; rfl
      · have := hpw _ _ l2 l1 hlt
        rw [e1, e2, hl.symm hp1.1 hp1.2.2.2 hp2.2.2.2 heq] at this; cases this
  have hlive : ∀ f, 0 < f.row → D.table.Valid f → D.Live f := by
    suffices ∀ d (f : NodeId), top + 1 - f.row = d → 0 < f.row → D.table.Valid f → D.Live f from
      fun f => this _ f rfl
    intro d
    induction d using Nat.strongRecOn with
    | _ d ih =>
      intro f hfd hf hv
      obtain ⟨nd, hnd⟩ : ∃ nd, D.table.node? f = some nd := by
        rcases hv with rfl | rfl | ⟨_, hv⟩
        · simp [NodeId.zero] at hf
        · simp [NodeId.one] at hf
        · exact hv
      obtain ⟨g, hg⟩ := hnodeG hf hnd
      obtain ⟨l, hl1, hl2⟩ := h.inv.ref (getElem?_lt hg)
      cases l with
      | root =>
        simp only [BSt.get, hget, Option.some.injEq] at hl2
        have : D.root = f := by subst hD; exact hl2
        rw [← this]; exact .root
      | cell r2 c2 b2 =>
        obtain ⟨g2, hg2⟩ := getElem?_of_lt hl1.2
        have hp2 := h.pos hg2
        obtain ⟨nd2, h1, h2, h3⟩ := hnode' hg2
        rw [get_cell h.numRows hp2.2.1, h3] at hl2
        simp at hl2
        have hlt := (h2 b2).row_lt hd b2 hp2.1 hp2.2.2.2
        rw [hl2] at hlt
        have hp := h.pos hg
        have := Dd.Live.child b2 (ih (top + 1 - r2) (by simp only at hlt; omega) ⟨r2, c2⟩ rfl hp2.1
          (.inr (.inr ⟨hp2.1, nd2, h1⟩))) hp2.1 h1
        rw [hl2] at this
        exact this
  refine ⟨D, hfin, hsim, by subst hD; exact h.numRows, ?_, hlive, ?_⟩
  · subst hD
    simp only [row0_eq h]
    rw [List.filterMap_cons_some (b := fun _ => NodeId.zero) (allSome_of fun _ => rfl),
      List.filterMap_cons_some (b := fun _ => NodeId.one) (allSome_of fun _ => rfl)]
    rfl
  · intro hp
    -- there is an edge to the 1-terminal
    have hone : st.oneSrc ≠ [] := by
      rcases h.exi hp with hx | ⟨j, l, g, s, hm, _⟩
      · exact hx
      · rw [h.no_pend] at hm; cases hm
    obtain ⟨⟨r, c, b⟩, hx⟩ := List.exists_mem_of_ne_nil _ hone
    obtain ⟨h1, h2⟩ := h.ones hx
    simp only at h1 h2
    have hrt : r ≤ top := by
      simp only [BSt.get] at h2
      split at h2
      · have := h.numRows; omega
      · cases h2
    rw [get_cell h.numRows hrt] at h2
    have hlt : c < (G r).length := by
      rw [← h.len r h1]
      cases hc : (st.row r)[c]? with
      | none => rw [hc] at h2; cases h2
      | some _ => exact getElem?_lt hc
    obtain ⟨g, hg⟩ := getElem?_of_lt hlt
    obtain ⟨nd, e1, e2, e3⟩ := hnode' hg
    rw [e3] at h2
    simp at h2
    -- paths from the root to every live node
    have hpath : ∀ f, D.Live f → (∃ q, Accepts D.spec (childCode f) f q) →
        ∃ q, Accepts D.spec D.spec.root.1 D.spec.root.2 q := by
      intro f hf
      induction hf with
      | root =>
        have e : D.spec.root = (childCode D.root, D.root) := by
          simp only [Dd.spec]; rw [rootCode_eq (hsim.root.valid hsim)]
        rw [e]; exact id
      | child b _ hpos hnd ih =>
        rintro ⟨q, hq⟩
        exact ih ⟨_, (dd_accepts_pos hpos hnd).2 ⟨b, q, rfl, hq⟩⟩
    refine hpath ⟨r, c⟩ (hlive _ h1 (.inr (.inr ⟨h1, nd, e1⟩))) ⟨[(r, b)], ?_⟩
    refine (dd_accepts_pos (f := ⟨r, c⟩) h1 e1).2 ⟨b, [], rfl, ?_⟩
    rw [h2, dd_accepts_one]

/-- Main theorem about the builder. -/
theorem build_main (hl : Lawful sp) : ∃ D lab, build sp = some D ∧ Sim sp D lab ∧
    D.table.numRows = sp.root.1.toNat + 1 ∧ D.table.row 0 = terminalRow N ∧
    (∀ f, 0 < f.row → D.table.Valid f → D.Live f) ∧
    ((∃ p, Accepts sp sp.root.1 sp.root.2 p) →
        ∃ p, Accepts D.spec D.spec.root.1 D.spec.root.2 p) := by
  by_cases hroot : 0 < sp.root.1
  · obtain ⟨st, h1, G, h2⟩ := build_inv hl hroot
    obtain ⟨D, h3, h4⟩ := finish_spec hl h2
    refine ⟨D, labOf G, ?_, h4⟩
    unfold build
    rw [h1]; exact h3
  · have hn : sp.root.1.toNat = 0 := by omega
    refine ⟨⟨⟨1, fun r => if r = 0 then terminalRow N else []⟩,
              if sp.root.1 ≠ 0 then .one else .zero⟩, fun _ => none, ?_, ?_, by simp [hn], rfl, ?_, ?_⟩
    · unfold build
      rw [hn]
      show (initBuild sp).finish = _
      simp only [initBuild, if_pos (show sp.root.1 ≤ 0 by omega), BSt.finish]
      have hrow : ∀ r, ((if r = 0 then [fun _ => some NodeId.zero, fun _ => some NodeId.one] else []) :
          List (Fin N → Option NodeId)).filterMap allSome = if r = 0 then terminalRow N else [] := by
        intro r
        split
        · rw [List.filterMap_cons_some (b := fun _ => NodeId.zero) (allSome_of fun _ => rfl),
            List.filterMap_cons_some (b := fun _ => NodeId.one) (allSome_of fun _ => rfl)]
          rfl
        · rfl
      rw [if_pos]
      · simp only [hrow]
      · intro r hr nd hnd
        have : r = 0 := by omega
        subst this
        simp at hnd
        rcases hnd with rfl | rfl
        · rw [allSome_of (nv := fun _ => .zero) (fun _ => rfl)]; rfl
        · rw [allSome_of (nv := fun _ => .one) (fun _ => rfl)]; rfl
    · have hno : ∀ {f : NodeId} {nd}, 0 < f.row → ({ numRows := 1, row := fun r => if r = 0 then terminalRow N else [] } : Table N).node? f ≠ some nd := by
        intro f nd hf
        simp only [Table.node?]
        rw [if_neg (by omega)]; simp
      refine ⟨?_, fun hf hnd => absurd hnd (hno hf), by simp, by simp⟩
      by_cases h0 : sp.root.1 = 0
      · left
        simp only [h0, ne_eq, not_true_eq_false, if_false, true_and]
        exact fun _ p => not_accepts_zero
      · right; left
        simp only [ne_eq, h0, not_false_eq_true, if_true, true_and]
        omega
    · intro f hf hv
      rcases hv with rfl | rfl | ⟨_, nd, hv⟩
      · simp [NodeId.zero] at hf
      · simp [NodeId.one] at hf
      · simp only [Table.node?] at hv
        rw [if_neg (by omega)] at hv; cases hv
    · rintro ⟨p, hp⟩
      have h0 : sp.root.1 ≠ 0 := by intro h0; rw [h0] at hp; exact not_accepts_zero hp
      refine ⟨[], .one ?_⟩
      simp [Dd.spec, rootCode, h0]

end TdZdd
