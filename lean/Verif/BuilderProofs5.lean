import Verif.BuilderProofs4

/-! Builder proof, part 5: the sweep keeps the invariant. -/

namespace TdZdd

variable {N : Nat} {S : Type} {sp : DdSpec N S} {top lo k : Nat} {G : Nat → List S}
  {st : BSt N S}

/-- The locations in use when the rows from `lo` on are complete. -/
def Dom (lo : Nat) (G : Nat → List S) : Loc N → Prop
  | .root => True
  | .cell r c _ => lo ≤ r ∧ c < (G r).length

/-- Invariant between two levels: the rows from `lo` on are complete. -/
structure Lv (sp : DdSpec N S) (top : Nat) (G : Nat → List S) (st : BSt N S) (lo : Nat) : Prop where
  inv : Inv sp top G st st.pend (Dom lo G)
  empty : ∀ r, r < lo → G r = []
  len : ∀ r, 0 < r → (st.row r).length = (G r).length
  row0 : (st.row 0).length = 2 ∧ ∀ b, st.get (.cell 0 0 b) = some (some .zero) ∧
    st.get (.cell 0 1 b) = some (some .one)
  numRows : st.numRows = top + 1
  pend_lt : ∀ {j x}, x ∈ st.pend j → j < lo
  ones : ∀ {x}, x ∈ st.oneSrc → lo ≤ x.1 ∧ st.get (.cell x.1 x.2.1 x.2.2) = some (some .one)
  one : st.oneSrc ≠ [] → ∃ o, st.one = some o
  exi : (∃ p, Accepts sp sp.root.1 sp.root.2 p) → Ex sp st

theorem Lv.pos (h : Lv sp top G st lo) {r c : Nat} {g : S} (hg : (G r)[c]? = some g) :
    0 < r ∧ r ≤ top ∧ lo ≤ r ∧ Reach sp (r : Int) g := by
  have := h.inv.reach (mem_of_getElem?' hg)
  refine ⟨this.1, this.2.1, ?_, this.2.2⟩
  apply Nat.le_of_not_lt
  intro hlt
  rw [h.empty r hlt] at hg; simp at hg

theorem Lv.cell (h : Lv sp top G st lo) {r c : Nat} {g : S} (hg : (G r)[c]? = some g)
    (b : Fin N) : ∃ v, st.get (.cell r c b) = some v ∧
      Rep sp G st.pend (.cell r c b) v (sp.child g r b) := by
  obtain ⟨_, _, hlo, _⟩ := h.pos hg
  obtain ⟨w, v, h1, h2, h3⟩ := h.inv.rep (l := .cell r c b) ⟨hlo, getElem?_lt hg⟩
  simp [want, hg] at h1
  subst h1
  exact ⟨v, h2, h3⟩

theorem get_cell (h : st.numRows = top + 1) {r : Nat} (hr : r ≤ top) (c : Nat) (b : Fin N) :
    st.get (.cell r c b) = ((st.row r)[c]?).map (· b) := by
  simp only [BSt.get]; rw [if_pos (by omega)]

theorem sweepEdge_term {nid : Nat → List NodeId} {v : NodeId} (hk : 0 < k) (hv : v.row = 0) :
    sweepEdge k nid (some v) = some v := by
  simp only [sweepEdge]; rw [if_neg (by omega)]

/-- a row without pending cells is completely written -/
theorem Lv.full (hd : Desc sp) (h : Lv sp top G st lo) {r c : Nat} {g : S} (hg : (G r)[c]? = some g)
    (hp : ∀ {j c b g s}, (Loc.cell r c b, g, s) ∉ st.pend j) :
    ∃ nd : Node N, (st.row r)[c]? = some (fun b => some (nd b)) ∧
      ∀ b, Rep sp G st.pend (.cell r c b) (some (nd b)) (sp.child g r b) ∧
        (nd b).row < r ∧ (0 < (nd b).row → (nd b).col < (G (nd b).row).length) := by
  obtain ⟨h0, htop, hlo, hreach⟩ := h.pos hg
  have hlt : c < (st.row r).length := by rw [h.len r h0]; exact getElem?_lt hg
  obtain ⟨ndo, hndo⟩ := getElem?_of_lt hlt
  have hb : ∀ b, ∃ v, ndo b = some v ∧ Rep sp G st.pend (.cell r c b) (some v) (sp.child g r b) := by
    intro b
    obtain ⟨v, h1, h2⟩ := h.cell hg b
    rw [get_cell h.numRows htop, hndo] at h1
    simp at h1
    cases v with
    | none =>
      rcases h2 with ⟨h2, _⟩ | ⟨h2, _⟩ | ⟨_, _, _, h2, _⟩ | ⟨_, j, g', _, _, hm⟩
      · cases h2
      · cases h2
      · cases h2
      · exact absurd hm hp
    | some v => exact ⟨v, h1, h2⟩
  refine ⟨fun b => (hb b).choose, ?_, ?_⟩
  · rw [hndo]; congr 1; funext b; exact (hb b).choose_spec.1
  · intro b
    obtain ⟨_, h2⟩ := (hb b).choose_spec
    dsimp only
    generalize (hb b).choose = v at h2 ⊢
    refine ⟨h2, ?_⟩
    have hc := hd.child_lt b h0 hreach
    rcases h2 with ⟨h2, _⟩ | ⟨h2, _⟩ | ⟨r', c', g', h2, hr', hw, hg', _⟩ | ⟨h2, _⟩
    · cases h2; exact ⟨h0, fun h => absurd h (by simp [NodeId.zero])⟩
    · cases h2; exact ⟨h0, fun h => absurd h (by simp [NodeId.one])⟩
    · cases h2
      exact ⟨by simp only; omega, fun _ => getElem?_lt hg'⟩
    · cases h2

/-- nodes that the sweep removes accept nothing (unless there was pruning) -/
theorem sweep_dead (hd : Desc sp) (h : Lv sp top G st lo) (hk : 0 < k)
    (hpk : ∀ {r j c b g s}, (Loc.cell r c b, g, s) ∈ st.pend j → r < k)
    {st' : BSt N S} {nid : Nat → List NodeId} {G' : Nat → List S} {n : Nat}
    (hS : SweepRel k n st G st' nid G') (hn : k + n = top + 1) (hm : NoMerge sp) :
    ∀ (r c : Nat) g, k ≤ r → (G r)[c]? = some g → (nid r)[c]? = some .zero →
      ∀ p, ¬ Accepts sp (r : Int) g p := by
  intro r
  induction r using Nat.strongRecOn with
  | _ r ih =>
    intro c g hr hg hz p hp
    obtain ⟨h0, htop, hlo, hreach⟩ := h.pos hg
    obtain ⟨nd, nv, h1, h2, h3, h4⟩ := (hS.rel r hr (by omega)).fwd c g hg
    rcases h4 with ⟨_, hnv⟩ | ⟨c', h4, _⟩
    · rw [accepts_pos h0] at hp
      obtain ⟨b, q, rfl, hq⟩ := hp
      obtain ⟨nd', h5, h6⟩ := h.full hd hg (fun hm => by have := hpk hm; omega)
      have hnd : nd b = nd' b := by
        rw [h1] at h5
        have := congrFun (Option.some.inj h5) b
        exact Option.some.inj this
      obtain ⟨hrep, hrow, _⟩ := h6 b
      have he := h3 b
      rw [hnv b, hnd] at he
      rcases hrep with ⟨_, hna⟩ | ⟨hv, _⟩ | ⟨r', c', g', hv, hr', hw, hg', hacc⟩ | ⟨hv, _⟩
      · exact hna hm q hq
      · rw [Option.some.inj hv] at he
        rw [sweepEdge_term hk rfl] at he
        simp [NodeId.one, NodeId.zero] at he
      · have hv := Option.some.inj hv
        rw [hv] at he hrow
        simp only [sweepEdge] at he
        split at he
        · rw [hw, hacc.2 q] at hq
          exact ih r' hrow c' g' ‹_› hg' he q hq
        · simp [NodeId.zero] at he; omega
      · cases hv
    · rw [hz] at h4
      simp [NodeId.zero] at h4; omega

/-- redirecting an edge -/
theorem sweep_edge (hd : Desc sp) (h : Lv sp top G st lo) (hk : 0 < k)
    (hpk : ∀ {r j c b g s}, (Loc.cell r c b, g, s) ∈ st.pend j → r < k)
    {st' : BSt N S} {nid : Nat → List NodeId} {G' : Nat → List S} {n : Nat}
    (hS : SweepRel k n st G st' nid G') (hn : k + n = top + 1) {l l' : Loc N} {v v' : NodeId}
    {w : Int × S} (hv : Rep sp G st.pend l (some v) w) (he : sweepEdge k nid (some v) = some v') :
    Rep sp G' st.pend l' (some v') w := by
  rcases hv with ⟨hv, hna⟩ | ⟨hv, hneg⟩ | ⟨r, c, g, hv, hr, hw, hg, hacc⟩ | ⟨hv, _⟩
  · rw [Option.some.inj hv] at he
    rw [sweepEdge_term hk rfl] at he
    exact .inl ⟨he.symm, hna⟩
  · rw [Option.some.inj hv] at he
    rw [sweepEdge_term hk rfl] at he
    exact .inr (.inl ⟨he.symm, hneg⟩)
  · rw [Option.some.inj hv] at he
    simp only [sweepEdge] at he
    obtain ⟨h0, htop, hlo, hreach⟩ := h.pos hg
    split at he
    · rename_i hge
      obtain ⟨nd, nv, h1, h2, h3, h4⟩ := (hS.rel r hge (by omega)).fwd c g hg
      rcases h4 with ⟨h4, _⟩ | ⟨c', h4, h5, _⟩
      · rw [h4] at he
        refine .inl ⟨he.symm, ?_⟩
        intro hm p hp
        rw [hw, hacc.2 p] at hp
        exact sweep_dead hd h hk hpk hS hn hm r c g hge hg h4 p hp
      · rw [h4] at he
        exact .inr (.inr (.inl ⟨r, c', g, he.symm, hr, hw, h5, hacc⟩))
    · refine .inr (.inr (.inl ⟨r, c, g, he.symm, hr, hw, ?_, hacc⟩))
      rw [(hS.low r (.inl (by omega))).2]; exact hg
  · cases hv

/-- a node of which some edge remains nonzero survives -/
theorem sweep_live {st' : BSt N S} {nid : Nat → List NodeId} {G' : Nat → List S} {n : Nat}
    (hS : SweepRel k n st G st' nid G') {r c : Nat} {g : S} (hg : (G r)[c]? = some g)
    (hr : k ≤ r) (hrn : r < k + n) {b : Fin N} {v v' : NodeId}
    (hv : ((st.row r)[c]?).map (· b) = some (some v)) (he : sweepEdge k nid (some v) = some v')
    (hne : v' ≠ .zero) :
    ∃ c' : Nat, (nid r)[c]? = some ⟨r, c'⟩ ∧ (G' r)[c']? = some g ∧
      ((st'.row r)[c']?).map (· b) = some (some v') := by
  obtain ⟨nd, nv, h1, h2, h3, h4⟩ := (hS.rel r hr hrn).fwd c g hg
  rw [h1] at hv
  simp at hv
  have : nv b = v' := by
    have := h3 b
    rw [hv, he] at this
    exact (Option.some.inj this).symm
  rcases h4 with ⟨_, h4⟩ | ⟨c', h4, h5, h6⟩
  · exact absurd (this.symm.trans (h4 b)) hne
  · exact ⟨c', h4, h5, by rw [h6]; simp [this]⟩

theorem mapM_spec {α β : Type} {f : α → Option β} {P : β → Prop} (l : List α)
    (h : ∀ x ∈ l, ∃ y, f x = some y ∧ P y) :
    ∃ l', l.mapM f = some l' ∧ (∀ y ∈ l', P y) ∧ l'.length = l.length := by
  induction l with
  | nil => exact ⟨[], rfl, by simp, rfl⟩
  | cons x l ih =>
    obtain ⟨y, hy, hPy⟩ := h x (by simp)
    obtain ⟨l', hl', hP, hlen⟩ := ih (fun x hx => h x (by simp [hx]))
    refine ⟨y :: l', by rw [List.mapM_cons, hy, hl']; rfl, ?_, by simp [hlen]⟩
    intro z hz
    rcases List.mem_cons.1 hz with rfl | hz
    · exact hPy
    · exact hP z hz

theorem sweep_spec (hd : Desc sp) (h : Lv sp top G st lo) (hk : 0 < k) (hkt : k ≤ top)
    (hpk : ∀ {r j c b g s}, (Loc.cell r c b, g, s) ∈ st.pend j → r < k)
    {c0 : Nat} (hroot : st.root = some ⟨top, c0⟩) :
    ∃ st', sweep k st = some st' ∧ (∃ all, st'.sw = { st.sw with dead := upd st.sw.dead k 0, all := all }) ∧
      st'.pend = st.pend ∧ ∃ G', (∀ r, r < k → G' r = G r) ∧ Lv sp top G' st' lo := by
  have hn : k + (st.numRows - k) = top + 1 := by rw [h.numRows]; omega
  obtain ⟨p, hp1, G', hS⟩ := sweepRows (k := k) (n := st.numRows - k) st G
    (fun r hr => h.len r (by omega)) (by
      intro r hr hrn c g hg
      obtain ⟨nd, h1, h2⟩ := h.full hd hg (fun hm => by have := hpk hm; omega)
      exact ⟨nd, h1, fun b => (h2 b).2⟩) hk
  -- contents of the new rows
  have hrow0 : ∀ r, r < k → p.1.row r = st.row r ∧ G' r = G r := fun r hr => hS.low r (.inl hr)
  have hnr : p.1.numRows = top + 1 := hS.numRows.trans h.numRows
  -- recorded 1-edges
  obtain ⟨ones, hones, hP, hol⟩ := mapM_spec
    (P := fun y : Nat × Nat × Fin N => lo ≤ y.1 ∧ p.1.get (.cell y.1 y.2.1 y.2.2) = some (some .one))
    (f := sweepOne k p.2) p.1.oneSrc (by
    rintro ⟨r, c, b⟩ hx
    rw [hS.oneSrc] at hx
    obtain ⟨h1, h2⟩ := h.ones hx
    simp only at h1 h2
    simp only [sweepOne]
    have hrt : r ≤ top := by
      simp only [BSt.get] at h2
      split at h2
      · have := h.numRows; omega
      · cases h2
    rw [get_cell h.numRows hrt] at h2
    split
    · rename_i hr
      have hlt : c < (G r).length := by
        rw [← h.len r (by omega)]
        cases hc : (st.row r)[c]? with
        | none => rw [hc] at h2; cases h2
        | some _ => exact getElem?_lt hc
      obtain ⟨g, hg⟩ := getElem?_of_lt hlt
      obtain ⟨c', a1, a2, a3⟩ := sweep_live hS hg hr (by omega) h2
        (v' := .one) (sweepEdge_term hk rfl) (by simp [NodeId.one, NodeId.zero])
      refine ⟨(r, c', b), by rw [a1]; rfl, h1, ?_⟩
      rw [get_cell hnr hrt]; exact a3
    · rename_i hr
      refine ⟨_, rfl, h1, ?_⟩
      simp only
      rw [get_cell hnr hrt, (hrow0 r (by omega)).1]; exact h2)
  -- the root
  obtain ⟨w, v, hw, hget, hrep⟩ := h.inv.rep h.inv.root_D
  simp only [BSt.get, hroot, Option.some.injEq] at hget
  have hc0 : ∃ g, (G top)[c0]? = some g := by
    rw [← hget] at hrep
    rcases hrep with ⟨hv, _⟩ | ⟨hv, _⟩ | ⟨r, c, g, hv, _, _, hg, _⟩ | ⟨hv, _⟩
    · simp [NodeId.zero] at hv; omega
    · simp [NodeId.one] at hv; omega
    · simp at hv; rw [hv.1, hv.2]; exact ⟨g, hg⟩
    · cases hv
  obtain ⟨g0, hg0⟩ := hc0
  have hroot' : ∃ root', (p.2 top)[c0]? = some root' ∧
      (∀ c', root' = ⟨top, c'⟩ → (p.2 top)[c0]? = some ⟨top, c'⟩) ∧
      sweepEdge k p.2 (some ⟨top, c0⟩) = some root' := by
    obtain ⟨x, hx⟩ := getElem?_of_lt (show c0 < (p.2 top).length by
      rw [(hS.rel top hkt (by omega)).idlen]; exact getElem?_lt hg0)
    refine ⟨x, hx, fun c' he => he ▸ hx, ?_⟩
    simp only [sweepEdge]; rw [if_pos hkt]; exact hx
  obtain ⟨root', hr1, hr2, hr3⟩ := hroot'
  refine ⟨{ p.1 with oneSrc := ones, root := some root', sw := { p.1.sw with
      dead := upd p.1.sw.dead k 0,
      all := ({ p.1 with oneSrc := ones, root := some root' } : BSt N S).size } }, by
    simp only [sweep, hp1, Option.bind_some, hones, hS.root, hroot, hr1, Option.map_some],
    ⟨({ p.1 with oneSrc := ones, root := some root' } : BSt N S).size, by simp only [hS.sw]⟩, hS.pend, G', fun r hr => (hrow0 r hr).2, ?_⟩
  -- invariant of the new state
  generalize hst' : ({ p.1 with oneSrc := ones, root := some root' } : BSt N S) = st'
  have hgetc : ∀ r c b, st'.get (.cell r c b) = p.1.get (.cell r c b) := by
    intro r c b; subst hst'; rfl
  have hgetr : st'.get .root = some (some root') := by subst hst'; rfl
  have hlenG : ∀ r, 0 < r → (p.1.row r).length = (G' r).length := by
    intro r hr
    by_cases hrk : r < k
    · rw [(hrow0 r hrk).1, (hrow0 r hrk).2]; exact h.len r hr
    · by_cases hrn : r < k + (st.numRows - k)
      · exact (hS.rel r (by omega) hrn).len
      · have := hS.low r (.inr (by omega))
        rw [this.1, this.2]; exact h.len r hr
  have hsub : ∀ r, (G' r).Sublist (G r) := by
    intro r
    by_cases hrk : r < k
    · rw [(hrow0 r hrk).2]; exact List.Sublist.refl _
    · by_cases hrn : r < k + (st.numRows - k)
      · exact (hS.rel r (by omega) hrn).sub
      · rw [(hS.low r (.inr (by omega))).2]; exact List.Sublist.refl _
  have hreach : ∀ {r s}, s ∈ G' r → 0 < r ∧ r ≤ top ∧ Reach sp (r : Int) s :=
    fun {r s} hs => h.inv.reach ((hsub r).mem hs)
  have hpend : st'.pend = st.pend := by subst hst'; exact hS.pend
  have hgen : ∀ r, r < k → st'.gen r = st.gen r := by subst hst'; exact hS.gen
  have hnr' : st'.numRows = top + 1 := by subst hst'; exact hnr
  have hinv : Inv sp top G' st' st'.pend (Dom lo G') := by
    rw [hpend]
    refine ⟨trivial, ?_, ?_, h.inv.nodup, hreach, ?_, ?_⟩
    · intro l hl
      cases l with
      | root =>
        refine ⟨w, _, hw, hgetr, ?_⟩
        rw [← hget] at hrep
        exact sweep_edge hd h hk hpk hS hn hrep hr3
      | cell r c b =>
        obtain ⟨hlo, hlt⟩ := hl
        have hrt : r ≤ top := by
          obtain ⟨x, hx⟩ := getElem?_of_lt hlt
          exact (hreach (mem_of_getElem?' hx)).2.1
        by_cases hrk : r < k
        · rw [(hrow0 r hrk).2] at hlt
          obtain ⟨g, hg⟩ := getElem?_of_lt hlt
          obtain ⟨v, hv1, hv2⟩ := h.cell hg b
          refine ⟨sp.child g r b, v, by simp [want, (hrow0 r hrk).2, hg], ?_, ?_⟩
          · rw [hgetc, get_cell hnr hrt, (hrow0 r hrk).1, ← get_cell h.numRows hrt]; exact hv1
          · obtain ⟨h0, _, _, hrr⟩ := h.pos hg
            have hcl := hd.child_lt b h0 hrr
            rcases hv2 with hv | hv | ⟨r', c', g', hv, hr', hw', hg', hacc⟩ | hv
            · exact .inl hv
            · exact .inr (.inl hv)
            · refine .inr (.inr (.inl ⟨r', c', g', hv, hr', hw', ?_, hacc⟩))
              rw [(hrow0 r' (by omega)).2]; exact hg'
            · exact .inr (.inr (.inr hv))
        · have hrel := hS.rel r (by omega) (by omega)
          obtain ⟨c1, g, hg, hid⟩ := hrel.bwd c hlt
          obtain ⟨nd, nv, h1, h2, h3, h4⟩ := hrel.fwd c1 g hg
          obtain ⟨nd', h5, h6⟩ := h.full hd hg (fun hm => by have := hpk hm; omega)
          have hnd : nd b = nd' b := by
            rw [h1] at h5
            have := congrFun (Option.some.inj h5) b
            exact Option.some.inj this
          have h0 := (h.pos hg).1
          rcases h4 with ⟨h4, _⟩ | ⟨c', h4, h5', h6'⟩
          · rw [hid] at h4; simp [NodeId.zero] at h4; omega
          · rw [hid] at h4
            simp at h4
            subst h4
            refine ⟨sp.child g r b, some (nv b), by simp [want, h5'], ?_, ?_⟩
            · rw [hgetc, get_cell hnr hrt, h6']; rfl
            · refine sweep_edge hd h hk hpk hS hn (h6 b).1 ?_
              rw [← hnd]; exact h3 b
    · intro l g s j hx
      obtain ⟨a1, a2, a3, a4, a5⟩ := h.inv.pd_ok hx
      cases l with
      | root => simp only [BSt.get, hroot] at a3; cases a3
      | cell r c b =>
        have hrk := hpk hx
        refine ⟨?_, a2, ?_, ?_, ?_⟩
        · exact ⟨a1.1, by rw [(hrow0 r hrk).2]; exact a1.2⟩
        · have hrt : r ≤ top := by omega
          rw [hgetc, get_cell hnr hrt, (hrow0 r hrk).1, ← get_cell h.numRows hrt]; exact a3
        · simp only [want, (hrow0 r hrk).2]; exact a4
        · intro r' c' b' he
          cases he
          rw [hgen r hrk]; exact a5 r c b rfl
    · intro r c hc
      -- an old column of the node
      have hold : ∃ c1 : Nat, c1 < (G r).length ∧ (r < k → c1 = c) ∧
          sweepEdge k p.2 (some ⟨r, c1⟩) = some ⟨r, c⟩ := by
        by_cases hrk : r < k
        · refine ⟨c, by rw [← (hrow0 r hrk).2]; exact hc, fun _ => rfl, ?_⟩
          simp only [sweepEdge]; rw [if_neg (by omega)]
        · have hrt : r ≤ top := by
            obtain ⟨x, hx⟩ := getElem?_of_lt hc
            exact (hreach (mem_of_getElem?' hx)).2.1
          obtain ⟨c1, g, hg, hid⟩ := (hS.rel r (by omega) (by omega)).bwd c hc
          refine ⟨c1, getElem?_lt hg, fun h => absurd h hrk, ?_⟩
          simp only [sweepEdge]; rw [if_pos (by omega)]; exact hid
      have h0r : 0 < r := by
        obtain ⟨x, hx⟩ := getElem?_of_lt hc
        exact (hreach (mem_of_getElem?' hx)).1
      obtain ⟨c1, hc1, hck, hed⟩ := hold
      obtain ⟨l, hl1, hl2⟩ := h.inv.ref hc1
      cases l with
      | root =>
        simp only [BSt.get, hroot, Option.some.injEq, NodeId.mk.injEq] at hl2
        refine ⟨.root, trivial, ?_⟩
        rw [hgetr]
        rw [hl2.1, hl2.2, hed] at hr3
        rw [Option.some.inj hr3]
      | cell r2 c2 b2 =>
        obtain ⟨g2, hg2⟩ := getElem?_of_lt hl1.2
        obtain ⟨h02, hrt2, hlo2, hrr2⟩ := h.pos hg2
        have hrr : r < r2 := by
          obtain ⟨v, hv1, hv2⟩ := h.cell hg2 b2
          rw [hl2] at hv1
          cases hv1
          have hcl := hd.child_lt b2 h02 hrr2
          rcases hv2 with ⟨hv, _⟩ | ⟨hv, _⟩ | ⟨r', c', g', hv, hr', hw', hg', hacc⟩ | ⟨hv, _⟩
          · simp [NodeId.zero] at hv; omega
          · simp [NodeId.one] at hv; omega
          · simp at hv; omega
          · cases hv
        by_cases hrk2 : r2 < k
        · refine ⟨.cell r2 c2 b2, ⟨hlo2, by rw [(hrow0 r2 hrk2).2]; exact hl1.2⟩, ?_⟩
          rw [hgetc, get_cell hnr hrt2, (hrow0 r2 hrk2).1, ← get_cell h.numRows hrt2, hl2,
            hck (by omega)]
        · rw [get_cell h.numRows hrt2] at hl2
          obtain ⟨c2', a1, a2, a3⟩ := sweep_live hS hg2 (by omega) (by omega) hl2 hed
            (by simp [NodeId.zero]; omega)
          refine ⟨.cell r2 c2' b2, ⟨hlo2, getElem?_lt a2⟩, ?_⟩
          rw [hgetc, get_cell hnr hrt2]; exact a3
    · intro hm r
      exact (h.inv.share hm r).sublist (hsub r)
  have hfin : Lv sp top G' st' lo := by
    refine ⟨hinv, ?_, ?_, ?_, hnr', ?_, ?_, ?_, ?_⟩
    · intro r hr
      have := hsub r
      rw [h.empty r hr] at this
      exact List.sublist_nil.1 this
    · intro r hr; subst hst'; exact hlenG r hr
    · have e : p.1.row 0 = st.row 0 := (hrow0 0 hk).1
      have e' : ∀ c b, st'.get (.cell 0 c b) = st.get (.cell 0 c b) := by
        intro c b
        rw [hgetc, get_cell hnr (Nat.zero_le _), e, ← get_cell h.numRows (Nat.zero_le _)]
      refine ⟨by subst hst'; rw [← h.row0.1, ← e], fun b => ?_⟩
      rw [e', e']; exact h.row0.2 b
    · intro j x hx; rw [hpend] at hx; exact h.pend_lt hx
    · intro x hx
      rw [hgetc]
      refine hP x ?_
      subst hst'; exact hx
    · intro hne
      have : p.1.oneSrc ≠ [] := by
        intro h0
        apply hne
        subst hst'
        rw [h0] at hol
        exact List.eq_nil_of_length_eq_zero hol
      subst hst'
      rw [hS.oneSrc] at this
      rw [show ({ p.1 with oneSrc := ones, root := some root' } : BSt N S).one = p.1.one from rfl, hS.one]
      exact h.one this
    · intro hp
      rcases h.exi hp with hx | hx
      · left
        intro h0
        apply hx
        rw [← hS.oneSrc]
        apply List.eq_nil_of_length_eq_zero
        rw [← hol]
        subst hst'
        have h0 : ones = [] := h0
        rw [h0]; rfl
      · right; rw [hpend]; exact hx
  subst hst'
  exact ⟨inv_congr hfin.inv (fun l _ => by cases l <;> rfl) (fun _ _ _ _ => rfl), hfin.empty,
    hfin.len, hfin.row0, hfin.numRows, hfin.pend_lt, hfin.ones, hfin.one, hfin.exi⟩

end TdZdd
