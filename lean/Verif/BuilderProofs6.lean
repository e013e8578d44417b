import Verif.BuilderProofs5

/-! Builder proof, part 6: `DdSweeper::update`, `construct`, the level loop. -/

namespace TdZdd

variable {N : Nat} {S : Type} {sp : DdSpec N S} {top lo k cur : Nat} {G : Nat → List S}
  {st : BSt N S}

theorem markLoop_spec (cur x : Nat) : ∀ (fuel : Nat) (lev : Nat → Nat) (j : Nat),
    (∀ i, i < x → j ≤ i → lev i = 0) → (∀ i, x ≤ i → i < j + fuel → 0 < lev i) →
    ∀ i, markLoop cur lev j fuel i = if j ≤ i ∧ i < x ∧ i < j + fuel then cur + 1 else lev i := by
  intro fuel
  induction fuel with
  | zero => intro lev j _ _ i; rw [markLoop, if_neg (by omega)]
  | succ fuel ih =>
    intro lev j h1 h2 i
    rw [markLoop]
    split
    · rename_i hp
      have hxj : x ≤ j := by
        apply Nat.le_of_not_lt; intro h; rw [h1 j h (Nat.le_refl _)] at hp; omega
      rw [if_neg (by omega)]
    · rename_i hp
      have hjx : j < x := by
        apply Nat.lt_of_not_le; intro h; exact hp (h2 j h (by omega))
      rw [ih (upd lev j (cur + 1)) (j + 1)]
      · by_cases hij : i = j
        · subst hij; rw [if_neg (by omega), if_pos (by omega), upd_same]
        · rw [upd_ne _ _ hij]
          by_cases hc : j + 1 ≤ i ∧ i < x ∧ i < j + 1 + fuel
          · rw [if_pos hc, if_pos (by omega)]
          · rw [if_neg hc, if_neg (by omega)]
      · intro i hi hji; rw [upd_ne _ _ (by omega)]; exact h1 i hi (by omega)
      · intro i hi hlt
        by_cases hij : i = j
        · omega
        · rw [upd_ne _ _ hij]; exact h2 i hi (by omega)

theorem sumLoop_spec (k : Nat) : ∀ (fuel : Nat) (d : Nat → Nat),
    (∀ i, i < k ∨ k + fuel < i → sumLoop k fuel d i = d i) ∧
    (∀ i, k < i → i ≤ k + fuel → sumLoop k fuel d i = 0) ∧
    ((∀ i, k ≤ i → i ≤ k + fuel → d i = 0) → sumLoop k fuel d k = 0) := by
  intro fuel
  induction fuel with
  | zero => intro d; exact ⟨fun _ _ => rfl, fun i h1 h2 => by omega, fun h => h k (by omega) (by omega)⟩
  | succ fuel ih =>
    intro d
    rw [sumLoop]
    obtain ⟨h1, h2, h3⟩ := ih (upd (upd d k (d k + d (k + fuel + 1))) (k + fuel + 1) 0)
    refine ⟨?_, ?_, ?_⟩
    · intro i hi
      rw [h1 i (by omega), upd_ne _ _ (by omega), upd_ne _ _ (by omega)]
    · intro i hi hi'
      by_cases he : i = k + fuel + 1
      · rw [h1 i (by omega), he, upd_same]
      · exact h2 i hi (by omega)
    · intro h
      apply h3
      intro i hi hi'
      rw [upd_ne _ _ (by omega)]
      by_cases he : i = k
      · rw [he, upd_same, h k (by omega) (by omega), h (k + fuel + 1) (by omega) (by omega)]
      · rw [upd_ne _ _ he]; exact h i hi (by omega)

/-- State of the sweeper after `update(cur, ..)`. `x` is the lowest marked level. -/
structure SwA (top : Nat) (G : Nat → List S) (pend : Nat → List (Loc N × Nat × S)) (sw : Sweep)
    (cur x : Nat) : Prop where
  size : sw.size = top + 1
  x_pos : 1 ≤ x
  x_lt : x < cur
  lev_lo : ∀ j, j < x → sw.level j = 0
  lev_hi : ∀ j, x ≤ j → j ≤ top → cur < sw.level j ∧ sw.level j ≤ top + 1
  mono : ∀ j j', x ≤ j → j ≤ j' → j' ≤ top → sw.level j ≤ sw.level j'
  pd : ∀ {r c b g s j}, (Loc.cell r c b, g, s) ∈ pend j → ∀ j', j ≤ j' → j' ≤ top →
    r < sw.level j'
  dead_top : sw.dead (top + 1) = 0
  dead_hi : ∀ j, sw.level (cur - 1) < j → sw.dead j = 0
  dead_lo : ∀ j, j < sw.level (cur - 1) → sw.dead j ≤ (G j).length
  dead_k : (∀ r, G r = []) → sw.dead (sw.level (cur - 1)) = 0
  max_pos : 0 < sw.max

/-- initial state of the sweeper -/
def Sweep.init : Sweep :=
  { size := 0, level := fun _ => 0, dead := fun _ => 0, all := 0, max := 0 }

/-- State of the sweeper when the rows from `lo` on are complete. -/
def SwOK (top : Nat) (G : Nat → List S) (st : BSt N S) (lo : Nat) : Prop :=
  (lo = top + 1 → st.sw = Sweep.init) ∧
  (2 ≤ lo → lo ≤ top → ∃ x, SwA top G st.pend st.sw lo x)

/-- if the root is the 0-terminal then there are no nodes -/
theorem Lv.root_zero (hd : Desc sp) (h : Lv sp top G st lo) (hr : st.root = some .zero) :
    ∀ r, G r = [] := by
  suffices ∀ d r, top + 1 - r = d → G r = [] from fun r => this _ r rfl
  intro d
  induction d using Nat.strongRecOn with
  | _ d ih =>
    intro r hrd
    cases hG : G r with
    | nil => rfl
    | cons g gs =>
      exfalso
      have h0 : (G r)[0]? = some g := by rw [hG]; rfl
      have hp := h.pos h0
      obtain ⟨l, hl1, hl2⟩ := h.inv.ref (getElem?_lt h0)
      cases l with
      | root =>
        simp [BSt.get, hr, NodeId.zero] at hl2
        omega
      | cell r2 c2 b2 =>
        obtain ⟨g2, hg2⟩ := getElem?_of_lt hl1.2
        have hp2 := h.pos hg2
        obtain ⟨v, hv1, hv2⟩ := h.cell hg2 b2
        rw [hl2] at hv1
        cases hv1
        have hcl := hd.child_lt b2 hp2.1 hp2.2.2.2
        have hrr : r < r2 := by
          rcases hv2 with ⟨hv, _⟩ | ⟨hv, _⟩ | ⟨r', c', g', hv, hr', hw', hg', hacc⟩ | ⟨hv, _⟩
          · simp [NodeId.zero] at hv; omega
          · simp [NodeId.one] at hv
          · simp at hv; omega
          · cases hv
        have := ih (top + 1 - r2) (by omega) r2 rfl
        rw [this] at hg2; simp at hg2

theorem Lv.root_cases (h : Lv sp top G st lo) (htop : sp.root.1 = (top : Int)) (ht : 0 < top)
    (hlo : lo ≤ top) : st.root = some .zero ∨ ∃ c, st.root = some ⟨top, c⟩ := by
  obtain ⟨w, v, hw, hget, hrep⟩ := h.inv.rep h.inv.root_D
  simp only [want, Option.some.injEq] at hw
  subst hw
  simp only [BSt.get, Option.some.injEq] at hget
  rw [hget]
  rcases hrep with ⟨hv, _⟩ | ⟨hv, hneg⟩ | ⟨r, c, g, hv, _, hw, _⟩ | ⟨hv, j, g, hj, hw, hm⟩
  · exact .inl hv
  · omega
  · have : r = top := by omega
    subst this
    exact .inr ⟨c, hv⟩
  · have := h.pend_lt hm
    omega

theorem lv_sw (h : Lv sp top G st lo) (sw : Sweep) : Lv sp top G { st with sw := sw } lo :=
  ⟨inv_congr h.inv (fun l _ => by cases l <;> rfl) (fun _ _ _ _ => rfl), h.empty, h.len, h.row0,
    h.numRows, h.pend_lt, h.ones, h.one, h.exi⟩

theorem update_spec (hd : Desc sp) (htop : sp.root.1 = (top : Int)) (hc : 0 < cur) (hct : cur ≤ top)
    (h : Lv sp top G st cur) {child count : Nat} (hchild : child ≤ cur - 1)
    (hchild1 : 2 ≤ cur → 1 ≤ child)
    (hcount : count ≤ (G cur).length)
    (hlow : ∀ {j c b g s}, (Loc.cell cur c b, g, s) ∈ st.pend j → child ≤ j)
    (h1 : cur = top → st.sw = Sweep.init ∧ G top ≠ [])
    (h2 : cur < top → ∃ x G0 pend0, SwA (N := N) (S := S) top G0 pend0 st.sw (cur + 1) x ∧
      (∀ r, r ≠ cur → G0 r = G r) ∧ G0 cur = [] ∧
      ∀ {j y}, y ∈ st.pend j → y ∈ pend0 j ∨ ∃ c b, y.1 = .cell cur c b) :
    ∃ st', update cur child count st = some st' ∧
      ∃ G', Lv sp top G' st' cur ∧ SwOK top G' st' cur := by
  unfold update
  by_cases hc1 : cur ≤ 1
  · rw [if_pos hc1]
    exact ⟨st, rfl, G, h, fun h => by omega, fun h => by omega⟩
  rw [if_neg hc1]
  have hchild1 := hchild1 (by omega)
  -- facts about the bookkeeping before this update, uniformly for the first and later calls
  have hprep : ∃ x, (if cur ≥ st.sw.size then { st.sw with size := cur + 1 } else st.sw : Sweep).size
        = top + 1 ∧
      (∀ i, i < x → st.sw.level i = 0) ∧ 1 ≤ x ∧ x ≤ cur + 1 ∧ (cur < top → x ≤ cur) ∧
      (∀ j, x ≤ j → j ≤ top → cur + 1 < st.sw.level j ∧ st.sw.level j ≤ top + 1) ∧
      (∀ j j', x ≤ j → j ≤ j' → j' ≤ top → st.sw.level j ≤ st.sw.level j') ∧
      (∀ {r c b g s j}, (Loc.cell r c b, g, s) ∈ st.pend j → r ≠ cur → cur < top ∧
        ∀ j', j ≤ j' → j' ≤ top → r < st.sw.level j') ∧
      st.sw.dead (top + 1) = 0 ∧
      (∀ j, (cur = top ∨ st.sw.level cur < j) → st.sw.dead j = 0) ∧
      (∀ j, cur < top → j < st.sw.level cur → j ≠ cur → st.sw.dead j ≤ (G j).length) ∧
      ((∀ r, G r = []) → cur < top → st.sw.dead (st.sw.level cur) = 0) ∧
      0 < (if st.sw.max < st.sw.all + (st.row cur).length then st.sw.all + (st.row cur).length
        else st.sw.max) := by
    by_cases hct' : cur = top
    · obtain ⟨hs, hne⟩ := h1 hct'
      refine ⟨cur + 1, ?_, ?_, ?_, ?_, ?_, ?_, ?_, ?_, ?_, ?_, ?_, ?_, ?_⟩
      · rw [hs]; simp [Sweep.init, hct']
      · intro i _; rw [hs]; rfl
      · omega
      · omega
      · omega
      · intro j _ _; omega
      · intro j j' _ _; omega
      · intro r c b g s j hm hr
        have := (h.inv.pd_ok hm).1.1
        have hlt := (h.inv.pd_ok hm).1.2
        obtain ⟨g, hg⟩ := getElem?_of_lt hlt
        have := (h.pos hg).2.1
        omega
      · rw [hs]; rfl
      · intro j _; rw [hs]; rfl
      · omega
      · omega
      · have hl : 0 < (st.row cur).length := by
          rw [h.len cur hc, hct']
          exact List.length_pos_iff.2 hne
        split
        · omega
        · omega
    · obtain ⟨x, G0, pend0, hA, hG0, hG0c, hp⟩ := h2 (by omega)
      have hx := hA.x_lt
      have hsz : st.sw.size = top + 1 := hA.size
      refine ⟨x, ?_, hA.lev_lo, hA.x_pos, by omega, by omega, ?_, hA.mono, ?_, hA.dead_top, ?_, ?_, ?_, ?_⟩
      · rw [if_neg (by omega)]; exact hsz
      · intro j hj hj'; exact hA.lev_hi j hj hj'
      · intro r c b g s j hm hr
        refine ⟨by omega, ?_⟩
        rcases hp hm with hm | ⟨c', b', he⟩
        · exact fun j' hj hj' => hA.pd hm j' hj hj'
        · cases he; omega
      · intro j hj
        rcases hj with hj | hj
        · omega
        · exact hA.dead_hi j (by simpa using hj)
      · intro j _ hj hne
        rw [← hG0 j hne]
        exact hA.dead_lo j (by simpa using hj)
      · intro hall _
        have := hA.dead_k (fun r => by
          by_cases hr : r = cur
          · rw [hr]; exact hG0c
          · rw [hG0 r hr]; exact hall r)
        simpa using this
      · have := hA.max_pos
        split <;> omega
  obtain ⟨x, hsize, hlev0, hx1, hxc, hxct, hlevhi, hmono, hpd, hdtop, hdhi, hdlo, hdk, hmax⟩ := hprep
  have hsw : ∀ (f : Sweep → Nat → Nat) , (f = Sweep.level ∨ f = Sweep.dead) →
      f (if cur ≥ st.sw.size then { st.sw with size := cur + 1 } else st.sw) = f st.sw := by
    rintro f (rfl | rfl) <;> split <;> rfl
  have hswm : (if cur ≥ st.sw.size then { st.sw with size := cur + 1 } else st.sw : Sweep).max = st.sw.max ∧
      (if cur ≥ st.sw.size then { st.sw with size := cur + 1 } else st.sw : Sweep).all = st.sw.all := by
    split <;> exact ⟨rfl, rfl⟩
  simp only [hsize, hsw Sweep.level (.inl rfl), hsw Sweep.dead (.inr rfl), hswm.1, hswm.2]
  -- the marking loop
  have hmark := markLoop_spec cur x (cur + 1 - child) st.sw.level child
    (fun i hi _ => hlev0 i hi) (fun i hi hi' => by have := (hlevhi i hi (by omega)).1; omega)
  generalize hlev : markLoop cur st.sw.level child (cur + 1 - child) = lev at hmark ⊢
  have hmark' : ∀ i, lev i = if child ≤ i ∧ i < x then cur + 1 else st.sw.level i := by
    intro i; rw [hmark i]
    by_cases hi : child ≤ i ∧ i < x
    · rw [if_pos hi, if_pos (by omega)]
    · rw [if_neg hi, if_neg (by omega)]
  -- new lowest marked level
  have hlevhi' : ∀ j, (x ≤ j ∨ child ≤ j) → j ≤ top → cur < lev j ∧ lev j ≤ top + 1 := by
    intro j hj hjt
    rw [hmark' j]
    split
    · omega
    · have := hlevhi j (by omega) hjt; omega
  have hmono' : ∀ j j', (x ≤ j ∨ child ≤ j) → j ≤ j' → j' ≤ top → lev j ≤ lev j' := by
    intro j j' hj hjj hjt
    rw [hmark' j, hmark' j']
    split
    · split
      · omega
      · have := hlevhi j' (by omega) hjt; omega
    · rw [if_neg (by omega)]; exact hmono j j' (by omega) hjj hjt
  have hk := hlevhi' (cur - 1) (.inr (by omega)) (by omega)
  have hkc := hlevhi' cur (.inr (by omega)) hct
  have hkk := hmono' (cur - 1) cur (.inr (by omega)) (by omega) hct
  rw [if_pos ⟨hk.2, hkc.2⟩]
  have hpd' : ∀ {r c b g s j}, (Loc.cell r c b, g, s) ∈ st.pend j → ∀ j', j ≤ j' → j' ≤ top →
      r < lev j' := by
    intro r c b g s j hm j' hj hj'
    by_cases hr : r = cur
    · subst hr
      have := hlow hm
      exact (hlevhi' j' (.inr (by omega)) hj').1
    · have := (hpd hm hr).2 j' hj hj'
      rw [hmark' j']
      split
      · rename_i hcx
        rw [hlev0 j' hcx.2] at this; omega
      · exact this
  -- the dead counters
  have hsum := sumLoop_spec (lev (cur - 1)) (lev cur - lev (cur - 1)) (upd st.sw.dead cur count)
  have hkf : lev (cur - 1) + (lev cur - lev (cur - 1)) = lev cur := by omega
  rw [hkf] at hsum
  obtain ⟨hs1, hs2, hs3⟩ := hsum
  generalize hdead : sumLoop (lev (cur - 1)) (lev cur - lev (cur - 1)) (upd st.sw.dead cur count) = dead
    at hs1 hs2 hs3 ⊢
  have hlevcur : cur < top → lev cur = st.sw.level cur := by
    intro hlt
    rw [hmark' cur, if_neg (by have := hxct hlt; omega)]
  have hlevcur' : cur = top → lev cur = top + 1 ∧ lev (cur - 1) = top + 1 := by
    intro he; omega
  have hdtop' : dead (top + 1) = 0 := by
    by_cases he : lev (cur - 1) = top + 1
    · rw [← he]
      apply hs3
      intro i hi hi'
      have : i = top + 1 := by omega
      rw [this, upd_ne _ _ (by omega)]; exact hdtop
    · by_cases he2 : lev cur = top + 1
      · exact hs2 _ (by omega) (by omega)
      · rw [hs1 _ (.inr (by omega)), upd_ne _ _ (by omega)]; exact hdtop
  have hdhi' : ∀ j, lev (cur - 1) < j → dead j = 0 := by
    intro j hj
    by_cases hj' : j ≤ lev cur
    · exact hs2 j hj hj'
    · rw [hs1 j (.inr (by omega)), upd_ne _ _ (by omega)]
      apply hdhi
      by_cases he : cur = top
      · exact .inl he
      · right; rw [← hlevcur (by omega)]; omega
  have hdlo' : ∀ j, j < lev (cur - 1) → dead j ≤ (G j).length := by
    intro j hj
    rw [hs1 j (.inl hj)]
    by_cases hjc : j = cur
    · subst hjc; rw [upd_same]; exact hcount
    · rw [upd_ne _ _ hjc]
      by_cases he : cur = top
      · rw [hdhi j (.inl he)]; omega
      · exact hdlo j (by omega) (by rw [← hlevcur (by omega)]; omega) hjc
  have hdk' : (∀ r, G r = []) → dead (lev (cur - 1)) = 0 := by
    intro hall
    apply hs3
    intro i hi hi'
    by_cases hic : i = cur
    · omega
    · rw [upd_ne _ _ hic]
      by_cases he : cur = top
      · exact hdhi i (.inl he)
      · have hlc := hlevcur (by omega)
        by_cases hil : i = lev cur
        · rw [hil, hlc]; exact hdk hall (by omega)
        · have := hdlo i (by omega) (by omega) hic
          rw [hall i] at this
          simpa using this
  generalize hmx : (if st.sw.max < st.sw.all + (st.row cur).length then st.sw.all + (st.row cur).length
        else st.sw.max) = mx at hmax ⊢
  have hA : SwA (N := N) (S := S) top G st.pend
      ⟨top + 1, lev, dead, st.sw.all + (st.row cur).length, mx⟩ cur (min child x) := by
    refine ⟨rfl, by omega, by omega, ?_, ?_, ?_, hpd', hdtop', hdhi', hdlo', hdk', hmax⟩
    · intro j hj
      show lev j = 0
      rw [hmark' j, if_neg (by omega)]; exact hlev0 j (by omega)
    · intro j hj hjt; exact hlevhi' j (by omega) hjt
    · intro j j' hj hjj hjt; exact hmono' j j' (by omega) hjj hjt
  split
  · refine ⟨_, rfl, G, lv_sw h _, fun he => by omega, fun _ _ => ⟨_, hA⟩⟩
  · rename_i hfire
    have hdne : dead (lev (cur - 1)) ≠ 0 := by intro h0; rw [h0] at hfire; omega
    have hkt : lev (cur - 1) ≤ top := by
      apply Nat.le_of_not_lt
      intro hlt
      have : lev (cur - 1) = top + 1 := by omega
      rw [this] at hdne; exact hdne hdtop'
    have hnz : st.root ≠ some .zero := fun hz => hdne (hdk' (h.root_zero hd hz))
    obtain ⟨c0, hroot⟩ := (h.root_cases htop (by omega) hct).resolve_left hnz
    obtain ⟨st', hs, ⟨all, hsw'⟩, hpend', G', hG', hLv⟩ := sweep_spec (k := lev (cur - 1)) hd
      (lv_sw h ⟨top + 1, lev, dead, st.sw.all + (st.row cur).length, mx⟩) (by omega) hkt
      (fun {r j c b g s} hm => by
        have hj := h.pend_lt hm
        exact hpd' hm (cur - 1) (by omega) (by omega)) (c0 := c0) hroot
    refine ⟨st', hs, G', hLv, fun he => by omega, fun _ _ => ⟨min child x, ?_⟩⟩
    rw [hsw', hpend']
    refine ⟨rfl, hA.x_pos, hA.x_lt, hA.lev_lo, hA.lev_hi, hA.mono, hA.pd, ?_, ?_, ?_, ?_, hmax⟩
    · show upd dead (lev (cur - 1)) 0 (top + 1) = 0
      rw [upd_ne _ _ (by omega)]; exact hdtop'
    · intro j hj
      show upd dead (lev (cur - 1)) 0 j = 0
      rw [upd_ne _ _ (Nat.ne_of_gt hj)]; exact hdhi' j hj
    · intro j hj
      show upd dead (lev (cur - 1)) 0 j ≤ _
      rw [upd_ne _ _ (Nat.ne_of_lt hj), hG' j hj]; exact hdlo' j hj
    · intro _
      exact upd_same _ _ _

theorem construct_spec (hl : Lawful sp) (htop : sp.root.1 = (top : Int)) {i : Nat} (hi : 0 < i)
    (hit : i ≤ top) (h : Lv sp top G st (i + 1)) (hsw : SwOK top G st (i + 1))
    (hpt : i = top → st.pend top ≠ []) :
    ∃ st', construct sp st i = some st' ∧ ∃ G', Lv sp top G' st' i ∧ SwOK top G' st' i := by
  have hGi := h.empty i (by omega)
  have hrowi : st.row i = [] := List.eq_nil_of_length_eq_zero (by rw [h.len i hi, hGi]; rfl)
  obtain ⟨a, ha, G1, hP1⟩ := phase1 hl hi hit h.inv hGi
  have hD0 : ∀ c b, ¬ Dom (i + 1) G (.cell i c b : Loc N) := by
    rintro c b ⟨h, _⟩; omega
  generalize hst1 : ({ a.st with
    row := upd a.st.row i (a.st.row i ++ List.replicate (a.m - 0) fun _ => none),
    gen := upd a.st.gen i (a.st.gen i + 1),
    pend := upd a.st.pend i [] } : BSt N S) = st1
  have hget1 : ∀ l, (∀ c b, l ≠ .cell i c b) → st1.get l = a.st.get l := by
    intro l hne
    subst hst1
    cases l with
    | root => rfl
    | cell r c b =>
      have : r ≠ i := fun he => hne c b (by rw [he])
      simp only [BSt.get, upd_ne _ _ this]
  have hnr1 : st1.numRows = top + 1 := by subst hst1; exact hP1.frame.numRows.trans h.numRows
  have hrowi1 : st1.row i = List.replicate a.m fun _ => none := by
    subst hst1
    have : a.st.row i = [] := List.eq_nil_of_length_eq_zero (by
      rw [hP1.frame.len, hrowi]; rfl)
    simp [this]
  have hlen1 : ∀ r, 0 < r → (st1.row r).length = (G1 r).length := by
    intro r hr
    by_cases hri : r = i
    · subst hri; rw [hrowi1, hP1.m]; simp
    · rw [hP1.other r hri, ← h.len r hr, ← hP1.frame.len r]
      subst hst1; simp only [upd_ne _ _ hri]
  have hpend1 : st1.pend = upd st.pend i [] := by subst hst1; rw [← hP1.frame.pend]
  have hph2 : Ph2 sp top i G1 st1 (fun l => Dom (i + 1) G l ∨ ∃ c b, c < 0 ∧ l = .cell i c b) st1 (i - 1) := by
    refine ⟨?_, fun _ => rfl, rfl, rfl, rfl, ?_, Nat.le_refl _, by omega, ?_, ?_, ?_, ?_, fun _ _ => rfl, hi⟩
    · rw [hpend1]
      refine inv_congr_D (D := Dom (i + 1) G) (inv_congr hP1.inv ?_ ?_) ?_ (fun _ => rfl)
      · intro l hl
        exact hget1 l (fun c b he => hD0 c b (he ▸ hl))
      · intro r c b hl
        have : r ≠ i := fun he => hD0 c b (he ▸ hl)
        subst hst1
        simp only [upd_ne _ _ this]
      · intro l
        constructor
        · exact .inl
        · rintro (h | ⟨_, _, h, _⟩)
          · exact h
          · omega
    · intro j c b g s hm
      rw [hpend1] at hm
      exact absurd (hP1.inv.pd_ok hm).1 (hD0 c b)
    · intro j x hx; exact .inl hx
    · intro c b hc _
      rw [get_cell hnr1 hit, hrowi1]
      rw [hrowi1] at hc
      simp at hc
      simp [hc]
    · intro x hx
      have hx' : x ∈ st.oneSrc := by subst hst1; rw [← hP1.frame.oneSrc]; exact hx
      obtain ⟨h1, h2⟩ := h.ones hx'
      refine ⟨by omega, ?_⟩
      rw [hget1 _ (by rintro c b he; cases he; omega), hP1.keep _ (by rw [h2]; simp), h2]
    · intro hne
      have h1 : st1.oneSrc = st.oneSrc := by subst hst1; exact hP1.frame.oneSrc
      have h2 : st1.one = st.one := by subst hst1; exact hP1.frame.one
      rw [h2]; rw [h1] at hne; exact h.one hne
  obtain ⟨p, hp1, hp2, hpE, hp3⟩ := phase2 (D0 := Dom (i + 1) G) hl.toDesc hi hD0 (hlen1 i hi)
    hP1.done { st := st1, jj := 0, lowest := i - 1, deadCount := 0 } rfl (Nat.zero_le _)
    (by simp) (Nat.zero_le _) hph2
  have hdom : ∀ l, (Dom (i + 1) G l ∨ ∃ c b, c < (G1 i).length ∧ l = .cell i c b) ↔ Dom (N := N) i G1 l := by
    intro l
    cases l with
    | root => simp [Dom]
    | cell r c b =>
      simp only [Dom, Loc.cell.injEq]
      by_cases hri : r = i
      · subst hri
        constructor
        · rintro (⟨h, _⟩ | ⟨c', b', hc, _, rfl, _⟩)
          · omega
          · exact ⟨Nat.le_refl _, hc⟩
        · rintro ⟨_, hc⟩; exact .inr ⟨c, b, hc, rfl, rfl, rfl⟩
      · rw [hP1.other r hri]
        constructor
        · rintro (⟨h, h'⟩ | ⟨c', b', hc, he, _⟩)
          · exact ⟨by omega, h'⟩
          · exact absurd he hri
        · rintro ⟨h, h'⟩; exact .inl ⟨by omega, h'⟩
  have hLv : Lv sp top G1 p.st i := by
    refine ⟨inv_congr_D hp3.inv hdom (fun _ => rfl), ?_, ?_, ?_, hp3.numRows.trans hnr1, ?_, hp3.ones, hp3.one, ?_⟩
    · intro r hr; rw [hP1.other r (by omega)]; exact h.empty r (by omega)
    · intro r hr; rw [hp3.len]; exact hlen1 r hr
    · refine ⟨?_, fun b => ?_⟩
      · rw [hp3.len, ← h.row0.1, ← hP1.frame.len 0]
        subst hst1
        simp only [upd_ne _ _ (show 0 ≠ i by omega)]
      · have e : ∀ c b v, st.get (.cell 0 c b) = some (some v) →
            p.st.get (.cell 0 c b) = some (some v) := by
          intro c b v hv
          rw [hp3.keep0, hget1 _ (by rintro c b he; cases he; omega),
            hP1.keep _ (by rw [hv]; simp), hv]
        exact ⟨e _ _ _ (h.row0.2 b).1, e _ _ _ (h.row0.2 b).2⟩
    · intro j x hx
      rcases hp3.old hx with hx | ⟨hx, _⟩
      · rw [hpend1] at hx
        by_cases hj : j = i
        · subst hj; rw [upd_same] at hx; cases hx
        · rw [upd_ne _ _ hj] at hx
          have := h.pend_lt hx; omega
      · exact hx
    · intro hp
      apply hpE
      rcases h.exi hp with hx | ⟨j, l, g, s, hm, hx⟩
      · left; left; subst hst1; show a.st.oneSrc ≠ []; rw [hP1.frame.oneSrc]; exact hx
      · by_cases hj : j = i
        · subst hj
          obtain ⟨e, he, q, hq⟩ := hP1.exi _ hm hx
          obtain ⟨c, hc⟩ := hP1.uniq e he
          exact .inr ⟨e.2, c, mem_of_getElem?' hc, q, hq⟩
        · left; right
          refine ⟨j, l, g, s, ?_, hx⟩
          rw [hpend1, upd_ne _ _ hj]; exact hm
  have hswp : p.st.sw = st.sw := by rw [hp3.sw]; subst hst1; exact hP1.frame.sw
  have hupd := update_spec (cur := i) hl.toDesc htop hi hit hLv (child := p.lowest)
    (count := p.deadCount) hp3.low_le hp3.low_pos hp2 hp3.low
    (by
      intro he
      refine ⟨by rw [hswp]; exact hsw.1 (by omega), ?_⟩
      rw [← he]; exact hP1.ne (by rw [he]; exact hpt he))
    (by
      intro hlt
      obtain ⟨x, hA⟩ := hsw.2 (by omega) (by omega)
      refine ⟨x, G, st.pend, by rw [hswp]; exact hA, fun r hr => (hP1.other r hr).symm, hGi, ?_⟩
      intro j y hy
      rcases hp3.old hy with hy | ⟨_, hy⟩
      · rw [hpend1] at hy
        by_cases hj : j = i
        · subst hj; rw [upd_same] at hy; cases hy
        · rw [upd_ne _ _ hj] at hy; exact .inl hy
      · exact .inr hy)
  obtain ⟨st', hu, G', hG'⟩ := hupd
  refine ⟨st', ?_, G', hG'⟩
  simp only [construct, hrowi, List.length_nil, ha, Option.bind_some]
  rw [hrowi] at *
  rw [hst1, hp1]
  exact hu

theorem levels_succ (n : Nat) : levels (n + 1) = (n + 1) :: levels n := by
  simp [levels, List.range_succ]

theorem levels_loop (hl : Lawful sp) (htop : sp.root.1 = (top : Int)) :
    ∀ (n : Nat), n ≤ top → ∀ (st : BSt N S) (G : Nat → List S), Lv sp top G st (n + 1) →
      SwOK top G st (n + 1) → (n = top → 0 < n → st.pend top ≠ []) →
      ∃ st', (levels n).foldlM (construct sp) st = some st' ∧ ∃ G', Lv sp top G' st' 1 := by
  intro n
  induction n with
  | zero => intro _ st G h _ _; exact ⟨st, rfl, G, h⟩
  | succ n ih =>
    intro hn st G h hsw hpt
    obtain ⟨st1, h1, G1, h2, h3⟩ := construct_spec hl htop (Nat.succ_pos n) hn h hsw
      (fun he => hpt he (Nat.succ_pos n))
    obtain ⟨st', h4, h5⟩ := ih (by omega) st1 G1 h2 h3 (by omega)
    refine ⟨st', ?_, h5⟩
    rw [levels_succ, List.foldlM_cons, h1]
    exact h4

theorem init_inv (hroot : 0 < sp.root.1) :
    Lv sp sp.root.1.toNat (fun _ => []) (initBuild sp) (sp.root.1.toNat + 1) ∧
    SwOK sp.root.1.toNat (fun _ => []) (initBuild sp) (sp.root.1.toNat + 1) ∧
    (initBuild sp).pend sp.root.1.toNat ≠ [] := by
  have htop : sp.root.1 = (sp.root.1.toNat : Int) := by omega
  refine ⟨?_, ?_, ?_⟩
  · have hne : ¬ sp.root.1 ≤ 0 := by omega
    simp only [initBuild, if_neg hne]
    have hpend : ∀ {j x}, x ∈ upd (fun _ => ([] : List (Loc N × Nat × S))) sp.root.1.toNat
        [(.root, 0, sp.root.2)] j → j = sp.root.1.toNat ∧ x = (.root, 0, sp.root.2) := by
      intro j x hx
      by_cases hj : j = sp.root.1.toNat
      · subst hj; rw [upd_same] at hx; simp at hx; exact ⟨rfl, hx⟩
      · rw [upd_ne _ _ hj] at hx; cases hx
    refine ⟨⟨trivial, ?_, ?_, ?_, by simp, by simp, by simp⟩, by simp, ?_, ?_, rfl, ?_, by simp, by simp, ?_⟩
    · intro l hl'
      cases l with
      | root =>
        refine ⟨_, _, rfl, rfl, .inr (.inr (.inr ⟨rfl, sp.root.1.toNat, 0, by omega, htop, ?_⟩))⟩
        simp
      | cell r c b => simp [Dom] at hl'
    · intro l g s j hx
      obtain ⟨rfl, he⟩ := hpend hx
      cases he
      refine ⟨trivial, by omega, rfl, ?_, by simp⟩
      rw [← htop]; rfl
    · intro j
      by_cases hj : j = sp.root.1.toNat
      · subst hj; simp
      · simp [upd_ne _ _ hj]
    · intro r hr
      simp only
      rw [if_neg (by omega)]
      rfl
    · refine ⟨rfl, fun b => ?_⟩
      simp [BSt.get]
    · intro j x hx
      have := (hpend hx).1
      omega
    · rintro ⟨p, hp⟩
      exact .inr ⟨sp.root.1.toNat, .root, 0, sp.root.2, by simp, p, by rw [← htop]; exact hp⟩
  · refine ⟨fun _ => ?_, fun h h' => by omega⟩
    simp only [initBuild, if_neg (show ¬ sp.root.1 ≤ 0 by omega)]
    rfl
  · simp [initBuild, if_neg (show ¬ sp.root.1 ≤ 0 by omega)]

/-- The whole construction ends in a state that satisfies the invariant with no pending nodes. -/
theorem build_inv (hl : Lawful sp) (hroot : 0 < sp.root.1) :
    ∃ st, (levels sp.root.1.toNat).foldlM (construct sp) (initBuild sp) = some st ∧
      ∃ G, Lv sp sp.root.1.toNat G st 1 := by
  have htop : sp.root.1 = (sp.root.1.toNat : Int) := by omega
  obtain ⟨h1, h2, h3⟩ := init_inv hroot
  exact levels_loop hl htop sp.root.1.toNat (Nat.le_refl _) _ _ h1 h2 (fun _ _ => h3)

end TdZdd
