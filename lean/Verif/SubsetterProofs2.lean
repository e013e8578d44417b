import Verif.SubsetterProofs1

/-! Subsetter proof, part 2: level synchronisation and the specification of pairs. -/

namespace TdZdd

variable {N : Nat} {S : Type} {D : Dd (N + 1)} {sp : DdSpec (N + 1) S}

theorem clampZ_nonneg (z : Int) : 0 ≤ clampZ z := by unfold clampZ; split <;> omega
theorem le_clampZ (z : Int) : z ≤ clampZ z := by unfold clampZ; split <;> omega
theorem clampZ_eq {z : Int} (h : 0 ≤ z) : clampZ z = z := by unfold clampZ; rw [if_neg (by omega)]
theorem clampZ_lt {z : Int} {n : Int} (h : z < n) (hn : 0 < n) : clampZ z < n := by
  unfold clampZ; split <;> omega

/-- the id `f` was reached in the structure -/
def At (D : Dd (N + 1)) (f : NodeId) : Prop := Reach D.spec (rootCode f) f

theorem at_of_reach (hw : D.Wf) {l : Int} {f : NodeId} (h : Reach D.spec l f) :
    At D f ∧ l = rootCode f := by
  obtain ⟨h1, h2⟩ := hw.reach h
  have h3 : l = rootCode f := by rw [rootCode_eq h1, h2]
  exact ⟨by unfold At; rw [← h3]; exact h, h3⟩

theorem At.valid (hw : D.Wf) {f : NodeId} (h : At D f) : D.table.Valid f := (hw.reach h).1

theorem rootCode_pos {f : NodeId} (h : 0 < f.row) : rootCode f = (f.row : Int) := by
  unfold rootCode; rw [if_neg]; intro he; rw [he] at h; exact absurd h (by decide)

theorem rootCode_le (f : NodeId) : rootCode f ≤ (f.row : Int) := by
  unfold rootCode; split <;> omega

/-- the node of a reached id and its children -/
theorem At.node (hw : D.Wf) {f : NodeId} (h : At D f) (hf : 0 < f.row) :
    ∃ nd, D.table.node? f = some nd ∧ ∀ b, At D (nd b) ∧ (nd b).row < f.row ∧
      D.spec.child f f.row b = (rootCode (nd b), nd b) := by
  rcases h.valid hw with rfl | rfl | ⟨_, nd, hnd⟩
  · exact absurd hf (by decide)
  · exact absurd hf (by decide)
  refine ⟨nd, hnd, fun b => ?_⟩
  have hr : Reach D.spec (f.row : Int) f := by rw [← rootCode_pos hf]; exact h
  have h1 := Reach.step b hf hr
  rw [Dd.child_eq hf hnd] at h1
  dsimp only at h1
  obtain ⟨h2, h3⟩ := at_of_reach hw h1
  exact ⟨h2, (hw.table f.row f.col nd hf hnd b).2, by rw [Dd.child_eq hf hnd, h3]⟩

theorem at_left (hw : D.Wf) (hd : Desc sp) {f : NodeId} {nd : Node (N + 1)} {c2 : Int × S} {r : Path (N + 1)}
    (h : At D f) (hf : 0 < f.row) (hnd : D.table.node? f = some nd) (r2 : Reach sp c2.1 c2.2)
    (hlt : c2.1 < f.row) :
    JAcc D.spec sp (rootCode f, f) c2 r ↔ JAcc D.spec sp (rootCode (nd 0), nd 0) c2 r := by
  obtain ⟨nd', h1, h2⟩ := h.node hw hf
  cases hnd.symm.trans h1
  have hr : Reach D.spec (f.row : Int) f := by rw [← rootCode_pos hf]; exact h
  rw [rootCode_pos hf, jacc_left hw.desc hd hf hr r2 hlt, (h2 0).2.2]

theorem downTableLoop_spec (hw : D.Wf) (hd : Desc sp) {z : Int} (hz : 0 ≤ z) :
    ∀ (fuel : Nat) (f : NodeId), At D f → f.row < fuel →
    ∃ g, downTableLoop D.table z fuel f = some g ∧ At D g ∧ (g.row : Int) ≤ z ∧ g.row ≤ f.row ∧
      ((f.row : Int) ≤ z → g = f) ∧
      ∀ c2 : Int × S, Reach sp c2.1 c2.2 → c2.1 ≤ z → ∀ r,
        (JAcc D.spec sp (rootCode f, f) c2 r ↔ JAcc D.spec sp (rootCode g, g) c2 r) := by
  intro fuel
  induction fuel with
  | zero => intro f _ h; omega
  | succ fuel ih =>
    intro f hf hlt
    unfold downTableLoop
    by_cases hgt : (f.row : Int) > z
    · rw [if_pos hgt]
      obtain ⟨nd, hnd, hc⟩ := hf.node hw (by omega)
      rw [hnd]
      dsimp only
      have h0 := hc 0
      obtain ⟨g, e, h1, h2, h3, _, h4⟩ := ih (nd 0) h0.1 (by omega)
      refine ⟨g, e, h1, h2, by omega, by omega, fun c2 r2 hle r => ?_⟩
      rw [at_left hw hd hf (by omega) hnd r2 (by omega)]
      exact h4 c2 r2 hle r
    · rw [if_neg hgt]
      exact ⟨f, rfl, hf, by omega, Nat.le_refl _, fun _ => rfl, fun _ _ _ _ => Iff.rfl⟩

theorem downTable_spec (hw : D.Wf) (hd : Desc sp) {f : NodeId} (h : At D f) (hf : 0 < f.row)
    (b : Fin (N + 1)) (z : Int) :
    ∃ g, downTable D.table f b z = some (rootCode g, g) ∧ At D g ∧ (g.row : Int) ≤ clampZ z ∧
      g.row < f.row ∧
      ((f.row : Int) - 1 ≤ z → (rootCode g, g) = D.spec.child f f.row b) ∧
      ∀ c2 : Int × S, Reach sp c2.1 c2.2 → c2.1 ≤ z → ∀ r,
        (JAcc D.spec sp (D.spec.child f f.row b) c2 r ↔ JAcc D.spec sp (rootCode g, g) c2 r) := by
  obtain ⟨nd, hnd, hc⟩ := h.node hw hf
  have hb := hc b
  obtain ⟨g, e, h1, h2, h3, h4, h5⟩ := downTableLoop_spec hw hd (clampZ_nonneg z) ((nd b).row + 1)
    (nd b) hb.1 (by omega)
  have hz := le_clampZ z
  refine ⟨g, ?_, h1, h2, by omega, ?_, fun c2 r2 hle r => ?_⟩
  · unfold downTable; rw [hnd]; dsimp only; rw [e]; rfl
  · intro hle
    rw [h4 (by omega), hb.2.2]
  · rw [hb.2.2]; exact h5 c2 r2 (by omega) r

theorem downSpecLoop_spec (hw : D.Wf) (hd : Desc sp) {z : Int} (hz : 0 ≤ z) :
    ∀ (fuel : Nat) (c : Int × S), Reach sp c.1 c.2 → c.1.toNat < fuel →
    ∃ c', downSpecLoop sp z fuel c = some c' ∧ Reach sp c'.1 c'.2 ∧ c'.1 ≤ z ∧ c'.1 ≤ c.1 ∧
      ∀ f, At D f → (f.row : Int) ≤ z → ∀ r,
        (JAcc D.spec sp (rootCode f, f) c r ↔ JAcc D.spec sp (rootCode f, f) c' r) := by
  intro fuel
  induction fuel with
  | zero => intro c _ hlt; omega
  | succ fuel ih =>
    intro c hc hlt
    unfold downSpecLoop
    by_cases hgt : c.1 > z
    · rw [if_pos hgt]
      obtain ⟨i, s⟩ := c
      dsimp only at *
      obtain ⟨n, rfl⟩ := Int.eq_ofNat_of_zero_le (a := i) (by omega)
      have hn : 0 < n := by omega
      rw [Int.toNat_natCast]
      have lt := hd.child_lt 0 hn hc
      obtain ⟨c', e, h1, h2, h3, h4⟩ := ih (sp.child s n 0) (Reach.step 0 hn hc) (by omega)
      refine ⟨c', e, h1, h2, by omega, fun f hf hle r => ?_⟩
      have := rootCode_le f
      rw [jacc_right (c1 := (rootCode f, f)) hw.desc hd hn hc hf (by dsimp only; omega)]
      exact h4 f hf hle r
    · rw [if_neg hgt]
      exact ⟨c, rfl, hc, by omega, Int.le_refl _, fun _ _ _ _ => Iff.rfl⟩

theorem downSpec_spec (hw : D.Wf) (hd : Desc sp) {n : Nat} {s : S} (hn : 0 < n)
    (hr : Reach sp (n : Int) s) (b : Fin (N + 1)) {z : Int} (hz : z < n) :
    ∃ c', downSpec sp s n b z = some c' ∧ Reach sp c'.1 c'.2 ∧ c'.1 ≤ clampZ z ∧ c'.1 < n ∧ c'.1 ≤ (sp.child s n b).1 ∧
      ∀ f, At D f → (f.row : Int) ≤ clampZ z → ∀ r,
        (JAcc D.spec sp (rootCode f, f) (sp.child s n b) r ↔ JAcc D.spec sp (rootCode f, f) c' r) := by
  have lt := hd.child_lt b hn hr
  obtain ⟨c', e, h1, h2, h3, h4⟩ := downSpecLoop_spec hw hd (clampZ_nonneg z)
    ((sp.child s n b).1.toNat + 1) (sp.child s n b) (Reach.step b hn hr) (by omega)
  refine ⟨c', ?_, h1, h2, by omega, h3, h4⟩
  unfold downSpec
  have := clampZ_lt hz (by omega)
  rw [if_neg (by omega)]
  exact e

/-- What the synchronisation guarantees. -/
structure SyncOk (D : Dd (N + 1)) (sp : DdSpec (N + 1) S) (k : Int × NodeId) (n : Int × S)
    (r : (Int × NodeId) × (Int × S)) : Prop where
  at1 : At D r.1.2
  code : r.1.1 = rootCode r.1.2
  reach : Reach sp r.2.1 r.2.2
  fin : r.2.1 = 0 ∨ r.1.1 = 0 ∨ r.2.1 = r.1.1
  le1 : r.1.1 ≤ k.1
  le2 : r.2.1 ≤ n.1
  acc : ∀ p, JAcc D.spec sp k n p ↔ JAcc D.spec sp r.1 r.2 p

theorem syncLoop_spec (hw : D.Wf) (hd : Desc sp) : ∀ (fuel : Nat) (f : NodeId) (n : Int × S),
    At D f → Reach sp n.1 n.2 → rootCode f + n.1 + 2 < fuel →
    ∃ r, syncLoop D.table sp fuel (rootCode f, f) n = some r ∧ SyncOk D sp (rootCode f, f) n r := by
  intro fuel
  induction fuel with
  | zero =>
    intro f n hf hn hlt
    have := reach_ge hd hn
    have := reach_ge hw.desc hf
    omega
  | succ fuel ih =>
    intro f n hf hn hlt
    have g1 := reach_ge hd hn
    have g2 := reach_ge hw.desc hf
    have hle := rootCode_le f
    unfold syncLoop
    dsimp only
    by_cases hc : n.1 ≠ 0 ∧ rootCode f ≠ 0 ∧ n.1 ≠ rootCode f
    · rw [if_pos hc]
      by_cases hlt' : n.1 < rootCode f
      · rw [if_pos hlt', if_neg (by omega)]
        have hpos : 0 < f.row := by omega
        obtain ⟨g, e, h1, h2, h3, h4, h5⟩ := downTable_spec hw hd hf hpos 0 n.1
        rw [e]
        dsimp only
        have hg := rootCode_le g
        rw [rootCode_pos hpos] at *
        obtain ⟨r, e', ok⟩ := ih g n h1 hn (by omega)
        have hl := ok.le1
        dsimp only at hl
        refine ⟨r, e', ok.at1, ok.code, ok.reach, ok.fin, (by dsimp only; omega), ok.le2, fun p => ?_⟩
        have hr : Reach D.spec (f.row : Int) f := by rw [← rootCode_pos hpos]; exact hf
        rw [jacc_left hw.desc hd hpos hr hn hlt', h5 n hn (Int.le_refl _) p]
        exact ok.acc p
      · rw [if_neg hlt', if_neg (by omega)]
        obtain ⟨i, s⟩ := n
        dsimp only at *
        obtain ⟨m, rfl⟩ := Int.eq_ofNat_of_zero_le (a := i) (by omega)
        have hm : 0 < m := by omega
        have hcm : rootCode f < m := by omega
        obtain ⟨c', e, h1, h2, h3, _, h4⟩ := downSpec_spec hw hd hm hn 0 hcm
        rw [e]
        dsimp only
        obtain ⟨r, e', ok⟩ := ih f c' hf h1 (by omega)
        have hl := ok.le2
        refine ⟨r, e', ok.at1, ok.code, ok.reach, ok.fin, ok.le1, by dsimp only; omega, fun p => ?_⟩
        rw [jacc_right (c1 := (rootCode f, f)) hw.desc hd hm hn hf hcm, h4 f hf ?_ p]
        · exact ok.acc p
        · by_cases hp : 0 < f.row
          · rw [rootCode_pos hp]; exact le_clampZ _
          · have := clampZ_nonneg (rootCode f); omega
    · rw [if_neg hc]
      refine ⟨_, rfl, hf, rfl, hn, ?_, Int.le_refl _, Int.le_refl _, fun _ => Iff.rfl⟩
      dsimp only
      omega

theorem syncFuel_ok (k n : Int) : k + n + 2 < (syncFuel k n : Int) := by unfold syncFuel; omega

/-- What the level code of a pair guarantees. -/
structure PairOk (D : Dd (N + 1)) (sp : DdSpec (N + 1) S) (k : Int × NodeId) (n : Int × S)
    (c : Int × (NodeId × S)) : Prop where
  ge : -1 ≤ c.1
  le1 : c.1 ≠ 0 → c.1 ≤ k.1
  le2 : c.1 ≠ 0 → c.1 ≤ n.1
  at1 : c.1 ≠ 0 → Reach D.spec c.1 c.2.1
  reach : c.1 ≠ 0 → Reach sp c.1 c.2.2
  acc : ∀ p, JAcc D.spec sp k n p ↔ JAcc D.spec sp (c.1, c.2.1) (c.1, c.2.2) p

theorem pairCode_spec (hw : D.Wf) (hd : Desc sp) {k : Int × NodeId} {n : Int × S}
    {r : (Int × NodeId) × (Int × S)} (ok : SyncOk D sp k n r) {lim : Option Int}
    (hlim : ∀ l, lim = some l → n.1 < l) :
    ∃ c, pairCode D.table lim r = some c ∧ PairOk D sp k n c := by
  have g1 := reach_ge hd ok.reach
  have g2 := reach_ge hw.desc ok.at1
  have hcd := ok.code
  have hl1 := ok.le1
  have hl2 := ok.le2
  have hacc := ok.acc
  have hreach := ok.reach
  have hat := ok.at1
  have hfin := ok.fin
  obtain ⟨⟨k', f⟩, ⟨n', s⟩⟩ := r
  dsimp only at *
  subst hcd
  unfold pairCode
  dsimp only
  by_cases h0 : n' ≤ 0 ∨ rootCode f ≤ 0
  · rw [if_pos h0]
    by_cases hz : n' = 0 ∨ rootCode f = 0
    · rw [if_pos hz]
      refine ⟨_, rfl, by dsimp only; omega, fun h => absurd rfl h, fun h => absurd rfl h, fun h => absurd rfl h,
        fun h => absurd rfl h, fun p => ?_⟩
      rw [hacc p]
      constructor
      · intro h
        rcases hz with hz | hz
        · exact absurd h (jacc_zero_right hz)
        · exact absurd h (jacc_zero_left hz)
      · intro h; exact absurd h (jacc_zero_left rfl)
    · rw [if_neg hz]
      have e1 : n' = -1 := by omega
      have e2 : rootCode f = -1 := by omega
      rw [if_neg (by omega)]
      refine ⟨_, rfl, by dsimp only; omega, fun _ => ?_, fun _ => ?_, fun _ => ?_, fun _ => ?_, fun p => ?_⟩
      · dsimp only; omega
      · dsimp only; omega
      · dsimp only; rw [← e2]; exact hat
      · dsimp only; rw [← e1]; exact hreach
      · rw [hacc p, e1, e2]
  · rw [if_neg h0]
    have hpos : 0 < f.row := by have := rootCode_le f; omega
    have e1 : n' = rootCode f := by omega
    obtain ⟨nd, hnd, _⟩ := hat.node hw hpos
    rw [if_pos]
    · refine ⟨_, rfl, by dsimp only; omega, fun _ => by dsimp only; omega, fun _ => hl2, fun _ => ?_, fun _ => hreach, fun p => ?_⟩
      · dsimp only; rw [e1]; exact hat
      · rw [hacc p, e1]
    · refine ⟨e1, by rw [e1, rootCode_pos hpos], fun l hl => ?_, by rw [hnd]; rfl⟩
      have := hlim l hl; omega

theorem subChild_spec (hw : D.Wf) (hd : Desc sp) {n : Nat} {f : NodeId} {s : S} (hn : 0 < n)
    (h1 : Reach D.spec (n : Int) f) (h2 : Reach sp (n : Int) s) (b : Fin (N + 1)) :
    ∃ c, subChild D.table sp (f, s) n b = some c ∧
      PairOk D sp (D.spec.child f n b) (sp.child s n b) c := by
  obtain ⟨hf, hc⟩ := at_of_reach hw h1
  have hpos : 0 < f.row := by have := rootCode_le f; omega
  have hrow : f.row = n := by rw [rootCode_pos hpos] at hc; omega
  obtain ⟨g, e, a1, a2, a3, a4, _⟩ := downTable_spec hw hd hf hpos b ((n : Int) - 1)
  have a4 := a4 (by omega)
  rw [hrow] at a4
  have hg := rootCode_le g
  obtain ⟨c', e', b1, b2, b3, hle, b4⟩ := downSpec_spec hw hd hn h2 b (z := rootCode g) (by omega)
  obtain ⟨r, e'', ok⟩ := syncLoop_spec hw hd (syncFuel (rootCode g) c'.1) g c' a1 b1 (syncFuel_ok _ _)
  have lt1 := hd.child_lt b hn h2
  obtain ⟨c, e3, ok'⟩ := pairCode_spec hw hd ok (lim := some n) (by intro l hl; cases hl; exact b3)
  refine ⟨c, ?_, ok'.ge, fun h => ?_, fun h => ?_, ok'.at1, ok'.reach, fun p => ?_⟩
  · unfold subChild
    dsimp only
    rw [e]; dsimp only
    rw [e']; dsimp only
    rw [e'']; exact e3
  · rw [← a4]; exact ok'.le1 h
  · have := ok'.le2 h; omega
  · rw [← a4, b4 g a1 ?_ p]
    · exact ok'.acc p
    · by_cases hp : 0 < g.row
      · rw [rootCode_pos hp]; exact le_clampZ _
      · have := clampZ_nonneg (rootCode g); omega

theorem subRoot_spec (hw : D.Wf) (hd : Desc sp) :
    ∃ c, subRoot D.table D.root sp = some c ∧ PairOk D sp D.spec.root sp.root c := by
  have hf : At D D.root := Reach.root (sp := D.spec)
  obtain ⟨r, e, ok⟩ := syncLoop_spec hw hd (syncFuel (rootCode D.root) sp.root.1) D.root sp.root hf
    .root (syncFuel_ok _ _)
  obtain ⟨c, e', ok'⟩ := pairCode_spec hw hd ok (lim := none) (by intro l hl; cases hl)
  exact ⟨c, by unfold subRoot; rw [e]; exact e', ok'⟩

/-- The specification of pairs with the comparison of the input nodes: the specification whose
diagram the subsetter builds. -/
def prodSpec (T : Table (N + 1)) (root : Int × (NodeId × S)) (sp : DdSpec (N + 1) S) :
    DdSpec (N + 1) (NodeId × S) :=
  { pairSpec T root sp with eqv := fun n p q => decide (p.1 = q.1) && sp.eqv n p.2 q.2 }

variable {rt : Int × (NodeId × S)}

theorem prod_child (hw : D.Wf) (hd : Desc sp) {n : Nat} {p : NodeId × S} (hn : 0 < n)
    (h1 : Reach D.spec (n : Int) p.1) (h2 : Reach sp (n : Int) p.2) (b : Fin (N + 1)) :
    PairOk D sp (D.spec.child p.1 n b) (sp.child p.2 n b) ((prodSpec D.table rt sp).child p n b) := by
  obtain ⟨f, s⟩ := p
  obtain ⟨c, e, ok⟩ := subChild_spec hw hd hn h1 h2 b
  have : (prodSpec D.table rt sp).child (f, s) n b = c := by
    show (subChild D.table sp (f, s) n b).getD _ = c
    rw [e]; rfl
  rw [this]; exact ok

theorem prod_reach (hw : D.Wf) (hd : Desc sp) (hrt : PairOk D sp D.spec.root sp.root rt) {l : Int}
    {p : NodeId × S} (h : Reach (prodSpec D.table rt sp) l p) :
    l ≠ 0 → Reach D.spec l p.1 ∧ Reach sp l p.2 := by
  induction h with
  | root => exact fun h => ⟨hrt.at1 h, hrt.reach h⟩
  | @step n p b hn _ ih =>
    have ⟨h1, h2⟩ := ih (by omega)
    have ok := prod_child (rt := rt) hw hd hn h1 h2 b
    exact fun h => ⟨ok.at1 h, ok.reach h⟩

theorem prod_desc (hw : D.Wf) (hd : Desc sp) (hrt : PairOk D sp D.spec.root sp.root rt) :
    Desc (prodSpec D.table rt sp) := by
  refine ⟨hrt.ge, fun {n p} b hn hr => ?_, fun {n p} b hn hr => ?_⟩
  all_goals
    have ⟨h1, h2⟩ := prod_reach hw hd hrt hr (by omega)
    have ok := prod_child (rt := rt) hw hd hn h1 h2 b
  · by_cases h0 : ((prodSpec D.table rt sp).child p n b).1 = 0
    · omega
    · have := ok.le2 h0
      have := hd.child_lt b hn h2
      omega
  · exact ok.ge

theorem prod_accepts (hw : D.Wf) (hd : Desc sp) (hrt : PairOk D sp D.spec.root sp.root rt) :
    ∀ (p : Path (N + 1)) {l : Int} {x : NodeId × S}, Reach (prodSpec D.table rt sp) l x →
      (Accepts (prodSpec D.table rt sp) l x p ↔ JAcc D.spec sp (l, x.1) (l, x.2) p) := by
  intro p
  induction p with
  | nil =>
    intro l x hr
    by_cases h0 : l = 0
    · subst h0
      exact ⟨fun h => absurd h not_accepts_zero, fun h => absurd h (jacc_zero_left rfl)⟩
    by_cases hneg : l < 0
    · rw [accepts_neg hneg, jacc_neg hneg hneg]
    obtain ⟨n, rfl⟩ := Int.eq_ofNat_of_zero_le (a := l) (by omega)
    have hn : 0 < n := by omega
    have ⟨h1, h2⟩ := prod_reach hw hd hrt hr h0
    rw [accepts_pos hn, jacc_both hw.desc hd hn h1 h2]
    simp
  | cons y p ih =>
    intro l x hr
    by_cases h0 : l = 0
    · subst h0
      exact ⟨fun h => absurd h not_accepts_zero, fun h => absurd h (jacc_zero_left rfl)⟩
    by_cases hneg : l < 0
    · rw [accepts_neg hneg, jacc_neg hneg hneg]
    obtain ⟨n, rfl⟩ := Int.eq_ofNat_of_zero_le (a := l) (by omega)
    have hn : 0 < n := by omega
    have ⟨h1, h2⟩ := prod_reach hw hd hrt hr h0
    rw [accepts_pos hn, jacc_both hw.desc hd hn h1 h2]
    have key : ∀ b, Accepts (prodSpec D.table rt sp) ((prodSpec D.table rt sp).child x n b).1
        ((prodSpec D.table rt sp).child x n b).2 p ↔ JAcc D.spec sp (D.spec.child x.1 n b) (sp.child x.2 n b) p := by
      intro b
      rw [ih (Reach.step b hn hr), (prod_child (rt := rt) hw hd hn h1 h2 b).acc p]
    constructor
    · rintro ⟨b, q, he, h⟩
      cases he
      exact ⟨b, p, rfl, (key b).1 h⟩
    · rintro ⟨b, q, he, h⟩
      cases he
      exact ⟨b, p, rfl, (key b).2 h⟩

theorem prod_lawful (hw : D.Wf) (hl : Lawful sp) (hrt : PairOk D sp D.spec.root sp.root rt) :
    Lawful (prodSpec D.table rt sp) := by
  have rr : ∀ {n : Nat} {p : NodeId × S}, 0 < n → Reach (prodSpec D.table rt sp) (n : Int) p →
      Reach sp (n : Int) p.2 := fun hn hr => (prod_reach hw hl.toDesc hrt hr (by omega)).2
  have ee : ∀ {n : Nat} {p q : NodeId × S}, (prodSpec D.table rt sp).eqv n p q = true ↔
      p.1 = q.1 ∧ sp.eqv n p.2 q.2 = true := by
    intro n p q; simp [prodSpec]
  exact
    { toDesc := prod_desc hw hl.toDesc hrt
      refl := fun hn hr => ee.2 ⟨rfl, hl.refl hn (rr hn hr)⟩
      symm := fun hn hr hr' he => ee.2 ⟨(ee.1 he).1.symm, hl.symm hn (rr hn hr) (rr hn hr') (ee.1 he).2⟩
      trans := fun hn hr hr' hr'' he he' => ee.2 ⟨(ee.1 he).1.trans (ee.1 he').1,
        hl.trans hn (rr hn hr) (rr hn hr') (rr hn hr'') (ee.1 he).2 (ee.1 he').2⟩
      hash_eq := fun hn hr hr' he => hl.hash_eq hn (rr hn hr) (rr hn hr') (ee.1 he).2
      sound := fun hn hr hr' he p => by
        rw [prod_accepts hw hl.toDesc hrt p hr, prod_accepts hw hl.toDesc hrt p hr']
        have hs := hl.sound hn (rr hn hr) (rr hn hr') (ee.1 he).2
        simp only [JAcc, (ee.1 he).1, hs] }

/-- the family of the pairs is the intersection of the two families -/
theorem prod_mem (hw : D.Wf) (hd : Desc sp) (hrt : PairOk D sp D.spec.root sp.root rt) {m : Nat}
    (l1 : D.spec.root.1 ≤ m) (l2 : sp.root.1 ≤ m) (a : Asg (N + 1)) :
    ZddMem (prodSpec D.table rt sp) m a ↔ ZddMem D.spec m a ∧ ZddMem sp m a := by
  have h := jacc_mem hw.desc hd (c1 := D.spec.root) (c2 := sp.root) .root .root l1 l2 a
  unfold ZddMem
  rw [← h]
  unfold ZddMemAt
  have e : ∀ p, Accepts (prodSpec D.table rt sp) (prodSpec D.table rt sp).root.1
      (prodSpec D.table rt sp).root.2 p ↔ JAcc D.spec sp D.spec.root sp.root p := by
    intro p
    rw [prod_accepts hw hd hrt p .root, hrt.acc p]; rfl
  simp only [e]

end TdZdd
