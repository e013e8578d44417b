import Verif.FbUpdate

/-! Proofs about `FrontierBasedSearch` (5): `takable` and `doNotTake`. -/

namespace TdZdd.Fb

open Gr Deg

variable {W : World} {sz : Nat} {m : List Mt}

/-- the component of `k` has no vertex after the first `d` -/
def Ends (W : World) (d k : Nat) : Prop := ∀ l, W.R k l → l < d

/-- components that end have all vertices of their colours -/
def ColorOk (W : World) (d : Nat) : Prop := ∀ k, k < d → Ends W d k → ∀ c, W.C c k → ∀ l, W.C c l → W.R k l

/-- `n` uncoloured components with edges end -/
def Close (W : World) (d n : Nat) : Prop :=
  ∃ L : List Nat, L.length = n ∧ L.Pairwise (fun k l => ¬ W.R k l) ∧ (∀ k ∈ L, k < d ∧ Ends W d k ∧ (∀ c, ¬ W.C c k) ∧ W.E k) ∧
    ∀ k, k < d → Ends W d k → (∀ c, ¬ W.C c k) → W.E k → ∃ j ∈ L, W.R j k

/-- how the counter changes if `n` components end -/
def Dec (uec : Int) (n : Nat) (u : Int) : Prop := (uec < 0 ∧ u = uec) ∨ (0 ≤ uec ∧ 0 ≤ u ∧ u + n = uec)

/-- the components end properly, `u` is the new counter -/
def Passes (W : World) (d : Nat) (uec u : Int) : Prop := ColorOk W d ∧ ∃ n, Close W d n ∧ Dec uec n u

/-- the components do not end properly, or there are too many of them -/
def Fails (W : World) (d : Nat) (uec : Int) : Prop := ¬ ColorOk W d ∨ ∃ n, Close W d n ∧ 0 ≤ uec ∧ uec < n

theorem close_zero {d : Nat} (h : ∀ k, k < d → Ends W d k → (∀ c, ¬ W.C c k) → W.E k → False) : Close W d 0 :=
  ⟨[], rfl, List.Pairwise.nil, fun k hk => by simp at hk, fun k a b c e => (h k a b c e).elim⟩

theorem dec_zero {uec : Int} : Dec uec 0 uec := by
  unfold Dec; omega

/-- nothing ends -/
theorem pass_none {d : Nat} {uec : Int} (h : ∀ k, k < d → ¬ Ends W d k) : Passes W d uec uec :=
  ⟨fun k hk he => absurd he (h k hk), 0, close_zero fun k hk he => absurd he (h k hk), dec_zero⟩

theorem count_ok {uec : Int} (hb : uec ≤ 32767) : (∀ u, fbCount uec = some u → Dec uec 1 u) ∧ (fbCount uec = none → uec = 0) := by
  unfold fbCount Dec
  refine ⟨fun u h => ?_, fun h => ?_⟩
  · split at h
    · cases h
    · split at h
      · injection h with h
        rw [wrap16_eq (by omega) (by omega)] at h
        omega
      · injection h with h
        omega
  · split at h
    · assumption
    · split at h <;> cases h

/-! ### a component with the vertices 0 and 1 -/

theorem two_color (hW : Law W sz) (h01 : W.R 0 1) (he : Ends W 2 0) {c : Nat} (hc : W.C c 0) :
    ((∀ l, W.C c l → l < 2) → ∀ uec, Passes W 2 uec uec) ∧ (¬ (∀ l, W.C c l → l < 2) → ∀ uec, Fails W 2 uec) := by
  have hk : ∀ k, k < 2 → W.R 0 k := by
    intro k hk
    have : k = 0 ∨ k = 1 := by omega
    rcases this with rfl | rfl
    · exact hW.refl 0
    · exact h01
  refine ⟨fun h uec => ⟨fun k hk2 _ c' hc' l hl => ?_, 0, close_zero fun k hk2 _ hn _ => ?_, dec_zero⟩, fun h uec => .inl fun hco => h fun l hl => ?_⟩
  · have := hW.uniq _ _ _ (hW.cc _ _ _ (hW.symm _ _ (hk k hk2)) hc') hc
    subst this
    exact hW.trans _ _ _ (hW.symm _ _ (hk k hk2)) (hk l (h l hl))
  · exact hn c (hW.cc _ _ _ (hk k hk2) hc)
  · exact he l (hco 0 (by omega) he c hc l hl)

theorem two_plain (hW : Law W sz) (h01 : W.R 0 1) (he : Ends W 2 0) (hc : ∀ c, ¬ W.C c 0) (hE : W.E 0) : ColorOk W 2 ∧ Close W 2 1 := by
  have hk : ∀ k, k < 2 → W.R 0 k := by
    intro k hk
    have : k = 0 ∨ k = 1 := by omega
    rcases this with rfl | rfl
    · exact hW.refl 0
    · exact h01
  refine ⟨fun k hk2 _ c hc' => absurd (hW.cc _ _ _ (hW.symm _ _ (hk k hk2)) hc') (hc c), [0], rfl, List.pairwise_singleton _ _, fun k hk' => ?_, fun k hk2 _ _ _ => ⟨0, by simp, hk k hk2⟩⟩
  rw [List.mem_singleton] at hk'
  subst hk'
  exact ⟨by omega, he, hc, hE⟩

theorem plain_count {d : Nat} {uec : Int} (hb : uec ≤ 32767) (h : ColorOk W d ∧ Close W d 1) : (∀ u, fbCount uec = some u → Passes W d uec u) ∧ (fbCount uec = none → Fails W d uec) :=
  ⟨fun u hu => ⟨h.1, 1, h.2, (count_ok hb).1 u hu⟩, fun hu => .inr ⟨1, h.2, by have := (count_ok hb).2 hu; omega, by have := (count_ok hb).2 hu; omega⟩⟩

/-- `findColorPredecessor` finds nothing if it starts at the tail itself -/
theorem pred_self {o : Int} (h : fbColoredTail m o = some true) : fbPred m o o = some none := by
  unfold fbPred
  rw [h, Option.bind_some, if_neg (by simp), Int.sub_self]
  rfl

theorem colorLeaves_eq {o : Int} {t : Bool} (h : fbColoredTail m o = some t) : fbColorLeaves m o o o = some t := by
  unfold fbColorLeaves
  rw [h, Option.bind_some]
  cases t with
  | false => rfl
  | true => rw [if_neg (by simp), pred_self h]; rfl

theorem next_zero {P : Nat → Prop} {k : Nat} {n : Int} (h : NextOk P k n) (hn : n = 0) : ∀ u, k < u → ¬ P u := by
  rcases h with ⟨y, y1, _, _, y4⟩ | ⟨g, _⟩
  · omega
  · exact g

/-- a list with the two elements 0 and 1 leaves -/
theorem listLeaves (hW : Law W sz) {w1 w2 : Mt} {h1 h2 : Nat} {x1 x2 : Int} (r1 : Reads W m 0 w1 h1 x1) (r2 : Reads W m 1 w2 h2 x2)
    (hn1 : (1 : Int) = 0 + w1.nxt) (hn2 : w2.nxt = 0) {uec : Int} (hb : uec ≤ 32767) :
    ∃ r, fbListLeaves m uec 0 1 = some r ∧ W.R 0 1 ∧ Ends W 2 0 ∧ (∀ u, r = some u → Passes W 2 uec u) ∧ (r = none → Fails W 2 uec) := by
  have le1 := r1.le
  have hh : h1 = 0 := by omega
  subst hh
  have hr : W.R 0 1 := by
    rcases r1.nxt with ⟨y, y1, y2, _, y4⟩ | ⟨_, g⟩
    · have : y = 1 := by omega
      subst this; exact y2
    · omega
  have hen : Ends W 2 0 := by
    intro l hl
    apply Classical.byContradiction
    intro hge
    exact next_zero r2.nxt hn2 l (by omega) (hW.trans _ _ _ (hW.symm _ _ hr) hl)
  have hh2 : h2 = 0 := r2.hd.unique (r1.hd.of hW (hW.symm _ _ hr))
  subst hh2
  have c0 : fbColored m 0 = some (decide (x1 < fbUnc)) := r1.colored
  have u0 : fbIsUec m 0 = some (decide (x1 = fbUec)) := r1.isUec
  have t1 : fbColoredTail m 1 = some (decide (((0 : Nat) : Int) + x2 = (1 : Nat))) := r2.coloredTail
  have hxx : x1 = x2 := by
    have a := r1.headHoc
    have b := r2.headHoc
    have e1 := r1.head
    have e2 := r2.head
    unfold fbHeadHoc at a b
    rw [e1] at a
    rw [e2] at b
    rw [Option.bind_some] at a b
    rw [a] at b
    injection b
  subst hxx
  refine ⟨if x1 < fbUnc then (if x1 = 1 then some uec else none) else fbCount uec, ?_, hr, hen, ?_⟩
  · unfold fbListLeaves
    rw [c0, Option.bind_some]
    by_cases hc : x1 < fbUnc
    · rw [if_pos (by simp [hc]), if_pos hc, colorLeaves_eq t1, Option.map_some]
      congr 1
      by_cases hx : x1 = 1
      · rw [if_pos (by simp [hx]), if_pos hx]
      · rw [if_neg (by simp; omega), if_neg hx]
    · rw [if_neg (by simp [hc]), if_neg hc, u0, Option.bind_some]
      have := (r1.val.uec_iff hW).2 ⟨fun c h => hc ((r1.val.colored_iff hW).2 ⟨c, h⟩), (hW.win _ _ hr (by omega)).2.2⟩
      rw [if_neg (by simp [this])]
  · by_cases hc : x1 < fbUnc
    · rw [if_pos hc]
      obtain ⟨c, hcc⟩ := (r1.val.colored_iff hW).1 hc
      obtain ⟨T, hT⟩ := exists_tail hW hcc
      have hx := r1.val.tail hW hcc hT
      have h1T := hT.2 1 (hW.cc _ _ _ hr hcc)
      obtain ⟨p, q⟩ := two_color hW hr hen hcc
      by_cases hx1 : x1 = 1
      · rw [if_pos hx1]
        refine ⟨fun u hu => ?_, fun h => by cases h⟩
        injection hu with hu
        subst hu
        exact p (fun l hl => by have := hT.2 l hl; omega) uec
      · rw [if_neg hx1]
        refine ⟨fun u hu => (by cases hu), fun _ => q (fun h => ?_) uec⟩
        have := h T hT.1; omega
    · rw [if_neg hc]
      exact plain_count hb (two_plain hW hr hen (fun c h => hc ((r1.val.colored_iff hW).2 ⟨c, h⟩)) (hW.win _ _ hr (by omega)).2.2)

/-! ### `takable` -/

/-- `takable` without the test on the last edge -/
def takeCore (noLoop : Bool) (uec : Int) (m : List Mt) (e : EdgeInfo) : Option (Option Int) :=
  let i1 := (e.v1 : Int) - e.v0
  let i2 := (e.v2 : Int) - e.v0
  (podGet m i1).bind fun w1 =>
  (podGet m i2).bind fun w2 =>
  (fbHead m i1).bind fun h1 =>
  (fbHead m i2).bind fun h2 =>
  (fbColored m i1).bind fun c1 =>
  (fbColored m i2).bind fun c2 =>
  (fbSameColor m i1 i2).bind fun same =>
  if noLoop = true ∧ h1 = h2 then some none
  else if c1 = true ∧ c2 = true ∧ same = false then some none
  else
    if e.v1final = true ∧ e.v2final = true then
      if w1.isolated = true ∧ w2.isolated = true then
        if c2 = true then (fbColorLeaves m i2 1 i2).map fun ok => if ok = true then some uec else none
        else if c1 = true then (fbColoredTail m i1).map fun t => if t = true then some uec else none
        else some (fbCount uec)
      else if 0 ≤ w1.hoc ∧ i2 = i1 + w1.nxt ∧ w2.nxt = 0 then fbListLeaves m uec i1 i2
      else some (some uec)
    else some (some uec)

theorem takable_eq (noLoop : Bool) (uec : Int) (m : List Mt) (e : EdgeInfo) {r : Option Int} (h : takeCore noLoop uec m e = some r) :
    fbTakable noLoop uec m e = some (r.bind (fbFinal e)) := by
  unfold takeCore at h
  unfold fbTakable
  simp only [Option.bind_eq_some_iff] at h
  obtain ⟨w1, a1, w2, a2, h1, a3, h2, a4, c1, a5, c2, a6, same, a7, h⟩ := h
  dsimp only
  rw [a1, Option.bind_some, a2, Option.bind_some, a3, Option.bind_some, a4, Option.bind_some, a5, Option.bind_some, a6, Option.bind_some, a7, Option.bind_some]
  by_cases q1 : noLoop = true ∧ h1 = h2
  · rw [if_pos q1] at h ⊢
    injection h with h
    subst h; rfl
  rw [if_neg q1] at h ⊢
  by_cases q2 : c1 = true ∧ c2 = true ∧ same = false
  · rw [if_pos q2] at h ⊢
    injection h with h
    subst h; rfl
  rw [if_neg q2] at h ⊢
  rw [h]; rfl

theorem isolated_of {k : Nat} {w : Mt} {h : Nat} {x : Int} (r : Reads W m k w h x) (hi : w.isolated = true) : h = k ∧ w.hoc = x ∧ ∀ l, W.R k l → l = k := by
  unfold Mt.isolated at hi
  rw [Bool.and_eq_true, decide_eq_true_eq, decide_eq_true_eq] at hi
  have hh : h = k ∧ w.hoc = x := by
    rcases r.hoc with g | g
    · exact ⟨g.1, g.2.1⟩
    · omega
  obtain ⟨rfl, hx⟩ := hh
  refine ⟨rfl, hx, fun l hl => ?_⟩
  rcases Nat.lt_trichotomy l h with g | g | g
  · exact absurd hl (r.hd.2 l g)
  · exact g
  · exact absurd hl (next_zero r.nxt hi.2 l g)

theorem isolated_iff {k : Nat} {w : Mt} {h : Nat} {x : Int} (r : Reads W m k w h x) : w.isolated = true ↔ ∀ l, W.R k l → l = k := by
  refine ⟨fun h => (isolated_of r h).2.2, fun hl => ?_⟩
  unfold Mt.isolated
  rw [Bool.and_eq_true, decide_eq_true_eq, decide_eq_true_eq]
  have hh := hl _ r.hd.1
  constructor
  · rcases r.hoc with g | g <;> omega
  · rcases r.nxt with ⟨y, y1, y2, _⟩ | ⟨_, g⟩
    · have := hl y y2; omega
    · exact g

/-- `takable`: if it says yes, the new components end properly, if it says no, there is a reason -/
theorem take_ok (hW : Law W sz) (hE : Enc W sz m) {e : EdgeInfo} {s s' : Nat} (hs : s = e.v0) (hlv : Leave s s' e) (h12 : e.v1 < e.v2) (h01 : e.v0 ≤ e.v1) (l2 : e.v2 - e.v0 < W.L) (s2 : e.v2 - e.v0 < sz)
    (hW' : (∀ c c', W.C c (e.v1 - e.v0) → W.C c' (e.v2 - e.v0) → c = c') → Law (W.merge (e.v1 - e.v0) (e.v2 - e.v0)) sz) (noLoop : Bool) {uec : Int} (hb : uec ≤ 32767) :
    ∃ r, takeCore noLoop uec m e = some r ∧
      (∀ u, r = some u → (noLoop = true → ¬ W.R (e.v1 - e.v0) (e.v2 - e.v0)) ∧ (∀ c c', W.C c (e.v1 - e.v0) → W.C c' (e.v2 - e.v0) → c = c') ∧
        Passes (W.merge (e.v1 - e.v0) (e.v2 - e.v0)) (s' - s) uec u) ∧
      (r = none → (noLoop = true ∧ W.R (e.v1 - e.v0) (e.v2 - e.v0)) ∨ (∃ c c', W.C c (e.v1 - e.v0) ∧ W.C c' (e.v2 - e.v0) ∧ c ≠ c') ∨
        Fails (W.merge (e.v1 - e.v0) (e.v2 - e.v0)) (s' - s) uec) := by
  subst hs
  obtain ⟨i1, hi1⟩ : ∃ i1, i1 = e.v1 - e.v0 := ⟨_, rfl⟩
  obtain ⟨i2, hi2⟩ : ∃ i2, i2 = e.v2 - e.v0 := ⟨_, rfl⟩
  rw [← hi1, ← hi2] at hW' ⊢
  rw [← hi2] at l2 s2
  obtain ⟨w1, h1, x1, r1⟩ := hE.reads hW (k := i1) (by omega) (by omega)
  obtain ⟨w2, h2, x2, r2⟩ := hE.reads hW (k := i2) (by omega) (by omega)
  unfold takeCore
  dsimp only
  rw [show (e.v1 : Int) - e.v0 = (i1 : Nat) by omega, show (e.v2 : Int) - e.v0 = (i2 : Nat) by omega, get_nat, r1.get, Option.bind_some, get_nat, r2.get, Option.bind_some, r1.head, Option.bind_some, r2.head, Option.bind_some,
    r1.colored, Option.bind_some, r2.colored, Option.bind_some]
  have hsame : fbSameColor m i1 i2 = some (decide ((h1 : Int) + x1 = h2 + x2)) := by
    unfold fbSameColor
    rw [r1.tailOf, Option.bind_some, r2.tailOf, Option.map_some]
  rw [hsame, Option.bind_some]
  have cc : ∀ {k l c : Nat}, IsHd W k l → (W.C c k ↔ W.C c l) := fun h => ⟨hW.cc _ _ _ h.1, hW.cc _ _ _ (hW.symm _ _ h.1)⟩
  by_cases q1 : noLoop = true ∧ (h1 : Int) = h2
  · rw [if_pos q1]
    have : h1 = h2 := by omega
    subst this
    exact ⟨none, rfl, fun u h => (by cases h), fun _ => .inl ⟨q1.1, hW.trans _ _ _ r1.hd.1 (hW.symm _ _ r2.hd.1)⟩⟩
  rw [if_neg q1]
  have hnl : noLoop = true → ¬ W.R i1 i2 := fun h hr => q1 ⟨h, by rw [r1.hd.unique (r2.hd.of hW hr)]⟩
  by_cases q2 : decide (x1 < fbUnc) = true ∧ decide (x2 < fbUnc) = true ∧ decide ((h1 : Int) + x1 = h2 + x2) = false
  · rw [if_pos q2]
    refine ⟨none, rfl, fun u h => (by cases h), fun _ => .inr (.inl ?_)⟩
    obtain ⟨a, b, c⟩ := q2
    rw [decide_eq_true_eq] at a b
    rw [decide_eq_false_iff_not] at c
    obtain ⟨c1, hc1⟩ := (r1.val.colored_iff hW).1 a
    obtain ⟨c2, hc2⟩ := (r2.val.colored_iff hW).1 b
    refine ⟨c1, c2, (cc r1.hd).2 hc1, (cc r2.hd).2 hc2, fun heq => c ?_⟩
    subst heq
    obtain ⟨T, hT⟩ := exists_tail hW hc1
    have := r1.val.tail hW hc1 hT
    have := r2.val.tail hW hc2 hT
    omega
  rw [if_neg q2]
  have hcomp : ∀ c c', W.C c i1 → W.C c' i2 → c = c' := by
    intro c c' hc hc'
    have hc1 := (cc r1.hd).1 hc
    have hc2 := (cc r2.hd).1 hc'
    obtain ⟨T, hT⟩ := exists_tail hW hc1
    obtain ⟨T', hT'⟩ := exists_tail hW hc2
    have a := r1.val.tail hW hc1 hT
    have b := r2.val.tail hW hc2 hT'
    have : (h1 : Int) + x1 = h2 + x2 := by
      apply Classical.byContradiction
      intro hn
      exact q2 ⟨by rw [decide_eq_true_eq]; exact (r1.val.colored_iff hW).2 ⟨c, hc1⟩, by rw [decide_eq_true_eq]; exact (r2.val.colored_iff hW).2 ⟨c', hc2⟩, by rw [decide_eq_false_iff_not]; exact hn⟩
    have : T = T' := by omega
    subst this
    exact hW.uniq _ _ _ hT.1 hT'.1
  have hM := hW' hcomp
  have hR12 : (W.merge i1 i2).R i1 i2 := .inr (.inl ⟨hW.refl _, hW.refl _⟩)
  -- what remains to be shown
  have key : ∀ r : Option Int, ((∀ u, r = some u → Passes (W.merge i1 i2) (s' - e.v0) uec u) ∧ (r = none → Fails (W.merge i1 i2) (s' - e.v0) uec)) →
      (∀ u, r = some u → (noLoop = true → ¬ W.R i1 i2) ∧ (∀ c c', W.C c i1 → W.C c' i2 → c = c') ∧ Passes (W.merge i1 i2) (s' - e.v0) uec u) ∧
      (r = none → (noLoop = true ∧ W.R i1 i2) ∨ (∃ c c', W.C c i1 ∧ W.C c' i2 ∧ c ≠ c') ∨ Fails (W.merge i1 i2) (s' - e.v0) uec) :=
    fun r h => ⟨fun u hu => ⟨hnl, hcomp, h.1 u hu⟩, fun hr => .inr (.inr (h.2 hr))⟩
  by_cases q3 : e.v1final = true ∧ e.v2final = true
  · rw [if_pos q3]
    obtain ⟨e1, e2, e3⟩ : i1 = 0 ∧ i2 = 1 ∧ s' - e.v0 = 2 := by
      rcases hlv with ⟨a, b, _⟩ | ⟨a, b, _⟩ | ⟨a, b, c, d, g⟩
      · rw [a] at q3; exact absurd q3.1 (by simp)
      · rw [b] at q3; exact absurd q3.2 (by simp)
      · omega
    clear hi1 hi2
    subst e1 e2
    rw [e3] at key ⊢
    have le1 := r1.le
    have hh1 : h1 = 0 := by omega
    subst hh1
    by_cases q4 : w1.isolated = true ∧ w2.isolated = true
    · rw [if_pos q4]
      obtain ⟨-, hx1, is1⟩ := isolated_of r1 q4.1
      obtain ⟨hh2, hx2, is2⟩ := isolated_of r2 q4.2
      subst hh2
      have hen : Ends (W.merge 0 1) 2 0 := by
        rintro l (h | h | h)
        · have := is1 l h; omega
        · have := is2 l h.2; omega
        · have := is1 1 (hW.symm _ _ h.1 |> fun g => hW.symm _ _ g); omega
      have hC : ∀ c l, (W.merge 0 1).C c l → 2 ≤ l → W.C c l := by
        rintro c l (h | h | h) hl
        · exact h
        · have := is1 l (hW.symm _ _ h.1); omega
        · have := is2 l (hW.symm _ _ h.1); omega
      by_cases c2 : x2 < fbUnc
      · rw [if_pos (by simp [c2]), show fbColorLeaves m ((1 : Nat) : Int) 1 ((1 : Nat) : Int) = fbColorLeaves m ((1 : Nat) : Int) ((1 : Nat) : Int) ((1 : Nat) : Int) from rfl, colorLeaves_eq r2.coloredTail, Option.map_some]
        refine ⟨_, rfl, key _ ?_⟩
        obtain ⟨c, hc⟩ := (r2.val.colored_iff hW).1 c2
        obtain ⟨T, hT⟩ := exists_tail hW hc
        have hx := r2.val.tail hW hc hT
        have hc0 : (W.merge 0 1).C c 0 := .inr (.inl ⟨hW.refl _, hc⟩)
        obtain ⟨p, q⟩ := two_color hM hR12 hen hc0
        by_cases ht : ((1 : Nat) : Int) + x2 = (1 : Nat)
        · rw [if_pos (by simpa using ht)]
          refine ⟨fun u hu => ?_, fun h => by cases h⟩
          injection hu with hu
          subst hu
          refine p (fun l hl => ?_) uec
          apply Classical.byContradiction
          intro hge
          have := hT.2 l (hC c l hl (by omega))
          omega
        · rw [if_neg (by simpa using ht)]
          refine ⟨fun u hu => (by cases hu), fun _ => q (fun h => ?_) uec⟩
          have := h T (.inl hT.1)
          have := hT.2 _ hc
          omega
      · rw [if_neg (by simp [c2])]
        have n2 : ∀ c, ¬ W.C c 1 := fun c h => c2 ((r2.val.colored_iff hW).2 ⟨c, h⟩)
        by_cases c1 : x1 < fbUnc
        · rw [if_pos (by simp [c1]), r1.coloredTail, Option.map_some]
          refine ⟨_, rfl, key _ ?_⟩
          obtain ⟨c, hc⟩ := (r1.val.colored_iff hW).1 c1
          obtain ⟨T, hT⟩ := exists_tail hW hc
          have hx := r1.val.tail hW hc hT
          have hc0 : (W.merge 0 1).C c 0 := .inl hc
          obtain ⟨p, q⟩ := two_color hM hR12 hen hc0
          by_cases ht : ((0 : Nat) : Int) + x1 = (0 : Nat)
          · rw [if_pos (by simpa using ht)]
            refine ⟨fun u hu => ?_, fun h => by cases h⟩
            injection hu with hu
            subst hu
            refine p (fun l hl => ?_) uec
            apply Classical.byContradiction
            intro hge
            have := hT.2 l (hC c l hl (by omega))
            omega
          · rw [if_neg (by simpa using ht)]
            refine ⟨fun u hu => (by cases hu), fun _ => q (fun h => ?_) uec⟩
            have := h T (.inl hT.1)
            have h1 : T ≠ 1 := fun h => n2 c (h ▸ hT.1)
            omega
        · rw [if_neg (by simp [c1])]
          refine ⟨_, rfl, key _ (plain_count hb (two_plain hM hR12 hen (fun c h => ?_) (.inr (.inl (hW.refl _)))))⟩
          rcases h with h | h | h
          · exact c1 ((r1.val.colored_iff hW).2 ⟨c, h⟩)
          · exact n2 c h.2
          · exact c1 ((r1.val.colored_iff hW).2 ⟨c, h.2⟩)
    · rw [if_neg q4]
      by_cases q5 : 0 ≤ w1.hoc ∧ ((1 : Nat) : Int) = ((0 : Nat) : Int) + w1.nxt ∧ w2.nxt = 0
      · rw [if_pos q5]
        obtain ⟨r, a1, a2, a3, a4, a5⟩ := listLeaves hW r1 r2 q5.2.1 q5.2.2 hb
        refine ⟨r, a1, key r ?_⟩
        -- the edge connects a component with itself
        have hs : Same W (W.merge 0 1) := by
          refine ⟨rfl, fun k l => ⟨?_, .inl⟩, fun c k => ⟨?_, .inl⟩, fun k => ⟨?_, .inl⟩⟩
          · rintro (h | h | h)
            · exact h
            · exact hW.trans _ _ _ h.1 (hW.trans _ _ _ a2 h.2)
            · exact hW.trans _ _ _ h.1 (hW.trans _ _ _ (hW.symm _ _ a2) h.2)
          · rintro (h | h | h)
            · exact h
            · exact hW.cc _ _ _ (hW.trans _ _ _ (hW.symm _ _ a2) (hW.symm _ _ h.1)) h.2
            · exact hW.cc _ _ _ (hW.trans _ _ _ a2 (hW.symm _ _ h.1)) h.2
          · rintro (h | h | h)
            · exact h
            · exact hW.ec _ _ (hW.symm _ _ h) (hW.win _ _ a2 (by omega)).2.2
            · exact hW.ec _ _ (hW.symm _ _ h) (hW.win _ _ (hW.symm _ _ a2) (by omega)).2.2
        have hco : ColorOk (W.merge 0 1) 2 ↔ ColorOk W 2 := by
          unfold ColorOk Ends
          simp only [hs.R, hs.C]
        have hcl : ∀ n, Close (W.merge 0 1) 2 n ↔ Close W 2 n := by
          intro n
          unfold Close Ends
          simp only [hs.R, hs.C, hs.E]
        unfold Passes at a4 ⊢
        unfold Fails at a5 ⊢
        simp only [hco, hcl]
        exact ⟨a4, a5⟩
      · rw [if_neg q5]
        refine ⟨_, rfl, key _ ⟨fun u hu => ?_, fun h => by cases h⟩⟩
        injection hu with hu
        subst hu
        refine pass_none fun k hk hen => ?_
        have hen0 : ∀ l, (W.merge 0 1).R 0 l → l < 2 := by
          intro l hl
          have : k = 0 ∨ k = 1 := by omega
          rcases this with rfl | rfl
          · exact hen l hl
          · exact hen l (hM.trans _ _ _ (hM.symm _ _ hR12) hl)
        have f0 : ∀ l, W.R 0 l → l < 2 := fun l hl => hen0 l (.inl hl)
        have f1 : ∀ l, W.R 1 l → l < 2 := fun l hl => hen0 l (.inr (.inl ⟨hW.refl _, hl⟩))
        by_cases hr : W.R 0 1
        · refine q5 ⟨?_, ?_, ?_⟩
          · rcases r1.hoc with h | h <;> omega
          · rcases r1.nxt with ⟨y, y1, y2, y3, y4⟩ | ⟨g, _⟩
            · have := f0 y y2; omega
            · exact absurd hr (g 1 (by omega))
          · rcases r2.nxt with ⟨y, y1, y2, y3, y4⟩ | ⟨_, g⟩
            · have := f1 y y2; omega
            · exact g
        · refine q4 ⟨(isolated_iff r1).2 fun l hl => ?_, (isolated_iff r2).2 fun l hl => ?_⟩
          · have := f0 l hl
            have : l ≠ 1 := fun h => hr (h ▸ hl)
            omega
          · have := f1 l hl
            have : l ≠ 0 := fun h => hr (hW.symm _ _ (h ▸ hl))
            omega
  · rw [if_neg q3]
    refine ⟨_, rfl, key _ ⟨fun u hu => ?_, fun h => by cases h⟩⟩
    injection hu with hu
    subst hu
    refine pass_none fun k hk hen => ?_
    rcases hlv with ⟨a, b, c⟩ | ⟨a, b, c, d⟩ | ⟨a, b, _⟩
    · omega
    · have hk0 : k = i1 := by omega
      subst hk0
      have := hen i2 hR12
      omega
    · exact q3 ⟨a, b⟩

/-! ### `doNotTake` -/

/-- `doNotTake` without the test on the last edge -/
def leaveCore (uec : Int) (m : List Mt) (e : EdgeInfo) : Option (Option Int) :=
  let i1 := (e.v1 : Int) - e.v0
  let i2 := (e.v2 : Int) - e.v0
  (podGet m i1).bind fun w1 =>
  (podGet m i2).bind fun w2 =>
  (if e.v1final = true ∧ w1.isolated = true then fbAlone m uec i1 none else some (some uec)).bind fun r1 =>
  match r1 with
  | none => some none
  | some uec =>
    (if e.v2final = true ∧ w2.isolated = true then fbAlone m uec i2 (some 1) else some (some uec)).bind fun r2 =>
    match r2 with
    | none => some none
    | some uec =>
      if e.v1final = true ∧ e.v2final = true ∧ 0 ≤ w1.hoc ∧ i2 = i1 + w1.nxt ∧ w2.nxt = 0 then fbListLeaves m uec i1 i2
      else some (some uec)

theorem notTake_eq (uec : Int) (m : List Mt) (e : EdgeInfo) {r : Option Int} (h : leaveCore uec m e = some r) :
    fbNotTake uec m e = some (r.bind (fbFinal e)) := by
  unfold leaveCore at h
  unfold fbNotTake
  simp only [Option.bind_eq_some_iff] at h
  obtain ⟨w1, a1, w2, a2, r1, a3, h⟩ := h
  dsimp only
  rw [a1, Option.bind_some, a2, Option.bind_some, a3, Option.bind_some]
  cases r1 with
  | none =>
    dsimp only at h ⊢
    injection h with h
    subst h; rfl
  | some u1 =>
    dsimp only at h ⊢
    rw [Option.bind_eq_some_iff] at h
    obtain ⟨r2, a4, h⟩ := h
    rw [a4, Option.bind_some]
    cases r2 with
    | none =>
      dsimp only at h ⊢
      injection h with h
      subst h; rfl
    | some u2 =>
      dsimp only at h ⊢
      rw [h]; rfl

/-- an uncoloured component with edges ends with `k` -/
def Counts (W : World) (d k : Nat) : Prop := Ends W d k ∧ (∀ c, ¬ W.C c k) ∧ W.E k

theorem alone_ok (hW : Law W sz) {k : Nat} {w : Mt} {h : Nat} {x : Int} (r : Reads W m k w h x) (hi : w.isolated = true) {lo : Option Int} (hlo : lo = none ∨ lo = some (k : Int)) (uec : Int) :
    ∃ u, fbAlone m uec k lo = some u ∧ ((∃ c, W.C c k ∧ ((u = some uec ∧ ∀ l, W.C c l → l ≤ k) ∨ (u = none ∧ ∃ l, W.C c l ∧ k < l))) ∨
      ((∀ c, ¬ W.C c k) ∧ W.E k ∧ u = fbCount uec) ∨ ((∀ c, ¬ W.C c k) ∧ ¬ W.E k ∧ u = some uec)) := by
  obtain ⟨rfl, -, -⟩ := isolated_of r hi
  unfold fbAlone
  rw [r.colored, Option.bind_some]
  by_cases c1 : x < fbUnc
  · rw [if_pos (by simp [c1])]
    obtain ⟨c, hc⟩ := (r.val.colored_iff hW).1 c1
    obtain ⟨T, hT⟩ := exists_tail hW hc
    have hx := r.val.tail hW hc hT
    have hle := hT.2 _ hc
    refine ⟨if x = 0 then some uec else none, ?_, .inl ⟨c, hc, ?_⟩⟩
    · have heq : ∀ t : Bool, t = decide ((h : Int) + x = h) → (some (if t = true then some uec else none) : Option (Option Int)) = some (if x = 0 then some uec else none) := by
        intro t ht
        rw [ht]
        by_cases hx0 : x = 0
        · rw [if_pos hx0, if_pos (by rw [decide_eq_true_eq]; omega)]
        · rw [if_neg hx0, if_neg (by rw [decide_eq_true_eq]; omega)]
      rcases hlo with rfl | rfl
      · dsimp only
        rw [r.coloredTail, Option.map_some]
        exact heq _ rfl
      · dsimp only
        rw [colorLeaves_eq r.coloredTail, Option.map_some]
        exact heq _ rfl
    · by_cases hx0 : x = 0
      · rw [if_pos hx0]
        exact .inl ⟨rfl, fun l hl => by have := hT.2 l hl; omega⟩
      · rw [if_neg hx0]
        exact .inr ⟨rfl, T, hT.1, by omega⟩
  · rw [if_neg (by simp [c1]), r.isUec, Option.map_some]
    have hn : ∀ c, ¬ W.C c h := fun c hc => c1 ((r.val.colored_iff hW).2 ⟨c, hc⟩)
    by_cases hu : x = fbUec
    · refine ⟨_, rfl, .inr (.inl ⟨hn, ((r.val.uec_iff hW).1 hu).2, ?_⟩)⟩
      by_cases h0 : 0 ≤ uec
      · rw [if_pos ⟨h0, by rw [decide_eq_true_eq]; exact hu⟩]
      · rw [if_neg (fun h => h0 h.1)]
        unfold fbCount
        rw [if_neg (by omega), if_neg (by omega)]
    · refine ⟨_, rfl, .inr (.inr ⟨hn, fun he => hu ((r.val.uec_iff hW).2 ⟨hn, he⟩), ?_⟩)⟩
      rw [if_neg (fun h => hu (by simpa using h.2))]

theorem alone_step (hW : Law W sz) {k d : Nat} {w : Mt} {h : Nat} {x : Int} (r : Reads W m k w h x) (hen : w.isolated = true ↔ Ends W d k) {fin : Bool} (hf : fin = true) {lo : Option Int} (hlo : lo = none ∨ lo = some (k : Int))
    {uec : Int} (hb : uec ≤ 32767) : ∃ u, (if fin = true ∧ w.isolated = true then fbAlone m uec k lo else some (some uec)) = some u ∧
      (∀ v, u = some v → (Ends W d k → ∀ c, W.C c k → ∀ l, W.C c l → l ≤ k) ∧ ((Counts W d k ∧ Dec uec 1 v) ∨ (¬ Counts W d k ∧ v = uec))) ∧
      (u = none → Ends W d k ∧ ((∃ c l, W.C c k ∧ W.C c l ∧ k < l) ∨ (Counts W d k ∧ uec = 0))) := by
  by_cases hi : w.isolated = true
  · rw [if_pos ⟨hf, hi⟩]
    have he := hen.1 hi
    obtain ⟨u, hu, h⟩ := alone_ok hW r hi hlo uec
    refine ⟨u, hu, ?_⟩
    rcases h with ⟨c, hc, ⟨rfl, g⟩ | ⟨rfl, l, hl, g⟩⟩ | ⟨hn, hE, rfl⟩ | ⟨hn, hE, rfl⟩
    · refine ⟨fun v hv => ?_, fun h => by cases h⟩
      injection hv with hv
      subst hv
      refine ⟨fun _ c' hc' l hl => ?_, .inr ⟨fun hcn => hcn.2.1 c hc, rfl⟩⟩
      have := hW.uniq _ _ _ hc hc'
      subst this
      exact g l hl
    · exact ⟨fun v hv => (by cases hv), fun _ => ⟨he, .inl ⟨c, l, hc, hl, g⟩⟩⟩
    · exact ⟨fun v hv => ⟨fun _ c' hc' => absurd hc' (hn c'), .inl ⟨⟨he, hn, hE⟩, (count_ok hb).1 v hv⟩⟩, fun hv => ⟨he, .inr ⟨⟨he, hn, hE⟩, (count_ok hb).2 hv⟩⟩⟩
    · refine ⟨fun v hv => ?_, fun h => by cases h⟩
      injection hv with hv
      subst hv
      exact ⟨fun _ c' hc' => absurd hc' (hn c'), .inr ⟨fun hcn => hE hcn.2.2, rfl⟩⟩
  · rw [if_neg (fun h => hi h.2)]
    have he : ¬ Ends W d k := fun h => hi (hen.2 h)
    refine ⟨_, rfl, fun v hv => ?_, fun h => by cases h⟩
    injection hv with hv
    subst hv
    exact ⟨fun h => absurd h he, .inr ⟨fun h => he h.1, rfl⟩⟩

theorem alone_skip {fin : Bool} (hf : fin = false) {w : Mt} {a : Option (Option Int)} {uec : Int} :
    (if fin = true ∧ w.isolated = true then a else some (some uec)) = some (some uec) := by
  rw [if_neg (by rw [hf]; simp)]

theorem close_single {d k : Nat} (hd : ∀ j, j < d → Ends W d j → (∀ c, ¬ W.C c j) → W.E j → j = k) (hr : W.R k k) (hk : k < d) (h : Counts W d k) : Close W d 1 := by
  refine ⟨[k], rfl, List.pairwise_singleton _ _, fun j hj => ?_, fun j a b c e => ⟨k, by simp, ?_⟩⟩
  · rw [List.mem_singleton] at hj
    subst hj
    exact ⟨hk, h⟩
  · rw [hd j a b c e]; exact hr

theorem leave_ok (hW : Law W sz) (hE : Enc W sz m) {e : EdgeInfo} {s s' : Nat} (hs : s = e.v0) (hlv : Leave s s' e) (h12 : e.v1 < e.v2) (h01 : e.v0 ≤ e.v1) (l2 : e.v2 - e.v0 < W.L) (s2 : e.v2 - e.v0 < sz)
    {uec : Int} (hb : uec ≤ 32767) :
    ∃ r, leaveCore uec m e = some r ∧ (∀ u, r = some u → Passes W (s' - s) uec u) ∧ (r = none → Fails W (s' - s) uec) := by
  subst hs
  obtain ⟨i1, hi1⟩ : ∃ i1, i1 = e.v1 - e.v0 := ⟨_, rfl⟩
  obtain ⟨i2, hi2⟩ : ∃ i2, i2 = e.v2 - e.v0 := ⟨_, rfl⟩
  rw [← hi2] at l2 s2
  obtain ⟨w1, h1, x1, r1⟩ := hE.reads hW (k := i1) (by omega) (by omega)
  obtain ⟨w2, h2, x2, r2⟩ := hE.reads hW (k := i2) (by omega) (by omega)
  unfold leaveCore
  dsimp only
  rw [show (e.v1 : Int) - e.v0 = (i1 : Nat) by omega, show (e.v2 : Int) - e.v0 = (i2 : Nat) by omega, get_nat, r1.get, Option.bind_some, get_nat, r2.get, Option.bind_some]
  have keep : ∀ r : Option Int, r = some uec → Passes W (s' - e.v0) uec uec → (∀ u, r = some u → Passes W (s' - e.v0) uec u) ∧ (r = none → Fails W (s' - e.v0) uec) := by
    intro r hr hp
    subst hr
    exact ⟨fun u hu => (Option.some.inj hu) ▸ hp, fun h => by cases h⟩
  rcases hlv with ⟨a, b, c⟩ | ⟨a, b, c, d⟩ | ⟨a, b, c, d, g⟩
  · -- no vertex leaves
    rw [alone_skip a, Option.bind_some]
    dsimp only
    rw [alone_skip b, Option.bind_some]
    dsimp only
    rw [if_neg (by rw [a]; simp)]
    exact ⟨_, rfl, keep _ rfl (pass_none fun k hk => by omega)⟩
  · -- the first vertex leaves
    have e0 : i1 = 0 := by omega
    have ed : s' - e.v0 = 1 := by omega
    clear hi1
    subst e0
    rw [ed]
    have hen : w1.isolated = true ↔ Ends W 1 0 := by
      rw [isolated_iff r1]
      exact ⟨fun h l hl => by have := h l hl; omega, fun h l hl => by have := h l hl; omega⟩
    obtain ⟨u, hu, p, q⟩ := alone_step hW r1 hen a (.inl rfl) hb
    rw [hu, Option.bind_some]
    have z : ∀ k : Nat, k < 1 → k = 0 := fun k h => by omega
    cases u with
    | none =>
      refine ⟨none, rfl, fun u h => (by cases h), fun _ => ?_⟩
      obtain ⟨he, ⟨c', l, hc, hl, hlt⟩ | ⟨hcn, h0⟩⟩ := q rfl
      · refine .inl fun hco => ?_
        have := he l (hco 0 (by omega) he c' hc l hl)
        omega
      · exact .inr ⟨1, close_single (fun j hj _ _ _ => z j hj) (hW.refl _) (by omega) hcn, by omega, by omega⟩
    | some v =>
      dsimp only
      rw [alone_skip b, Option.bind_some]
      dsimp only
      rw [if_neg (by rw [b]; simp)]
      refine ⟨_, rfl, fun u hu => ?_, fun h => by cases h⟩
      injection hu with hu
      subst hu
      obtain ⟨hc, hd⟩ := p v rfl
      refine ⟨fun k hk he c' hc' l hl => ?_, ?_⟩
      · have := z k hk
        subst this
        have := hc he c' hc' l hl
        have : l = 0 := by omega
        subst this
        exact hW.refl _
      · rcases hd with ⟨hcn, hd⟩ | ⟨hcn, rfl⟩
        · exact ⟨1, close_single (fun j hj _ _ _ => z j hj) (hW.refl _) (by omega) hcn, hd⟩
        · exact ⟨0, close_zero fun k hk h1 h2 h3 => hcn (by rw [← z k hk]; exact ⟨h1, h2, h3⟩), dec_zero⟩
  · -- both vertices leave
    have e0 : i1 = 0 := by omega
    have e1 : i2 = 1 := by omega
    have ed : s' - e.v0 = 2 := by omega
    clear hi1 hi2
    subst e0 e1
    rw [ed] at keep ⊢
    by_cases hr : W.R 0 1
    · -- they are connected
      have ni1 : ¬ (e.v1final = true ∧ w1.isolated = true) := fun h => by have := (isolated_iff r1).1 h.2 1 hr; omega
      have ni2 : ¬ (e.v2final = true ∧ w2.isolated = true) := fun h => by have := (isolated_iff r2).1 h.2 0 (hW.symm _ _ hr); omega
      rw [if_neg ni1, Option.bind_some]
      dsimp only
      rw [if_neg ni2, Option.bind_some]
      dsimp only
      by_cases q5 : e.v1final = true ∧ e.v2final = true ∧ 0 ≤ w1.hoc ∧ ((1 : Nat) : Int) = ((0 : Nat) : Int) + w1.nxt ∧ w2.nxt = 0
      · rw [if_pos q5]
        obtain ⟨r, a1, _, _, a4, a5⟩ := listLeaves hW r1 r2 q5.2.2.2.1 q5.2.2.2.2 hb
        exact ⟨r, a1, a4, a5⟩
      · rw [if_neg q5]
        refine ⟨_, rfl, keep _ rfl (pass_none fun k hk hen => q5 ⟨a, b, ?_, ?_, ?_⟩)⟩
        all_goals
          have f0 : ∀ l, W.R 0 l → l < 2 := by
            intro l hl
            have : k = 0 ∨ k = 1 := by omega
            rcases this with rfl | rfl
            · exact hen l hl
            · exact hen l (hW.trans _ _ _ (hW.symm _ _ hr) hl)
        · have := r1.le
          rcases r1.hoc with h | h <;> omega
        · rcases r1.nxt with ⟨y, y1, y2, y3, y4⟩ | ⟨g, _⟩
          · have := f0 y y2; omega
          · exact absurd hr (g 1 (by omega))
        · rcases r2.nxt with ⟨y, y1, y2, y3, y4⟩ | ⟨_, g⟩
          · have := f0 y (hW.trans _ _ _ hr y2); omega
          · exact g
    · -- they are not connected
      have hen0 : w1.isolated = true ↔ Ends W 2 0 := by
        rw [isolated_iff r1]
        refine ⟨fun h l hl => by have := h l hl; omega, fun h l hl => ?_⟩
        have := h l hl
        have : l ≠ 1 := fun h => hr (h ▸ hl)
        omega
      have hen1 : w2.isolated = true ↔ Ends W 2 1 := by
        rw [isolated_iff r2]
        refine ⟨fun h l hl => by have := h l hl; omega, fun h l hl => ?_⟩
        have := h l hl
        have : l ≠ 0 := fun h => hr (hW.symm _ _ (h ▸ hl))
        omega
      have z : ∀ k : Nat, k < 2 → k = 0 ∨ k = 1 := fun k h => by omega
      have both : Counts W 2 0 → Counts W 2 1 → Close W 2 2 := by
        intro c0 c1
        refine ⟨[0, 1], rfl, by simp [hr], fun k hk => ?_, fun k hk _ _ _ => ⟨k, ?_, hW.refl _⟩⟩
        · simp only [List.mem_cons, List.not_mem_nil, or_false] at hk
          rcases hk with rfl | rfl
          · exact ⟨by omega, c0⟩
          · exact ⟨by omega, c1⟩
        · rcases z k hk with rfl | rfl <;> simp
      have one0 : Counts W 2 0 → ¬ Counts W 2 1 → Close W 2 1 := by
        intro c0 c1
        refine close_single (fun j hj h1 h2 h3 => ?_) (hW.refl 0) (by omega) c0
        rcases z j hj with rfl | rfl
        · rfl
        · exact absurd ⟨h1, h2, h3⟩ c1
      have one1 : ¬ Counts W 2 0 → Counts W 2 1 → Close W 2 1 := by
        intro c0 c1
        refine close_single (fun j hj h1 h2 h3 => ?_) (hW.refl 1) (by omega) c1
        rcases z j hj with rfl | rfl
        · exact absurd ⟨h1, h2, h3⟩ c0
        · rfl
      have non : ¬ Counts W 2 0 → ¬ Counts W 2 1 → Close W 2 0 := by
        intro c0 c1
        refine close_zero fun j hj h1 h2 h3 => ?_
        rcases z j hj with rfl | rfl
        · exact absurd ⟨h1, h2, h3⟩ c0
        · exact absurd ⟨h1, h2, h3⟩ c1
      obtain ⟨u, hu, p, q⟩ := alone_step hW r1 hen0 a (.inl rfl) hb
      rw [hu, Option.bind_some]
      cases u with
      | none =>
        refine ⟨none, rfl, fun u h => (by cases h), fun _ => ?_⟩
        obtain ⟨he, ⟨c', l, hc, hl, hlt⟩ | ⟨hcn, h0⟩⟩ := q rfl
        · refine .inl fun hco => ?_
          have hl0 := hco 0 (by omega) he c' hc l hl
          have := he l hl0
          have : l ≠ 1 := fun h => hr (h ▸ hl0)
          omega
        · by_cases c1 : Counts W 2 1
          · exact .inr ⟨2, both hcn c1, by omega, by omega⟩
          · exact .inr ⟨1, one0 hcn c1, by omega, by omega⟩
      | some v =>
        dsimp only
        obtain ⟨p1, p2⟩ := p v rfl
        have hb' : v ≤ 32767 := by
          rcases p2 with ⟨_, h⟩ | ⟨_, h⟩
          · unfold Dec at h; omega
          · omega
        obtain ⟨u2, hu2, p', q'⟩ := alone_step hW r2 hen1 b (lo := some 1) (.inr rfl) hb'
        rw [hu2, Option.bind_some]
        cases u2 with
        | none =>
          refine ⟨none, rfl, fun u h => (by cases h), fun _ => ?_⟩
          obtain ⟨he, ⟨c', l, hc, hl, hlt⟩ | ⟨hcn, h0⟩⟩ := q' rfl
          · refine .inl fun hco => ?_
            have := he l (hco 1 (by omega) he c' hc l hl)
            omega
          · rcases p2 with ⟨c0, h⟩ | ⟨c0, h⟩
            · unfold Dec at h
              exact .inr ⟨2, both c0 hcn, by omega, by omega⟩
            · exact .inr ⟨1, one1 c0 hcn, by omega, by omega⟩
        | some v2 =>
          dsimp only
          have q5 : ¬ (e.v1final = true ∧ e.v2final = true ∧ 0 ≤ w1.hoc ∧ ((1 : Nat) : Int) = ((0 : Nat) : Int) + w1.nxt ∧ w2.nxt = 0) := by
            rintro ⟨_, _, _, h, _⟩
            rcases r1.nxt with ⟨y, y1, y2, y3, y4⟩ | ⟨_, g⟩
            · have : y = 1 := by omega
              subst this; exact hr y2
            · omega
          rw [if_neg q5]
          refine ⟨_, rfl, fun u hu => ?_, fun h => by cases h⟩
          injection hu with hu
          subst hu
          obtain ⟨p3, p4⟩ := p' v2 rfl
          refine ⟨fun k hk he c' hc' l hl => ?_, ?_⟩
          · rcases z k hk with rfl | rfl
            · have := p1 he c' hc' l hl
              have : l = 0 := by omega
              subst this
              exact hW.refl _
            · have hl1 := p3 he c' hc' l hl
              rcases z l (by omega) with rfl | rfl
              · -- a vertex with the same colour in another component
                exfalso
                by_cases e0 : Ends W 2 0
                · have := p1 e0 c' hl 1 hc'
                  omega
                · refine e0 fun j hj => ?_
                  have := p3 he c' hc' j (hW.cc _ _ _ hj hl)
                  omega
              · exact hW.refl _
          · rcases p2 with ⟨c0, d0⟩ | ⟨c0, d0⟩ <;> rcases p4 with ⟨c1, d1⟩ | ⟨c1, d1⟩
            · refine ⟨2, both c0 c1, ?_⟩
              unfold Dec at *; omega
            · refine ⟨1, one0 c0 c1, ?_⟩
              unfold Dec at *; omega
            · refine ⟨1, one1 c0 c1, ?_⟩
              unfold Dec at *; omega
            · refine ⟨0, non c0 c1, ?_⟩
              unfold Dec; omega

end TdZdd.Fb
