import Verif.FbLists

/-! Proofs about `FrontierBasedSearch` (2): what the array stands for, and the functions that only read it. -/

namespace TdZdd.Fb

open Gr Deg

/-- what the array stands for: the vertices are the indices below `L`; `R` says that two of them are connected, `C c` that the component has the colour `c`, `E` that it has an edge -/
structure World where
  L : Nat
  R : Nat → Nat → Prop
  C : Nat → Nat → Prop
  E : Nat → Prop

/-- what holds at all times -/
structure Law (W : World) (sz : Nat) : Prop where
  refl : ∀ k, W.R k k
  symm : ∀ k l, W.R k l → W.R l k
  trans : ∀ k l j, W.R k l → W.R l j → W.R k j
  win : ∀ k l, W.R k l → k ≠ l → k < sz ∧ k < W.L ∧ W.E k
  cin : ∀ c k, W.C c k → k < W.L
  cc : ∀ c k l, W.R k l → W.C c k → W.C c l
  uniq : ∀ c c' k, W.C c k → W.C c' k → c = c'
  ec : ∀ k l, W.R k l → W.E k → W.E l
  small : W.L ≤ 32766
  size : sz ≤ 32766

/-- `T` is the last vertex of the colour -/
def IsTail (W : World) (c T : Nat) : Prop := W.C c T ∧ ∀ t, W.C c t → t ≤ T

/-- the value `hoc` of the head `k` of a list -/
def HVal (W : World) (k : Nat) (x : Int) : Prop :=
  (∃ c T, W.C c k ∧ IsTail W c T ∧ x = (T : Int) - k) ∨ ((∀ c, ¬ W.C c k) ∧ ((W.E k ∧ x = fbUec) ∨ (¬ W.E k ∧ x = fbUnc)))

/-- `h` is the first vertex that is connected with `k` -/
def IsHd (W : World) (k h : Nat) : Prop := W.R k h ∧ ∀ j, j < h → ¬ W.R k j

/-- the value `hoc` -/
def HeadOk (W : World) (k : Nat) (x : Int) : Prop := ∃ h, IsHd W k h ∧ ((h = k ∧ HVal W k x) ∨ (h < k ∧ x = (h : Int) - k))

/-- the array -/
structure Enc (W : World) (sz : Nat) (m : List Mt) : Prop where
  len : m.length = sz
  ent : ∀ k, k < W.L → k < sz → ∃ w, m[k]? = some w ∧ HeadOk W k w.hoc ∧ NextOk (W.R k) k w.nxt

variable {W : World} {sz : Nat} {m : List Mt}

theorem IsTail.unique {c T T' : Nat} (h : IsTail W c T) (h' : IsTail W c T') : T = T' := by
  have := h.2 _ h'.1
  have := h'.2 _ h.1
  omega

theorem IsHd.unique {k h h' : Nat} (a : IsHd W k h) (b : IsHd W k h') : h = h' := by
  rcases Nat.lt_trichotomy h h' with g | g | g
  · exact absurd a.1 (b.2 h g)
  · exact g
  · exact absurd b.1 (a.2 h' g)

theorem IsHd.le (hW : Law W sz) {k h : Nat} (a : IsHd W k h) : h ≤ k := by
  rcases Nat.lt_or_ge k h with g | g
  · exact absurd (hW.refl k) (a.2 k g)
  · exact g

theorem IsHd.of (hW : Law W sz) {k l h : Nat} (a : IsHd W k h) (r : W.R l k) : IsHd W l h :=
  ⟨hW.trans _ _ _ r a.1, fun j hj hr => a.2 j hj (hW.trans _ _ _ (hW.symm _ _ r) hr)⟩

theorem IsHd.self (hW : Law W sz) {k h : Nat} (a : IsHd W k h) : IsHd W h h := a.of hW (hW.symm _ _ a.1)

/-- the facts about a member of the world that is within the array -/
theorem Enc.at (hW : Law W sz) (hE : Enc W sz m) {k : Nat} (h1 : k < W.L) (h2 : k < sz) :
    ∃ w h u, m[k]? = some w ∧ IsHd W k h ∧ h ≤ k ∧ ((h = k ∧ 0 ≤ w.hoc) ∨ (h < k ∧ w.hoc = (h : Int) - k)) ∧ NextOk (W.R k) k w.nxt ∧ m[h]? = some u ∧ HVal W h u.hoc ∧ (h = k → u = w) := by
  obtain ⟨w, hw, ⟨h, hh, hor⟩, hn⟩ := hE.ent k h1 h2
  have hle := hh.le hW
  have hpos : ∀ j x, HVal W j x → 0 ≤ x := by
    intro j x hx
    rcases hx with ⟨c, T, q1, q2, q3⟩ | ⟨_, ⟨_, q⟩ | ⟨_, q⟩⟩
    · have := q2.2 j q1; omega
    · rw [q]; decide
    · rw [q]; decide
  rcases hor with ⟨rfl, hv⟩ | ⟨hlt, hv⟩
  · exact ⟨w, h, w, hw, hh, hle, .inl ⟨rfl, hpos _ _ hv⟩, hn, hw, hv, fun _ => rfl⟩
  · obtain ⟨u, hu, ⟨h', hh', hor'⟩, _⟩ := hE.ent h (by omega) (by omega)
    have he : h' = h := hh'.unique (hh.self hW)
    subst he
    rcases hor' with ⟨_, hv'⟩ | ⟨hlt', _⟩
    · exact ⟨w, h', u, hw, hh, hle, .inr ⟨hlt, hv⟩, hn, hu, hv', fun h => by omega⟩
    · omega

/-- everything that is read at an index -/
structure Reads (W : World) (m : List Mt) (k : Nat) (w : Mt) (h : Nat) (x : Int) : Prop where
  get : m[k]? = some w
  hd : IsHd W k h
  le : h ≤ k
  hoc : (h = k ∧ w.hoc = x ∧ 0 ≤ x) ∨ (h < k ∧ w.hoc = (h : Int) - k)
  nxt : NextOk (W.R k) k w.nxt
  val : HVal W h x
  head : fbHead m k = some (h : Int)
  headHoc : fbHeadHoc m k = some x
  colored : fbColored m k = some (decide (x < fbUnc))
  isUec : fbIsUec m k = some (decide (x = fbUec))
  tailOf : fbTailOf m k = some ((h : Int) + x)
  coloredTail : fbColoredTail m k = some (decide ((h : Int) + x = k))

theorem Enc.reads (hW : Law W sz) (hE : Enc W sz m) {k : Nat} (h1 : k < W.L) (h2 : k < sz) : ∃ w h x, Reads W m k w h x := by
  obtain ⟨w, h, u, q1, q2, q3, q4, q5, q6, q7, q8⟩ := hE.at hW h1 h2
  have hhead : fbHead m k = some (h : Int) := by
    unfold fbHead
    rw [get_nat, q1, Option.map_some]
    rcases q4 with ⟨a, b⟩ | ⟨a, b⟩
    · rw [if_pos b, a]
    · rw [if_neg (by omega)]; congr 1; omega
  have hhoc : fbHeadHoc m k = some u.hoc := by
    unfold fbHeadHoc
    rw [hhead, Option.bind_some, get_nat, q6]; rfl
  have hval : HVal W h u.hoc := q7
  have hnn : 0 ≤ u.hoc := by
    rcases hval with ⟨c, T, a1, a2, a3⟩ | ⟨_, ⟨_, a⟩ | ⟨_, a⟩⟩
    · have := a2.2 h a1; omega
    · rw [a]; decide
    · rw [a]; decide
  refine ⟨w, h, u.hoc, q1, q2, q3, ?_, q5, hval, hhead, hhoc, ?_, ?_, ?_, ?_⟩
  · rcases q4 with ⟨a, b⟩ | ⟨a, b⟩
    · exact .inl ⟨a, by rw [q8 a], hnn⟩
    · exact .inr ⟨a, b⟩
  · unfold fbColored; rw [hhoc]; rfl
  · unfold fbIsUec; rw [hhoc]; rfl
  · unfold fbTailOf; rw [hhead, Option.bind_some, get_nat, q6]; rfl
  · unfold fbColoredTail
    rw [get_nat, q1, Option.bind_some]
    rcases q4 with ⟨a, b⟩ | ⟨a, b⟩
    · rw [q8 a]
      by_cases hz : w.hoc = 0
      · rw [if_pos hz]; congr 1; symm; rw [decide_eq_true_eq]; omega
      · rw [if_neg hz, if_neg (by omega)]; congr 1; symm; rw [decide_eq_false_iff_not]; omega
    · rw [if_neg (by omega), if_pos (by omega), show (k : Int) + w.hoc = (h : Nat) by omega, get_nat, q6, Option.map_some]
      congr 1
      rw [decide_eq_decide]
      omega

/-- the colour of a component, given the value of its head -/
theorem HVal.colored_iff (hW : Law W sz) {h : Nat} {x : Int} (hv : HVal W h x) : x < fbUnc ↔ ∃ c, W.C c h := by
  have hu : fbUnc = 32766 := rfl
  have hu' : fbUec = 32767 := rfl
  constructor
  · intro hx
    rcases hv with ⟨c, T, a1, a2, a3⟩ | ⟨_, ⟨_, a⟩ | ⟨_, a⟩⟩
    · exact ⟨c, a1⟩
    · omega
    · omega
  · rintro ⟨c, hc⟩
    rcases hv with ⟨c, T, a1, a2, a3⟩ | ⟨a, _⟩
    · have := hW.cin _ _ a2.1
      have := hW.small
      omega
    · exact absurd hc (a c)

theorem HVal.uec_iff (hW : Law W sz) {h : Nat} {x : Int} (hv : HVal W h x) : x = fbUec ↔ (∀ c, ¬ W.C c h) ∧ W.E h := by
  have hu : fbUnc = 32766 := rfl
  have hu' : fbUec = 32767 := rfl
  constructor
  · intro hx
    rcases hv with ⟨c, T, a1, a2, a3⟩ | ⟨b, ⟨b', a⟩ | ⟨_, a⟩⟩
    · have := hW.cin _ _ a2.1
      have := hW.small
      omega
    · exact ⟨b, b'⟩
    · omega
  · rintro ⟨hc, he⟩
    rcases hv with ⟨c, T, a1, a2, a3⟩ | ⟨b, ⟨b', a⟩ | ⟨b', a⟩⟩
    · exact absurd a1 (hc c)
    · exact a
    · exact absurd he b'

theorem HVal.tail (hW : Law W sz) {h c T : Nat} {x : Int} (hv : HVal W h x) (hc : W.C c h) (hT : IsTail W c T) : x = (T : Int) - h := by
  rcases hv with ⟨c', T', a1, a2, a3⟩ | ⟨a, _⟩
  · have := hW.uniq _ _ _ a1 hc
    subst this
    rw [a2.unique hT] at a3
    exact a3
  · exact absurd hc (a c)

/-- the tail of a colour exists -/
theorem exists_tail (hW : Law W sz) {c k : Nat} (hc : W.C c k) : ∃ T, IsTail W c T := by
  have : ∀ n T, W.C c T → W.L - T ≤ n → ∃ T, IsTail W c T := by
    intro n
    induction n with
    | zero => intro T hT hn; have := hW.cin c T hT; omega
    | succ n ih =>
      intro T hT hn
      by_cases hex : ∃ t, W.C c t ∧ T < t
      · obtain ⟨t, h1, h2⟩ := hex
        exact ih t h1 (by omega)
      · refine ⟨T, hT, fun t ht => ?_⟩
        apply Classical.byContradiction
        intro hn
        exact hex ⟨t, ht, by omega⟩
  exact this _ k hc (Nat.le_refl _)

theorem IsHd.exists (hW : Law W sz) (k : Nat) : ∃ h, IsHd W k h := by
  have : ∀ n j, j ≤ n → W.R k j → ∃ h, IsHd W k h := by
    intro n
    induction n with
    | zero => intro j hj hr; exact ⟨j, hr, fun l hl => by omega⟩
    | succ n ih =>
      intro j hj hr
      by_cases hex : ∃ l, l < j ∧ W.R k l
      · obtain ⟨l, h1, h2⟩ := hex
        exact ih l (by omega) h2
      · exact ⟨j, hr, fun l hl hn => hex ⟨l, hl, hn⟩⟩
  exact this k k (Nat.le_refl _) (hW.refl k)

/-! ### other descriptions of the same world -/

/-- the same world -/
structure Same (W W' : World) : Prop where
  L : W'.L = W.L
  R : ∀ k l, W'.R k l ↔ W.R k l
  C : ∀ c k, W'.C c k ↔ W.C c k
  E : ∀ k, W'.E k ↔ W.E k

theorem Same.isTail {W' : World} (h : Same W W') {c T : Nat} (hT : IsTail W c T) : IsTail W' c T :=
  ⟨(h.C c T).2 hT.1, fun t ht => hT.2 t ((h.C c t).1 ht)⟩

theorem Same.hval {W' : World} (h : Same W W') {k : Nat} {x : Int} (hv : HVal W k x) : HVal W' k x := by
  rcases hv with ⟨c, T, a1, a2, a3⟩ | ⟨a, hor⟩
  · exact .inl ⟨c, T, (h.C c k).2 a1, h.isTail a2, a3⟩
  · refine .inr ⟨fun c hc => a c ((h.C c k).1 hc), ?_⟩
    rw [h.E]; exact hor

theorem Same.isHd {W' : World} (h : Same W W') {k j : Nat} (hv : IsHd W k j) : IsHd W' k j :=
  ⟨(h.R k j).2 hv.1, fun l hl hr => hv.2 l hl ((h.R k l).1 hr)⟩

theorem Enc.same {W' : World} (h : Same W W') (hE : Enc W sz m) : Enc W' sz m := by
  refine ⟨hE.len, fun k h1 h2 => ?_⟩
  rw [h.L] at h1
  obtain ⟨w, a1, ⟨j, a2, a3⟩, a4⟩ := hE.ent k h1 h2
  refine ⟨w, a1, ⟨j, h.isHd a2, a3.imp (fun q => ⟨q.1, h.hval q.2⟩) id⟩, a4.congr fun u _ => (h.R k u).symm⟩

end TdZdd.Fb
