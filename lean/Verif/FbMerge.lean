import Verif.FbWorld

/-! Proofs about `FrontierBasedSearch` (3): `mergeLists`. -/

namespace TdZdd.Fb

open Gr Deg

variable {W : World} {sz : Nat} {m : List Mt}

/-- `a` and `b` have been connected by an edge -/
def World.merge (W : World) (a b : Nat) : World where
  L := W.L
  R x y := W.R x y ∨ (W.R x a ∧ W.R b y) ∨ (W.R x b ∧ W.R a y)
  C c x := W.C c x ∨ (W.R x a ∧ W.C c b) ∨ (W.R x b ∧ W.C c a)
  E x := W.E x ∨ W.R x a ∨ W.R x b

/-- `mergeLists` after the heads have been found and ordered -/
def mergeCore (m : List Mt) (p1 p2 : Int) : Option (List Mt) :=
    (podGet m p1).bind fun w1 =>
    (podGet m p2).bind fun w2 =>
    let painting := if w2.hoc < fbUnc then decide (fbUnc ≤ w1.hoc) else decide (w1.hoc < fbUnc)
    (if w2.hoc < fbUnc then
      if painting = true ∨ p1 + w1.hoc < p2 + w2.hoc then fbSetHoc m p1 (w2.hoc + (p2 - p1)) else some m
    else
      if w1.hoc = fbUnc then fbSetHoc m p1 fbUec else some m).bind fun m =>
    (fbPoint p1 m.length p2 m).bind fun m =>
    (fbZip m.length p1 p2 m).bind fun r =>
    if painting = true then
      (fbLast r.1 m.length r.2).bind fun q =>
      (podGet r.1 p1).bind fun w =>
      if p1 + w.hoc < q then fbPaint (p1 + w.hoc) q (p1 + w.hoc + 1).toNat 0 r.1 else some r.1
    else some r.1

theorem merge_core_eq (m : List Mt) {a b : Int} {h1 h2 : Int} (e1 : fbHead m a = some h1) (e2 : fbHead m b = some h2) :
    fbMerge m a b = if h1 = h2 then some m else if h2 < h1 then mergeCore m h2 h1 else mergeCore m h1 h2 := by
  unfold fbMerge
  rw [e1, Option.bind_some, e2, Option.bind_some]
  by_cases h : h1 = h2
  · rw [if_pos h, if_pos h]
  · rw [if_neg h, if_neg h]
    by_cases hl : h2 < h1
    · rw [if_pos hl]; simp only [if_pos hl]; rfl
    · rw [if_neg hl]; simp only [if_neg hl]; rfl

/-- the first part of `mergeCore` -/
theorem stageA (hW : Law W sz) {p1 p2 : Nat} (hp : p1 < p2)
    (hcomp : ∀ c c', W.C c p1 → W.C c' p2 → c = c') {w1 w2 : Mt} (g1 : m[p1]? = some w1) (v1 : HVal W p1 w1.hoc) (v2 : HVal W p2 w2.hoc) :
    ∃ x : Int, ∃ painting : Bool, (if w2.hoc < fbUnc then decide (fbUnc ≤ w1.hoc) else decide (w1.hoc < fbUnc)) = painting ∧
      (if w2.hoc < fbUnc then
        if painting = true ∨ (p1 : Int) + w1.hoc < p2 + w2.hoc then fbSetHoc m p1 (w2.hoc + ((p2 : Int) - p1)) else some m
      else
        if w1.hoc = fbUnc then fbSetHoc m p1 fbUec else some m) = some (m.set p1 ⟨x, w1.nxt⟩) ∧
      ((painting = true ∧ ∃ c T, ((W.C c p1 ∧ ∀ c', ¬ W.C c' p2) ∨ (W.C c p2 ∧ ∀ c', ¬ W.C c' p1)) ∧ IsTail W c T ∧ x = (T : Int) - p1) ∨
       (painting = false ∧ ((∃ c T, W.C c p1 ∧ W.C c p2 ∧ IsTail W c T ∧ x = (T : Int) - p1) ∨ ((∀ c, ¬ W.C c p1) ∧ (∀ c, ¬ W.C c p2) ∧ x = fbUec)))) := by
  have hu : fbUnc = 32766 := rfl
  have hu' : fbUec = 32767 := rfl
  have same : m.set p1 ⟨w1.hoc, w1.nxt⟩ = m := by
    have hlt := lt_of_get g1
    rw [List.getElem?_eq_getElem hlt] at g1
    injection g1 with g1
    rw [show (⟨w1.hoc, w1.nxt⟩ : Mt) = m[p1] from g1.symm, List.set_getElem_self]
  by_cases c2 : ∃ c, W.C c p2
  · have i2 := (v2.colored_iff hW).2 c2
    obtain ⟨c, hc⟩ := c2
    obtain ⟨T, hT⟩ := exists_tail hW hc
    have hx2 := v2.tail hW hc hT
    have hTL := hW.cin _ _ hT.1
    have hsm := hW.small
    have hpT := hT.2 _ hc
    rw [if_pos i2]
    by_cases c1 : ∃ c, W.C c p1
    · have i1 := (v1.colored_iff hW).2 c1
      obtain ⟨c', hc'⟩ := c1
      have := hcomp _ _ hc' hc
      subst this
      have hx1 := v1.tail hW hc' hT
      refine ⟨w1.hoc, false, by rw [decide_eq_false_iff_not]; omega, ?_, .inr ⟨rfl, .inl ⟨c', T, hc', hc, hT, hx1⟩⟩⟩
      rw [if_pos i2, if_neg (by rintro (h | h); (· cases h); (· omega)), same]
    · have i1 := mt (v1.colored_iff hW).1 c1
      refine ⟨(T : Int) - p1, true, by rw [decide_eq_true_eq]; omega, ?_, .inl ⟨rfl, c, T, .inr ⟨hc, fun c' h => c1 ⟨c', h⟩⟩, hT, rfl⟩⟩
      rw [if_pos i2, if_pos (.inl rfl), show w2.hoc + ((p2 : Int) - p1) = (T : Int) - p1 by omega, setHoc g1 (by omega) (by omega)]
  · have i2 := mt (v2.colored_iff hW).1 c2
    rw [if_neg i2]
    by_cases c1 : ∃ c, W.C c p1
    · have i1 := (v1.colored_iff hW).2 c1
      obtain ⟨c, hc⟩ := c1
      obtain ⟨T, hT⟩ := exists_tail hW hc
      have hx1 := v1.tail hW hc hT
      refine ⟨w1.hoc, true, by rw [decide_eq_true_eq]; exact i1, ?_, .inl ⟨rfl, c, T, .inl ⟨hc, fun c' h => c2 ⟨c', h⟩⟩, hT, hx1⟩⟩
      rw [if_neg i2, if_neg (by omega), same]
    · have i1 := mt (v1.colored_iff hW).1 c1
      refine ⟨fbUec, false, by rw [decide_eq_false_iff_not]; exact i1, ?_, .inr ⟨rfl, .inr ⟨fun c h => c1 ⟨c, h⟩, fun c h => c2 ⟨c, h⟩, rfl⟩⟩⟩
      rw [if_neg i2]
      rcases v1 with ⟨c, T, a, _⟩ | ⟨_, ⟨_, a⟩ | ⟨_, a⟩⟩
      · exact absurd ⟨c, a⟩ c1
      · rw [if_neg (by omega), ← a, same]
      · rw [if_pos a, setHoc g1 (by omega) (by omega)]

theorem core_ok (hW : Law W sz) (hE : Enc W sz m) {p1 p2 : Nat} (hp : p1 < p2) (l2 : p2 < W.L) (s2 : p2 < sz) (d1 : IsHd W p1 p1) (d2 : IsHd W p2 p2)
    (hcomp : ∀ c c', W.C c p1 → W.C c' p2 → c = c') : ∃ m', mergeCore m p1 p2 = some m' ∧ Enc (W.merge p1 p2) sz m' := by
  have hu : fbUnc = 32766 := rfl
  have hu' : fbUec = 32767 := rfl
  have hsz := hW.size
  have hlen := hE.len
  have hdisj : ∀ u, W.R p1 u → ¬ W.R p2 u := fun u h1 h2 => d2.2 p1 hp (hW.trans _ _ _ h2 (hW.symm _ _ h1))
  have inl : ∀ p u, p < W.L → p < sz → W.R p u → u < W.L ∧ u < sz := by
    intro p u a b h
    by_cases hu : u = p
    · subst hu; exact ⟨a, b⟩
    · have := hW.win u p (hW.symm _ _ h) hu
      exact ⟨this.2.1, this.1⟩
  obtain ⟨w1, g1, ⟨h1, a1, b1⟩, n1⟩ := hE.ent p1 (by omega) (by omega)
  have := a1.unique d1; subst this
  have v1 : HVal W h1 w1.hoc := b1.elim And.right fun b => by omega
  obtain ⟨w2, g2, ⟨h2, a2, b2⟩, n2⟩ := hE.ent p2 (by omega) (by omega)
  have := a2.unique d2; subst this
  have v2 : HVal W h2 w2.hoc := b2.elim And.right fun b => by omega
  clear a1 a2 b1 b2
  obtain ⟨x, painting, e1, e2, e3⟩ := stageA hW hp hcomp g1 v1 v2
  have hl1 := lt_of_get g1
  -- lists
  have hLm : ∀ p, p < W.L → p < sz → ListFrom m (W.R p) 0 := by
    intro p a b k hk _
    obtain ⟨c, d⟩ := inl p k a b hk
    obtain ⟨w, q1, _, q3⟩ := hE.ent k c d
    exact ⟨w, q1, q3.congr fun u _ => ⟨fun h => hW.trans _ _ _ hk h, fun h => hW.trans _ _ _ (hW.symm _ _ hk) h⟩⟩
  have hLA : ∀ p q, p < W.L → p < sz → ListFrom (m.set h1 ⟨x, w1.nxt⟩) (W.R p) q := by
    intro p q a b k hk hqk
    obtain ⟨w, q1, q3⟩ := hLm p a b k hk (Nat.zero_le _)
    rw [set_get _ hl1]
    by_cases hkk : k = h1
    · subst hkk
      rw [g1] at q1; injection q1 with q1; subst q1
      rw [if_pos rfl]; exact ⟨_, rfl, q3⟩
    · rw [if_neg hkk]; exact ⟨w, q1, q3⟩
  obtain ⟨m2, f1, f2, f3, f4⟩ := point_ok (P := W.R h2) (p1 := h1) (m.set h1 ⟨x, w1.nxt⟩).length h2 (m.set h1 ⟨x, w1.nxt⟩) (by rw [List.length_set]; omega) (by rw [List.length_set]; omega)
    (hLA h2 _ l2 s2) (hW.refl _) (by omega)
  have hl2 : m2.length = sz := by rw [f2, List.length_set, hlen]
  have hLB : ∀ p q, p < W.L → p < sz → ListFrom m2 (W.R p) q := by
    intro p q a b k hk hqk
    obtain ⟨w, q1, q3⟩ := hLA p q a b k hk hqk
    by_cases hkk : W.R h2 k ∧ h2 ≤ k
    · exact ⟨_, f3 k w hkk.1 hkk.2 q1, q3⟩
    · exact ⟨w, by rw [f4 k hkk]; exact q1, q3⟩
  obtain ⟨m3, r, z1, z2, z3, z4, z5, z6, z7⟩ := zip_ok m2.length h1 h2 m2 (W.R h1) (W.R h2) (by omega) (hW.refl _) (hW.refl _) hp hdisj
    (fun u hu => by
      rcases Nat.lt_or_ge u h2 with h | h
      · exact absurd hu (d2.2 u h)
      · exact .inl h) (hLB h1 _ (by omega) (by omega)) (hLB h2 _ l2 s2) (by omega)
  have hl3 : m3.length = sz := by omega
  have hmin : ∀ k, W.R h1 k ∨ W.R h2 k → h1 ≤ k := by
    intro k hk
    rcases Nat.lt_or_ge k h1 with h | h
    · rcases hk with hk | hk
      · exact absurd hk (d1.2 k h)
      · exact absurd hk (d2.2 k (by omega))
    · exact h
  have hin : ∀ k, W.R h1 k ∨ W.R h2 k → k < W.L ∧ k < sz := by
    intro k hk
    rcases hk with hk | hk
    · exact inl h1 k (by omega) (by omega) hk
    · exact inl h2 k l2 s2 hk
  -- the values `hoc` after merging
  have hoc1 : ∀ w, m3[h1]? = some w → w.hoc = x := by
    intro w hw
    have := z3 h1
    rw [hw, f4 h1 (by omega), List.getElem?_set_self hl1] at this
    simpa using this
  have hocP : ∀ k w, W.R h1 k → k ≠ h1 → m3[k]? = some w → w.hoc = (h1 : Int) - k := by
    intro k w hk hne hw
    obtain ⟨c, d⟩ := hin k (.inl hk)
    obtain ⟨u, q1, ⟨h, q2, q3⟩, _⟩ := hE.ent k c d
    have hh : h = h1 := q2.unique (d1.of hW (hW.symm _ _ hk))
    subst hh
    have := z3 k
    rw [hw, f4 k (fun h => hdisj k hk h.1), List.getElem?_set_ne (Ne.symm hne), q1] at this
    have : w.hoc = u.hoc := by simpa using this
    rcases q3 with q3 | q3
    · omega
    · omega
  have hocQ : ∀ k w, W.R h2 k → m3[k]? = some w → w.hoc = (h1 : Int) - k := by
    intro k w hk hw
    have hge : h2 ≤ k := by
      rcases Nat.lt_or_ge k h2 with h | h
      · exact absurd hk (d2.2 k h)
      · exact h
    obtain ⟨c, d⟩ := hin k (.inr hk)
    have hg := List.getElem?_eq_getElem (l := m.set h1 ⟨x, w1.nxt⟩) (i := k) (by rw [List.length_set]; omega)
    have := z3 k
    rw [hw, f3 k _ hk hge hg] at this
    simpa using this
  have hother : ∀ k, ¬ (W.R h1 k ∨ W.R h2 k) → m3[k]? = m[k]? := by
    intro k hk
    rw [z4 k fun h => hk h.1, f4 k fun h => hk (.inr h.1), List.getElem?_set_ne fun h : h1 = k => hk (.inl (h ▸ hW.refl _))]
  -- the new world
  have hRin : ∀ k, W.R h1 k ∨ W.R h2 k → ∀ u, (W.merge h1 h2).R k u ↔ W.R h1 u ∨ W.R h2 u := by
    intro k hk u
    show (W.R k u ∨ (W.R k h1 ∧ W.R h2 u) ∨ (W.R k h2 ∧ W.R h1 u)) ↔ _
    rcases hk with hk | hk
    · have hk' := hW.symm _ _ hk
      constructor
      · rintro (h | h | h)
        · exact .inl (hW.trans _ _ _ hk h)
        · exact .inr h.2
        · exact .inl h.2
      · rintro (h | h)
        · exact .inl (hW.trans _ _ _ hk' h)
        · exact .inr (.inl ⟨hk', h⟩)
    · have hk' := hW.symm _ _ hk
      constructor
      · rintro (h | h | h)
        · exact .inr (hW.trans _ _ _ hk h)
        · exact .inr h.2
        · exact .inl h.2
      · rintro (h | h)
        · exact .inr (.inr ⟨hk', h⟩)
        · exact .inl (hW.trans _ _ _ hk' h)
  have hRout : ∀ k, ¬ (W.R h1 k ∨ W.R h2 k) → ∀ u, (W.merge h1 h2).R k u ↔ W.R k u := by
    intro k hk u
    show (W.R k u ∨ (W.R k h1 ∧ W.R h2 u) ∨ (W.R k h2 ∧ W.R h1 u)) ↔ _
    constructor
    · rintro (h | h | h)
      · exact h
      · exact absurd (.inl (hW.symm _ _ h.1)) hk
      · exact absurd (.inr (hW.symm _ _ h.1)) hk
    · exact .inl
  have hCin : ∀ k, W.R h1 k ∨ W.R h2 k → ∀ c, (W.merge h1 h2).C c k ↔ W.C c h1 ∨ W.C c h2 := by
    intro k hk c
    show (W.C c k ∨ (W.R k h1 ∧ W.C c h2) ∨ (W.R k h2 ∧ W.C c h1)) ↔ _
    rcases hk with hk | hk
    · have hk' := hW.symm _ _ hk
      constructor
      · rintro (h | h | h)
        · exact .inl (hW.cc _ _ _ hk' h)
        · exact .inr h.2
        · exact .inl h.2
      · rintro (h | h)
        · exact .inl (hW.cc _ _ _ hk h)
        · exact .inr (.inl ⟨hk', h⟩)
    · have hk' := hW.symm _ _ hk
      constructor
      · rintro (h | h | h)
        · exact .inr (hW.cc _ _ _ hk' h)
        · exact .inr h.2
        · exact .inl h.2
      · rintro (h | h)
        · exact .inr (.inr ⟨hk', h⟩)
        · exact .inl (hW.cc _ _ _ hk h)
  have hCout : ∀ k, ¬ (W.R h1 k ∨ W.R h2 k) → ∀ c, (W.merge h1 h2).C c k ↔ W.C c k := by
    intro k hk c
    show (W.C c k ∨ (W.R k h1 ∧ W.C c h2) ∨ (W.R k h2 ∧ W.C c h1)) ↔ _
    constructor
    · rintro (h | h | h)
      · exact h
      · exact absurd (.inl (hW.symm _ _ h.1)) hk
      · exact absurd (.inr (hW.symm _ _ h.1)) hk
    · exact .inl
  have hEin : ∀ k, W.R h1 k ∨ W.R h2 k → (W.merge h1 h2).E k := fun k hk => hk.elim (fun h => .inr (.inl (hW.symm _ _ h))) (fun h => .inr (.inr (hW.symm _ _ h)))
  have hEout : ∀ k, ¬ (W.R h1 k ∨ W.R h2 k) → ((W.merge h1 h2).E k ↔ W.E k) := by
    intro k hk
    show (W.E k ∨ W.R k h1 ∨ W.R k h2) ↔ _
    constructor
    · rintro (h | h | h)
      · exact h
      · exact absurd (.inl (hW.symm _ _ h)) hk
      · exact absurd (.inr (hW.symm _ _ h)) hk
    · exact .inl
  -- tails of the colours in the new world
  have tail_keep : ∀ c T, IsTail W c T → (∀ k, W.R h1 k ∨ W.R h2 k → W.C c h1 ∨ W.C c h2 → k ≤ T) → IsTail (W.merge h1 h2) c T := by
    intro c T hT hk
    refine ⟨.inl hT.1, fun t ht => ?_⟩
    by_cases htin : W.R h1 t ∨ W.R h2 t
    · exact hk t htin ((hCin t htin c).1 ht)
    · exact hT.2 t ((hCout t htin c).1 ht)
  -- it remains to find values
  have fin : ∀ m', m'.length = sz → (∀ k : Nat, (m'[k]?).map Mt.nxt = (m3[k]?).map Mt.nxt) → (∀ w, m'[h1]? = some w → HVal (W.merge h1 h2) h1 w.hoc) →
      (∀ k w, (W.R h1 k ∨ W.R h2 k) → k ≠ h1 → m'[k]? = some w → w.hoc = (h1 : Int) - k) →
      (∀ k w w', ¬ (W.R h1 k ∨ W.R h2 k) → m[k]? = some w → m'[k]? = some w' → k < W.L → k < sz → (IsHd W k k → HVal W k w.hoc → HVal (W.merge h1 h2) k w'.hoc) ∧
        ((∃ h, h < k ∧ w.hoc = (h : Int) - k) → w'.hoc = w.hoc)) →
      Enc (W.merge h1 h2) sz m' := by
    intro m' q0 qn q1 q2 q3
    refine ⟨q0, fun k k1 k2 => ?_⟩
    have hg := List.getElem?_eq_getElem (l := m') (i := k) (by omega)
    have hg3 := List.getElem?_eq_getElem (l := m3) (i := k) (by omega)
    have hn3 := qn k
    rw [hg, hg3] at hn3
    have hn3 : m'[k].nxt = m3[k].nxt := by simpa using hn3
    by_cases hk : W.R h1 k ∨ W.R h2 k
    · refine ⟨m'[k], hg, ⟨h1, ⟨(hRin k hk h1).2 (.inl (hW.refl _)), fun j hj hr => ?_⟩, ?_⟩, ?_⟩
      · have := hmin j ((hRin k hk j).1 hr); omega
      · by_cases hkh : k = h1
        · subst hkh; exact .inl ⟨rfl, q1 _ hg⟩
        · exact .inr ⟨by have := hmin k hk; omega, q2 k _ hk hkh hg⟩
      · obtain ⟨u, hu, hnu⟩ := z5 k hk (hmin k hk)
        rw [hg3] at hu; injection hu with hu; subst hu
        rw [hn3]
        exact hnu.congr fun u _ => (hRin k hk u).symm
    · obtain ⟨w, a1, ⟨h, a2, a3⟩, a4⟩ := hE.ent k k1 k2
      obtain ⟨b1, b2⟩ := q3 k w _ hk a1 hg k1 k2
      have ha : m3[k] = w := by
        have := hother k hk
        rw [hg3, a1] at this
        injection this
      refine ⟨m'[k], hg, ⟨h, ⟨(hRout k hk h).2 a2.1, fun j hj hr => a2.2 j hj ((hRout k hk j).1 hr)⟩, ?_⟩, ?_⟩
      · rcases a3 with ⟨rfl, a3⟩ | ⟨a3, a3'⟩
        · exact .inl ⟨rfl, b1 a2 a3⟩
        · refine .inr ⟨a3, ?_⟩
          rw [b2 ⟨h, a3, a3'⟩]; exact a3'
      · rw [hn3, ha]
        exact a4.congr fun u _ => (hRout k hk u).symm
  -- run
  have hrun : ∃ m', (if painting = true then
      (fbLast m3 m2.length r).bind fun q =>
      (podGet m3 h1).bind fun w =>
      if h1 + w.hoc < q then fbPaint (h1 + w.hoc) q (h1 + w.hoc + 1).toNat 0 m3 else some m3
      else some m3) = some m' ∧ Enc (W.merge h1 h2) sz m' := by
    -- what happens if nothing is painted
    have plain : (∀ w, m3[h1]? = some w → HVal (W.merge h1 h2) h1 w.hoc) → (∀ c T, IsTail W c T → IsTail (W.merge h1 h2) c T) → Enc (W.merge h1 h2) sz m3 := by
      intro q1 qt
      refine fin m3 hl3 (fun _ => rfl) q1 (fun k w hk hne hw => ?_) fun k w w' hk ha hb k1 k2 => ?_
      · rcases hk with hk | hk
        · exact hocP k w hk hne hw
        · exact hocQ k w hk hw
      · rw [hother k hk, ha] at hb
        injection hb with hb
        subst hb
        refine ⟨fun _ hv => ?_, fun _ => rfl⟩
        rcases hv with ⟨c, T, a1, a2, a3⟩ | ⟨a, hor⟩
        · exact .inl ⟨c, T, (hCout k hk c).2 a1, qt c T a2, a3⟩
        · refine .inr ⟨fun c hc => a c ((hCout k hk c).1 hc), ?_⟩
          rw [hEout k hk]; exact hor
    rcases e3 with ⟨rfl, c, T, hc, hT, hx⟩ | ⟨rfl, hnp⟩
    · rw [if_pos rfl]
      have hTL := hW.cin _ _ hT.1
      have hsm := hW.small
      have hT1 : h1 ≤ T := by
        rcases hc with hc | hc
        · exact hT.2 _ hc.1
        · have := hT.2 _ hc.1; omega
      obtain ⟨t, t1, t2, t3, t4⟩ := last_ok (m := m3) (P := fun k => W.R h1 k ∨ W.R h2 k) m2.length r (fun k hk hrk => z5 k hk (by omega)) z6 (by omega)
      rw [t1, Option.bind_some, get_nat]
      have hg1 := List.getElem?_eq_getElem (l := m3) (i := h1) (by omega)
      have hx1 := hoc1 _ hg1
      rw [hg1, Option.bind_some, hx1, show (h1 : Int) + x = (T : Nat) by omega]
      have hC1 : ∀ c', (W.C c' h1 ∨ W.C c' h2) → c' = c := by
        intro c' h
        rcases hc with ⟨hc, hn⟩ | ⟨hc, hn⟩
        · rcases h with h | h
          · exact hW.uniq _ _ _ h hc
          · exact absurd h (hn _)
        · rcases h with h | h
          · exact absurd h (hn _)
          · exact hW.uniq _ _ _ h hc
      have hc12 : W.C c h1 ∨ W.C c h2 := hc.imp And.left And.left
      by_cases hlt : T < t
      · rw [if_pos (by omega), show ((T : Int) + 1).toNat = T + 1 by omega]
        obtain ⟨m4, p1, p2, p3, p4⟩ := paint_ok (pp := T) (q := t) (T + 1) 0 m3 (by omega) t4 (by omega)
        refine ⟨m4, p1, ?_⟩
        have get4 : ∀ k w w', m3[k]? = some w → m4[k]? = some w' → w' = if k ≤ T ∧ (k : Int) + w.hoc = T then ⟨(t : Int) - k, w.nxt⟩ else w := by
          intro k w w' hw hw'
          by_cases hk : k ≤ T
          · rw [p3 k w (by omega) (by omega) hw] at hw'
            injection hw' with hw'
            rw [← hw']
            by_cases hh : (k : Int) + w.hoc = T
            · rw [if_pos hh, if_pos ⟨hk, hh⟩]
            · rw [if_neg hh, if_neg fun h => hh h.2]
          · rw [p4 k (by omega), hw] at hw'
            injection hw' with hw'
            rw [if_neg fun h => hk h.1, hw']
        have htT : IsTail (W.merge h1 h2) c t := by
          refine ⟨(hCin t t2 c).2 hc12, fun u hu => ?_⟩
          by_cases hui : W.R h1 u ∨ W.R h2 u
          · exact t3 u hui
          · have := hT.2 u ((hCout u hui c).1 hu); omega
        have htT' : ∀ c' T', c' ≠ c → IsTail W c' T' → IsTail (W.merge h1 h2) c' T' := by
          intro c' T' hne hT'
          exact tail_keep c' T' hT' fun k _ h => absurd (hC1 c' h) hne
        refine fin m4 (by omega) (fun k => ?_) (fun w hw => ?_) (fun k w hk hne hw => ?_) fun k w w' hk ha hb k1 k2 => ?_
        · by_cases hk : k < sz
          · have hg3 := List.getElem?_eq_getElem (l := m3) (i := k) (by omega)
            have hg4 := List.getElem?_eq_getElem (l := m4) (i := k) (by omega)
            have := get4 k _ _ hg3 hg4
            rw [hg3, hg4, this]
            split <;> rfl
          · rw [List.getElem?_eq_none (by omega), List.getElem?_eq_none (by omega)]
        · have := get4 h1 _ _ hg1 hw
          rw [hx1, if_pos ⟨hT1, by omega⟩] at this
          rw [this]
          exact .inl ⟨c, t, (hCin h1 (.inl (hW.refl _)) c).2 hc12, htT, rfl⟩
        · obtain ⟨k1, k2⟩ := hin k hk
          have hg3 := List.getElem?_eq_getElem (l := m3) (i := k) (by omega)
          have h3 : m3[k].hoc = (h1 : Int) - k := by
            rcases hk with hk | hk
            · exact hocP k _ hk hne hg3
            · exact hocQ k _ hk hg3
          have h4 := get4 k _ _ hg3 hw
          have := hmin k hk
          rw [if_neg (by omega)] at h4
          rw [h4]; exact h3
        · rw [← hother k hk] at ha
          have h4 := get4 k _ _ ha hb
          refine ⟨fun _ hv => ?_, fun ⟨h, q1, q2⟩ => ?_⟩
          · rcases hv with ⟨c', T', a1, a2, a3⟩ | ⟨a, hor⟩
            · by_cases hcc : c' = c
              · subst hcc
                have := a2.unique hT
                subst this
                have := a2.2 k a1
                rw [if_pos ⟨this, by omega⟩] at h4
                rw [h4]
                exact .inl ⟨c', t, (hCout k hk c').2 a1, htT, rfl⟩
              · have hTT : T' ≠ T := fun h => hcc (hW.uniq _ _ _ (h ▸ a2.1) hT.1)
                rw [if_neg (by omega)] at h4
                rw [h4]
                exact .inl ⟨c', T', (hCout k hk c').2 a1, htT' c' T' hcc a2, a3⟩
            · have : w.hoc = fbUec ∨ w.hoc = fbUnc := hor.imp And.right And.right
              rw [if_neg (by omega)] at h4
              rw [h4]
              refine .inr ⟨fun c hc => a c ((hCout k hk c).1 hc), ?_⟩
              rw [hEout k hk]; exact hor
          · rw [if_neg (by omega)] at h4
            rw [h4]
      · rw [if_neg (by omega)]
        have tk : ∀ c' T', IsTail W c' T' → IsTail (W.merge h1 h2) c' T' := by
          intro c' T' hT'
          refine tail_keep c' T' hT' fun k hk h => ?_
          have := hC1 c' h
          subst this
          have := hT'.unique hT
          have := t3 k hk
          omega
        exact ⟨m3, rfl, plain (fun w hw => by rw [hoc1 w hw, hx]; exact .inl ⟨c, T, (hCin h1 (.inl (hW.refl _)) c).2 hc12, tk c T hT, rfl⟩) tk⟩
    · rw [if_neg (by simp)]
      refine ⟨m3, rfl, ?_⟩
      rcases hnp with ⟨c, T, c1, c2, hT, hx⟩ | ⟨c1, c2, hx⟩
      · have tk : ∀ c' T', IsTail W c' T' → IsTail (W.merge h1 h2) c' T' := by
          intro c' T' hT'
          refine tail_keep c' T' hT' fun k hk h => ?_
          have hcc : c' = c := by
            rcases h with h | h
            · exact hW.uniq _ _ _ h c1
            · exact hW.uniq _ _ _ h c2
          subst hcc
          refine hT'.2 k ?_
          rcases hk with hk | hk
          · exact hW.cc _ _ _ hk c1
          · exact hW.cc _ _ _ hk c2
        exact plain (fun w hw => by rw [hoc1 w hw, hx]; exact .inl ⟨c, T, (hCin h1 (.inl (hW.refl _)) c).2 (.inl c1), tk c T hT, rfl⟩) tk
      · have tk : ∀ c' T', IsTail W c' T' → IsTail (W.merge h1 h2) c' T' := by
          intro c' T' hT'
          refine tail_keep c' T' hT' fun k hk h => ?_
          rcases h with h | h
          · exact absurd h (c1 _)
          · exact absurd h (c2 _)
        refine plain (fun w hw => ?_) tk
        rw [hoc1 w hw, hx]
        refine .inr ⟨fun c hc => ?_, .inl ⟨hEin h1 (.inl (hW.refl _)), rfl⟩⟩
        rcases (hCin h1 (.inl (hW.refl _)) c).1 hc with h | h
        · exact c1 c h
        · exact c2 c h
  obtain ⟨m', r1, r2⟩ := hrun
  refine ⟨m', ?_, r2⟩
  unfold mergeCore
  rw [get_nat, g1, Option.bind_some, get_nat, g2, Option.bind_some]
  dsimp only
  rw [e1, e2, Option.bind_some, f1, Option.bind_some, z1, Option.bind_some]
  exact r1

theorem merge_same (hW : Law W sz) {a b p q : Nat} (h : (W.R a p ∧ W.R b q) ∨ (W.R a q ∧ W.R b p)) : Same (W.merge p q) (W.merge a b) := by
  have key : ∀ {a b p q : Nat}, W.R a p → W.R b q → Same (W.merge p q) (W.merge a b) := by
    intro a b p q h1 h2
    have e1 : ∀ x, W.R x a ↔ W.R x p := fun x => ⟨fun h => hW.trans _ _ _ h h1, fun h => hW.trans _ _ _ h (hW.symm _ _ h1)⟩
    have e2 : ∀ x, W.R x b ↔ W.R x q := fun x => ⟨fun h => hW.trans _ _ _ h h2, fun h => hW.trans _ _ _ h (hW.symm _ _ h2)⟩
    have e3 : ∀ x, W.R a x ↔ W.R p x := fun x => ⟨fun h => hW.trans _ _ _ (hW.symm _ _ h1) h, fun h => hW.trans _ _ _ h1 h⟩
    have e4 : ∀ x, W.R b x ↔ W.R q x := fun x => ⟨fun h => hW.trans _ _ _ (hW.symm _ _ h2) h, fun h => hW.trans _ _ _ h2 h⟩
    have e5 : ∀ c, W.C c a ↔ W.C c p := fun c => ⟨hW.cc _ _ _ h1, hW.cc _ _ _ (hW.symm _ _ h1)⟩
    have e6 : ∀ c, W.C c b ↔ W.C c q := fun c => ⟨hW.cc _ _ _ h2, hW.cc _ _ _ (hW.symm _ _ h2)⟩
    refine ⟨rfl, fun k l => ?_, fun c k => ?_, fun k => ?_⟩
    · dsimp only [World.merge]; rw [e1, e2, e3, e4]
    · dsimp only [World.merge]; rw [e1, e2, e5, e6]
    · dsimp only [World.merge]; rw [e1, e2]
  rcases h with ⟨h1, h2⟩ | ⟨h1, h2⟩
  · exact key h1 h2
  · have := key h1 h2
    refine ⟨rfl, fun k l => (this.R k l).trans ?_, fun c k => (this.C c k).trans ?_, fun k => (this.E k).trans ?_⟩
    · exact or_congr Iff.rfl Or.comm
    · exact or_congr Iff.rfl Or.comm
    · exact or_congr Iff.rfl Or.comm

/-- `mergeLists` -/
theorem merge_ok (hW : Law W sz) (hE : Enc W sz m) {a b : Nat} (hab : a ≠ b) (la : a < W.L) (sa : a < sz) (lb : b < W.L) (sb : b < sz) (hcomp : ∀ c c', W.C c a → W.C c' b → c = c') :
    ∃ m', fbMerge m a b = some m' ∧ Enc (W.merge a b) sz m' := by
  obtain ⟨w1, h1, x1, r1⟩ := hE.reads hW la sa
  obtain ⟨w2, h2, x2, r2⟩ := hE.reads hW lb sb
  rw [merge_core_eq m r1.head r2.head]
  have le1 := r1.le
  have le2 := r2.le
  by_cases heq : h1 = h2
  · subst heq
    rw [if_pos rfl]
    have hr : W.R a b := hW.trans _ _ _ r1.hd.1 (hW.symm _ _ r2.hd.1)
    have hs : Same W (W.merge a b) := by
      refine ⟨rfl, fun k l => ?_, fun c k => ?_, fun k => ?_⟩
      · refine ⟨?_, .inl⟩
        rintro (h | h | h)
        · exact h
        · exact hW.trans _ _ _ h.1 (hW.trans _ _ _ hr h.2)
        · exact hW.trans _ _ _ h.1 (hW.trans _ _ _ (hW.symm _ _ hr) h.2)
      · refine ⟨?_, .inl⟩
        rintro (h | h | h)
        · exact h
        · exact hW.cc _ _ _ (hW.trans _ _ _ (hW.symm _ _ hr) (hW.symm _ _ h.1)) h.2
        · exact hW.cc _ _ _ (hW.trans _ _ _ hr (hW.symm _ _ h.1)) h.2
      · refine ⟨?_, .inl⟩
        rintro (h | h | h)
        · exact h
        · exact hW.ec _ _ (hW.symm _ _ h) (hW.win _ _ hr hab).2.2
        · exact hW.ec _ _ (hW.symm _ _ h) (hW.win _ _ (hW.symm _ _ hr) (Ne.symm hab)).2.2
    exact ⟨m, rfl, hE.same hs⟩
  · rw [if_neg (by omega)]
    by_cases hlt : h2 < h1
    · rw [if_pos (by omega)]
      obtain ⟨m', e1, e2⟩ := core_ok hW hE hlt (by omega) (by omega) (r2.hd.self hW) (r1.hd.self hW)
        (fun c c' q1 q2 => (hcomp _ _ (hW.cc _ _ _ (hW.symm _ _ r1.hd.1) q2) (hW.cc _ _ _ (hW.symm _ _ r2.hd.1) q1)).symm)
      exact ⟨m', e1, e2.same (merge_same hW (.inr ⟨r1.hd.1, r2.hd.1⟩))⟩
    · rw [if_neg (by omega)]
      obtain ⟨m', e1, e2⟩ := core_ok hW hE (p1 := h1) (p2 := h2) (by omega) (by omega) (by omega) (r1.hd.self hW) (r2.hd.self hW)
        (fun c c' q1 q2 => hcomp _ _ (hW.cc _ _ _ (hW.symm _ _ r1.hd.1) q1) (hW.cc _ _ _ (hW.symm _ _ r2.hd.1) q2))
      exact ⟨m', e1, e2.same (merge_same hW (.inl ⟨r1.hd.1, r2.hd.1⟩))⟩

end TdZdd.Fb
