import Verif.FbMerge

/-! Proofs about `FrontierBasedSearch` (4): `update`. -/

namespace TdZdd.Fb

open Gr Deg

variable {W : World} {sz : Nat} {m : List Mt}

/-- the first `d` vertices have left -/
def World.shift (W : World) (d : Nat) : World where
  L := W.L - d
  R x y := W.R (x + d) (y + d)
  C c x := W.C c (x + d)
  E x := W.E (x + d)

/-! ### `replaceHeadWith` -/

theorem replace_ok {P : Nat → Prop} {q h x : Nat} {u : Mt} (hl : m.length ≤ 32766) (hh : fbHead m q = some (h : Int)) (hu : m[h]? = some u) (hL : ListFrom m P x) (hx : P x)
    (v1 : -2 ^ 15 ≤ (if u.hoc < fbUnc then u.hoc + ((h : Int) - x) else u.hoc)) (v2 : (if u.hoc < fbUnc then u.hoc + ((h : Int) - x) else u.hoc) < 2 ^ 15) :
    ∃ m', fbReplace m q x = some m' ∧ m'.length = m.length ∧ (∀ k w, P k → x < k → m[k]? = some w → m'[k]? = some ⟨(x : Int) - k, w.nxt⟩) ∧
      (∀ w, m[x]? = some w → m'[x]? = some ⟨if u.hoc < fbUnc then u.hoc + ((h : Int) - x) else u.hoc, w.nxt⟩) ∧ (∀ k, ¬ (P k ∧ x ≤ k) → m'[k]? = m[k]?) := by
  obtain ⟨w, hw, _⟩ := hL x hx (Nat.le_refl _)
  have hlt := lt_of_get hw
  unfold fbReplace
  rw [hh, Option.bind_some, get_nat, hu, Option.bind_some, setHoc hw v1 v2, Option.bind_some]
  generalize (if u.hoc < fbUnc then u.hoc + ((h : Int) - x) else u.hoc) = val
  obtain ⟨m', e1, e2, e3, e4⟩ := rehead_ok (P := P) (nh := x) (m.set x ⟨val, w.nxt⟩).length x (m.set x ⟨val, w.nxt⟩) (by rw [List.length_set]; exact hl) (by rw [List.length_set]; exact hlt)
    (fun k hk hkx => by
      obtain ⟨v, hv, hnv⟩ := hL k hk hkx
      rw [set_get _ hlt]
      by_cases hkk : k = x
      · subst hkk
        rw [hw] at hv; injection hv with hv; subst hv
        rw [if_pos rfl]; exact ⟨_, rfl, hnv⟩
      · rw [if_neg hkk]; exact ⟨v, hv, hnv⟩) hx (by omega)
  refine ⟨m', e1, by rw [e2, List.length_set], fun k v hk hkx hv => ?_, fun v hv => ?_, fun k hk => ?_⟩
  · exact e3 k v hk hkx (by rw [List.getElem?_set_ne (by omega)]; exact hv)
  · rw [hw] at hv; injection hv with hv; subst hv
    rw [e4 x (by omega), List.getElem?_set_self hlt]
  · rw [e4 k (fun h => hk ⟨h.1, by omega⟩), List.getElem?_set_ne (fun h : x = k => hk ⟨h ▸ hx, by omega⟩)]

theorem tail_shift {d c T : Nat} (hT : IsTail W c T) (hd : d ≤ T) : IsTail (W.shift d) c (T - d) := by
  refine ⟨?_, fun t ht => ?_⟩
  · show W.C c (T - d + d)
    rw [show T - d + d = T by omega]; exact hT.1
  · have := hT.2 (t + d) ht; omega

/-- the value of a head that stays -/
theorem hval_shift {d k : Nat} {x : Int} (hd : d ≤ k) (hv : HVal W k x) : HVal (W.shift d) (k - d) x := by
  have he : k - d + d = k := by omega
  rcases hv with ⟨c, T, a1, a2, a3⟩ | ⟨a, hor⟩
  · have := a2.2 k a1
    refine .inl ⟨c, T - d, ?_, tail_shift a2 (by omega), by omega⟩
    show W.C c (k - d + d)
    rw [he]; exact a1
  · refine .inr ⟨fun c hc => ?_, ?_⟩
    · have hc : W.C c (k - d + d) := hc
      rw [he] at hc
      exact a c hc
    · show (W.E (k - d + d) ∧ _) ∨ (¬ W.E (k - d + d) ∧ _)
      rw [he]; exact hor

/-- the value of a new head -/
theorem hval_move (hW : Law W sz) {h x : Nat} {y : Int} (hr : W.R h x) (hv : HVal W h y) : HVal W x (if y < fbUnc then y + ((h : Int) - x) else y) := by
  by_cases hc : y < fbUnc
  · rw [if_pos hc]
    obtain ⟨c, hc'⟩ := (hv.colored_iff hW).1 hc
    obtain ⟨T, hT⟩ := exists_tail hW hc'
    have := hv.tail hW hc' hT
    exact .inl ⟨c, T, hW.cc _ _ _ hr hc', hT, by omega⟩
  · rw [if_neg hc]
    have hn := mt (hv.colored_iff hW).2 hc
    refine .inr ⟨fun c hc => hn ⟨c, hW.cc _ _ _ (hW.symm _ _ hr) hc⟩, ?_⟩
    rcases hv with ⟨c, T, a1, _⟩ | ⟨_, ⟨a, b⟩ | ⟨a, b⟩⟩
    · exact absurd ⟨c, a1⟩ hn
    · exact .inl ⟨hW.ec _ _ hr a, b⟩
    · exact .inr ⟨fun h => a (hW.ec _ _ (hW.symm _ _ hr) h), b⟩

theorem HVal.bound (hW : Law W sz) {k : Nat} {x : Int} (hv : HVal W k x) (hk : k < W.L) : 0 ≤ x ∧ x < 2 ^ 15 := by
  have hs := hW.small
  rcases hv with ⟨c, T, a1, a2, a3⟩ | ⟨_, ⟨_, a⟩ | ⟨_, a⟩⟩
  · have := a2.2 k a1
    have := hW.cin _ _ a2.1
    omega
  · rw [a]; decide
  · rw [a]; decide

/-- elements that stay when nothing of their list leaves -/
theorem headOk_shift {d k : Nat} {x : Int} (hd : d ≤ k) (hno : ∀ j, j < d → ¬ W.R k j) (hh : HeadOk W k x) : HeadOk (W.shift d) (k - d) x := by
  have he : k - d + d = k := by omega
  obtain ⟨h, h1, h2⟩ := hh
  have hhd : d ≤ h := by
    rcases Nat.lt_or_ge h d with g | g
    · exact absurd h1.1 (hno h g)
    · exact g
  refine ⟨h - d, ⟨?_, fun j hj hr => ?_⟩, ?_⟩
  · show W.R (k - d + d) (h - d + d)
    rw [he, show h - d + d = h by omega]; exact h1.1
  · have hr : W.R (k - d + d) (j + d) := hr
    rw [he] at hr
    exact h1.2 (j + d) (by omega) hr
  · rcases h2 with ⟨rfl, h2⟩ | ⟨h2, h3⟩
    · exact .inl ⟨rfl, hval_shift hd h2⟩
    · exact .inr ⟨by omega, by omega⟩

/-- the loop over the vertices that leave -/
theorem heads_ok (hW : Law W sz) (hE : Enc W sz m) {d : Nat} (hdL : d ≤ W.L) (hds : d ≤ sz) : ∀ (n q : Nat) (m1 : List Mt), q + n = d → m1.length = sz →
    (∀ k, k < d → m1[k]? = m[k]?) → (∀ k : Nat, (m1[k]?).map Mt.nxt = (m[k]?).map Mt.nxt) →
    (∀ k, d ≤ k → k < W.L → k < sz → (∃ j, j < q ∧ W.R j k ∧ ∀ j', j < j' → j' < d → ¬ W.R j' k) → ∃ w, m1[k]? = some w ∧ HeadOk (W.shift d) (k - d) w.hoc) →
    (∀ k, d ≤ k → k < W.L → k < sz → ¬ (∃ j, j < q ∧ W.R j k ∧ ∀ j', j < j' → j' < d → ¬ W.R j' k) → m1[k]? = m[k]?) →
    ∃ m2, fbHeads (d : Int) n q m1 = some m2 ∧ m2.length = sz ∧ (∀ k, k < d → m2[k]? = m[k]?) ∧ (∀ k : Nat, (m2[k]?).map Mt.nxt = (m[k]?).map Mt.nxt) ∧
      (∀ k, d ≤ k → k < W.L → k < sz → (∃ j, j < d ∧ W.R j k ∧ ∀ j', j < j' → j' < d → ¬ W.R j' k) → ∃ w, m2[k]? = some w ∧ HeadOk (W.shift d) (k - d) w.hoc) ∧
      (∀ k, d ≤ k → k < W.L → k < sz → ¬ (∃ j, j < d ∧ W.R j k ∧ ∀ j', j < j' → j' < d → ¬ W.R j' k) → m2[k]? = m[k]?) := by
  have hsz := hW.size
  intro n
  induction n with
  | zero =>
    intro q m1 hq h0 h1 h2 h3 h4
    have : q = d := by omega
    subst this
    exact ⟨m1, rfl, h0, h1, h2, h3, h4⟩
  | succ n ih =>
    intro q m1 hq h0 h1 h2 h3 h4
    obtain ⟨w, h, x, rd⟩ := hE.reads hW (k := q) (by omega) (by omega)
    have hle := rd.le
    have hget : m1[q]? = some w := by rw [h1 q (by omega)]; exact rd.get
    unfold fbHeads
    rw [get_nat, hget, Option.bind_some]
    by_cases hge : (d : Int) ≤ q + w.nxt
    · rw [if_pos hge]
      obtain ⟨y, y1, y2, y3, y4⟩ : ∃ y, q < y ∧ W.R q y ∧ (∀ u, q < u → u < y → ¬ W.R q u) ∧ w.nxt = (y : Int) - q := by
        rcases rd.nxt with g | ⟨_, g⟩
        · exact g
        · omega
      rw [show (q : Int) + w.nxt = (y : Nat) by omega]
      have hdy : d ≤ y := by omega
      obtain ⟨w0, h', u, q1, q2, _, _, _, q6, q7, _⟩ := hE.at hW (k := q) (by omega) (by omega)
      have := q2.unique rd.hd
      subst this
      have hlm : ListFrom m1 (W.R q) y := by
        intro k hk hyk
        have hkq : k ≠ q := by omega
        obtain ⟨k1, k2, _⟩ := hW.win k q (hW.symm _ _ hk) hkq
        obtain ⟨v, hv, _, hn⟩ := hE.ent k k2 k1
        have hg := List.getElem?_eq_getElem (l := m1) (i := k) (by omega)
        have := h2 k
        rw [hg, hv] at this
        have : m1[k].nxt = v.nxt := by simpa using this
        refine ⟨_, hg, ?_⟩
        rw [this]
        exact hn.congr fun t _ => ⟨fun a => hW.trans _ _ _ hk a, fun a => hW.trans _ _ _ (hW.symm _ _ hk) a⟩
      have hhead : fbHead m1 q = some (h' : Int) := by
        have := rd.head
        unfold fbHead at this ⊢
        rw [get_nat] at this ⊢
        rw [h1 q (by omega)]; exact this
      have hry : W.R h' y := hW.trans _ _ _ (hW.symm _ _ q2.1) y2
      have hv := hval_move hW hry q7
      obtain ⟨yw, yL, _⟩ := hW.win y q (hW.symm _ _ y2) (by omega)
      have hb := hv.bound hW yL
      obtain ⟨m2, e1, e2, e3, e4, e5⟩ := replace_ok (P := W.R q) (by omega) hhead (by rw [h1 h' (by omega)]; exact q6) hlm y2 (by omega) (by omega)
      rw [e1, Option.bind_some]
      have hlast : ∀ k, d ≤ k → k < W.L → k < sz → ¬ W.R q k → ((∃ j, j < q + 1 ∧ W.R j k ∧ ∀ j', j < j' → j' < d → ¬ W.R j' k) ↔ (∃ j, j < q ∧ W.R j k ∧ ∀ j', j < j' → j' < d → ¬ W.R j' k)) := by
        intro k _ _ _ hr
        constructor
        · rintro ⟨j, j1, j2, j3⟩
          have : j ≠ q := fun h => hr (h ▸ j2)
          exact ⟨j, by omega, j2, j3⟩
        · rintro ⟨j, j1, j2, j3⟩
          exact ⟨j, by omega, j2, j3⟩
      refine ih (q + 1) m2 (by omega) (by omega) (fun k hk => by rw [e5 k (by omega), h1 k hk]) (fun k => ?_) (fun k k1 k2 k3 hk => ?_) (fun k k1 k2 k3 hk => ?_)
      · rw [← h2 k]
        by_cases hk : W.R q k ∧ y ≤ k
        · have hkq : k ≠ q := by omega
          obtain ⟨k1, k2, _⟩ := hW.win k q (hW.symm _ _ hk.1) hkq
          have hg := List.getElem?_eq_getElem (l := m1) (i := k) (by omega)
          rw [hg]
          by_cases hky : k = y
          · subst hky
            rw [e4 _ hg]; rfl
          · rw [e3 k _ hk.1 (by omega) hg]; rfl
        · rw [e5 k hk]
      · by_cases hr : W.R q k
        · have hyk : y ≤ k := by
            rcases Nat.lt_or_ge k y with g | g
            · exact absurd hr (y3 k (by omega) g)
            · exact g
          have hg := List.getElem?_eq_getElem (l := m1) (i := k) (by omega)
          have hhd : IsHd (W.shift d) (k - d) (y - d) := by
            refine ⟨?_, fun j hj hrj => ?_⟩
            · show W.R (k - d + d) (y - d + d)
              rw [show k - d + d = k by omega, show y - d + d = y by omega]
              exact hW.trans _ _ _ (hW.symm _ _ hr) y2
            · have hrj : W.R (k - d + d) (j + d) := hrj
              rw [show k - d + d = k by omega] at hrj
              exact y3 (j + d) (by omega) (by omega) (hW.trans _ _ _ hr hrj)
          by_cases hky : k = y
          · subst hky
            exact ⟨_, e4 _ hg, k - d, hhd, .inl ⟨rfl, hval_shift hdy hv⟩⟩
          · exact ⟨_, e3 k _ hr (by omega) hg, y - d, hhd, .inr ⟨by omega, by dsimp only; omega⟩⟩
        · rw [e5 k fun h => hr h.1]
          exact h3 k k1 k2 k3 ((hlast k k1 k2 k3 hr).1 hk)
      · have hr : ¬ W.R q k := by
          intro hr
          refine hk ⟨q, by omega, hr, fun j' j1 j2 j3 => y3 j' j1 (by omega) ?_⟩
          exact hW.trans _ _ _ hr (hW.symm _ _ j3)
        rw [e5 k fun h => hr h.1]
        exact h4 k k1 k2 k3 fun h => hk ((hlast k k1 k2 k3 hr).2 h)
    · rw [if_neg hge, Option.bind_some]
      have hlast : ∀ k, d ≤ k → k < W.L → k < sz → ((∃ j, j < q + 1 ∧ W.R j k ∧ ∀ j', j < j' → j' < d → ¬ W.R j' k) ↔ (∃ j, j < q ∧ W.R j k ∧ ∀ j', j < j' → j' < d → ¬ W.R j' k)) := by
        intro k k1 k2 k3
        constructor
        · rintro ⟨j, j1, j2, j3⟩
          have : j ≠ q := by
            intro hj
            subst hj
            rcases rd.nxt with ⟨y, y1, y2, y3, y4⟩ | ⟨g, _⟩
            · exact j3 y y1 (by omega) (hW.trans _ _ _ (hW.symm _ _ y2) j2)
            · exact g k (by omega) j2
          exact ⟨j, by omega, j2, j3⟩
        · rintro ⟨j, j1, j2, j3⟩
          exact ⟨j, by omega, j2, j3⟩
      exact ih (q + 1) m1 (by omega) h0 h1 h2 (fun k k1 k2 k3 hk => h3 k k1 k2 k3 ((hlast k k1 k2 k3).1 hk)) (fun k k1 k2 k3 hk => h4 k k1 k2 k3 fun h => hk ((hlast k k1 k2 k3).2 h))

/-- all elements that stay have their new values after the loop -/
theorem heads_all (hW : Law W sz) (hE : Enc W sz m) {d : Nat} (hdL : d ≤ W.L) (hds : d ≤ sz) :
    ∃ m1, fbHeads (d : Int) d 0 m = some m1 ∧ m1.length = sz ∧ (∀ k, k < d → m1[k]? = m[k]?) ∧
      (∀ k, d ≤ k → k < W.L → k < sz → ∃ w, m1[k]? = some w ∧ HeadOk (W.shift d) (k - d) w.hoc ∧ NextOk (W.R k) k w.nxt) := by
  obtain ⟨m1, e1, e2, e3, e4, e5, e6⟩ := heads_ok hW hE hdL hds d 0 m (by omega) hE.len (fun _ _ => rfl) (fun _ => rfl) (fun k _ _ _ ⟨j, hj, _⟩ => by omega) (fun _ _ _ _ _ => rfl)
  refine ⟨m1, e1, e2, e3, fun k k1 k2 k3 => ?_⟩
  obtain ⟨w, hw, hh, hn⟩ := hE.ent k k2 k3
  have hg := List.getElem?_eq_getElem (l := m1) (i := k) (by omega)
  have hnx := e4 k
  rw [hg, hw] at hnx
  have hnx : m1[k].nxt = w.nxt := by simpa using hnx
  refine ⟨_, hg, ?_, by rw [hnx]; exact hn⟩
  by_cases hex : ∃ j, j < d ∧ W.R j k ∧ ∀ j', j < j' → j' < d → ¬ W.R j' k
  · obtain ⟨v, hv, hv'⟩ := e5 k k1 k2 k3 hex
    rw [hg] at hv; injection hv with hv; subst hv
    exact hv'
  · have := e6 k k1 k2 k3 hex
    rw [hg, hw] at this
    injection this with this
    rw [this]
    refine headOk_shift k1 (fun j hj hr => ?_) hh
    -- the last one before `d`
    have hmax : ∀ n j, d - j ≤ n → j < d → W.R k j → False := by
      intro n
      induction n with
      | zero => intro j a b; omega
      | succ n ih =>
        intro j a b c
        refine hex ⟨j, b, hW.symm _ _ c, fun j' j1 j2 j3 => ih j' (by omega) j2 (hW.symm _ _ j3)⟩
    exact hmax d j (by omega) hj hr

/-! ### `removeFromList` -/

theorem remove0 {w0 : Mt} (g0 : m[0]? = some w0) (h0 : 0 ≤ w0.hoc) (h1 : w0.hoc = 0 → w0.nxt = 0) :
    ∃ m', fbRemove m 0 = some m' ∧ m'.length = m.length ∧ ∀ k, 0 < k → m'[k]? = m[k]? := by
  have hg : podGet m 0 = some w0 := by rw [show (0 : Int) = ((0 : Nat) : Int) from rfl, get_nat]; exact g0
  have hct : fbColoredTail m 0 = some (decide (w0.hoc = 0)) := by
    unfold fbColoredTail
    rw [hg, Option.bind_some]
    by_cases hz : w0.hoc = 0
    · rw [if_pos hz, hz]; rfl
    · rw [if_neg hz, if_neg (by omega)]; congr 1; symm; rw [decide_eq_false_iff_not]; exact hz
  unfold fbRemove
  rw [hg, Option.bind_some, hct, Option.bind_some]
  by_cases hz : w0.hoc = 0
  · rw [if_pos (by simp [hz]), if_neg (by simp [h1 hz])]
    unfold fbPred
    rw [hct, Option.bind_some, if_neg (by simp [hz])]
    exact ⟨m, rfl, rfl, fun _ _ => rfl⟩
  · rw [if_neg (by simp [hz])]
    by_cases hn : w0.nxt = 0
    · rw [if_pos hn]
      show ∃ m', fbUnlink 0 none none 1 0 m = _ ∧ _
      unfold fbUnlink
      rw [hg, Option.bind_some]
      dsimp only
      rw [Option.bind_some, hg, Option.bind_some, if_pos (by omega)]
      rw [show fbSetNxt m 0 0 = fbSetNxt m ((0 : Nat) : Int) 0 from rfl, setNxt g0 (by decide) (by decide), Option.bind_some]
      exact ⟨_, rfl, List.length_set, fun k hk => List.getElem?_set_ne (by omega)⟩
    · rw [if_neg hn]
      show ∃ m', fbUnlink 0 none (some w0.nxt) 1 0 m = _ ∧ _
      unfold fbUnlink
      rw [hg, Option.bind_some]
      dsimp only
      rw [Option.bind_some, hg, Option.bind_some, if_neg (by omega), Option.bind_some]
      exact ⟨_, rfl, rfl, fun _ _ => rfl⟩

theorem setNxt' {k : Nat} {w : Mt} (h : m[k]? = some w) (x : Int) : fbSetNxt m k x = some (m.set k ⟨w.hoc, wrap16 x⟩) := by
  unfold fbSetNxt
  rw [get_nat, h, Option.bind_some, set_nat _ (lt_of_get h)]

/-- one step of the loops without the change of colours -/
theorem unlink_step {o : Int} {add : Option Int} {p n : Nat} {w : Mt} (g : m[p]? = some w) :
    ∃ w', fbUnlink o none add (n + 1) p m = fbUnlink o none add n (p + 1) (m.set p w') ∧ w'.hoc = w.hoc ∧ ((p : Int) + w.nxt ≠ o → w'.nxt = w.nxt) := by
  have hlt := lt_of_get g
  rw [fbUnlink, get_nat, g, Option.bind_some]
  dsimp only
  rw [Option.bind_some, get_nat, g, Option.bind_some]
  by_cases hc : (p : Int) + w.nxt = o
  · rw [if_pos hc]
    rw [setNxt' g]
    exact ⟨_, rfl, rfl, fun h => absurd hc h⟩
  · rw [if_neg hc, Option.bind_some]
    refine ⟨w, ?_, rfl, fun _ => rfl⟩
    rw [List.getElem?_eq_getElem hlt] at g
    injection g with g
    rw [← g, List.set_getElem_self]

theorem remove1 {w0 w1 : Mt} (g0 : m[0]? = some w0) (g1 : m[1]? = some w1) (h0 : 0 ≤ w0.hoc) (h1 : w0.hoc = 0 → w0.nxt = 0) (h2 : w0.hoc = 1 → w0.nxt = 0 ∨ w0.nxt = 1)
    (h3 : w1.hoc = -1 ∨ 0 ≤ w1.hoc) (h4 : w1.hoc = 0 ∨ (w1.hoc = -1 ∧ w0.hoc = 1) → w1.nxt = 0) :
    ∃ m' w0', fbRemove m 1 = some m' ∧ m'.length = m.length ∧ (∀ k, 1 < k → m'[k]? = m[k]?) ∧ m'[0]? = some w0' ∧ 0 ≤ w0'.hoc ∧ (w0'.hoc = 0 → w0'.nxt = 0) := by
  have hg0 : podGet m 0 = some w0 := by rw [show (0 : Int) = ((0 : Nat) : Int) from rfl, get_nat]; exact g0
  have hg1 : podGet m 1 = some w1 := by rw [show (1 : Int) = ((1 : Nat) : Int) from rfl, get_nat]; exact g1
  have hl0 := lt_of_get g0
  have hl1 := lt_of_get g1
  have hct : fbColoredTail m 1 = some (decide (w1.hoc = 0 ∨ (w1.hoc = -1 ∧ w0.hoc = 1))) := by
    unfold fbColoredTail
    rw [hg1, Option.bind_some]
    by_cases hz : w1.hoc = 0
    · rw [if_pos hz]; congr 1; symm; rw [decide_eq_true_eq]; exact .inl hz
    · rw [if_neg hz]
      rcases h3 with h3 | h3
      · rw [if_pos (by omega), h3, show (1 : Int) + -1 = 0 from rfl, hg0, Option.map_some]
        congr 1
        rw [decide_eq_decide]
        omega
      · rw [if_neg (by omega)]; congr 1; symm; rw [decide_eq_false_iff_not]; omega
  unfold fbRemove
  rw [hg1, Option.bind_some, hct, Option.bind_some]
  by_cases ht : w1.hoc = 0 ∨ (w1.hoc = -1 ∧ w0.hoc = 1)
  · rw [if_pos (by rw [decide_eq_true_eq]; exact ht), if_neg (by simp [h4 ht])]
    have hpred : fbPred m 0 1 = some (if w0.hoc = 1 then some 0 else none) := by
      unfold fbPred
      rw [hct, Option.bind_some, if_neg (by rw [decide_eq_false_iff_not]; exact fun h => h ht)]
      show fbPredLoop m 0 1 1 = _
      unfold fbPredLoop
      have : fbTailOf m (0 + ((0 : Nat) : Int)) = some w0.hoc := by
        show fbTailOf m 0 = _
        unfold fbTailOf fbHead
        rw [hg0, Option.map_some, Option.bind_some, if_pos h0, hg0, Option.map_some]
        congr 1; omega
      rw [this, Option.bind_some]
      split <;> rfl
    rw [hpred, Option.bind_some]
    by_cases hw : w0.hoc = 1
    · rw [if_pos hw]
      show ∃ m' w0', fbUnlink 1 (some 0) none 1 0 m = _ ∧ _
      unfold fbUnlink
      rw [hg0, Option.bind_some]
      dsimp only
      rw [if_pos (by omega)]
      rw [show fbSetHoc m 0 (0 - 0) = fbSetHoc m ((0 : Nat) : Int) 0 from rfl, setHoc g0 (by decide) (by decide), Option.bind_some]
      have hgs : podGet (m.set 0 ⟨0, w0.nxt⟩) 0 = some ⟨0, w0.nxt⟩ := by
        rw [show (0 : Int) = ((0 : Nat) : Int) from rfl, get_nat, List.getElem?_set_self hl0]
      rw [hgs, Option.bind_some]
      dsimp only
      by_cases hn : w0.nxt = 1
      · rw [if_pos (by omega)]
        rw [show fbSetNxt (m.set 0 ⟨0, w0.nxt⟩) 0 0 = fbSetNxt (m.set 0 ⟨0, w0.nxt⟩) ((0 : Nat) : Int) 0 from rfl, setNxt (w := ⟨0, w0.nxt⟩) (List.getElem?_set_self hl0) (by decide) (by decide), Option.bind_some]
        refine ⟨_, ⟨0, 0⟩, rfl, by rw [List.length_set, List.length_set], fun k hk => ?_, ?_, by decide, fun _ => rfl⟩
        · rw [List.getElem?_set_ne (by omega), List.getElem?_set_ne (by omega)]
        · rw [List.getElem?_set_self (by rw [List.length_set]; exact hl0)]
      · rw [if_neg (by omega), Option.bind_some]
        refine ⟨_, ⟨0, w0.nxt⟩, rfl, List.length_set, fun k hk => ?_, List.getElem?_set_self hl0, Int.le_refl _, fun _ => ?_⟩
        · rw [List.getElem?_set_ne (by omega)]
        · have := h2 hw; show w0.nxt = 0; omega
    · rw [if_neg hw]
      exact ⟨m, w0, rfl, rfl, fun _ _ => rfl, g0, h0, h1⟩
  · rw [if_neg (by rw [decide_eq_true_eq]; exact ht)]
    have key : ∀ add, ∃ m' w0', fbUnlink 1 none add 2 0 m = some m' ∧ m'.length = m.length ∧ (∀ k, 1 < k → m'[k]? = m[k]?) ∧ m'[0]? = some w0' ∧ 0 ≤ w0'.hoc ∧ (w0'.hoc = 0 → w0'.nxt = 0) := by
      intro add
      obtain ⟨w0', a1, a2, a3⟩ := unlink_step (o := 1) (add := add) (n := 1) g0
      have g1' : (m.set 0 w0')[0 + 1]? = some w1 := by rw [List.getElem?_set_ne (by omega)]; exact g1
      obtain ⟨w1', b1, b2, b3⟩ := unlink_step (o := 1) (add := add) (n := 0) g1'
      refine ⟨((m.set 0 w0').set (0 + 1) w1'), w0', ?_, by rw [List.length_set, List.length_set], fun k hk => ?_, ?_, by omega, fun h => ?_⟩
      · have a1 : fbUnlink 1 none add 2 0 m = fbUnlink 1 none add 1 ((0 + 1 : Nat) : Int) (m.set 0 w0') := a1
        rw [a1, b1]; rfl
      · rw [List.getElem?_set_ne (by omega), List.getElem?_set_ne (by omega)]
      · rw [List.getElem?_set_ne (by omega), List.getElem?_set_self hl0]
      · have := h1 (by omega)
        rw [a3 (by omega)]; exact this
    by_cases hn : w1.nxt = 0
    · rw [if_pos hn]; exact key none
    · rw [if_neg hn]; exact key (some w1.nxt)

/-! ### `update` -/

/-- a coloured list does not go beyond the tail of its colour -/
theorem HVal.nxt_le (hW : Law W sz) {h k : Nat} {x n : Int} (hv : HVal W h x) (hx : x < fbUnc) (hr : W.R h k) (hn : NextOk (W.R k) k n) : (k : Int) + n ≤ h + x := by
  obtain ⟨c, hc⟩ := (hv.colored_iff hW).1 hx
  obtain ⟨T, hT⟩ := exists_tail hW hc
  have := hv.tail hW hc hT
  rcases hn with ⟨y, y1, y2, _, y4⟩ | ⟨_, y⟩
  · have := hT.2 y (hW.cc _ _ _ (hW.trans _ _ _ hr y2) hc)
    omega
  · have := hT.2 k (hW.cc _ _ _ hr hc)
    omega

theorem shift_enc (hW : Law W sz) {m1 : List Mt} {d : Nat} (hds : d ≤ sz) (hl : m1.length = sz)
    (h1 : ∀ k, d ≤ k → k < W.L → k < sz → ∃ w, m1[k]? = some w ∧ HeadOk (W.shift d) (k - d) w.hoc ∧ NextOk (W.R k) k w.nxt) {f : Nat → Mt}
    (hf : ∀ k, sz ≤ k → k < W.L → HVal W k (f k).hoc ∧ (f k).nxt = 0) :
    Enc (W.shift d) sz (m1.drop d ++ (List.range d).map fun k => f (d + (m1.length - d + k))) := by
  refine ⟨by rw [List.length_append, List.length_drop, List.length_map, List.length_range]; omega, fun k k1 k2 => ?_⟩
  have k1 : k < W.L - d := k1
  by_cases hk : k < sz - d
  · rw [List.getElem?_append_left (by rw [List.length_drop]; omega), List.getElem?_drop]
    obtain ⟨w, a1, a2, a3⟩ := h1 (d + k) (by omega) (by omega) (by omega)
    rw [show d + k - d = k by omega] at a2
    refine ⟨w, a1, a2, ?_⟩
    rcases a3 with ⟨y, y1, y2, y3, y4⟩ | ⟨y1, y2⟩
    · refine .inl ⟨y - d, by omega, ?_, fun u u1 u2 u3 => ?_, by omega⟩
      · show W.R (k + d) (y - d + d)
        rw [show k + d = d + k by omega, show y - d + d = y by omega]; exact y2
      · have u3 : W.R (k + d) (u + d) := u3
        rw [show k + d = d + k by omega] at u3
        exact y3 (u + d) (by omega) (by omega) u3
    · refine .inr ⟨fun u u1 u2 => ?_, y2⟩
      have u2 : W.R (k + d) (u + d) := u2
      rw [show k + d = d + k by omega] at u2
      exact y1 (u + d) (by omega) u2
  · rw [List.getElem?_append_right (by rw [List.length_drop]; omega), List.length_drop, List.getElem?_map, List.getElem?_range (by omega), Option.map_some]
    refine ⟨_, rfl, ?_⟩
    rw [show d + (m1.length - d + (k - (m1.length - d))) = k + d by omega]
    obtain ⟨a1, a2⟩ := hf (k + d) (by omega) (by omega)
    have hiso : ∀ l, W.R (k + d) l → l = k + d := by
      intro l hr
      apply Classical.byContradiction
      intro hn
      have := (hW.win (k + d) l hr (Ne.symm hn)).1
      omega
    refine ⟨⟨k, ⟨hW.refl _, fun j hj hr => ?_⟩, .inl ⟨rfl, ?_⟩⟩, .inr ⟨fun u u1 u2 => ?_, a2⟩⟩
    · have := hiso (j + d) hr; omega
    · have := hval_shift (d := d) (k := k + d) (by omega) a1
      rw [show k + d - d = k by omega] at this
      exact this
    · have := hiso (u + d) u2; omega

/-- the three cases of an edge: no vertex leaves, the first one leaves, both leave -/
def Leave (s s' : Nat) (e : EdgeInfo) : Prop :=
  (e.v1final = false ∧ e.v2final = false ∧ s' = s) ∨ (e.v1final = true ∧ e.v2final = false ∧ e.v1 = s ∧ s' = s + 1) ∨
  (e.v1final = true ∧ e.v2final = true ∧ e.v1 = s ∧ e.v2 = s + 1 ∧ s' = s + 2)

theorem update_ok (hW : Law W sz) (hE : Enc W sz m) {G : Graph} {e f : EdgeInfo} (hlv : Leave e.v0 f.v0 e) (l2 : e.v2 - e.v0 < W.L) (s1 : e.v1 - e.v0 < sz) (s2 : e.v2 - e.v0 < sz)
    (hfv : f.v0 ≤ G.vMax) (hinit : ∀ k, sz ≤ k → k < W.L → HVal W k (fbInit G (e.v0 + k)).hoc ∧ (fbInit G (e.v0 + k)).nxt = 0) :
    ∃ m', fbUpdate G m e f = some m' ∧ Enc (W.shift (f.v0 - e.v0)) sz m' := by
  have hu : fbUnc = 32766 := rfl
  have hlen := hE.len
  rcases hlv with ⟨f1, f2, hs⟩ | ⟨f1, f2, hv1, hs⟩ | ⟨f1, f2, hv1, hv2, hs⟩
  · unfold fbUpdate
    rw [hs, if_neg (by omega), Nat.sub_self]
    dsimp only
    rw [fbHeads, Option.bind_some, if_neg (by rw [f2]; simp), Option.bind_some, if_neg (by rw [f1]; simp), Option.bind_some, if_pos rfl]
    exact ⟨m, rfl, hE.same ⟨rfl, fun _ _ => Iff.rfl, fun _ _ => Iff.rfl, fun _ => Iff.rfl⟩⟩
  · rw [hv1] at s1
    obtain ⟨m1, e1, e2, e3, e4⟩ := heads_all hW hE (d := 1) (by omega) (by omega)
    obtain ⟨w0, h0, x0, r0⟩ := hE.reads hW (k := 0) (by omega) (by omega)
    have hle := r0.le
    have hh0 : h0 = 0 := by omega
    subst hh0
    have hx : w0.hoc = x0 ∧ 0 ≤ x0 := by rcases r0.hoc with h | h; exact h.2; omega
    obtain ⟨m2, a1, a2, a3⟩ := remove0 (m := m1) (by rw [e3 0 (by omega)]; exact r0.get) (by omega) (fun hz => by
      have := r0.val.nxt_le hW (by omega) (hW.refl _) r0.nxt
      rcases r0.nxt with ⟨y, y1, _, _, y4⟩ | ⟨_, y⟩
      · omega
      · exact y)
    unfold fbUpdate
    rw [hs, if_neg (by omega), show e.v0 + 1 - e.v0 = 1 by omega, hv1, show (e.v0 : Int) - e.v0 = 0 by omega]
    dsimp only
    rw [show (0 : Int) + ((1 : Nat) : Int) = ((1 : Nat) : Int) from rfl, show fbHeads ((1 : Nat) : Int) 1 0 m = some m1 from e1, Option.bind_some, if_neg (by rw [f2]; simp), Option.bind_some, if_pos f1, a1, Option.bind_some]
    unfold fbClear
    rw [show podSet m2 0 ⟨0, 0⟩ = podSet m2 ((0 : Nat) : Int) ⟨0, 0⟩ from rfl, set_nat _ (by omega), Option.bind_some, if_neg (by omega), if_neg (by rw [List.length_set]; omega)]
    refine ⟨_, rfl, ?_⟩
    have := shift_enc hW (m1 := m2.set 0 ⟨0, 0⟩) (d := 1) (by omega) (by rw [List.length_set]; omega) (fun k k1 k2 k3 => by
      rw [List.getElem?_set_ne (by omega), a3 k (by omega)]
      exact e4 k k1 k2 k3) (f := fun k => fbInit G (e.v0 + k)) hinit
    simp only [← Nat.add_assoc] at this ⊢
    exact this
  · rw [hv1] at s1
    rw [hv2] at l2 s2
    obtain ⟨m1, e1, e2, e3, e4⟩ := heads_all hW hE (d := 2) (by omega) (by omega)
    obtain ⟨w0, h0, x0, r0⟩ := hE.reads hW (k := 0) (by omega) (by omega)
    obtain ⟨w1, h1, x1, r1⟩ := hE.reads hW (k := 1) (by omega) (by omega)
    have hle := r0.le
    have hle1 := r1.le
    have hh0 : h0 = 0 := by omega
    subst hh0
    have hx : w0.hoc = x0 ∧ 0 ≤ x0 := by rcases r0.hoc with h | h; exact h.2; omega
    have hnn : ∀ {P : Nat → Prop} {k : Nat} {n : Int}, NextOk P k n → 0 ≤ n := by
      intro P k n h
      rcases h with ⟨y, y1, _, _, y4⟩ | ⟨_, y⟩ <;> omega
    have n0 := hnn r0.nxt
    have n1 := hnn r1.nxt
    obtain ⟨m2, w0', a1, a2, a3, a4, a5, a6⟩ := remove1 (m := m1) (by rw [e3 0 (by omega)]; exact r0.get) (by rw [e3 1 (by omega)]; exact r1.get) (by omega)
      (fun hz => by have := r0.val.nxt_le hW (by omega) (hW.refl _) r0.nxt; omega)
      (fun hz => by have := r0.val.nxt_le hW (by omega) (hW.refl _) r0.nxt; omega)
      (by rcases r1.hoc with h | h <;> omega)
      (fun hz => by
        rcases r1.hoc with h | h
        · obtain ⟨q1, q2, q3⟩ := h
          subst q1
          have := r1.val.nxt_le hW (by omega) (hW.refl _) r1.nxt; omega
        · have q1 : h1 = 0 := by omega
          subst q1
          have := r0.val.nxt_le hW (by omega) (hW.symm _ _ r1.hd.1) r1.nxt; omega)
    obtain ⟨m3, b1, b2, b3⟩ := remove0 (m := m2.set 1 ⟨0, 0⟩) (by rw [List.getElem?_set_ne (by omega)]; exact a4) a5 a6
    rw [List.length_set] at b2
    unfold fbUpdate
    rw [hs, if_neg (by omega), show e.v0 + 2 - e.v0 = 2 by omega, hv1, hv2, show (e.v0 : Int) - e.v0 = 0 by omega, show ((e.v0 + 1 : Nat) : Int) - e.v0 = 1 by omega]
    dsimp only
    rw [show (0 : Int) + ((2 : Nat) : Int) = ((2 : Nat) : Int) from rfl, show fbHeads ((2 : Nat) : Int) 2 0 m = some m1 from e1, Option.bind_some, if_pos f2, a1, Option.bind_some]
    unfold fbClear
    rw [show podSet m2 1 ⟨0, 0⟩ = podSet m2 ((1 : Nat) : Int) ⟨0, 0⟩ from rfl, set_nat _ (by omega), Option.bind_some, if_pos f1, b1, Option.bind_some]
    rw [show podSet m3 0 ⟨0, 0⟩ = podSet m3 ((0 : Nat) : Int) ⟨0, 0⟩ from rfl, set_nat _ (by omega), Option.bind_some, if_neg (by omega), if_neg (by rw [List.length_set]; omega)]
    refine ⟨_, rfl, ?_⟩
    have := shift_enc hW (m1 := m3.set 0 ⟨0, 0⟩) (d := 2) (by omega) (by rw [List.length_set]; omega) (fun k k1 k2 k3 => by
      rw [List.getElem?_set_ne (by omega), b3 k (by omega), List.getElem?_set_ne (by omega), a3 k (by omega)]
      exact e4 k k1 k2 k3) (f := fun k => fbInit G (e.v0 + k)) hinit
    simp only [← Nat.add_assoc] at this ⊢
    exact this

end TdZdd.Fb
