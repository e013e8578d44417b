import Verif.FrontierSearch
import Verif.DegreeProofs

/-! Proofs about `FrontierBasedSearch` (1): the linked lists in the array. -/

namespace TdZdd.Fb

open Gr Deg

/-- `n` is the offset from `k` to the next element of `P`, or 0 if there is none -/
def NextOk (P : Nat → Prop) (k : Nat) (n : Int) : Prop :=
  (∃ x, k < x ∧ P x ∧ (∀ u, k < u → u < x → ¬ P u) ∧ n = (x : Int) - k) ∨ ((∀ u, k < u → ¬ P u) ∧ n = 0)

/-- the elements of `P` from `p` on are linked in ascending order -/
def ListFrom (m : List Mt) (P : Nat → Prop) (p : Nat) : Prop := ∀ k, P k → p ≤ k → ∃ w, m[k]? = some w ∧ NextOk P k w.nxt

theorem NextOk.congr {P Q : Nat → Prop} {k : Nat} {n : Int} (h : NextOk P k n) (hq : ∀ u, k < u → (P u ↔ Q u)) : NextOk Q k n := by
  rcases h with ⟨x, h1, h2, h3, h4⟩ | ⟨h1, h2⟩
  · exact .inl ⟨x, h1, (hq x h1).1 h2, fun u h5 h6 h7 => h3 u h5 h6 ((hq u h5).2 h7), h4⟩
  · exact .inr ⟨fun u h5 h7 => h1 u h5 ((hq u h5).2 h7), h2⟩

theorem get_nat (m : List Mt) (k : Nat) : podGet m (k : Int) = m[k]? := by
  unfold podGet
  rw [if_neg (by omega), Int.toNat_natCast]

theorem lt_of_get {m : List Mt} {k : Nat} {w : Mt} (h : m[k]? = some w) : k < m.length := (List.getElem?_eq_some_iff.1 h).1

theorem set_nat {m : List Mt} {k : Nat} (x : Mt) (h : k < m.length) : podSet m (k : Int) x = some (m.set k x) := by
  rw [podSet_some x (by omega) (by omega), Int.toNat_natCast]

theorem setHoc {m : List Mt} {k : Nat} {w : Mt} (h : m[k]? = some w) {x : Int} (h1 : -2 ^ 15 ≤ x) (h2 : x < 2 ^ 15) : fbSetHoc m k x = some (m.set k ⟨x, w.nxt⟩) := by
  unfold fbSetHoc
  rw [get_nat, h, Option.bind_some, wrap16_eq h1 h2, set_nat _ (lt_of_get h)]

theorem setNxt {m : List Mt} {k : Nat} {w : Mt} (h : m[k]? = some w) {x : Int} (h1 : -2 ^ 15 ≤ x) (h2 : x < 2 ^ 15) : fbSetNxt m k x = some (m.set k ⟨w.hoc, x⟩) := by
  unfold fbSetNxt
  rw [get_nat, h, Option.bind_some, wrap16_eq h1 h2, set_nat _ (lt_of_get h)]

theorem set_get {m : List Mt} {k : Nat} (x : Mt) (h : k < m.length) (j : Nat) : (m.set k x)[j]? = if j = k then some x else m[j]? := by
  by_cases hj : j = k
  · subst hj; rw [if_pos rfl, List.getElem?_set_self h]
  · rw [if_neg hj, List.getElem?_set_ne (by omega)]

/-! ### a new head for the second list -/

theorem point_ok {P : Nat → Prop} {p1 : Nat} : ∀ (fuel q : Nat) (m : List Mt), m.length ≤ 32766 → p1 < m.length → ListFrom m P q → P q → m.length - q ≤ fuel →
    ∃ m', fbPoint p1 fuel q m = some m' ∧ m'.length = m.length ∧ (∀ k w, P k → q ≤ k → m[k]? = some w → m'[k]? = some ⟨(p1 : Int) - k, w.nxt⟩) ∧ (∀ k, ¬ (P k ∧ q ≤ k) → m'[k]? = m[k]?) := by
  intro fuel
  induction fuel with
  | zero =>
    intro q m _ _ hL hq hf
    obtain ⟨w, hw, _⟩ := hL q hq (Nat.le_refl _)
    have := lt_of_get hw
    omega
  | succ fuel ih =>
    intro q m hs hp hL hq hf
    obtain ⟨w, hw, hn⟩ := hL q hq (Nat.le_refl _)
    have hlt := lt_of_get hw
    unfold fbPoint
    rw [setHoc hw (by omega) (by omega), Option.bind_some, get_nat, List.getElem?_set_self hlt, Option.bind_some]
    dsimp only
    rcases hn with ⟨x, h1, h2, h3, h4⟩ | ⟨h1, h2⟩
    · rw [if_neg (by omega), show (q : Int) + w.nxt = (x : Nat) by omega]
      obtain ⟨m', e1, e2, e3, e4⟩ := ih x (m.set q ⟨(p1 : Int) - q, w.nxt⟩) (by rw [List.length_set]; exact hs) (by rw [List.length_set]; exact hp)
        (fun k hk hkx => by rw [List.getElem?_set_ne (by omega)]; exact hL k hk (by omega)) h2 (by rw [List.length_set]; omega)
      refine ⟨m', e1, by rw [e2, List.length_set], fun k u hk hqk hu => ?_, fun k hk => ?_⟩
      · by_cases hkq : k = q
        · subst hkq
          rw [hw] at hu; injection hu with hu; subst hu
          rw [e4 k (by omega), List.getElem?_set_self hlt]
        · rcases Nat.lt_or_ge k x with hkx | hkx
          · exact absurd hk (h3 k (by omega) hkx)
          · exact e3 k u hk hkx (by rw [List.getElem?_set_ne (by omega)]; exact hu)
      · have hkq : k ≠ q := fun h => hk ⟨h ▸ hq, by omega⟩
        rw [e4 k (fun h => hk ⟨h.1, by omega⟩), List.getElem?_set_ne (by omega)]
    · rw [if_pos h2]
      refine ⟨_, rfl, by rw [List.length_set], fun k u hk hqk hu => ?_, fun k hk => ?_⟩
      · by_cases hkq : k = q
        · subst hkq
          rw [hw] at hu; injection hu with hu; subst hu
          rw [List.getElem?_set_self hlt]
        · exact absurd hk (h1 k (by omega))
      · have hkq : k ≠ q := fun h => hk ⟨h ▸ hq, by omega⟩
        rw [List.getElem?_set_ne (by omega)]

/-! ### merging -/

theorem advance_ok {P : Nat → Prop} {m : List Mt} {q : Nat} (hq : ¬ P q) : ∀ (fuel p : Nat) (pp : Int), ListFrom m P p → P p → NextOk P p (pp - p) → p < q → m.length + 1 - p ≤ fuel →
    ∃ p' : Nat, ∃ pp' : Int, fbAdvance m q fuel p pp = some ((p' : Int), pp') ∧ P p' ∧ p ≤ p' ∧ p' < q ∧ NextOk P p' (pp' - p') ∧ ((p' : Int) = pp' ∨ (q : Int) < pp') := by
  intro fuel
  induction fuel with
  | zero =>
    intro p pp hL hp _ _ hf
    obtain ⟨w, hw, _⟩ := hL p hp (Nat.le_refl _)
    have := lt_of_get hw
    omega
  | succ fuel ih =>
    intro p pp hL hp hn hpq hf
    unfold fbAdvance
    rcases hn with ⟨x, h1, h2, h3, h4⟩ | ⟨h1, h2⟩
    · have hx : pp = (x : Nat) := by omega
      subst hx
      have hxq : x ≠ q := fun h => hq (h ▸ h2)
      by_cases hlt : x < q
      · rw [if_pos ⟨by omega, by omega⟩, get_nat]
        obtain ⟨w, hw, hn⟩ := hL x h2 (by omega)
        rw [hw, Option.bind_some, if_pos ?_]
        · obtain ⟨p', pp', e1, e2, e3, e4⟩ := ih x ((x : Int) + w.nxt) (fun k hk hkx => hL k hk (by omega)) h2 (by rw [show (x : Int) + w.nxt - x = w.nxt by omega]; exact hn) hlt
            (by have := lt_of_get hw; omega)
          exact ⟨p', pp', e1, e2, by omega, e4⟩
        · rcases hn with ⟨y, g1, g2, g3, g4⟩ | ⟨g1, g2⟩
          · have : y ≠ q := fun h => hq (h ▸ g2)
            omega
          · omega
      · rw [if_neg (by omega)]
        exact ⟨p, x, rfl, hp, Nat.le_refl _, hpq, .inl ⟨x, h1, h2, h3, by omega⟩, .inr (by omega)⟩
    · rw [if_neg (by omega)]
      exact ⟨p, pp, rfl, hp, Nat.le_refl _, hpq, .inr ⟨h1, h2⟩, .inl (by omega)⟩

theorem zip_ok : ∀ (fuel p q : Nat) (m : List Mt) (P Q : Nat → Prop), m.length ≤ 32766 → P p → Q q → p < q → (∀ u, P u → ¬ Q u) → (∀ u, Q u → q ≤ u ∨ u < p) →
    ListFrom m P p → ListFrom m Q q → m.length - p ≤ fuel →
    ∃ m' : List Mt, ∃ r : Nat, fbZip fuel p q m = some (m', (r : Int)) ∧ m'.length = m.length ∧ (∀ k : Nat, (m'[k]?).map Mt.hoc = (m[k]?).map Mt.hoc) ∧
      (∀ k, ¬ ((P k ∨ Q k) ∧ p ≤ k) → m'[k]? = m[k]?) ∧ ListFrom m' (fun k => P k ∨ Q k) p ∧ (P r ∨ Q r) ∧ p ≤ r := by
  intro fuel
  induction fuel with
  | zero =>
    intro p q m P Q _ hp _ _ _ _ hL _ hf
    obtain ⟨w, hw, _⟩ := hL p hp (Nat.le_refl _)
    have := lt_of_get hw
    omega
  | succ fuel ih =>
    intro p q m P Q hs hp hq hpq hdis hbet hLP hLQ hf
    obtain ⟨w, hw, hn⟩ := hLP p hp (Nat.le_refl _)
    have hnq : ¬ P q := fun h => hdis q h hq
    obtain ⟨wq, hwq, _⟩ := hLQ q hq (Nat.le_refl _)
    have hqlt := lt_of_get hwq
    unfold fbZip
    rw [if_neg (by omega), get_nat, hw, Option.bind_some, if_pos ?_]
    rotate_left
    · rcases hn with ⟨y, g1, g2, g3, g4⟩ | ⟨g1, g2⟩
      · have : y ≠ q := fun h => hnq (h ▸ g2)
        omega
      · omega
    obtain ⟨p', pp', e1, hp', hpp', hpq', hn', hor⟩ := advance_ok hnq (m.length + 1) p ((p : Int) + w.nxt) hLP hp (by rw [show (p : Int) + w.nxt - p = w.nxt by omega]; exact hn) hpq (by omega)
    obtain ⟨w', hw', hnw'⟩ := hLP p' hp' hpp'
    have hplt := lt_of_get hw'
    rw [e1, Option.bind_some]
    dsimp only
    rw [if_pos hor, setNxt hw' (by omega) (by omega), Option.bind_some]
    -- elements of `P` above `p'` are above `q`
    have habove : ∀ u, P u → p' < u → q < u := by
      intro u hu hlt
      rcases hn' with ⟨y, g1, g2, g3, g4⟩ | ⟨g1, g2⟩
      · rcases Nat.lt_or_ge u y with h | h
        · exact absurd hu (g3 u hlt h)
        · omega
      · exact absurd hu (g1 u hlt)
    have hmid : ∀ k n, P k → p ≤ k → k < p' → NextOk P k n → NextOk (fun k => P k ∨ Q k) k n := by
      intro k n hk hpk hkp h
      rcases h with ⟨x, h1, h2, h3, h4⟩ | ⟨h1, h2⟩
      · refine .inl ⟨x, h1, .inl h2, fun u hu1 hu2 hu3 => ?_, h4⟩
        rcases hu3 with hu3 | hu3
        · exact h3 u hu1 hu2 hu3
        · rcases hbet u hu3 with h | h
          · have : x ≤ p' := by
              apply Classical.byContradiction
              intro hx
              exact h3 p' hkp (by omega) hp'
            omega
          · omega
      · exact absurd hp' (h1 p' hkp)
    have hself : NextOk (fun k => P k ∨ Q k) p' ((q : Int) - p') := by
      refine .inl ⟨q, hpq', .inr hq, fun u h1 h2 h3 => ?_, rfl⟩
      rcases h3 with h3 | h3
      · have := habove u h3 h1; omega
      · rcases hbet u h3 with h | h <;> omega
    have hk_set : ∀ k : Nat, (((m.set p' ⟨w'.hoc, (q : Int) - p'⟩)[k]?).map Mt.hoc) = (m[k]?).map Mt.hoc := by
      intro k
      rw [set_get _ hplt]
      by_cases hkp : k = p'
      · subst hkp; rw [if_pos rfl, hw']; rfl
      · rw [if_neg hkp]
    by_cases hpe : (p' : Int) = pp'
    · rw [if_pos hpe]
      have hnone : ∀ u, p' < u → ¬ P u := by
        rcases hn' with ⟨y, g1, g2, g3, g4⟩ | ⟨g1, g2⟩
        · omega
        · exact g1
      refine ⟨_, q, rfl, by rw [List.length_set], hk_set, fun k hk => ?_, fun k hk hpk => ?_, .inr hq, by omega⟩
      · rw [List.getElem?_set_ne (fun h : p' = k => hk ⟨.inl (h ▸ hp'), by omega⟩)]
      · rw [set_get _ hplt]
        by_cases hkp : k = p'
        · subst hkp; rw [if_pos rfl]; exact ⟨_, rfl, hself⟩
        rw [if_neg hkp]
        rcases hk with hk | hk
        · have hlt : k < p' := by
            rcases Nat.lt_or_ge k p' with h | h
            · exact h
            · exact absurd hk (hnone k (by omega))
          obtain ⟨u, hu, hnu⟩ := hLP k hk hpk
          exact ⟨u, hu, hmid k _ hk hpk hlt hnu⟩
        · have hge : q ≤ k := by
            rcases hbet k hk with h | h
            · exact h
            · omega
          obtain ⟨u, hu, hnu⟩ := hLQ k hk hge
          exact ⟨u, hu, hnu.congr fun v hv => ⟨.inr, fun h => h.resolve_left (hnone v (by omega))⟩⟩
    · rw [if_neg hpe]
      obtain ⟨y, g1, g2, g3, g4⟩ : ∃ y, p' < y ∧ P y ∧ (∀ u, p' < u → u < y → ¬ P u) ∧ pp' - p' = (y : Int) - p' := by
        rcases hn' with h | ⟨_, h⟩
        · exact h
        · omega
      have hpy : pp' = (y : Nat) := by omega
      subst hpy
      have hqy : q < y := by omega
      obtain ⟨m', r, f1, f2, f3, f4, f5, f6, f7⟩ := ih q y (m.set p' ⟨w'.hoc, (q : Int) - p'⟩) Q P (by rw [List.length_set]; exact hs) hq g2 hqy (fun u h1 h2 => hdis u h2 h1)
        (fun u hu => by
          rcases Nat.lt_or_ge p' u with h | h
          · left
            apply Classical.byContradiction
            intro hn
            exact g3 u h (by omega) hu
          · right; omega)
        (fun k hk hkq => by rw [List.getElem?_set_ne (by omega)]; exact hLQ k hk hkq)
        (fun k hk hky => by rw [List.getElem?_set_ne (by omega)]; exact hLP k hk (by omega))
        (by rw [List.length_set]; omega)
      refine ⟨m', r, f1, by rw [f2, List.length_set], fun k => by rw [f3, hk_set], fun k hk => ?_, fun k hk hpk => ?_, f6.symm, by omega⟩
      · rw [f4 k fun h => hk ⟨h.1.symm, by omega⟩, List.getElem?_set_ne (fun h : p' = k => hk ⟨.inl (h ▸ hp'), by omega⟩)]
      · rcases Nat.lt_or_ge k q with hkq | hkq
        · rw [f4 k (by omega), set_get _ hplt]
          by_cases hkp : k = p'
          · subst hkp; rw [if_pos rfl]; exact ⟨_, rfl, hself⟩
          rw [if_neg hkp]
          rcases hk with hk | hk
          · have hlt : k < p' := by
              rcases Nat.lt_or_ge k p' with h | h
              · exact h
              · have := habove k hk (by omega); omega
            obtain ⟨u, hu, hnu⟩ := hLP k hk hpk
            exact ⟨u, hu, hmid k _ hk hpk hlt hnu⟩
          · rcases hbet k hk with h | h <;> omega
        · obtain ⟨u, hu, hnu⟩ := f5 k hk.symm hkq
          exact ⟨u, hu, hnu.congr fun v _ => Or.comm⟩

/-! ### the last element -/

theorem last_ok {P : Nat → Prop} {m : List Mt} : ∀ (fuel q : Nat), ListFrom m P q → P q → m.length - q ≤ fuel →
    ∃ t : Nat, fbLast m fuel q = some (t : Int) ∧ P t ∧ (∀ u, P u → u ≤ t) ∧ t < m.length := by
  intro fuel
  induction fuel with
  | zero =>
    intro q hL hq hf
    obtain ⟨w, hw, _⟩ := hL q hq (Nat.le_refl _)
    have := lt_of_get hw
    omega
  | succ fuel ih =>
    intro q hL hq hf
    obtain ⟨w, hw, hn⟩ := hL q hq (Nat.le_refl _)
    have hlt := lt_of_get hw
    unfold fbLast
    rw [get_nat, hw, Option.bind_some]
    rcases hn with ⟨x, h1, h2, h3, h4⟩ | ⟨h1, h2⟩
    · rw [if_neg (by omega), show (q : Int) + w.nxt = (x : Nat) by omega]
      exact ih x (fun k hk hkx => hL k hk (by omega)) h2 (by omega)
    · rw [if_pos h2]
      refine ⟨q, rfl, hq, fun u hu => ?_, hlt⟩
      apply Classical.byContradiction
      intro hn
      exact h1 u (by omega) hu

/-! ### the tail of a colour moves -/

theorem paint_ok {pp q : Nat} : ∀ (n p : Nat) (m : List Mt), m.length ≤ 32766 → q < m.length → p + n ≤ m.length →
    ∃ m', fbPaint pp q n p m = some m' ∧ m'.length = m.length ∧
      (∀ k w, p ≤ k → k < p + n → m[k]? = some w → m'[k]? = some (if (k : Int) + w.hoc = pp then ⟨(q : Int) - k, w.nxt⟩ else w)) ∧ (∀ k, ¬ (p ≤ k ∧ k < p + n) → m'[k]? = m[k]?) := by
  intro n
  induction n with
  | zero =>
    intro p m _ _ _
    exact ⟨m, rfl, rfl, fun k w _ _ => by omega, fun _ _ => rfl⟩
  | succ n ih =>
    intro p m hs hq hp
    unfold fbPaint
    have hlt : p < m.length := by omega
    have hw := List.getElem?_eq_getElem hlt
    rw [get_nat, hw, Option.bind_some]
    have step : ∃ m1, (if (p : Int) + m[p].hoc = pp then fbSetHoc m p ((q : Int) - p) else some m) = some m1 ∧ m1.length = m.length ∧ (∀ k, k ≠ p → m1[k]? = m[k]?) ∧
        m1[p]? = some (if (p : Int) + m[p].hoc = pp then ⟨(q : Int) - p, m[p].nxt⟩ else m[p]) := by
      by_cases hc : (p : Int) + m[p].hoc = pp
      · rw [if_pos hc, if_pos hc, setHoc hw (by omega) (by omega)]
        exact ⟨_, rfl, List.length_set, fun k hk => List.getElem?_set_ne (Ne.symm hk), List.getElem?_set_self hlt⟩
      · rw [if_neg hc, if_neg hc]
        exact ⟨m, rfl, rfl, fun _ _ => rfl, hw⟩
    obtain ⟨m1, s1, s2, s3, s4⟩ := step
    rw [s1, Option.bind_some]
    obtain ⟨m', e1, e2, e3, e4⟩ := ih (p + 1) m1 (by omega) (by omega) (by omega)
    refine ⟨m', e1, by omega, fun k w hk1 hk2 hkw => ?_, fun k hk => ?_⟩
    · by_cases hkp : k = p
      · subst hkp
        rw [hw] at hkw; injection hkw with hkw; subst hkw
        rw [e4 k (by omega), s4]
      · exact e3 k w (by omega) (by omega) (by rw [s3 k hkp]; exact hkw)
    · rw [e4 k (by omega), s3 k (by omega)]

/-! ### a new head after the old one has left -/

theorem rehead_ok {P : Nat → Prop} {nh : Nat} : ∀ (fuel q : Nat) (m : List Mt), m.length ≤ 32766 → nh < m.length → ListFrom m P q → P q → m.length - q ≤ fuel →
    ∃ m', fbRehead nh fuel q m = some m' ∧ m'.length = m.length ∧ (∀ k w, P k → q < k → m[k]? = some w → m'[k]? = some ⟨(nh : Int) - k, w.nxt⟩) ∧ (∀ k, ¬ (P k ∧ q < k) → m'[k]? = m[k]?) := by
  intro fuel
  induction fuel with
  | zero =>
    intro q m _ _ hL hq hf
    obtain ⟨w, hw, _⟩ := hL q hq (Nat.le_refl _)
    have := lt_of_get hw
    omega
  | succ fuel ih =>
    intro q m hs hp hL hq hf
    obtain ⟨w, hw, hn⟩ := hL q hq (Nat.le_refl _)
    have hlt := lt_of_get hw
    unfold fbRehead
    rw [get_nat, hw, Option.bind_some]
    rcases hn with ⟨x, h1, h2, h3, h4⟩ | ⟨h1, h2⟩
    · obtain ⟨u, hu, _⟩ := hL x h2 (by omega)
      have hxlt := lt_of_get hu
      rw [if_pos (by omega), show (q : Int) + w.nxt = (x : Nat) by omega, setHoc hu (by omega) (by omega), Option.bind_some]
      obtain ⟨m', e1, e2, e3, e4⟩ := ih x (m.set x ⟨(nh : Int) - x, u.nxt⟩) (by rw [List.length_set]; exact hs) (by rw [List.length_set]; exact hp)
        (fun k hk hkx => by
          obtain ⟨v, hv, hnv⟩ := hL k hk (by omega)
          rw [set_get _ hxlt]
          by_cases hkx' : k = x
          · subst hkx'
            rw [hu] at hv; injection hv with hv; subst hv
            rw [if_pos rfl]; exact ⟨_, rfl, hnv⟩
          · rw [if_neg hkx']; exact ⟨v, hv, hnv⟩) h2 (by rw [List.length_set]; omega)
      refine ⟨m', e1, by rw [e2, List.length_set], fun k v hk hqk hv => ?_, fun k hk => ?_⟩
      · by_cases hkx : k = x
        · subst hkx
          rw [hu] at hv; injection hv with hv; subst hv
          rw [e4 k (by omega), List.getElem?_set_self hxlt]
        · rcases Nat.lt_or_ge k x with h | h
          · exact absurd hk (h3 k hqk h)
          · exact e3 k v hk (by omega) (by rw [List.getElem?_set_ne (by omega)]; exact hv)
      · have hkx : k ≠ x := fun h => hk ⟨h ▸ h2, by omega⟩
        rw [e4 k (fun h => hk ⟨h.1, by omega⟩), List.getElem?_set_ne (by omega)]
    · rw [if_neg (by omega)]
      exact ⟨m, rfl, rfl, fun k v hk hqk _ => absurd hk (h1 k hqk), fun _ _ => rfl⟩

end TdZdd.Fb
