import Verif.PathProofs

/-! Proofs about `PathZdd` (2): `takable`, no undefined behaviour. -/

namespace TdZdd.Sp

open Gr Deg

variable {G : Graph} {A : Nat → Nat → Prop} {i : Nat}

/-! ### the loops over the frontier -/

section
variable {ham : Bool} {e : EdgeInfo}

theorem clean_yes : ∀ {ws : List Int} {k : Nat} {c : Bool}, spClean ham e ws k c = .yes → ∃ j w, ws[j]? = some w ∧ e.v0 + (k + j) ≠ e.v1 ∧ e.v0 + (k + j) ≠ e.v2 ∧ w < 0
  | [], k, c, h => by unfold spClean at h; split at h <;> cases h
  | w :: ws, k, c, h => by
    have hrec : ∀ {c}, spClean ham e ws (k + 1) c = .yes → ∃ j w', (w :: ws)[j]? = some w' ∧ e.v0 + (k + j) ≠ e.v1 ∧ e.v0 + (k + j) ≠ e.v2 ∧ w' < 0 := by
      intro c h
      obtain ⟨j, w', h1, h2, h3, h4⟩ := clean_yes h
      exact ⟨j + 1, w', by rw [List.getElem?_cons_succ]; exact h1, by omega, by omega, h4⟩
    unfold spClean at h
    split at h
    · exact hrec h
    split at h
    · exact hrec h
    split at h
    next n1 n2 hw => exact ⟨0, w, rfl, by omega, by omega, hw⟩
    · exact hrec h

theorem clean_pos : ∀ {ws : List Int} {k : Nat} {c : Bool}, spClean ham e ws k c ≠ .yes → ∀ j w, ws[j]? = some w → e.v0 + (k + j) ≠ e.v1 → e.v0 + (k + j) ≠ e.v2 → 0 ≤ w
  | [], k, c, h, j, w, hj, _, _ => by simp at hj
  | w :: ws, k, c, h, j, w', hj, n1, n2 => by
    unfold spClean at h
    cases j with
    | zero =>
      rw [if_neg (by omega), if_neg (by omega)] at h
      split at h
      · exact absurd rfl h
      · rw [List.getElem?_cons_zero] at hj; injection hj with hj; omega
    | succ j =>
      rw [List.getElem?_cons_succ] at hj
      have hrec : ∀ {c}, spClean ham e ws (k + 1) c ≠ .yes → 0 ≤ w' := fun h => clean_pos h j w' hj (by omega) (by omega)
      split at h
      · exact hrec h
      split at h
      · exact hrec h
      split at h
      · exact absurd rfl h
      · exact hrec h

theorem clean_no : ∀ {ws : List Int} {k : Nat} {c : Bool}, spClean ham e ws k c = .no →
    c = false ∨ ∃ j w, ws[j]? = some w ∧ e.v0 + (k + j) ≠ e.v1 ∧ e.v0 + (k + j) ≠ e.v2 ∧ 0 ≤ w ∧ w ≠ 0 ∧ (ham = true ∨ w ≠ ((e.v0 + (k + j) : Nat) : Int))
  | [], k, c, h => by
    unfold spClean at h
    cases c with
    | false => exact .inl rfl
    | true => simp at h
  | w :: ws, k, c, h => by
    have hrec : ∀ {c'}, spClean ham e ws (k + 1) c' = .no → c' = false ∨
        ∃ j w', (w :: ws)[j]? = some w' ∧ e.v0 + (k + j) ≠ e.v1 ∧ e.v0 + (k + j) ≠ e.v2 ∧ 0 ≤ w' ∧ w' ≠ 0 ∧ (ham = true ∨ w' ≠ ((e.v0 + (k + j) : Nat) : Int)) := by
      intro c' h
      rcases clean_no h with h | ⟨j, w', h1, h2, h3, h4, h5, h6⟩
      · exact .inl h
      · refine .inr ⟨j + 1, w', by rw [List.getElem?_cons_succ]; exact h1, by omega, by omega, h4, h5, ?_⟩
        rw [show k + (j + 1) = k + 1 + j by omega]; exact h6
    unfold spClean at h
    split at h
    · exact hrec h
    split at h
    · exact hrec h
    split at h
    · cases h
    next n1 n2 hw =>
      split at h
      next hc => exact .inr ⟨0, w, rfl, by omega, by omega, by omega, hc.1, hc.2⟩
      next hc => exact hrec h

theorem clean_hit : ∀ {ws : List Int} {k : Nat} {c : Bool}, spClean ham e ws k c = .hit →
    c = true ∧ ∀ j w, ws[j]? = some w → e.v0 + (k + j) ≠ e.v1 → e.v0 + (k + j) ≠ e.v2 → 0 ≤ w ∧ ¬ (w ≠ 0 ∧ (ham = true ∨ w ≠ ((e.v0 + (k + j) : Nat) : Int)))
  | [], k, c, h => by
    unfold spClean at h
    cases c with
    | false => simp at h
    | true => exact ⟨rfl, fun j w hj => by simp at hj⟩
  | w :: ws, k, c, h => by
    have hrec : ∀ {c'}, spClean ham e ws (k + 1) c' = .hit → c' = true ∧
        ∀ j w', ws[j]? = some w' → e.v0 + (k + (j + 1)) ≠ e.v1 → e.v0 + (k + (j + 1)) ≠ e.v2 → 0 ≤ w' ∧ ¬ (w' ≠ 0 ∧ (ham = true ∨ w' ≠ ((e.v0 + (k + (j + 1)) : Nat) : Int))) := by
      intro c' h
      obtain ⟨h1, h2⟩ := clean_hit h
      refine ⟨h1, fun j w' hj n1 n2 => ?_⟩
      have := h2 j w' hj (by omega) (by omega)
      rw [show k + (j + 1) = k + 1 + j by omega]; exact this
    unfold spClean at h
    split at h
    next n1 =>
      obtain ⟨h1, h2⟩ := hrec h
      refine ⟨h1, fun j w' hj m1 m2 => ?_⟩
      cases j with
      | zero => omega
      | succ j => exact h2 j w' (by rwa [List.getElem?_cons_succ] at hj) m1 m2
    next n1 =>
    split at h
    next n2 =>
      obtain ⟨h1, h2⟩ := hrec h
      refine ⟨h1, fun j w' hj m1 m2 => ?_⟩
      cases j with
      | zero => omega
      | succ j => exact h2 j w' (by rwa [List.getElem?_cons_succ] at hj) m1 m2
    next n2 =>
    split at h
    · cases h
    next hw =>
      obtain ⟨h1, h2⟩ := hrec h
      split at h1
      · cases h1
      next hc =>
        refine ⟨h1, fun j w' hj m1 m2 => ?_⟩
        cases j with
        | zero =>
          rw [List.getElem?_cons_zero] at hj
          injection hj with hj
          subst hj
          exact ⟨by omega, hc⟩
        | succ j => exact h2 j w' (by rwa [List.getElem?_cons_succ] at hj) m1 m2

theorem only_no : ∀ {ws : List Int} {k : Nat}, spOnly ham e ws k = .no →
    ∃ j w, ws[j]? = some w ∧ e.v0 + (k + j) ≠ e.v1 ∧ e.v0 + (k + j) ≠ e.v2 ∧ w ≠ 0 ∧ (ham = true ∨ w ≠ ((e.v0 + (k + j) : Nat) : Int))
  | [], k, h => by unfold spOnly at h; cases h
  | w :: ws, k, h => by
    have hrec : spOnly ham e ws (k + 1) = .no →
        ∃ j w', (w :: ws)[j]? = some w' ∧ e.v0 + (k + j) ≠ e.v1 ∧ e.v0 + (k + j) ≠ e.v2 ∧ w' ≠ 0 ∧ (ham = true ∨ w' ≠ ((e.v0 + (k + j) : Nat) : Int)) := by
      intro h
      obtain ⟨j, w', h1, h2, h3, h5, h6⟩ := only_no h
      refine ⟨j + 1, w', by rw [List.getElem?_cons_succ]; exact h1, by omega, by omega, h5, ?_⟩
      rw [show k + (j + 1) = k + 1 + j by omega]; exact h6
    unfold spOnly at h
    split at h
    · exact hrec h
    split at h
    · exact hrec h
    split at h
    next n1 n2 hc => exact ⟨0, w, rfl, by omega, by omega, hc.1, hc.2⟩
    · exact hrec h

theorem only_cases : ∀ {ws : List Int} {k : Nat}, spOnly ham e ws k = .no ∨ spOnly ham e ws k = .hit
  | [], k => .inr (by unfold spOnly; rfl)
  | w :: ws, k => by
    unfold spOnly
    split
    · exact only_cases
    split
    · exact only_cases
    split
    · exact .inl rfl
    · exact only_cases

theorem only_hit : ∀ {ws : List Int} {k : Nat}, spOnly ham e ws k = .hit →
    ∀ j w, ws[j]? = some w → e.v0 + (k + j) ≠ e.v1 → e.v0 + (k + j) ≠ e.v2 → ¬ (w ≠ 0 ∧ (ham = true ∨ w ≠ ((e.v0 + (k + j) : Nat) : Int)))
  | [], k, h, j, w, hj, _, _ => by simp at hj
  | w :: ws, k, h, j, w', hj, n1, n2 => by
    unfold spOnly at h
    cases j with
    | zero =>
      rw [if_neg (by omega), if_neg (by omega)] at h
      rw [List.getElem?_cons_zero] at hj
      injection hj with hj
      subst hj
      split at h
      · cases h
      next hc => exact hc
    | succ j =>
      rw [List.getElem?_cons_succ] at hj
      have hrec : spOnly ham e ws (k + 1) = .hit → ¬ (w' ≠ 0 ∧ (ham = true ∨ w' ≠ ((e.v0 + (k + (j + 1)) : Nat) : Int))) := by
        intro h
        have := only_hit h j w' hj (by omega) (by omega)
        rw [show k + (j + 1) = k + 1 + j by omega]; exact this
      split at h
      · exact hrec h
      split at h
      · exact hrec h
      split at h
      · cases h
      · exact hrec h

end

/-! ### takable -/

/-- the ends of the paths at the endpoints of an edge that passes the common checks -/
structure Pre (G : Graph) (A : Nat → Nat → Prop) (e : EdgeInfo) (u1 u2 : Nat) : Prop where
  end1 : IsEnd A e.v1 u1
  end2 : IsEnd A e.v2 u2
  col1 : G.color e.v1 = 0 ∨ u1 = e.v1
  col2 : G.color e.v2 = 0 ∨ u2 = e.v2
  fin1 : e.v1final = true → G.color e.v1 = 0 → u1 ≠ e.v1
  fin2 : e.v2final = true → G.color e.v2 = 0 → u2 ≠ e.v2

theorem Pre.ends {e : EdgeInfo} {u1 u2 : Nat} (h : Pre G A e u1 u2) (hne : u1 ≠ e.v2) : Ends G A e u1 u2 :=
  ⟨h.end1, h.end2, h.col1, h.col2, h.fin1, h.fin2, hne⟩

/-- the part of `takable` that depends on the type; `u1`, `u2` are the other ends -/
def typed (G : Graph) (cyc ham : Bool) (mate : List Int) (e : EdgeInfo) (u1 u2 : Nat) : Takable :=
  if cyc = false then
    if u1 = e.v2 then .no
    else if G.color u1 ≠ 0 ∧ G.color u2 ≠ 0 then
      if G.color u1 ≠ G.color u2 then .no
      else if e.allColorsSeen = false then .yes
      else spClean ham e mate 0 true
    else .yes
  else
    if u1 = e.v2 then spOnly ham e (mate.drop 1) 1
    else .yes

theorem takable_cases (hH : Hyp G) {cyc ham : Bool} {e : EdgeInfo} (he : G.info[i]? = some e) {mate : List Int}
    {w1 w2 : Int} (p1 : podGet mate ((e.v1 : Int) - e.v0) = some w1) (p2 : podGet mate ((e.v2 : Int) - e.v0) = some w2) (m1 : MVal G A i e.v1 w1) (m2 : MVal G A i e.v2 w2) :
    (spTakable cyc ham mate e = some .no ∧ (w1 = 0 ∨ (e.v1final = true ∧ w1 = e.v1) ∨ w2 = 0 ∨ (e.v2final = true ∧ w2 = e.v2))) ∨
    ∃ u1 u2, Pre G A e u1 u2 ∧ w1 = Rep G u1 ∧ w2 = Rep G u2 ∧ spTakable cyc ham mate e = some (typed G cyc ham mate e u1 u2) := by
  have hr := hH.ok.range i e he
  have hloop := hH.loop i e he
  unfold spTakable
  rw [p1]; dsimp only [Option.bind]
  rw [p2]; dsimp only
  by_cases c1 : w1 = 0
  · rw [if_pos c1]; exact .inl ⟨rfl, .inl c1⟩
  rw [if_neg c1]
  by_cases c2 : e.v1final = true ∧ w1 = e.v1
  · rw [if_pos c2]; exact .inl ⟨rfl, .inr (.inl c2)⟩
  rw [if_neg c2]
  by_cases c3 : w2 = 0
  · rw [if_pos c3]; exact .inl ⟨rfl, .inr (.inr (.inl c3))⟩
  rw [if_neg c3]
  by_cases c4 : e.v2final = true ∧ w2 = e.v2
  · rw [if_pos c4]; exact .inl ⟨rfl, .inr (.inr (.inr c4))⟩
  rw [if_neg c4]
  obtain ⟨u1, a1, a2, a3⟩ := m1.nonzero c1
  obtain ⟨u2, b1, b2, b3⟩ := m2.nonzero c3
  have hv2 : u1 = e.v2 ↔ w1 = e.v2 := by
    constructor
    · intro h
      have h' := a1.symm
      rw [h] at h'
      have h2 := b1.unique h'
      rcases b3 with b3 | b3
      · rw [a2, h, rep_zero b3]
      · exact absurd (h2.symm.trans b3) hloop
    · intro h
      exact (rep_nat (a2.symm.trans h)).1
  refine .inr ⟨u1, u2, ⟨a1, b1, a3, b3, fun hf hc hu => c2 ⟨hf, ?_⟩, fun hf hc hu => c4 ⟨hf, ?_⟩⟩, a2, b2, ?_⟩
  · rw [a2, hu, rep_zero hc]
  · rw [b2, hu, rep_zero hc]
  unfold typed
  by_cases hc : cyc = false
  · rw [if_pos hc, if_pos hc]
    by_cases hu : u1 = e.v2
    · rw [if_pos hu, if_pos (hv2.1 hu)]
    rw [if_neg hu, if_neg (fun h => hu (hv2.2 h))]
    by_cases hneg : G.color u1 ≠ 0 ∧ G.color u2 ≠ 0
    · rw [if_pos hneg, if_pos (by rw [a2, b2]; exact ⟨rep_neg.2 hneg.1, rep_neg.2 hneg.2⟩)]
      have hcol : w1 ≠ w2 ↔ G.color u1 ≠ G.color u2 := by
        rw [a2, b2]
        unfold Rep
        rw [if_neg hneg.1, if_neg hneg.2]
        omega
      by_cases hne : G.color u1 ≠ G.color u2
      · rw [if_pos hne, if_pos (hcol.2 hne)]
      rw [if_neg hne, if_neg (fun h => hne (hcol.1 h))]
      split <;> rfl
    · rw [if_neg hneg, if_neg]
      rw [a2, b2, rep_neg, rep_neg]; exact hneg
  · rw [if_neg hc, if_neg hc]
    by_cases hu : u1 = e.v2
    · rw [if_pos hu, if_pos (hv2.1 hu), if_neg]
      have h' := a1.symm
      rw [hu] at h'
      have h2 := b1.unique h'
      intro hn
      apply hn
      rw [b2, h2]
      apply rep_zero
      rcases a3 with a3 | a3
      · exact a3
      · exact absurd (a3.symm.trans hu) hloop
    · rw [if_neg hu, if_neg (fun h => hu (hv2.2 h))]

theorem typed_yes {cyc ham : Bool} {mate : List Int} {e : EdgeInfo} {u1 u2 : Nat} (h : typed G cyc ham mate e u1 u2 = .yes) : u1 ≠ e.v2 := by
  unfold typed at h
  intro hu
  rw [if_pos hu, if_pos hu] at h
  split at h
  · cases h
  · rcases only_cases (ham := ham) (e := e) (ws := mate.drop 1) (k := 1) with h' | h' <;> rw [h'] at h <;> cases h

/-! ### no undefined behaviour -/

section
variable {cyc ham la : Bool}

/-- a legal state before edge `i` -/
def St (G : Graph) (i : Nat) (mate : List Int) : Prop := ∃ e A, G.info[i]? = some e ∧ Struct G A i ∧ Enc G A i e.v0 mate

/-- a legal result: terminal or a state at a level up to `l` -/
def Legal' (G : Graph) (l : Nat) (r : Int × List Int) : Prop := r.1 = 0 ∨ r.1 = -1 ∨ ∃ i', i' < G.info.length ∧ r.1 = ((G.info.length - i' : Nat) : Int) ∧ G.info.length - i' ≤ l ∧ St G i' r.2

theorem look_legal (hH : Hyp G) : ∀ (fuel i : Nat) (mate : List Int), St G i mate → G.info.length ≤ fuel + i →
    ∃ r, spLook G cyc ham la fuel i mate = some r ∧ Legal' G (G.info.length - i) r
  | 0, i, mate, ⟨e, A, he, _⟩, h2 => by
    have := (List.getElem?_eq_some_iff.1 he).1
    omega
  | fuel + 1, i, mate, ⟨e, A, he, hS, hE⟩, hf => by
    have hi := (List.getElem?_eq_some_iff.1 he).1
    have hme : Legal' G (G.info.length - i) ((G.info.length : Int) - i, mate) := .inr (.inr ⟨i, hi, by dsimp only; omega, Nat.le_refl _, e, A, he, hS, hE⟩)
    unfold spLook
    by_cases hla : la = false
    · rw [if_pos hla]; exact ⟨_, rfl, hme⟩
    rw [if_neg hla, he]; dsimp only [Option.bind]
    obtain ⟨w1, w2, p1, p2, q1, q2, m1, m2⟩ := hE.at_edge hH he
    have ht : ∃ t, spTakable cyc ham mate e = some t := by
      rcases takable_cases (cyc := cyc) (ham := ham) hH he p1 p2 m1 m2 with h | ⟨u1, u2, _, _, _, h⟩
      · exact ⟨_, h.1⟩
      · exact ⟨_, h⟩
    obtain ⟨t, ht⟩ := ht
    rw [ht]; dsimp only
    by_cases htn : t ≠ .no
    · rw [if_pos htn]; exact ⟨_, rfl, hme⟩
    rw [if_neg htn]
    obtain ⟨l, hl, hl1, hl0⟩ := leavable_some (ham := ham) p1 p2
    rw [hl]; dsimp only
    cases l with
    | false => rw [if_pos rfl]; exact ⟨_, rfl, .inl rfl⟩
    | true =>
      rw [if_neg (by simp)]
      by_cases hlast : i + 1 = G.info.length
      · rw [if_pos hlast]; exact ⟨_, rfl, .inl rfl⟩
      rw [if_neg hlast]
      obtain ⟨n1, e1, hE1⟩ := leave_enc hH he hE
      have hS1 := leave_struct hH he hS m1 m2 (hl1 rfl).1 (hl1 rfl).2
      have hf' : G.info[i + 1]? = some G.info[i + 1] := List.getElem?_eq_getElem (by omega)
      generalize G.info[i + 1] = f at hf'
      obtain ⟨n2, e2, hE2⟩ := shift_enc hH hS1 he hf' hE1
      rw [e1]; dsimp only
      rw [hf']; dsimp only
      rw [e2]; dsimp only
      obtain ⟨r, hr, hleg⟩ := look_legal hH fuel (i + 1) n2 ⟨f, A, hf', hS1, hE2⟩ (by omega)
      refine ⟨r, hr, ?_⟩
      rcases hleg with h | h | ⟨i', h1, h2, h3, h4⟩
      · exact .inl h
      · exact .inr (.inl h)
      · exact .inr (.inr ⟨i', h1, h2, by omega, h4⟩)

theorem next_legal (hH : Hyp G) {e : EdgeInfo} (he : G.info[i]? = some e) {mate : List Int} (hS : Struct G A (i + 1)) (hE : Enc G A (i + 1) e.v0 mate) :
    ∃ r, spNext G cyc ham la i e mate = some r ∧ Legal' G (G.info.length - i - 1) r := by
  have hi := (List.getElem?_eq_some_iff.1 he).1
  unfold spNext
  by_cases hlast : i + 1 = G.info.length
  · rw [if_pos hlast]; exact ⟨_, rfl, .inl rfl⟩
  rw [if_neg hlast]
  have hf' : G.info[i + 1]? = some G.info[i + 1] := List.getElem?_eq_getElem (by omega)
  generalize G.info[i + 1] = f at hf'
  obtain ⟨n2, e2, hE2⟩ := shift_enc hH hS he hf' hE
  rw [hf']; dsimp only [Option.bind]
  rw [e2]; dsimp only
  rw [show G.info.length - i - 1 = G.info.length - (i + 1) by omega]
  exact look_legal hH _ _ _ ⟨f, A, hf', hS, hE2⟩ (by omega)

theorem child_legal (hH : Hyp G) {mate : List Int} {level : Nat} (take : Bool) (h1 : 1 ≤ level) (h2 : level ≤ G.info.length) (hst : St G (G.info.length - level) mate) :
    ∃ r, spChild G cyc ham la mate level take = some r ∧ Legal' G (level - 1) r := by
  obtain ⟨e, A, he, hS, hE⟩ := hst
  have hr := hH.ok.range _ e he
  obtain ⟨w1, w2, p1, p2, q1, q2, m1, m2⟩ := hE.at_edge hH he
  unfold spChild
  rw [if_neg (by omega), he]; dsimp only [Option.bind]
  rw [if_neg (by omega)]
  have hlev : level - 1 = G.info.length - (G.info.length - level) - 1 := by omega
  cases take with
  | true =>
    rw [if_pos rfl]
    rcases takable_cases (cyc := cyc) (ham := ham) hH he p1 p2 m1 m2 with h | ⟨u1, u2, hp, g1, g2, h⟩
    · rw [h.1]; exact ⟨_, rfl, .inl rfl⟩
    · rw [h]; dsimp only
      cases ht : typed G cyc ham mate e u1 u2 with
      | no => exact ⟨_, rfl, .inl rfl⟩
      | hit => exact ⟨_, rfl, .inr (.inl rfl)⟩
      | yes =>
        dsimp only
        have hu := hp.ends (typed_yes ht)
        obtain ⟨n1, e1, hE1⟩ := take_enc hH he hS hE hu (by rw [p1, g1]) (by rw [p2, g2])
        rw [e1]; dsimp only
        rw [hlev]
        exact next_legal hH he (take_struct hH he hS hu) hE1
  | false =>
    rw [if_neg (by simp)]
    obtain ⟨l, hl, hl1, hl0⟩ := leavable_some (ham := ham) p1 p2
    rw [hl]; dsimp only
    cases l with
    | false => rw [if_pos rfl]; exact ⟨_, rfl, .inl rfl⟩
    | true =>
      rw [if_neg (by simp)]
      obtain ⟨n1, e1, hE1⟩ := leave_enc hH he hE
      have hS1 := leave_struct hH he hS m1 m2 (hl1 rfl).1 (hl1 rfl).2
      rw [e1]; dsimp only
      rw [hlev]
      exact next_legal hH he hS1 hE1

theorem child_eq {mate : List Int} {l : Nat} {b : Fin 2} {r : Int × List Int} (h : spChild G cyc ham la mate l (b != 0) = some r) :
    (simpath G cyc ham la).child mate l b = r := by
  show (spChild G cyc ham la mate l (b != 0)).getD _ = r
  rw [h]; rfl

theorem root_some (hH : Hyp G) (hn : 0 < G.info.length) : ∃ e mate, spRoot G = some ((G.info.length : Int), mate) ∧ G.info[0]? = some e ∧
    Struct G (fun _ _ => False) 0 ∧ Enc G (fun _ _ => False) 0 e.v0 mate := by
  have he : G.info[0]? = some G.info[0] := List.getElem?_eq_getElem hn
  generalize G.info[0] = e at he
  have hw := hH.ok.window 0 e he
  have hact : ∀ v, Act G 0 v ↔ 1 ≤ v ∧ v ≤ G.vMax := by
    intro v
    refine ⟨fun h => h.range hH, fun h => ?_⟩
    obtain ⟨a, ha⟩ := hH.ok.occurs v h.1 h.2
    exact ⟨a, by omega, ha⟩
  have hend : ∀ v, IsEnd (fun _ _ => False) v v := fun v => isEnd_self fun y h => h
  refine ⟨e, (List.range G.maxFrontierSize.toNat).map fun k => spInit G (e.v0 + k), ?_, he, ⟨fun _ _ h => h, fun _ _ h => h.elim, fun v => .inr ⟨v, hend v⟩, fun v h => absurd h (hend v).not_inner, fun v u h hne => absurd (h.unique (hend v)) hne, fun v hc _ => ?_⟩, ?_⟩
  · unfold spRoot
    rw [he]; dsimp only [Option.bind]
    rw [if_neg (by omega)]
  · rw [hact]
    apply Classical.byContradiction
    intro h
    exact hc (hH.ok.color_out v (by omega))
  · have hget : ∀ v, e.v0 ≤ v → v < e.v0 + sz G → ((List.range G.maxFrontierSize.toNat).map fun k => spInit G (e.v0 + k))[v - e.v0]? = some (spInit G v) := by
      intro v h1 h2
      rw [List.getElem?_map, List.getElem?_range (by unfold sz at h2; omega)]
      simp only [Option.map_some]
      congr 2; omega
    refine ⟨by simp [sz], fun v h1 h2 ha => ⟨_, hget v h1 h2, .inl ⟨v, hend v, ?_, .inr rfl⟩⟩, fun v h1 h2 ha => ?_⟩
    · have := ha.range hH
      exact spInit_eq hH this.1 this.2
    · rw [hget v h1 h2, spInit_out]
      rw [hact] at ha
      omega

theorem root_eq (hH : Hyp G) (hn : 0 < G.info.length) : ∃ e mate, (simpath G cyc ham la).root = ((G.info.length : Int), mate) ∧ G.info[0]? = some e ∧
    Struct G (fun _ _ => False) 0 ∧ Enc G (fun _ _ => False) 0 e.v0 mate := by
  obtain ⟨e, mate, h1, h2⟩ := root_some hH hn
  refine ⟨e, mate, ?_, h2⟩
  show (spRoot G).getD _ = _
  rw [h1]; rfl

theorem reach_inv (hH : Hyp G) (hn : 0 < G.info.length) {l : Int} {s : List Int} (hr : Reach (simpath G cyc ham la) l s) : 1 ≤ l → l ≤ G.info.length ∧ St G (G.info.length - l.toNat) s := by
  induction hr with
  | root =>
    intro _
    obtain ⟨e, mate, h1, h2, h3, h4⟩ := root_eq (cyc := cyc) (ham := ham) (la := la) hH hn
    rw [h1]
    refine ⟨Int.le_refl _, e, fun _ _ => False, ?_, ?_, ?_⟩
    · dsimp only; rw [Int.toNat_natCast, Nat.sub_self]; exact h2
    · dsimp only; rw [Int.toNat_natCast, Nat.sub_self]; exact h3
    · dsimp only; rw [Int.toNat_natCast, Nat.sub_self]; exact h4
  | step b hn' hr ih =>
    intro hl
    rename_i n s
    have ih := ih (by omega)
    rw [Int.toNat_natCast] at ih
    obtain ⟨r, er, hleg⟩ := child_legal (cyc := cyc) (ham := ham) (la := la) hH (level := n) (b != 0) (by omega) (by omega) ih.2
    rw [child_eq er] at hl ⊢
    rcases hleg with h1 | h1 | ⟨i', h1, h2, h3, h4⟩
    · omega
    · omega
    · refine ⟨by omega, ?_⟩
      rw [h2, Int.toNat_natCast, show G.info.length - (G.info.length - i') = i' by omega]
      exact h4

theorem desc (hH : Hyp G) (hn : 0 < G.info.length) : Desc (simpath G cyc ham la) where
  root_ge := by
    obtain ⟨e, mate, h1, _⟩ := root_eq (cyc := cyc) (ham := ham) (la := la) hH hn
    rw [h1]; dsimp only; omega
  child_lt b hn' hr := by
    rename_i n s
    have hi := reach_inv hH hn hr (by omega)
    rw [Int.toNat_natCast] at hi
    obtain ⟨r, er, hleg⟩ := child_legal (cyc := cyc) (ham := ham) (la := la) hH (level := n) (b != 0) (by omega) (by omega) hi.2
    rw [child_eq er]
    rcases hleg with h1 | h1 | ⟨i', h1, h2, h3, h4⟩ <;> omega
  child_ge b hn' hr := by
    rename_i n s
    have hi := reach_inv hH hn hr (by omega)
    rw [Int.toNat_natCast] at hi
    obtain ⟨r, er, hleg⟩ := child_legal (cyc := cyc) (ham := ham) (la := la) hH (level := n) (b != 0) (by omega) (by omega) hi.2
    rw [child_eq er]
    rcases hleg with h1 | h1 | ⟨i', h1, h2, h3, h4⟩ <;> omega

end
end TdZdd.Sp
