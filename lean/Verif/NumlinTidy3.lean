import Verif.NumlinTidy2

/-! The checks of `ConstraintZdd` in terms of the lines. -/

namespace TdZdd.Nl.Constraint

variable {q : Board} {a : Asg 2}

theorem dg_vdet {h : Nat → Nat → Bool} : ∀ i k, i + 1 < q.rows → k < q.cols → (dg q h i k = 1 ↔ vdet q.num q.rows q.cols h i k = true) := by
  intro i
  induction i with
  | zero =>
    intro k hi hk
    unfold dg vdet
    rw [decide_eq_true_iff]
    exact ⟨fun g => ⟨hi, hk, g⟩, fun g => g.2.2⟩
  | succ i ih =>
    intro k hi hk
    rw [dg, vdet, decide_eq_true_iff, toNat_eq, iteEq (ih k (by omega) hk)]
    exact ⟨fun g => ⟨hi, hk, by omega⟩, fun g => by have := g.2.2; omega⟩

theorem tot_dg {i k : Nat} (hi : i < q.rows) (hk : k < q.cols) :
    tot q (lines q a) (i, k) = dg q (hOf q a) i k + (if i + 1 < q.rows ∧ (lines q a).v i k = true then 1 else 0) := by
  have e : deg q.rows q.cols (lines q a) (i, k) = hdeg q.cols (hOf q a) i k + (if 0 < i ∧ (lines q a).v (i - 1) k = true then 1 else 0) +
    (if i + 1 < q.rows ∧ (lines q a).v i k = true then 1 else 0) := rfl
  unfold tot
  rw [e]
  cases i with
  | zero => unfold dg; simp only [Nat.lt_irrefl, false_and, if_false]; omega
  | succ i =>
    rw [dg, iteEq (dg_vdet i k hi hk)]
    simp only [Nat.succ_pos, true_and, Nat.add_sub_cancel]
    show _ = _ + (if (lines q a).v i k = true then 1 else 0) + _ + _
    omega

variable (hd : DegOk q (lines q a))
include hd

theorem south_iff {i k : Nat} (hi : i < q.rows) (hk : k < q.cols) : (vs q (hOf q a) i k).south = (lines q a).v i k := by
  rw [Bool.eq_iff_iff]
  show decide (dg q (hOf q a) i k = 1) = true ↔ _
  rw [decide_eq_true_iff]
  by_cases g : i + 1 < q.rows
  · exact dg_vdet i k g hk
  · have h1 := hd i k hi hk
    rw [tot_dg hi hk, if_neg (fun h => g h.1)] at h1
    exact ⟨fun h2 => by omega, fun h2 => absurd ((lines_onBoard q a).v i k h2).1 g⟩

theorem used_iff {i k : Nat} (hi : i < q.rows) (hk : k < q.cols) : (vs q (hOf q a) i k).used = true ↔ deg q.rows q.cols (lines q a) (i, k) ≠ 0 := by
  show decide (1 ≤ dg q (hOf q a) i k) = true ↔ _
  rw [decide_eq_true_iff]
  have h1 := hd i k hi hk
  have h2 := tot_dg (a := a) hi hk
  have h3 : (if i + 1 < q.rows ∧ (lines q a).v i k = true then 1 else 0) ≤ 1 := by split <;> omega
  have h4 : tot q (lines q a) (i, k) = lab q.num (i, k) + deg q.rows q.cols (lines q a) (i, k) := rfl
  have h5 : lab q.num (i, k) ≤ 1 := by unfold lab; split <;> omega
  have h6 : dg q (hOf q a) i k = 0 → (if i + 1 < q.rows ∧ (lines q a).v i k = true then 1 else 0) = 0 := fun h => by omega
  omega

omit hd in
theorem east_eq {i k : Nat} : (vs q (hOf q a) i k).east = (lines q a).h i k := by
  show (decide (k + 1 < q.cols) && hOf q a i k) = hOf q a i k
  unfold hOf
  by_cases g : k + 1 < q.cols
  · simp [g]
  · simp [g]

theorem flag_iff {i : Nat} (hi : i + 1 < q.rows) : ∀ j, j < q.cols → (flag q (hOf q a) (i + 1) j = true ↔
    ∃ p, p ≤ j ∧ (lines q a).v i p = true ∧ (∀ c, p ≤ c → c ≤ j → (lines q a).h i c = true ∧ (lines q a).h (i + 1) c = false) ∧ ∀ c, p < c → c ≤ j → q.num (i + 1, c) = 0) := by
  have key : ∀ (s : Bool) j, j < q.cols → (roof s (up q (hOf q a) (i + 1) j) (hOf q a (i + 1) j) (q.num (i + 1, j)) = true ↔
      ((lines q a).h i j = true ∧ (lines q a).h (i + 1) j = false) ∧ ((lines q a).v i j = true ∨ (q.num (i + 1, j) = 0 ∧ s = true))) := fun s j hj => by
    unfold roof
    show (if (!(vs q (hOf q a) i j).east || hOf q a (i + 1) j) = true then false else if (vs q (hOf q a) i j).south = true then true else if q.num (i + 1, j) ≠ 0 then false else s) = true ↔ _
    rw [east_eq, south_iff hd (by omega) hj]
    show (if (!(lines q a).h i j || (lines q a).h (i + 1) j) = true then _ else _) = true ↔ _
    generalize (lines q a).h i j = b1
    generalize (lines q a).h (i + 1) j = b2
    generalize (lines q a).v i j = b3
    by_cases e : q.num (i + 1, j) = 0
    · simp only [e, ne_eq, not_true_eq_false, if_false]
      revert b1 b2 b3 s; decide
    · simp only [e, ne_eq, not_false_eq_true, if_true]
      revert b1 b2 b3 s; decide
  intro j
  induction j with
  | zero =>
    intro hj
    refine (key false 0 hj).trans ⟨?_, ?_⟩
    · rintro ⟨h1, h2 | h2⟩
      · exact ⟨0, Nat.le_refl _, h2, fun c _ hc => by rw [show c = 0 by omega]; exact h1, fun c _ hc => by omega⟩
      · exact absurd h2.2 Bool.false_ne_true
    · rintro ⟨p, hp, h1, h2, h3⟩
      exact ⟨h2 0 (by omega) (Nat.le_refl _), .inl (by rw [show p = 0 by omega] at h1; exact h1)⟩
  | succ j ih =>
    intro hj
    refine (key (flag q (hOf q a) (i + 1) j) (j + 1) hj).trans ?_
    rw [ih (by omega)]
    constructor
    · rintro ⟨h1, h2 | ⟨h0, p, hp, h2, h3, h4⟩⟩
      · exact ⟨j + 1, Nat.le_refl _, h2, fun c _ hc => by rw [show c = j + 1 by omega]; exact h1, fun c _ hc => by omega⟩
      · refine ⟨p, by omega, h2, fun c hc hc' => ?_, fun c hc hc' => ?_⟩
        · by_cases e : c = j + 1
          · rw [e]; exact h1
          · exact h3 c hc (by omega)
        · by_cases e : c = j + 1
          · rw [e]; exact h0
          · exact h4 c hc (by omega)
    · rintro ⟨p, hp, h2, h3, h4⟩
      refine ⟨h3 (j + 1) hp (Nat.le_refl _), ?_⟩
      by_cases e : p = j + 1
      · rw [e] at h2; exact .inl h2
      · exact .inr ⟨h4 (j + 1) (by omega) (Nat.le_refl _), p, by omega, h2, fun c hc hc' => h3 c hc (by omega), fun c hc hc' => h4 c hc (by omega)⟩

theorem ok_iff {i j : Nat} (hi : i + 1 < q.rows) (hj : j + 1 < q.cols) : ok (up q (hOf q a) (i + 1) j) (up q (hOf q a) (i + 1) (j + 1)) = true ↔
    ((lines q a).v i j).toNat + ((lines q a).h i j).toNat + ((lines q a).v i (j + 1)).toNat ≤ 1 ∧
    ((lines q a).v i j = true → deg q.rows q.cols (lines q a) (i, j + 1) ≠ 0) ∧ ((lines q a).v i (j + 1) = true → deg q.rows q.cols (lines q a) (i, j) ≠ 0) := by
  show ok (vs q (hOf q a) i j) (vs q (hOf q a) i (j + 1)) = true ↔ _
  unfold ok
  rw [east_eq, south_iff hd (by omega) (by omega), south_iff hd (by omega) hj, ← used_iff hd (i := i) (k := j) (by omega) (by omega), ← used_iff hd (i := i) (k := j + 1) (by omega) hj]
  generalize (lines q a).h i j = b1
  generalize (lines q a).v i j = b2
  generalize (lines q a).v i (j + 1) = b3
  generalize (vs q (hOf q a) i j).used = b4
  generalize (vs q (hOf q a) i (j + 1)).used = b5
  revert b1 b2 b3 b4 b5
  decide

theorem cap_iff {i j : Nat} (hi : i < q.rows) (hj : j + 1 < q.cols) : cap q (hOf q a) i j = false ↔ ¬ ((lines q a).h i j = true ∧ (lines q a).v i j = true ∧ (lines q a).v i (j + 1) = true) := by
  unfold cap
  rw [east_eq, south_iff hd hi (by omega), south_iff hd hi hj, ← Bool.not_eq_true, Bool.and_eq_true, Bool.and_eq_true, and_assoc]

omit hd in
theorem toNat_true {b : Bool} (h : b = true) : b.toNat = 1 := by rw [h]; rfl

/-- The checks succeed for the lines without detours only. -/
theorem passes_iff : Passes q (hOf q a) ↔ Tidy q (lines q a) := by
  constructor
  · intro hp
    refine ⟨fun i j hi hj => ?_, fun i j hi hj h1 h2 => ?_, fun i j hi hj h1 h2 => ?_, fun i p e hi hpe he h1 h2 h3 => ?_⟩
    · by_cases g : (lines q a).h (i + 1) j = true
      · have := ((ok_iff hd hi hj).1 ((hp (i + 1) j hi hj).take g)).1
        rw [toNat_true g]; omega
      · have hc : cap q (hOf q a) i j = false := by
          by_cases e : j + 2 = q.cols
          · exact (hp i j (by omega) hj).last e
          · exact (hp i (j + 1) (by omega) (by omega)).cap j rfl
        rw [cap_iff hd (by omega) hj] at hc
        rw [Bool.not_eq_true] at g
        rw [g]
        revert hc
        generalize (lines q a).h i j = b1
        generalize (lines q a).v i j = b2
        generalize (lines q a).v i (j + 1) = b3
        revert b1 b2 b3
        decide
    · exact ((ok_iff hd hi hj).1 ((hp (i + 1) j hi hj).take h2)).2.1 h1
    · exact ((ok_iff hd hi hj).1 ((hp (i + 1) j hi hj).take h2)).2.2 h1
    · obtain ⟨j, rfl⟩ : ∃ j, e = j + 1 := ⟨e - 1, by omega⟩
      apply Classical.byContradiction
      intro hno
      refine (hp (i + 1) j hi he).roof ⟨(flag_iff hd hi j (by omega)).2 ⟨p, by omega, h1, fun c hc hc' => h3 c hc (by omega), fun c hc hc' => ?_⟩, ?_⟩
      · exact Classical.byContradiction fun hn => hno ⟨c, hc, by omega, hn⟩
      · exact (south_iff hd (by omega) he).trans h2
  · intro ht i j hi hj
    have hcap : ∀ k, k + 1 < q.cols → cap q (hOf q a) i k = false := fun k hk => by
      rw [cap_iff hd hi hk]
      rintro ⟨h1, h2, h3⟩
      have hi' := ((lines_onBoard q a).v i k h2).1
      have hs := ht.square i k hi' hk
      have hlow : (lines q a).h (i + 1) k = false := by
        cases e : (lines q a).h (i + 1) k
        · rfl
        · rw [toNat_true h1, toNat_true h2, toNat_true h3, toNat_true e] at hs; omega
      obtain ⟨c, hc1, hc2, _⟩ := ht.roof i k (k + 1) hi' (by omega) hk h2 h3 fun c hc hc' => by
        rw [show c = k by omega]; exact ⟨h1, hlow⟩
      omega
    refine ⟨fun g => ?_, ?_, fun k hk => hcap k (by omega), fun _ => hcap j hj⟩
    · cases i with
      | zero => rfl
      | succ i =>
        have g' : (lines q a).h (i + 1) j = true := g
        refine (ok_iff hd hi hj).2 ⟨?_, fun h => ht.cornerL i j hi hj h g', fun h => ht.cornerR i j hi hj h g'⟩
        have := ht.square i j hi hj
        rw [toNat_true g'] at this
        omega
    · rintro ⟨h1, h2⟩
      cases i with
      | zero => exact Bool.false_ne_true h2
      | succ i =>
        rw [flag_iff hd hi j (by omega)] at h1
        obtain ⟨p, hp, h3, h4, h5⟩ := h1
        have h6 : (lines q a).v i (j + 1) = true := (south_iff hd (by omega) hj).symm.trans h2
        obtain ⟨c, hc1, hc2, hc3⟩ := ht.roof i p (j + 1) hi (by omega) hj h3 h6 fun c hc hc' => h4 c hc (by omega)
        exact hc3 (h5 c hc1 (by omega))

end TdZdd.Nl.Constraint
