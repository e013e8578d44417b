import Verif.NumlinSpec
import Verif.SpecRun

/-! Proofs about the specifications of `ddnumlin` (1): lines added one by one; the vertical lines are determined by the horizontal ones. -/

namespace TdZdd.Nl

variable {m n : Nat} {L L' : Links} {i j : Nat}

def setH (L : Links) (i j : Nat) : Links := ⟨fun i' j' => if i' = i ∧ j' = j then true else L.h i' j', L.v⟩
def setV (L : Links) (i j : Nat) : Links := ⟨L.h, fun i' j' => if i' = i ∧ j' = j then true else L.v i' j'⟩

theorem deg_setH (hf : L.h i j = false) (hj : j + 1 < n) (x : Nat × Nat) : deg m n (setH L i j) x = deg m n L x + if x = (i, j) ∨ x = (i, j + 1) then 1 else 0 := by
  obtain ⟨r, c⟩ := x
  unfold deg setH
  simp only [Prod.mk.injEq]
  by_cases e : r = i
  · subst e
    by_cases e1 : c = j
    · subst e1
      have h1 : ¬ (c - 1 = c ∧ 0 < c) := by omega
      by_cases h0 : 0 < c
      · have : c - 1 ≠ c := by omega
        simp [hf, hj, this]; omega
      · simp [hf, hj, h0]; omega
    · by_cases e2 : c = j + 1
      · subst e2
        simp [hf]; omega
      · by_cases h0 : 0 < c
        · have : c - 1 ≠ j := by omega
          simp [e1, e2, this]
        · simp [e1, e2, h0]
  · simp [e]

theorem deg_setV (hf : L.v i j = false) (hi : i + 1 < m) (x : Nat × Nat) : deg m n (setV L i j) x = deg m n L x + if x = (i, j) ∨ x = (i + 1, j) then 1 else 0 := by
  obtain ⟨r, c⟩ := x
  unfold deg setV
  simp only [Prod.mk.injEq]
  by_cases e : c = j
  · subst e
    by_cases e1 : r = i
    · subst e1
      by_cases h0 : 0 < r
      · have : r - 1 ≠ r := by omega
        simp [hf, hi, this]
      · simp [hf, hi, h0]
    · by_cases e2 : r = i + 1
      · subst e2
        simp [hf]; omega
      · by_cases h0 : 0 < r
        · have : r - 1 ≠ i := by omega
          simp [e1, e2, this]
        · simp [e1, e2, h0]
  · simp [e]

theorem adj_setH (hi : i < m) (hj : j + 1 < n) : Adj m n (setH L i j) = addE (Adj m n L) (i, j) (i, j + 1) := by
  have key : ∀ {i' j'}, (setH L i j).h i' j' = true → (i' = i ∧ j' = j) ∨ L.h i' j' = true := fun {i' j'} h => by
    unfold setH at h
    dsimp only at h
    split at h
    · next e => exact .inl e
    · exact .inr h
  have back : ∀ {i' j'}, L.h i' j' = true → (setH L i j).h i' j' = true := fun {i' j'} h => by
    unfold setH
    dsimp only
    split
    · rfl
    · exact h
  have self : (setH L i j).h i j = true := if_pos ⟨rfl, rfl⟩
  funext x y
  apply propext
  constructor
  · intro h
    cases h with
    | right h1 h2 h3 =>
      rcases key h3 with ⟨rfl, rfl⟩ | h3
      · exact .inr (.inl ⟨rfl, rfl⟩)
      · exact .inl (.right h1 h2 h3)
    | left h1 h2 h3 =>
      rcases key h3 with ⟨rfl, rfl⟩ | h3
      · exact .inr (.inr ⟨rfl, rfl⟩)
      · exact .inl (.left h1 h2 h3)
    | down h1 h2 h3 => exact .inl (.down h1 h2 h3)
    | up h1 h2 h3 => exact .inl (.up h1 h2 h3)
  · rintro (h | ⟨rfl, rfl⟩ | ⟨rfl, rfl⟩)
    · cases h with
      | right h1 h2 h3 => exact .right h1 h2 (back h3)
      | left h1 h2 h3 => exact .left h1 h2 (back h3)
      | down h1 h2 h3 => exact .down h1 h2 h3
      | up h1 h2 h3 => exact .up h1 h2 h3
    · exact .right hi hj self
    · exact .left hi hj self

theorem adj_setV (hi : i + 1 < m) (hj : j < n) : Adj m n (setV L i j) = addE (Adj m n L) (i, j) (i + 1, j) := by
  have key : ∀ {i' j'}, (setV L i j).v i' j' = true → (i' = i ∧ j' = j) ∨ L.v i' j' = true := fun {i' j'} h => by
    unfold setV at h
    dsimp only at h
    split at h
    · next e => exact .inl e
    · exact .inr h
  have back : ∀ {i' j'}, L.v i' j' = true → (setV L i j).v i' j' = true := fun {i' j'} h => by
    unfold setV
    dsimp only
    split
    · rfl
    · exact h
  have self : (setV L i j).v i j = true := if_pos ⟨rfl, rfl⟩
  funext x y
  apply propext
  constructor
  · intro h
    cases h with
    | right h1 h2 h3 => exact .inl (.right h1 h2 h3)
    | left h1 h2 h3 => exact .inl (.left h1 h2 h3)
    | down h1 h2 h3 =>
      rcases key h3 with ⟨rfl, rfl⟩ | h3
      · exact .inr (.inl ⟨rfl, rfl⟩)
      · exact .inl (.down h1 h2 h3)
    | up h1 h2 h3 =>
      rcases key h3 with ⟨rfl, rfl⟩ | h3
      · exact .inr (.inr ⟨rfl, rfl⟩)
      · exact .inl (.up h1 h2 h3)
  · rintro (h | ⟨rfl, rfl⟩ | ⟨rfl, rfl⟩)
    · cases h with
      | right h1 h2 h3 => exact .right h1 h2 h3
      | left h1 h2 h3 => exact .left h1 h2 h3
      | down h1 h2 h3 => exact .down h1 h2 (back h3)
      | up h1 h2 h3 => exact .up h1 h2 (back h3)
    · exact .down hi hj self
    · exact .up hi hj self

theorem adj_symm : ∀ x y, Adj m n L x y → Adj m n L y x := by
  intro x y h
  cases h with
  | right h1 h2 h3 => exact .left h1 h2 h3
  | left h1 h2 h3 => exact .right h1 h2 h3
  | down h1 h2 h3 => exact .up h1 h2 h3
  | up h1 h2 h3 => exact .down h1 h2 h3

theorem adj_board {x y : Nat × Nat} (h : Adj m n L x y) : (x.1 < m ∧ x.2 < n) ∧ y.1 < m ∧ y.2 < n := by
  cases h with
  | right h1 h2 h3 => dsimp only; omega
  | left h1 h2 h3 => dsimp only; omega
  | down h1 h2 h3 => dsimp only; omega
  | up h1 h2 h3 => dsimp only; omega

/-- some of the lines -/
structure Le (L L' : Links) : Prop where
  h : ∀ i j, L.h i j = true → L'.h i j = true
  v : ∀ i j, L.v i j = true → L'.v i j = true

theorem ite_le {p q : Prop} [Decidable p] [Decidable q] (h : p → q) : (if p then 1 else 0) ≤ (if q then 1 else 0) := by
  by_cases hp : p
  · rw [if_pos hp, if_pos (h hp)]; exact Nat.le_refl _
  · rw [if_neg hp]; exact Nat.zero_le _

theorem iteEq {p q : Prop} [Decidable p] [Decidable q] (h : p ↔ q) : (if p then 1 else 0 : Nat) = (if q then 1 else 0) :=
  Nat.le_antisymm (ite_le h.1) (ite_le h.2)

theorem deg_le (h : Le L L') (x : Nat × Nat) : deg m n L x ≤ deg m n L' x := by
  unfold deg
  have h1 := ite_le (p := 0 < x.2 ∧ L.h x.1 (x.2 - 1) = true) (q := 0 < x.2 ∧ L'.h x.1 (x.2 - 1) = true) fun g => ⟨g.1, h.h _ _ g.2⟩
  have h2 := ite_le (p := x.2 + 1 < n ∧ L.h x.1 x.2 = true) (q := x.2 + 1 < n ∧ L'.h x.1 x.2 = true) fun g => ⟨g.1, h.h _ _ g.2⟩
  have h3 := ite_le (p := 0 < x.1 ∧ L.v (x.1 - 1) x.2 = true) (q := 0 < x.1 ∧ L'.v (x.1 - 1) x.2 = true) fun g => ⟨g.1, h.v _ _ g.2⟩
  have h4 := ite_le (p := x.1 + 1 < m ∧ L.v x.1 x.2 = true) (q := x.1 + 1 < m ∧ L'.v x.1 x.2 = true) fun g => ⟨g.1, h.v _ _ g.2⟩
  omega

theorem adj_mono (h : Le L L') : ∀ x y, Adj m n L x y → Adj m n L' x y := by
  intro x y g
  cases g with
  | right h1 h2 h3 => exact .right h1 h2 (h.h _ _ h3)
  | left h1 h2 h3 => exact .left h1 h2 (h.h _ _ h3)
  | down h1 h2 h3 => exact .down h1 h2 (h.v _ _ h3)
  | up h1 h2 h3 => exact .up h1 h2 (h.v _ _ h3)

/-- a box that has all its lines -/
theorem adj_of_deg (h : Le L L') {x y : Nat × Nat} (he : deg m n L' x ≤ deg m n L x) (ha : Adj m n L' x y) : Adj m n L x y := by
  unfold deg at he
  have h1 := ite_le (p := 0 < x.2 ∧ L.h x.1 (x.2 - 1) = true) (q := 0 < x.2 ∧ L'.h x.1 (x.2 - 1) = true) fun g => ⟨g.1, h.h _ _ g.2⟩
  have h2 := ite_le (p := x.2 + 1 < n ∧ L.h x.1 x.2 = true) (q := x.2 + 1 < n ∧ L'.h x.1 x.2 = true) fun g => ⟨g.1, h.h _ _ g.2⟩
  have h3 := ite_le (p := 0 < x.1 ∧ L.v (x.1 - 1) x.2 = true) (q := 0 < x.1 ∧ L'.v (x.1 - 1) x.2 = true) fun g => ⟨g.1, h.v _ _ g.2⟩
  have h4 := ite_le (p := x.1 + 1 < m ∧ L.v x.1 x.2 = true) (q := x.1 + 1 < m ∧ L'.v x.1 x.2 = true) fun g => ⟨g.1, h.v _ _ g.2⟩
  have one : ∀ {p q : Prop} [Decidable p] [Decidable q], (if q then 1 else 0) ≤ (if p then 1 else 0) → q → p := fun {p q} _ _ hle hq => by
    rw [if_pos hq] at hle
    by_cases hp : p
    · exact hp
    · rw [if_neg hp] at hle; omega
  cases ha with
  | @right i j g1 g2 g3 =>
    have := one (p := j + 1 < n ∧ L.h i j = true) (q := j + 1 < n ∧ L'.h i j = true) (by dsimp only at *; omega) ⟨g2, g3⟩
    exact .right g1 g2 this.2
  | @left i j g1 g2 g3 =>
    have := one (p := 0 < j + 1 ∧ L.h i (j + 1 - 1) = true) (q := 0 < j + 1 ∧ L'.h i (j + 1 - 1) = true) (by dsimp only at *; omega) ⟨Nat.succ_pos _, g3⟩
    exact .left g1 g2 this.2
  | @down i j g1 g2 g3 =>
    have := one (p := i + 1 < m ∧ L.v i j = true) (q := i + 1 < m ∧ L'.v i j = true) (by dsimp only at *; omega) ⟨g1, g3⟩
    exact .down g1 g2 this.2
  | @up i j g1 g2 g3 =>
    have := one (p := 0 < i + 1 ∧ L.v (i + 1 - 1) j = true) (q := 0 < i + 1 ∧ L'.v (i + 1 - 1) j = true) (by dsimp only at *; omega) ⟨Nat.succ_pos _, g3⟩
    exact .up g1 g2 this.2

theorem no_adj_of_deg {x y : Nat × Nat} (h : deg m n L x = 0) : ¬ Adj m n L x y := by
  intro g
  have := adj_of_deg (L := ⟨fun _ _ => false, fun _ _ => false⟩) (L' := L) ⟨fun _ _ h => absurd h Bool.false_ne_true, fun _ _ h => absurd h Bool.false_ne_true⟩ (by rw [h]; exact Nat.zero_le _) g
  cases this with
  | right _ _ g' => exact Bool.false_ne_true g'
  | left _ _ g' => exact Bool.false_ne_true g'
  | down _ _ g' => exact Bool.false_ne_true g'
  | up _ _ g' => exact Bool.false_ne_true g'

/-- 1 for a number -/
def lab (num : Nat × Nat → Nat) (x : Nat × Nat) : Nat := if num x = 0 then 0 else 1

/-- horizontal lines at a box -/
def hdeg (n : Nat) (h : Nat → Nat → Bool) (i k : Nat) : Nat := (if 0 < k ∧ h i (k - 1) = true then 1 else 0) + (if k + 1 < n ∧ h i k = true then 1 else 0)

/-- the vertical lines that are determined by the horizontal ones -/
def vdet (num : Nat × Nat → Nat) (m n : Nat) (h : Nat → Nat → Bool) : Nat → Nat → Bool
  | 0, k => decide (1 < m ∧ k < n ∧ lab num (0, k) + hdeg n h 0 k = 1)
  | i + 1, k => decide (i + 2 < m ∧ k < n ∧ lab num (i + 1, k) + hdeg n h (i + 1) k + (vdet num m n h i k).toNat = 1)

/-- lines of the rows above `i`, and of row `i` the horizontal ones before column `hc` and the vertical ones before `vc` -/
def part (L : Links) (i hc vc : Nat) : Links :=
  ⟨fun i' j' => L.h i' j' && (decide (i' < i) || (decide (i' = i) && decide (j' < hc))), fun i' j' => L.v i' j' && (decide (i' < i) || (decide (i' = i) && decide (j' < vc)))⟩

theorem part_le (L : Links) (i hc vc : Nat) : Le (part L i hc vc) L :=
  ⟨fun _ _ h => (Bool.and_eq_true _ _ ▸ h).1, fun _ _ h => (Bool.and_eq_true _ _ ▸ h).1⟩

theorem part_h_true {i j vc : Nat} (h : L.h i j = true) : part L i (j + 1) vc = setH (part L i j vc) i j := by
  unfold part setH
  congr 1
  funext i' j'
  by_cases e : i' = i ∧ j' = j
  · rw [if_pos e]; simp [e.1, e.2, h]
  · rw [if_neg e]
    congr 2
    by_cases e1 : i' = i
    · have : j' ≠ j := fun e2 => e ⟨e1, e2⟩
      simp [e1]; omega
    · simp [e1]

theorem part_h_false {i j vc : Nat} (h : L.h i j = false) : part L i (j + 1) vc = part L i j vc := by
  unfold part
  congr 1
  funext i' j'
  by_cases e : i' = i ∧ j' = j
  · simp [e.1, e.2, h]
  · congr 2
    by_cases e1 : i' = i
    · have : j' ≠ j := fun e2 => e ⟨e1, e2⟩
      simp [e1]; omega
    · simp [e1]

theorem part_v_true {i j hc : Nat} (h : L.v i j = true) : part L i hc (j + 1) = setV (part L i hc j) i j := by
  unfold part setV
  congr 1
  funext i' j'
  by_cases e : i' = i ∧ j' = j
  · rw [if_pos e]; simp [e.1, e.2, h]
  · rw [if_neg e]
    congr 2
    by_cases e1 : i' = i
    · have : j' ≠ j := fun e2 => e ⟨e1, e2⟩
      simp [e1]; omega
    · simp [e1]

theorem part_v_false {i j hc : Nat} (h : L.v i j = false) : part L i hc (j + 1) = part L i hc j := by
  unfold part
  congr 1
  funext i' j'
  by_cases e : i' = i ∧ j' = j
  · simp [e.1, e.2, h]
  · congr 2
    by_cases e1 : i' = i
    · have : j' ≠ j := fun e2 => e ⟨e1, e2⟩
      simp [e1]; omega
    · simp [e1]

theorem part_new_h {i j vc : Nat} : (part L i j vc).h i j = false := by simp [part]
theorem part_new_v {i j hc : Nat} : (part L i hc j).v i j = false := by simp [part]

/-- lines on the board only -/
structure OnBoard (m n : Nat) (L : Links) : Prop where
  h : ∀ i j, L.h i j = true → i < m ∧ j + 1 < n
  v : ∀ i j, L.v i j = true → i + 1 < m ∧ j < n

theorem part_row (hL : OnBoard m n L) {i : Nat} : part L i (n - 1) n = part L (i + 1) 0 0 := by
  unfold part
  congr 1
  · funext i' j'
    by_cases h : L.h i' j' = true
    · have := hL.h _ _ h
      simp only [h, Bool.true_and, Nat.not_lt_zero, decide_false, Bool.and_false, Bool.or_false]
      rw [Bool.eq_iff_iff]
      simp only [Bool.or_eq_true, Bool.and_eq_true, decide_eq_true_eq]
      omega
    · simp [h]
  · funext i' j'
    by_cases h : L.v i' j' = true
    · have := hL.v _ _ h
      simp only [h, Bool.true_and, Nat.not_lt_zero, decide_false, Bool.and_false, Bool.or_false]
      rw [Bool.eq_iff_iff]
      simp only [Bool.or_eq_true, Bool.and_eq_true, decide_eq_true_eq]
      omega
    · simp [h]

theorem part_all (hL : OnBoard m n L) : part L m 0 0 = L := by
  unfold part
  obtain ⟨h, v⟩ := L
  congr 1
  · funext i' j'
    by_cases g : h i' j' = true
    · have := hL.h _ _ g
      simp [this.1]
    · simp [g]
  · funext i' j'
    by_cases g : v i' j' = true
    · have := hL.v _ _ g
      have : i' < m := by omega
      simp [this]
    · simp [g]

/-- A box whose lines but the one below are processed -/
theorem deg_full {i k hc vc : Nat} (hh : k < hc ∨ (hc + 1 = n ∧ k + 1 = n)) (hv : vc ≤ k) :
    deg m n L (i, k) = deg m n (part L i hc vc) (i, k) + (if i + 1 < m ∧ L.v i k = true then 1 else 0) := by
  unfold deg part
  have e1 : (0 < k ∧ (L.h i (k - 1) && (decide (i < i) || (decide (i = i) && decide (k - 1 < hc)))) = true) ↔ (0 < k ∧ L.h i (k - 1) = true) := by
    simp only [Bool.and_eq_true, Bool.or_eq_true, decide_eq_true_eq]
    constructor
    · rintro ⟨h1, h2, _⟩; exact ⟨h1, h2⟩
    · rintro ⟨h1, h2⟩; exact ⟨h1, h2, .inr ⟨trivial, by omega⟩⟩
  have e2 : (k + 1 < n ∧ (L.h i k && (decide (i < i) || (decide (i = i) && decide (k < hc)))) = true) ↔ (k + 1 < n ∧ L.h i k = true) := by
    simp only [Bool.and_eq_true, Bool.or_eq_true, decide_eq_true_eq]
    constructor
    · rintro ⟨h1, h2, _⟩; exact ⟨h1, h2⟩
    · rintro ⟨h1, h2⟩; exact ⟨h1, h2, .inr ⟨trivial, by omega⟩⟩
  have e3 : (0 < i ∧ (L.v (i - 1) k && (decide (i - 1 < i) || (decide (i - 1 = i) && decide (k < vc)))) = true) ↔ (0 < i ∧ L.v (i - 1) k = true) := by
    simp only [Bool.and_eq_true, Bool.or_eq_true, decide_eq_true_eq]
    constructor
    · rintro ⟨h1, h2, _⟩; exact ⟨h1, h2⟩
    · rintro ⟨h1, h2⟩; exact ⟨h1, h2, .inl (by omega)⟩
  have e4 : ¬ (i + 1 < m ∧ (L.v i k && (decide (i < i) || (decide (i = i) && decide (k < vc)))) = true) := by
    simp only [Bool.and_eq_true, Bool.or_eq_true, decide_eq_true_eq]
    rintro ⟨_, _, h | h⟩ <;> omega
  have f1 := iteEq e1
  have f2 := iteEq e2
  have f3 := iteEq e3
  have f4 : (if i + 1 < m ∧ (L.v i k && (decide (i < i) || (decide (i = i) && decide (k < vc)))) = true then 1 else 0) = 0 := if_neg e4
  dsimp only
  omega

/-- a box below the processed ones has no line -/
theorem deg_new {i k hc vc r : Nat} (hr : i < r) (hv : r = i + 1 → vc ≤ k) : deg m n (part L i hc vc) (r, k) = 0 := by
  unfold deg part
  have e1 : ∀ c, ¬ ((L.h r c && (decide (r < i) || (decide (r = i) && decide (c < hc)))) = true) := fun c => by
    simp only [Bool.and_eq_true, Bool.or_eq_true, decide_eq_true_eq]
    rintro ⟨_, h | h⟩ <;> omega
  have e3 : ¬ ((L.v (r - 1) k && (decide (r - 1 < i) || (decide (r - 1 = i) && decide (k < vc)))) = true) := by
    simp only [Bool.and_eq_true, Bool.or_eq_true, decide_eq_true_eq]
    rintro ⟨_, h | h⟩ <;> omega
  have e4 : ¬ ((L.v r k && (decide (r < i) || (decide (r = i) && decide (k < vc)))) = true) := by
    simp only [Bool.and_eq_true, Bool.or_eq_true, decide_eq_true_eq]
    rintro ⟨_, h | h⟩ <;> omega
  dsimp only
  simp [e1, e3, e4]

variable {num : Nat × Nat → Nat} {h : Nat → Nat → Bool}

/-- the horizontal lines and the determined vertical ones -/
def full (num : Nat × Nat → Nat) (m n : Nat) (h : Nat → Nat → Bool) : Links := ⟨h, vdet num m n h⟩

theorem full_onBoard (hh : ∀ i j, h i j = true → i < m ∧ j + 1 < n) : OnBoard m n (full num m n h) where
  h := hh
  v i j hv := by
    change vdet num m n h i j = true at hv
    cases i with
    | zero => unfold vdet at hv; have := of_decide_eq_true hv; exact ⟨this.1, this.2.1⟩
    | succ i => unfold vdet at hv; have := of_decide_eq_true hv; exact ⟨by omega, this.2.1⟩

theorem toNat_eq (b : Bool) : b.toNat = if b = true then 1 else 0 := by cases b <;> rfl

/-- a vertical line is drawn from the boxes that need it -/
theorem vdet_iff {i k hc vc : Nat} (hh : k < hc ∨ (hc + 1 = n ∧ k + 1 = n)) (hv : vc ≤ k) (hi : i + 1 < m) (hk : k < n) :
    (full num m n h).v i k = true ↔ lab num (i, k) + deg m n (part (full num m n h) i hc vc) (i, k) = 1 := by
  have e := deg_full (L := full num m n h) (m := m) (i := i) hh hv
  have : deg m n (part (full num m n h) i hc vc) (i, k) = hdeg n h i k + (if 0 < i ∧ vdet num m n h (i - 1) k = true then 1 else 0) := by
    have e2 : deg m n (full num m n h) (i, k) = hdeg n h i k + (if 0 < i ∧ vdet num m n h (i - 1) k = true then 1 else 0) + (if i + 1 < m ∧ (full num m n h).v i k = true then 1 else 0) := rfl
    omega
  rw [this]
  show vdet num m n h i k = true ↔ _
  cases i with
  | zero =>
    unfold vdet
    rw [decide_eq_true_iff]
    simp only [Nat.lt_irrefl, false_and, if_false]
    constructor
    · exact fun h => h.2.2
    · exact fun h => ⟨hi, hk, h⟩
  | succ i =>
    rw [vdet, decide_eq_true_iff, toNat_eq]
    simp only [Nat.succ_pos, true_and, Nat.add_sub_cancel]
    constructor
    · intro h; omega
    · exact fun h => ⟨hi, hk, by omega⟩

/-- The degree condition determines the vertical lines. -/
theorem vdet_unique {v : Nat → Nat → Bool} (hd : ∀ i j, i < m → j < n → lab num (i, j) + deg m n ⟨h, v⟩ (i, j) = 0 ∨ lab num (i, j) + deg m n ⟨h, v⟩ (i, j) = 2) :
    ∀ i k, i + 1 < m → k < n → v i k = vdet num m n h i k := by
  intro i
  induction i with
  | zero =>
    intro k hi hk
    have := hd 0 k (by omega) hk
    unfold deg at this
    unfold vdet hdeg
    rw [Bool.eq_iff_iff, decide_eq_true_iff]
    simp only [Nat.lt_irrefl, false_and, if_false, hi, true_and, Nat.add_zero] at this ⊢
    by_cases hv : v 0 k = true
    · rw [if_pos hv] at this
      exact ⟨fun _ => ⟨hk, by omega⟩, fun _ => hv⟩
    · rw [if_neg hv] at this
      exact ⟨fun h => absurd h hv, fun h => by have := h.2; omega⟩
  | succ i ih =>
    intro k hi hk
    have := hd (i + 1) k (by omega) hk
    unfold deg at this
    rw [vdet, ← ih k (by omega) hk]
    unfold hdeg
    rw [Bool.eq_iff_iff, decide_eq_true_iff, toNat_eq]
    simp only [Nat.succ_pos, hi, true_and, Nat.add_sub_cancel] at this ⊢
    by_cases hv : v (i + 1) k = true
    · rw [if_pos hv] at this
      exact ⟨fun _ => ⟨hk, by omega⟩, fun _ => hv⟩
    · rw [if_neg hv] at this
      exact ⟨fun h => absurd h hv, fun h => by have := h.2; omega⟩

/-- links that agree on the board -/
structure Agree (m n : Nat) (L L' : Links) : Prop where
  h : ∀ i j, i < m → j + 1 < n → L.h i j = L'.h i j
  v : ∀ i j, i + 1 < m → j < n → L.v i j = L'.v i j

theorem Agree.deg (hA : Agree m n L L') {i j : Nat} (hi : i < m) (hj : j < n) : deg m n L (i, j) = deg m n L' (i, j) := by
  unfold Nl.deg
  dsimp only
  have e1 : (0 < j ∧ L.h i (j - 1) = true) ↔ (0 < j ∧ L'.h i (j - 1) = true) := and_congr_right fun g => by rw [hA.h _ _ hi (by omega)]
  have e2 : (j + 1 < n ∧ L.h i j = true) ↔ (j + 1 < n ∧ L'.h i j = true) := and_congr_right fun g => by rw [hA.h _ _ hi g]
  have e3 : (0 < i ∧ L.v (i - 1) j = true) ↔ (0 < i ∧ L'.v (i - 1) j = true) := and_congr_right fun g => by rw [hA.v _ _ (by omega) hj]
  have e4 : (i + 1 < m ∧ L.v i j = true) ↔ (i + 1 < m ∧ L'.v i j = true) := and_congr_right fun g => by rw [hA.v _ _ g hj]
  simp only [e1, e2, e3, e4]

theorem Agree.symm (hA : Agree m n L L') : Agree m n L' L := ⟨fun i j a b => (hA.h i j a b).symm, fun i j a b => (hA.v i j a b).symm⟩

theorem Agree.adj (hA : Agree m n L L') : Adj m n L = Adj m n L' := by
  have one : ∀ {L L' : Links}, Agree m n L L' → ∀ x y, Adj m n L x y → Adj m n L' x y := fun {L L'} hA x y g => by
    cases g with
    | right h1 h2 h3 => exact .right h1 h2 (hA.h _ _ h1 h2 ▸ h3)
    | left h1 h2 h3 => exact .left h1 h2 (hA.h _ _ h1 h2 ▸ h3)
    | down h1 h2 h3 => exact .down h1 h2 (hA.v _ _ h1 h2 ▸ h3)
    | up h1 h2 h3 => exact .up h1 h2 (hA.v _ _ h1 h2 ▸ h3)
  funext x y
  exact propext ⟨one hA x y, one hA.symm x y⟩

end TdZdd.Nl
