import Verif.SizeConstraint
import Verif.Dense

/-! # Properties C37 and C38: `SizeConstraint` and `IntRange` -/

namespace TdZdd

/-- C38: membership in an `IntRange` is membership in an arithmetic progression; no undefined behaviour occurs if `step` is not
zero and `x - min` does not overflow. -/
theorem C38_contains (min max step x : Int) (hs : step ≠ 0) (hd : x - min ≤ 2 ^ 31 - 1) :
    ∃ r, intRangeContains min max step x = some r ∧ (r = true ↔ min ≤ x ∧ x ≤ max ∧ ∃ k, x = min + k * step) := by
  unfold intRangeContains
  by_cases h : x < min ∨ max < x
  · rw [if_pos h]
    refine ⟨false, rfl, fun e => (nomatch e), ?_⟩
    rintro ⟨h1, h2, _⟩; omega
  · rw [if_neg h]
    have h1 : min ≤ x := by omega
    have h2 : x ≤ max := by omega
    have h3 : int32 (x - min) = some (x - min) := if_pos ⟨by omega, hd⟩
    rw [h3, Option.bind_some, if_neg hs, if_neg (by omega)]
    refine ⟨_, rfl, ?_⟩
    rw [beq_iff_eq]
    constructor
    · intro e
      obtain ⟨k, hk⟩ := Int.dvd_of_tmod_eq_zero e
      exact ⟨h1, h2, k, by rw [Int.mul_comm k]; omega⟩
    · rintro ⟨_, _, k, hk⟩
      apply Int.tmod_eq_zero_of_dvd
      exact ⟨k, by rw [Int.mul_comm step]; omega⟩

/-- C38, the excluded cases are undefined: `x - min` too large or a zero step, for an `x` between the bounds. -/
theorem C38_undefined (min max step x : Int) (h : min ≤ x ∧ x ≤ max) (hu : step = 0 ∨ 2 ^ 31 - 1 < x - min) :
    intRangeContains min max step x = none := by
  unfold intRangeContains
  rw [if_neg (by omega)]
  unfold int32
  by_cases h1 : IsInt32 (x - min)
  · rw [if_pos h1, Option.bind_some, if_pos]
    rcases hu with h | h
    · exact h
    · have := h1.2; omega
  · rw [if_neg h1]; rfl

/-- C38: an `IntRange` with a non-zero step satisfies what C37 and C40 ask of a constraint. -/
theorem C38_encloses (min max step x : Int) (h : (intRange min max step).contains x = true) :
    (intRange min max step).lower ≤ x ∧ x ≤ (intRange min max step).upper := by
  simp only [intRange, intRangeContains] at h ⊢
  split at h
  · cases h
  · omega

/-- number of elements of a subset of `1..n` -/
def sizeOf' (a : Asg 2) (n : Nat) : Nat := ((List.range n).filter fun j => decide (a (j + 1) = 1)).length

theorem sizeOf'_succ (a : Asg 2) (n : Nat) : sizeOf' a (n + 1) = sizeOf' a n + (a (n + 1)).val := by
  unfold sizeOf'
  rw [List.range_succ, List.filter_append, List.length_append]
  congr 1
  have hb : ∀ b : Fin 2, (if decide (b = 1) = true then 1 else 0) = b.val := by decide
  rw [← hb (a (n + 1))]
  by_cases h : a (n + 1) = 1 <;> simp [h]

theorem sizeOf'_le (a : Asg 2) (n : Nat) : sizeOf' a n ≤ n := by
  have := List.length_filter_le (fun j => decide (a (j + 1) = 1)) (List.range n)
  rw [List.length_range] at this
  exact this

section

variable {n : Nat} {c : Option IntSubset}

theorem size_child (s : Int) (l : Nat) (b : Fin 2) (h : 0 < l) :
    ((sizeConstraint n c).child s l b).1 = 0 ∨ ((sizeConstraint n c).child s l b).1 = if l = 1 then -1 else (l : Int) - 1 := by
  unfold sizeConstraint
  dsimp only
  cases c with
  | none => right; dsimp only; split <;> split <;> omega
  | some c =>
    dsimp only
    split
    · split
      · exact .inl rfl
      · dsimp only; split
        · right; rw [if_neg (by omega)]
        · split
          · right; rw [if_pos (by omega)]
          · exact .inl rfl
    · split
      · exact .inl rfl
      · dsimp only; split
        · right; rw [if_neg (by omega)]
        · split
          · right; rw [if_pos (by omega)]
          · exact .inl rfl

theorem size_dense (hn : 1 ≤ n) : Dense (sizeConstraint n c) n where
  pos := hn
  root := by
    unfold sizeConstraint
    cases c with
    | none => exact .inr rfl
    | some c => dsimp only; split <;> simp
  child b h0 _ := size_child _ _ b h0

/-- C37: the specification keeps the contract of a specification. -/
theorem C37_lawful (n : Nat) (c : Option IntSubset) (hn : 1 ≤ n) : LawfulC (sizeConstraint n c) ∧ NoMerge (sizeConstraint n c) :=
  ⟨lawfulC_of_eq (size_dense hn).desc fun n s t => by simp [sizeConstraint], fun _ _ => rfl⟩

/-- C37: `count` and `count + level` stay between 0 and `n`, so that no `int` overflows. -/
theorem C37_bounded (n : Nat) (c : Option IntSubset) (_ : 1 ≤ n) {l : Nat} {s : Int} (h0 : 0 < l)
    (h : Reach (sizeConstraint n c) (l : Int) s) : 0 ≤ s ∧ s + l ≤ n := by
  generalize hl : (l : Int) = l' at h
  induction h generalizing l with
  | root =>
    cases c with
    | none => rw [← hl]; have : (l : Int) = n := hl; show (0 : Int) ≤ 0 ∧ (0 : Int) + l ≤ n; omega
    | some c =>
      rw [← hl]
      have : (l : Int) = if (n : Int) < c.lower then (0 : Int) else n := hl
      show (0 : Int) ≤ 0 ∧ (0 : Int) + l ≤ n
      split at this <;> omega
  | @step m s b hm hr ih =>
    have h1 := ih hm rfl
    revert hl
    cases c with
    | none => simp only [sizeConstraint]; split <;> intro h <;> omega
    | some c =>
      simp only [sizeConstraint]
      split
      · split
        · dsimp only; intro h; omega
        · dsimp only; split
          · intro h; omega
          · split <;> intro h <;> omega
      · split
        · dsimp only; intro h; omega
        · dsimp only; split
          · intro h; omega
          · split <;> intro h <;> omega

theorem size_sat (d : IntSubset) (henc : ∀ x, d.contains x = true → d.lower ≤ x ∧ x ≤ d.upper) (a : Asg 2) : ∀ (l : Nat) (s : Int),
    0 < l → (BddSatAt (sizeConstraint n (some d)) (l : Int) s a ↔ d.contains (s + sizeOf' a l) = true) := by
  intro l
  induction l with
  | zero => intro s h; omega
  | succ l ih =>
    intro s h0
    rw [bddSatAt_pos h0]
    have hle := sizeOf'_le a l
    have e := sizeOf'_succ a l
    have hcase : (a (l + 1)).val = 0 ∨ (a (l + 1)).val = 1 := by have := (a (l + 1)).isLt; omega
    have step : ∀ t : Int, BddSatAt (sizeConstraint n (some d))
        (if 1 ≤ ((l + 1 : Nat) : Int) - 1 then ((l + 1 : Nat) : Int) - 1 else if d.contains t then -1 else 0) t a ↔
        d.contains (t + sizeOf' a l) = true := by
      intro t
      by_cases hl : l = 0
      · subst hl
        rw [if_neg (by omega)]
        have : sizeOf' a 0 = 0 := rfl
        rw [this, show t + ((0 : Nat) : Int) = t from by omega]
        by_cases hc : d.contains t = true
        · rw [if_pos hc]; exact ⟨fun _ => hc, fun _ => bddSatAt_neg (by omega)⟩
        · rw [if_neg hc]; exact ⟨fun h => absurd h bddSatAt_zero, fun h => absurd h hc⟩
      · rw [if_pos (by omega), show ((l + 1 : Nat) : Int) - 1 = (l : Int) from by omega]
        exact ih t (by omega)
    rcases hcase with h | h
    · have hch : (sizeConstraint n (some d)).child s (l + 1) (a (l + 1)) = _ := if_neg (by omega)
      rw [hch]
      by_cases hl : s + ((l + 1 : Nat) : Int) ≤ d.lower
      · rw [if_pos hl]
        refine ⟨fun h => absurd h bddSatAt_zero, fun hc => ?_⟩
        have := henc _ hc
        omega
      · rw [if_neg hl, e, h]
        exact step s
    · have hch : (sizeConstraint n (some d)).child s (l + 1) (a (l + 1)) = _ := if_pos (by omega)
      rw [hch]
      by_cases hu : d.upper ≤ s
      · rw [if_pos hu]
        refine ⟨fun h => absurd h bddSatAt_zero, fun hc => ?_⟩
        have := henc _ hc
        omega
      · rw [if_neg hu, e, h]
        have := step (s + 1)
        rw [show s + ((sizeOf' a l + 1 : Nat) : Int) = s + 1 + sizeOf' a l from by omega]
        exact this

theorem size_sat_none (a : Asg 2) : ∀ (l : Nat) (s : Int), 0 < l → BddSatAt (sizeConstraint n none) (l : Int) s a := by
  intro l
  induction l with
  | zero => intro s h; omega
  | succ l ih =>
    intro s h0
    rw [bddSatAt_pos h0]
    show BddSatAt _ (if 1 ≤ ((l + 1 : Nat) : Int) - 1 then ((l + 1 : Nat) : Int) - 1 else -1) s a
    by_cases hl : l = 0
    · rw [if_neg (by omega)]; exact bddSatAt_neg (by omega)
    · rw [if_pos (by omega), show ((l + 1 : Nat) : Int) - 1 = (l : Int) from by omega]
      exact ih s (by omega)

end

/-- C37: `SizeConstraint(n, c)` accepts exactly the sets whose size is in `c`, in both readings. -/
theorem C37_size (n : Nat) (c : IntSubset) (hn : 1 ≤ n) (henc : ∀ x, c.contains x = true → c.lower ≤ x ∧ x ≤ c.upper) (a : Asg 2) :
    (BddSat (sizeConstraint n (some c)) a ↔ c.contains ((List.range n).filter fun j => decide (a (j + 1) = 1)).length = true) ∧
    (ZddMem (sizeConstraint n (some c)) n a ↔ c.contains ((List.range n).filter fun j => decide (a (j + 1) = 1)).length = true) := by
  rw [(size_dense hn).mem_iff a, and_self]
  show BddSatAt _ (if (n : Int) < c.lower then 0 else n) 0 a ↔ c.contains (sizeOf' a n : Int) = true
  by_cases h : (n : Int) < c.lower
  · rw [if_pos h]
    refine ⟨fun h => absurd h bddSatAt_zero, fun hc => ?_⟩
    have := henc _ hc
    have := sizeOf'_le a n
    omega
  · rw [if_neg h, size_sat c henc a n 0 (by omega), Int.zero_add]

/-- C37: with the null constraint everything is accepted. -/
theorem C37_null (n : Nat) (hn : 1 ≤ n) (a : Asg 2) : BddSat (sizeConstraint n none) a ∧ ZddMem (sizeConstraint n none) n a := by
  rw [(size_dense hn).mem_iff a, and_self]
  exact size_sat_none a n 0 hn

/-- C37 and C38 together: `SizeConstraint(n, IntRange(min, max, step))`. -/
theorem C37_range (n : Nat) (hn : 1 ≤ n) (min max step : Int) (hs : step ≠ 0) (hmin : (n : Int) - min ≤ 2 ^ 31 - 1) (a : Asg 2) :
    ZddMem (sizeConstraint n (some (intRange min max step))) n a ↔
      ∃ m : Nat, m = ((List.range n).filter fun j => decide (a (j + 1) = 1)).length ∧ min ≤ m ∧ m ≤ max ∧ ∃ k, (m : Int) = min + k * step := by
  rw [(C37_size n _ hn (fun x => C38_encloses min max step x) a).2]
  have hle := sizeOf'_le a n
  show ((intRangeContains min max step (sizeOf' a n)).getD false) = true ↔ ∃ m : Nat, m = sizeOf' a n ∧ _
  obtain ⟨r, e, hr⟩ := C38_contains min max step (sizeOf' a n : Int) hs (by omega)
  rw [e, Option.getD_some, hr]
  constructor
  · intro h; exact ⟨_, rfl, h⟩
  · rintro ⟨m, rfl, h⟩; exact h

/-! ### Examples -/

example : intRangeContains 2 10 3 8 = some true := by decide
example : intRangeContains 10 2 (-3) 8 = some false := by decide
example : intRangeContains (-2 ^ 31) (2 ^ 31 - 1) 1 0 = none := by decide
example : ∃ c : IntSubset, (∀ x, c.contains x = true → c.lower ≤ x ∧ x ≤ c.upper) ∧ c.contains 2 = true ∧ c.contains 3 = false :=
  ⟨intRange 2 10 4, fun x => C38_encloses 2 10 4 x, by decide, by decide⟩
/-- two of three items: accepted; one of three: not -/
example : ZddMem (sizeConstraint 3 (some (intRange 2 10 4))) 3 (fun j => if j = 2 then 0 else 1) ∧
    ¬ ZddMem (sizeConstraint 3 (some (intRange 2 10 4))) 3 (fun j => if j = 2 then 1 else 0) := by
  constructor
  · rw [(C37_size 3 _ (by decide) (fun x => C38_encloses 2 10 4 x) _).2]; decide
  · rw [(C37_size 3 _ (by decide) (fun x => C38_encloses 2 10 4 x) _).2]; decide

end TdZdd
