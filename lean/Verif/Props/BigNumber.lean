import Verif.BigNumberProofs2

/-!
# Property C32: arithmetic of `BigNumber`

`Num p v s` says that the array `p` starts with `s` words that encode the number `v`, `Canon v s` that there are no
superfluous words. For the operations that write, `Good p n V res` says: if `p` has room for `n` words, the
operation succeeds, reports `n`, leaves the number `V` in `n` words and does not touch the other words; if there is no room
it writes outside of the array.
-/

namespace TdZdd

open Big

/-- every number has an encoding without superfluous words -/
theorem C32_encodable (v : Nat) : ∃ p s, Num p v s ∧ Canon v s := by
  induction v using Nat.strongRecOn with
  | ind v ih =>
    by_cases h : v < 2 ^ 63
    · exact ⟨[v], 1, .last h, .inl rfl⟩
    · obtain ⟨p, s, h1, h2⟩ := ih (v / 2 ^ 63) (by omega)
      have := Num.cont (w := v % 2 ^ 63) (Nat.mod_lt _ (by decide)) h1
      have hc := h2.cons (q := v % 2 ^ 63) (by omega)
      rw [show v % 2 ^ 63 + 2 ^ 63 * (v / 2 ^ 63) = v by omega] at this hc
      exact ⟨_, _, this, hc⟩

/-- C32: the encoding is unambiguous, and `size` is the number of words. -/
theorem C32_size (p : List Nat) (v s : Nat) (h : Num p v s) :
    Big.size p = some s ∧ ∀ v' s', Num p v' s' → v' = v ∧ s' = s :=
  ⟨size_spec h, fun _ _ h' => h'.unique h⟩

/-- C32: `store(BigNumber)` copies the number. -/
theorem C32_store (p q : List Nat) (v s : Nat) (h : Num q v s) : Good p s v (store p q) := store_spec h p

/-- C32: `store(uint64_t)` stores any 64-bit number, in one or two words. -/
theorem C32_storeWord (p : List Nat) (n : Nat) (hn : n < 2 ^ 64) :
    Good p (if n < 2 ^ 63 then 1 else 2) n (storeWord p n) := by
  have := addEnd_spec p hn
  have e : need 1 n = if n < 2 ^ 63 then 1 else 2 := rfl
  rw [e] at this
  exact this

/-- C32: `add` is addition; the result takes as many words as the longer operand, or one more if it does not fit. -/
theorem C32_add (p q : List Nat) (v u s t : Nat) (hp : Num p v s) (hq : Num q u t) :
    Good p (if v + u < 2 ^ (63 * max s t) then max s t else max s t + 1) (v + u) (add p q) := add_spec hp hq

/-- C32: `shiftLeft(k)` is multiplication by `2^k`; a negative `k` fails the assertion. -/
theorem C32_shiftLeft (p : List Nat) (v s : Nat) (hp : Num p v s) (k : Nat) :
    Good p (if v * 2 ^ k < 2 ^ (63 * (s + k / 63)) then s + k / 63 else s + k / 63 + 1) (v * 2 ^ k) (shiftLeft p k) ∧
    ∀ k' : Int, k' < 0 → shiftLeft p k' = none :=
  ⟨shiftLeft_spec hp k, fun _ h => if_pos h⟩

/-- C32: sums of canonical numbers are canonical, and so are shifts of canonical non-zero numbers. -/
theorem C32_canonical (v u s t k : Nat) (hs : 1 ≤ s) (ht : 1 ≤ t) (hv : Canon v s) (hu : Canon u t) :
    Canon (v + u) (if v + u < 2 ^ (63 * max s t) then max s t else max s t + 1) ∧
    (v ≠ 0 → Canon (v * 2 ^ k) (if v * 2 ^ k < 2 ^ (63 * (s + k / 63)) then s + k / 63 else s + k / 63 + 1)) := by
  constructor
  · split
    · unfold Canon at *
      by_cases h : s ≤ t
      · rw [Nat.max_eq_right h]; omega
      · rw [Nat.max_eq_left (by omega)]; omega
    · exact .inr (by rw [Nat.add_sub_cancel]; omega)
  · intro h0
    split
    · right
      have h1 : 2 ^ (63 * (s - 1)) ≤ v := by
        rcases hv with rfl | h
        · simp; omega
        · exact h
      calc 2 ^ (63 * (s + k / 63 - 1)) = 2 ^ (63 * (s - 1)) * 2 ^ (63 * (k / 63)) := by
            rw [← Nat.pow_add]; congr 1; omega
        _ ≤ v * 2 ^ k := Nat.mul_le_mul h1 (Nat.pow_le_pow_right (by decide) (by omega))
    · exact .inr (by rw [Nat.add_sub_cancel]; omega)

/-- C32: comparison is equality of numbers for canonical operands; in general it is equality of encodings. -/
theorem C32_eq (p q : List Nat) (v u s t : Nat) (hp : Num p v s) (hq : Num q u t) :
    Big.eq p q = some (decide (v = u ∧ s = t)) ∧ (Canon v s → Canon u t → Big.eq p q = some (decide (v = u))) ∧
    (Canon v s → ∀ n, n < 2 ^ 64 → eqWord p n = some (decide (v = n))) := by
  refine ⟨eq_spec hp hq, fun h1 h2 => ?_, fun h1 n hn => eqWord_spec hp h1 hn⟩
  rw [eq_spec hp hq]
  congr 1
  rw [decide_eq_decide]
  constructor
  · exact fun h => h.1
  · rintro rfl
    exact ⟨rfl, Canon.unique hp hq h1 h2⟩

/-- C32: `translate` into an unbounded integer type gives the number. -/
theorem C32_translate (p : List Nat) (v s : Nat) (h : Num p v s) : translate p = some v := translate_spec h

/-- C32: `divide(10)` is division by 10 with remainder; the result is canonical. -/
theorem C32_divide (p : List Nat) (v s : Nat) (h : Num p v s) : ∃ r s', divide p 10 = some (r, v % 10) ∧
    Num r (v / 10) s' ∧ Canon (v / 10) s' ∧ s' ≤ s ∧ r.length = p.length ∧ r.drop s = p.drop s := divide_spec h 10

/-- Finding: `divide(n)` ignores its argument and always divides by 10 (the only caller passes 10). -/
theorem C32_divide_ignores_divisor : ∃ p v s n, Num p v s ∧ 0 < n ∧
    ∀ r, divide p n = some r → r.2 ≠ v % n :=
  ⟨[7], 7, 1, 2, .last (by decide), by decide, by
    intro r h
    have : divide [7] 2 = some ([0], 7) := by decide
    rw [this] at h
    cases h
    decide⟩

/-- C32: the output is the decimal representation, in any encoding. -/
theorem C32_print (p : List Nat) (v s : Nat) (h : Num p v s) : print p = some (toString v) := print_spec h

/-- C32: null numbers behave like 0, and storing anything else into them throws. -/
theorem C32_null (p : List Nat) (v s : Nat) (h : Num p v s) (hc : Canon v s) :
    Obj.size none = some 1 ∧ Obj.eq none (some p) = some (decide (v = 0)) ∧ Obj.eq (some p) none = some (decide (v = 0)) ∧
    Obj.eq none none = some true ∧ Obj.store none (some p) = (if v = 0 then .ok (none, 1) else .throw) ∧
    Obj.store none none = .ok (none, 1) ∧
    (∃ r, Obj.store (some p) none = .ok (some r, 1) ∧ Num r 0 1) := by
  have e0 := eqWord_spec h hc (n := 0) (by decide)
  refine ⟨rfl, e0, e0, rfl, ?_, rfl, ?_⟩
  · cases p with
    | nil => exact h.ne_nil.elim
    | cons q qs =>
      have : (q = 0) ↔ v = 0 := by
        unfold eqWord at e0
        simp only [show more 0 = false from rfl, Bool.false_eq_true, if_false] at e0
        by_cases hq : q = 0
        · rw [if_pos hq] at e0
          have : decide (v = 0) = true := by injection e0 with e; exact e.symm
          simp [hq, of_decide_eq_true this]
        · rw [if_neg hq] at e0
          have : decide (v = 0) = false := by injection e0 with e; exact e.symm
          simp [hq, of_decide_eq_false this]
      simp only [Obj.store, ne_eq, this]
      by_cases hv : v = 0 <;> simp [hv]
  · obtain ⟨r, h1, h2, _⟩ := (C32_storeWord p 0 (by decide)).fits (by have := h.len; have := h.pos; simp; omega)
    exact ⟨r, by simp only [Obj.store, Obj.storeWord, h1]; rfl, h2⟩

/-- `2^63 - 1` plus `1` carries into a second word -/
example : Num [2 ^ 63 - 1, 0] (2 ^ 63 - 1) 1 ∧ Num [1] 1 1 ∧ add [2 ^ 63 - 1, 0] [1] = some ([2 ^ 63, 1], 2) ∧
    add [2 ^ 63 - 1] [1] = none :=
  ⟨.last (by decide), .last (by decide), by decide, by decide⟩

/-- a carry through three words, and printing of `2^126 = 85070591730234615865843651857942052864` -/
example : add [2 ^ 64 - 1, 2 ^ 63 - 1, 0] [2 ^ 63 + 1, 0] = some ([2 ^ 63, 2 ^ 63, 1], 3) ∧
    print [2 ^ 63, 2 ^ 63, 1] = some "85070591730234615865843651857942052864" ∧
    toString (2 ^ 126) = "85070591730234615865843651857942052864" := by
  refine ⟨by decide, ?_, by decide +kernel⟩
  have h : Num [2 ^ 63, 2 ^ 63, 1] (0 + 2 ^ 63 * (0 + 2 ^ 63 * 1)) 3 :=
    .cont (w := 0) (by decide) (.cont (w := 0) (by decide) (.last (by decide)))
  exact (C32_print _ _ _ h).trans (by decide +kernel)

/-- shift by 130 = 2 words and 4 bits -/
example : shiftLeft [2 ^ 63 - 1, 7, 7, 7] 130 = some ([2 ^ 63, 2 ^ 63, 2 ^ 64 - 16, 15], 4) := by decide

end TdZdd
