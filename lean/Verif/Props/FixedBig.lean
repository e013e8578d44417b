import Verif.FixedBig
import Verif.BigNumberProofs2

/-!
# Properties of `FixedBigNumber` (C62)
-/

namespace TdZdd.FBig

/-- the number that is represented by the words -/
def value (p : List Nat) : Nat := p.foldr (fun w v => w + 2 ^ 32 * v) 0

/-- the words are 32-bit numbers -/
def Words (p : List Nat) : Prop := ∀ w ∈ p, w < 2 ^ 32

theorem value_cons (w : Nat) (ws : List Nat) : value (w :: ws) = w + 4294967296 * value ws := rfl

theorem Words.cons {w : Nat} {ws : List Nat} : Words (w :: ws) ↔ w < 4294967296 ∧ Words ws := by
  unfold Words
  simp

theorem pow_succ (n : Nat) : 2 ^ (32 * (n + 1)) = 4294967296 * 2 ^ (32 * n) := by
  rw [Nat.mul_succ, Nat.pow_add, Nat.mul_comm]

theorem value_lt : ∀ {p : List Nat}, Words p → value p < 2 ^ (32 * p.length)
  | [], _ => by simp [value]
  | w :: ws, h => by
    have h := Words.cons.1 h
    have ih := value_lt h.2
    rw [value_cons, List.length_cons, pow_succ]
    generalize 2 ^ (32 * ws.length) = P at *
    omega

theorem addLoop_spec : ∀ {p o : List Nat}, Words p → Words o → p.length = o.length → ∀ x, x ≤ 1 →
    Words (addLoop p o x).1 ∧ (addLoop p o x).1.length = p.length ∧ (addLoop p o x).2 ≤ 1 ∧ value (addLoop p o x).1 + 2 ^ (32 * p.length) * (addLoop p o x).2 = value p + value o + x
  | [], [], _, _, _, x, hx => by simp [addLoop, value, hx, Words]
  | p :: ps, o :: os, hp, ho, hl, x, hx => by
    have hp := Words.cons.1 hp
    have ho := Words.cons.1 ho
    have e : ((x + p) % 2 ^ 64 + o) % 2 ^ 64 = x + p + o := by omega
    unfold addLoop
    dsimp only
    rw [e, Nat.shiftRight_eq_div_pow]
    obtain ⟨h1, h2, h3, h4⟩ := addLoop_spec hp.2 ho.2 (by simpa using hl) ((x + p + o) / 2 ^ 32) (by omega)
    refine ⟨Words.cons.2 ⟨Nat.mod_lt _ (by decide), h1⟩, by simp [h2], h3, ?_⟩
    rw [value_cons, value_cons, value_cons, List.length_cons, pow_succ, Nat.mul_assoc]
    generalize 2 ^ (32 * ps.length) * (addLoop ps os ((x + p + o) / 2 ^ 32)).2 = Q at *
    omega

/-- **C62.** `operator+=` is addition modulo `2^(32 size)`; it throws exactly when the sum does not fit (and the number is changed then, too). -/
theorem _root_.TdZdd.C62_add (p o : List Nat) (hp : Words p) (ho : Words o) (hl : p.length = o.length) :
    Words (add p o).1 ∧ (add p o).1.length = p.length ∧ value (add p o).1 = (value p + value o) % 2 ^ (32 * p.length) ∧ ((add p o).2 = true ↔ 2 ^ (32 * p.length) ≤ value p + value o) := by
  obtain ⟨h1, h2, h3, h4⟩ := addLoop_spec hp ho hl 0 (by decide)
  have hv := value_lt h1
  rw [h2] at hv
  refine ⟨h1, h2, ?_, ?_⟩
  · show value (addLoop p o 0).1 = _
    rw [Nat.add_zero] at h4
    rw [← h4, Nat.add_mul_mod_self_left, Nat.mod_eq_of_lt hv]
  · show ((addLoop p o 0).2 != 0) = true ↔ _
    generalize (addLoop p o 0).2 = c at *
    generalize 2 ^ (32 * p.length) = P at *
    have hc : c = 0 ∨ c = 1 := by omega
    rcases hc with rfl | rfl
    · simp; omega
    · simp; omega

theorem value_zero : ∀ {p : List Nat}, value p = 0 ↔ ∀ w ∈ p, w = 0
  | [] => by simp [value]
  | w :: ws => by
    rw [value_cons, List.forall_mem_cons, ← value_zero]
    omega

theorem eq_iff : ∀ {p q : List Nat}, p.length = q.length → (eq p q = true ↔ p = q)
  | [], [], _ => by simp [eq]
  | p :: ps, q :: qs, h => by
    unfold eq
    by_cases hpq : p = q
    · rw [if_neg (by simpa using hpq), eq_iff (by simpa using h), hpq]; simp
    · rw [if_pos hpq]; simp [hpq]

theorem value_inj : ∀ {p q : List Nat}, Words p → Words q → p.length = q.length → value p = value q → p = q
  | [], [], _, _, _, _ => rfl
  | p :: ps, q :: qs, hp, hq, hl, hv => by
    have hp := Words.cons.1 hp
    have hq := Words.cons.1 hq
    rw [value_cons, value_cons] at hv
    have h1 : p = q := by omega
    rw [h1, value_inj hp.2 hq.2 (by simpa using hl) (by omega)]

/-- **C62.** The comparisons compare the numbers. -/
theorem _root_.TdZdd.C62_eq (p q : List Nat) (hp : Words p) (hq : Words q) (hl : p.length = q.length) (hs : 0 < p.length) (n : Nat) (hn : n < 2 ^ 32) :
    (eq p q = true ↔ value p = value q) ∧ eqWord p n = some (decide (value p = n)) := by
  constructor
  · rw [eq_iff hl]
    exact ⟨fun h => by rw [h], value_inj hp hq hl⟩
  · match p, hp, hs with
    | w :: ws, hp, _ =>
      have hp := Words.cons.1 hp
      have hz := value_zero (p := ws)
      unfold eqWord
      rw [value_cons]
      dsimp only
      refine congrArg some ?_
      by_cases hw : w = n
      · rw [if_neg (by simpa using hw)]
        by_cases h0 : ∀ v ∈ ws, v = 0
        · rw [hz.2 h0, hw, Nat.mul_zero, Nat.add_zero, decide_eq_true rfl]
          simpa using h0
        · have : value ws ≠ 0 := fun h => h0 (hz.1 h)
          rw [decide_eq_false (by omega)]
          apply Bool.eq_false_iff.2
          intro hall
          apply h0
          simpa using hall
      · rw [if_pos hw, decide_eq_false (by omega)]

/-- **C62.** The constructors make 0 and `n`. -/
theorem _root_.TdZdd.C62_init (size n : Nat) (hs : 0 < size) (hn : n < 2 ^ 32) :
    (Words (zero size) ∧ (zero size).length = size ∧ value (zero size) = 0) ∧ ∃ p, ofWord size n = some p ∧ Words p ∧ p.length = size ∧ value p = n := by
  have hz : ∀ k, Words (List.replicate k 0) ∧ value (List.replicate k 0) = 0 := fun k =>
    ⟨fun w hw => by rw [(List.mem_replicate.1 hw).2]; decide, value_zero.2 fun w hw => (List.mem_replicate.1 hw).2⟩
  refine ⟨⟨(hz size).1, List.length_replicate, (hz size).2⟩, ?_⟩
  match size, hs with
  | k + 1, _ =>
    refine ⟨_, rfl, Words.cons.2 ⟨hn, (hz k).1⟩, by simp, ?_⟩
    rw [value_cons, (hz k).2]
    omega

theorem signed_small {r : Nat} (h : r < 9223372036854775808) : toSigned r = r := if_pos h

theorem divLoop_spec {n : Nat} (hn : 0 < n) (hn' : n ≤ 2147483648) : ∀ {p : List Nat}, Words p →
    ∃ q, divLoop n p = some (q, value p % n) ∧ Words q ∧ q.length = p.length ∧ value q = value p / n
  | [], _ => ⟨[], by simp [divLoop, value], by simp [Words], rfl, by simp [value]⟩
  | w :: ws, hp => by
    have hp := Words.cons.1 hp
    obtain ⟨q, e, h1, h2, h3⟩ := divLoop_spec hn hn' hp.2
    have hr : value ws % n < n := Nat.mod_lt _ hn
    unfold divLoop
    rw [e]
    dsimp only [Option.bind_some]
    rw [if_neg (by omega), Nat.shiftLeft_eq]
    have hv := value_cons w ws
    have hdm := Nat.div_add_mod (value ws) n
    generalize value ws % n = r at *
    rw [show ((r * 2 ^ 32) % 2 ^ 64 + w) % 2 ^ 64 = r * 4294967296 + w by omega, signed_small (by omega)]
    -- division of the two words
    have hq : (r * 4294967296 + w) / n < 4294967296 := by
      rw [Nat.div_lt_iff_lt_mul hn]
      have : r * 4294967296 + 4294967296 ≤ n * 4294967296 := by
        have : (r + 1) * 4294967296 ≤ n * 4294967296 := Nat.mul_le_mul_right _ (by omega)
        omega
      rw [Nat.mul_comm 4294967296 n]
      omega
    have hm : (r * 4294967296 + w) % n < n := Nat.mod_lt _ hn
    have e1 : (((r * 4294967296 + w : Nat) : Int).tdiv n % 2 ^ 32).toNat = (r * 4294967296 + w) / n := by
      rw [Int.tdiv_eq_ediv_of_nonneg (Int.natCast_nonneg _), ← Int.natCast_ediv]
      generalize (r * 4294967296 + w) / n = k at *
      omega
    have e2 : (((r * 4294967296 + w : Nat) : Int).tmod n % 2 ^ 64).toNat = (r * 4294967296 + w) % n := by
      rw [Int.tmod_eq_emod_of_nonneg (Int.natCast_nonneg _), ← Int.natCast_emod]
      generalize (r * 4294967296 + w) % n = k at *
      omega
    rw [e1, e2]
    have hval : value (w :: ws) = r * 4294967296 + w + n * (4294967296 * (value ws / n)) := by
      rw [hv, Nat.mul_left_comm]
      omega
    refine ⟨_, ?_, Words.cons.2 ⟨hq, h1⟩, by simp [h2], ?_⟩
    · rw [hval, Nat.add_mul_mod_self_left]
    · rw [value_cons, h3, hval, Nat.add_mul_div_left _ _ hn]

/-- **C62.** `divide(n)` is division with remainder for `1 ≤ n ≤ 2^31`. -/
theorem _root_.TdZdd.C62_divide (p : List Nat) (hp : Words p) (n : Nat) (hn : 0 < n) (hn' : n ≤ 2 ^ 31) :
    ∃ q, divide p n = some (q, value p % n) ∧ Words q ∧ q.length = p.length ∧ value q = value p / n := by
  obtain ⟨q, e, h⟩ := divLoop_spec hn hn' hp
  refine ⟨q, ?_, h⟩
  unfold divide
  rw [e]
  have := Nat.mod_lt (value p) hn
  simp only [Option.map_some]
  rw [Nat.mod_eq_of_lt (by omega)]

/-- Division by 0 is undefined. -/
theorem _root_.TdZdd.C62_divide_zero (p : List Nat) (hs : 0 < p.length) : divide p 0 = none := by
  have key : ∀ p : List Nat, 0 < p.length → divLoop 0 p = none := by
    intro p
    cases p with
    | nil => intro h; cases h
    | cons w ws =>
      intro _
      unfold divLoop
      cases divLoop 0 ws <;> rfl
  unfold divide
  rw [key p hs]; rfl

/-- **C62 is violated for divisors above `2^31`:** `lldiv` takes the dividend as a signed number. -/
theorem _root_.TdZdd.C62_divide_false : ∃ p n, Words p ∧ n < 2 ^ 32 ∧ ∃ q r, divide p n = some (q, r) ∧ value q ≠ value p / n ∧ r ≠ value p % n :=
  ⟨[0, 2147483648], 3000000000, by unfold Words; decide, by decide, [1220509951, 0], 2440191488, by decide +kernel, by decide +kernel, by decide +kernel⟩

/-- **C62.** `translate<T>()` for an unsigned type of more than 32 bits: the number modulo `2^bits`. With 32 bits or less the shift is undefined. -/
theorem _root_.TdZdd.C62_translate (p : List Nat) (hp : Words p) (hs : 0 < p.length) (bits : Nat) : translate bits p = if bits ≤ 32 then none else some (value p % 2 ^ bits) := by
  have key : ∀ p : List Nat, 32 < bits → translate bits p = some (value p % 2 ^ bits) := by
    intro p hb
    induction p with
    | nil => simp [translate, value]
    | cons w ws ih =>
      unfold translate
      rw [ih, value_cons]
      dsimp only [Option.bind_some]
      rw [if_neg (by omega), Nat.shiftLeft_eq]
      congr 1
      rw [Nat.mod_add_mod, Nat.add_mod, Nat.mod_mul_mod, ← Nat.add_mod, Nat.add_comm, Nat.mul_comm]
  by_cases hb : bits ≤ 32
  · rw [if_pos hb]
    match p, hs with
    | w :: ws, _ =>
      unfold translate
      cases translate bits ws with
      | none => rfl
      | some v => simp only [Option.bind_some]; rw [if_pos hb]
  · rw [if_neg hb]
    exact key p (by omega)

theorem printHelper_spec (fuel : Nat) : ∀ {p : List Nat}, Words p → 0 < p.length → value p < 10 ^ fuel → 1 ≤ fuel → printHelper fuel p = some (toString (value p)) := by
  induction fuel with
  | zero => intro p h _ _ h1; omega
  | succ fuel ih =>
    intro p h hs hv _
    obtain ⟨q, e, h1, h2, h3⟩ := C62_divide p h 10 (by decide) (by decide)
    have ez := (C62_eq q q h1 h1 rfl (by omega) 0 (by decide)).2
    simp only [printHelper, e, ez, h3, Option.bind_eq_bind, Option.bind_some]
    by_cases h10 : value p / 10 = 0
    · simp only [h10, decide_true, if_true]
      have : value p % 10 = value p := by omega
      rw [this]
      simp
    · simp only [h10, decide_false, Bool.false_eq_true, if_false]
      rw [ih h1 (by omega) (by rw [h3]; rw [Nat.pow_succ] at hv; omega) (by
        apply Classical.byContradiction
        intro hf
        have : fuel = 0 := by omega
        subst this
        rw [Nat.zero_add, Nat.pow_one] at hv
        omega), h3]
      simp only [Option.bind_some]
      rw [← Big.toString_step (by omega)]

/-- **C62.** The number is printed in decimal. -/
theorem _root_.TdZdd.C62_print (p : List Nat) (hp : Words p) (hs : 0 < p.length) : print p = some (toString (value p)) := by
  refine printHelper_spec _ hp hs (Nat.lt_of_lt_of_le (value_lt hp) ?_) (by omega)
  rw [Nat.pow_mul, Nat.pow_mul]
  exact Nat.pow_le_pow_left (by decide) _

/-! Concrete numbers -/

/-- two words; the sum carries into the second one -/
example : Words [4294967295, 1] ∧ add [4294967295, 1] [2, 3] = ([1, 5], false) ∧ value [1, 5] = 21474836481 := by unfold Words; decide +kernel
/-- the sum does not fit -/
example : add [4294967295, 4294967295] [1, 0] = ([0, 0], true) := by decide +kernel
example : divide [1, 5] 10 = some ([2147483648, 0], 1) ∧ divide [1, 5] 2147483648 = some ([10, 0], 1) := by decide +kernel
example : print [1, 5] = some "21474836481" ∧ print [0, 0] = some "0" := by decide +kernel
example : translate 64 [1, 5] = some 21474836481 ∧ translate 64 [1, 5, 7] = some 21474836481 ∧ translate 32 [1, 5] = none := by decide +kernel
example : eq [1, 5] [1, 5] = true ∧ eq [1, 5] [1, 4] = false ∧ eqWord [5, 0] 5 = some true ∧ eqWord [5, 1] 5 = some false ∧ ofWord 3 9 = some [9, 0, 0] := by decide +kernel

end TdZdd.FBig
