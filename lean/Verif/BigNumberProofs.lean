import Verif.BigNumber
import Verif.ListLemmas

namespace TdZdd.Big

/-- `Num p v s`: the array `p` starts with a number of value `v` in `s` words. -/
inductive Num : List Nat → Nat → Nat → Prop
  | last {w : Nat} {rest : List Nat} : w < 2 ^ 63 → Num (w :: rest) w 1
  | cont {w v s : Nat} {rest : List Nat} : w < 2 ^ 63 → Num rest v s →
      Num ((2 ^ 63 + w) :: rest) (w + 2 ^ 63 * v) (s + 1)

/-- Without superfluous leading words. -/
def Canon (v s : Nat) : Prop := s = 1 ∨ 2 ^ (63 * (s - 1)) ≤ v

/-- `m` words, or one more if the value does not fit. -/
def need (m v : Nat) : Nat := if v < 2 ^ (63 * m) then m else m + 1

/-! ### bits -/

theorem MSB_eq : MSB = 2 ^ 63 := by decide
theorem notMSB_eq : notMSB = 2 ^ 63 - 1 := by decide

theorem low_eq (w : Nat) : low w = w % 2 ^ 63 := by
  unfold low
  rw [notMSB_eq, Nat.and_two_pow_sub_one_eq_mod]

theorem more_eq (w : Nat) : more w = w.testBit 63 := by
  unfold more
  have e : w &&& MSB = if w.testBit 63 then 2 ^ 63 else 0 := by
    rw [MSB_eq]
    apply Nat.eq_of_testBit_eq
    intro i
    rw [Nat.testBit_and, Nat.testBit_two_pow]
    by_cases h : 63 = i
    · subst h
      cases hw : w.testBit 63
      · simp
      · simp only [if_true, Nat.testBit_two_pow]; rfl
    · cases hw : w.testBit 63
      · simp [h]
      · simp only [if_true, Nat.testBit_two_pow]; simp [h]
  rw [e]
  cases w.testBit 63 <;> decide

theorem more_lo {w : Nat} (h : w < 2 ^ 63) : more w = false := by
  rw [more_eq, Nat.testBit_lt_two_pow h]

theorem more_hi {w : Nat} (h : w < 2 ^ 63) : more (2 ^ 63 + w) = true := by
  rw [more_eq, Nat.testBit_two_pow_add_eq, Nat.testBit_lt_two_pow h]
  rfl

theorem or_MSB {x : Nat} (h : x < 2 ^ 64) : x ||| MSB = 2 ^ 63 + x % 2 ^ 63 := by
  rw [MSB_eq]
  have e := Nat.two_pow_add_eq_or_of_lt (i := 63) (b := x % 2 ^ 63) (Nat.mod_lt _ (by decide)) 1
  rw [Nat.mul_one] at e
  rw [e]
  by_cases hx : x < 2 ^ 63
  · rw [Nat.mod_eq_of_lt hx, Nat.or_comm]
  · have e2 : x = 2 ^ 63 + x % 2 ^ 63 := by omega
    have e3 : x = 2 ^ 63 ||| x % 2 ^ 63 := by rw [← e]; exact e2
    rw [e3, Nat.or_mod_two_pow]
    simp only [Nat.mod_mod, Nat.mod_self, Nat.zero_or]
    rw [Nat.or_comm, ← Nat.or_assoc, Nat.or_self]

theorem add64_eq {a b : Nat} (h : a + b < 2 ^ 64) : add64 a b = a + b := Nat.mod_eq_of_lt h

theorem shr63 (x : Nat) : x >>> 63 = x / 2 ^ 63 := Nat.shiftRight_eq_div_pow x 63

/-! ### representation -/

theorem Num.pos {p v s} (h : Num p v s) : 1 ≤ s := by cases h <;> omega

theorem Num.ne_nil {v s} (h : Num [] v s) : False := by
  generalize e : ([] : List Nat) = p at h
  cases h <;> cases e

theorem Num.inv {q qs v s} (h : Num (q :: qs) v s) : (s = 1 ∧ v = q ∧ q < 2 ^ 63) ∨
    ∃ w v' s', w < 2 ^ 63 ∧ q = 2 ^ 63 + w ∧ v = w + 2 ^ 63 * v' ∧ s = s' + 1 ∧ Num qs v' s' := by
  generalize e : q :: qs = p at h
  cases h with
  | last hw => cases e; exact .inl ⟨rfl, rfl, hw⟩
  | @cont w v s _ hw hr => cases e; exact .inr ⟨_, _, _, hw, rfl, rfl, rfl, hr⟩

theorem Num.len {p v s} (h : Num p v s) : s ≤ p.length := by
  induction h with
  | last _ => simp
  | cont _ _ ih => simp; exact ih

theorem pow63_succ (s : Nat) : 2 ^ (63 * (s + 1)) = 2 ^ 63 * 2 ^ (63 * s) := by
  rw [← Nat.pow_add]; congr 1; omega

theorem Num.lt {p v s} (h : Num p v s) : v < 2 ^ (63 * s) := by
  induction h with
  | last h => simpa using h
  | @cont w v s rest hw _ ih =>
    rw [pow63_succ]
    have : 2 ^ 63 * (v + 1) ≤ 2 ^ 63 * 2 ^ (63 * s) := Nat.mul_le_mul (Nat.le_refl _) ih
    rw [Nat.mul_add] at this
    omega

theorem Num.head {q qs v s} (h : Num (q :: qs) v s) : low q = v % 2 ^ 63 ∧ more q = decide (1 < s) := by
  cases h with
  | last hw => exact ⟨low_eq q, by rw [more_lo hw]; rfl⟩
  | @cont w v s _ hw hr =>
    refine ⟨?_, ?_⟩
    · rw [low_eq, Nat.add_mod_left, Nat.add_mul_mod_self_left]
    · rw [more_hi hw]; have := hr.pos; simp; omega

theorem Num.unique {p v s v' s'} (h : Num p v s) (h' : Num p v' s') : v = v' ∧ s = s' := by
  induction h generalizing v' s' with
  | @last w rest hw =>
    generalize e : w :: rest = p at h'
    cases h' with
    | last _ => cases e; exact ⟨rfl, rfl⟩
    | cont _ _ => cases e; omega
  | @cont w v s rest hw _ ih =>
    generalize e : (2 ^ 63 + w) :: rest = p at h'
    cases h' with
    | last _ => cases e; omega
    | @cont w' v'' s'' rest' hw' hr =>
      injection e with e1 e2
      subst e2
      obtain ⟨rfl, rfl⟩ := ih hr
      exact ⟨by omega, rfl⟩

theorem Num.take {p v s} (h : Num p v s) (c : List Nat) : Num (p.take s ++ c) v s := by
  induction h with
  | last hw => exact .last hw
  | cont hw _ ih => exact .cont hw ih

theorem Num.words {p q v s} (h : Num p v s) (h' : Num q v s) : p.take s = q.take s := by
  induction h generalizing q with
  | @last w rest hw =>
    generalize e : w = v at h'
    generalize e2 : (1 : Nat) = s at h'
    cases h' with
    | last _ => subst e; rfl
    | cont _ hr => have := hr.pos; omega
  | @cont w v s rest hw hr ih =>
    generalize e : w + 2 ^ 63 * v = v' at h'
    generalize e2 : s + 1 = s' at h'
    cases h' with
    | last _ => have := hr.pos; omega
    | @cont w' v'' s'' rest' hw' hr' =>
      have : s = s'' := by omega
      subst this
      have e3 : w = w' := by omega
      have e4 : v = v'' := by omega
      subst e3 e4
      rw [List.take_succ_cons, List.take_succ_cons, ih hr']

theorem Num.shift {p v s} (h : Num p v s) (w : Nat) :
    Num (List.replicate w MSB ++ p) (v * 2 ^ (63 * w)) (s + w) := by
  induction w with
  | zero => simpa using h
  | succ w ih =>
    have := Num.cont (w := 0) (by decide) ih
    rw [pow63_succ]
    have e : 0 + 2 ^ 63 * (v * 2 ^ (63 * w)) = v * (2 ^ 63 * 2 ^ (63 * w)) := by
      rw [Nat.zero_add, Nat.mul_left_comm]
    rw [e] at this
    exact this

theorem need_cons {a s V : Nat} (ha : a < 2 ^ 63) : need (s + 1) (a + 2 ^ 63 * V) = need s V + 1 := by
  unfold need
  rw [pow63_succ]
  by_cases h : V < 2 ^ (63 * s)
  · have : 2 ^ 63 * (V + 1) ≤ 2 ^ 63 * 2 ^ (63 * s) := Nat.mul_le_mul (Nat.le_refl _) h
    rw [Nat.mul_add] at this
    rw [if_pos h, if_pos (by omega)]
  · have : 2 ^ 63 * 2 ^ (63 * s) ≤ 2 ^ 63 * V := Nat.mul_le_mul (Nat.le_refl _) (by omega)
    rw [if_neg h, if_neg (by omega)]

/-- Outcome of an in-place operation on `p` that writes a number of value `V` in `n` words: if the array has room for
them it succeeds and leaves the other words alone, else it is out of bounds. -/
structure Good (p : List Nat) (n V : Nat) (res : Option (List Nat × Nat)) : Prop where
  fits : n ≤ p.length → ∃ r, res = some (r, n) ∧ Num r V n ∧ r.length = p.length ∧ r.drop n = p.drop n
  short : p.length < n → res = none

theorem Good.nil {n V : Nat} (h : 1 ≤ n) : Good [] n V none :=
  ⟨fun h' => absurd h' (by simp; omega), fun _ => rfl⟩

theorem Good.cons {p : Nat} {ps : List Nat} {n V a : Nat} {res : Option (List Nat × Nat)} (h : Good ps n V res) (ha : a < 2 ^ 63) :
    Good (p :: ps) (n + 1) (a + 2 ^ 63 * V) (res.map fun r => ((2 ^ 63 + a) :: r.1, r.2 + 1)) := by
  constructor
  · intro hn
    obtain ⟨r, rfl, h1, h2, h3⟩ := h.fits (by simpa using hn)
    exact ⟨_, rfl, .cont ha h1, by simp [h2], by simpa using h3⟩
  · intro hn
    rw [h.short (by simpa using hn)]
    rfl

/-! ### size, store -/

theorem size_spec {p v s} (h : Num p v s) : size p = some s := by
  induction h with
  | last hw => simp [size, more_lo hw]
  | cont hw _ ih => simp only [size, more_hi hw, if_true, ih]; rfl

theorem store_spec {q v s} (h : Num q v s) : ∀ p : List Nat, Good p s v (store p q) := by
  induction h with
  | @last w rest hw =>
    intro p
    cases p with
    | nil => exact .nil (Nat.le_refl 1)
    | cons p ps =>
      refine ⟨fun _ => ?_, fun h => absurd h (by simp)⟩
      simp only [store, more_lo hw, Bool.false_eq_true, if_false]
      exact ⟨_, rfl, .last hw, rfl, rfl⟩
  | @cont w v s rest hw hr ih =>
    intro p
    cases p with
    | nil => exact .nil (by omega)
    | cons p ps =>
      simp only [store, more_hi hw, if_true]
      exact (ih ps).cons hw

/-! ### add -/

theorem addEnd_spec (p : List Nat) {x : Nat} (hx : x < 2 ^ 64) : Good p (need 1 x) x (addEnd p x) := by
  by_cases h : x < 2 ^ 63
  · have e : need 1 x = 1 := if_pos h
    rw [e]
    cases p with
    | nil => exact .nil (Nat.le_refl 1)
    | cons p ps =>
      refine ⟨fun _ => ?_, fun h => absurd h (by simp)⟩
      simp only [addEnd, more_lo h, Bool.false_eq_true, if_false]
      exact ⟨_, rfl, .last h, rfl, rfl⟩
  · have e : need 1 x = 2 := if_neg h
    rw [e]
    have hm : more x = true := by
      have := more_hi (w := x - 2 ^ 63) (by omega)
      rwa [show 2 ^ 63 + (x - 2 ^ 63) = x by omega] at this
    cases p with
    | nil => exact .nil (by decide)
    | cons p ps =>
      simp only [addEnd, hm, if_true]
      cases ps with
      | nil =>
        exact ⟨fun h => absurd h (by simp), fun _ => rfl⟩
      | cons p' ps =>
        refine ⟨fun _ => ?_, fun h => absurd h (by simp)⟩
        refine ⟨_, rfl, ?_, rfl, rfl⟩
        have := Num.cont (w := x - 2 ^ 63) (rest := 1 :: ps) (by omega) (.last (by decide))
        rwa [show 2 ^ 63 + (x - 2 ^ 63) = x by omega, show x - 2 ^ 63 + 2 ^ 63 * 1 = x by omega] at this

theorem addQ_spec {q u t} (h : Num q u t) : ∀ (p : List Nat) {x : Nat}, x < 2 ^ 64 →
    Good p (need t (x + (u - u % 2 ^ 63))) (x + (u - u % 2 ^ 63)) (addQ p q x) := by
  induction h with
  | @last w rest hw =>
    intro p x hx
    rw [Nat.mod_eq_of_lt hw, Nat.sub_self, Nat.add_zero]
    cases p with
    | nil => exact .nil (by unfold need; split <;> decide)
    | cons p ps =>
      simp only [addQ, more_lo hw, Bool.false_eq_true, if_false]
      exact addEnd_spec _ hx
  | @cont w v s rest hw hr ih =>
    intro p x hx
    cases rest with
    | nil => exact hr.ne_nil.elim
    | cons q' qs =>
      obtain ⟨hl, _⟩ := hr.head
      have e1 : x >>> 63 = x / 2 ^ 63 := shr63 x
      have hm := Nat.mod_lt v (y := 2 ^ 63) (by decide)
      have e2 : add64 (x >>> 63) (low q') = x / 2 ^ 63 + v % 2 ^ 63 := by
        rw [hl, e1, add64_eq (by omega)]
      have eV : x + (w + 2 ^ 63 * v - (w + 2 ^ 63 * v) % 2 ^ 63) =
          x % 2 ^ 63 + 2 ^ 63 * (x / 2 ^ 63 + v % 2 ^ 63 + (v - v % 2 ^ 63)) := by omega
      rw [eV, need_cons (Nat.mod_lt _ (by decide))]
      cases p with
      | nil => exact .nil (by omega)
      | cons p ps =>
        simp only [addQ, more_hi hw, if_true]
        rw [e2, or_MSB hx]
        exact (ih ps (by omega)).cons (Nat.mod_lt _ (by decide))

theorem addP_spec {p v s} (h : Num p v s) : ∀ {x : Nat}, x < 2 ^ 64 →
    Good p (need s (x + (v - v % 2 ^ 63))) (x + (v - v % 2 ^ 63)) (addP p x) := by
  induction h with
  | @last w rest hw =>
    intro x hx
    rw [Nat.mod_eq_of_lt hw, Nat.sub_self, Nat.add_zero]
    rw [addP.eq_def]
    simp only [more_lo hw, Bool.false_eq_true, if_false]
    exact addEnd_spec _ hx
  | @cont w v s rest hw hr ih =>
    intro x hx
    cases rest with
    | nil => exact hr.ne_nil.elim
    | cons q' qs =>
      obtain ⟨hl, _⟩ := hr.head
      have e1 : x >>> 63 = x / 2 ^ 63 := shr63 x
      have hm := Nat.mod_lt v (y := 2 ^ 63) (by decide)
      have e2 : add64 (x >>> 63) (low q') = x / 2 ^ 63 + v % 2 ^ 63 := by
        rw [hl, e1, add64_eq (by omega)]
      have eV : x + (w + 2 ^ 63 * v - (w + 2 ^ 63 * v) % 2 ^ 63) =
          x % 2 ^ 63 + 2 ^ 63 * (x / 2 ^ 63 + v % 2 ^ 63 + (v - v % 2 ^ 63)) := by omega
      rw [eV, need_cons (Nat.mod_lt _ (by decide))]
      rw [addP]
      simp only [more_hi hw, if_true]
      rw [e2, or_MSB hx]
      exact (ih (by omega)).cons (Nat.mod_lt _ (by decide))

theorem addLoop_spec {p v s} (h : Num p v s) : ∀ {q u t}, Num q u t → ∀ {x : Nat}, x ≤ 1 →
    Good p (need (max s t) (v + u + x)) (v + u + x) (addLoop p q x) := by
  induction h with
  | @last w rest hw =>
    intro q u t hq x hx
    cases q with
    | nil => exact hq.ne_nil.elim
    | cons q qs =>
      obtain ⟨hl, _⟩ := hq.head
      have hm := Nat.mod_lt u (y := 2 ^ 63) (by decide)
      have hle := Nat.mod_le u (2 ^ 63)
      have e : add64 (add64 x (low w)) (low q) = x + w + u % 2 ^ 63 := by
        rw [hl, low_eq, Nat.mod_eq_of_lt hw, add64_eq (a := x) (by omega), add64_eq (by omega)]
      simp only [addLoop, more_lo hw, Bool.not_false, if_true]
      rw [e, show max 1 t = t by have := hq.pos; omega,
        show w + u + x = x + w + u % 2 ^ 63 + (u - u % 2 ^ 63) by omega]
      exact addQ_spec hq _ (by omega)
  | @cont w v s rest hw hr ih =>
    intro q u t hq x hx
    have hpos := hr.pos
    have hp := Num.cont hw hr
    cases q with
    | nil => exact hq.ne_nil.elim
    | cons q qs =>
    rcases hq.inv with ⟨rfl, hu, hw'⟩ | ⟨w', v', s', hw', rfl, rfl, rfl, hr'⟩
    · have e : add64 (add64 x (low (2 ^ 63 + w))) (low q) = x + w + q := by
        rw [low_eq, low_eq, Nat.add_mod_left, Nat.mod_eq_of_lt hw, Nat.mod_eq_of_lt hw', add64_eq (a := x) (by omega),
          add64_eq (by omega)]
      simp only [addLoop, more_hi hw, more_lo hw', Bool.not_false, Bool.not_true, Bool.false_eq_true, if_false, if_true]
      have := addP_spec hp (x := x + w + q) (by omega)
      rw [e, show max (s + 1) 1 = s + 1 by omega]
      rw [show x + w + q + (w + 2 ^ 63 * v - (w + 2 ^ 63 * v) % 2 ^ 63) = w + 2 ^ 63 * v + q + x by omega] at this
      rw [hu]
      exact this
    · have e : add64 (add64 x (low (2 ^ 63 + w))) (low (2 ^ 63 + w')) = x + w + w' := by
        rw [low_eq, low_eq, Nat.add_mod_left, Nat.add_mod_left, Nat.mod_eq_of_lt hw, Nat.mod_eq_of_lt hw',
          add64_eq (a := x) (by omega), add64_eq (by omega)]
      simp only [addLoop, more_hi hw, more_hi hw', Bool.not_true, Bool.false_eq_true, if_false]
      have := (ih hr' (x := (x + w + w') / 2 ^ 63) (by omega)).cons (p := 2 ^ 63 + w) (a := (x + w + w') % 2 ^ 63)
        (Nat.mod_lt _ (by decide))
      rw [e, shr63, or_MSB (by omega), show max (s + 1) (s' + 1) = max s s' + 1 by omega]
      rw [← need_cons (Nat.mod_lt _ (by decide)), show (x + w + w') % 2 ^ 63 + 2 ^ 63 * (v + v' + (x + w + w') / 2 ^ 63) =
        w + 2 ^ 63 * v + (w' + 2 ^ 63 * v') + x by omega] at this
      exact this

theorem add_spec {p v s q u t} (h : Num p v s) (hq : Num q u t) :
    Good p (need (max s t) (v + u)) (v + u) (add p q) := addLoop_spec h hq (x := 0) (by omega)

end TdZdd.Big
