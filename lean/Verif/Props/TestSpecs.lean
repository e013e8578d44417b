import Verif.TestSpecs
import Verif.Props.SizeConstraint
import Verif.Props.Cardinality
import Verif.Props.Counting
import Verif.Props.Reducer

/-!
# Property C89: the specifications and evaluators of the test programs
-/

namespace TdZdd

variable {N : Nat}

/-! ## `Combination` -/

/-- binomial coefficients by Pascal's rule -/
def binom : Nat → Nat → Nat
  | _, 0 => 1
  | 0, _ + 1 => 0
  | n + 1, k + 1 => binom n k + binom n (k + 1)

def fact : Nat → Nat
  | 0 => 1
  | n + 1 => fact n * (n + 1)

theorem binom_zero (n : Nat) : binom n 0 = 1 := by cases n <;> rfl

theorem binom_gt : ∀ (n k : Nat), n < k → binom n k = 0 := by
  intro n
  induction n with
  | zero => intro k h; cases k with
    | zero => omega
    | succ k => rfl
  | succ n ih => intro k h; cases k with
    | zero => omega
    | succ k => show binom n k + binom n (k + 1) = 0; rw [ih k (by omega), ih (k + 1) (by omega)]

theorem binom_self (n : Nat) : binom n n = 1 := by
  induction n with
  | zero => rfl
  | succ n ih => show binom n n + binom n (n + 1) = 1; rw [ih, binom_gt n (n + 1) (by omega)]

theorem fact_pos (n : Nat) : 0 < fact n := by
  induction n with
  | zero => decide
  | succ n ih => exact Nat.mul_pos ih (by omega)

theorem binom_fact : ∀ (n k : Nat), k ≤ n → binom n k * (fact k * fact (n - k)) = fact n := by
  intro n
  induction n with
  | zero => intro k h; rw [show k = 0 by omega]; rfl
  | succ n ih =>
    intro k h
    cases k with
    | zero => rw [binom_zero]; show 1 * (1 * fact (n + 1)) = _; rw [Nat.one_mul, Nat.one_mul]
    | succ k =>
      show (binom n k + binom n (k + 1)) * _ = fact n * (n + 1)
      rw [Nat.succ_sub_succ]
      by_cases hk : k = n
      · subst hk
        rw [binom_self, binom_gt k (k + 1) (by omega), Nat.sub_self]
        show 1 * (fact k * (k + 1) * 1) = _
        rw [Nat.one_mul, Nat.mul_one]
      · have h1 := ih k (by omega)
        have h2 := ih (k + 1) (by omega)
        have e1 : fact (n - k) = fact (n - (k + 1)) * (n - k) := by
          rw [show n - k = n - (k + 1) + 1 by omega]; rfl
        have e2 : fact (k + 1) = fact k * (k + 1) := rfl
        have a1 : binom n k * (fact (k + 1) * fact (n - k)) = fact n * (k + 1) := by
          rw [← h1, e2]
          simp only [Nat.mul_assoc, Nat.mul_comm, Nat.mul_left_comm]
        have a2 : binom n (k + 1) * (fact (k + 1) * fact (n - k)) = fact n * (n - k) := by
          rw [← h2, e1]
          simp only [Nat.mul_assoc]
        rw [Nat.add_mul, a1, a2, ← Nat.mul_add]
        congr 1
        omega

section
variable {n : Nat} {k : Int}

theorem comb_child (hn : n < 2 ^ 31) {l : Nat} {s : Int} (b : Fin 2) (h1 : 0 ≤ s) (h2 : s + l ≤ n) (hl : 0 < l) :
    (combination n k).child s l b = if l = 1 then (if s + b.val = k then -1 else 0, s + b.val)
      else if s + b.val > k then (0, s + b.val) else if s + b.val + (l - 1) < k then (0, s + b.val) else ((l : Int) - 1, s + b.val) := by
  have hb := b.isLt
  have e : int32 (s + b.val) = some (s + b.val) := if_pos ⟨by omega, by omega⟩
  have e' : int32 (s + b.val + ((l : Int) - 1)) = some (s + b.val + ((l : Int) - 1)) := if_pos ⟨by omega, by omega⟩
  simp only [combination, e]
  unfold combCode
  rw [e']
  by_cases hl1 : l = 1
  · rw [if_pos (by omega), if_pos hl1]
  · rw [if_neg (by omega), if_neg hl1]

theorem comb_inv (hn : n < 2 ^ 31) {l : Int} {s : Int} (h : Reach (combination n k) l s) : 0 ≤ s ∧ (0 < l → s + l ≤ n) := by
  induction h with
  | root => exact ⟨Int.le_refl 0, fun _ => by show (0 : Int) + (n : Int) ≤ n; omega⟩
  | @step m s b hm _ ih =>
    have hb := b.isLt
    rw [comb_child hn b ih.1 (ih.2 (by omega)) hm]
    have := ih.2 (by omega)
    repeat' split
    all_goals dsimp only; omega

theorem comb_dense (hn : n < 2 ^ 31) (h1 : 1 ≤ n) : Dense (combination n k) n where
  pos := h1
  root := .inr rfl
  child b hl hr := by
    have hi := comb_inv hn hr
    rw [comb_child hn b hi.1 (hi.2 (by omega)) hl]
    repeat' split
    all_goals dsimp only; omega

theorem comb_sat (hn : n < 2 ^ 31) (a : Asg 2) : ∀ (l : Nat) (s : Int), 0 < l → 0 ≤ s → s + l ≤ n →
    (BddSatAt (combination n k) (l : Int) s a ↔ s + sizeOf' a l = k) := by
  intro l
  induction l with
  | zero => intro s h; omega
  | succ l ih =>
    intro s h0 hs hl
    have hle := sizeOf'_le a l
    have hb := (a (l + 1)).isLt
    rw [bddSatAt_pos h0, comb_child hn (a (l + 1)) hs hl h0, sizeOf'_succ]
    by_cases h1 : l = 0
    · subst h1
      rw [if_pos rfl, show sizeOf' a 0 = 0 from rfl]
      dsimp only
      by_cases hk : s + ((a (0 + 1)).val : Int) = k
      · rw [if_pos hk]; exact ⟨fun _ => by omega, fun _ => bddSatAt_neg (by omega)⟩
      · rw [if_neg hk]; exact ⟨fun h => absurd h bddSatAt_zero, fun h => by omega⟩
    · rw [if_neg (by omega)]
      by_cases hk : s + ((a (l + 1)).val : Int) > k
      · rw [if_pos hk]; exact ⟨fun h => absurd h bddSatAt_zero, fun h => by omega⟩
      · rw [if_neg hk]
        by_cases hk2 : s + ((a (l + 1)).val : Int) + (((l + 1 : Nat) : Int) - 1) < k
        · rw [if_pos hk2]; exact ⟨fun h => absurd h bddSatAt_zero, fun h => by omega⟩
        · rw [if_neg hk2]
          dsimp only
          rw [show ((l + 1 : Nat) : Int) - 1 = (l : Int) by omega, ih _ (by omega) (by omega) (by omega)]
          omega

end

/-- C89: `Combination(n, k)` keeps the contract of a specification. -/
theorem C89_combination_lawful (n : Nat) (k : Int) (h1 : 1 ≤ n) (hn : n < 2 ^ 31) : LawfulC (combination n k) ∧ NoMerge (combination n k) ∧
    Dense (combination n k) n :=
  ⟨lawfulC_of_eq (comb_dense hn h1).desc fun n s t => by simp [combination], fun _ _ => rfl, comb_dense hn h1⟩

/-- C89: `Combination(n, k)` accepts exactly the subsets of `1..n` with `k` elements, in both readings. -/
theorem C89_combination (n : Nat) (k : Int) (h1 : 1 ≤ n) (hn : n < 2 ^ 31) (a : Asg 2) :
    (BddSat (combination n k) a ↔ (((List.range n).filter fun j => decide (a (j + 1) = 1)).length : Int) = k) ∧
    (ZddMem (combination n k) n a ↔ (((List.range n).filter fun j => decide (a (j + 1) = 1)).length : Int) = k) := by
  rw [(comb_dense hn h1).mem_iff a, and_self]
  have := comb_sat (k := k) hn a n 0 (by omega) (by omega) (by omega)
  rw [Int.zero_add] at this
  exact this

theorem size_snoc {l : List (Fin 2)} {b : Fin 2} {n : Nat} (h : l.length = n) : sizeOf' (vecAsg (l ++ [b])) (n + 1) = sizeOf' (vecAsg l) n + b.val := by
  rw [sizeOf'_succ, ← h, vecAsg_last]
  congr 1
  unfold sizeOf'
  congr 1
  apply List.filter_congr
  intro j hj
  rw [vecAsg_init (by have := List.mem_range.1 hj; omega)]

/-- the number of subsets of `1..n` with `k` elements -/
theorem size_count : ∀ (n k : Nat), HasCount (fun l : List (Fin 2) => l.length = n ∧ sizeOf' (vecAsg l) n = k) (binom n k) := by
  intro n
  induction n with
  | zero =>
    intro k
    cases k with
    | zero => exact (hasCount_one []).congr fun x => ⟨fun h => ⟨by rw [h]; rfl, rfl⟩, fun h => List.length_eq_zero_iff.1 h.1⟩
    | succ k => exact hasCount_none fun x h => by have : (0 : Nat) = k + 1 := h.2; omega
  | succ n ih =>
    intro k
    have h := hasCount_snoc (N := 1) (n := n) (P := fun b l => sizeOf' (vecAsg l) n + b.val = k) (k := fun b => if b.val ≤ k then binom n (k - b.val) else 0) fun b => by
      split
      · exact (ih (k - b.val)).congr fun l => ⟨fun h => ⟨h.1, by omega⟩, fun h => ⟨h.1, by omega⟩⟩
      · exact hasCount_none fun l h => by omega
    have e : (List.ofFn fun b : Fin 2 => if b.val ≤ k then binom n (k - b.val) else 0).sum = binom (n + 1) k := by
      simp only [List.ofFn_succ, List.ofFn_zero, List.sum_cons, List.sum_nil]
      show (if 0 ≤ k then binom n (k - 0) else 0) + ((if 1 ≤ k then binom n (k - 1) else 0) + 0) = _
      rw [if_pos (Nat.zero_le _)]
      cases k with
      | zero => rw [if_neg (by omega), binom_zero, binom_zero]
      | succ k => rw [if_pos (by omega)]; show binom n (k + 1) + (binom n k + 0) = binom n k + binom n (k + 1); omega
    rw [e] at h
    refine h.congr fun l => ⟨?_, ?_⟩
    · rintro ⟨hl, b, l', rfl, hs⟩
      have : l'.length = n := by simpa using hl
      exact ⟨hl, by rw [size_snoc this]; exact hs⟩
    · rintro ⟨hl, hs⟩
      obtain ⟨l', b, rfl, hl'⟩ := snoc_exists hl
      rw [size_snoc hl'] at hs
      exact ⟨hl, b, l', rfl, hs⟩

/-- C89: `Combination(n, k)` has exactly `n` over `k` members. -/
theorem C89_combination_count (n k : Nat) (h1 : 1 ≤ n) (hn : n < 2 ^ 31) : BddCount (combination n k) n (binom n k) ∧ ZddCount (combination n k) n (binom n k) := by
  have key : ∀ a, (sizeOf' a n = k ↔ ((sizeOf' a n : Nat) : Int) = (k : Int)) := fun a => by omega
  constructor
  · exact (size_count n k).congr fun l => by rw [key, (C89_combination n k h1 hn _).1]; rfl
  · exact (size_count n k).congr fun l => by rw [key, (C89_combination n k h1 hn _).2]; rfl

/-! ## cardinality in built-in number types -/

/-- `rep v` is the representation of the natural number `v`, for numbers with `F` -/
structure NumType.Ok (A : NumType) (rep : Nat → Int) (F : Nat → Prop) : Prop where
  zero : rep 0 = 0
  one : rep 1 = 1
  mono : ∀ {a b}, a ≤ b → F b → F a
  add : ∀ {a b}, F (a + b) → A.add (rep a) (rep b) = some (rep (a + b))
  mul : ∀ {a k}, F (a * k) → F k → A.mul (rep a) k = some (rep (a * k))

theorem u64_ok : u64.Ok (fun v => (v : Int) % 2 ^ 64) (fun _ => True) where
  zero := rfl
  one := rfl
  mono _ _ := trivial
  add {a b} _ := by
    show some (((a : Int) % 2 ^ 64 + (b : Int) % 2 ^ 64) % 2 ^ 64) = some (((a + b : Nat) : Int) % 2 ^ 64)
    rw [← Int.add_emod, Int.natCast_add]
  mul {a k} _ _ := by
    show some ((a : Int) % 2 ^ 64 * (k : Int) % 2 ^ 64) = some (((a * k : Nat) : Int) % 2 ^ 64)
    rw [Int.mul_emod, Int.emod_emod_of_dvd _ (Int.dvd_refl _), ← Int.mul_emod, Int.natCast_mul]

theorem i32_ok : i32.Ok (fun v => (v : Int)) (fun v => v < 2 ^ 31) where
  zero := rfl
  one := rfl
  mono h h' := Nat.lt_of_le_of_lt h h'
  add {a b} h := by
    show int32 ((a : Int) + (b : Int)) = _
    rw [← Int.natCast_add]
    exact if_pos ⟨by omega, by omega⟩
  mul {a k} h _ := by
    show int32 ((a : Int) * (k : Int)) = _
    rw [← Int.natCast_mul]
    exact if_pos ⟨by omega, by omega⟩

section
variable {A : NumType} {rep : Nat → Int} {F : Nat → Prop}

theorem NumType.Ok.mulTimes (h : A.Ok rep F) {k : Nat} (hk : 1 ≤ k) (hk' : F k) : ∀ (m v : Nat), F (v * k ^ m) → A.mulTimes k m (rep v) = some (rep (v * k ^ m)) := by
  intro m
  induction m with
  | zero => intro v _; rw [Nat.pow_zero, Nat.mul_one]; rfl
  | succ m ih =>
    intro v hv
    have e : v * k ^ (m + 1) = v * k * k ^ m := by rw [Nat.pow_succ, Nat.mul_assoc, Nat.mul_comm (k ^ m)]
    rw [e] at hv ⊢
    have : v * k ≤ v * k * k ^ m := Nat.le_mul_of_pos_right _ (Nat.pow_pos (by omega))
    show (A.mul (rep v) k).bind _ = _
    rw [h.mul (h.mono this hv) hk', Option.bind_some]
    exact ih _ hv

theorem NumType.Ok.fold (h : A.Ok rep F) {α : Type} (f : α → Option Int) (g : α → Nat) : ∀ (l : List α) (acc : Nat), F (acc + (l.map g).sum) →
    (∀ x ∈ l, f x = some (rep (g x))) → l.foldlM (fun acc b => (f b).bind (A.add acc)) (rep acc) = some (rep (acc + (l.map g).sum)) := by
  intro l
  induction l with
  | nil => intro acc _ _; rfl
  | cons x l ih =>
    intro acc hF hf
    rw [List.map_cons, List.sum_cons, ← Nat.add_assoc] at hF ⊢
    rw [List.foldlM_cons, hf x (.head _)]
    show ((A.add (rep acc) (rep (g x))).bind _) = _
    rw [h.add (h.mono (Nat.le_add_right _ _) hF)]
    exact ih _ hF fun y hy => hf y (.tail _ hy)

theorem sum_le_mul {α : Type} (g : α → Nat) (M : Nat) : ∀ l : List α, (∀ x ∈ l, g x ≤ M) → (l.map g).sum ≤ l.length * M := by
  intro l
  induction l with
  | nil => intro _; exact Nat.zero_le _
  | cons x l ih =>
    intro h
    rw [List.map_cons, List.sum_cons, List.length_cons, Nat.succ_mul]
    have := h x (.head _)
    have := ih fun y hy => h y (.tail _ hy)
    omega

/-- the recursion of the unbounded numbers -/
def cardNv (bdd : Bool) (i : Nat) (vs : Fin (N + 1) → Nat × Nat) : Nat :=
  (List.ofFn fun b => if bdd then (vs b).1 * (N + 1) ^ (i - (vs b).2 - 1) else (vs b).1).sum

theorem cardBase_sim (h : A.Ok rep F) (bdd : Bool) (nv : Int) (n : Nat) (hF : F ((N + 1) ^ n)) :
    (cardBase A (N + 1) bdd nv).Sim n (fun s => s = n) (fun r t v => t = rep v ∧ v ≤ (N + 1) ^ r) (fun j => if j ≠ 0 then 1 else 0) (cardNv bdd) where
  start := rfl
  term {s j} hs _ := by
    refine ⟨s, _, rfl, hs, ?_⟩
    by_cases hj : j = 0
    · rw [if_neg (by omega), if_neg (by omega)]; exact ⟨h.zero.symm, Nat.zero_le _⟩
    · rw [if_pos hj, if_pos hj]; exact ⟨h.one.symm, Nat.le_refl _⟩
  node {s i vals vs} hs h1 h2 hv := by
    let g : Fin (N + 1) → Nat := fun b => if bdd then vs b * (N + 1) ^ (i - (vals b).2 - 1) else vs b
    have hg : ∀ b, g b ≤ (N + 1) ^ (i - 1) := by
      intro b
      obtain ⟨⟨_, k1⟩, k2⟩ := hv b
      show (if bdd then _ else _) ≤ _
      split
      · refine Nat.le_trans (Nat.mul_le_mul_right _ k1) ?_
        rw [← Nat.pow_add]
        exact Nat.pow_le_pow_right (by omega) (by omega)
      · exact Nat.le_trans k1 (Nat.pow_le_pow_right (by omega) (by omega))
    have hsum : ((List.finRange (N + 1)).map g).sum ≤ (N + 1) ^ i := by
      have := sum_le_mul g _ (List.finRange (N + 1)) fun b _ => hg b
      rw [List.length_finRange, Nat.mul_comm, ← Nat.pow_succ, show (i - 1).succ = i by omega] at this
      exact this
    have hFi : F ((N + 1) ^ i) := h.mono (Nat.pow_le_pow_right (by omega) h2) hF
    have hFN : F (N + 1) := h.mono (by
      have : (N + 1) ^ 1 ≤ (N + 1) ^ i := Nat.pow_le_pow_right (by omega) h1
      rwa [Nat.pow_one] at this) hFi
    have ht : ∀ b ∈ List.finRange (N + 1), cardTerm A (N + 1) bdd i (vals b) = some (rep (g b)) := by
      intro b _
      obtain ⟨⟨k0, k1⟩, k2⟩ := hv b
      have hgb := hg b
      unfold cardTerm
      rw [k0]
      show (if bdd = true then _ else _) = some (rep (if bdd = true then _ else _))
      cases bdd with
      | true =>
        rw [if_pos rfl, if_pos rfl]
        refine h.mulTimes (by omega) hFN _ _ (h.mono ?_ hFi)
        exact Nat.le_trans hgb (Nat.pow_le_pow_right (by omega) (by omega))
      | false => rfl
    have hfold := h.fold (fun b => cardTerm A (N + 1) bdd i (vals b)) g (List.finRange (N + 1)) 0 (by rw [Nat.zero_add]; exact h.mono hsum hFi) ht
    rw [h.zero, Nat.zero_add] at hfold
    refine ⟨s, _, ?_, hs, rfl, ?_⟩
    · show Option.map _ (List.foldlM _ _ _) = _
      rw [hfold]
      unfold cardNv
      rw [ofFn_eq_map_finRange]
      rfl
    · unfold cardNv
      rw [ofFn_eq_map_finRange]
      exact hsum
  clean hs _ _ := hs

theorem card_general (h : A.Ok rep F) (D : Dd (N + 1)) (hw : D.Wf) (h0 : D.table.row 0 = terminalRow (N + 1)) (hr : 0 < D.table.numRows)
    (sched : Nat → List (Nat × Nat)) (hs : EvSched D sched) (n : Nat) (hn : D.root.row ≤ n) (hF : F ((N + 1) ^ n)) :
    (∃ c, ZddCount D.spec n c ∧ D.evaluate (cardBase A (N + 1) false 0) sched = some (rep c)) ∧
    ∃ c, BddCount D.spec n c ∧ D.evaluate (cardBase A (N + 1) true n) sched = some (rep c) := by
  have hFr : F ((N + 1) ^ D.root.row) := h.mono (Nat.pow_le_pow_right (by omega) hn) hF
  have tv : ∀ {bdd v}, FoldVal D.table (fun j => if j ≠ 0 then 1 else 0) (cardNv bdd) D.root v → FoldVal D.table (fun j => j) (cardNv bdd) D.root v := by
    intro bdd v hf
    have : ∀ {f v}, FoldVal D.table (fun j => if j ≠ 0 then 1 else 0) (cardNv bdd) f v → D.table.Valid f → FoldVal D.table (fun j => j) (cardNv bdd) f v := by
      intro f v hf
      induction hf with
      | @term f hf0 =>
        intro hv
        have e : (if f.col ≠ 0 then 1 else 0) = f.col := by
          rcases hv.row0 hf0 with e | e <;> rw [e] <;> rfl
        rw [e]
        exact .term hf0
      | @node f nd vs hf0 hn _ ih =>
        intro _
        exact .node hf0 hn fun b => ih b (hw.table.child hf0 hn b).1
    exact this hf hw.root
  constructor
  · obtain ⟨s, t, v, e, _, ⟨ht, _⟩, hf⟩ := C29_evaluate_state D hw h0 hr (cardBase_sim h false 0 D.root.row hFr) sched hs
    refine ⟨v, (zddCount_iff hw hn).2 (tv hf), ?_⟩
    rw [e, ht]
    rfl
  · obtain ⟨s, t, v, e, hP, ⟨ht, hv⟩, hf⟩ := C29_evaluate_state D hw h0 hr (cardBase_sim h true n D.root.row hFr) sched hs
    refine ⟨_, (bddCount_iff hw hn).2 ⟨v, tv hf, rfl⟩, ?_⟩
    have hle : v * (N + 1) ^ (n - D.root.row) ≤ (N + 1) ^ n := by
      refine Nat.le_trans (Nat.mul_le_mul_right _ hv) ?_
      rw [← Nat.pow_add]
      exact Nat.pow_le_pow_right (by omega) (by omega)
    rw [e, ht]
    show (if true = true then A.mulTimes ((N + 1 : Nat) : Int) ((n : Int) - (s : Int)).toNat (rep v) else some (rep v)) = _
    rw [if_pos rfl, hP, show ((n : Int) - (D.root.row : Int)).toNat = n - D.root.row by omega]
    by_cases hn0 : n = 0
    · have : n - D.root.row = 0 := by omega
      rw [this, Nat.pow_zero, Nat.mul_one]
      rfl
    · refine h.mulTimes (by omega) (h.mono ?_ hF) _ _ (h.mono hle hF)
      have : (N + 1) ^ 1 ≤ (N + 1) ^ n := Nat.pow_le_pow_right (by omega) (by omega)
      rwa [Nat.pow_one] at this

end

/-- C89: `evaluate(ZddCardinality<uint64_t>())` and `evaluate(BddCardinality<uint64_t>(n))` are the cardinalities modulo `2^64`. -/
theorem C89_cardinality_u64 (D : Dd (N + 1)) (hw : D.Wf) (h0 : D.table.row 0 = terminalRow (N + 1)) (hr : 0 < D.table.numRows)
    (sched : Nat → List (Nat × Nat)) (hs : EvSched D sched) (n : Nat) (hn : D.root.row ≤ n) :
    (∃ c, ZddCount D.spec n c ∧ D.evaluate (cardBase u64 (N + 1) false 0) sched = some ((c : Int) % 2 ^ 64)) ∧
    ∃ c, BddCount D.spec n c ∧ D.evaluate (cardBase u64 (N + 1) true n) sched = some ((c : Int) % 2 ^ 64) :=
  card_general (F := fun _ => True) u64_ok D hw h0 hr sched hs n hn trivial

/-- C89: with `int` they are exact and nothing overflows if there are less than `2^31` assignments. -/
theorem C89_cardinality_int (D : Dd (N + 1)) (hw : D.Wf) (h0 : D.table.row 0 = terminalRow (N + 1)) (hr : 0 < D.table.numRows)
    (sched : Nat → List (Nat × Nat)) (hs : EvSched D sched) (n : Nat) (hn : D.root.row ≤ n) (hF : (N + 1) ^ n < 2 ^ 31) :
    (∃ c : Nat, ZddCount D.spec n c ∧ D.evaluate (cardBase i32 (N + 1) false 0) sched = some (c : Int)) ∧
    ∃ c : Nat, BddCount D.spec n c ∧ D.evaluate (cardBase i32 (N + 1) true n) sched = some (c : Int) :=
  card_general i32_ok D hw h0 hr sched hs n hn hF

/-! ## the test of `Combination` -/

theorem binom_le : ∀ n k : Nat, binom n k ≤ 2 ^ n := by
  intro n
  induction n with
  | zero => intro k; cases k with
    | zero => decide
    | succ k => exact Nat.zero_le _
  | succ n ih => intro k; cases k with
    | zero => rw [binom_zero]; exact Nat.pow_pos (by decide)
    | succ k =>
      have h1 := ih k
      have h2 := ih (k + 1)
      show binom n k + binom n (k + 1) ≤ _
      rw [Nat.pow_succ]
      omega

theorem fact_mono {m n : Nat} (h : m ≤ n) : fact m ≤ fact n := by
  induction n with
  | zero => rw [show m = 0 by omega]; exact Nat.le_refl _
  | succ n ih =>
    by_cases e : m = n + 1
    · rw [e]; exact Nat.le_refl _
    · exact Nat.le_trans (ih (by omega)) (Nat.le_mul_of_pos_right _ (by omega))

theorem fact64_eq {n : Nat} (h : n ≤ 20) : fact64 n = fact n := by
  induction n with
  | zero => rfl
  | succ n ih =>
    show fact64 n * (n + 1) % 2 ^ 64 = fact n * (n + 1)
    rw [ih (by omega)]
    apply Nat.mod_eq_of_lt
    have : fact (n + 1) ≤ fact 20 := fact_mono h
    exact Nat.lt_of_le_of_lt this (by decide)

/-- C89: the test of `Combination` in `example1.cpp` never fails. -/
theorem C89_example1 (n k : Nat) (h1 : 1 ≤ n) (hn : n ≤ 20) (hk : k ≤ n) : example1Body n k = some true := by
  obtain ⟨hl, hm, hd⟩ := C89_combination_lawful n k h1 (by omega)
  obtain ⟨cb, cz⟩ := C89_combination_count n k h1 (by omega)
  obtain ⟨D, lab, e1, hs, hnr, ht, hlive, _⟩ := build_main hl.lawful
  have hw := hs.wf hl.toDesc
  have hrow : D.root.row ≤ n := by
    have hr := hd.root
    have hp := hd.pos
    rcases hs.root with ⟨e, _⟩ | ⟨e, _⟩ | ⟨_, e, _⟩
    · rw [e]; exact Nat.zero_le _
    · rw [e]; exact Nat.zero_le _
    · omega
  have hacc : ∀ p, Accepts D.spec D.spec.root.1 D.spec.root.2 p ↔ Accepts (combination n k) (combination n k).root.1 (combination n k).root.2 p :=
    fun p => ⟨hs.sub, hs.sup hm⟩
  have hsat := bddSat_congr hacc
  have hmem := zddMem_congr hacc n
  obtain ⟨Z, e4, hZ⟩ := zddReduce_spec hw
  have wZ := hZ.wf hw
  have mZ := hZ.zddMem hw n hrow
  obtain ⟨⟨c2, k2, e2⟩, c1, k1, e1'⟩ := C89_cardinality_u64 D hw ht (by rw [hnr]; omega) _ (seqSched_ok D) n hrow
  obtain ⟨⟨c3, k3, e3⟩, _⟩ := C89_cardinality_u64 Z wZ hZ.2.1 (by rw [hZ.1, hnr]; omega) _ (seqSched_ok Z) n (Nat.le_trans (hZ.root_row hw) hrow)
  have q1 : c1 = binom n k := HasCount.unique k1 (cb.congr fun l => by rw [hsat])
  have q2 : c2 = binom n k := HasCount.unique k2 (cz.congr fun l => by rw [hmem])
  have q3 : c3 = binom n k := HasCount.unique k3 (cz.congr fun l => by rw [mZ, hmem])
  have hf := binom_fact n k hk
  have p1 := fact_pos k
  have p2 := fact_pos (n - k)
  have pp : 0 < fact k * fact (n - k) := Nat.mul_pos p1 p2
  have hle : fact k * fact (n - k) ≤ fact n := by
    rw [← hf]
    refine Nat.le_mul_of_pos_left _ ?_
    apply Nat.pos_of_ne_zero
    intro e
    rw [e, Nat.zero_mul] at hf
    have := fact_pos n
    omega
  have hlt : fact n < 2 ^ 64 := Nat.lt_of_le_of_lt (fact_mono hn) (by decide)
  have hdiv : fact n / (fact k * fact (n - k)) = binom n k := by
    rw [← hf]; exact Nat.mul_div_cancel _ pp
  have hb : binom n k ≤ 2 ^ 20 := Nat.le_trans (binom_le n k) (Nat.pow_le_pow_right (by decide) hn)
  have ans : toInt32 (binom n k) = (binom n k : Int) := by
    unfold toInt32
    rw [Nat.mod_eq_of_lt (by omega), if_pos (by omega)]
  unfold example1Body
  rw [fact64_eq hn, fact64_eq (show k ≤ 20 by omega), fact64_eq (show n - k ≤ 20 by omega), Nat.mod_eq_of_lt (by omega), if_neg (by omega), hdiv, ans, e1,
    Option.bind_some, e1', Option.bind_some, q1, e2, q2]
  have t : eqIntU64 (binom n k) ((binom n k : Int) % 2 ^ 64) = true := by simp [eqIntU64]
  rw [t, if_neg (fun h => Bool.noConfusion h), Option.bind_some, t, if_neg (fun h => Bool.noConfusion h), e4, Option.bind_some, e3, Option.bind_some, q3, t]

/-! ## `MinNumItems` and `MaxNumItems` -/

theorem minNum_sim (n : Nat) : minNumItems.Sim n (fun _ => True) (fun _ t v => t = v ∧ 0 ≤ v ∧ v ≤ 2 ^ 31 - 2) (fun j => if j ≠ 0 then 0 else 2 ^ 31 - 2)
    (fun _ vs => min (vs 0).1 ((vs 1).1 + 1)) where
  start := trivial
  term {s j} _ _ := by
    refine ⟨(), _, rfl, trivial, rfl, ?_⟩
    split <;> omega
  node {s i vals vs} _ _ _ hv := by
    obtain ⟨⟨a0, a1, a2⟩, _⟩ := hv 0
    obtain ⟨⟨b0, b1, b2⟩, _⟩ := hv 1
    refine ⟨(), min (vals 0).1 ((vals 1).1 + 1), ?_, trivial, ?_, ?_⟩
    · show (int32 ((vals 1).1 + 1)).map _ = _
      rw [show int32 ((vals 1).1 + 1) = some ((vals 1).1 + 1) from if_pos ⟨by omega, by omega⟩]
      rfl
    · rw [a0, b0]
    · dsimp only; omega
  clean _ _ _ := trivial

theorem maxNum_sim (n : Nat) (hn : n < 2 ^ 31) : maxNumItems.Sim n (fun _ => True) (fun r t v => t = v ∧ -2 ^ 31 ≤ v ∧ v ≤ r) (fun j => if j ≠ 0 then 0 else -2 ^ 31)
    (fun _ vs => max (vs 0).1 ((vs 1).1 + 1)) where
  start := trivial
  term {s j} _ _ := by
    refine ⟨(), _, rfl, trivial, rfl, ?_⟩
    split <;> omega
  node {s i vals vs} _ _ hi hv := by
    obtain ⟨⟨a0, a1, a2⟩, a3⟩ := hv 0
    obtain ⟨⟨b0, b1, b2⟩, b3⟩ := hv 1
    refine ⟨(), max (vals 0).1 ((vals 1).1 + 1), ?_, trivial, ?_, ?_⟩
    · show (int32 ((vals 1).1 + 1)).map _ = _
      rw [show int32 ((vals 1).1 + 1) = some ((vals 1).1 + 1) from if_pos ⟨by omega, by omega⟩]
      rfl
    · rw [a0, b0]
    · dsimp only; omega
  clean _ _ _ := trivial

theorem sizeOf'_zero (a : Asg 2) (m : Nat) : ∀ m', m ≤ m' → (∀ j, m < j → j ≤ m' → (a j).val = 0) → sizeOf' a m' = sizeOf' a m := by
  intro m'
  induction m' with
  | zero => intro h _; rw [show m = 0 by omega]
  | succ m' ih =>
    intro h hz
    by_cases e : m = m' + 1
    · rw [e]
    · rw [sizeOf'_succ, hz (m' + 1) (by omega) (Nat.le_refl _), ih (by omega) fun j h1 h2 => hz j h1 (by omega)]
      rfl

theorem sizeOf'_congr {a a' : Asg 2} {m : Nat} (h : ∀ j, 1 ≤ j → j ≤ m → a j = a' j) : sizeOf' a m = sizeOf' a' m := by
  unfold sizeOf'
  congr 1
  apply List.filter_congr
  intro j hj
  rw [h (j + 1) (by omega) (by have := List.mem_range.1 hj; omega)]

/-- the sizes of the members below a node -/
def HasSize (T : Table 2) (m : Nat) (f : NodeId) (s : Nat) : Prop := ∃ a, TMem T m f a ∧ sizeOf' a m = s

theorem hasSize_raise {T : Table 2} (hw : T.Wf) {m m' : Nat} {f : NodeId} (hl : f.row ≤ m) (hmm : m ≤ m') (s : Nat) : HasSize T m' f s ↔ HasSize T m f s := by
  constructor
  · rintro ⟨a, h, e⟩
    obtain ⟨hz, h⟩ := (tmem_raise hw hl hmm).1 h
    exact ⟨a, h, by rw [← sizeOf'_zero a m m' hmm hz]; exact e⟩
  · rintro ⟨a, h, e⟩
    let a' : Asg 2 := fun j => if j ≤ m then a j else 0
    have hz : ∀ j, m < j → j ≤ m' → (a' j).val = 0 := fun j h1 _ => by show (if j ≤ m then a j else 0 : Fin 2).val = 0; rw [if_neg (by omega)]; rfl
    have hc : ∀ j, 1 ≤ j → j ≤ m → a j = a' j := fun j _ h2 => by show _ = (if j ≤ m then a j else 0); rw [if_pos h2]
    refine ⟨a', (tmem_raise hw hl hmm).2 ⟨hz, tmem_congr hw hl hc h⟩, ?_⟩
    rw [sizeOf'_zero a' m m' hmm hz, ← sizeOf'_congr hc, e]

theorem hasSize_node {T : Table 2} (hw : T.Wf) {f : NodeId} {nd : Node 2} (h0 : 0 < f.row) (hn : T.node? f = some nd) (s : Nat) :
    HasSize T f.row f s ↔ HasSize T (nd 0).row (nd 0) s ∨ ∃ s', s = s' + 1 ∧ HasSize T (nd 1).row (nd 1) s' := by
  have r0 := (hw.child h0 hn 0).2
  have r1 := (hw.child h0 hn 1).2
  have hs : ∀ a : Asg 2, sizeOf' a f.row = sizeOf' a (f.row - 1) + (a f.row).val := fun a => by
    have := sizeOf'_succ a (f.row - 1)
    rwa [show f.row - 1 + 1 = f.row by omega] at this
  rw [← hasSize_raise hw (Nat.le_refl _) (show (nd 0).row ≤ f.row - 1 by omega)]
  simp only [← hasSize_raise hw (Nat.le_refl (nd 1).row) (show (nd 1).row ≤ f.row - 1 by omega)]
  constructor
  · rintro ⟨a, h, e⟩
    rw [tmem_node h0 hn] at h
    rw [hs] at e
    rcases fin2_cases (a f.row) with ea | ea
    · rw [ea] at h e; exact .inl ⟨a, h, by simpa using e⟩
    · rw [ea] at h e; exact .inr ⟨_, e.symm, a, h, rfl⟩
  · have key : ∀ (b : Fin 2) (a : Asg 2), TMem T (f.row - 1) (nd b) a → HasSize T f.row f (sizeOf' a (f.row - 1) + b.val) := by
      intro b a h
      let a' : Asg 2 := fun j => if j = f.row then b else a j
      have hc : ∀ j, 1 ≤ j → j ≤ f.row - 1 → a j = a' j := fun j _ h2 => by show _ = (if j = f.row then b else a j); rw [if_neg (by omega)]
      have hb : a' f.row = b := if_pos rfl
      refine ⟨a', (tmem_node h0 hn).2 ?_, ?_⟩
      · rw [hb]; exact tmem_congr hw (by have := (hw.child h0 hn b).2; omega) hc h
      · rw [hs, hb, sizeOf'_congr hc]
    rintro (⟨a, h, e⟩ | ⟨s', e, a, h, e'⟩)
    · have := key 0 a h
      rw [e] at this
      exact this
    · have := key 1 a h
      rw [e'] at this
      rw [e]
      exact this

theorem hasSize_le {T : Table 2} {m : Nat} {f : NodeId} {s : Nat} (h : HasSize T m f s) : s ≤ m := by
  obtain ⟨a, _, rfl⟩ := h
  exact sizeOf'_le a m

theorem hasSize_term {T : Table 2} {f : NodeId} (hv : T.Valid f) (h0 : f.row = 0) (s : Nat) : HasSize T f.row f s ↔ f.col ≠ 0 ∧ s = 0 := by
  rw [h0]
  have hf : f = .zero ∨ f = .one := by
    exact hv.row0 h0
  rcases hf with e | e
  · rw [e]
    exact ⟨fun ⟨a, h, _⟩ => absurd h not_tmem_zero, fun h => absurd rfl h.1⟩
  · rw [e]
    refine ⟨fun ⟨a, h, e⟩ => ⟨by decide, e.symm⟩, fun h => ⟨fun _ => 0, tmem_one.2 fun j h1 h2 => by omega, h.2.symm⟩⟩

theorem minNum_val {T : Table 2} (hw : T.Wf) {f : NodeId} {v : Int}
    (h : FoldVal T (fun j => if j ≠ 0 then 0 else 2 ^ 31 - 2) (fun _ vs => min (vs 0).1 ((vs 1).1 + 1)) f v) : T.Valid f → f.row < 2 ^ 31 - 1 →
    (∀ s, HasSize T f.row f s → v ≤ s) ∧ ((∃ s : Nat, (s : Int) = v ∧ HasSize T f.row f s) ∨ v = 2 ^ 31 - 2 ∧ ∀ s, ¬ HasSize T f.row f s) := by
  induction h with
  | @term f h0 =>
    intro hv _
    simp only [hasSize_term hv h0]
    by_cases hc : f.col = 0
    · rw [if_neg (by omega)]
      exact ⟨fun s h => absurd hc h.1, .inr ⟨rfl, fun s h => h.1 hc⟩⟩
    · rw [if_pos hc]
      exact ⟨fun s h => by omega, .inl ⟨0, rfl, hc, rfl⟩⟩
  | @node f nd vs h0 hn _ ih =>
    intro _ hr
    have c0 := hw.child h0 hn 0
    have c1 := hw.child h0 hn 1
    obtain ⟨a1, a2⟩ := ih 0 c0.1 (by omega)
    obtain ⟨b1, b2⟩ := ih 1 c1.1 (by omega)
    simp only [hasSize_node hw h0 hn]
    constructor
    · rintro s (h | ⟨s', rfl, h⟩)
      · have := a1 s h; omega
      · have := b1 s' h; omega
    · rcases a2 with ⟨s0, e0, h0'⟩ | ⟨e0, n0⟩
      · have l0 := hasSize_le h0'
        rcases b2 with ⟨s1, e1, h1'⟩ | ⟨e1, n1⟩
        · by_cases hc : s0 ≤ s1 + 1
          · exact .inl ⟨s0, by omega, .inl h0'⟩
          · exact .inl ⟨s1 + 1, by omega, .inr ⟨s1, rfl, h1'⟩⟩
        · exact .inl ⟨s0, by omega, .inl h0'⟩
      · rcases b2 with ⟨s1, e1, h1'⟩ | ⟨e1, n1⟩
        · have l1 := hasSize_le h1'
          exact .inl ⟨s1 + 1, by omega, .inr ⟨s1, rfl, h1'⟩⟩
        · refine .inr ⟨by omega, fun s h => ?_⟩
          rcases h with h | ⟨s', _, h⟩
          · exact n0 s h
          · exact n1 s' h

theorem maxNum_val {T : Table 2} (hw : T.Wf) {f : NodeId} {v : Int}
    (h : FoldVal T (fun j => if j ≠ 0 then 0 else -2 ^ 31) (fun _ vs => max (vs 0).1 ((vs 1).1 + 1)) f v) : T.Valid f → f.row < 2 ^ 31 →
    (∀ s : Nat, HasSize T f.row f s → s ≤ v) ∧ ((∃ s : Nat, (s : Int) = v ∧ HasSize T f.row f s) ∨ v ≤ -2 ^ 31 + f.row ∧ ∀ s, ¬ HasSize T f.row f s) := by
  induction h with
  | @term f h0 =>
    intro hv _
    simp only [hasSize_term hv h0]
    by_cases hc : f.col = 0
    · rw [if_neg (by omega)]
      exact ⟨fun s h => absurd hc h.1, .inr ⟨by omega, fun s h => h.1 hc⟩⟩
    · rw [if_pos hc]
      exact ⟨fun s h => by omega, .inl ⟨0, rfl, hc, rfl⟩⟩
  | @node f nd vs h0 hn _ ih =>
    intro _ hr
    have c0 := hw.child h0 hn 0
    have c1 := hw.child h0 hn 1
    obtain ⟨a1, a2⟩ := ih 0 c0.1 (by omega)
    obtain ⟨b1, b2⟩ := ih 1 c1.1 (by omega)
    simp only [hasSize_node hw h0 hn]
    constructor
    · rintro s (h | ⟨s', rfl, h⟩)
      · have := a1 s h; omega
      · have := b1 s' h; omega
    · rcases a2 with ⟨s0, e0, h0'⟩ | ⟨e0, n0⟩
      · rcases b2 with ⟨s1, e1, h1'⟩ | ⟨e1, n1⟩
        · by_cases hc : s1 + 1 ≤ s0
          · exact .inl ⟨s0, by omega, .inl h0'⟩
          · exact .inl ⟨s1 + 1, by omega, .inr ⟨s1, rfl, h1'⟩⟩
        · exact .inl ⟨s0, by omega, .inl h0'⟩
      · rcases b2 with ⟨s1, e1, h1'⟩ | ⟨e1, n1⟩
        · exact .inl ⟨s1 + 1, by omega, .inr ⟨s1, rfl, h1'⟩⟩
        · refine .inr ⟨by omega, fun s h => ?_⟩
          rcases h with h | ⟨s', _, h⟩
          · exact n0 s h
          · exact n1 s' h

theorem hasSize_spec {D : Dd 2} (hw : D.Wf) {n : Nat} (hn : D.root.row ≤ n) (s : Nat) :
    HasSize D.table D.root.row D.root s ↔ ∃ a, ZddMem D.spec n a ∧ sizeOf' a n = s := by
  rw [← hasSize_raise hw.table (Nat.le_refl _) hn]
  simp only [HasSize, hw.zddMem_iff]

/-- C89: `MinNumItems` never overflows; its value is the size of a smallest member, or `INT_MAX - 1` if there is none. -/
theorem C89_minNumItems (D : Dd 2) (hw : D.Wf) (h0 : D.table.row 0 = terminalRow 2) (hr : 0 < D.table.numRows) (sched : Nat → List (Nat × Nat))
    (hs : EvSched D sched) (n : Nat) (hn : D.root.row ≤ n) (hi : D.root.row < 2 ^ 31 - 1) : ∃ v, D.evaluate minNumItems sched = some v ∧
    (∀ a, ZddMem D.spec n a → v ≤ ((List.range n).filter fun j => decide (a (j + 1) = 1)).length) ∧
    ((∃ a, ZddMem D.spec n a ∧ (((List.range n).filter fun j => decide (a (j + 1) = 1)).length : Int) = v) ∨
      v = 2 ^ 31 - 2 ∧ ∀ a, ¬ ZddMem D.spec n a) := by
  obtain ⟨s, t, v, e, _, ⟨ht, _⟩, hf⟩ := C29_evaluate_state D hw h0 hr (minNum_sim _) sched hs
  obtain ⟨k1, k2⟩ := minNum_val hw.table hf hw.root hi
  simp only [hasSize_spec hw hn] at k1 k2
  refine ⟨v, by rw [e, ht]; rfl, fun a h => k1 _ ⟨a, h, rfl⟩, ?_⟩
  rcases k2 with ⟨s, e, a, h, e'⟩ | ⟨e, h⟩
  · exact .inl ⟨a, h, by rw [← e, ← e']; rfl⟩
  · exact .inr ⟨e, fun a ha => h _ ⟨a, ha, rfl⟩⟩

/-- C89: `MaxNumItems` never overflows; its value is the size of a largest member, or negative if there is none. -/
theorem C89_maxNumItems (D : Dd 2) (hw : D.Wf) (h0 : D.table.row 0 = terminalRow 2) (hr : 0 < D.table.numRows) (sched : Nat → List (Nat × Nat))
    (hs : EvSched D sched) (n : Nat) (hn : D.root.row ≤ n) (hi : D.root.row < 2 ^ 31) : ∃ v, D.evaluate maxNumItems sched = some v ∧
    (∀ a, ZddMem D.spec n a → ((List.range n).filter fun j => decide (a (j + 1) = 1)).length ≤ v) ∧
    ((∃ a, ZddMem D.spec n a ∧ (((List.range n).filter fun j => decide (a (j + 1) = 1)).length : Int) = v) ∨
      v ≤ -2 ^ 31 + D.root.row ∧ ∀ a, ¬ ZddMem D.spec n a) := by
  obtain ⟨s, t, v, e, _, ⟨ht, _⟩, hf⟩ := C29_evaluate_state D hw h0 hr (maxNum_sim _ hi) sched hs
  obtain ⟨k1, k2⟩ := maxNum_val hw.table hf hw.root hi
  simp only [hasSize_spec hw hn] at k1 k2
  refine ⟨v, by rw [e, ht]; rfl, fun a h => k1 _ ⟨a, h, rfl⟩, ?_⟩
  rcases k2 with ⟨s, e, a, h, e'⟩ | ⟨e, h⟩
  · exact .inl ⟨a, h, by rw [← e, ← e']; rfl⟩
  · exact .inr ⟨e, fun a ha => h _ ⟨a, ha, rfl⟩⟩

/-! ## `issue007.cpp` -/

/-- C89: the test of `issue007.cpp` never fails, for every arity. -/
theorem C89_issue007 (N : Nat) : ((build (issue007 (N + 1))).bind fun A => (build (issue007 (N + 1))).bind fun B => ddEq false A B) = some true := by
  have hl : LawfulC (issue007 (N + 1)) := lawfulC_of_eq ⟨by show (-1 : Int) ≤ 1; decide, fun b hl _ => by show (0 : Int) < _; omega, fun b _ _ => by show (-1 : Int) ≤ 0; decide⟩ fun n s t => by simp [issue007]
  obtain ⟨D, lab, e1, hs, hnr, ht, hlive, _⟩ := build_main hl.lawful
  have hw := hs.wf hl.toDesc
  obtain ⟨r, e, _, h2⟩ := C15_eq false D D hw hw ht ht (fun h => nomatch h)
  have hu : D.table.Unique := by
    intro f g nd h0 hr hf hg
    obtain ⟨s, l1, _⟩ := hs.node h0 hf
    obtain ⟨s', l2, _⟩ := hs.node (by omega) hg
    exact hs.uniq (fun _ _ => rfl) l1 l2 hr rfl
  rw [e1, Option.bind_some, Option.bind_some, e, (h2 hu hu).2 (Iso.refl hw.table _ (Nat.le_refl _) hw.root)]

/-! ## examples -/

example : BddCount (combination 6 3) 6 20 ∧ ZddCount (combination 6 3) 6 20 := C89_combination_count 6 3 (by decide) (by decide)

/-- `{2, 5}` is a member of `Combination(5, 2)`, `{2, 3, 5}` is not -/
example : ZddMem (combination 5 2) 5 (fun j => if j = 2 ∨ j = 5 then 1 else 0) ∧ ¬ ZddMem (combination 5 2) 5 (fun j => if j = 2 ∨ j = 3 ∨ j = 5 then 1 else 0) :=
  ⟨(C89_combination 5 2 (by decide) (by decide) _).2.2 (by decide), fun h => absurd ((C89_combination 5 2 (by decide) (by decide) _).2.1 h) (by decide)⟩

/-- outside of the bounds of `C89_combination` signed overflow is possible: `state + level` with `k > n` near `INT_MAX` -/
example : ((combination (2 ^ 31) (2 ^ 31 - 1)).child 1 (2 ^ 31) 1).1 = ubCode (2 ^ 31) := by decide +kernel

example : example1Body 20 10 = some true := C89_example1 20 10 (by decide) (by decide) (by decide)

/-- members `{1}`, `{1, 2}`, `{3}` -/
example : dupDd.evaluate minNumItems (seqSched dupDd) = some 1 ∧ dupDd.evaluate maxNumItems (seqSched dupDd) = some 2 ∧
    dupDd.evaluate (cardBase u64 2 false 0) (seqSched dupDd) = some 3 ∧ dupDd.evaluate (cardBase i32 2 true 5) (seqSched dupDd) = some 12 := by decide +kernel

example : dupDd.Wf ∧ dupDd.table.row 0 = terminalRow 2 ∧ 0 < dupDd.table.numRows ∧ EvSched dupDd (seqSched dupDd) ∧ dupDd.root.row ≤ 5 ∧ 2 ^ 5 < 2 ^ 31 :=
  ⟨dupDd_wf, rfl, by decide, seqSched_ok _, by decide, by decide⟩

/-- beyond the bound of `C89_cardinality_int` the product overflows; `uint64_t` wraps around -/
example : dupDd.evaluate (cardBase i32 2 true 33) (seqSched dupDd) = none ∧ dupDd.evaluate (cardBase u64 2 true 66) (seqSched dupDd) = some (2 ^ 63) := by
  decide +kernel

/-- the empty family, with a node -/
example : (mkDd [[nd2 .zero .zero]] ⟨1, 0⟩ : Dd 2).evaluate minNumItems (seqSched (mkDd [[nd2 .zero .zero]] ⟨1, 0⟩)) = some (2 ^ 31 - 2) ∧
    (mkDd [[nd2 .zero .zero]] ⟨1, 0⟩ : Dd 2).evaluate maxNumItems (seqSched (mkDd [[nd2 .zero .zero]] ⟨1, 0⟩)) = some (-2 ^ 31 + 1) := by decide +kernel

example : ((build (issue007 3)).bind fun A => (build (issue007 3)).bind fun B => ddEq false A B) = some true := C89_issue007 2

end TdZdd
