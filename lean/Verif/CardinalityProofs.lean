import Verif.Cardinality
import Verif.BigNumberProofs2
import Verif.Counting

namespace TdZdd

open Big

/-! ### words -/

/-- the number of words for values up to `N^l` -/
def wd (N l : Nat) : Nat := Nat.log2 (N ^ l) / 63 + 1

theorem wd_pos {N l : Nat} : 1 ≤ wd N l := Nat.le_add_left _ _

theorem lt_wd {N l : Nat} (hN : 1 ≤ N) : N ^ l < 2 ^ (63 * wd N l) := by
  have h0 : N ^ l ≠ 0 := Nat.pos_iff_ne_zero.1 (Nat.pow_pos hN)
  rw [← Nat.log2_lt h0]
  unfold wd
  omega

theorem wd_le {N l w : Nat} (hN : 1 ≤ N) (h : N ^ l < 2 ^ (63 * w)) : wd N l ≤ w := by
  have h0 : N ^ l ≠ 0 := Nat.pos_iff_ne_zero.1 (Nat.pow_pos hN)
  rw [← Nat.log2_lt h0] at h
  unfold wd
  omega

theorem wd_mono {N l m : Nat} (hN : 1 ≤ N) (h : l ≤ m) : wd N l ≤ wd N m :=
  wd_le hN (Nat.lt_of_le_of_lt (Nat.pow_le_pow_right hN h) (lt_wd hN))

theorem wd_two (l : Nat) : wd 2 l = l / 63 + 1 := by
  unfold wd
  rw [Nat.log2_two_pow]

theorem le_clog2 (x : Nat) : x ≤ 2 ^ clog2 x := by
  unfold clog2
  split
  · simp; omega
  · have := Nat.lt_log2_self (n := x - 1)
    omega

theorem maxWords_ok (N top : Nat) : N ^ top < 2 ^ (63 * maxWords N top) := by
  refine Nat.lt_of_le_of_lt (le_clog2 _) ?_
  apply Nat.pow_lt_pow_right (by decide)
  unfold maxWords
  omega

theorem need_le {m V W : Nat} (hm : m ≤ W) (hV : V < 2 ^ (63 * W)) : need m V ≤ W := by
  unfold need
  split
  · exact hm
  · apply Classical.byContradiction
    intro h
    have : m = W := by omega
    subst this
    contradiction

theorem one_le_need {m V : Nat} (hm : 1 ≤ m) : 1 ≤ need m V := by
  unfold need; split <;> omega

/-! ### multiplication -/

theorem addTimes_spec {t3 : List Nat} {u t W : Nat} (h3 : Num t3 u t) (ht : t ≤ W) (m : Nat) : ∀ {t2 : List Nat} {v s : Nat},
    Num t2 v s → s ≤ W → v + m * u < 2 ^ (63 * W) → W ≤ t2.length →
    ∃ t2' s', addTimes t3 m t2 = some t2' ∧ Num t2' (v + m * u) s' ∧ s' ≤ W ∧ t2'.length = t2.length := by
  induction m with
  | zero => intro t2 v s h hs hv hl; exact ⟨t2, s, rfl, by simpa using h, hs, rfl⟩
  | succ m ih =>
    intro t2 v s h hs hv hl
    have hv' : v + u + m * u < 2 ^ (63 * W) := by rw [Nat.add_mul] at hv; omega
    have hn := need_le (m := max s t) (V := v + u) (W := W) (by omega) (by omega)
    obtain ⟨r, e, h1, h2, _⟩ := (add_spec h h3).fits (by omega)
    obtain ⟨t2', s', e', h1', h2', h3'⟩ := ih h1 hn hv' (by omega)
    refine ⟨t2', s', ?_, ?_, h2', by omega⟩
    · unfold addTimes; rw [e]; exact e'
    · rw [Nat.add_mul, show v + (m * u + 1 * u) = v + u + m * u by omega]; exact h1'

theorem addTimes_sound {t3 : List Nat} {u t : Nat} (h3 : Num t3 u t) (m : Nat) : ∀ {t2 t2' : List Nat} {v s : Nat},
    Num t2 v s → addTimes t3 m t2 = some t2' → ∃ s', Num t2' (v + m * u) s' := by
  induction m with
  | zero => intro t2 t2' v s h e; cases e; exact ⟨s, by simpa using h⟩
  | succ m ih =>
    intro t2 t2' v s h e
    have g := add_spec h h3
    by_cases hf : need (max s t) (v + u) ≤ t2.length
    · obtain ⟨r, e1, h1, _⟩ := g.fits hf
      unfold addTimes at e
      rw [e1] at e
      obtain ⟨s', h'⟩ := ih h1 e
      exact ⟨s', by rw [Nat.add_mul, show v + (m * u + 1 * u) = v + u + m * u by omega]; exact h'⟩
    · unfold addTimes at e
      rw [g.short (by omega)] at e
      cases e

theorem mul_step {v N : Nat} (hN : 1 ≤ N) : v + (N - 1) * v = v * N := by
  obtain ⟨M, rfl⟩ : ∃ M, N = M + 1 := ⟨N - 1, by omega⟩
  rw [Nat.add_sub_cancel, Nat.mul_add, Nat.mul_comm M]
  omega

theorem mulLoop_spec {N W : Nat} (hN : 1 ≤ N) (k : Nat) : ∀ {t : List Nat × List Nat} {v s : Nat}, Num t.1 v s → s ≤ W →
    v * N ^ k < 2 ^ (63 * W) → W ≤ t.1.length → W ≤ t.2.length →
    ∃ t' s', mulLoop N k t = some t' ∧ Num t'.1 (v * N ^ k) s' ∧ s' ≤ W ∧ t'.1.length = t.1.length ∧
      t'.2.length = t.2.length := by
  induction k with
  | zero => intro t v s h hs _ _ _; exact ⟨t, s, rfl, by simpa using h, hs, rfl, rfl⟩
  | succ k ih =>
    intro t v s h hs hv hl1 hl2
    obtain ⟨r, e, h1, h2, _⟩ := (store_spec h t.2).fits (by omega)
    have hvN : v * N * N ^ k = v * N ^ (k + 1) := by rw [Nat.mul_assoc, Nat.pow_succ, Nat.mul_comm N]
    have hle : v * N ≤ v * N * N ^ k := Nat.le_mul_of_pos_right _ (Nat.pow_pos hN)
    obtain ⟨t2, s2, e2, h3, h4, h5⟩ := addTimes_spec h1 hs (N - 1) h hs (by rw [mul_step hN]; omega) hl1
    rw [mul_step hN] at h3
    obtain ⟨t', s', e', h6, h7, h8, h9⟩ := ih (t := (t2, r)) h3 h4 (by omega) (by dsimp only; omega) (by dsimp only; omega)
    refine ⟨t', s', ?_, by rw [← hvN]; exact h6, h7, by dsimp only at h8; omega, by dsimp only at h9; omega⟩
    unfold mulLoop
    simp only [e, Option.bind_some, e2]
    exact e'

theorem mulLoop_sound {N : Nat} (hN : 1 ≤ N) (k : Nat) : ∀ {t t' : List Nat × List Nat} {v s : Nat}, Num t.1 v s →
    mulLoop N k t = some t' → ∃ s', Num t'.1 (v * N ^ k) s' := by
  induction k with
  | zero => intro t t' v s h e; cases e; exact ⟨s, by simpa using h⟩
  | succ k ih =>
    intro t t' v s h e
    have g := store_spec h t.2
    by_cases hf : s ≤ t.2.length
    · obtain ⟨r, e1, h1, _⟩ := g.fits hf
      unfold mulLoop at e
      simp only [e1, Option.bind_some] at e
      cases ea : addTimes r (N - 1) t.1 with
      | none => rw [ea] at e; cases e
      | some t2 =>
        rw [ea] at e
        obtain ⟨s2, h2⟩ := addTimes_sound h1 _ h ea
        rw [mul_step hN] at h2
        obtain ⟨s', h'⟩ := ih (t := (t2, r)) h2 e
        exact ⟨s', by rw [Nat.pow_succ, Nat.mul_comm _ N, ← Nat.mul_assoc]; exact h'⟩
    · unfold mulLoop at e
      rw [g.short (by omega)] at e
      cases e

theorem scale_spec {N l k : Nat} (hN : 1 ≤ N) {t : List Nat × List Nat} {v s : Nat} (h : Num t.1 v s) (hs : s ≤ wd N l)
    (hv : v ≤ N ^ l) (h1 : wd N (l + k) ≤ t.1.length) (h2 : wd N (l + k) ≤ t.2.length) :
    ∃ t' s', scale N (k : Int) t = some t' ∧ Num t'.1 (v * N ^ k) s' ∧ s' ≤ wd N (l + k) ∧ t'.1.length = t.1.length ∧
      t'.2.length = t.2.length := by
  have hV : v * N ^ k < 2 ^ (63 * wd N (l + k)) := by
    refine Nat.lt_of_le_of_lt ?_ (lt_wd hN)
    rw [Nat.pow_add]
    exact Nat.mul_le_mul hv (Nat.le_refl _)
  unfold scale
  by_cases hN2 : N = 2
  · rw [if_pos hN2]
    subst hN2
    have hn : shiftNeed s k v ≤ wd 2 (l + k) := by
      apply need_le _ hV
      rw [wd_two] at hs ⊢
      omega
    obtain ⟨r, e, a1, a2, _⟩ := (shiftLeft_spec h k).fits (by omega)
    rw [e]
    exact ⟨_, _, rfl, a1, hn, a2, rfl⟩
  · rw [if_neg hN2, Int.toNat_natCast]
    exact mulLoop_spec hN k h (Nat.le_trans hs (wd_mono hN (by omega))) hV h1 h2

theorem scale_sound {N k : Nat} (hN : 1 ≤ N) {t t' : List Nat × List Nat} {v s : Nat} (h : Num t.1 v s)
    (e : scale N (k : Int) t = some t') : ∃ s', Num t'.1 (v * N ^ k) s' := by
  unfold scale at e
  by_cases hN2 : N = 2
  · rw [if_pos hN2] at e
    subst hN2
    have g := shiftLeft_spec h k
    by_cases hf : shiftNeed s k v ≤ t.1.length
    · obtain ⟨r, e1, h1, _⟩ := g.fits hf
      rw [e1] at e
      cases e
      exact ⟨_, h1⟩
    · rw [g.short (by omega)] at e
      cases e
  · rw [if_neg hN2, Int.toNat_natCast] at e
    exact mulLoop_sound hN k h e

/-! ### nodes -/

/-- a stored count of level `l` -/
def CRep (N l : Nat) (t : List Nat) (v : Nat) : Prop := v ≤ N ^ l ∧ ∃ s, Num t v s ∧ s ≤ wd N l

theorem newValue_spec {t : List Nat} {v w : Nat} (h : Num t v w) : ∃ n, newValue w t = some n ∧ Num n v w := by
  obtain ⟨r, e, h1, _⟩ := (store_spec h (List.replicate w 0)).fits (by simp)
  exact ⟨r, by unfold newValue; rw [e]; rfl, h1⟩

theorem bddBranch_spec {N i : Nat} (hN : 1 ≤ N) {a : (List Nat × List Nat × List Nat) × Nat} {x y L : Nat}
    {v : List Nat × Nat} (ha : Num a.1.1 x a.2) (haw : a.2 ≤ wd N i) (hl1 : a.1.1.length = L) (hl2 : a.1.2.1.length = L)
    (hl3 : a.1.2.2.length = L) (hL : wd N i ≤ L) (hv : CRep N v.2 v.1 y) (hvi : v.2 < i)
    (hsum : x + y * N ^ (i - v.2 - 1) ≤ N ^ i) :
    ∃ a', bddBranch N i a v = some a' ∧ Num a'.1.1 (x + y * N ^ (i - v.2 - 1)) a'.2 ∧ a'.2 ≤ wd N i ∧
      a'.1.1.length = L ∧ a'.1.2.1.length = L ∧ a'.1.2.2.length = L := by
  obtain ⟨hy, s, hn, hs⟩ := hv
  have hmono := wd_mono hN (show v.2 ≤ i by omega)
  obtain ⟨r, e, h1, h2, _⟩ := (store_spec hn a.1.2.1).fits (by omega)
  have hmono2 := wd_mono hN (show v.2 + (i - v.2 - 1) ≤ i by omega)
  obtain ⟨t, s', e', h3, h4, h5, h6⟩ := scale_spec (k := i - v.2 - 1) (t := (r, a.1.2.2)) hN h1 hs hy (by dsimp only; omega)
    (by dsimp only; omega)
  dsimp only at h5 h6
  have hnd : need (max a.2 s') (x + y * N ^ (i - v.2 - 1)) ≤ wd N i :=
    need_le (by omega) (Nat.lt_of_le_of_lt hsum (lt_wd hN))
  obtain ⟨r', e'', h7, h8, _⟩ := (add_spec ha h3).fits (by omega)
  refine ⟨((r', t.1, t.2), _), ?_, h7, hnd, by dsimp only; omega, by dsimp only; omega, by dsimp only; omega⟩
  have ek : (i : Int) - (v.2 : Int) - 1 = ((i - v.2 - 1 : Nat) : Int) := by omega
  unfold bddBranch
  rw [e, Option.bind_some, ek, e', Option.bind_some, e'']
  rfl

theorem bddFold_spec {N M i : Nat} (hN : 1 ≤ N) {L : Nat} (hL : wd N i ≤ L) {vals : Fin M → List Nat × Nat} {ys : Fin M → Nat}
    (hv : ∀ b, CRep N (vals b).2 (vals b).1 (ys b) ∧ (vals b).2 < i) (bs : List (Fin M)) :
    ∀ {a : (List Nat × List Nat × List Nat) × Nat} {x : Nat}, Num a.1.1 x a.2 → a.2 ≤ wd N i → a.1.1.length = L →
      a.1.2.1.length = L → a.1.2.2.length = L →
      x + (bs.map fun b => ys b * N ^ (i - (vals b).2 - 1)).sum ≤ N ^ i →
      ∃ a', (bs.map vals).foldlM (bddBranch N i) a = some a' ∧
        Num a'.1.1 (x + (bs.map fun b => ys b * N ^ (i - (vals b).2 - 1)).sum) a'.2 ∧ a'.2 ≤ wd N i ∧
        a'.1.1.length = L ∧ a'.1.2.1.length = L ∧ a'.1.2.2.length = L := by
  induction bs with
  | nil => intro a x h1 h2 h3 h4 h5 _; exact ⟨a, rfl, by simpa using h1, h2, h3, h4, h5⟩
  | cons b bs ih =>
    intro a x h1 h2 h3 h4 h5 hs
    rw [List.map_cons, List.sum_cons] at hs
    obtain ⟨a1, e1, k1, k2, k3, k4, k5⟩ := bddBranch_spec hN h1 h2 h3 h4 h5 hL (hv b).1 (hv b).2 (by omega)
    obtain ⟨a2, e2, m1, m2⟩ := ih k1 k2 k3 k4 k5 (by omega)
    refine ⟨a2, ?_, ?_, m2⟩
    · rw [List.map_cons, List.foldlM_cons, e1]
      exact e2
    · rw [List.map_cons, List.sum_cons, ← Nat.add_assoc]; exact m1

theorem ofFn_sum_le {M B : Nat} {f : Fin M → Nat} (h : ∀ b, f b ≤ B) : (List.ofFn f).sum ≤ M * B := by
  have gen : ∀ l : List (Fin M), (l.map f).sum ≤ l.length * B := by
    intro l
    induction l with
    | nil => simp
    | cons b l ih =>
      rw [List.map_cons, List.sum_cons, List.length_cons, Nat.add_mul]
      have := h b
      omega
  have := gen (List.finRange M)
  rw [List.length_finRange] at this
  rw [ofFn_eq_map_finRange]
  exact this

theorem bddSum_le {N i : Nat} {vals : Fin N → List Nat × Nat} {ys : Fin N → Nat} (hN : 1 ≤ N)
    (hv : ∀ b, CRep N (vals b).2 (vals b).1 (ys b) ∧ (vals b).2 < i) (hi : 1 ≤ i) :
    (List.ofFn fun b => ys b * N ^ (i - (vals b).2 - 1)).sum ≤ N ^ i := by
  have := ofFn_sum_le (f := fun b => ys b * N ^ (i - (vals b).2 - 1)) (B := N ^ (i - 1)) fun b => by
    have h1 := (hv b).1.1
    have h2 := (hv b).2
    calc ys b * N ^ (i - (vals b).2 - 1) ≤ N ^ (vals b).2 * N ^ (i - (vals b).2 - 1) := Nat.mul_le_mul h1 (Nat.le_refl _)
      _ = N ^ (i - 1) := by rw [← Nat.pow_add]; congr 1; omega
  rw [Nat.mul_comm, ← Nat.pow_succ, show (i - 1).succ = i by omega] at this
  exact this

theorem zddSum_le {N i : Nat} {vals : Fin N → List Nat × Nat} {ys : Fin N → Nat} (hN : 1 ≤ N)
    (hv : ∀ b, CRep N (vals b).2 (vals b).1 (ys b) ∧ (vals b).2 < i) (hi : 1 ≤ i) :
    (List.ofFn ys).sum ≤ N ^ i := by
  have := ofFn_sum_le (f := ys) (B := N ^ (i - 1)) fun b => by
    have h1 := (hv b).1.1
    have h2 := (hv b).2
    exact Nat.le_trans h1 (Nat.pow_le_pow_right hN (by omega))
  rw [Nat.mul_comm, ← Nat.pow_succ, show (i - 1).succ = i by omega] at this
  exact this

theorem storeZero {p : List Nat} (h : 1 ≤ p.length) : ∃ r, storeWord p 0 = some (r, 1) ∧ Num r 0 1 ∧ r.length = p.length := by
  cases p with
  | nil => simp at h
  | cons p ps => exact ⟨0 :: ps, rfl, .last (by decide), rfl⟩

theorem bddNode_spec {N i L : Nat} (hN : 1 ≤ N) (hi : 1 ≤ i) (hL : wd N i ≤ L) {vals : Fin N → List Nat × Nat} {ys : Fin N → Nat}
    (hv : ∀ b, CRep N (vals b).2 (vals b).1 (ys b) ∧ (vals b).2 < i) {t : List Nat × List Nat × List Nat}
    (h1 : t.1.length = L) (h2 : t.2.1.length = L) (h3 : t.2.2.length = L) :
    ∃ t' n, bddNode i vals t = some (t', n) ∧ CRep N i n (List.ofFn fun b => ys b * N ^ (i - (vals b).2 - 1)).sum ∧
      t'.1.length = L ∧ t'.2.1.length = L ∧ t'.2.2.length = L := by
  have hpos := wd_pos (N := N) (l := i)
  obtain ⟨r, e, a1, a2⟩ := storeZero (p := t.1) (by omega)
  have hsum := bddSum_le hN hv hi
  obtain ⟨a, e2, b1, b2, b3, b4, b5⟩ := bddFold_spec hN hL hv (List.finRange N) (a := ((r, t.2), 1)) (x := 0) a1 hpos
    (by dsimp only; omega) h2 h3 (by rw [Nat.zero_add, ← ofFn_eq_map_finRange]; exact hsum)
  rw [Nat.zero_add, ← ofFn_eq_map_finRange] at b1
  obtain ⟨n, e3, c1⟩ := newValue_spec b1
  refine ⟨a.1, n, ?_, ⟨hsum, a.2, c1, b2⟩, b3, b4, b5⟩
  unfold bddNode
  rw [e, ofFn_eq_map_finRange]
  simp only [Option.bind_some]
  rw [e2]
  simp only [Option.bind_some, e3, Option.map_some]

theorem zddFold_spec {N M i : Nat} (hN : 1 ≤ N) {L : Nat} (hL : wd N i ≤ L) {vals : Fin M → List Nat × Nat} {ys : Fin M → Nat}
    (hv : ∀ b, CRep N (vals b).2 (vals b).1 (ys b) ∧ (vals b).2 < i) (bs : List (Fin M)) :
    ∀ {a : List Nat × Nat} {x : Nat}, Num a.1 x a.2 → a.2 ≤ wd N i → a.1.length = L →
      x + (bs.map ys).sum ≤ N ^ i →
      ∃ a', (bs.map vals).foldlM (fun (a v : List Nat × Nat) => add a.1 v.1) a = some a' ∧
        Num a'.1 (x + (bs.map ys).sum) a'.2 ∧ a'.2 ≤ wd N i ∧ a'.1.length = L := by
  induction bs with
  | nil => intro a x h1 h2 h3 _; exact ⟨a, rfl, by simpa using h1, h2, h3⟩
  | cons b bs ih =>
    intro a x h1 h2 h3 hs
    rw [List.map_cons, List.sum_cons] at hs
    obtain ⟨⟨hy, s, hn, hsz⟩, hlt⟩ := hv b
    have hmono := wd_mono hN (show (vals b).2 ≤ i by omega)
    have hnd : need (max a.2 s) (x + ys b) ≤ wd N i :=
      need_le (by omega) (Nat.lt_of_le_of_lt (show x + ys b ≤ N ^ i by omega) (lt_wd hN))
    obtain ⟨r, e1, k1, k2, _⟩ := (add_spec h1 hn).fits (by omega)
    obtain ⟨a2, e2, m1, m2⟩ := ih (a := (r, _)) k1 hnd (by dsimp only; omega) (by omega)
    refine ⟨a2, ?_, ?_, m2⟩
    · rw [List.map_cons, List.foldlM_cons, e1]
      exact e2
    · rw [List.map_cons, List.sum_cons, ← Nat.add_assoc]; exact m1

theorem zddNode_spec {N i L : Nat} (hi : 1 ≤ i) (hL : wd (N + 1) i ≤ L) {vals : Fin (N + 1) → List Nat × Nat}
    {ys : Fin (N + 1) → Nat} (hv : ∀ b, CRep (N + 1) (vals b).2 (vals b).1 (ys b) ∧ (vals b).2 < i) {t : List Nat}
    (h1 : t.length = L) :
    ∃ t' n, zddNode vals t = some (t', n) ∧ CRep (N + 1) i n (List.ofFn ys).sum ∧ t'.length = L := by
  have hsum := zddSum_le (Nat.le_add_left 1 N) hv hi
  obtain ⟨⟨hy, s, hn, hsz⟩, hlt⟩ := hv 0
  have hmono := wd_mono (N := N + 1) (Nat.le_add_left 1 N) (show (vals 0).2 ≤ i by omega)
  obtain ⟨r, e, a1, a2, _⟩ := (store_spec hn t).fits (by omega)
  rw [List.ofFn_succ, List.sum_cons] at hsum
  obtain ⟨a, e2, b1, b2, b3⟩ := zddFold_spec (N := N + 1) (Nat.le_add_left 1 N) hL (vals := fun b : Fin N => vals b.succ)
    (ys := fun b : Fin N => ys b.succ) (fun b => hv b.succ) (List.finRange N) (a := (r, s)) (x := ys 0) a1 (by dsimp only; omega)
    (by dsimp only; omega) (by rw [← ofFn_eq_map_finRange]; exact hsum)
  rw [← ofFn_eq_map_finRange] at b1
  obtain ⟨n, e3, c1⟩ := newValue_spec b1
  refine ⟨a.1, n, ?_, ⟨by rw [List.ofFn_succ, List.sum_cons]; exact hsum, a.2,
    by rw [List.ofFn_succ, List.sum_cons]; exact c1, b2⟩, b3⟩
  rw [← ofFn_eq_map_finRange] at e2
  unfold zddNode
  rw [List.ofFn_succ]
  simp only [e, Option.bind_some, e2, e3, Option.map_some]

/-! ### the evaluator -/

/-- invariant of the evaluator: temporaries of `L` words -/
def CInv (n L : Nat) (s : CardSt) : Prop :=
  s.top = n ∧ ∃ t1 t2 t3, s.tmp1 = some t1 ∧ s.tmp2 = some t2 ∧ s.tmp3 = some t3 ∧ t1.length = L ∧ t2.length = L ∧ t3.length = L

theorem term_spec {N : Nat} {bdd : Bool} {nv : Int} {words : Nat → Nat} {s : CardSt} {j : Nat} (hj : j < 2) :
    ∃ t, (cardinality N bdd nv words).term s j = some (s, t) ∧ CRep N 0 t j := by
  have hlt : j < 2 ^ 63 := by omega
  refine ⟨[j], ?_, by rw [Nat.pow_zero]; omega, 1, .last hlt, wd_pos⟩
  show (storeWord [0] j).map _ = _
  simp only [storeWord, more_lo hlt, Bool.false_eq_true, if_false]
  rfl

theorem clean_spec {N : Nat} {bdd : Bool} {nv : Int} {words : Nat → Nat} {s : CardSt} {n r : Nat} {L : Nat} (h : CInv n L s) (hr : r < n) :
    CInv n L ((cardinality N bdd nv words).clean s r) := by
  show CInv n L (if r = s.top then _ else s)
  rw [if_neg (by have := h.1; omega)]
  exact h

theorem bddSim (N : Nat) (nv : Int) (words : Nat → Nat) (n : Nat) (hw : wd (N + 1) n ≤ words n) :
    (cardinality (N + 1) true nv words).Sim n (CInv n (words n)) (CRep (N + 1)) (fun j => j) bddNv where
  start := ⟨rfl, _, _, _, rfl, rfl, rfl, by simp, by simp, by simp⟩
  term hP hj := by
    obtain ⟨t, e, h⟩ := term_spec (N := N + 1) (bdd := true) (nv := nv) (words := words) hj
    exact ⟨_, t, e, hP, h⟩
  node := by
    rintro s i vals vs ⟨htop, t1, t2, t3, e1, e2, e3, l1, l2, l3⟩ h1 hn hv
    have hm := wd_mono (N := N + 1) (Nat.le_add_left 1 N) hn
    obtain ⟨t', m, e, hr, k1, k2, k3⟩ := bddNode_spec (N := N + 1) (Nat.le_add_left 1 N) h1 (L := words n) (by omega) hv (t := (t1, t2, t3)) l1 l2 l3
    refine ⟨{ s with tmp1 := some t'.1, tmp2 := some t'.2.1, tmp3 := some t'.2.2 }, m, ?_,
      ⟨htop, t'.1, t'.2.1, t'.2.2, rfl, rfl, rfl, k1, k2, k3⟩, hr⟩
    show (if s.top < i then none else s.tmp1.bind fun t1 => _) = _
    rw [if_neg (by omega), e1, e2, e3]
    simp only [Option.bind_some, if_true, e, Option.map_some]
  clean h _ hr := clean_spec h hr

theorem zddSim (N : Nat) (nv : Int) (words : Nat → Nat) (n : Nat) (hw : wd (N + 1) n ≤ words n) :
    (cardinality (N + 1) false nv words).Sim n (CInv n (words n)) (CRep (N + 1)) (fun j => j)
      (fun _ vs => (List.ofFn fun b => (vs b).1).sum) where
  start := ⟨rfl, _, _, _, rfl, rfl, rfl, by simp, by simp, by simp⟩
  term hP hj := by
    obtain ⟨t, e, h⟩ := term_spec (N := N + 1) (bdd := false) (nv := nv) (words := words) hj
    exact ⟨_, t, e, hP, h⟩
  node := by
    rintro s i vals vs ⟨htop, t1, t2, t3, e1, e2, e3, l1, l2, l3⟩ h1 hn hv
    have hm := wd_mono (N := N + 1) (Nat.le_add_left 1 N) hn
    obtain ⟨t', m, e, hr, k1⟩ := zddNode_spec h1 (L := words n) (by omega) hv l1
    refine ⟨{ s with tmp1 := some t' }, m, ?_, ⟨htop, t', t2, t3, rfl, e2, e3, k1, l2, l3⟩, hr⟩
    show (if s.top < i then none else s.tmp1.bind fun t1 => _) = _
    rw [if_neg (by omega), e1]
    simp only [Option.bind_some, Bool.false_eq_true, if_false, e, Option.map_some]
  clean h _ hr := clean_spec h hr

end TdZdd
