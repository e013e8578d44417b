import Verif.QueensProofs3
import Verif.RunDec

/-!
# `NQueenZdd` and `NRookZdd` (C63)
-/

namespace TdZdd.Queens

/-- The field in row `i`, column `c` of an `n`×`n` board belongs to level `i * n + c + 1`. There is a piece in every row, and no two pieces attack each other: they are in different rows, in different
columns and, unless they are rooks, in different diagonals. -/
def IsPlacement (rook : Bool) (n : Nat) (a : Asg 2) : Prop :=
  (∀ i, i < n → ∃ c, c < n ∧ a (i * n + c + 1) = 1) ∧
  ∀ i c i' c', i < n → c < n → i' < n → c' < n → a (i * n + c + 1) = 1 → a (i' * n + c' + 1) = 1 → (i, c) ≠ (i', c') →
    i ≠ i' ∧ c ≠ c' ∧ (rook = false → i + c ≠ i' + c' ∧ i + c' ≠ i' + c)

theorem val_one {b : Fin 2} : b = 1 ↔ b.val ≠ 0 := by revert b; decide

theorem placement_iff {rook : Bool} {n j : Nat} {a : Asg 2} (h1 : 1 ≤ n) (hj : j < n) {w : BitVec 32} (hw : ∀ c, w.getLsbD c = true ↔ c < n) :
    ((∀ l, (n - 1) * n + j + 1 < l → l ≤ n * n → (a l).val = 0) ∧ P rook n (n - 1) j (Free (List.replicate n w)) a) ↔
      IsPlacement rook n a ∧ ∀ c, j < c → c < n → a ((n - 1) * n + c + 1) ≠ 1 := by
  have hnn : n * n = (n - 1) * n + n := by
    obtain ⟨k, rfl⟩ : ∃ k, n = k + 1 := ⟨n - 1, by omega⟩
    simp only [Nat.add_sub_cancel]
    rw [Nat.succ_mul]
  constructor
  · rintro ⟨hz, q, hq⟩
    have hz' : ∀ c, j < c → c < n → (a ((n - 1) * n + c + 1)).val = 0 := fun c h1 h2 => hz _ (by omega) (by omega)
    have hasg : ∀ i c, i < n → c < n → (a (i * n + c + 1) = 1 ↔ c = q i) := by
      intro i c hi hc
      rw [val_one]
      by_cases h : i = n - 1 → c ≤ j
      · exact hq.asg i c (by omega) hc h
      · have hi' : i = n - 1 := by
          apply Classical.byContradiction
          intro e
          exact h fun e' => absurd e' e
        subst hi'
        have hcj : j < c := by
          apply Classical.byContradiction
          intro e
          exact h fun _ => by omega
        rw [hz' c hcj hc]
        have := hq.last
        omega
    refine ⟨⟨fun i hi => ⟨q i, hq.lt i (by omega), (hasg i _ hi (hq.lt i (by omega))).2 rfl⟩, ?_⟩, fun c h1 h2 h => ?_⟩
    · intro i c i' c' hi hc hi' hc' ha ha' hne
      have e := (hasg i c hi hc).1 ha
      have e' := (hasg i' c' hi' hc').1 ha'
      subst e e'
      have hii : i ≠ i' := fun h => hne (by rw [h])
      rcases Nat.lt_or_gt_of_ne hii with h | h
      · have := hq.safe i i' h (by omega)
        unfold Att at this
        cases rook
        · simp only [true_and] at this ⊢; omega
        · simp only [reduceCtorEq, false_and, or_false] at this ⊢; refine ⟨hii, this, by simp⟩
      · have := hq.safe i' i h (by omega)
        unfold Att at this
        cases rook
        · simp only [true_and] at this ⊢; omega
        · simp only [reduceCtorEq, false_and, or_false] at this ⊢; refine ⟨hii, fun h => this h.symm, by simp⟩
    · exact val_one.1 h (hz' c h1 h2)
  · rintro ⟨⟨hex, hsafe⟩, hz⟩
    have hq : ∃ q : Nat → Nat, ∀ i, i < n → q i < n ∧ a (i * n + q i + 1) = 1 := by
      refine ⟨fun i => if h : i < n then Classical.choose (hex i h) else 0, fun i hi => ?_⟩
      dsimp only
      rw [dif_pos hi]
      exact Classical.choose_spec (hex i hi)
    obtain ⟨q, hq⟩ := hq
    refine ⟨fun l l1 l2 => ?_, q, ?_, fun x hx => (hq x (by omega)).1, fun x hx => ?_, fun x y hxy hy => ?_, fun x c hx hc _ => ?_⟩
    · have := hz (l - 1 - (n - 1) * n) (by omega) (by omega)
      rw [show (n - 1) * n + (l - 1 - (n - 1) * n) + 1 = l by omega, ne_eq, val_one] at this
      apply Classical.byContradiction
      intro h
      exact this h
    · apply Classical.byContradiction
      intro h
      have := hq (n - 1) (by omega)
      exact hz _ (by omega) this.1 this.2
    · rw [free_replicate (by omega), hw]
      exact (hq x (by omega)).1
    · have h1 := hq x (by omega)
      have h2 := hq y (by omega)
      have := hsafe x (q x) y (q y) (by omega) h1.1 (by omega) h2.1 h1.2 h2.2 (fun h => by injection h; omega)
      unfold Att
      cases rook
      · simp only [true_and] at this ⊢; have := this.2.2 trivial; omega
      · simp only [reduceCtorEq, false_and, or_false] at this ⊢; exact this.2.1
    · rw [← val_one]
      have h1 := hq x (by omega)
      constructor
      · intro ha
        apply Classical.byContradiction
        intro hne
        have := hsafe x c x (q x) (by omega) hc (by omega) h1.1 ha h1.2 (fun h => hne (by injection h))
        exact this.1 rfl
      · rintro rfl; exact h1.2

theorem mem_iff {rook : Bool} {n : Nat} {fc : Option Nat} (hn : n < 32) (h1 : 1 ≤ n) (hf : fc.getD 0 < n) (a : Asg 2) :
    ZddMem (spec rook n fc) (n * n) a ↔ (IsPlacement rook n a ∧ ∀ c, n - 1 - fc.getD 0 < c → c < n → a ((n - 1) * n + c + 1) ≠ 1) ∧ (fc.isSome = true → a (n * n - fc.getD 0) = 1) := by
  obtain ⟨w, hw, hw'⟩ := rootRow_spec hn
  obtain ⟨hd, hm⟩ := spec_all (rook := rook) hn h1 hf hw hw'
  have hr : (spec rook n fc).root.1 = ((n * n - fc.getD 0 : Nat) : Int) := by rw [root_eq h1 hf hw]
  unfold ZddMem
  rw [zddMemAt_raise hd .root (by rw [hr]; exact Int.le_refl _) (Nat.sub_le _ _)]
  have := hm a
  unfold ZddMem at this
  rw [this, ← placement_iff (w := w) h1 (by omega) hw', val_one]
  unfold P' Top
  rw [top_lev h1 hf, lev_div (by omega), lev_mod (by omega)]
  exact ⟨fun ⟨x, y, z⟩ => ⟨⟨x, y⟩, fun h => z ⟨h, rfl⟩⟩, fun ⟨⟨x, y⟩, z⟩ => ⟨x, y, fun h => z h.1⟩⟩

/-- **C63.** `NQueenZdd(n)` contains exactly the placements of non-attacking queens with a queen in every row; `NRookZdd(n)` likewise for rooks. -/
theorem _root_.TdZdd.C63_placements (rook : Bool) (n : Nat) (h1 : 1 ≤ n) (hn : n ≤ 31) (a : Asg 2) : ZddMem (spec rook n none) (n * n) a ↔ IsPlacement rook n a := by
  rw [mem_iff (by omega) h1 (by show 0 < n; omega)]
  exact ⟨fun h => h.1.1, fun h => ⟨⟨h, fun c h1 h2 => by simp at h1; omega⟩, fun h => by cases h⟩⟩

/-- **C63.** `NQueenZdd(n, firstCol)` contains exactly those with a queen in column `n - 1 - firstCol` of the last row, which has the highest levels. -/
theorem _root_.TdZdd.C63_first (rook : Bool) (n firstCol : Nat) (h1 : firstCol < n) (hn : n ≤ 31) (a : Asg 2) :
    ZddMem (spec rook n (some firstCol)) (n * n) a ↔ IsPlacement rook n a ∧ a ((n - 1) * n + (n - 1 - firstCol) + 1) = 1 := by
  rw [mem_iff (by omega) (by omega) h1]
  have e := top_lev (fc := some firstCol) (show 1 ≤ n by omega) h1
  simp only [Option.getD_some] at e ⊢
  rw [e]
  constructor
  · exact fun h => ⟨h.1.1, h.2 rfl⟩
  · refine fun h => ⟨⟨h.1, fun c hc hcn hac => ?_⟩, fun _ => h.2⟩
    exact (h.1.2 (n - 1) c (n - 1) (n - 1 - firstCol) (by omega) hcn (by omega) (by omega) hac h.2 (fun e => by injection e; omega)).1 rfl

/-- **C63.** The specifications are lawful (in particular no undefined behaviour is reached). -/
theorem _root_.TdZdd.C63_lawful (rook : Bool) (n : Nat) (fc : Option Nat) (h1 : 1 ≤ n) (hn : n ≤ 31) (hf : fc.getD 0 < n) : LawfulC (spec rook n fc) := by
  obtain ⟨w, hw, hw'⟩ := rootRow_spec (show n < 32 by omega)
  exact lawfulC_of_eq (spec_all (by omega) h1 hf hw hw').1 fun n s t => by simp [spec]

/-! The two solutions of the 4-queens problem; the one with `firstCol = 1`; the identity is a placement of rooks only. -/

/-- pieces at the columns `q` of the rows -/
def place (n : Nat) (q : List Nat) : Asg 2 := fun l => if q[(l - 1) / n]? = some ((l - 1) % n) then 1 else 0

example : ZddMem (spec false 4 none) 16 (place 4 [1, 3, 0, 2]) ∧ ZddMem (spec false 4 none) 16 (place 4 [2, 0, 3, 1]) ∧ ¬ ZddMem (spec false 4 none) 16 (place 4 [0, 1, 2, 3]) ∧ ZddMem (spec true 4 none) 16 (place 4 [0, 1, 2, 3]) := by
  have h1 := (C63_lawful false 4 none (by decide) (by decide) (by decide)).toDesc
  have h2 := (C63_lawful true 4 none (by decide) (by decide) (by decide)).toDesc
  refine ⟨?_, ?_, ?_, ?_⟩
  · rw [← zddRun_mem h1 (by decide +kernel)]; decide +kernel
  · rw [← zddRun_mem h1 (by decide +kernel)]; decide +kernel
  · rw [← zddRun_mem h1 (by decide +kernel)]; decide +kernel
  · rw [← zddRun_mem h2 (by decide +kernel)]; decide +kernel

example : ZddMem (spec false 4 (some 1)) 16 (place 4 [1, 3, 0, 2]) ∧ ¬ ZddMem (spec false 4 (some 1)) 16 (place 4 [2, 0, 3, 1]) := by
  have h1 := (C63_lawful false 4 (some 1) (by decide) (by decide) (by decide)).toDesc
  refine ⟨?_, ?_⟩
  · rw [← zddRun_mem h1 (by decide +kernel)]; decide +kernel
  · rw [← zddRun_mem h1 (by decide +kernel)]; decide +kernel

end TdZdd.Queens
