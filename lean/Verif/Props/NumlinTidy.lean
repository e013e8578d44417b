import Verif.NumlinShort
import Verif.Props.Numlin

/-!
# `ConstraintZdd` (C70)
-/

namespace TdZdd.Nl

variable {q : Board}

theorem Tidy.congr {L L' : Links} (hA : Agree q.rows q.cols L L') (h : Tidy q L) : Tidy q L' := by
  refine ⟨fun i j hi hj => ?_, fun i j hi hj h1 h2 => ?_, fun i j hi hj h1 h2 => ?_, fun i p e hi hpe he h1 h2 h3 => ?_⟩
  · rw [← hA.h i j (by omega) hj, ← hA.h (i + 1) j hi hj, ← hA.v i j hi (by omega), ← hA.v i (j + 1) hi hj]
    exact h.square i j hi hj
  · rw [← hA.deg (by omega) hj]
    exact h.cornerL i j hi hj (by rw [hA.v i j hi (by omega)]; exact h1) (by rw [hA.h (i + 1) j hi hj]; exact h2)
  · rw [← hA.deg (by omega) (by omega)]
    exact h.cornerR i j hi hj (by rw [hA.v i (j + 1) hi hj]; exact h1) (by rw [hA.h (i + 1) j hi hj]; exact h2)
  · refine h.roof i p e hi hpe he (by rw [hA.v i p hi (by omega)]; exact h1) (by rw [hA.v i e hi he]; exact h2) fun c hc hc' => ?_
    rw [hA.h i c (by omega) (by omega), hA.h (i + 1) c hi (by omega)]
    exact h3 c hc hc'

theorem IsSolution.congr {L L' : Links} (hA : Agree q.rows q.cols L L') (h : IsSolution q L) : IsSolution q L' := by
  refine ⟨fun i j hi hj h' => ?_, fun i j hi hj h' => ?_, fun i j hi hj h' => ?_, fun x y h' => ?_⟩
  · rw [← hA.deg hi hj]; exact h.number i j hi hj h'
  · rw [← hA.deg hi hj]; exact h.other i j hi hj h'
  · rw [← hA.deg hi hj] at h'; rw [← hA.adj]; exact h.noLoop i j hi hj h'
  · rw [← hA.adj] at h'; exact h.same x y h'

/-- **C70.** Among the sets of lines with correct degrees, the ZDD of `ConstraintZdd` contains exactly those without detours. -/
theorem _root_.TdZdd.C70_constraint (hq : q.Ok) (hn : 2 ≤ q.cols) (a : Asg 2) (v : Nat → Nat → Bool)
    (hd : ∀ i j, i < q.rows → j < q.cols → (q.num (i, j) ≠ 0 → deg q.rows q.cols ⟨hOf q a, v⟩ (i, j) = 1) ∧
      (q.num (i, j) = 0 → deg q.rows q.cols ⟨hOf q a, v⟩ (i, j) = 0 ∨ deg q.rows q.cols ⟨hOf q a, v⟩ (i, j) = 2)) :
    ZddMem (constraintZdd q) q.top a ↔ Tidy q ⟨hOf q a, v⟩ := by
  have hd' := degOk_unfold.2 hd
  have hA : Agree q.rows q.cols ⟨hOf q a, v⟩ (lines q a) := ⟨fun _ _ _ _ => rfl, fun i j hi hj => vdet_unique hd' i j hi hj⟩
  rw [(Constraint.run hq hn).2 a, Constraint.passes_iff (degOk_iff.2 ⟨v, hd'⟩)]
  exact ⟨fun h => h.congr hA.symm, fun h => h.congr hA⟩

/-- **C70.** The specification is lawful: no index is out of bounds, and equal states are interchangeable. -/
theorem _root_.TdZdd.C70_lawful (hq : q.Ok) (hn : 2 ≤ q.cols) : LawfulC (constraintZdd q) :=
  lawfulC_of_eq (Constraint.run hq hn).1 fun n s t => by simp [constraintZdd]

/-- **C70.** Every puzzle that has a solution has one without detours. -/
theorem _root_.TdZdd.C70_tidy (L : Links) (hL : IsSolution q L) : ∃ L', IsSolution q L' ∧ Tidy q L' := hL.tidy

theorem IsSolution.degrees {L : Links} (hL : IsSolution q L) : ∀ i j, i < q.rows → j < q.cols → (q.num (i, j) ≠ 0 → deg q.rows q.cols L (i, j) = 1) ∧
    (q.num (i, j) = 0 → deg q.rows q.cols L (i, j) = 0 ∨ deg q.rows q.cols L (i, j) = 2) :=
  fun i j hi hj => ⟨hL.number i j hi hj, hL.other i j hi hj⟩

/-- **C70.** The intersection of the ZDDs of `NumlinZdd` and `ConstraintZdd` is the set of solutions without detours. -/
theorem _root_.TdZdd.C70_both (hq : q.Ok) (hn : 2 ≤ q.cols) (hs : ∀ i j, i < q.rows → j < q.cols → q.cols + q.num (i, j) ≤ 255) {maxBlank : Int} (hmb : maxBlank ≤ 65535) (a : Asg 2) :
    (ZddMem (constraintZdd q) q.top a ∧ ZddMem (numlinZdd q maxBlank) q.top a) ↔
      ∃ v, IsSolution q ⟨hOf q a, v⟩ ∧ Tidy q ⟨hOf q a, v⟩ ∧ (0 ≤ maxBlank → (blanks q ⟨hOf q a, v⟩ : Int) ≤ maxBlank) := by
  rw [C69_numlin hq hn hs hmb a]
  constructor
  · rintro ⟨h1, v, h2, h3⟩
    exact ⟨v, h2, (C70_constraint hq hn a v (IsSolution.degrees h2)).1 h1, h3⟩
  · rintro ⟨v, h1, h2, h3⟩
    exact ⟨(C70_constraint hq hn a v (IsSolution.degrees h1)).2 h2, v, h1, h3⟩

/-- **C70.** The restriction by `ConstraintZdd` loses no solvable puzzle if the number of blank boxes is not limited. -/
theorem _root_.TdZdd.C70_exists (hq : q.Ok) (hn : 2 ≤ q.cols) (hs : ∀ i j, i < q.rows → j < q.cols → q.cols + q.num (i, j) ≤ 255) {maxBlank : Int} (hmb : maxBlank < 0) :
    (∃ L, IsSolution q L) ↔ ∃ a, ZddMem (constraintZdd q) q.top a ∧ ZddMem (numlinZdd q maxBlank) q.top a := by
  constructor
  · rintro ⟨L, hL⟩
    obtain ⟨L', h1, h2⟩ := hL.tidy
    have hA : Agree q.rows q.cols L' ⟨hOf q (asgOf q L'), L'.v⟩ := ⟨fun i j hi hj => (hOf_asgOf hi hj).symm, fun _ _ _ _ => rfl⟩
    exact ⟨asgOf q L', (C70_both hq hn hs (by omega) _).2 ⟨L'.v, h1.congr hA, h2.congr hA, fun h => by omega⟩⟩
  · rintro ⟨a, h⟩
    obtain ⟨v, h1, _⟩ := (C70_both hq hn hs (by omega) a).1 h
    exact ⟨_, h1⟩

/-- the number 1 twice at the bottom of a 2×2 board -/
def board2 : Board := ⟨2, 2, [[0, 0], [1, 1]]⟩

theorem board2_ok : board2.Ok := ⟨by decide, by decide, by decide, by decide⟩

theorem board2_num : ∀ x, board2.num x ≠ 0 → board2.num x = 1 := fun x hx => by
  have h : ∀ i, i < 2 → ∀ j, j < 2 → board2.num (i, j) ≠ 0 → board2.num (i, j) = 1 := by decide
  by_cases g : x.1 < 2 ∧ x.2 < 2
  · exact h x.1 g.1 x.2 g.2 hx
  · exact absurd (num_out board2_ok (by show 2 ≤ x.1 ∨ 2 ≤ x.2; omega)) hx

theorem board2_small : ∀ i j, i < board2.rows → j < board2.cols → board2.cols + board2.num (i, j) ≤ 255 :=
  have : ∀ i, i < 2 → ∀ j, j < 2 → board2.cols + board2.num (i, j) ≤ 255 := by decide
  fun i j hi hj => this i hi j hj

/-- **C70.** If the number of blank boxes is limited, the restriction by `ConstraintZdd` may lose all solutions: here the only solution without blank boxes is `⊓`. -/
theorem _root_.TdZdd.C70_blank_false : ∃ (q : Board) (L : Links), q.Ok ∧ 2 ≤ q.cols ∧ IsSolution q L ∧ blanks q L = 0 ∧ ∀ a, ¬ (ZddMem (constraintZdd q) q.top a ∧ ZddMem (numlinZdd q 0) q.top a) := by
  refine ⟨board2, ⟨fun i _ => i == 0, fun _ _ => true⟩, board2_ok, by decide, ⟨?_, ?_, fun i j hi hj _ => ?_, fun x y _ hx hy => ?_⟩, by decide, fun a h => ?_⟩
  · have : ∀ i, i < 2 → ∀ j, j < 2 → board2.num (i, j) ≠ 0 → deg 2 2 ⟨fun i _ => i == 0, fun _ _ => true⟩ (i, j) = 1 := by decide
    exact fun i j hi hj => this i hi j hj
  · have : ∀ i, i < 2 → ∀ j, j < 2 → board2.num (i, j) = 0 → deg 2 2 ⟨fun i _ => i == 0, fun _ _ => true⟩ (i, j) = 0 ∨ deg 2 2 ⟨fun i _ => i == 0, fun _ _ => true⟩ (i, j) = 2 := by decide
    exact fun i j hi hj => this i hi j hj
  · by_cases e : i = 0
    · subst e
      exact ⟨(1, j), .one (.down (by decide) hj rfl), by
        have : ∀ j, j < 2 → board2.num (1, j) ≠ 0 := by decide
        exact this j hj⟩
    · have e1 : i = 1 := by have : i < 2 := hi; omega
      subst e1
      exact ⟨(1, j), .refl, by
        have : ∀ j, j < 2 → board2.num (1, j) ≠ 0 := by decide
        exact this j hj⟩
  · rw [board2_num x hx, board2_num y hy]
  · obtain ⟨v, h1, h2, h3⟩ := (C70_both board2_ok (by decide) board2_small (by decide) a).1 h
    have hb : blanks board2 ⟨hOf board2 a, v⟩ = 0 := by have := h3 (by decide); omega
    have hsq := h2.square 0 0 (by decide) (by decide)
    unfold blanks at hb
    have hnz : ∀ p, p < 4 → deg 2 2 ⟨hOf board2 a, v⟩ (p / 2, p % 2) ≠ 0 := fun p hp h0 => by
      have := List.length_eq_zero_iff.1 hb
      have hm : p ∈ (List.range (board2.rows * board2.cols)).filter fun p => deg board2.rows board2.cols ⟨hOf board2 a, v⟩ (p / board2.cols, p % board2.cols) = 0 :=
        List.mem_filter.2 ⟨List.mem_range.2 hp, decide_eq_true h0⟩
      rw [this] at hm
      exact nomatch hm
    have d0 : deg 2 2 ⟨hOf board2 a, v⟩ (0, 0) = 0 ∨ deg 2 2 ⟨hOf board2 a, v⟩ (0, 0) = 2 := h1.other 0 0 (by decide) (by decide) (by decide)
    have d1 : deg 2 2 ⟨hOf board2 a, v⟩ (0, 1) = 0 ∨ deg 2 2 ⟨hOf board2 a, v⟩ (0, 1) = 2 := h1.other 0 1 (by decide) (by decide) (by decide)
    have n0 := hnz 0 (by decide)
    have n1 := hnz 1 (by decide)
    change deg 2 2 ⟨hOf board2 a, v⟩ (0, 0) ≠ 0 at n0
    change deg 2 2 ⟨hOf board2 a, v⟩ (0, 1) ≠ 0 at n1
    unfold deg at d0 d1 n0 n1
    simp only [Nat.zero_add, Nat.lt_irrefl, false_and, if_false, Nat.add_zero, Nat.reduceAdd, Nat.reduceLT, true_and, Nat.sub_self] at d0 d1 n0 n1 hsq
    revert d0 d1 n0 n1 hsq
    generalize hOf board2 a 0 0 = b1
    generalize hOf board2 a 1 0 = b2
    generalize v 0 0 = b3
    generalize v 0 1 = b4
    revert b1 b2 b3 b4
    decide

/-! ### Examples -/

-- of the two ways of the twos, `┘` below a blank box is rejected; so is `⊓`
example : ¬ ZddMem (constraintZdd board3) board3.top (asgL [6, 5, 2]) ∧ ZddMem (constraintZdd board3) board3.top (asgL [6, 5, 4]) ∧ ¬ ZddMem (constraintZdd board2) board2.top (asgL [2]) ∧ ZddMem (constraintZdd board2) board2.top (asgL [1]) := by
  rw [← zddRun_mem (C70_lawful board3_ok (by decide)).toDesc (by decide +kernel), ← zddRun_mem (C70_lawful board3_ok (by decide)).toDesc (by decide +kernel),
    ← zddRun_mem (C70_lawful board2_ok (by decide)).toDesc (by decide +kernel), ← zddRun_mem (C70_lawful board2_ok (by decide)).toDesc (by decide +kernel)]
  decide +kernel

end TdZdd.Nl
