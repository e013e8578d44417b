import Verif.NumlinMate
import Verif.RunDec

/-!
# `DegreeZdd` (C68) and `NumlinZdd` (C69)

A board has at least two columns: with one column there is no horizontal line, hence no variable (`C69_column`). `hOf q a` are the horizontal lines of an assignment.
-/

namespace TdZdd.Nl

variable {q : Board}

theorem degOk_unfold {L : Links} : DegOk q L ↔
    ∀ i j, i < q.rows → j < q.cols → (q.num (i, j) ≠ 0 → deg q.rows q.cols L (i, j) = 1) ∧ (q.num (i, j) = 0 → deg q.rows q.cols L (i, j) = 0 ∨ deg q.rows q.cols L (i, j) = 2) := by
  unfold DegOk tot lab
  refine forall_congr' fun i => forall_congr' fun j => forall_congr' fun hi => forall_congr' fun hj => ?_
  by_cases e : q.num (i, j) = 0
  · rw [if_pos e]
    exact ⟨fun h => ⟨fun g => absurd e g, fun _ => by omega⟩, fun h => by have := h.2 e; omega⟩
  · rw [if_neg e]
    exact ⟨fun h => ⟨fun _ => by omega, fun g => absurd g e⟩, fun h => by have := h.1 e; omega⟩

theorem small_of (hq : q.Ok) (hs : ∀ i j, i < q.rows → j < q.cols → q.cols + q.num (i, j) ≤ 255) : Numlin.Small q := by
  intro i j
  by_cases h : i < q.rows ∧ j < q.cols
  · exact hs i j h.1 h.2
  · rw [num_out hq (by omega)]
    have := hs 0 0 hq.rows_pos hq.cols_pos
    omega

/-- the assignment of some lines -/
def asgOf (q : Board) (L : Links) : Asg 2 := fun l => if L.h ((q.top - l) / (q.cols - 1)) ((q.top - l) % (q.cols - 1)) = true then 1 else 0

theorem hOf_asgOf {L : Links} {i j : Nat} (hi : i < q.rows) (hj : j + 1 < q.cols) : hOf q (asgOf q L) i j = L.h i j := by
  unfold hOf asgOf
  have hw : 0 < q.cols - 1 := by omega
  have h1 : i * (q.cols - 1) + j < q.top := by
    have : (i + 1) * (q.cols - 1) ≤ q.rows * (q.cols - 1) := Nat.mul_le_mul_right _ hi
    rw [Nat.add_mul] at this
    unfold Board.top
    omega
  have e1 : q.top - (q.top - (i * (q.cols - 1) + j)) = i * (q.cols - 1) + j := by omega
  have e2 : (i * (q.cols - 1) + j) / (q.cols - 1) = i := by
    rw [Nat.add_comm, Nat.add_mul_div_right _ _ hw, Nat.div_eq_of_lt (by omega), Nat.zero_add]
  have e3 : (i * (q.cols - 1) + j) % (q.cols - 1) = j := by
    rw [Nat.add_comm, Nat.add_mul_mod_self_right, Nat.mod_eq_of_lt (by omega)]
  rw [e1, e2, e3, decide_eq_true ⟨hi, hj⟩, Bool.true_and]
  cases L.h i j <;> rfl

/-- **C68.** The ZDD of `DegreeZdd` contains exactly the sets of horizontal lines that can be completed by vertical lines such that every number has one line and every other box has none or two. -/
theorem _root_.TdZdd.C68_degree (hq : q.Ok) (hn : 2 ≤ q.cols) (a : Asg 2) :
    ZddMem (degreeZdd q) q.top a ↔ ∃ v, ∀ i j, i < q.rows → j < q.cols →
      (q.num (i, j) ≠ 0 → deg q.rows q.cols ⟨hOf q a, v⟩ (i, j) = 1) ∧
      (q.num (i, j) = 0 → deg q.rows q.cols ⟨hOf q a, v⟩ (i, j) = 0 ∨ deg q.rows q.cols ⟨hOf q a, v⟩ (i, j) = 2) := by
  rw [(Degree.run hq hn).2 a, degOk_iff]
  exact exists_congr fun v => degOk_unfold

/-- **C68.** The specification is lawful: no index is out of bounds, and equal states are interchangeable. -/
theorem _root_.TdZdd.C68_lawful (hq : q.Ok) (hn : 2 ≤ q.cols) : LawfulC (degreeZdd q) :=
  lawfulC_of_eq (Degree.run hq hn).1 fun n s t => by simp [degreeZdd]

/-- **C68.** The vertical lines are determined by the horizontal ones. -/
theorem _root_.TdZdd.C68_unique (h : Nat → Nat → Bool) (v v' : Nat → Nat → Bool)
    (hv : ∀ i j, i < q.rows → j < q.cols → (q.num (i, j) ≠ 0 → deg q.rows q.cols ⟨h, v⟩ (i, j) = 1) ∧ (q.num (i, j) = 0 → deg q.rows q.cols ⟨h, v⟩ (i, j) = 0 ∨ deg q.rows q.cols ⟨h, v⟩ (i, j) = 2))
    (hv' : ∀ i j, i < q.rows → j < q.cols → (q.num (i, j) ≠ 0 → deg q.rows q.cols ⟨h, v'⟩ (i, j) = 1) ∧ (q.num (i, j) = 0 → deg q.rows q.cols ⟨h, v'⟩ (i, j) = 0 ∨ deg q.rows q.cols ⟨h, v'⟩ (i, j) = 2)) :
    ∀ i j, i + 1 < q.rows → j < q.cols → v i j = v' i j := fun i j hi hj =>
  (vdet_unique (degOk_unfold.2 hv) i j hi hj).trans (vdet_unique (degOk_unfold.2 hv') i j hi hj).symm

/-- **C69.** The ZDD of `NumlinZdd` contains exactly the sets of horizontal lines of the solutions of Numberlink with at most `maxBlank` blank boxes (any number, if `maxBlank` is negative). -/
theorem _root_.TdZdd.C69_numlin (hq : q.Ok) (hn : 2 ≤ q.cols) (hs : ∀ i j, i < q.rows → j < q.cols → q.cols + q.num (i, j) ≤ 255) {maxBlank : Int} (hmb : maxBlank ≤ 65535) (a : Asg 2) :
    ZddMem (numlinZdd q maxBlank) q.top a ↔ ∃ v, IsSolution q ⟨hOf q a, v⟩ ∧ (0 ≤ maxBlank → (blanks q ⟨hOf q a, v⟩ : Int) ≤ maxBlank) := by
  rw [(Numlin.run hq hn (small_of hq hs) hmb).2 a, sol_iff]
  rfl

/-- **C69.** The specification is lawful: no index is out of bounds, and equal states are interchangeable. -/
theorem _root_.TdZdd.C69_lawful (hq : q.Ok) (hn : 2 ≤ q.cols) (hs : ∀ i j, i < q.rows → j < q.cols → q.cols + q.num (i, j) ≤ 255) {maxBlank : Int} (hmb : maxBlank ≤ 65535) :
    LawfulC (numlinZdd q maxBlank) :=
  lawfulC_of_eq (Numlin.run hq hn (small_of hq hs) hmb).1 fun n s t => by simp [numlinZdd]

/-- **C69.** Every solution belongs to exactly one member: it has the same horizontal lines, and members are determined on the levels of the diagram by their lines. -/
theorem _root_.TdZdd.C69_solution (hq : q.Ok) (hn : 2 ≤ q.cols) (hs : ∀ i j, i < q.rows → j < q.cols → q.cols + q.num (i, j) ≤ 255) {maxBlank : Int} (hmb : maxBlank ≤ 65535) {L : Links}
    (hL : IsSolution q L) (hb : 0 ≤ maxBlank → (blanks q L : Int) ≤ maxBlank) :
    ∃ a, ZddMem (numlinZdd q maxBlank) q.top a ∧ (∀ i j, i < q.rows → j + 1 < q.cols → hOf q a i j = L.h i j) ∧
      ∀ a', (∀ i j, i < q.rows → j + 1 < q.cols → hOf q a' i j = L.h i j) → ∀ l, 1 ≤ l → l ≤ q.top → a' l = a l := by
  refine ⟨asgOf q L, (C69_numlin hq hn hs hmb _).2 ⟨L.v, ?_⟩, fun i j hi hj => hOf_asgOf hi hj, fun a' ha l h1 h2 => ?_⟩
  · have hA : Agree q.rows q.cols L ⟨hOf q (asgOf q L), L.v⟩ := ⟨fun i j hi hj => (hOf_asgOf hi hj).symm, fun _ _ _ _ => rfl⟩
    refine ⟨⟨fun i j hi hj h => ?_, fun i j hi hj h => ?_, fun i j hi hj h => ?_, fun x y h => ?_⟩, fun h0 => ?_⟩
    · rw [← hA.deg hi hj]; exact hL.number i j hi hj h
    · rw [← hA.deg hi hj]; exact hL.other i j hi hj h
    · rw [← hA.deg hi hj] at h; rw [← hA.adj]; exact hL.noLoop i j hi hj h
    · rw [← hA.adj] at h; exact hL.same x y h
    · have e : blanks q ⟨hOf q (asgOf q L), L.v⟩ = blanks q L := by
        unfold blanks
        congr 1
        refine List.filter_congr fun p hp => ?_
        have hc : 0 < q.cols := hq.cols_pos
        rw [hA.deg (by rw [Nat.div_lt_iff_lt_mul hc]; exact List.mem_range.1 hp) (Nat.mod_lt _ hc)]
      rw [e]
      exact hb h0
  · have hw : 0 < q.cols - 1 := by omega
    have e := Nat.div_add_mod (q.top - l) (q.cols - 1)
    have hj := Nat.mod_lt (q.top - l) hw
    have hi : (q.top - l) / (q.cols - 1) < q.rows := by
      rw [Nat.div_lt_iff_lt_mul hw]
      unfold Board.top at h2 ⊢
      omega
    rw [Nat.mul_comm] at e
    have hlev : q.top - ((q.top - l) / (q.cols - 1) * (q.cols - 1) + (q.top - l) % (q.cols - 1)) = l := by omega
    have hlt : (q.top - l) % (q.cols - 1) + 1 < q.cols := by omega
    have h3 := ha _ _ hi hlt
    have h4 := hOf_asgOf (q := q) (L := L) hi (by omega : (q.top - l) % (q.cols - 1) + 1 < q.cols)
    rw [← h4] at h3
    unfold hOf at h3
    rw [hlev, decide_eq_true (⟨hi, hlt⟩ : _ ∧ _), Bool.true_and, Bool.true_and] at h3
    revert h3
    generalize a' l = b
    generalize asgOf q L l = b'
    revert b b'
    decide

/-- **C69.** A board with one column has no horizontal lines, the level of the root is 0, and no solution is found. -/
theorem _root_.TdZdd.C69_column (hq : q.Ok) (hc : q.cols = 1) (hs : ∀ i, i < q.rows → 1 + q.num (i, 0) ≤ 255) (maxBlank : Int) (a : Asg 2) : ¬ ZddMem (numlinZdd q maxBlank) q.top a := by
  have hsm : Numlin.Small q := small_of hq fun i j hi hj => by
    rw [hc] at hj ⊢
    have : j = 0 := by omega
    subst this
    exact hs i hi
  have h0 : (numlinZdd q maxBlank).root.1 = 0 := by
    show (rootOf q (0, []) (Numlin.root q)).1 = 0
    rw [Numlin.root_eq hq hsm]
    show ((q.top : Nat) : Int) = 0
    unfold Board.top
    rw [hc]
    rfl
  unfold ZddMem
  rw [h0]
  exact zddMemAt_zero

/-! ### Examples -/

/-- two pairs on a 3×3 board -/
def board3 : Board := ⟨3, 3, [[1, 0, 0], [0, 2, 0], [2, 0, 1]]⟩

theorem board3_ok : board3.Ok := ⟨by decide, by decide, by decide, by decide⟩

theorem board3_small : ∀ i j, i < board3.rows → j < board3.cols → board3.cols + board3.num (i, j) ≤ 255 :=
  have : ∀ i, i < 3 → ∀ j, j < 3 → board3.cols + board3.num (i, j) ≤ 255 := by decide
  fun i j hi hj => this i hi j hj

def asgL (l : List Nat) : Asg 2 := fun k => if l.contains k then 1 else 0

-- the line of the ones along the upper and right borders; the line of the twos in two ways with one blank box
example : ZddMem (numlinZdd board3 1) board3.top (asgL [6, 5, 4]) ∧ ZddMem (numlinZdd board3 (-1)) board3.top (asgL [6, 5, 2]) ∧ ¬ ZddMem (numlinZdd board3 0) board3.top (asgL [6, 5, 4]) ∧
    ¬ ZddMem (numlinZdd board3 (-1)) board3.top (asgL [6, 4]) ∧ ZddMem (degreeZdd board3) board3.top (asgL [6, 5, 4]) := by
  have h := fun mb (hmb : mb ≤ 65535) => (C69_lawful board3_ok (by decide) board3_small hmb).toDesc
  rw [← zddRun_mem (h _ (by decide)) (by decide +kernel), ← zddRun_mem (h _ (by decide)) (by decide +kernel), ← zddRun_mem (h _ (by decide)) (by decide +kernel), ← zddRun_mem (h _ (by decide)) (by decide +kernel),
    ← zddRun_mem (C68_lawful board3_ok (by decide)).toDesc (by decide +kernel)]
  decide +kernel

-- a board on which the degrees are right, but different numbers are joined
example : ZddMem (degreeZdd ⟨1, 4, [[1, 2, 1, 2]]⟩) 3 (asgL [3, 1]) ∧ ¬ ZddMem (numlinZdd ⟨1, 4, [[1, 2, 1, 2]]⟩ (-1)) 3 (asgL [3, 1]) := by
  have hok : Board.Ok ⟨1, 4, [[1, 2, 1, 2]]⟩ := ⟨by decide, by decide, by decide, by decide⟩
  have hsm : ∀ i, i < 1 → ∀ j, j < 4 → 4 + Board.num ⟨1, 4, [[1, 2, 1, 2]]⟩ (i, j) ≤ 255 := by decide
  rw [← zddRun_mem (C68_lawful hok (by decide)).toDesc (by decide +kernel), ← zddRun_mem (C69_lawful hok (by decide) (fun i j hi hj => hsm i hi j hj) (by decide)).toDesc (by decide +kernel)]
  decide +kernel

/-- **C69.** The board with two equal numbers in one column has a solution. -/
theorem _root_.TdZdd.C69_column_false : ∃ (q : Board) (L : Links), q.Ok ∧ IsSolution q L ∧ ∀ a, ¬ ZddMem (numlinZdd q (-1)) q.top a := by
  have hok : Board.Ok ⟨2, 1, [[1], [1]]⟩ := ⟨by decide, by decide, by decide, by decide⟩
  have hn : ∀ i, i < 2 → ∀ j, j < 1 → Board.num ⟨2, 1, [[1], [1]]⟩ (i, j) = 1 := by decide
  have hd : ∀ i, i < 2 → ∀ j, j < 1 → deg 2 1 ⟨fun _ _ => false, fun _ _ => true⟩ (i, j) = 1 := by decide
  have hout : ∀ x, Board.num ⟨2, 1, [[1], [1]]⟩ x ≠ 0 → Board.num ⟨2, 1, [[1], [1]]⟩ x = 1 := fun x hx => by
    by_cases h : x.1 < 2 ∧ x.2 < 1
    · exact hn x.1 h.1 x.2 h.2
    · exact absurd (num_out hok (by show 2 ≤ x.1 ∨ 1 ≤ x.2; omega)) hx
  refine ⟨⟨2, 1, [[1], [1]]⟩, ⟨fun _ _ => false, fun _ _ => true⟩, hok, ⟨fun i j hi hj _ => hd i hi j hj, fun i j hi hj h => ?_, fun i j hi hj _ => ?_, fun x y _ hx hy => ?_⟩, fun a => C69_column hok rfl ?_ _ a⟩
  · rw [hn i hi j hj] at h; omega
  · exact ⟨(i, j), .refl, by rw [hn i hi j hj]; decide⟩
  · rw [hout x hx, hout y hy]
  · intro i hi
    show 1 + Board.num _ (i, 0) ≤ 255
    rw [hn i hi 0 (by decide)]
    decide

/-- **C69.** Numbers that do not fit into `uint8_t` together with the columns are mistaken for columns: here the empty set of lines is accepted, though there are numbers on the board. -/
theorem _root_.TdZdd.C69_wrap : ∃ q : Board, q.Ok ∧ 2 ≤ q.cols ∧ ∃ a, ZddMem (numlinZdd q (-1)) q.top a ∧ ¬ ∃ v, IsSolution q ⟨hOf q a, v⟩ := by
  refine ⟨⟨1, 2, [[254, 255]]⟩, ⟨by decide, by decide, by decide, by decide⟩, by decide, fun _ => 0, ?_, ?_⟩
  · have e1 : (numlinZdd ⟨1, 2, [[254, 255]]⟩ (-1)).root = (((1 : Nat) : Int), (0, [0, 1])) := by decide +kernel
    have e2 : ((numlinZdd ⟨1, 2, [[254, 255]]⟩ (-1)).child (0, [0, 1]) 1 0).1 < 0 := by decide +kernel
    have h := Accepts.step (sp := numlinZdd ⟨1, 2, [[254, 255]]⟩ (-1)) (n := 1) (s := (0, [0, 1])) (b := 0) (by decide) (.one e2)
    unfold ZddMem
    rw [e1]
    exact ⟨_, h, fun x hx => by simp at hx; rw [hx], fun j _ _ _ => rfl⟩
  · rintro ⟨v, hv⟩
    have h := hv.number 0 0 (by decide) (by decide) (by decide)
    have : deg 1 2 ⟨hOf ⟨1, 2, [[254, 255]]⟩ fun _ => 0, v⟩ (0, 0) = 0 := by
      unfold deg
      simp [hOf]
    rw [this] at h
    exact absurd h (by decide)

end TdZdd.Nl
