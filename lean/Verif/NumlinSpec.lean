import Verif.Numlin
import Verif.Mate

/-! Lines on a board and solutions of Numberlink (no reference to the algorithms). -/

namespace TdZdd.Nl

/-- `number[i][j]`, 0 outside of the board -/
def Board.num (q : Board) (x : Nat × Nat) : Nat := (q.num? x.1 x.2).getD 0

/-- `h i j` is the line between `(i, j)` and `(i, j + 1)`, `v i j` the one between `(i, j)` and `(i + 1, j)`. -/
structure Links where
  h : Nat → Nat → Bool
  v : Nat → Nat → Bool

/-- number of lines at a box of a board of `m` rows and `n` columns -/
def deg (m n : Nat) (L : Links) (x : Nat × Nat) : Nat :=
  (if 0 < x.2 ∧ L.h x.1 (x.2 - 1) = true then 1 else 0) + (if x.2 + 1 < n ∧ L.h x.1 x.2 = true then 1 else 0) +
  (if 0 < x.1 ∧ L.v (x.1 - 1) x.2 = true then 1 else 0) + (if x.1 + 1 < m ∧ L.v x.1 x.2 = true then 1 else 0)

/-- two boxes with a line between them -/
inductive Adj (m n : Nat) (L : Links) : Nat × Nat → Nat × Nat → Prop
  | right {i j : Nat} : i < m → j + 1 < n → L.h i j = true → Adj m n L (i, j) (i, j + 1)
  | left {i j : Nat} : i < m → j + 1 < n → L.h i j = true → Adj m n L (i, j + 1) (i, j)
  | down {i j : Nat} : i + 1 < m → j < n → L.v i j = true → Adj m n L (i, j) (i + 1, j)
  | up {i j : Nat} : i + 1 < m → j < n → L.v i j = true → Adj m n L (i + 1, j) (i, j)

/-- A solution of Numberlink: every number is an end of a line, the other boxes are passed by a line or are blank, all lines lead to numbers (there is no closed line), and a line joins equal numbers. -/
structure IsSolution (q : Board) (L : Links) : Prop where
  number : ∀ i j, i < q.rows → j < q.cols → q.num (i, j) ≠ 0 → deg q.rows q.cols L (i, j) = 1
  other : ∀ i j, i < q.rows → j < q.cols → q.num (i, j) = 0 → deg q.rows q.cols L (i, j) = 0 ∨ deg q.rows q.cols L (i, j) = 2
  noLoop : ∀ i j, i < q.rows → j < q.cols → deg q.rows q.cols L (i, j) ≠ 0 → ∃ y, Conn (Adj q.rows q.cols L) (i, j) y ∧ q.num y ≠ 0
  same : ∀ x y, Conn (Adj q.rows q.cols L) x y → q.num x ≠ 0 → q.num y ≠ 0 → q.num x = q.num y

/-- number of boxes without a line -/
def blanks (q : Board) (L : Links) : Nat := ((List.range (q.rows * q.cols)).filter fun p => deg q.rows q.cols L (p / q.cols, p % q.cols) = 0).length

/-- the horizontal lines of an assignment: levels descend from left to right and from top to bottom -/
def hOf (q : Board) (a : Asg 2) (i j : Nat) : Bool := decide (i < q.rows ∧ j + 1 < q.cols) && (a (q.top - (i * (q.cols - 1) + j)) == 1)

/-- Lines without detours: no unit square has more than two sides drawn; a line does not go round a corner `└` or `┘` of a unit square whose opposite box is blank; and under a roof (a horizontal line over columns `p..e` of row `i` with both ends going down, and no horizontal line in row `i + 1` below it) there is a number that supports it. -/
structure Tidy (q : Board) (L : Links) : Prop where
  square : ∀ i j, i + 1 < q.rows → j + 1 < q.cols → (L.h i j).toNat + (L.h (i + 1) j).toNat + (L.v i j).toNat + (L.v i (j + 1)).toNat ≤ 2
  cornerL : ∀ i j, i + 1 < q.rows → j + 1 < q.cols → L.v i j = true → L.h (i + 1) j = true → deg q.rows q.cols L (i, j + 1) ≠ 0
  cornerR : ∀ i j, i + 1 < q.rows → j + 1 < q.cols → L.v i (j + 1) = true → L.h (i + 1) j = true → deg q.rows q.cols L (i, j) ≠ 0
  roof : ∀ i p e, i + 1 < q.rows → p < e → e < q.cols → L.v i p = true → L.v i e = true →
    (∀ c, p ≤ c → c < e → L.h i c = true ∧ L.h (i + 1) c = false) → ∃ c, p < c ∧ c < e ∧ q.num (i + 1, c) ≠ 0

end TdZdd.Nl
