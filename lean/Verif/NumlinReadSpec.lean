import Verif.GraphillionSpec

/-!
# What a file with a Numberlink puzzle means

Nothing here refers to the code. White space and numerals are those of `GraphillionSpec.lean`.
-/

namespace TdZdd.Nl

open Gz

/-- neither white space nor a digit -/
def Sign (c : Char) : Prop := ¬ Blank [c] ∧ ¬ ('0' ≤ c ∧ c ≤ '9')

/-- The text does not begin with a digit. -/
def Ends (r : List Char) : Prop := ∀ c r', r = c :: r' → ¬ ('0' ≤ c ∧ c ≤ '9')

/-- the boxes of a line: a numeral is a number, and every other visible character is a box without a number (0) -/
inductive Boxes : List Char → List Nat → Prop
  | done {s : List Char} : Blank s → Boxes s []
  | number {s x r : List Char} {v : Nat} {vs : List Nat} : Blank s → Numeral x v → Ends r → Boxes r vs → Boxes (s ++ (x ++ r)) (v :: vs)
  | other {s r : List Char} {c : Char} {vs : List Nat} : Blank s → Sign c → Boxes r vs → Boxes (s ++ c :: r) (0 :: vs)

/-- the size: columns and rows, or rows and columns with a comma -/
inductive Sizes : List Char → Nat → Nat → Prop
  | space {x s y : List Char} {rows cols : Nat} : Numeral x cols → Blank s → s ≠ [] → Numeral y rows → Sizes (x ++ (s ++ y)) rows cols
  | comma {x s s' y : List Char} {rows cols : Nat} : Numeral x rows → Blank s → Blank s' → Numeral y cols → Sizes (x ++ (s ++ ',' :: (s' ++ y))) rows cols

/-- blank lines and lines that do not begin with a digit -/
inductive Head : List Char → Prop
  | done {s : List Char} : Blank s → Head s
  | other {s r t : List Char} {c : Char} : Blank s → Sign c → '\n' ∉ r → Head t → Head (s ++ c :: (r ++ '\n' :: t))

/-- the rows of the board; lines may be missing at the end, and everything after the last row is ignored -/
inductive RowsText : Nat → List Char → List (List Nat) → Prop
  | stop {t : List Char} : RowsText 0 t []
  | last {n : Nat} {l : List Char} {vs : List Nat} : '\n' ∉ l → Boxes l vs → RowsText (n + 1) l [vs]
  | line {n : Nat} {l t : List Char} {vs : List Nat} {vss : List (List Nat)} : '\n' ∉ l → Boxes l vs → RowsText n t vss → RowsText (n + 1) (l ++ '\n' :: t) (vs :: vss)

/-- a file: the head, the size, the rest of its line, and the rows -/
inductive BoardText : List Char → Nat → Nat → List (List Nat) → Prop
  | bare {h z e : List Char} {rows cols : Nat} : Head h → Sizes z rows cols → '\n' ∉ e → Ends e → BoardText (h ++ (z ++ e)) rows cols []
  | full {h z e t : List Char} {rows cols : Nat} {vss : List (List Nat)} : Head h → Sizes z rows cols → '\n' ∉ e → Ends e → RowsText rows t vss →
      BoardText (h ++ (z ++ (e ++ '\n' :: t))) rows cols vss

/-- the number in box `(i, j)`, 0 if it is missing -/
def entry (vss : List (List Nat)) (i j : Nat) : Nat := ((vss[i]?).bind fun vs => vs[j]?).getD 0

end TdZdd.Nl
