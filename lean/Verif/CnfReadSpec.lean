import Verif.CnfSpec
import Verif.GraphillionSpec

/-!
# What a file in the DIMACS format means

Nothing here refers to the code. White space and numerals are those of `GraphillionSpec.lean`.
-/

namespace TdZdd

namespace Cnf

open Gz

/-- lines that do not begin with the letter `p` -/
inductive Remarks : List Char → Prop
  | done : Remarks []
  | line {l t : List Char} : '\n' ∉ l → (∀ r, l ≠ 'p' :: r) → Remarks t → Remarks (l ++ '\n' :: t)

/-- white space within a line -/
def Gap (s : List Char) : Prop := Blank s ∧ '\n' ∉ s

/-- The text does not begin with a digit. -/
def NoDigit (r : List Char) : Prop := ∀ c r', r = c :: r' → ¬ ('0' ≤ c ∧ c ≤ '9')

/-- the line with the numbers of variables and clauses; the end of the line is ignored -/
inductive Header : List Char → Nat → Nat → Prop
  | intro {s s' x s'' y e : List Char} {nv nc : Nat} : Gap s → Gap s' → Numeral x nv → Gap s'' → s'' ≠ [] → Numeral y nc → '\n' ∉ e → NoDigit e →
      Header ('p' :: (s ++ ('c' :: 'n' :: 'f' :: (s' ++ (x ++ (s'' ++ (y ++ e))))))) nv nc

/-- The text cannot be continued by a number: it begins with a visible character that is neither a digit nor a sign. -/
def Stop (e : List Char) : Prop := ∃ c r, e = c :: r ∧ ¬ Blank [c] ∧ ¬ ('0' ≤ c ∧ c ≤ '9') ∧ c ≠ '-' ∧ c ≠ '+'

/-- integers with white space between them, followed by the text `e` -/
inductive Nums (e : List Char) : List Char → List Int → Prop
  | done {s : List Char} : Blank s → Nums e (s ++ e) []
  | num {s x r : List Char} {v : Int} {vs : List Int} : Blank s → Integer x v → NoDigit r → Nums e r vs → Nums e (s ++ (x ++ r)) (v :: vs)

/-- the numbers of clauses: each clause ends with 0 -/
def numbers (cs : List Clause) : List Int := cs.flatMap fun c => c ++ [0]

/-- a file: remarks, the header, numbers, and the rest `e` -/
inductive File (e : List Char) : List Char → Nat → Nat → List Int → Prop
  | intro {r h b : List Char} {nv nc : Nat} {xs : List Int} : Remarks r → Header h nv nc → Nums e b xs → File e (r ++ (h ++ '\n' :: b)) nv nc xs

end Cnf

end TdZdd
