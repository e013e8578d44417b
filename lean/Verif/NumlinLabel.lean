import Verif.Numlin
import Verif.StateText

/-!
# The labels of the number link specifications

`printState` of `DegreeZdd`, `NumlinZdd` and `ConstraintZdd`. Reading behind the end of an array is `none`.
-/

namespace TdZdd.Nl

/-- the loop over the columns: `k` columns from `j` on -/
def labelLoop {A : Type} (f : Nat → A → List Char) (a : List A) : Nat → Nat → Option (List Char)
  | 0, _ => some []
  | k + 1, j => a[j]?.bind fun x => (labelLoop f a k (j + 1)).map fun r => f j x ++ r

/-- the text of a column (`DegreeZdd.cpp` 63-67, `NumlinZdd.cpp` 114-118) -/
def cell (n j d : Nat) : List Char :=
  if d = j then [' ', '.', ' ']
  else if d = n then [' ', '*', ' ']
  else if d > n then ['['] ++ Lab.number d ++ [']']
  else [' '] ++ Lab.number d ++ [' ']

/-- `DegreeZdd::printState` (`DegreeZdd.cpp` 61-69) -/
def Degree.label (q : Board) (d : List Nat) : Option (List Char) := labelLoop (cell q.cols) d q.cols 0

/-- `NumlinZdd::printState` (`NumlinZdd.cpp` 111-121) -/
def Numlin.label (q : Board) (s : Numlin.St) : Option (List Char) :=
  labelLoop (fun j m => cell q.cols j m ++ (['('] ++ Lab.number s.1 ++ [')'])) s.2 q.cols 0

/-- the text of a column (`ConstraintZdd.cpp` 76-77) -/
def Constraint.cell (_ : Nat) (v : Constraint.VS) : List Char :=
  [if v.south then '|' else if v.used then '*' else 'O', if v.east then '-' else '.']

/-- `ConstraintZdd::printState` (`ConstraintZdd.cpp` 73-80) -/
def Constraint.label (q : Board) (s : Constraint.St) : Option (List Char) :=
  (labelLoop Constraint.cell s.2 q.cols 0).map fun t => t ++ if s.1 then [' ', '┌'] else []

end TdZdd.Nl
