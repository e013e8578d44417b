import Verif.CnfZtdd
import Verif.StateText

/-!
# The labels of `CnfToZtdd`

Reading outside of a list and a loop that does not end are `none`.
-/

namespace TdZdd.Cnf

/-- the loop over the literals of a clause (`CnfToZtdd.cpp` 168-171): `k` literals from `i` on -/
def litLoop (c : Clause) (pos : Nat) : Nat → Nat → Option (List Char)
  | 0, _ => some []
  | k + 1, i => c[i]?.bind fun x => (litLoop c pos k (i + 1)).map fun r => (if i ≠ pos then [' '] else []) ++ Lab.number x ++ r

/-- the loop over the clauses (`CnfToZtdd.cpp` 166-173): `k` clauses from `p` on -/
def clauseLoop (cnf : List Clause) (pos : Nat) : Nat → Nat → Option (List Char)
  | 0, _ => some []
  | k + 1, p => cnf[p]?.bind fun c => (litLoop c pos (c.length - pos) pos).bind fun t => (clauseLoop cnf pos k (p + 1)).map fun r => ['('] ++ t ++ [')'] ++ r

/-- `CnfToZtdd::printState` (`CnfToZtdd.cpp` 163-174); the loop ends when the pointer is equal to `end` -/
def label (cnf : List Clause) (s : ZSt) : Option (List Char) := if s.beg ≤ s.fin then clauseLoop cnf s.pos (s.fin - s.beg) s.beg else none

end TdZdd.Cnf
