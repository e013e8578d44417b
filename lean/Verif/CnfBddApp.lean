import Verif.CnfBdd
import Verif.CnfRead

/-!
# Model of the application `apps/cnfbdd`

`run` and `output` of `cnfbdd.cpp`, `load` and `sortClauses` of `CnfToBdd`. The dumps (options `-cnf`, `-dd0`, `-dd1`, `-dump`) are not modelled; the option `-p` is taken for the constructor without threads. `readDimacs` has the same text as that of
`cnf2ztdd2bdd`, see `CnfRead.lean`. The sorts are parameters, because the order of equivalent elements depends on the library.
-/

namespace TdZdd

namespace CnfB

open Cnf

/-- `ClauseCmpForOrdering` (`CnfToBdd.hpp` 171-186), the loop written as a recursion -/
def orderLt : Clause → Clause → Bool
  | [], b => decide (0 < b.length)
  | _ :: _, [] => false
  | x :: a, y :: b => if x.natAbs ≠ y.natAbs then decide (x.natAbs < y.natAbs) else orderLt a b

/-- the options (`cnfbdd.cpp` 38-48, 81-98): `-s`, the absence of `-c`, and the argument of `traverse`, `none` for `-n` -/
structure Opts where
  sort : Bool
  useMap : Bool
  limit : Option Nat

/-- what the library and the CUDD package provide: the two calls of `std::sort`, `Cudd_DagSize`, and the hash function of sets -/
structure Env where
  sortOrder : List Clause → List Clause
  sortRelax : List (Nat × List Int) → List (Nat × List Int)
  size : Cudd → Nat
  hash : List Nat → Nat

/-- `frontierSet` when the construction begins (`CnfToBdd.cpp` 116-122, 232-240, `cnfbdd.cpp` 97) -/
def frontier (nv : Nat) (cnf : List Clause) (size : Cudd → Nat) : Option Nat → Option (Nat → Cudd)
  | none => some fun _ => .const 1
  | some limit => ((List.range (nv + 1)).mapM (traverse nv cnf size limit)).map fun l i => (l[i]?).getD (.const 1)

/-- `sortClauses` (`CnfToBdd.cpp` 81-88), if it is asked for -/
def order (srt : List Clause → List Clause) (sort : Bool) (cnf : List Clause) : List Clause := if sort then unique (srt cnf) else cnf

/-- `run` (`cnfbdd.cpp` 102-120) for a specification: the number of solutions that it prints, and the text of the output file. `fuel` and `steps` bound the loops of the iterator. -/
def run (nv : Nat) (sp : DdSpec 2 (List Nat × List Nat)) (fuel steps : Nat) : Option (String × List Char) := do
  let dd ← build sp
  let dd ← dd.bddReduce
  let card ← dd.bddCardinality nv (seqSched dd)
  let zdd ← bdd2zdd dd nv
  let sets ← zdd.iterate fuel steps
  some (card, sets.flatMap (outputLine nv))

/-- `run` (`cnfbdd.cpp` 80-120) after `readDimacs`, for the clauses that have been stored -/
def runCnf (env : Env) (o : Opts) (nv : Nat) (cnf : List Clause) (fuel steps : Nat) : Option (String × List Char) := do
  let cnf := order env.sortOrder o.sort cnf
  let cm ← clauseMap nv (env.sortRelax (revClauses 1 cnf))
  let fs ← frontier nv cnf env.size o.limit
  run nv (spec nv cnf fs o.useMap cm env.hash) fuel steps

/-- `run` (`cnfbdd.cpp` 80-120) for the text of the input file -/
def cnfbdd (gar : Option Int → Option Int) (env : Env) (o : Opts) (text : List Char) (fuel steps : Nat) : Out (String × List Char) :=
  (readDimacs gar text).bind fun r => (runCnf env o r.1 r.2 fuel steps).elim .ub .ok

end CnfB

end TdZdd
