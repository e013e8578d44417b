import Verif.CnfZtdd
import Verif.Cardinality
import Verif.Iterator
import Verif.Readers
import Verif.Equality
import Verif.StructureProofs

/-!
# Model of the application `apps/cnf2ztdd2bdd`

`apps/cnfbdd/Cudd.hpp`, `apps/cnf2ztdd2bdd/ZtddToCudd.hpp`, and `run` and `output` of `apps/cnf2ztdd2bdd/cnf2ztdd2bdd.cpp`, from the clauses that have been read to the lines of the output file. The package CUDD is not a part of the repository. Its
operations are modelled by textbook algorithms on ordered diagrams without redundant nodes, in which the variable with the highest index is at the top (`Cudd_bddNewVarAtLevel(manager, 0)` puts every new variable above the others, `Cudd.hpp` 57-65; the index of a variable is its
level). Reference counts, and the double `countMinterm`, are not modelled.
-/

namespace TdZdd

/-- a node of CUDD (`DdNode*`), unfolded to a tree. By the unique table of CUDD two nodes are the same if and only if their trees are. -/
inductive Cudd where
  | leaf (b : Bool)
  | node (l : Nat) (lo hi : Cudd)
  deriving DecidableEq

namespace Cudd

/-- a node with the given children, if they are different -/
def mk (l : Nat) (lo hi : Cudd) : Cudd := if lo = hi then lo else node l lo hi

/-- `Cudd_Not` -/
def inv : Cudd → Cudd
  | leaf b => leaf (!b)
  | node l lo hi => node l (inv lo) (inv hi)

/-- `Cudd_bddAnd` of the node `node l lo hi` and a diagram; `f0` and `f1` are the conjunctions of `lo` and `hi` with a diagram -/
def andNode (l : Nat) (lo hi : Cudd) (f0 f1 : Cudd → Cudd) : Cudd → Cudd
  | leaf b => if b then node l lo hi else leaf false
  | node m glo ghi =>
    if l = m then mk l (f0 glo) (f1 ghi)
    else if m < l then mk l (f0 (node m glo ghi)) (f1 (node m glo ghi))
    else mk m (andNode l lo hi f0 f1 glo) (andNode l lo hi f0 f1 ghi)

/-- `Cudd_bddAnd`, `operator&` (`Cudd.hpp` 192-194) -/
def and : Cudd → Cudd → Cudd
  | leaf b, g => if b then g else leaf false
  | node l lo hi, g => andNode l lo hi (and lo) (and hi) g

/-- `Cudd_bddIte(manager, f, g, h)` -/
def ite (f g h : Cudd) : Cudd := inv (and (inv (and f g)) (inv (and (inv f) h)))

/-- `varAtLevel(level)` (`Cudd.hpp` 57-65) -/
def var (l : Nat) : Cudd := node l (leaf false) (leaf true)

/-- `Cudd_(val)` (`Cudd.hpp` 74-78) -/
def const (val : Nat) : Cudd := leaf (decide (val ≠ 0))

/-- `Cudd_(level, f0, f1)` (`Cudd.hpp` 80-84) -/
def branch (level : Nat) (f0 f1 : Cudd) : Cudd := ite (var level) f1 f0

/-- `level()` (`Cudd.hpp` 142-145) -/
def level : Cudd → Nat
  | leaf _ => 0
  | node l _ _ => l

/-- `Cudd_Cofactor(manager, f, v)` for the variable `l` (`b = true`) or its negation -/
def cof (l : Nat) (b : Bool) : Cudd → Cudd
  | leaf c => leaf c
  | node m lo hi => if m = l then (if b then hi else lo) else mk m (cof l b lo) (cof l b hi)

/-- the level code of a diagram (`Cudd.hpp` 291, 298) -/
def code (f : Cudd) : Int := if f = leaf true then -1 else f.level

/-- `Cudd_` as a specification (`Cudd.hpp` 289-303). The hash value is computed from the address of the node; here it is any function of the node. -/
def spec (hash : Cudd → Nat) (f : Cudd) : DdSpec 2 Cudd where
  root := (code f, f)
  child s l b := (code (cof l (decide (b.val ≠ 0)) s), cof l (decide (b.val ≠ 0)) s)
  eqv _ s t := decide (s = t)
  hash _ s := hash s
  merge _ _ := 0

end Cudd

namespace Cnf

/-- `ZtddToCudd` (`ZtddToCudd.hpp` 34-49) -/
def ztddToCudd : Evaluator 3 Unit Cudd Cudd :=
  .pure (fun value => if value ≠ 0 then Cudd.const 0 else Cudd.const 1)
    (fun level (vs : Fin 3 → Cudd × Nat) => Cudd.branch level (((vs 0).1).and (vs 2).1) (((vs 0).1).and (vs 1).1)) id

/-- a line of the output (`cnf2ztdd2bdd.cpp` 66-72) for a set of levels -/
def outputLine (nv : Nat) (t : List Nat) : List Char :=
  ((List.range nv).flatMap fun k => (if k + 1 ≠ 1 then [' '] else []) ++ (if (nv + 1 - (k + 1)) ∈ t then '+' else '-') :: intName ((k + 1 : Nat) : Int)) ++ ['\n']

/-- `run` (`cnf2ztdd2bdd.cpp` 75-121) after `load`, for the list `cnf` of sorted clauses: the number of clauses that it prints, the BDD, and the text of the output file. `fuel` and `steps` bound the loops of the iterator. -/
def runSorted (hash : Cudd → Nat) (nv : Nat) (cnf : List Clause) (fuel steps : Nat) : Option (String × Cudd × List Char) := do
  let ztdd ← build (zSpec nv cnf)
  let ztdd ← ztdd.zddReduce
  let card ← ztdd.zddCardinality (seqSched ztdd)
  let f ← ztdd.evaluate ztddToCudd (seqSched ztdd)
  let dd ← build (f.spec hash)
  let zdd ← bdd2zdd dd nv
  let sets ← zdd.iterate fuel steps
  some (card, f, sets.flatMap (outputLine nv))

/-- `run` for the clauses found in the file -/
def run (hash : Cudd → Nat) (nv : Nat) (cs : List Clause) (fuel steps : Nat) : Option (String × Cudd × List Char) := runSorted hash nv (prepare cs) fuel steps

end Cnf

end TdZdd
