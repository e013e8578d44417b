import Verif.CnfSpec
import Verif.Semantics

/-!
# Model of `apps/cnf2ztdd2bdd/CnfToZtdd.hpp` and `CnfToZtdd.cpp`: a list of clauses as a ternary diagram

Variables are the numbers `1..nv`; the variable `v` has the level `nv - v + 1`. The value 0 at a level means that the variable is not in the clause, 1 that its negation is, and 2 that the variable itself is.
-/

namespace TdZdd

namespace Cnf

/-- `ClauseCmp` (`CnfToZtdd.hpp` 112-122), the loop written as a recursion -/
def clauseLt : Clause → Clause → Bool
  | [], b => decide (0 < b.length)
  | _ :: _, [] => false
  | x :: a, y :: b => if x = -y then decide (x < y) else if x.natAbs ≠ y.natAbs then decide (x.natAbs > y.natAbs) else clauseLt a b

/-- the rest of `std::unique` after the element `x` -/
def uniqueFrom {α : Type} [DecidableEq α] (x : α) : List α → List α
  | [] => [x]
  | y :: l => if x = y then uniqueFrom x l else x :: uniqueFrom y l

/-- `std::unique` followed by `resize`: of neighbours that are equal only the first one stays -/
def unique {α : Type} [DecidableEq α] : List α → List α
  | [] => []
  | x :: l => uniqueFrom x l

/-- a step of `isort` -/
def insertBy {α : Type} (lt : α → α → Bool) (x : α) : List α → List α
  | [] => [x]
  | y :: l => if lt y x then y :: insertBy lt x l else x :: y :: l

/-- `std::sort` with the comparator `lt`, modelled by insertion sort. Where it is used the elements that are equivalent for the comparator are equal, so that all sorting algorithms give the same list. -/
def isort {α : Type} (lt : α → α → Bool) (l : List α) : List α := l.foldr (insertBy lt) []

/-- What `readDimacs` makes of the literals of a clause (`CnfToZtdd.cpp` 79-85): `none` for a tautology. The comparator `VarCmp` of `std::sort` (`CnfToZtdd.hpp` 101-111) sets `tautology` when it is called with
a literal and its negation. A sorting algorithm compares, within each class of elements that are equivalent for the comparator, enough pairs to connect the class; so the flag is set if and only if a literal occurs with its negation. -/
def tidy (c : Clause) : Option Clause :=
  if c.any fun x => c.contains (-x) then none
  else some (unique (isort (fun x y => decide (x.natAbs < y.natAbs)) c))

/-- `sortClauses` (`CnfToZtdd.cpp` 109-116) -/
def sortClauses (cnf : List Clause) : List Clause :=
  unique (isort clauseLt cnf)

/-- `cnf` after `load` for the lists of literals found in the file (`CnfToZtdd.cpp` 79-85, `CnfToZtdd.hpp` 91-94) -/
def prepare (cs : List Clause) : List Clause := sortClauses (cs.filterMap tidy)

/-- `CnfToZtddState` (`CnfToZtdd.hpp` 35-44); the pointers are indices of `cnf` -/
structure ZSt where
  beg : Nat
  fin : Nat
  pos : Nat
  deriving DecidableEq

/-- `ClauseSearcher` (`CnfToZtdd.hpp` 131-144) -/
def searcher (pos : Nat) (b : Int) (a : Clause) : Bool :=
  (a[pos]?).elim true fun x => if x = -b then decide (x < b) else decide (x.natAbs > b.natAbs)

/-- `std::lower_bound(first, first + len, …)` as it is implemented in libstdc++; `none` if an element outside of `cnf` is read. The first argument bounds the number of steps. -/
def lowerBound (p : Clause → Bool) (cnf : List Clause) : Nat → Nat → Nat → Option Nat
  | _, first, 0 => some first
  | 0, _, _ + 1 => none
  | fuel + 1, first, len + 1 =>
    let half := (len + 1) / 2
    (cnf[first + half]?).bind fun a =>
      if p a then lowerBound p cnf fuel (first + half + 1) (len + 1 - half - 1)
      else lowerBound p cnf fuel first half

/-- `levelOfVar(var)` (`CnfToZtdd.hpp` 68-71); `none` if the assertion fails -/
def levelOfVar (nv : Nat) (var : Nat) : Option Int :=
  if 1 ≤ var ∧ var ≤ nv then some ((nv : Int) - var + 1) else none

/-- `getRoot` (`CnfToZtdd.cpp` 118-131); `none` if an assertion fails -/
def getRoot (nv : Nat) (cnf : List Clause) : Option (Int × ZSt) :=
  if cnf = [] then some (0, ⟨0, 0, 0⟩)
  else if cnf = [[]] then some (-1, ⟨0, 0, 0⟩)
  else do
    let c ← cnf.getLast?
    let x ← c.head?
    let k ← levelOfVar nv x.natAbs
    if k ≤ nv then some (k, ⟨0, cnf.length, 0⟩) else none

/-- the new range of `getChild` (`CnfToZtdd.cpp` 138-151) -/
def narrow (cnf : List Clause) (s : ZSt) (v : Int) (value : Nat) : Option ZSt :=
  let lb (beg fin : Nat) (b : Int) := lowerBound (searcher s.pos b) cnf (fin - beg) beg (fin - beg)
  if value = 0 then (lb s.beg s.fin (-v)).map fun e => ⟨s.beg, e, s.pos⟩
  else if value = 1 then (lb s.beg s.fin (-v)).bind fun b => (lb b s.fin v).map fun e => ⟨b, e, s.pos + 1⟩
  else (lb s.beg s.fin v).map fun b => ⟨b, s.fin, s.pos + 1⟩

/-- the level of the new state (`CnfToZtdd.cpp` 153-160) -/
def nextLevel (nv : Nat) (cnf : List Clause) (level : Nat) (s : ZSt) : Option Int :=
  if s.beg = s.fin then some 0
  else
    (cnf[s.beg]?).bind fun c =>
    if s.beg = s.fin - 1 ∧ c.length ≤ s.pos then some (-1)
    else do
      let d ← cnf[s.fin - 1]?
      let x ← d[s.pos]?
      let k ← levelOfVar nv x.natAbs
      if k < level then some k else none

/-- `getChild` (`CnfToZtdd.cpp` 133-161); `none` if an assertion fails -/
def getChild (nv : Nat) (cnf : List Clause) (s : ZSt) (level value : Nat) : Option (Int × ZSt) :=
  if s.beg < s.fin ∧ 1 ≤ level ∧ level ≤ nv then
    (narrow cnf s ((nv : Int) - level + 1) value).bind fun t => (nextLevel nv cnf level t).map fun k => (k, t)
  else none

/-- the clauses of a state -/
def ZSt.rng (cnf : List Clause) (s : ZSt) : List Clause := (cnf.drop s.beg).take (s.fin - s.beg)

/-- `operator==` of the states (`CnfToZtdd.cpp` 41-51): for each pair of clauses first the numbers of the literals left, then the literals. (The numbers are differences in `size_t`; here they are integers, which is the same for lists shorter than 2^63.) -/
def sameState (cnf : List Clause) (s t : ZSt) : Bool :=
  decide ((s.fin : Int) - s.beg = t.fin - t.beg) &&
    ((s.rng cnf).zip (t.rng cnf)).all fun p => decide ((p.1.length : Int) - s.pos = p.2.length - t.pos) && decide (p.1.drop s.pos = p.2.drop t.pos)

/-- `hash` (`CnfToZtdd.cpp` 30-39), in the arithmetic of `size_t` -/
def hashState (cnf : List Clause) (s : ZSt) : Nat :=
  (s.rng cnf).foldl (fun h c => (c.drop s.pos).foldl (fun (h : Nat) (x : Int) => (((h : Int) + x) * 314159257 % 18446744073709551616).toNat) h) 0

/-- `CnfToZtdd` as a specification of arity 3 (`CnfToZtdd.hpp` 46). A failing assertion of `getRoot` is the illegal level -2, and one of `getChild` the illegal level of the parent. -/
def zSpec (nv : Nat) (cnf : List Clause) : DdSpec 3 ZSt where
  root := (getRoot nv cnf).getD (-2, ⟨0, 0, 0⟩)
  child s level b := (getChild nv cnf s level b.val).getD (level, s)
  eqv _ s t := sameState cnf s t
  hash _ s := hashState cnf s
  merge _ _ := 0

end Cnf

end TdZdd
