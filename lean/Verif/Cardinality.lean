import Verif.Evaluate
import Verif.BigNumber

/-!
# Model of the counting evaluators (`eval/Cardinality.hpp`)

The specialisation for `std::string` results (`CardinalityBase<E,std::string,ARITY,BDD>`, 90-187) on `BigNumber`s.
Memory: a value is an array of exactly the allocated number of words, it lives in the pool of its level and is released
with its row of the `work` table (`destructLevel`), so `Evaluate.lean` covers its lifetime; the three temporaries live in
the pool of `topLevel` and are lost if that pool is cleared.
-/

namespace TdZdd

variable {N : Nat}

open Big

/-- `ceil(log2 x)` for `x ≥ 1` -/
def clog2 (x : Nat) : Nat := if x ≤ 1 then 0 else Nat.log2 (x - 1) + 1

/-- `max` in `initialize` (110), evaluated exactly: `ceil(topLevel * log2(ARITY) / 63) + 1`. The code computes it with
`double`s; what is needed of the result is a hypothesis of `C30_words` and `C31_words`. -/
def maxWords (N top : Nat) : Nat := (clog2 (N ^ top) + 62) / 63 + 1

/-- State of the evaluator: `topLevel` and the arrays of `tmp1`, `tmp2`, `tmp3` unless released. -/
structure CardSt where
  top : Nat
  tmp1 : Option (List Nat)
  tmp2 : Option (List Nat)
  tmp3 : Option (List Nat)

/-- `for (int b = 1; b < ARITY; ++b) tmp2.add(tmp3);` (136-138, 172-174) with `m = ARITY - 1`. -/
def addTimes (t3 : List Nat) : (m : Nat) → (t2 : List Nat) → Option (List Nat)
  | 0, t2 => some t2
  | m + 1, t2 => (add t2 t3).bind fun r => addTimes t3 m r.1

/-- `while (--k >= 0) { tmp3.store(tmp2); … }` (134-139, 170-175): `tmp2` and `tmp3`. -/
def mulLoop (N : Nat) : (k : Nat) → (t : List Nat × List Nat) → Option (List Nat × List Nat)
  | 0, t => some t
  | k + 1, t => (store t.2 t.1).bind fun t3 => (addTimes t3.1 (N - 1) t.1).bind fun t2 => mulLoop N k (t2, t3.1)

/-- Multiplication of `tmp2` by `ARITY^k` (130-140, 166-176). -/
def scale (N : Nat) (k : Int) (t : List Nat × List Nat) : Option (List Nat × List Nat) :=
  if N = 2 then (shiftLeft t.1 k).map fun r => (r.1, t.2) else mulLoop N k.toNat t

/-- One branch of `evalNode` for BDDs (127-142): `tmp1`, `tmp2`, `tmp3` and `w`. -/
def bddBranch (N i : Nat) (a : (List Nat × List Nat × List Nat) × Nat) (v : List Nat × Nat) :
    Option ((List Nat × List Nat × List Nat) × Nat) :=
  (store a.1.2.1 v.1).bind fun t2 =>
  (scale N ((i : Int) - v.2 - 1) (t2.1, a.1.2.2)).bind fun t =>
  (add a.1.1 t.1).map fun r => ((r.1, t.1, t.2), r.2)

/-- `n.setArray(allocate(w)); n.store(tmp1)` (143-144, 157-158). The initial contents of the allocation do not matter. -/
def newValue (w : Nat) (t1 : List Nat) : Option (List Nat) := (store (List.replicate w 0) t1).map (·.1)

/-- `evalNode` for BDDs (125-145). -/
def bddNode (i : Nat) (vals : Fin N → List Nat × Nat) (t : List Nat × List Nat × List Nat) :
    Option ((List Nat × List Nat × List Nat) × List Nat) :=
  (storeWord t.1 0).bind fun r =>
  ((List.ofFn vals).foldlM (bddBranch N i) ((r.1, t.2), r.2)).bind fun a =>
  (newValue a.2 a.1.1).map fun n => (a.1, n)

/-- `evalNode` for ZDDs (146-159). -/
def zddNode (vals : Fin N → List Nat × Nat) (t1 : List Nat) : Option (List Nat × List Nat) :=
  (match List.ofFn vals with
    | [] => storeWord t1 0
    | v :: vs => (store t1 v.1).bind fun r => vs.foldlM (fun (a v : List Nat × Nat) => add a.1 v.1) r : Option (List Nat × Nat)).bind fun a =>
  (newValue a.2 a.1).map fun n => (a.1, n)

/-- The evaluator `CardinalityBase<E,std::string,ARITY,BDD>(numVars)`; `words` gives the size of the temporaries. -/
def cardinality (N : Nat) (bdd : Bool) (numVars : Int) (words : Nat → Nat) : Evaluator N CardSt (List Nat) String where
  -- 106-114
  start top := ⟨top, some (List.replicate (words top) 0), some (List.replicate (words top) 0), some (List.replicate (words top) 0)⟩
  -- 116-119
  term s value := (storeWord [0] value).map fun r => (s, r.1)
  -- 121-160
  node s i vals :=
    if s.top < i then none else
    s.tmp1.bind fun t1 =>
    if bdd then
      s.tmp2.bind fun t2 => s.tmp3.bind fun t3 =>
      (bddNode i vals (t1, t2, t3)).map fun r => ({ s with tmp1 := some r.1.1, tmp2 := some r.1.2.1, tmp3 := some r.1.2.2 }, r.2)
    else (zddNode vals t1).map fun r => ({ s with tmp1 := some r.1 }, r.2)
  -- 184-186
  clean s i := if i = s.top then { s with tmp1 := none, tmp2 := none, tmp3 := none } else s
  -- 162-182
  value s n :=
    if bdd then
      s.tmp2.bind fun t2 => s.tmp3.bind fun t3 =>
      (store t2 n).bind fun r =>
      (scale N (numVars - s.top) (r.1, t3)).bind fun t => print t.1
    else print n

/-- `bddCardinality(numVars)` (`DdStructure.hpp` 437-439). -/
def Dd.bddCardinality (D : Dd N) (numVars : Int) (sched : Nat → List (Nat × Nat)) : Option String :=
  D.evaluate (cardinality N true numVars (maxWords N)) sched

/-- `zddCardinality()` (`DdStructure.hpp` 445-447). -/
def Dd.zddCardinality (D : Dd N) (sched : Nat → List (Nat × Nat)) : Option String :=
  D.evaluate (cardinality N false 0 (maxWords N)) sched

end TdZdd
