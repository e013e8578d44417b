import Verif.Evaluate
import Verif.SizeConstraint
import Verif.BinaryOperation
import Verif.Builder
import Verif.Equality

/-!
# Model of the specifications and evaluators of the test programs

`Combination` (`apps/test/example1.cpp`), `Spec` (`apps/test/issue007.cpp`), `MinNumItems`, `MaxNumItems` (`apps/test/testSizeConstraint.cpp`) and
the evaluators `BddCardinality<T>`, `ZddCardinality<T>` for built-in number types `T` (`eval/Cardinality.hpp` 37-82).
-/

namespace TdZdd

variable {N : Nat}

/-- what `Combination::getChild` returns for the new state and level (`example1.cpp` 47-50) -/
def combCode (k : Int) (l : Nat) (s : Int) : Int × Int :=
  if l - 1 = 0 then (if s = k then -1 else 0, s)
  else if s > k then (0, s)
  else match int32 (s + ((l : Int) - 1)) with
    | none => (ubCode l, s)
    | some x => if x < k then (0, s) else ((l : Int) - 1, s)

/-- `Combination(n, k)` (`example1.cpp` 30-52); signed overflow is `ubCode`. -/
def combination (n : Nat) (k : Int) : DdSpec 2 Int where
  root := (n, 0)
  child s l b :=
    match int32 (s + b.val) with
    | none => (ubCode l, s)
    | some s' => combCode k l s'
  eqv _ s t := decide (s = t)
  hash _ s := (s % 2 ^ 32).toNat * 314159257 % 2 ^ 64
  merge _ _ := 0

/-- `Spec` (`issue007.cpp` 12-15), any arity -/
def issue007 (N : Nat) : DdSpec N Unit where
  root := (1, ())
  child _ _ _ := (0, ())
  eqv _ _ _ := true
  hash _ _ := 0
  merge _ _ := 0

/-- `MinNumItems` (`testSizeConstraint.cpp` 40-48): `INT_MAX - 1` for the 0-terminal; `values.get(1) + 1` may overflow -/
def minNumItems : Evaluator 2 Unit Int Int where
  start _ := ()
  term _ j := some ((), if j ≠ 0 then 0 else 2 ^ 31 - 2)
  node _ _ vals := (int32 ((vals 1).1 + 1)).map fun x => ((), min (vals 0).1 x)
  clean _ _ := ()
  value _ v := some v

/-- `MaxNumItems` (`testSizeConstraint.cpp` 53-61): `INT_MIN` for the 0-terminal -/
def maxNumItems : Evaluator 2 Unit Int Int where
  start _ := ()
  term _ j := some ((), if j ≠ 0 then 0 else -2 ^ 31)
  node _ _ vals := (int32 ((vals 1).1 + 1)).map fun x => ((), max (vals 0).1 x)
  clean _ _ := ()
  value _ v := some v

/-- a built-in number type: `none` is undefined behaviour -/
structure NumType where
  add : Int → Int → Option Int
  mul : Int → Int → Option Int

/-- `uint64_t`, modulo `2^64` -/
def u64 : NumType := ⟨fun a b => some ((a + b) % 2 ^ 64), fun a b => some (a * b % 2 ^ 64)⟩

/-- `int` -/
def i32 : NumType := ⟨fun a b => int32 (a + b), fun a b => int32 (a * b)⟩

/-- the loop `tmp *= ARITY` (`Cardinality.hpp` 62-64, 77-79), `m` times -/
def NumType.mulTimes (A : NumType) (k : Int) : Nat → Int → Option Int
  | 0, x => some x
  | m + 1, x => (A.mul x k).bind (mulTimes A k m)

/-- one value of the loop over the branches (`Cardinality.hpp` 59-66, 71-73) -/
def cardTerm (A : NumType) (N : Nat) (bdd : Bool) (i : Nat) (v : Int × Nat) : Option Int :=
  if bdd then A.mulTimes N (i - v.2 - 1) v.1 else some v.1

/-- `CardinalityBase<E,T,ARITY,BDD>(numVars)` (`Cardinality.hpp` 37-85). The state is `topLevel`. -/
def cardBase (A : NumType) (N : Nat) (bdd : Bool) (numVars : Int) : Evaluator N Nat Int Int where
  start n := n
  term s j := some (s, if j ≠ 0 then 1 else 0)
  node s i vals := ((List.finRange N).foldlM (fun acc b => (cardTerm A N bdd i (vals b)).bind (A.add acc)) 0).map fun x => (s, x)
  clean s _ := s
  value s v := if bdd then A.mulTimes N (numVars - s).toNat v else some v

/-- the array `fact` (`example1.cpp` 57-61), `uint64_t` -/
def fact64 : Nat → Nat
  | 0 => 1
  | i + 1 => fact64 i * (i + 1) % 2 ^ 64

/-- conversion of a `uint64_t` to `int` (modulo `2^32`, as by all compilers) -/
def toInt32 (x : Nat) : Int :=
  if x % 2 ^ 32 < 2 ^ 31 then ((x % 2 ^ 32 : Nat) : Int) else ((x % 2 ^ 32 : Nat) : Int) - 2 ^ 32

/-- `ASSERT_EQ(int, uint64_t)`: the `int` is converted -/
def eqIntU64 (x y : Int) : Bool := x % 2 ^ 64 == y

/-- the body of the loops of the test of `Combination` (`example1.cpp` 63-74), sequential: `none` is undefined behaviour, `some false` a failed assertion.
Division by zero would be undefined behaviour. -/
def example1Body (n k : Nat) : Option Bool :=
  if fact64 k * fact64 (n - k) % 2 ^ 64 = 0 then none else
  let answer := toInt32 (fact64 n / (fact64 k * fact64 (n - k) % 2 ^ 64))
  (build (combination n k)).bind fun dd =>
  (dd.evaluate (cardBase u64 2 true n) (seqSched dd)).bind fun c1 =>
  if eqIntU64 answer c1 = false then some false else
  (dd.evaluate (cardBase u64 2 false 0) (seqSched dd)).bind fun c2 =>
  if eqIntU64 answer c2 = false then some false else
  dd.zddReduce.bind fun z =>
  (z.evaluate (cardBase u64 2 false 0) (seqSched z)).bind fun c3 =>
  some (eqIntU64 answer c3)

end TdZdd
