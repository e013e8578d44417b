import Verif.Evaluate
import Verif.Cardinality
import Verif.Equality
import Verif.StructureProofs
import Verif.Subsetter
import Verif.BinaryOperation

/-!
# Model of `RandomDd` (`apps/test/RandomDd.hpp`) and `do_test` (`apps/test/testRandomDd.cpp`)
-/

namespace TdZdd

variable {N : Nat} {S : Type}

/-- the multiplier `(1ULL << 22) + 15` -/
def rndMul : Nat := 2 ^ 22 + 15

/-- `state = state * ((1ULL << 22) + 15) + std::rand()` in 64 bits, twice a statement (`RandomDd.hpp` 53-58) -/
def rndStep (s r : Nat) : Nat := (s * rndMul % 2 ^ 64 + r) % 2 ^ 64

/-- `RandomDd(n, width, dropRatio)` (`RandomDd.hpp` 31-62). `drop` is the member of this name. `rnd l s b i` is the result of the `i`-th call of
`std::rand()` made by `getChild` for state `s`, level `l` and branch `b`: construction calls `getChild` once for each of them, so this covers
every sequence of random numbers. `width = 0` is a division by zero (excluded by an assertion of the constructor). -/
def randomDd (N n width : Nat) (drop : Int) (rnd : Nat → Nat → Fin (N + 1) → Nat → Nat) : DdSpec (N + 1) Nat where
  root := (n, 0)
  child s l b :=
    if l ≤ 1 then (if rnd l s b 0 % 2 = 1 then -1 else 0, s)
    else if (rnd l s b 0 : Int) < drop then (0, s)
    else if width = 0 then (ubCode l, s)
    else ((l : Int) - 1, rndStep (rndStep (rndStep s (rnd l s b 1)) (rnd l s b 2)) (rnd l s b 3) % width)
  eqv _ s t := decide (s = t)
  hash _ s := s * 314159257 % 2 ^ 64
  merge _ _ := 0

/-- `ASSERT_...` of the test library: a failure leaves the function; `some false` is a failed test. -/
def assertThat (c : Bool) (k : Option Bool) : Option Bool := if c then k else some false

/-- `do_test<A>(n, w, d)` (`testRandomDd.cpp` 35-73) for the specification `sp`, sequentially (`useMP = false`); `none` is undefined behaviour.
`a != b` is `!(a == b)`. -/
def doTest (sp : DdSpec (N + 1) S) (n : Nat) : Option Bool :=
  (build sp).bind fun dd =>
  dd.qddReduce.bind fun qdd =>
  dd.bddReduce.bind fun bdd =>
  dd.zddReduce.bind fun zdd =>
  assertThat (qdd.table.size ≤ dd.table.size) <|
  assertThat (bdd.table.size ≤ qdd.table.size) <|
  assertThat (zdd.table.size ≤ qdd.table.size) <|
  (qdd.bddCardinality n (seqSched qdd)).bind fun c1 =>
  (bdd.bddCardinality n (seqSched bdd)).bind fun c2 =>
  assertThat (c1 == c2) <|
  (qdd.zddCardinality (seqSched qdd)).bind fun c3 =>
  (zdd.zddCardinality (seqSched zdd)).bind fun c4 =>
  assertThat (c3 == c4) <|
  qdd.bddReduce.bind fun bqd =>
  qdd.zddReduce.bind fun zqd =>
  (ddEq false bdd bqd).bind fun e => assertThat e <|
  (ddEq false zdd zqd).bind fun e => assertThat e <|
  (zddSubset zqd qdd.spec false).bind fun zqd' =>
  (ddEq false zdd zqd').bind fun e => assertThat e <|
  (bdd2zdd bdd n).bind fun zbd =>
  (ddEq false bdd zdd).bind fun same =>
  (if same then some true else (ddEq false bdd zbd).map not).bind fun e => assertThat e <|
  (ddEq false zdd zbd).bind fun e => assertThat e <|
  (zdd2bdd zdd n).bind fun bzd =>
  (if same then some true else (ddEq false zdd bzd).map not).bind fun e => assertThat e <|
  (ddEq false bdd bzd).bind fun e => assertThat e <|
  some true

end TdZdd
