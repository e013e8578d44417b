import Verif.Semantics

/-!
# Model of `LinearConstraints<T>` (`spec/LinearConstraints.hpp`)

`T` is a signed integer type with the values `lo..hi`; arithmetic that leaves this range is undefined behaviour (`none`), as is
an index outside of an array. `std::map` is the list of its entries in ascending order of the keys. `arraySize` and
`constraintId` are unbounded.
-/

namespace TdZdd

/-- the values of `T` -/
structure TRange where
  lo : Int
  hi : Int

/-- result of an arithmetic operation in `T` -/
def TRange.chk (R : TRange) (x : Int) : Option Int := if R.lo ≤ x ∧ x ≤ R.hi then some x else none

/-- `CheckItem` (`LinearConstraints.hpp` 19-44) -/
structure CheckItem where
  index : Nat
  weight : Int
  addMin : Int
  addMax : Int
  lower : Int
  upper : Int
  final : Bool

/-- The members of `LinearConstraints` (`LinearConstraints.hpp` 48-52); `lists i` is `checklists[i]` for `i ≤ n`. -/
structure LinCon where
  n : Nat
  lists : Nat → List CheckItem
  arraySize : Nat
  constraintId : Nat
  isFalse : Bool

/-- The arguments of `addConstraint` -/
structure LinArg where
  expr : List (Nat × Int)
  lb : Int
  ub : Int

/-- Constructor (`LinearConstraints.hpp` 55-62) -/
def lcInit (n : Nat) : LinCon := ⟨n, fun _ => [], 0, 0, false⟩

/-- First loop of `addConstraint` (`LinearConstraints.hpp` 66-73) from `min = mn`, `max = mx` -/
def lcBounds (R : TRange) : List (Nat × Int) → Int → Int → Option (Int × Int)
  | [], mn, mx => some (mn, mx)
  | (_, w) :: e, mn, mx =>
    if 0 < w then (R.chk (mx + w)).bind fun m => lcBounds R e mn m
    else if w < 0 then (R.chk (mn + w)).bind fun m => lcBounds R e m mx
    else lcBounds R e mn mx

/-- Second loop of `addConstraint` (`LinearConstraints.hpp` 81-92): pushes one item per variable. -/
def lcPush (R : TRange) (n id : Nat) (lb ub : Int) :
    List (Nat × Int) → Int → Int → Bool → (Nat → List CheckItem) → Option (Nat → List CheckItem)
  | [], _, _, _, ls => some ls
  | (k, w) :: e, mn, mx, fc, ls =>
    if n < k then none
    else
      let ls' := fun i => if i = k then ls i ++ [⟨id, w, mn, mx, lb, ub, fc⟩] else ls i
      if 0 < w then (R.chk (mx + w)).bind fun m => lcPush R n id lb ub e mn m false ls'
      else if w < 0 then (R.chk (mn + w)).bind fun m => lcPush R n id lb ub e m mx false ls'
      else lcPush R n id lb ub e mn mx false ls'

/-- `addConstraint(expr, lb, ub)` (`LinearConstraints.hpp` 64-94) -/
def lcAdd (R : TRange) (L : LinCon) (c : LinArg) : Option LinCon :=
  if L.isFalse then some L
  else (lcBounds R c.expr 0 0).bind fun m =>
    if c.lb ≤ m.1 ∧ m.2 ≤ c.ub then some L
    else if c.ub < c.lb ∨ m.2 < c.lb ∨ c.ub < m.1 then some { L with isFalse := true }
    else if c.expr.isEmpty then some L
    else (lcPush R L.n L.constraintId c.lb c.ub c.expr 0 0 true L.lists).map fun ls =>
      { L with lists := ls, constraintId := L.constraintId + 1 }

/-- Local variables of `update` (`LinearConstraints.hpp` 97-101): `indexMap` (`none` is `-1`), `freeIndex` (its back first), `arraySize` -/
structure LcIdx where
  map : Nat → Option Nat
  free : List Nat
  size : Nat

/-- `indexMap[id] = …` (`LinearConstraints.hpp` 110-118) -/
def lcSlot (id : Nat) (st : LcIdx) : LcIdx :=
  match st.map id with
  | some _ => st
  | none =>
    match st.free with
    | [] => ⟨fun j => if j = id then some st.size else st.map j, [], st.size + 1⟩
    | f :: fs => ⟨fun j => if j = id then some f else st.map j, fs, st.size⟩

/-- First inner loop of `update` (`LinearConstraints.hpp` 106-121) -/
def lcAssign (cid : Nat) : List CheckItem → LcIdx → Option (List CheckItem × LcIdx)
  | [], st => some ([], st)
  | t :: ts, st =>
    if cid ≤ t.index then none
    else
      let st' := lcSlot t.index st
      (lcAssign cid ts st').map fun r => ({ t with index := (st'.map t.index).getD 0 } :: r.1, r.2)

/-- Second inner loop of `update` (`LinearConstraints.hpp` 123-128) -/
def lcRelease (ts : List CheckItem) (free : List Nat) : List Nat :=
  ts.foldl (fun fr t => if t.final then t.index :: fr else fr) free

/-- Loop of `update` over the levels `i..1` (`LinearConstraints.hpp` 103-129) -/
def lcLevels (cid : Nat) : Nat → (Nat → List CheckItem) → LcIdx → Option ((Nat → List CheckItem) × LcIdx)
  | 0, ls, st => some (ls, st)
  | i + 1, ls, st => (lcAssign cid (ls (i + 1)) st).bind fun r =>
    lcLevels cid i (fun j => if j = i + 1 then r.1 else ls j) { r.2 with free := lcRelease r.1 r.2.free }

/-- `update()` (`LinearConstraints.hpp` 96-132) -/
def lcUpdate (L : LinCon) : Option LinCon :=
  (lcLevels L.constraintId L.n L.lists ⟨fun _ => none, [], L.arraySize⟩).map fun r =>
    { L with lists := r.1, arraySize := r.2.size }

/-- Construction of a specification: the constructor, some calls of `addConstraint`, `update()` -/
def lcAll (R : TRange) : List LinArg → LinCon → Option LinCon
  | [], L => some L
  | c :: cs, L => (lcAdd R L c).bind (lcAll R cs)

/-- see `lcAll` -/
def lcBuild (R : TRange) (n : Nat) (cs : List LinArg) : Option LinCon := (lcAll R cs (lcInit n)).bind lcUpdate

/-- Loop of `getChild` over the check items (`LinearConstraints.hpp` 147-157). `some (false, _)`: `return 0` inside the loop. -/
def lcScan (R : TRange) (take : Bool) : List CheckItem → List Int → Option (Bool × List Int)
  | [], v => some (true, v)
  | t :: ts, v =>
    (v[t.index]?).bind fun x =>
    (if take then R.chk (x + t.weight) else some x).bind fun x1 =>
    (R.chk (x1 + t.addMax)).bind fun xmax =>
    (R.chk (x1 + t.addMin)).bind fun xmin =>
    if xmax < t.lower ∨ t.upper < xmin then some (false, v.set t.index x1)
    else
      (if t.lower ≤ xmin ∧ xmax ≤ t.upper then R.chk (t.lower - t.addMin) else some x1).bind fun x2 =>
      lcScan R take ts (v.set t.index (if t.final then 0 else x2))

/-- `LinearConstraints` as a specification (`getRoot` 134-142, `getChild` 144-160). The state is the array `value`; equality and hash
code are those of `PodArrayDdSpec` (`DdSpec.hpp` 340-480) for an array without padding and one word per element. An undefined step
returns the illegal level code `level`. -/
def lcSpec (R : TRange) (L : LinCon) : DdSpec 2 (List Int) where
  root := (if L.isFalse then 0 else L.n, List.replicate L.arraySize 0)
  child v level value :=
    match lcScan R (decide (value.val ≠ 0)) (L.lists level) v with
    | none => (level, v)
    | some (false, v') => (0, v')
    | some (true, v') => (if 1 ≤ (level : Int) - 1 then (level : Int) - 1 else -1, v')
  eqv _ p q := decide (p = q)
  hash _ p := p.foldl (fun h x => (h + (x % 2 ^ 64).toNat) * 314159257 % 2 ^ 64) 0
  merge _ _ := 0

end TdZdd
