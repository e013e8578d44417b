import Verif.Builder

/-!
# Model of `MySmallSet` (`util/MySet.hpp` 291-579)

Elements are integers. An array entry that has not been written is `none`; reading it and access outside of the array are undefined behaviour.
The pointer `array_ - 1` (341) is formed but not used; it is not regarded as undefined behaviour here. `hash` and `operator<<` are in `SetText.lean`.
-/

namespace TdZdd

/-- template argument `N` and data members (293-294). The array has `N` entries, or `n` entries for `MySmallSetOnPool` created with `n` (557-564). -/
structure SSet where
  N : Nat
  size : Nat
  arr : List (Option Int)

/-- reads an entry -/
def aGet (arr : List (Option Int)) (i : Nat) : Option Int := arr[i]?.bind id

/-- writes an entry -/
def aSet (arr : List (Option Int)) (i : Nat) (v : Int) : Option (List (Option Int)) := if i < arr.length then some (arr.set i (some v)) else none

/-- `*i = *(i + 1)` for `n` positions from `i` on (344-346, 364-366) -/
def aShift : Nat → Nat → List (Option Int) → Option (List (Option Int))
  | 0, _, arr => some arr
  | n + 1, i, arr => (aGet arr (i + 1)).bind fun v => (aSet arr i v).bind fun arr => aShift n (i + 1) arr

/-- the loop of `add` (342-353) for `p = array_ + k - 1`: the new array and size -/
def ssAddLoop (e : Int) (size : Nat) : Nat → List (Option Int) → Option (List (Option Int) × Nat)
  | 0, arr => (aSet arr 0 e).map fun arr => (arr, size + 1)
  | k + 1, arr => (aGet arr k).bind fun v =>
    if e ≤ v then
      if e = v then (aShift (size - (k + 1)) (k + 1) arr).map fun arr => (arr, size)
      else (aSet arr (k + 1) v).bind fun arr => ssAddLoop e size k arr
    else (aSet arr (k + 1) e).map fun arr => (arr, size + 1)

/-- `add(e)` (338-354): the new set and whether an exception is thrown -/
def ssAdd (s : SSet) (e : Int) : Option (SSet × Bool) :=
  if 0 < s.N ∧ s.N - 1 ≤ s.size then some (s, true)
  else (ssAddLoop e s.size s.size s.arr).map fun r => ({ s with arr := r.1, size := r.2 }, false)

/-- `std::lower_bound(array_ + first, array_ + first + len, e)` by bisection; the first argument bounds the number of iterations -/
def lowerBound (arr : List (Option Int)) (e : Int) : Nat → Nat → Nat → Option Nat
  | _, first, 0 => some first
  | 0, _, _ + 1 => none
  | k + 1, first, len + 1 =>
    let half := (len + 1) / 2
    (aGet arr (first + half)).bind fun v =>
      if v < e then lowerBound arr e k (first + half + 1) (len + 1 - half - 1) else lowerBound arr e k first half

/-- `remove(e)` (360-367) -/
def ssRemove (s : SSet) (e : Int) : Option SSet :=
  (lowerBound s.arr e s.size 0 s.size).bind fun p =>
    if p = s.size then some s
    else (aGet s.arr p).bind fun v =>
      if v ≠ e then some s else (aShift (s.size - 1 - p) p s.arr).map fun arr => { s with arr := arr, size := s.size - 1 }

/-- `includes(e)` (374-376), with `std::binary_search` -/
def ssIncludes (s : SSet) (e : Int) : Option Bool :=
  (lowerBound s.arr e s.size 0 s.size).bind fun p =>
    if p = s.size then some false else (aGet s.arr p).map fun v => !decide (e < v)

/-- `equals(c)` (385-396) from position `p` on -/
def ssEquals (s : SSet) : Nat → List Int → Option Bool
  | p, [] => some (decide (p = s.size))
  | p, q :: c => if p = s.size then some false else (aGet s.arr p).bind fun v => if v ≠ q then some false else ssEquals s (p + 1) c

/-- `intersects(c)` (404-415) from position `p` on; the first argument bounds the number of iterations -/
def ssIntersects (s : SSet) : Nat → Nat → List Int → Option Bool
  | _, _, [] => some false
  | k, p, q :: c => if p = s.size then some false
    else match k with
      | 0 => none
      | k + 1 => (aGet s.arr p).bind fun v => if v = q then some true else if v < q then ssIntersects s k (p + 1) (q :: c) else ssIntersects s k p c

/-- `containsAll(c)` (424-436) from position `p` on -/
def ssContainsAll (s : SSet) : Nat → Nat → List Int → Option Bool
  | _, _, [] => some true
  | k, p, q :: c => if p = s.size then some false
    else match k with
      | 0 => none
      | k + 1 => (aGet s.arr p).bind fun v => if q < v then some false else if v < q then ssContainsAll s k (p + 1) (q :: c) else ssContainsAll s k (p + 1) c

/-- iteration from `begin()` to `end()` (438-453): the next `n` elements -/
def ssElems (s : SSet) : Nat → Nat → Option (List Int)
  | 0, _ => some []
  | n + 1, p => (aGet s.arr p).bind fun v => (ssElems s n (p + 1)).map fun l => v :: l

/-- iteration from `rbegin()` to `rend()` (455-499): the elements at positions below `n` -/
def ssRevElems (s : SSet) : Nat → Option (List Int)
  | 0 => some []
  | n + 1 => (aGet s.arr n).bind fun v => (ssRevElems s n).map fun l => v :: l

/-- `operator==` (528-534) from position `k` on -/
def ssEqLoop (s t : SSet) : Nat → Nat → Option Bool
  | 0, _ => some true
  | n + 1, k => (aGet s.arr k).bind fun v => (aGet t.arr k).bind fun w => if v ≠ w then some false else ssEqLoop s t n (k + 1)

def ssEq (s t : SSet) : Option Bool := if s.size ≠ t.size then some false else ssEqLoop s t s.size 0

/-- constructor (297-299) for `N > 0` -/
def SSet.mk0 (N : Nat) : SSet := ⟨N, 0, List.replicate N none⟩

/-- `MySmallSetOnPool::newInstance(pool, n)` (557-564) -/
def SSet.onPool (n : Nat) : SSet := ⟨0, 0, List.replicate n none⟩

/-- the loop of `newInstance(pool, copy)` (573-576); there are no exceptions -/
def ssAddAll : SSet → List Int → Option SSet
  | s, [] => some s
  | s, e :: c => (ssAdd s e).bind fun r => ssAddAll r.1 c

/-! ## Programs with sets -/

/-- Operations on set variables; containers that are arguments are given as lists. -/
inductive SsOp
  | new (x N : Nat)
  | newPool (x n : Nat)
  | newCopy (x : Nat) (c : List Int)
  | copy (x y : Nat)
  | destroy (x : Nat)
  | clear (x : Nat)
  | add (x : Nat) (e : Int)
  | remove (x : Nat) (e : Int)
  | includes (x : Nat) (e : Int)
  | size (x : Nat)
  | isEmpty (x : Nat)
  | equals (x : Nat) (c : List Int)
  | intersects (x : Nat) (c : List Int)
  | containsAll (x : Nat) (c : List Int)
  | elems (x : Nat)
  | revElems (x : Nat)
  | get (x i : Nat)
  | eq (x y : Nat)

inductive SsRes
  | unit
  | throws
  | bool (b : Bool)
  | num (n : Nat)
  | elem (e : Int)
  | list (l : List Int)
  deriving DecidableEq

/-- One operation. Only sets with `N > 0` are copied (implicit copy constructor). -/
def ssStep (st : Nat → Option SSet) : SsOp → Option ((Nat → Option SSet) × SsRes)
  | .new x N => if (st x).isSome ∨ N = 0 then none else some (upd st x (some (SSet.mk0 N)), .unit)
  | .newPool x n => if (st x).isSome then none else some (upd st x (some (SSet.onPool n)), .unit)
  | .newCopy x c => if (st x).isSome then none else (ssAddAll (SSet.onPool c.length) c).map fun s => (upd st x (some s), .unit)
  | .copy x y => (st y).bind fun s => if (st x).isSome ∨ s.N = 0 then none else some (upd st x (some s), .unit)
  | .destroy x => (st x).map fun _ => (upd st x none, .unit)
  | .clear x => (st x).map fun s => (upd st x (some { s with size := 0 }), .unit)
  | .add x e => (st x).bind fun s => (ssAdd s e).map fun r => (upd st x (some r.1), if r.2 then .throws else .unit)
  | .remove x e => (st x).bind fun s => (ssRemove s e).map fun s => (upd st x (some s), .unit)
  | .includes x e => (st x).bind fun s => (ssIncludes s e).map fun b => (st, .bool b)
  | .size x => (st x).map fun s => (st, .num s.size)
  | .isEmpty x => (st x).map fun s => (st, .bool (decide (s.size = 0)))
  | .equals x c => (st x).bind fun s => (ssEquals s 0 c).map fun b => (st, .bool b)
  | .intersects x c => (st x).bind fun s => (ssIntersects s (s.size + c.length) 0 c).map fun b => (st, .bool b)
  | .containsAll x c => (st x).bind fun s => (ssContainsAll s (s.size + c.length) 0 c).map fun b => (st, .bool b)
  | .elems x => (st x).bind fun s => (ssElems s s.size 0).map fun l => (st, .list l)
  | .revElems x => (st x).bind fun s => (ssRevElems s s.size).map fun l => (st, .list l)
  | .get x i => (st x).bind fun s => (aGet s.arr i).map fun v => (st, .elem v)
  | .eq x y => (st x).bind fun s => (st y).bind fun t => (ssEq s t).map fun b => (st, .bool b)

def ssRun : (Nat → Option SSet) → List SsOp → Option ((Nat → Option SSet) × List SsRes)
  | st, [] => some (st, [])
  | st, op :: ops => (ssStep st op).bind fun r => (ssRun r.1 ops).map fun q => (q.1, r.2 :: q.2)

/-! ## Reference semantics -/

/-- a finite set: its elements in any order without duplicates; `cap` is the number of elements that can be added, `throws` tells what happens then -/
structure FSet where
  throws : Bool
  cap : Nat
  els : List Int

def FSet.insert (l : List Int) (e : Int) : List Int := if e ∈ l then l else e :: l

/-- the elements in ascending order (insertion sort) -/
def FSet.ascend : List Int → List Int
  | [] => []
  | a :: l => (FSet.ascend l).filter (fun b => decide (b ≤ a)) ++ a :: (FSet.ascend l).filter (fun b => decide (a < b))

/-- Meaning of an operation; `none` if the operation is not allowed. The capacity of a set with `N > 0` is `N - 1`; `add` on a full set throws an exception
even if the element is in the set. -/
def fsStep (st : Nat → Option FSet) : SsOp → Option ((Nat → Option FSet) × SsRes)
  | .new x N => if (st x).isSome ∨ N = 0 then none else some (upd st x (some ⟨true, N - 1, []⟩), .unit)
  | .newPool x n => if (st x).isSome then none else some (upd st x (some ⟨false, n, []⟩), .unit)
  | .newCopy x c => if (st x).isSome then none else some (upd st x (some ⟨false, c.length, c.foldl FSet.insert []⟩), .unit)
  | .copy x y => (st y).bind fun s => if (st x).isSome ∨ s.throws = false then none else some (upd st x (some s), .unit)
  | .destroy x => (st x).map fun _ => (upd st x none, .unit)
  | .clear x => (st x).map fun s => (upd st x (some { s with els := [] }), .unit)
  | .add x e => (st x).bind fun s =>
      if s.els.length < s.cap then some (upd st x (some { s with els := FSet.insert s.els e }), .unit)
      else if s.throws then some (st, .throws) else none
  | .remove x e => (st x).map fun s => (upd st x (some { s with els := s.els.filter fun a => decide (a ≠ e) }), .unit)
  | .includes x e => (st x).map fun s => (st, .bool (decide (e ∈ s.els)))
  | .size x => (st x).map fun s => (st, .num s.els.length)
  | .isEmpty x => (st x).map fun s => (st, .bool s.els.isEmpty)
  | .equals x c => (st x).bind fun s => if c.Pairwise (· < ·) then some (st, .bool (s.els.all (c.contains ·) && c.all (s.els.contains ·))) else none
  | .intersects x c => (st x).bind fun s => if c.Pairwise (· ≤ ·) then some (st, .bool (c.any (s.els.contains ·))) else none
  | .containsAll x c => (st x).bind fun s => if c.Pairwise (· < ·) then some (st, .bool (c.all (s.els.contains ·))) else none
  | .elems x => (st x).map fun s => (st, .list (FSet.ascend s.els))
  | .revElems x => (st x).map fun s => (st, .list (FSet.ascend s.els).reverse)
  | .get x i => (st x).bind fun s => (FSet.ascend s.els)[i]?.map fun v => (st, .elem v)
  | .eq x y => (st x).bind fun s => (st y).map fun t => (st, .bool (s.els.all (t.els.contains ·) && t.els.all (s.els.contains ·)))

def fsRun : (Nat → Option FSet) → List SsOp → Option ((Nat → Option FSet) × List SsRes)
  | st, [] => some (st, [])
  | st, op :: ops => (fsStep st op).bind fun r => (fsRun r.1 ops).map fun q => (q.1, r.2 :: q.2)

end TdZdd
