import Verif.MemoryPoolSpec
import Verif.MyListSpec

/-!
# Model of `MyListOnPool` (`util/MyList.hpp` 334-587)

The lists use a pool by the operations `alloc`, `store` and `load`, which are a parameter of the model (type `σ`, function `step`). A pointer to a cell is given by the
number of the call of `alloc` that returned it, plus 1; the null pointer is 0. User data are behind the link, i.e. cell `j` of the data is cell `j + 1` of the allocation.
-/

namespace TdZdd

/-- data members (340-341) -/
structure PoL where
  front : Nat
  size : Nat
  deriving DecidableEq

def PoL.init : PoL := ⟨0, 0⟩

/-- `workCells(n)` (343-349) -/
def workCells (n : Nat) : Nat := 1 + (n + 7) / 8

/-- Operations on pool and list variables. The element `h` is the one allocated by the call number `h` of `alloc_front`. Where a list is read, `p` is the pool which its
elements are in (this has no meaning for the code). -/
inductive PoOp
  | pool (op : PlOp)
  | new (x : Nat)
  | copy (x y : Nat)
  | assign (x y : Nat)
  | destroy (x : Nat)
  | clear (x : Nat)
  | alloc (x p n : Nat)
  | pop (x p : Nat)
  | front (x : Nat)
  | elems (x p : Nat)
  | size (x : Nat)
  | isEmpty (x : Nat)
  | store (x p h j w : Nat)
  | load (x p h j : Nat)

/-- pools, lists, and the number of calls of `alloc` -/
structure PoSt (σ : Type) where
  pools : σ
  list : Nat → Option PoL
  num : Nat

def PlRes.toL : PlRes → LRes Nat
  | .unit => .unit
  | .bool b => .bool b
  | .word w => .word w

section
variable {σ : Type} (step : σ → PlOp → Option (σ × PlRes))

/-- reads a cell -/
def poLoad (s : σ) (p h j : Nat) : Option (σ × Nat) := (step s (.load p h j)).bind fun r => match r.2 with
  | .word w => some (r.1, w)
  | _ => none

/-- reads `q->next` -/
def poNext (s : σ) (p q : Nat) : Option (σ × Nat) := if q = 0 then none else poLoad step s p (q - 1) 0

/-- iteration (459-508): `*t` for all iterators `t` from `begin()` to `end()`; the first argument bounds the number of elements -/
def poIter : Nat → σ → Nat → Nat → Option (σ × List Nat)
  | k, s, p, q =>
    if q = 0 then some (s, [])
    else match k with
      | 0 => none
      | k + 1 => (poNext step s p q).bind fun r => (poIter k r.1 p r.2).map fun t => (t.1, (q - 1) :: t.2)

/-- One operation: constructor (364-366), copy (368-379), destructor (394-396), `clear` (419-422), `alloc_front` (449-457), `pop_front` (462-465), `front` (428-438). -/
def poStep (st : PoSt σ) : PoOp → Option (PoSt σ × LRes Nat)
  | .pool op => (step st.pools op).map fun r => ({ st with pools := r.1 }, r.2.toL)
  | .new x => if (st.list x).isSome then none else some ({ st with list := upd st.list x (some PoL.init) }, .unit)
  | .copy x y => (st.list y).bind fun o => if (st.list x).isSome then none
      else if o.front ≠ 0 then some (st, .throws) else some ({ st with list := upd st.list x (some PoL.init) }, .unit)
  | .assign x y => (st.list y).bind fun o => (st.list x).bind fun _ =>
      if o.front ≠ 0 then some (st, .throws) else some ({ st with list := upd st.list x (some PoL.init) }, .unit)
  | .destroy x => (st.list x).map fun _ => ({ st with list := upd st.list x none }, .unit)
  | .clear x => (st.list x).map fun _ => ({ st with list := upd st.list x (some PoL.init) }, .unit)
  | .alloc x p n => (st.list x).bind fun l =>
      (step st.pools (.alloc p (8 * workCells n))).bind fun r =>
      (step r.1 (.store p st.num 0 l.front)).map fun r =>
      (⟨r.1, upd st.list x (some ⟨st.num + 1, l.size + 1⟩), st.num + 1⟩, .ptrs [st.num])
  | .pop x p => (st.list x).bind fun l => (poNext step st.pools p l.front).map fun r =>
      ({ st with pools := r.1, list := upd st.list x (some ⟨r.2, l.size - 1⟩) }, .unit)
  | .front x => (st.list x).bind fun l => if l.front = 0 then none else some (st, .ptrs [l.front - 1])
  | .elems x p => (st.list x).bind fun l => (poIter step l.size st.pools p l.front).map fun r => ({ st with pools := r.1 }, .ptrs r.2)
  | .size x => (st.list x).map fun l => (st, .num l.size)
  | .isEmpty x => (st.list x).map fun l => (st, .bool (decide (l.front = 0)))
  | .store _ p h j w => (step st.pools (.store p h (j + 1) w)).map fun r => ({ st with pools := r.1 }, .unit)
  | .load _ p h j => (poLoad step st.pools p h (j + 1)).map fun r => ({ st with pools := r.1 }, .word r.2)

def poRun : PoSt σ → List PoOp → Option (PoSt σ × List (LRes Nat))
  | st, [] => some (st, [])
  | st, op :: ops => (poStep step st op).bind fun r => (poRun r.1 ops).map fun q => (q.1, r.2 :: q.2)

end

def PoSt.empty {σ : Type} (s : σ) : PoSt σ := ⟨s, fun _ => none, 0⟩

/-! ## Reference semantics -/

/-- A list is a stack of elements, each of which is an array of its own in a pool; `ps.size` and `ps.val` are the sizes and values as seen by the user. -/
structure SpSt where
  ps : PsSt
  list : Nat → Option (List Nat)

def SpSt.empty : SpSt := ⟨PsSt.empty, fun _ => none⟩

/-- the pool exists and the allocation is in it -/
def PsSt.has (ps : PsSt) (p h : Nat) : Bool := match ps.pool p with
  | none => false
  | some P => decide (h ∈ P.live)

/-- Meaning of an operation; `none` if the operation is not allowed. All allocations are made by lists. -/
def spStep (st : SpSt) : PoOp → Option (SpSt × LRes Nat)
  | .pool op => match op with
      | .alloc .. => none
      | .store .. => none
      | .load .. => none
      | op => (psStep st.ps op).map fun r => ({ st with ps := r.1 }, r.2.toL)
  | .new x => if (st.list x).isSome then none else some ({ st with list := upd st.list x (some []) }, .unit)
  | .copy x y => (st.list y).bind fun o => if (st.list x).isSome then none
      else if o ≠ [] then some (st, .throws) else some ({ st with list := upd st.list x (some []) }, .unit)
  | .assign x y => (st.list y).bind fun o => (st.list x).bind fun _ =>
      if o ≠ [] then some (st, .throws) else some ({ st with list := upd st.list x (some []) }, .unit)
  | .destroy x => (st.list x).map fun _ => ({ st with list := upd st.list x none }, .unit)
  | .clear x => (st.list x).map fun _ => ({ st with list := upd st.list x (some []) }, .unit)
  | .alloc x p n => (st.list x).bind fun l => (st.ps.pool p).bind fun P => if n + 15 < 2 ^ 64 then
      let h := st.ps.size.length
      some (⟨{ st.ps with pool := upd st.ps.pool p (some ⟨h :: P.live, true, P.large || decide (39992 < n)⟩), size := st.ps.size ++ [n] },
        upd st.list x (some (h :: l))⟩, .ptrs [h])
    else none
  | .pop x p => (st.list x).bind fun l => match l with
      | [] => none
      | h :: l => if st.ps.has p h then some ({ st with list := upd st.list x (some l) }, .unit) else none
  | .front x => (st.list x).bind fun l => match l with
      | [] => none
      | h :: _ => some (st, .ptrs [h])
  | .elems x p => (st.list x).bind fun l => if l.all (st.ps.has p) then some (st, .ptrs l) else none
  | .size x => (st.list x).map fun l => (st, .num l.length)
  | .isEmpty x => (st.list x).map fun l => (st, .bool l.isEmpty)
  | .store x p h j w => (st.list x).bind fun l => if h ∈ l then (psStep st.ps (.store p h j w)).map fun r => ({ st with ps := r.1 }, .unit) else none
  | .load x p h j => (st.list x).bind fun l => if h ∈ l then (psStep st.ps (.load p h j)).map fun r => ({ st with ps := r.1 }, r.2.toL) else none

def spRun : SpSt → List PoOp → Option (SpSt × List (LRes Nat))
  | st, [] => some (st, [])
  | st, op :: ops => (spStep st op).bind fun r => (spRun r.1 ops).map fun q => (q.1, r.2 :: q.2)

end TdZdd
