import Verif.Ram

/-!
# Model of `MyVector` (`util/MyVector.hpp`)

Elements are objects that are constructed in raw memory, destructed, read and assigned. Element constructors and destructors have no
other effects. Numbers are unbounded (`capacity_ * 10` and `n * 11` are assumed not to overflow). `d` is the value of `T()`.
-/

namespace TdZdd

variable {T : Type}

/-- data members (35-37) -/
structure Vec where
  cap : Nat
  size : Nat
  arr : Nat

abbrev VRam (T : Type) := Ram (Option T)

/-- `allocate(n)` (39-41) -/
def vAllocate (m : VRam T) (n : Nat) : VRam T := m.alloc (List.replicate n none)

/-- `deallocate(p, n)` (43-45): `n` must be the size of the block. A null pointer is ignored. -/
def vDeallocate (m : VRam T) (p n : Nat) : Option (VRam T) :=
  if p = 0 then some m
  else (m.blk p).bind fun l => if l.length = n ∧ ∀ c ∈ l, c.isNone then m.free p else none

/-- `moveElement(from, to)` (54-60), for different locations -/
def vMove (m : VRam T) (a b i : Nat) : Option (VRam T) :=
  (m.read a i).bind fun v => (m.construct b i v).bind fun m => m.destruct a i

/-- `while (n < size_) array_[--size_].~T()`; afterwards `size_` is `min n size_` -/
def vPopTo (m : VRam T) (a size n : Nat) : Option (VRam T) :=
  ((List.range (size - n)).map fun k => size - 1 - k).foldlM (fun m i => m.destruct a i) m

/-- `while (size_ < n) new (array_ + size_++) T()`; afterwards `size_` is `max n size_` -/
def vGrow (d : T) (m : VRam T) (a size n : Nat) : Option (VRam T) :=
  ((List.range (n - size)).map fun k => size + k).foldlM (fun m i => m.construct a i d) m

/-- `for (i < size_) moveElement(array_[i], tmp[i])` -/
def vMoveAll (m : VRam T) (a b size : Nat) : Option (VRam T) :=
  (List.range size).foldlM (fun m i => vMove m a b i) m

/-- `reserve(capacity)` (201-214) -/
def vReserve (m : VRam T) (v : Vec) (c : Nat) : Option (VRam T × Vec) :=
  if v.cap < c then
    let tmp := m.fresh
    let m := vAllocate m c
    if v.arr ≠ 0 then
      if v.size ≤ v.cap then
        (vMoveAll m v.arr tmp v.size).bind fun m => (vDeallocate m v.arr v.cap).map fun m => (m, ⟨c, v.size, tmp⟩)
      else none
    else some (m, ⟨c, v.size, tmp⟩)
  else some (m, v)

/-- `ensureCapacity(capacity)` (47-52) -/
def vEnsure (m : VRam T) (v : Vec) (c : Nat) : Option (VRam T × Vec) :=
  if v.cap < c then vReserve m v (c * 2) else some (m, v)

/-- `clear()` (292-302) -/
def vClear (m : VRam T) (v : Vec) : Option (VRam T × Vec) :=
  if v.arr ≠ 0 then
    if 0 < v.cap then
      (vPopTo m v.arr v.size 0).bind fun m => (vDeallocate m v.arr v.cap).map fun m => (m, ⟨0, 0, 0⟩)
    else none
  else some (m, { v with cap := 0 })

/-- `resize(n)` (232-265) -/
def vResize (d : T) (m : VRam T) (v : Vec) (n : Nat) : Option (VRam T × Vec) :=
  if n = 0 then vClear m v
  else if v.cap * 10 ≤ n * 11 ∧ n ≤ v.cap then
    (vPopTo m v.arr v.size n).bind fun m =>
    (vGrow d m v.arr (min n v.size) n).map fun m => (m, { v with size := n })
  else
    (vPopTo m v.arr v.size n).bind fun m =>
    let size := min n v.size
    let tmp := m.fresh
    (vMoveAll (vAllocate m n) v.arr tmp size).bind fun m =>
    (vGrow d m tmp size n).bind fun m =>
    (vDeallocate m v.arr v.cap).map fun m => (m, ⟨n, n, tmp⟩)

/-- `init(n)` (220-225) -/
def vInit (d : T) (m : VRam T) (v : Vec) (n : Nat) : Option (VRam T × Vec) :=
  (vPopTo m v.arr v.size 0).bind fun m => vResize d m { v with size := 0 } n

/-- `push_back(val)` (310-314), where `val` refers to the element `i` of the array `p` -/
def vPushRef (m : VRam T) (v : Vec) (p i : Nat) : Option (VRam T × Vec) :=
  (vEnsure m v (v.size + 1)).bind fun r =>
  (r.1.read p i).bind fun val =>
  (r.1.construct r.2.arr r.2.size val).map fun m => (m, { r.2 with size := r.2.size + 1 })

/-- `push_back(val)` (310-314), where `val` is an object outside of the vectors -/
def vPush (m : VRam T) (v : Vec) (val : T) : Option (VRam T × Vec) :=
  (vEnsure m v (v.size + 1)).bind fun r =>
  (r.1.construct r.2.arr r.2.size val).map fun m => (m, { r.2 with size := r.2.size + 1 })

/-- `pop_back()` (319-321) -/
def vPop (m : VRam T) (v : Vec) : Option (VRam T × Vec) :=
  if 0 < v.size then (m.destruct v.arr (v.size - 1)).map fun m => (m, { v with size := v.size - 1 }) else some (m, v)

/-- the loop of the copy constructor and of the assignment (95-97, 103-105): elements of `o` are copied to raw memory; `o[i]` checks its argument. -/
def vCopyLoop (m : VRam T) (a n : Nat) (o : Vec) : Option (VRam T) :=
  (List.range n).foldlM (fun m i => if i < o.size then (m.read o.arr i).bind fun x => m.construct a i x else none) m

/-- copy constructor (91-97) -/
def vCopy (m : VRam T) (o : Vec) : Option (VRam T × Vec) :=
  if o.size ≠ 0 then
    let p := m.fresh
    (vCopyLoop (vAllocate m o.size) p o.size o).map fun m => (m, ⟨o.size, o.size, p⟩)
  else some (m, ⟨0, 0, 0⟩)

/-- `MyVector(n, val)` (72-78) -/
def vFill (m : VRam T) (n : Nat) (val : T) : Option (VRam T × Vec) :=
  (vReserve m ⟨0, 0, 0⟩ n).bind fun r => (List.range n).foldlM (fun r _ => vPush r.1 r.2 val) r

/-- `erase(first, last)` (273-286); `first` and `last` are given as indices. The element `last[i]` has the index `e + i`. -/
def vErase (m : VRam T) (v : Vec) (s e : Nat) : Option (VRam T × Vec) :=
  if s ≤ e ∧ e ≤ v.size then
    let newSize := v.size - (e - s)
    (((List.range (newSize - s)).map fun k => s + k).foldlM (fun (m : VRam T) i => (m.read v.arr (e + i)).bind fun x => m.assign v.arr i x) m).bind fun m =>
    (vPopTo m v.arr v.size newSize).map fun m => (m, { v with size := newSize })
  else none

/-- `erase(pos)` (487-491) for elements of one byte (`memmove` gets the number of elements as the number of bytes) that can be copied
bytewise; `size_` is not changed -/
def vErasePos (m : VRam T) (v : Vec) (p : Nat) : Option (VRam T × Vec) :=
  if p < v.size then
    ((List.range (v.size - p - 1)).foldlM (fun (m : VRam T) k => (m.read v.arr (p + 1 + k)).bind fun x => m.assign v.arr (p + k) x) m).map fun m => (m, v)
  else none

/-- `operator==` (510-516); `eq` is that of the elements -/
def vEq (eq : T → T → Bool) (m : VRam T) (v o : Vec) : Option Bool :=
  if v.size ≠ o.size then some false
  else (List.range v.size).foldlM (fun r i => if r then (m.read v.arr i).bind fun x => (m.read o.arr i).map fun y => eq x y else some false) true

/-- iteration from `begin()` to `end()` -/
def vElems (m : VRam T) (v : Vec) : Option (List T) :=
  (List.range v.size).foldlM (fun r i => (m.read v.arr i).map fun x => r ++ [x]) []

/-- iteration from `rbegin()` to `rend()` (460-481) -/
def vElemsRev (m : VRam T) (v : Vec) : Option (List T) :=
  (List.range v.size).foldlM (fun r k => (m.read v.arr (v.size - 1 - k)).map fun x => r ++ [x]) []

/-! ## Programs with vectors -/

/-- Operations on vector variables. -/
inductive VOp (T : Type)
  | new (x n : Nat)
  | fill (x n : Nat) (t : T)
  | copy (x y : Nat)
  | assign (x y : Nat)
  | swap (x y : Nat)
  | destroy (x : Nat)
  | reserve (x n : Nat)
  | init (x n : Nat)
  | resize (x n : Nat)
  | clear (x : Nat)
  | push (x : Nat) (t : T)
  | pushRef (x y i : Nat)
  | pop (x : Nat)
  | set (x i : Nat) (t : T)
  | erase (x s e : Nat)
  | get (x i : Nat)
  | back (x : Nat)
  | size (x : Nat)
  | eq (x y : Nat)
  | elems (x : Nat)
  | elemsRev (x : Nat)

/-- results of operations -/
inductive VRes (T : Type)
  | unit
  | val (t : T)
  | num (n : Nat)
  | bool (b : Bool)
  | list (l : List T)
  deriving DecidableEq

/-- memory and the vector variables that are alive -/
structure VSt (T : Type) where
  ram : VRam T
  vec : Nat → Option Vec

def VSt.put (st : VSt T) (x : Nat) (r : VRam T × Vec) : VSt T := ⟨r.1, upd st.vec x (some r.2)⟩

/-- applies a member function that changes the vector -/
def VSt.modify (st : VSt T) (x : Nat) (f : VRam T → Vec → Option (VRam T × Vec)) : Option (VSt T × VRes T) :=
  (st.vec x).bind fun v => (f st.ram v).map fun r => (st.put x r, .unit)

/-- a constructor: the variable must not be alive -/
def VSt.create (st : VSt T) (x : Nat) (f : VRam T → Option (VRam T × Vec)) : Option (VSt T × VRes T) :=
  if (st.vec x).isSome then none else (f st.ram).map fun r => (st.put x r, .unit)

/-- One operation. -/
def vStep (d : T) (eq : T → T → Bool) (st : VSt T) : VOp T → Option (VSt T × VRes T)
  | .new x n => st.create x fun m => vResize d m ⟨0, 0, 0⟩ n
  | .fill x n t => st.create x fun m => vFill m n t
  | .copy x y => (st.vec y).bind fun o => st.create x fun m => vCopy m o
  | .assign x y =>
    -- 99-107; `o` is read after `resize(0)` and `reserve` have changed `*this`
    (st.vec x).bind fun v => (vResize d st.ram v 0).bind fun r =>
    let st := st.put x r
    (st.vec y).bind fun o => (vReserve st.ram r.2 o.size).bind fun r =>
    let st := st.put x r
    (st.vec y).bind fun o =>
    let st := st.put x (r.1, { r.2 with size := o.size })
    (st.vec y).bind fun o => (vCopyLoop st.ram r.2.arr o.size o).map fun m => (⟨m, st.vec⟩, .unit)
  | .swap x y => (st.vec x).bind fun v => (st.vec y).map fun w => (⟨st.ram, upd (upd st.vec x (some w)) y (some v)⟩, .unit)
  | .destroy x => (st.vec x).bind fun v => (vClear st.ram v).map fun r => (⟨r.1, upd st.vec x none⟩, .unit)
  | .reserve x n => st.modify x fun m v => vReserve m v n
  | .init x n => st.modify x fun m v => vInit d m v n
  | .resize x n => st.modify x fun m v => vResize d m v n
  | .clear x => st.modify x vClear
  | .push x t => st.modify x fun m v => vPush m v t
  | .pushRef x y i => (st.vec y).bind fun o => if i < o.size then st.modify x fun m v => vPushRef m v o.arr i else none
  | .pop x => st.modify x vPop
  | .set x i t => st.modify x fun m v => if i < v.size then (m.assign v.arr i t).map fun m => (m, v) else none
  | .erase x s e => st.modify x fun m v => vErase m v s e
  | .get x i => (st.vec x).bind fun v => if i < v.size then (st.ram.read v.arr i).map fun t => (st, .val t) else none
  | .back x => (st.vec x).bind fun v => if 1 ≤ v.size then (st.ram.read v.arr (v.size - 1)).map fun t => (st, .val t) else none
  | .size x => (st.vec x).map fun v => (st, .num v.size)
  | .eq x y => (st.vec x).bind fun v => (st.vec y).bind fun o => (vEq eq st.ram v o).map fun b => (st, .bool b)
  | .elems x => (st.vec x).bind fun v => (vElems st.ram v).map fun l => (st, .list l)
  | .elemsRev x => (st.vec x).bind fun v => (vElemsRev st.ram v).map fun l => (st, .list l)

/-- A program: the final state and the results of all operations. -/
def vRun (d : T) (eq : T → T → Bool) : VSt T → List (VOp T) → Option (VSt T × List (VRes T))
  | st, [] => some (st, [])
  | st, op :: ops => (vStep d eq st op).bind fun r => (vRun d eq r.1 ops).map fun q => (q.1, r.2 :: q.2)

def VSt.empty : VSt T := ⟨.empty, fun _ => none⟩

end TdZdd
