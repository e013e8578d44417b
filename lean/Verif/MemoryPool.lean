import Verif.Cells

/-!
# Model of `MemoryPool` (`util/MemoryPool.hpp`)

Memory consists of blocks of units (words of 8 bytes); `Unit::next` is the first unit of a block of a pool. Address 0 is the null pointer.
Allocation from the system never fails and does not reuse addresses. `none` is undefined behaviour or a loop that does not end.
Pointers are given as block and index of the unit. The virtual destructor, `Allocator` and `operator<<` are not modelled.
-/

namespace TdZdd

/-- memory of words -/
abbrev PlMem := CMem Nat

abbrev PlBlk := CBlk Nat

/-- `UNIT_SIZE` (44), for 64-bit pointers -/
def unitSize : Nat := 8

/-- `BLOCK_UNITS` (45) -/
def blockUnits : Nat := 400000 / unitSize

/-- `MAX_ELEMENT_UNIS` (46) -/
def maxElementUnits : Nat := blockUnits / 10

/-- data members (48-49) -/
structure Pool where
  list : Nat
  next : Nat
  deriving DecidableEq

/-- constructor and copy constructor (52-60) -/
def Pool.init : Pool := ⟨0, blockUnits⟩

/-- `moveFrom(o)` (80-84): new values of `*this` and `o` -/
def Pool.moveFrom (o : Pool) : Pool × Pool := (o, { o with list := 0 })

/-- the loop of `clear()` (94-101); the first argument bounds the number of iterations -/
def plClearLoop : Nat → PlMem → Nat → Option PlMem
  | k, m, list =>
    if list = 0 then some m
    else match k with
      | 0 => none
      | k + 1 => (m.load list 0).bind fun next => (m.free list).bind fun m => plClearLoop k m next

/-- `clear()` (94-101); there are less than `m.fresh` blocks -/
def plClear (m : PlMem) (p : Pool) : Option (PlMem × Pool) :=
  (plClearLoop m.fresh m p.list).map fun m => (m, ⟨0, blockUnits⟩)

/-- the loop of `reuse()` (103-111) -/
def plReuseLoop : Nat → PlMem → Nat → Option (PlMem × Nat)
  | 0, _, _ => none
  | k + 1, m, list => (m.load list 0).bind fun next =>
    if next = 0 then some (m, list) else (m.free list).bind fun m => plReuseLoop k m next

/-- `reuse()` (103-111) -/
def plReuse (m : PlMem) (p : Pool) : Option (PlMem × Pool) :=
  if p.list = 0 then some (m, p) else (plReuseLoop m.fresh m p.list).map fun r => (r.1, ⟨r.2, 1⟩)

/-- the loop of `splice` (116-118) for a non-empty list: the last block -/
def plLast : Nat → PlMem → Nat → Option Nat
  | 0, _, _ => none
  | k + 1, m, list => (m.load list 0).bind fun next => if next = 0 then some list else plLast k m next

/-- `splice(o)` (113-127) for different pools: new values of `*this` and `o` -/
def plSplice (m : PlMem) (p o : Pool) : Option (PlMem × Pool × Pool) :=
  if p.list = 0 then some (m, o, Pool.init)
  else if o.list = 0 then some (m, ⟨p.list, o.next⟩, Pool.init)
  else (plLast m.fresh m o.list).bind fun a => (m.store a 0 p.list).map fun m => (m, o, Pool.init)

/-- `splice(*this)` (113-127) -/
def plSpliceSelf (m : PlMem) (p : Pool) : Option (PlMem × Pool) :=
  if p.list = 0 then some (m, Pool.init)
  else (plLast m.fresh m p.list).bind fun a => (m.store a 0 p.list).map fun m => (m, Pool.init)

/-- `alloc(n)` (129-157); `n + UNIT_SIZE - 1` is calculated modulo 2^64. The result of `blockList + nextUnit` must be in the block or just behind it. -/
def plAlloc (m : PlMem) (p : Pool) (n : Nat) : Option (PlMem × Pool × Nat × Nat) :=
  let e := ((n + (unitSize - 1)) % 2 ^ 64) / unitSize
  if maxElementUnits < e then
    let a := m.fresh
    let m := m.new (e + 1)
    if p.list = 0 then (m.store a 0 0).map fun m => (m, { p with list := a }, a, 1)
    else (m.load p.list 0).bind fun next => (m.store a 0 next).bind fun m => (m.store p.list 0 a).map fun m => (m, p, a, 1)
  else if blockUnits < p.next + e then
    let a := m.fresh
    ((m.new blockUnits).store a 0 p.list).map fun m => (m, ⟨a, 1 + e⟩, a, 1)
  else
    (m.blk p.list).bind fun b => if p.next ≤ b.len then some (m, { p with next := p.next + e }, p.list, p.next) else none

/-! ## Programs with pools -/

/-- Operations on pool variables. The results of `alloc` are numbered in the order of the calls; `store x h i w` writes the unit `i` of the result `h`, which
was allocated from `x`. `move x y` is what `MyVector<MemoryPool>::moveElement` (232-236) does: `x` is new, `y` is not used afterwards. -/
inductive PlOp
  | new (x : Nat)
  | copy (x y : Nat)
  | move (x y : Nat)
  | destroy (x : Nat)
  | clear (x : Nat)
  | reuse (x : Nat)
  | splice (x y : Nat)
  | isEmpty (x : Nat)
  | alloc (x n : Nat)
  | store (x h i w : Nat)
  | load (x h i : Nat)

inductive PlRes
  | unit
  | bool (b : Bool)
  | word (w : Nat)
  deriving DecidableEq

/-- memory, pools that are alive, and the pointers that the program has got -/
structure PlSt where
  mem : PlMem
  pool : Nat → Option Pool
  ptr : List (Nat × Nat)

def PlSt.empty : PlSt := ⟨CMem.empty, fun _ => none, []⟩

/-- One operation. -/
def plStep (st : PlSt) : PlOp → Option (PlSt × PlRes)
  | .new x => if (st.pool x).isSome then none else some ({ st with pool := upd st.pool x (some Pool.init) }, .unit)
  | .copy x y => (st.pool y).bind fun _ => if (st.pool x).isSome then none else some ({ st with pool := upd st.pool x (some Pool.init) }, .unit)
  | .move x y => (st.pool y).bind fun o =>
      if (st.pool x).isSome then none else some ({ st with pool := upd (upd st.pool y none) x (some o.moveFrom.1) }, .unit)
  | .destroy x => (st.pool x).bind fun p => (plClear st.mem p).map fun r => ({ st with mem := r.1, pool := upd st.pool x none }, .unit)
  | .clear x => (st.pool x).bind fun p => (plClear st.mem p).map fun r => ({ st with mem := r.1, pool := upd st.pool x (some r.2) }, .unit)
  | .reuse x => (st.pool x).bind fun p => (plReuse st.mem p).map fun r => ({ st with mem := r.1, pool := upd st.pool x (some r.2) }, .unit)
  | .splice x y => (st.pool x).bind fun p => (st.pool y).bind fun o =>
      if x = y then (plSpliceSelf st.mem p).map fun r => ({ st with mem := r.1, pool := upd st.pool x (some r.2) }, .unit)
      else (plSplice st.mem p o).map fun r => ({ st with mem := r.1, pool := upd (upd st.pool x (some r.2.1)) y (some r.2.2) }, .unit)
  | .isEmpty x => (st.pool x).map fun p => (st, .bool (decide (p.list = 0)))
  | .alloc x n => (st.pool x).bind fun p =>
      (plAlloc st.mem p n).map fun r => (⟨r.1, upd st.pool x (some r.2.1), st.ptr ++ [r.2.2]⟩, .unit)
  | .store _ h i w => st.ptr[h]?.bind fun q => (st.mem.store q.1 (q.2 + i) w).map fun m => ({ st with mem := m }, .unit)
  | .load _ h i => st.ptr[h]?.bind fun q => (st.mem.load q.1 (q.2 + i)).map fun w => (st, .word w)

def plRun : PlSt → List PlOp → Option (PlSt × List PlRes)
  | st, [] => some (st, [])
  | st, op :: ops => (plStep st op).bind fun r => (plRun r.1 ops).map fun q => (q.1, r.2 :: q.2)

end TdZdd
