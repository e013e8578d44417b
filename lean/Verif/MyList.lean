import Verif.Cells

/-!
# Model of `MyList` (`util/MyList.hpp`)

A cell of 8 bytes holds a pointer, whose lowest bit can be used as a flag, or user data. Pointers are given as block and index of the cell. The sizes of elements are
given in bytes. The comparison of `front_` with `blockStart(front_) + headerCells + n` (162) is done on indices (in C++ the second pointer may be outside of the block).
Numbers are unbounded.
-/

namespace TdZdd

inductive LWord
  | ptr (flag : Bool) (a i : Nat)
  | data (w : Nat)
  deriving DecidableEq

abbrev LMem := CMem LWord

/-- data members (40-41); the null pointer is `(0, 0)` -/
structure MyL where
  front : Nat × Nat
  size : Nat

def MyL.init : MyL := ⟨(0, 0), 0⟩

/-- `numCells(n)` (43-45) -/
def numCells (n : Nat) : Nat := (n + 7) / 8

/-- reads a pointer -/
def LMem.loadPtr (m : LMem) (a i : Nat) : Option (Bool × Nat × Nat) :=
  (m.load a i).bind fun w => match w with
    | .ptr f a i => some (f, a, i)
    | .data _ => none

/-- reads `blockStart(p)` (60-62) -/
def lGetStart (m : LMem) (p : Nat × Nat) : Option (Bool × Nat × Nat) := if p.2 = 0 then none else m.loadPtr p.1 (p.2 - 1)

/-- writes `blockStart(p)` (60-62) -/
def lSetStart (m : LMem) (p : Nat × Nat) (w : LWord) : Option LMem := if p.2 = 0 then none else m.store p.1 (p.2 - 1) w

/-- `delete[] q` for a pointer that must be the beginning of a block -/
def lDelete (m : LMem) (q : Bool × Nat × Nat) : Option LMem := if q.1 = false ∧ q.2.2 = 0 then m.free q.2.1 else none

/-- `alloc_front` (159-179), for `bytes` bytes; `B` is `BLOCK_ELEMENTS` -/
def lAlloc (B : Nat) (m : LMem) (l : MyL) (bytes : Nat) : Option (LMem × MyL) :=
  let n := numCells bytes + 1
  let newBlock : Option (LMem × MyL) :=
    let k := 1 + n * B
    let a := m.fresh
    (lSetStart (m.new k) (a, k - n) (.ptr false a 0)).bind fun m =>
    (m.store a (k - n) (.ptr true l.front.1 l.front.2)).map fun m => (m, ⟨(a, k - n), l.size + 1⟩)
  if l.front = (0, 0) then newBlock
  else (lGetStart m l.front).bind fun s =>
    if s.1 = false ∧ s.2.1 = l.front.1 then
      if l.front.2 < s.2.2 + 1 + n then newBlock
      else
        let p := (l.front.1, l.front.2 - n)
        (lSetStart m p (.ptr s.1 s.2.1 s.2.2)).bind fun m =>
        (m.store p.1 p.2 (.ptr false l.front.1 l.front.2)).map fun m => (m, ⟨p, l.size + 1⟩)
    else none

/-- `pop_front` (184-197) -/
def lPop (m : LMem) (l : MyL) : Option (LMem × MyL) :=
  (m.loadPtr l.front.1 l.front.2).bind fun next =>
  (lGetStart m l.front).bind fun s =>
  if next.1 then (lDelete m s).map fun m => (m, ⟨next.2, l.size - 1⟩)
  else (lSetStart m next.2 (.ptr s.1 s.2.1 s.2.2)).map fun m => (m, ⟨next.2, l.size - 1⟩)

/-- `while (!flagged(p)) p = p->next` (126-128) for a pointer `p` without flag; the first argument bounds the number of iterations. The result has its flag cleared. -/
def lSkip : Nat → LMem → Nat × Nat → Option (Nat × Nat)
  | 0, _, _ => none
  | k + 1, m, p => (m.loadPtr p.1 p.2).bind fun q => if q.1 then some q.2 else lSkip k m q.2

/-- the loop of `clear()` (122-134) -/
def lClearLoop : Nat → LMem → Nat × Nat → Option LMem
  | k, m, front =>
    if front = (0, 0) then some m
    else match k with
      | 0 => none
      | k + 1 => (lSkip (k + 1) m front).bind fun p => (lGetStart m front).bind fun s => (lDelete m s).bind fun m => lClearLoop k m p

/-- `clear()` (122-134); there are `size_` elements -/
def lClear (m : LMem) (l : MyL) : Option (LMem × MyL) := (lClearLoop l.size m l.front).map fun m => (m, MyL.init)

/-- iteration (204-225): `*t` for all iterators `t` from `begin()` to `end()` -/
def lIter : Nat → LMem → Nat × Nat → Option (List (Nat × Nat))
  | k, m, p =>
    if p = (0, 0) then some []
    else match k with
      | 0 => none
      | k + 1 => (m.loadPtr p.1 p.2).bind fun q => (lIter k m q.2).map fun r => (p.1, p.2 + 1) :: r

/-! ## Programs with lists -/

/-- Operations on list variables. The results of `alloc_front` are numbered in the order of the calls; `store x h j w` writes the cell `j` of the result `h`,
which is an element of `x`. -/
inductive LOp
  | new (x : Nat)
  | copy (x y : Nat)
  | assign (x y : Nat)
  | destroy (x : Nat)
  | clear (x : Nat)
  | alloc (x n : Nat)
  | pop (x : Nat)
  | front (x : Nat)
  | elems (x : Nat)
  | size (x : Nat)
  | isEmpty (x : Nat)
  | store (x h j w : Nat)
  | load (x h j : Nat)

/-- Results; `π` is the type of pointers. -/
inductive LRes (π : Type)
  | unit
  | throws
  | num (n : Nat)
  | bool (b : Bool)
  | word (w : Nat)
  | ptrs (l : List π)
  deriving DecidableEq

def LRes.map {π ρ : Type} (f : π → ρ) : LRes π → LRes ρ
  | .unit => .unit
  | .throws => .throws
  | .num n => .num n
  | .bool b => .bool b
  | .word w => .word w
  | .ptrs l => .ptrs (l.map f)

/-- memory, lists that are alive, and the pointers that the program has got -/
structure LSt where
  mem : LMem
  list : Nat → Option MyL
  ptr : List (Nat × Nat)

def LSt.empty : LSt := ⟨CMem.empty, fun _ => none, []⟩

/-- One operation. Copy and assignment (72-83) throw an exception unless the source is empty. -/
def lStep (B : Nat) (st : LSt) : LOp → Option (LSt × LRes (Nat × Nat))
  | .new x => if (st.list x).isSome then none else some ({ st with list := upd st.list x (some MyL.init) }, .unit)
  | .copy x y => (st.list y).bind fun o => if (st.list x).isSome then none
      else if o.size ≠ 0 then some (st, .throws) else some ({ st with list := upd st.list x (some MyL.init) }, .unit)
  | .assign x y => (st.list y).bind fun o => (st.list x).bind fun l =>
      if o.size ≠ 0 then some (st, .throws) else (lClear st.mem l).map fun r => ({ st with mem := r.1, list := upd st.list x (some r.2) }, .unit)
  | .destroy x => (st.list x).bind fun l => (lClear st.mem l).map fun r => ({ st with mem := r.1, list := upd st.list x none }, .unit)
  | .clear x => (st.list x).bind fun l => (lClear st.mem l).map fun r => ({ st with mem := r.1, list := upd st.list x (some r.2) }, .unit)
  | .alloc x n => (st.list x).bind fun l => (lAlloc B st.mem l n).map fun r =>
      (⟨r.1, upd st.list x (some r.2), st.ptr ++ [(r.2.front.1, r.2.front.2 + 1)]⟩, .ptrs [(r.2.front.1, r.2.front.2 + 1)])
  | .pop x => (st.list x).bind fun l => (lPop st.mem l).map fun r => ({ st with mem := r.1, list := upd st.list x (some r.2) }, .unit)
  | .front x => (st.list x).bind fun l => if l.front = (0, 0) then none else some (st, .ptrs [(l.front.1, l.front.2 + 1)])
  | .elems x => (st.list x).bind fun l => (lIter l.size st.mem l.front).map fun r => (st, .ptrs r)
  | .size x => (st.list x).map fun l => (st, .num l.size)
  | .isEmpty x => (st.list x).map fun l => (st, .bool (decide (l.front = (0, 0))))
  | .store _ h j w => st.ptr[h]?.bind fun q => (st.mem.store q.1 (q.2 + j) (.data w)).map fun m => ({ st with mem := m }, .unit)
  | .load _ h j => st.ptr[h]?.bind fun q => (st.mem.load q.1 (q.2 + j)).bind fun w => match w with
      | .data w => some (st, .word w)
      | .ptr .. => none

def lRun (B : Nat) : LSt → List LOp → Option (LSt × List (LRes (Nat × Nat)))
  | st, [] => some (st, [])
  | st, op :: ops => (lStep B st op).bind fun r => (lRun B r.1 ops).map fun q => (q.1, r.2 :: q.2)

end TdZdd
