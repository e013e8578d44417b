import Verif.MyVectorSpec

/-!
# Model of `DataTable` (`dd/DataTable.hpp`): a `MyVector` whose elements are `MyVector`s

In the model of `MyVector` (`MyVector.lean`, C50) constructors and destructors of the elements have no effects. Here the elements are vectors themselves: copying one allocates an array and destructing one releases it.
The vectors that are rows are variables of a program of C50: the one in cell `i` of block `a` of the outer memory is the variable `code a i`, and the cell is raw memory if this variable is not alive.
So `blk` has to keep only the number of cells of each block. All effects on the inner memory are those of `vStep`.
`none` is undefined behaviour or a failed assertion. Row numbers are natural numbers; the conversions between `int` and `size_t` are not modelled. `d` is the value of `T()`.
-/

namespace TdZdd

namespace DTab

variable {T : Type}

/-- name of the row in cell `i` of block `a` -/
def code (a i : Nat) : Nat := 2 ^ a * (2 * i + 1)

/-- memory for the rows, the rows with their memory, and the tables that are alive -/
structure St (T : Type) where
  fresh : Nat
  blk : Nat → Option Nat
  inn : VSt T
  tab : Nat → Option Vec

def St.empty : St T := ⟨1, fun _ => none, VSt.empty, fun _ => none⟩

/-- an operation on a row -/
def St.row (s : St T) (d : T) (op : VOp T) : Option (St T × VRes T) := (vStep d (fun _ _ => true) s.inn op).map fun r => ({ s with inn := r.1 }, r.2)

/-- the cell `array[i]` -/
def St.cell (s : St T) (a i : Nat) : Option Nat := (s.blk a).bind fun n => if i < n then some (code a i) else none

/-- `new (array + i) T()` where `T` is `MyVector`, `MyVector()` (`MyVector.hpp` 63-65) -/
def newCell (d : T) (s : St T) (a i : Nat) : Option (St T) := (s.cell a i).bind fun x => (s.row d (.new x 0)).map (·.1)

/-- `array[i].~T()`, `~MyVector()` (`MyVector.hpp` 168-170) -/
def delCell (d : T) (s : St T) (a i : Nat) : Option (St T) := (s.cell a i).bind fun x => (s.row d (.destroy x)).map (·.1)

/-- `new (b + i) T(a[i])`, the copy constructor (`MyVector.hpp` 91-97) -/
def copyCell (d : T) (s : St T) (a b i : Nat) : Option (St T) := (s.cell a i).bind fun x => (s.cell b i).bind fun y => (s.row d (.copy y x)).map (·.1)

/-- `moveElement(a[i], b[i])` (`MyVector.hpp` 54-60), for different arrays -/
def moveCell (d : T) (s : St T) (a b i : Nat) : Option (St T) := (copyCell d s a b i).bind fun s => delCell d s a i

/-- `while (n < size_) array_[--size_].~T()` (`MyVector.hpp` 238-240, 248-250, 295-297); the last argument but one is `size_` -/
def popTo (d : T) (a n : Nat) : Nat → St T → Option (St T)
  | 0, s => some s
  | k + 1, s => if n < k + 1 then (delCell d s a k).bind (popTo d a n k) else some s

/-- `while (size_ < n) new (array_ + size_++) T()` (`MyVector.hpp` 242-244, 258-260): `k` rounds from `size_ = i` on -/
def grow (d : T) (a : Nat) : Nat → Nat → St T → Option (St T)
  | 0, _, s => some s
  | k + 1, i, s => (newCell d s a i).bind (grow d a k (i + 1))

/-- `for (; i < size_; ++i) moveElement(array_[i], tmp[i])` (`MyVector.hpp` 206-208, 254-256): `k` rounds -/
def moveAll (d : T) (a b : Nat) : Nat → Nat → St T → Option (St T)
  | 0, _, s => some s
  | k + 1, i, s => (moveCell d s a b i).bind (moveAll d a b k (i + 1))

/-- `for (; i < size_; ++i) new (array_ + i) T(o[i])` (`MyVector.hpp` 94-96, 103-105): `k` rounds; `o[i]` checks its argument -/
def copyAll (d : T) (o : Vec) (b : Nat) : Nat → Nat → St T → Option (St T)
  | 0, _, s => some s
  | k + 1, i, s => if i < o.size then (copyCell d s o.arr b i).bind (copyAll d o b k (i + 1)) else none

/-- `allocate(n)` (`MyVector.hpp` 39-41); the address is `s.fresh` -/
def alloc (s : St T) (n : Nat) : St T := { s with fresh := s.fresh + 1, blk := upd s.blk s.fresh (some n) }

/-- `deallocate(p, n)` (`MyVector.hpp` 43-45): the block must have `n` cells and all of them must be raw memory. A null pointer is ignored. -/
def dealloc (s : St T) (p n : Nat) : Option (St T) :=
  if p = 0 then some s
  else if s.blk p = some n ∧ (List.range n).all (fun i => (s.inn.vec (code p i)).isNone) then some { s with blk := upd s.blk p none } else none

/-- `clear()` (`MyVector.hpp` 292-302) -/
def clear (d : T) (s : St T) (v : Vec) : Option (St T × Vec) :=
  if v.arr ≠ 0 then
    if 0 < v.cap then (popTo d v.arr 0 v.size s).bind fun s => (dealloc s v.arr v.cap).map fun s => (s, ⟨0, 0, 0⟩) else none
  else some (s, { v with cap := 0 })

/-- `reserve(capacity)` (`MyVector.hpp` 201-214) -/
def reserve (d : T) (s : St T) (v : Vec) (c : Nat) : Option (St T × Vec) :=
  if v.cap < c then
    let tmp := s.fresh
    let s := alloc s c
    if v.arr ≠ 0 then
      if v.size ≤ v.cap then (moveAll d v.arr tmp v.size 0 s).bind fun s => (dealloc s v.arr v.cap).map fun s => (s, ⟨c, v.size, tmp⟩) else none
    else some (s, ⟨c, v.size, tmp⟩)
  else some (s, v)

/-- `resize(n)` (`MyVector.hpp` 232-265) -/
def resize (d : T) (s : St T) (v : Vec) (n : Nat) : Option (St T × Vec) :=
  if n = 0 then clear d s v
  else if v.cap * 10 ≤ n * 11 ∧ n ≤ v.cap then
    (popTo d v.arr n v.size s).bind fun s => (grow d v.arr (n - min n v.size) (min n v.size) s).map fun s => (s, { v with size := n })
  else
    (popTo d v.arr n v.size s).bind fun s =>
    let size := min n v.size
    let tmp := s.fresh
    (moveAll d v.arr tmp size 0 (alloc s n)).bind fun s =>
    (grow d tmp (n - size) size s).bind fun s =>
    (dealloc s v.arr v.cap).map fun s => (s, ⟨n, n, tmp⟩)

/-- copy constructor (`MyVector.hpp` 91-97) -/
def copy (d : T) (s : St T) (o : Vec) : Option (St T × Vec) :=
  if o.size ≠ 0 then (copyAll d o s.fresh o.size 0 (alloc s o.size)).map fun s' => (s', ⟨o.size, o.size, s.fresh⟩)
  else some (s, ⟨0, 0, 0⟩)

/-! ## Programs with tables -/

/-- operations on table variables -/
inductive Op (T : Type)
  | new (x n : Nat)
  | copy (x y : Nat)
  | assign (x y : Nat)
  | destroy (x : Nat)
  | init (x n : Nat)
  | setNumRows (x n : Nat)
  | initRow (x i n : Nat)
  | addColumn (x i : Nat)
  | numRows (x : Nat)
  | rowSize (x i : Nat)
  | totalSize (x : Nat)
  | get (x i j : Nat)
  | set (x i j : Nat) (t : T)
  | rows (x : Nat)

/-- results -/
inductive Out (T : Type)
  | unit
  | num (n : Nat)
  | val (t : T)
  | rows (l : List (List T))
  deriving DecidableEq

/-- table `x` after an operation -/
def St.put (s : St T) (x : Nat) (v : Option Vec) : St T := { s with tab := upd s.tab x v }

/-- the vector `table[i]` (`MyVector.hpp` 359-372): the index is checked -/
def St.at (s : St T) (x i : Nat) : Option Nat := (s.tab x).bind fun v => if i < v.size then s.cell v.arr i else none

/-- `table[i].size()` -/
def St.len (s : St T) (d : T) (y : Nat) : Option Nat := (s.row d (.size y)).bind fun r => match r.2 with | .num n => some n | _ => none

/-- the loop of `totalSize()` (`DataTable.hpp` 156-162) -/
def total (s : St T) (d : T) (x : Nat) : Nat → Nat → Nat → Option Nat
  | 0, _, k => some k
  | c + 1, i, k => (s.at x i).bind fun y => (s.len d y).bind fun n => total s d x c (i + 1) (k + n)

/-- the inner loop of `operator<<` (`DataTable.hpp` 185-188): the elements that are printed -/
def rowElems (s : St T) (d : T) (y : Nat) : Nat → Nat → Option (List T)
  | 0, _ => some []
  | c + 1, j => (s.row d (.get y j)).bind fun r => match r.2 with
    | .val t => (rowElems s d y c (j + 1)).map (t :: ·)
    | _ => none

/-- the outer loop of `operator<<` (`DataTable.hpp` 183-190) -/
def elems (s : St T) (d : T) (x : Nat) : Nat → Nat → Option (List (List T))
  | 0, _ => some []
  | c + 1, i => (s.at x i).bind fun y => (s.len d y).bind fun n => (rowElems s d y n 0).bind fun l => (elems s d x c (i + 1)).map (l :: ·)

/-- the text of a row from column `j` on (`DataTable.hpp` 185-188); `sh` is `operator<<` of the elements -/
def rowText (sh : T → List Char) : Nat → List T → List Char
  | _, [] => []
  | j, t :: l => (if j ≠ 0 then [',', ' '] else []) ++ sh t ++ rowText sh (j + 1) l

/-- the text of a table from row `i` on (`DataTable.hpp` 182-192) -/
def text (sh : T → List Char) : Nat → List (List T) → List Char
  | _, [] => []
  | i, l :: L => (toString i).toList ++ [':', ' '] ++ rowText sh 0 l ++ ['\n'] ++ text sh (i + 1) L

/-- one operation -/
def step (d : T) (s : St T) : Op T → Option (St T × Out T)
  -- 46-48
  | .new x n => if (s.tab x).isSome then none else (resize d s ⟨0, 0, 0⟩ n).map fun r => (r.1.put x (some r.2), .unit)
  -- 50-52
  | .copy x y => (s.tab y).bind fun o => if (s.tab x).isSome then none else (copy d s o).map fun r => (r.1.put x (some r.2), .unit)
  -- 54-57 and `MyVector.hpp` 99-107; `o` is read after `resize(0)` and `reserve` have changed `*this`
  | .assign x y =>
    (s.tab x).bind fun v => (resize d s v 0).bind fun r =>
    let s := r.1.put x (some r.2)
    (s.tab y).bind fun o => (reserve d s r.2 o.size).bind fun r =>
    let s := r.1.put x (some r.2)
    (s.tab y).bind fun o =>
    let s := s.put x (some { r.2 with size := o.size })
    (s.tab y).bind fun o => (copyAll d o r.2.arr o.size 0 s).map fun s => (s, .unit)
  | .destroy x => (s.tab x).bind fun v => (clear d s v).map fun r => (r.1.put x none, .unit)
  -- 91-94
  | .init x n => (s.tab x).bind fun v => (clear d s v).bind fun r => (resize d r.1 r.2 n).map fun r => (r.1.put x (some r.2), .unit)
  -- 100-102
  | .setNumRows x n => (s.tab x).bind fun v => (resize d s v n).map fun r => (r.1.put x (some r.2), .unit)
  -- 109-112
  | .initRow x i n => (s.at x i).bind fun y => (s.row d (.clear y)).bind fun r => (r.1.row d (.resize y n)).map fun r => (r.1, .unit)
  -- 139-142
  | .addColumn x i => (s.at x i).bind fun y => (s.row d (.push y d)).bind fun r => (r.1.len d y).map fun n => (r.1, .num (n - 1))
  -- 148-150
  | .numRows x => (s.tab x).map fun v => (s, .num v.size)
  | .rowSize x i => (s.at x i).bind fun y => (s.len d y).map fun n => (s, .num n)
  -- 156-162
  | .totalSize x => (s.tab x).bind fun v => (total s d x v.size 0 0).map fun n => (s, .num n)
  -- 169-180
  | .get x i j => (s.at x i).bind fun y => (s.row d (.get y j)).bind fun r => match r.2 with | .val t => some (s, .val t) | _ => none
  | .set x i j t => (s.at x i).bind fun y => (s.row d (.set y j t)).map fun r => (r.1, .unit)
  -- 182-192
  | .rows x => (s.tab x).bind fun v => (elems s d x v.size 0).map fun l => (s, .rows l)

/-- a program: the final state and the results of all operations -/
def run (d : T) : St T → List (Op T) → Option (St T × List (Out T))
  | s, [] => some (s, [])
  | s, op :: ops => (step d s op).bind fun r => (run d r.1 ops).map fun q => (q.1, r.2 :: q.2)

end DTab

end TdZdd
