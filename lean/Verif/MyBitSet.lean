import Verif.Builder

/-!
# Model of `MyBitSet` and `MyBitSetOnPool` (`util/MySet.hpp` 37-289)

Words are `BitVec 64`. Failure of an assertion, access outside of the array and shifts by 64 are undefined behaviour. `hash` and `operator<<` are in `SetText.lean`.
-/

namespace TdZdd

/-- template argument `N` and data member (39-41); for `N = 0` the array is that allocated by `MyBitSetOnPool::newInstance` -/
structure BSet where
  N : Nat
  arr : List (BitVec 64)
  deriving DecidableEq

/-- `numWords()` (69-71) -/
def BSet.numWords (s : BSet) : Nat := if s.N = 0 then (s.arr[0]?.getD 0).toNat else s.N

/-- `offset` (39) -/
def BSet.offset (s : BSet) : Nat := if s.N = 0 then 1 else 0

/-- reads `word(i)` (48-51) -/
def bGet (s : BSet) (i : Nat) : Option (BitVec 64) := if i < s.numWords then s.arr[i + s.offset]? else none

/-- writes `word(i)` (43-46) -/
def bSet (s : BSet) (i : Nat) (w : BitVec 64) : Option BSet :=
  if i < s.numWords ∧ i + s.offset < s.arr.length then some { s with arr := s.arr.set (i + s.offset) w } else none

/-- `mask(i)` (53-55) -/
def bMask (i : Nat) : Option (BitVec 64) := if i < 64 then some (1#64 <<< i) else none

/-- `word(i) = 0` for `n` words from `i` on (60-62, 78-80) -/
def bZero : Nat → Nat → BSet → Option BSet
  | 0, _, s => some s
  | n + 1, i, s => (bSet s i 0).bind fun s => bZero n (i + 1) s

/-- `MyBitSet(n)` (58-63) for `N > 0`; the contents of the new array are arbitrary -/
def bNew (N : Nat) (n : BitVec 64) (junk : BitVec 64) : Option BSet := bZero (N - 1) 1 ⟨N, (List.replicate N junk).set 0 n⟩

/-- `newInstance(pool, bits)` (285-288) -/
def bNewPool (bits : Nat) (junk : BitVec 64) : Option BSet :=
  let n := (bits + 63) % 2 ^ 64 / 64
  bZero n 0 ⟨0, (List.replicate (1 + n) junk).set 0 (BitVec.ofNat 64 n)⟩

/-- `clear()` (77-81) -/
def bClear (s : BSet) : Option BSet := bZero s.numWords 0 s

/-- `empty()` (87-92) from word `i` on -/
def bEmpty (s : BSet) : Nat → Nat → Option Bool
  | 0, _ => some true
  | n + 1, i => (bGet s i).bind fun w => if w ≠ 0 then some false else bEmpty s n (i + 1)

/-- `add(i)` (98-102) -/
def bAdd (s : BSet) (i : Nat) : Option BSet := (bGet s (i / 64)).bind fun w => (bMask (i % 64)).bind fun m => bSet s (i / 64) (w ||| m)

/-- `remove(i)` (108-112) -/
def bRemove (s : BSet) (i : Nat) : Option BSet := (bGet s (i / 64)).bind fun w => (bMask (i % 64)).bind fun m => bSet s (i / 64) (w &&& ~~~m)

/-- `includes(i)` (136-140) -/
def bIncludes (s : BSet) (i : Nat) : Option Bool := (bGet s (i / 64)).bind fun w => (bMask (i % 64)).map fun m => decide (w &&& m ≠ 0)

/-- `intersects(o)` (147-153) from word `i` on -/
def bIntersects (s o : BSet) : Nat → Nat → Option Bool
  | 0, _ => some false
  | n + 1, i => (bGet s i).bind fun w => (bGet o i).bind fun v => if w &&& v ≠ 0 then some true else bIntersects s o n (i + 1)

/-- `operator==` (252-259) from word `i` on -/
def bEqLoop (s o : BSet) : Nat → Nat → Option Bool
  | 0, _ => some true
  | n + 1, i => (bGet s i).bind fun w => (bGet o i).bind fun v => if w ≠ v then some false else bEqLoop s o n (i + 1)

def bEq (s o : BSet) : Option Bool := if o.numWords ≠ s.numWords then some false else bEqLoop s o s.numWords 0

/-- the loop of `pullout` (125-128), `n` times for `p = array_ + i` -/
def bPulloutLoop : Nat → Nat → List (BitVec 64) → Option (List (BitVec 64))
  | 0, _, a => some a
  | n + 1, i, a => a[i]?.bind fun w => a[i - 1]?.bind fun v => bPulloutLoop n (i + 1) ((a.set (i - 1) (v ||| (w >>> 63))).set i (w <<< 1))

/-- `pullout(i)` (119-129) -/
def bPullout (s : BSet) (i : Nat) : Option BSet :=
  let k := i / 64
  (bGet s k).bind fun w =>
  (bMask (i % 64 + 1)).bind fun m =>
  (bSet s k ((w &&& ~~~(m - 1)) ||| ((w <<< 1) &&& (m - 1)))).bind fun s =>
  (bPulloutLoop (s.numWords - 1) (k + s.offset + 1) s.arr).map fun a => { s with arr := a }

/-- `__builtin_ffsll`: one plus the index of the least significant 1-bit -/
def ffs (w : BitVec 64) : Nat := match (List.range 64).find? fun i => w.getLsbD i with
  | none => 0
  | some i => i + 1

/-- iterator (156-160); `bit` is `bitPos + 1` -/
structure BIt where
  wordPos : Nat
  bit : Nat
  word : BitVec 64

/-- `operator++` (175-207); the first argument bounds the number of iterations -/
def bNext (s : BSet) : Nat → BIt → Option BIt
  | k, t =>
    if t.word = 0 then
      if s.numWords ≤ t.wordPos + 1 then some ⟨s.numWords, 0, t.word⟩
      else match k with
        | 0 => none
        | k + 1 => (bGet s (t.wordPos + 1)).bind fun w => bNext s k ⟨t.wordPos + 1, 0, w⟩
    else if t.word = 1#64 <<< 63 then some ⟨t.wordPos, 64, 0⟩
    else if ffs t.word < 64 then some ⟨t.wordPos, t.bit + ffs t.word, t.word >>> ffs t.word⟩ else none

/-- `begin()` (222-224), with the constructor (166-169) -/
def bBegin (s : BSet) : Option BIt :=
  if s.numWords = 0 then some ⟨s.numWords, 0, 0⟩ else (bGet s 0).bind fun w => bNext s s.numWords ⟨0, 0, w⟩

/-- iteration: `*t` for all iterators `t` up to `end()`, compared by `operator==` (209-211); the first argument bounds the number of elements -/
def bIter (s : BSet) : Nat → BIt → Option (List Nat)
  | k, t =>
    if t.wordPos = s.numWords ∧ t.bit = 0 then some []
    else match k with
      | 0 => none
      | k + 1 => (bNext s s.numWords t).bind fun t' => (bIter s k t').map fun l => (t.wordPos * 64 + t.bit - 1) :: l

def bElems (s : BSet) : Option (List Nat) := (bBegin s).bind fun t => bIter s (64 * s.numWords) t

/-! ## Programs with bit sets -/

/-- Operations on set variables; `junk` is the previous content of the memory of a new set. -/
inductive BsOp
  | new (x N : Nat) (n junk : BitVec 64)
  | newPool (x bits : Nat) (junk : BitVec 64)
  | copy (x y : Nat)
  | destroy (x : Nat)
  | clear (x : Nat)
  | add (x i : Nat)
  | remove (x i : Nat)
  | includes (x i : Nat)
  | isEmpty (x : Nat)
  | numWords (x : Nat)
  | intersects (x y : Nat)
  | elems (x : Nat)
  | eq (x y : Nat)

inductive BsRes
  | unit
  | bool (b : Bool)
  | num (n : Nat)
  | list (l : List Nat)
  deriving DecidableEq

/-- One operation. Sets with `N = 0` are not copied; operations with two sets need the same template argument. -/
def bsStep (st : Nat → Option BSet) : BsOp → Option ((Nat → Option BSet) × BsRes)
  | .new x N n junk => if (st x).isSome ∨ N = 0 then none else (bNew N n junk).map fun s => (upd st x (some s), .unit)
  | .newPool x bits junk => if (st x).isSome then none else (bNewPool bits junk).map fun s => (upd st x (some s), .unit)
  | .copy x y => (st y).bind fun s => if (st x).isSome ∨ s.N = 0 then none else some (upd st x (some s), .unit)
  | .destroy x => (st x).map fun _ => (upd st x none, .unit)
  | .clear x => (st x).bind fun s => (bClear s).map fun s => (upd st x (some s), .unit)
  | .add x i => (st x).bind fun s => (bAdd s i).map fun s => (upd st x (some s), .unit)
  | .remove x i => (st x).bind fun s => (bRemove s i).map fun s => (upd st x (some s), .unit)
  | .includes x i => (st x).bind fun s => (bIncludes s i).map fun b => (st, .bool b)
  | .isEmpty x => (st x).bind fun s => (bEmpty s s.numWords 0).map fun b => (st, .bool b)
  | .numWords x => (st x).map fun s => (st, .num s.numWords)
  | .intersects x y => (st x).bind fun s => (st y).bind fun o => if s.N = o.N then (bIntersects s o (min s.numWords o.numWords) 0).map fun b => (st, .bool b) else none
  | .elems x => (st x).bind fun s => (bElems s).map fun l => (st, .list l)
  | .eq x y => (st x).bind fun s => (st y).bind fun o => if s.N = o.N then (bEq s o).map fun b => (st, .bool b) else none

def bsRun : (Nat → Option BSet) → List BsOp → Option ((Nat → Option BSet) × List BsRes)
  | st, [] => some (st, [])
  | st, op :: ops => (bsStep st op).bind fun r => (bsRun r.1 ops).map fun q => (q.1, r.2 :: q.2)

/-! ## Reference semantics -/

/-- a set of integers below `64 * words`; the values of `mem` for greater arguments have no meaning -/
structure ISet where
  N : Nat
  words : Nat
  mem : Nat → Bool

/-- Meaning of an operation; `none` if the operation is not allowed. -/
def isStep (st : Nat → Option ISet) : BsOp → Option ((Nat → Option ISet) × BsRes)
  | .new x N n _ => if (st x).isSome ∨ N = 0 then none else some (upd st x (some ⟨N, N, fun i => n.getLsbD i⟩), .unit)
  | .newPool x bits _ => if (st x).isSome ∨ 2 ^ 64 ≤ bits + 63 then none else some (upd st x (some ⟨0, (bits + 63) / 64, fun _ => false⟩), .unit)
  | .copy x y => (st y).bind fun s => if (st x).isSome ∨ s.N = 0 then none else some (upd st x (some s), .unit)
  | .destroy x => (st x).map fun _ => (upd st x none, .unit)
  | .clear x => (st x).map fun s => (upd st x (some { s with mem := fun _ => false }), .unit)
  | .add x i => (st x).bind fun s => if i < 64 * s.words then some (upd st x (some { s with mem := upd s.mem i true }), .unit) else none
  | .remove x i => (st x).bind fun s => if i < 64 * s.words then some (upd st x (some { s with mem := upd s.mem i false }), .unit) else none
  | .includes x i => (st x).bind fun s => if i < 64 * s.words then some (st, .bool (s.mem i)) else none
  | .isEmpty x => (st x).map fun s => (st, .bool ((List.range (64 * s.words)).all fun i => !s.mem i))
  | .numWords x => (st x).map fun s => (st, .num s.words)
  | .intersects x y => (st x).bind fun s => (st y).bind fun o =>
      if s.N = o.N then some (st, .bool ((List.range (64 * min s.words o.words)).any fun i => s.mem i && o.mem i)) else none
  | .elems x => (st x).map fun s => (st, .list ((List.range (64 * s.words)).filter s.mem))
  | .eq x y => (st x).bind fun s => (st y).bind fun o =>
      if s.N = o.N then some (st, .bool (decide (s.words = o.words) && (List.range (64 * s.words)).all fun i => s.mem i == o.mem i)) else none

def isRun : (Nat → Option ISet) → List BsOp → Option ((Nat → Option ISet) × List BsRes)
  | st, [] => some (st, [])
  | st, op :: ops => (isStep st op).bind fun r => (isRun r.1 ops).map fun q => (q.1, r.2 :: q.2)

end TdZdd
