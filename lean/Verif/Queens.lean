import Verif.Semantics
import Verif.PodArray

/-!
# Model of `NQueenZdd`, `NRookZdd`, `ColoredNQueenZdd`, `ColoredNRookZdd` (`apps/ddqueens/NQueenZdd.hpp`)

The state is the array of `uint32_t` bitmaps. Undefined behaviour (access outside of the array, failed assertion) is `none`. All shift counts in `getChild` are columns of the board;
they are below 32 if `getRoot` is defined.
-/

namespace TdZdd.Queens

/-- `bit(j)` (`NQueenZdd.hpp` 40-42, 162-164) -/
def bit (j : Nat) : BitVec 32 := 1#32 <<< j

/-- `__builtin_popcount` -/
def popcount (x : BitVec 32) : Nat := ((List.range 32).filter fun c => x.getLsbD c).length

/-- Removal of the columns of row `ii` that are attacked from row `i`, column `j` (75-80, 109-114, 197-202, 237-242) -/
def cut (rook : Bool) (n i j ii : Nat) (w : BitVec 32) : BitVec 32 :=
  let w := w &&& ~~~bit j
  if rook then w
  else
    let d := i - ii
    let w := if d ≤ j then w &&& ~~~bit (j - d) else w
    if j + d < n then w &&& ~~~bit (j + d) else w

/-- Loop of `getChild` over the lower rows (73-83, 194-205). The row `ii` is at the index `pos ii`. `some none` is `return 0` (the array is not looked at again then); otherwise the array and `total`. -/
def takeLoop (rook : Bool) (n i j : Nat) (pos : Nat → Nat) : (ii : Nat) → (a : List (BitVec 32)) → (total : BitVec 32) → Option (Option (List (BitVec 32) × BitVec 32))
  | 0, a, total => some (some (a, total))
  | ii + 1, a, total =>
    a[pos ii]?.bind fun w =>
    let w := cut rook n i j ii w
    let a := a.set (pos ii) w
    if w = 0 then some none else takeLoop rook n i j pos ii a (total ||| w)

/-- Loop over the lower rows that looks if the field can be taken (104-120, 231-248): `none` in the inner option is `takable = false` -/
def lookLoop (rook : Bool) (n i j : Nat) (pos : Nat → Nat) (a : List (BitVec 32)) : (ii : Nat) → (total : BitVec 32) → Option (Option (BitVec 32))
  | 0, total => some (some total)
  | ii + 1, total =>
    a[pos ii]?.bind fun w =>
    let w := cut rook n i j ii w
    if w = 0 then some none else lookLoop rook n i j pos a ii (total ||| w)

/-- `takable && __builtin_popcount(total) >= i` (122, 250) -/
def takable (rook : Bool) (n i j : Nat) (pos : Nat → Nat) (a : List (BitVec 32)) : Option Bool :=
  (lookLoop rook n i j pos a i 0).map fun t => match t with
    | none => false
    | some total => decide (i ≤ popcount total)

/-- The loop `while (true)` of `NQueenZddBase::getChild` (98-129) with `level` before the decrement -/
def scan (rook : Bool) (n : Nat) : (level : Nat) → (a : List (BitVec 32)) → Option (Int × List (BitVec 32))
  | 0, _ => none
  | level + 1, a =>
    if level = 0 then none
    else
      let i := (level - 1) / n
      let j := (level - 1) % n
      a[i]?.bind fun w =>
      (if w &&& bit j ≠ 0 then takable rook n i j id a else some false).bind fun t =>
      if t then some (level, a)
      else
        let w := w &&& ~~~bit j
        let a := a.set i w
        if w = 0 then some (0, a) else scan rook n level a

/-- `NQueenZddBase::getChild` (66-130); `top` is `topLevel` -/
def child (rook : Bool) (n top : Nat) (takeTop : Bool) (a : List (BitVec 32)) (level : Nat) (b : Bool) : Option (Int × List (BitVec 32)) :=
  let i := (level - 1) / n
  let j := (level - 1) % n
  a[i]?.bind fun w =>
  if b then
    if w &&& bit j = 0 then some (0, a)
    else
      (takeLoop rook n i j id i a 0).bind fun t => match t with
        | none => some (0, a)
        | some (a, total) =>
          if i = 0 then some (-1, a)
          else if popcount total < i then some (0, a)
          else scan rook n (i * n + 1) (a.set i 0)
  else
    if takeTop = true ∧ level = top then some (0, a)
    else
      let w := w &&& ~~~bit j
      let a := a.set i w
      if w = 0 then some (0, a)
      else if j < 1 then none
      else scan rook n level a

/-- The 64-bit words of an array of 32-bit numbers; the padding is taken as 0. -/
def words : List (BitVec 32) → List Nat
  | x :: y :: l => (x.toNat + 2 ^ 32 * y.toNat) :: words l
  | [x] => [x.toNat]
  | [] => []

/-- `hashCode` of `PodArrayDdSpec` (`DdSpec.hpp` 449-456) -/
def hash (a : List (BitVec 32)) : Nat := (words a).foldl (fun h x => (h + x) * 314159257 % 2 ^ 64) 0

/-- `~(Bitmap(-1) << n)` in `getRoot` (59, 173); the shift `Bitmap(-1) << n` is undefined if `n` is not below 32 -/
def rootRow (n : Nat) : Option (BitVec 32) := if n < 32 then some (~~~((~~~0#32) <<< n)) else none

/-- `NQueenZdd(n)`, `NRookZdd(n)` (45-64, 133-151); with `firstCol`: `NQueenZdd(n, firstCol)`, `NRookZdd(n, firstCol)`. The failed assertions of the constructors and undefined behaviour of
`getRoot` are the illegal level code `-2`, undefined behaviour of `getChild` is the illegal level code `level`. -/
def spec (rook : Bool) (n : Nat) (firstCol : Option Nat) : DdSpec 2 (List (BitVec 32)) where
  root :=
    match rootRow n with
    | none => (-2, [])
    | some w => if 1 ≤ n ∧ firstCol.getD 0 < n then (((n * n - firstCol.getD 0 : Nat) : Int), List.replicate n w) else (-2, [])
  child a level value := (child rook n (n * n - firstCol.getD 0) firstCol.isSome a level (value != 0)).getD (level, a)
  eqv _ s t := decide (s = t)
  hash _ s := hash s
  merge _ _ := 0

/-! `ColoredNQueenZddBase` -/

/-- The loop `while (true)` of `ColoredNQueenZddBase::getChild` (221-257) with `level` before the decrement -/
def cscan (rook : Bool) (n : Nat) : (level : Nat) → (a : List (BitVec 32)) → Option (Int × List (BitVec 32))
  | 0, _ => none
  | level + 1, a =>
    if level = 0 then none
    else
      let i := (level - 1) / (n * n)
      let j := (level - 1) % (n * n) / n
      let k := (level - 1) % (n * n) % n
      a[i * n + k]?.bind fun w =>
      (if w &&& bit j ≠ 0 then takable rook n i j (fun ii => ii * n + k) a else some false).bind fun t =>
      if t then some (level, a)
      else
        let w := w &&& ~~~bit j
        let a := a.set (i * n + k) w
        if w = 0 then some (0, a) else cscan rook n level a

/-- Loop over the lower colours (211-213): removes column `j` at the indices `at' + c` for `c` below the count -/
def clearLoop (j at' : Nat) : (c : Nat) → (a : List (BitVec 32)) → Option (List (BitVec 32))
  | 0, a => some a
  | c + 1, a => a[at' + c]?.bind fun w => clearLoop j at' c (a.set (at' + c) (w &&& ~~~bit j))

/-- `ColoredNQueenZddBase::getChild` (183-258) -/
def cchild (rook : Bool) (n : Nat) (a : List (BitVec 32)) (level : Nat) (b : Bool) : Option (Int × List (BitVec 32)) :=
  let i := (level - 1) / (n * n)
  let j := (level - 1) % (n * n) / n
  let k := (level - 1) % (n * n) % n
  a[i * n + k]?.bind fun w =>
  if b then
    if w &&& bit j = 0 then some (0, a)
    else
      (takeLoop rook n i j (fun ii => ii * n + k) i a 0).bind fun t => match t with
        | none => some (0, a)
        | some (a, total) =>
          if popcount total < i then some (0, a)
          else if i = 0 ∧ j = 0 then some (-1, a)
          else (clearLoop j (i * n) k (a.set (i * n + k) (bit (n - 1)))).bind fun a => cscan rook n level a
  else
    let w := w &&& ~~~bit j
    let a := a.set (i * n + k) w
    if w = 0 then some (0, a)
    else if j < 1 then none
    else cscan rook n level a

/-- `getRoot` (172-181): the entries from the index 0 on -/
def croot (n : Nat) (w : BitVec 32) : List (BitVec 32) := List.replicate (n * n - n) w ++ (List.range n).map bit

/-- `ColoredNQueenZdd(n)`, `ColoredNRookZdd(n)` (153-181, 261-271). The constructor has no assertion; the application checks that `n` is positive. -/
def cspec (rook : Bool) (n : Nat) : DdSpec 2 (List (BitVec 32)) where
  root :=
    match rootRow n with
    | none => (-2, [])
    | some w => (((n * n * n : Nat) : Int), croot n w)
  child a level value := (cchild rook n a level (value != 0)).getD (level, a)
  eqv _ s t := decide (s = t)
  hash _ s := hash s
  merge _ _ := 0

end TdZdd.Queens
