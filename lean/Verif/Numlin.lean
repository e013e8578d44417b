import Verif.Semantics

/-!
# Model of the specifications of the application `ddnumlin` (`apps/numberlink`)

`DegreeZdd`, `NumlinZdd` and `ConstraintZdd`. The numbers of a board are not negative, as after `readNumbers`. An access outside of an array is `none` and becomes the illegal level code `level`
(`-2` in the root). `some none` is `return 0`.
-/

namespace TdZdd.Nl

/-- `Board` (`Board.hpp` 28-76) without the links -/
structure Board where
  rows : Nat
  cols : Nat
  number : List (List Nat)
deriving DecidableEq

/-- `number[i][j]` -/
def Board.num? (q : Board) (i j : Nat) : Option Nat := q.number[i]?.bind fun r => r[j]?

/-- as after `init()` (`Board.cpp` 28-46) -/
structure Board.Ok (q : Board) : Prop where
  rows_pos : 1 ≤ q.rows
  cols_pos : 1 ≤ q.cols
  len : q.number.length = q.rows
  width : ∀ r ∈ q.number, r.length = q.cols

/-- `top_level` of the three classes -/
def Board.top (q : Board) : Nat := q.rows * (q.cols - 1)

/-- `(level > 0) ? level : -1` after `--level` -/
def nextLevel (level : Nat) : Int := if level - 1 > 0 then ((level - 1 : Nat) : Int) else -1

/-- level code and state of `getRoot` -/
def rootOf {S : Type} (q : Board) (dflt : S) (r : Option S) : Int × S :=
  match r with
  | none => (-2, dflt)
  | some s => ((q.top : Int), s)

/-- level code and state of `getChild` -/
def childOf {S : Type} (s : S) (level : Nat) (r : Option (Option S)) : Int × S :=
  match r with
  | none => (level, s)
  | some none => (0, s)
  | some (some s') => (nextLevel level, s')

namespace Degree

/-- `DegreeZdd::getRoot` (`DegreeZdd.cpp` 27-32) -/
def root (q : Board) : Option (List Nat) :=
  (List.range q.cols).mapM fun j => (q.num? 0 j).map fun t => if t > 0 then 1 else 0

/-- body of the loop (46-55) -/
def vert (q : Board) (i j : Nat) (d : List Nat) : Option (Option (List Nat)) :=
  d[j]?.bind fun dj =>
  if i < q.rows - 1 then
    (q.num? (i + 1) j).map fun t => some (d.set j ((if dj = 1 then 1 else 0) + (if t > 0 then 1 else 0)))
  else if dj = 1 then some none
  else some (some (d.set j 2))

/-- lines 38-43 -/
def horz (j : Nat) (take : Bool) (d : List Nat) : Option (Option (List Nat)) :=
  if take then
    d[j]?.bind fun dj => d[j + 1]?.map fun dk =>
    if dj = 2 ∨ dk = 2 then none
    else some ((d.set j ((dj + 1) % 256)).set (j + 1) ((dk + 1) % 256))
  else some (some d)

/-- sequence of statements that may return 0 -/
def andThen {S : Type} (r : Option (Option S)) (f : S → Option (Option S)) : Option (Option S) :=
  match r with
  | none => none
  | some none => some none
  | some (some s) => f s

/-- `DegreeZdd::getChild` (34-59) -/
def child (q : Board) (d : List Nat) (level : Nat) (take : Bool) : Option (Option (List Nat)) :=
  let i := (q.top - level) / (q.cols - 1)
  let j := (q.top - level) % (q.cols - 1)
  andThen (horz j take d) fun d =>
  andThen (vert q i j d) fun d =>
  if j + 1 = q.cols - 1 then vert q i (j + 1) d else some (some d)

end Degree

/-- hash code of the words of a state (`DdSpec.hpp` 449-456, 630-641); the packing of several elements in a word is left out -/
def hash (h0 : Nat) (a : List Nat) : Nat := a.foldl (fun h x => (h + x) * 314159257 % 2 ^ 64) h0

/-- `DegreeZdd(quiz)` (`DegreeZdd.hpp` 31-44) on top of `PodArrayDdSpec` -/
def degreeZdd (q : Board) : DdSpec 2 (List Nat) where
  root := rootOf q [] (Degree.root q)
  child s level b := childOf s level (Degree.child q s level (b != 0))
  eqv _ s t := decide (s = t)
  hash _ s := hash 0 s
  merge _ _ := 0

namespace Numlin

open Degree (andThen)

/-- `blank_count` and `mate` -/
abbrev St := Nat × List Nat

/-- `NumlinZdd::getRoot` (`NumlinZdd.cpp` 34-41); the elements of `mate` are of type `uint8_t` -/
def root (q : Board) : Option St :=
  ((List.range q.cols).mapM fun j => (q.num? 0 j).map fun t => (if t > 0 then q.cols + t else j) % 256).map fun a => (0, a)

/-- lines 48-65 -/
def horz (n j : Nat) (take : Bool) (s : St) : Option (Option St) :=
  if take then
    let k := j + 1
    s.2[j]?.bind fun mj => s.2[k]?.map fun mk =>
    if mj = n ∨ mk = n then none
    else if mj = k then none
    else
      let a := (s.2.set j (n % 256)).set k (n % 256)
      if mj > n ∧ mk > n then
        if mj ≠ mk then none else some (s.1, a)
      else
        let a := if mj < n then a.set mj mk else a
        let a := if mk < n then a.set mk mj else a
        some (s.1, a)
  else some (some s)

/-- the test on `blank_count` (73-76, 97-100): the new count, or `none` for `return 0`; the count is of type `uint16_t` -/
def blank (maxBlank : Int) (c : Nat) : Option Nat :=
  if (c : Int) = maxBlank then none else some (if maxBlank > 0 then (c + 1) % 65536 else c)

/-- body of the loops (71-92, 95-105) -/
def vert (q : Board) (maxBlank : Int) (i k : Nat) (s : St) : Option (Option St) :=
  s.2[k]?.bind fun mk =>
  if i < q.rows - 1 then
    match (if mk = k then blank maxBlank s.1 else some s.1) with
    | none => some none
    | some c =>
      (q.num? (i + 1) k).map fun t =>
      if mk ≠ k ∧ mk ≠ q.cols then
        if t > 0 then
          let a := s.2.set k (q.cols % 256)
          if mk > q.cols then
            if mk ≠ q.cols + t then none else some (c, a)
          else some (c, a.set mk ((q.cols + t) % 256))
        else some (c, s.2)
      else some (c, s.2.set k ((if t > 0 then q.cols + t else k) % 256))
  else
    if mk = k then
      some ((blank maxBlank s.1).map fun c => (c, s.2.set k (q.cols % 256)))
    else if mk ≠ q.cols then some none
    else some (some (s.1, s.2.set k (q.cols % 256)))

/-- `NumlinZdd::getChild` (43-109) -/
def child (q : Board) (maxBlank : Int) (s : St) (level : Nat) (take : Bool) : Option (Option St) :=
  let n := q.cols
  let i := (q.top - level) / (n - 1)
  let j := (q.top - level) % (n - 1)
  andThen (horz n j take s) fun s =>
  andThen (vert q maxBlank i j s) fun s =>
  if j < n - 2 then some (some s) else vert q maxBlank i (j + 1) s

end Numlin

/-- `NumlinZdd(quiz, max_blank)` (`NumlinZdd.hpp` 31-51) on top of `HybridDdSpec` -/
def numlinZdd (q : Board) (maxBlank : Int) : DdSpec 2 (Nat × List Nat) where
  root := rootOf q (0, []) (Numlin.root q)
  child s level b := childOf s level (Numlin.child q maxBlank s level (b != 0))
  eqv _ s t := decide (s = t)
  hash _ s := hash (s.1 * 271828171 % 2 ^ 64) s.2
  merge _ _ := 0

namespace Constraint

/-- `VertexState` (`ConstraintZdd.hpp` 28-32) -/
structure VS where
  east : Bool
  south : Bool
  used : Bool
deriving DecidableEq

abbrev St := Bool × List VS

/-- `ConstraintZdd::getRoot` (`ConstraintZdd.cpp` 27-35) -/
def root (q : Board) : St := (false, List.replicate q.cols ⟨false, false, false⟩)

/-- the test of the line (41-45): whether it may be taken -/
def ok (x y : VS) : Bool :=
  !(decide (2 ≤ x.south.toNat + x.east.toNat + y.south.toNat)) && !(x.south && !y.used) && !(!x.used && y.south)

/-- the flag `s` (47-50) -/
def roof (s : Bool) (x : VS) (take : Bool) (t : Nat) : Bool :=
  if !x.east || take then false else if x.south then true else if t ≠ 0 then false else s

/-- degree and new state of box `(i, j)` (54-58); `w` is the box to the west, if there is one -/
def box (t : Nat) (x : VS) (take : Bool) (w : Option VS) : VS :=
  let d := (if t ≠ 0 then 1 else 0) + x.south.toNat + take.toNat + w.elim 0 fun w => w.east.toNat
  ⟨take, d == 1, decide (1 ≤ d)⟩

/-- degree and new state of the box in the rightmost column (63-66); `x` is the box to the west -/
def boxLast (t : Nat) (y x : VS) : VS :=
  let d := (if t ≠ 0 then 1 else 0) + y.south.toNat + x.east.toNat
  ⟨y.east, d == 1, decide (1 ≤ d)⟩

/-- `⊓` (59-60, 67) -/
def isCap (w x : VS) : Bool := w.east && w.south && x.south

/-- `ConstraintZdd::getChild` (37-71) -/
def child (q : Board) (st : St) (level : Nat) (take : Bool) : Option (Option St) :=
  let i := (q.top - level) / (q.cols - 1)
  let j := (q.top - level) % (q.cols - 1)
  st.2[j]?.bind fun x => st.2[j + 1]?.bind fun y => (q.num? i j).bind fun t =>
  if take && !ok x y then some none
  else if roof st.1 x take t && y.south then some none
  else
    (if 1 ≤ j then st.2[j - 1]?.map some else some none).bind fun w =>
    if w.elim false fun u => isCap u (box t x take w) then some none
    else if j + 1 = q.cols - 1 then
      (q.num? i (j + 1)).map fun t' =>
      if isCap (box t x take w) (boxLast t' y (box t x take w)) then none
      else some (false, (st.2.set j (box t x take w)).set (j + 1) (boxLast t' y (box t x take w)))
    else some (some (roof st.1 x take t, st.2.set j (box t x take w)))

end Constraint

/-- `ConstraintZdd(quiz)` (`ConstraintZdd.hpp` 34-48) on top of `HybridDdSpec` -/
def constraintZdd (q : Board) : DdSpec 2 (Bool × List Constraint.VS) where
  root := ((q.top : Int), Constraint.root q)
  child s level b := childOf s level (Constraint.child q s level (b != 0))
  eqv _ s t := decide (s = t)
  hash _ s := hash (s.1.toNat * 271828171 % 2 ^ 64) (s.2.map fun v => v.east.toNat + 256 * v.south.toNat + 65536 * v.used.toNat)
  merge _ _ := 0

end TdZdd.Nl
