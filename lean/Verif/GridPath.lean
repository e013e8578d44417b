import Verif.Semantics
import Verif.BinaryOperation
import Verif.SizeConstraint

/-!
# Model of the grid path specification of the test program

`Simpath(rows, cols)` (`apps/test/example2.cpp` 34-132): the simple paths from the first to the last vertex of a grid graph.

The state is the array of `mateSize` numbers (`PodArrayDdSpec<Simpath,int,2>`, C86). `none` is a violated assertion or an access outside of the array.
`MateArray` keeps a pointer that lies before the array (`state - offset`); only the accesses are modelled.
-/

namespace TdZdd.GridPath

/-- the edges added for one vertex (`example2.cpp` 67-69) -/
def group (rows cols i j : Nat) : List (Nat × Nat) :=
  (if j + 1 < cols then [(i * cols + j + 1, i * cols + j + 1 + 1)] else []) ++ (if i + 1 < rows then [(i * cols + j + 1, i * cols + j + 1 + cols)] else [])

/-- the edges (`example2.cpp` 65-71) -/
def edges (rows cols : Nat) : List (Nat × Nat) :=
  (List.range rows).flatMap fun i => (List.range cols).flatMap fun j => group rows cols i j

/-- `numEdge` (`example2.cpp` 63) -/
def numEdge (rows cols : Nat) : Int := (rows : Int) * cols * 2 - rows - cols

/-- `mate[v]` of `MateArray(state, off, size)` (`example2.cpp` 54-57), read -/
def rd (size : Nat) (st : List Int) (off v : Nat) : Option Int :=
  if off ≤ v ∧ v - off < size then st[v - off]? else none

/-- `mate[v] = x` -/
def wr (size : Nat) (st : List Int) (off v : Nat) (x : Int) : Option (List Int) :=
  if off ≤ v ∧ v - off < size ∧ v - off < st.length then some (st.set (v - off) x) else none

/-- `(v == numVertex) ? -1 : v` (`example2.cpp` 81, 125) -/
def dflt (nV v : Nat) : Int := if v = nV then -1 else v

/-- the loops that look for an open end (`example2.cpp` 101-104 and 118-120) among the listed vertices -/
def openEnd (size : Nat) (st : List Int) (off : Nat) : List Nat → Option Bool
  | [] => some false
  | v :: l => (rd size st off v).bind fun m => if m ≠ 0 ∧ m ≠ v then some true else openEnd size st off l

/-- what happens after the look at the edge: the level code to return or the array -/
inductive Res
  | ret (code : Int)
  | go (st : List Int)

/-- `if (w > 0) mate[w] = x` (`example2.cpp` 110-111) -/
def wrPos (size : Nat) (st : List Int) (off : Nat) (w x : Int) : Option (List Int) :=
  if w > 0 then wr size st off w.toNat x else some st

/-- joining the two paths (`example2.cpp` 108-111) -/
def join (size : Nat) (st : List Int) (v1 v2 : Nat) (w1 w2 : Int) : Option (List Int) :=
  (wr size st v1 v1 0).bind fun st => (wr size st v1 v2 0).bind fun st => (wrPos size st v1 w1 w2).bind fun st => wrPos size st v1 w2 w1

/-- the branch `if (take)` (`example2.cpp` 93-112) -/
def takeEdge (size : Nat) (st : List Int) (v1 v2 : Nat) : Option Res :=
  (rd size st v1 v1).bind fun w1 => (rd size st v1 v2).bind fun w2 =>
    if w1 = 0 ∨ w2 = 0 then some (.ret 0)
    else if w1 = v2 then some (.ret 0)
    else if w1 < 0 ∧ w2 < 0 then
      (openEnd size st v1 ((List.range' (v1 + 1) (size - 1)).filter fun v => v ≠ v2)).map fun b => .ret (if b then 0 else -1)
    else (join size st v1 v2 w1 w2).map .go

/-- `for (v = vv; v < v1 + mateSize; ++v) mate[v - d] = mate[v]` (`example2.cpp` 121-123) -/
def shiftLoop (size off d : Nat) (st : List Int) : List Nat → Option (List Int)
  | [] => some st
  | v :: l => (rd size st off v).bind fun x => (wr size st off (v - d) x).bind fun st => shiftLoop size off d st l

/-- `for (v = v1 + mateSize; v < vv + mateSize; ++v) mate[v - d] = …` (`example2.cpp` 124-126) -/
def initLoop (size nV off d : Nat) (st : List Int) : List Nat → Option (List Int)
  | [] => some st
  | v :: l => (wr size st off (v - d) (dflt nV v)).bind fun st => initLoop size nV off d st l

/-- moving the window from `v1` to `vv` (`example2.cpp` 116-127) -/
def move (size nV : Nat) (st : List Int) (v1 vv : Nat) : Option Res :=
  if vv > v1 then
    (openEnd size st v1 (List.range' v1 (vv - v1))).bind fun b =>
      if b then some (.ret 0)
      else (shiftLoop size v1 (vv - v1) st (List.range' vv (v1 + size - vv))).bind fun st =>
        (initLoop size nV v1 (vv - v1) st (List.range' (v1 + size) (vv - v1))).map .go
  else some (.go st)

/-- the part after the branch (`example2.cpp` 114-130) -/
def finish (size nV : Nat) (E : List (Nat × Nat)) (e level v1 : Nat) (st : List Int) : Option (Int × List Int) :=
  if e + 1 < E.length then
    E[e + 1]?.bind fun p => (move size nV st v1 p.1).map fun r => match r with
      | .ret c => (c, st)
      | .go st => ((level : Int) - 1, st)
  else some ((level : Int) - 1, st)

/-- `getChild` (`example2.cpp` 86-131) -/
def getChild (rows cols : Nat) (st : List Int) (level : Nat) (take : Fin 2) : Option (Int × List Int) :=
  if level ≤ (edges rows cols).length then
    (edges rows cols)[(edges rows cols).length - level]?.bind fun p =>
      (if take = 1 then takeEdge (cols + 1) st p.1 p.2 else some (.go st)).bind fun r => match r with
        | .ret c => some (c, st)
        | .go st => finish (cols + 1) (rows * cols) (edges rows cols) ((edges rows cols).length - level) level p.1 st
  else none

/-- `Simpath(rows, cols)` (`example2.cpp` 60-131): an overflow or violated assertion in the constructor gives the root code -2. The array after `return 0` and `return -1`
does not matter to the builder; the model leaves it as it was. The hash code stands for some function of the array (C86). -/
def simpath (rows cols : Nat) : DdSpec 2 (List Int) where
  root := if rows * cols * 2 < 2 ^ 31 ∧ ((edges rows cols).length : Int) = numEdge rows cols then
      (((edges rows cols).length : Int), (List.range (cols + 1)).map fun i => if i = 0 then -1 else dflt (rows * cols) (i + 1))
    else (-2, [])
  child st l b := (getChild rows cols st l b).getD (ubCode l, st)
  eqv _ s t := decide (s = t)
  hash _ s := s.foldl (fun h x => (h + (x % 2 ^ 32).toNat) * 314159257 % 2 ^ 64) 0
  merge _ _ := 0

end TdZdd.GridPath
