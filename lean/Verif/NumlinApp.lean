import Verif.Numlin
import Verif.QueensApp
import Verif.Iterator
import Verif.Lookahead
import Verif.BinaryOperation

/-!
# Model of the application `ddnumlin` (`apps/numberlink/ddnumlin.cpp`) and of the operations of `Board` that it uses (`Board.cpp`)

Without the option `-p` (parallel algorithms). `none` is undefined behaviour (an access outside of an array). The pictures and the messages are not modelled; the number of further solutions is a `double` and is not modelled either.
-/

namespace TdZdd.Nl

/-- `Board` with its links (`Board.hpp` 28-76) -/
structure Grid extends Board where
  hlink : List (List Bool)
  vlink : List (List Bool)
deriving DecidableEq

/-- `a[i][j]` -/
def get2 {α : Type} (a : List (List α)) (i j : Nat) : Option α := a[i]?.bind fun r => r[j]?

/-- `a[i][j] = x` -/
def set2 {α : Type} (a : List (List α)) (i j : Nat) (x : α) : Option (List (List α)) :=
  a[i]?.bind fun r => if j < r.length then some (a.set i (r.set j x)) else none

/-- `init` (`Board.cpp` 28-46) with `rows` and `cols` at least 1 -/
def Grid.init (rows cols : Nat) : Grid :=
  ⟨⟨rows, cols, List.replicate rows (List.replicate cols 0)⟩, List.replicate rows (List.replicate (cols - 1) false), List.replicate (rows - 1) (List.replicate cols false)⟩

/-- `transposed_matrix` (50-62); `a[0]` is evaluated first -/
def transposedMatrix {α : Type} (a : List (List α)) : Option (List (List α)) :=
  a[0]?.bind fun r => (List.range r.length).mapM fun i => (List.range a.length).mapM fun j => get2 a j i

/-- `transpose` (66-72) -/
def Grid.transpose (g : Grid) : Option Grid :=
  (transposedMatrix g.number).bind fun number => (transposedMatrix g.hlink).bind fun tmp => (transposedMatrix g.vlink).map fun hlink =>
  ⟨⟨g.cols, g.rows, number⟩, hlink, tmp⟩

/-- `degree[i][j]` after the first loop of `makeVerticalLinks` (182-190) -/
def Grid.degreeAt (g : Grid) (i j : Nat) : Option Nat :=
  (get2 g.number i j).bind fun t =>
  (if 1 ≤ j then get2 g.hlink i (j - 1) else some false).bind fun w =>
  (if j + 1 < g.cols then get2 g.hlink i j else some false).map fun e => (if t ≠ 0 then 1 else 0) + w.toNat + e.toNat

/-- body of the second loop (194-201); the state is `(degree, vlink)` -/
def Grid.linkCell (i j : Nat) (st : List (List Nat) × List (List Bool)) : Option (List (List Nat) × List (List Bool)) :=
  (get2 st.1 i j).bind fun d =>
  if d = 1 then
    (set2 st.2 i j true).bind fun v => (set2 st.1 i j 2).bind fun dg => (get2 dg (i + 1) j).bind fun e => (set2 dg (i + 1) j (e + 1)).map fun dg => (dg, v)
  else (set2 st.2 i j false).map fun v => (st.1, v)

/-- `makeVerticalLinks` (181-204) -/
def Grid.makeVerticalLinks (g : Grid) : Option Grid :=
  ((List.range g.rows).mapM fun i => (List.range g.cols).mapM fun j => g.degreeAt i j).bind fun degree =>
  ((List.range (g.rows - 1)).foldlM (fun st i => (List.range g.cols).foldlM (fun st j => Grid.linkCell i j st) st) (degree, g.vlink)).map fun st =>
  { g with vlink := st.2 }

/-- the assignments of `hlink` (`ddnumlin.cpp` 71-76); `s` is the set of levels -/
def Grid.setLinks (g : Grid) (s : List Nat) : Option Grid :=
  ((List.range g.rows).foldlM (fun hl i => (List.range (g.cols - 1)).foldlM (fun hl j => set2 hl i j (s.contains (g.top - i * (g.cols - 1) - j))) hl) g.hlink).map fun hl =>
  { g with hlink := hl }

/-- the board that is printed (69-80) -/
def Grid.answer (g : Grid) (transposed : Bool) (s : List Nat) : Option Grid :=
  (g.setLinks s).bind fun g => g.makeVerticalLinks.bind fun g => if transposed then g.transpose else some g

/-- the loop of `output` (63-87): the boards that are printed -/
def outLoop (g : Grid) (transposed : Bool) (m : Int) : List (List Nat) → (count : Nat) → Option (List Grid)
  | [], _ => some []
  | s :: r, count =>
    if (count : Int) ≤ m then
      (g.answer transposed s).bind fun b => if ((count + 1 : Nat) : Int) = m then some [b] else (outLoop g transposed m r (count + 1)).map fun bs => b :: bs
    else some []

/-- the diagram (119-134); `all` is the option `-a`, `k` the limit of the blank boxes -/
def diagram (q : Board) (all : Bool) (k : Int) : Option (Dd 2) :=
  if all then (Queens.made (zddLookahead (degreeZdd q))).bind fun D => Queens.cutBy D (zddLookahead (numlinZdd q k)) false
  else Queens.made (zddLookahead (zddIntersection (constraintZdd q) (numlinZdd q k)))

/-- the board after the possible transposition (112-117) -/
def Grid.turn (g : Grid) : Option Grid := if g.rows < g.cols then g.transpose else some g

/-- `run` after the input (112-141): the boards that are printed; `fuel` and `steps` bound the iteration -/
def Grid.run (g : Grid) (all : Bool) (k m : Int) (fuel steps : Nat) : Option (List Grid) :=
  g.turn.bind fun q => (diagram q.toBoard all k).bind fun D =>
  if m = 0 then some []
  else (D.iterate fuel steps).bind fun L => outLoop q (decide (g.rows < g.cols)) m L 0

end TdZdd.Nl
