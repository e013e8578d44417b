import Verif.NumlinRead

/-!
# Model of `Board::printNumlin` (`apps/numberlink/Board.cpp` 142-179)

The text is a list of characters (of UTF-8 code points instead of bytes). `none` is an access outside of an array.
-/

namespace TdZdd.Nl

/-- `connector` (143-145) -/
def connector : List (List Char) :=
  [[' ', ' '], [' ', ' '], [' ', ' '], ['─', '─'], [' ', ' '], ['─', '┘'], [' ', '└'], ['─', '┴'], [' ', ' '], ['─', '┐'], [' ', '┌'], ['─', '┬'], [' ', '│'], ['─', '┤'], [' ', '├'], ['─', '┼']]

/-- `c` (157-161); the bits are disjoint, so that `|=` is addition -/
def Grid.mask (g : Grid) (i j : Nat) : Option Nat :=
  (if 1 ≤ j then get2 g.hlink i (j - 1) else some false).bind fun w =>
  (if j + 1 < g.cols then get2 g.hlink i j else some false).bind fun e =>
  (if 1 ≤ i then get2 g.vlink (i - 1) j else some false).bind fun n =>
  (if i + 1 < g.rows then get2 g.vlink i j else some false).map fun s => w.toNat + 2 * e.toNat + 4 * n.toNat + 8 * s.toNat

/-- `std::setw(2) << k` -/
def setw2 (k : Nat) : List Char := List.replicate (2 - (decimalText k).length) ' ' ++ decimalText k

/-- body of the inner loop (156-169) -/
def Grid.cell (g : Grid) (i j : Nat) : Option (List Char) :=
  (get2 g.number i j).bind fun k => (g.mask i j).bind fun c =>
  if c ≤ 2 ∨ c = 4 ∨ c = 8 then some (if k = 0 then [' ', ' '] else setw2 k) else connector[c]?

/-- body of the outer loop (153-172) -/
def Grid.line (g : Grid) (i : Nat) : Option (List Char) :=
  ((List.range g.cols).mapM fun j => g.cell i j).map fun cs => '┃' :: (cs.flatten ++ [' ', '┃', '\n'])

/-- `printNumlin(os)` (142-179) -/
def Grid.printNumlin (g : Grid) : Option (List Char) :=
  ((List.range g.rows).mapM fun i => g.line i).map fun ls =>
  '┏' :: (List.replicate (2 * g.cols) '━' ++ ['━', '┓', '\n']) ++ (ls.flatten ++ '┗' :: (List.replicate (2 * g.cols) '━' ++ ['━', '┛', '\n']))

end TdZdd.Nl
