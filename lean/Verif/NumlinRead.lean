import Verif.NumlinApp
import Verif.Graphillion
import Verif.Readers

/-!
# Model of `Board::readNumbers` and `Board::writeNumbers` (`apps/numberlink/Board.cpp` 74-140)

`int` has 32 bits in `>>` and is unbounded otherwise; there is enough memory. Numbers that begin with a digit are not negative and are kept as natural numbers.
-/

namespace TdZdd.Nl

open IStr

/-- `int` -/
def readInt (s : IStr) : Option Int × IStr := s.num (-2147483648) 2147483647

/-- `isdigit(c)` for a character or `EOF` -/
def isDigit (c : Option Char) : Bool := (c.map digit).getD false

/-- the first loop and `unget` (77-85): lines that do not begin with a digit are skipped (`while (is && (c = is.get()) != '\n') ;` is the loop of `gzSkipLine`) -/
def readHead : Nat → IStr → Res IStr
  | 0, _ => .ub
  | fuel + 1, s => if s.fail then .thrown else if isDigit s.getSkip.1 then .ok s.getSkip.2.unget else readHead fuel (gzSkipLine s.getSkip.2)

/-- `if (!isdigit(c)) throw ...; is.unget(); is >> x` (94-96, 99-101) -/
def readSize (p : Option Char × IStr) : Res (Int × IStr) :=
  if isDigit p.1 then (readInt p.2.unget).1.elim .ub fun v => .ok (v, (readInt p.2.unget).2) else .thrown

/-- the size (86-104): rows, columns -/
def readSizes (s : IStr) : Res (Int × Int × IStr) :=
  (readInt s).1.elim .ub fun x =>
  let p := (readInt s).2.getSkip
  (if p.1 = some ',' then (readSize p.2.getSkip).bind fun y => .ok (x, y.1, y.2) else (readSize p).bind fun y => .ok (y.1, x, y.2)).bind fun z =>
  if z.2.1 < 1 ∨ z.1 < 1 then .thrown else .ok z

/-- `while (isspace(c = is.get())) { if (c == '\n') ++i, j = 0; }` (112-114) on the characters that follow: `i`, `j`, the characters before and after -/
def skipLines : Int → Nat → List Char → List Char → Int × Nat × List Char × List Char
  | i, j, back, [] => (i, j, back, [])
  | i, j, back, c :: r => if space c then (if c = '\n' then skipLines (i + 1) 0 (c :: back) r else skipLines i j (c :: back) r) else (i, j, back, c :: r)

/-- the same with the last `get` -/
def skipGet (i : Int) (j : Nat) (s : IStr) : Int × Nat × Option Char × IStr :=
  if s.eof || s.fail then (i, j, none, { s with fail := true })
  else
    let p := skipLines i j s.back s.rest
    (p.1, p.2.1, IStr.get ⟨p.2.2.1, p.2.2.2, false, false⟩)

/-- the boxes (108-127); the state is `i`, `j`, `number` and the stream -/
def readBoxes (rows cols : Nat) : Nat → Int → Nat → List (List Nat) → IStr → Res (List (List Nat))
  | 0, _, _, _, _ => .ub
  | fuel + 1, i, j, a, s =>
    if s.fail then .ok a
    else
      let p := skipGet i j s
      if p.2.2.2.fail then .ok a
      else if p.1 < 0 ∨ (rows : Int) ≤ p.1 then readBoxes rows cols fuel p.1 p.2.1 a p.2.2.2
      else if cols ≤ p.2.1 then readBoxes rows cols fuel p.1 p.2.1 a p.2.2.2
      else if isDigit p.2.2.1 then
        (readInt p.2.2.2.unget).1.elim .ub fun t => (set2 a p.1.toNat p.2.1 t.toNat).elim .ub fun a => readBoxes rows cols fuel p.1 (p.2.1 + 1) a (readInt p.2.2.2.unget).2
      else readBoxes rows cols fuel p.1 (p.2.1 + 1) a p.2.2.2

/-- `readNumbers(is)` (74-128) -/
def readNumbers (text : List Char) : Res Grid :=
  (readHead (text.length + 2) (ofText text)).bind fun s => (readSizes s).bind fun z =>
  let g := Grid.init z.1.toNat z.2.1.toNat
  (readBoxes g.rows g.cols (z.2.2.rest.length + 2) (-1) 0 g.number z.2.2).bind fun a => .ok { g with number := a }

/-- `os << n` for an integer that is not negative -/
def decimalText (n : Nat) : List Char := (toString n).toList

/-- the inner loop of `writeNumbers` (134-137) -/
def writeRow (r : List Nat) : List Char := (r.zipIdx).flatMap fun p => (if p.2 ≠ 0 then [' '] else []) ++ decimalText p.1

/-- `writeNumbers(os)` (130-140) for a board whose vectors have the right sizes -/
def writeNumbers (q : Board) : List Char :=
  decimalText q.cols ++ (' ' :: (decimalText q.rows ++ ('\n' :: q.number.flatMap fun r => writeRow r ++ ['\n'])))

/-- `run` of `ddnumlin` (`ddnumlin.cpp` 96-141) for the text of the input -/
def ddnumlin (text : List Char) (all : Bool) (k m : Int) (fuel steps : Nat) : Res (List Grid) :=
  (readNumbers text).bind fun g => (g.run all k m fuel steps).elim .ub .ok

end TdZdd.Nl
