import Verif.IStream
import Verif.Graph

/-!
# Model of the readers of `Graph` (`util/Graph.hpp`)

Strings are lists of characters, `int` is unbounded but in `>>` (values outside of its range are read as the nearest value and set `failbit`). The readers store characters into a variable of type `char`, which is taken to be signed; `isspace` has undefined
behaviour for negative values other than `EOF` = -1. Not modelled: messages, opening of the file, and the call of `update` (C41).
-/

namespace TdZdd

/-- is `isspace(c)` undefined for the `char` `c`? -/
def badChar (c : Char) : Bool := 128 ≤ c.toNat && decide (c.toNat ≠ 255)

/-- The variables of `readEdges` (`Graph.hpp` 172): `v`, `v1`, `v2`, and `edgeNames` -/
structure ReSt where
  v : List Char
  v1 : List Char
  v2 : List Char
  es : List (List Char × List Char)
  deriving DecidableEq

/-- The end of a token (`Graph.hpp` 178-191) -/
def reStore (s : ReSt) : Res ReSt :=
  if s.v = [] then .ok s
  else if s.v1 = [] then .ok { s with v1 := s.v, v := [] }
  else if s.v2 = [] then .ok { s with v2 := s.v, v := [] }
  else .thrown

/-- The end of a line (`Graph.hpp` 193-203) -/
def reNewline (s : ReSt) : Res ReSt :=
  if s.v1 ≠ [] ∧ s.v2 ≠ [] then .ok { s with es := s.es ++ [(s.v1, s.v2)], v1 := [], v2 := [] }
  else if s.v1 ≠ [] then .thrown
  else .ok s

/-- Body of the loop for the character `c` (`Graph.hpp` 175-207) -/
def reChar (s : ReSt) (c : Char) : Res ReSt :=
  if badChar c then .ub
  else if IStr.space c then
    (reStore s).bind fun s => if c = '\n' then reNewline s else .ok s
  else .ok { s with v := s.v ++ [c] }

/-- The loop of `readEdges` (`Graph.hpp` 174-208): after the text, `get` returns `EOF`, the value -1 is appended to `v`, and the loop ends. -/
def reLoop : List Char → ReSt → Res ReSt
  | [], s => .ok { s with v := s.v ++ ['\xff'] }
  | c :: r, s => (reChar s c).bind fun s => reLoop r s

/-- `readEdges(is)` (`Graph.hpp` 171-216): the new `edgeNames` -/
def readEdges (text : List Char) (es : List (List Char × List Char)) : Res (List (List Char × List Char)) :=
  (reLoop text ⟨[], [], [], es⟩).bind fun s =>
  if s.v1 ≠ [] ∧ s.v2 ≠ [] then .ok (s.es ++ [(s.v1, s.v2)])
  else if s.v1 ≠ [] then .thrown
  else .ok s.es

/-- `while (isspace(c = is.get())) { if (c == '\n') ++n; }` (`Graph.hpp` 228-230, 247-251) on the characters that follow: those before, those after, and `n`; undefined for some characters -/
def nlSpaces : Nat → List Char → List Char → Res (Nat × List Char × List Char)
  | n, back, [] => .ok (n, back, [])
  | n, back, c :: r => if badChar c then .ub else if IStr.space c then nlSpaces (if c = '\n' then n + 1 else n) (c :: back) r else .ok (n, back, c :: r)

/-- The next number in the file (`Graph.hpp` 227-233, 246-256): the number of lines, the number (`none` at the end of the file), and the stream. -/
def nlNum (n : Nat) (s : IStr) : Res (Nat × Option Int × IStr) :=
  if s.eof || s.fail then .ok (n, none, { s with fail := true })
  else
    (nlSpaces n s.back s.rest).bind fun p =>
    match (IStr.get ⟨p.2.1, p.2.2, false, false⟩) with
    | (none, s) => .ok (p.1, none, s)
    | (some _, s) =>
      match s.unget.num (-2147483648) 2147483647 with
      | (some v, s) => .ok (p.1, some v, s)
      | (none, _) => .ub

/-- `while (is)` of both readers: the function `f` is called for the number of the line and the number that has been read. -/
def nlLoop {α : Type} (f : α → Nat → Int → α) : Nat → Nat → IStr → α → Res α
  | 0, _, _, _ => .ub
  | fuel + 1, n, s, x =>
    if s.fail then .ok x
    else
      (nlNum n s).bind fun r =>
      match r with
      | (_, none, _) => .ok x
      | (n, some v, s) => nlLoop f fuel n s (f x n v)

/-- `to_string(v)` (`Graph.hpp` 672-676) -/
def intName (v : Int) : List Char := (toString v).toList

/-- `readAdjacencyList(is)` (`Graph.hpp` 218-237): the new `edgeNames` -/
def readAdjacencyList (text : List Char) : Res (List (List Char × List Char)) :=
  nlLoop (fun es n v => es ++ [(intName n, intName v)]) (text.length + 2) 1 (IStr.ofText text) []

/-- `HEX[i]` (`Graph.hpp` 263) -/
def hexChar (i : Nat) : Char := (['0', '1', '2', '3', '4', '5', '6', '7', '8', '9', 'a', 'b', 'c', 'd', 'e', 'f'][i]?).getD '?'

/-- `getColor(n)` (`Graph.hpp` 262-273) -/
def getColor (n : Nat) : List Char :=
  ['#', hexChar (15 - n * 3 % 11), hexChar (n / 256 % 16), hexChar ((n * 5 + 5) % 11 + 5), hexChar (n / 16 % 16), hexChar (15 - (n * 2 + 7) % 11), hexChar (n % 16)]

/-- `name2color[v] = c` -/
def setName {K : Type} (m : List (List Char × K)) (v : List Char) (c : K) : List (List Char × K) :=
  if m.any (fun p => p.1 = v) then m.map fun p => if p.1 = v then (v, c) else p else m ++ [(v, c)]

/-- `readVertexGroups(is)` (`Graph.hpp` 239-260): the new `name2color` -/
def readVertexGroups (text : List Char) : Res (List (List Char × List Char)) :=
  nlLoop (fun m n v => setName m (intName v) (getColor n)) (text.length + 2) 0 (IStr.ofText text) []

end TdZdd
