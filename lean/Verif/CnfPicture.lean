import Verif.CnfBdd

/-!
# The picture of a formula

`CnfToBdd::dumpCnf` (`apps/cnfbdd/CnfToBdd.cpp` 314-397), called for the option `-cnf` of `cnfbdd` (`cnfbdd.cpp` 99).

A line of the output is an element of `Line`; `Line.text` is what is printed. `none` is undefined behaviour: the first literal of a clause without literals, or an access outside of the vector `x`. Numbers have no bounds here. The stream and its failures are not modelled.
-/

namespace TdZdd

namespace CnfPic

open Cnf CnfB

/-- how a variable is drawn in a clause (`CnfToBdd.cpp` 340-353) -/
inductive Mark
  | blank
  | pos
  | neg
  | point
deriving DecidableEq, Repr

/-- a line of the picture -/
inductive Line
  | head (title : List Char)
  | corner
  | var (v level : Nat)
  | spine (nv : Nat)
  | row (j : Nat)
  | cell (j v : Nat) (m : Mark)
  | path (j a b : Nat) (bold : Bool)
  | rank (v nc : Nat)
  | link (j v k : Nat)
  | tail
deriving DecidableEq, Repr

/-- a number (`os << v`) -/
def num (n : Nat) : List Char := (toString n).toList

/-- the name of the node of clause `j` and variable `v` (`CnfToBdd.cpp` 329, 339, 356, 358, 363, 365, 371, 373, 381, 391-392) -/
def name (j v : Nat) : List Char := 'c' :: (num j ++ '_' :: num v)

/-- the attributes of a node (`CnfToBdd.cpp` 340-353) -/
def Mark.text (v : Nat) : Mark → List Char
  | .blank => " [label=\"\",shape=none];\n".toList
  | .pos => " [label=\"+".toList ++ num v ++ "\",style=filled,fillcolor=gray,fontcolor=black];\n".toList
  | .neg => " [label=\"-".toList ++ num v ++ "\",style=filled,fillcolor=white,fontcolor=black];\n".toList
  | .point => " [label=\"\",shape=point];\n".toList

/-- what is printed for a line (`CnfToBdd.cpp` 315, 317, 319, 322-326, 329, 339-353, 356-360 with 363-367 and 371-375, 379-383, 391-393, 397) -/
def Line.text : Line → List Char
  | .head title => "digraph \"".toList ++ title ++ "\" {\n".toList
  | .corner => "  0 [shape=none,label=\"\"];\n".toList
  | .var v l => "  ".toList ++ num v ++ " [label=\"".toList ++ num l ++ "\",shape=none];\n".toList
  | .spine nv => "  0".toList ++ ((List.range nv).flatMap fun i => " -> ".toList ++ num (i + 1)) ++ " [style=invis];\n".toList
  | .row j => "  ".toList ++ name j 0 ++ " [label=\"".toList ++ num j ++ "\",shape=none];\n".toList
  | .cell j v m => "  ".toList ++ name j v ++ m.text v
  | .path j a b bold => "  ".toList ++ name j a ++ ((List.range (b - a)).flatMap fun i => " -> ".toList ++ name j (a + 1 + i)) ++ (if bold then " [style=bold,dir=none];\n" else " [style=invis];\n").toList
  | .rank v nc => "  {rank=same; ".toList ++ num v ++ ((List.range nc).flatMap fun i => "; ".toList ++ name (i + 1) v) ++ "};\n".toList
  | .link j v k => "  ".toList ++ name j v ++ " -> ".toList ++ name k v ++ " [color=navy];\n".toList
  | .tail => "}\n".toList

/-- the loop that fills `x` (`CnfToBdd.cpp` 334-337) -/
def fill : Clause → List Int → Option (List Int)
  | [], x => some x
  | t :: c, x => if t.natAbs < x.length then fill c (x.set t.natAbs t) else none

/-- the choice of the mark (`CnfToBdd.cpp` 340-353); `x[v]` is read only between `a` and `b` -/
def mark (x : List Int) (a b v : Nat) : Option Mark :=
  if v < a ∨ b < v then some .blank
  else x[v]?.map fun y => if y > 0 then .pos else if y < 0 then .neg else .point

/-- the loop over the variables of a clause (`CnfToBdd.cpp` 338-354) from `v` on; the first argument is the number of rounds left -/
def cells (j : Nat) (x : List Int) (a b : Nat) : Nat → Nat → Option (List Line)
  | 0, _ => some []
  | n + 1, v => do
    let m ← mark x a b v
    let r ← cells j x a b n (v + 1)
    some (.cell j v m :: r)

/-- a round of the loop over the clauses (`CnfToBdd.cpp` 328-376) -/
def clause (nv j : Nat) (c : Clause) : Option (List Line) := do
  let f ← c.head?
  let t ← c.getLast?
  let a := f.natAbs
  let b := t.natAbs
  let x ← fill c (List.replicate (nv + 1) 0)
  let r ← cells j x a b nv 1
  some (.row j :: r ++ [.path j 0 a false] ++ (if a < b then [.path j a b true] else []) ++ if b < nv then [.path j b nv false] else [])

/-- the loop over the clauses (`CnfToBdd.cpp` 328-376) from clause `j` on -/
def clauses (nv : Nat) : Nat → List Clause → Option (List Line)
  | _, [] => some []
  | j, c :: cs => do
    let r ← clause nv j c
    let s ← clauses nv (j + 1) cs
    some (r ++ s)

/-- the inner loop over the map of clauses (`CnfToBdd.cpp` 389-395) from clause `j` on at level `i`; the first argument after `i` is the number of rounds left -/
def linksAt (nv : Nat) (cm : CMap) (i : Nat) : Nat → Nat → List Line
  | 0, _ => []
  | n + 1, j => (if cm i j ≠ j then [.link j (nv - i + 1) (cm i j)] else []) ++ linksAt nv cm i n (j + 1)

/-- the loop over the map of clauses (`CnfToBdd.cpp` 388-396) from level `i` down -/
def links (nv nc : Nat) (cm : CMap) : Nat → List Line
  | 0 => []
  | i + 1 => linksAt nv cm (i + 1) nc 1 ++ links nv nc cm i

/-- `CnfToBdd::dumpCnf` (`CnfToBdd.cpp` 314-398). `nc` is the number of clauses (`CnfToBdd.cpp` 77, 88). -/
def dump (nv : Nat) (cnf : List Clause) (cm : CMap) (title : List Char) : Option (List Line) := do
  let r ← clauses nv 1 cnf
  some ([.head title, .corner] ++ ((List.range nv).map fun i => .var (i + 1) (nv - (i + 1) + 1)) ++ [.spine nv] ++ r ++ ((List.range (nv + 1)).map fun v => .rank v cnf.length) ++ links nv cnf.length cm nv ++ [.tail])

/-- the text of the picture -/
def text (ls : List Line) : List Char := ls.flatMap Line.text

end CnfPic

end TdZdd
