import Verif.Graph

/-!
# Model of the names and of the text of a `Graph` (`util/Graph.hpp` 500-562, 611-669) and of `EdgeDecorator` (`apps/ddpaths/ddpaths.cpp` 84-98)

The functions are called after a successful `update()` with the edges `E` and the colours `C` (`name2color`), whose result is `G`.
Names are lists of characters. `name2label` is the list `L`; no function of the class enters anything into it, it can only be cleared.
Maps are lists of pairs with different keys.
-/

namespace TdZdd

namespace GText

/-- the names that are given to edges and vertices -/
abbrev Name := List Char

/-- `find` in a map with strings as keys -/
def find (m : List (Name × Name)) (s : Name) : Option Name := (m.find? fun p => p.1 == s).map (·.2)

/-- `vertex2name` (`Graph.hpp` 322-331); index 0 is not used -/
def vertex2name (E : List (Name × Name)) : List Name := [] :: gStack (gUnique E)

/-- `getVertex(name)` (500-506); after `update()` the keys of `name2vertex` are the names on the stack -/
def getVertex (E : List (Name × Name)) (s : Name) : Res Nat := if s ∈ gStack (gUnique E) then .ok (gNumber (gStack (gUnique E)) s) else .thrown

/-- `vertexName(v)` (508-511) -/
def vertexName (E : List (Name × Name)) (G : Graph) (v : Nat) : Res Name :=
  if v < 1 ∨ G.vMax < v then .ok ['?'] else match (vertex2name E)[v]? with
    | some s => .ok s
    | none => .ub

/-- `vertexLabel(v)` (513-523) -/
def vertexLabel (E L : List (Name × Name)) (G : Graph) (v : Nat) : Res Name := (vertexName E G v).bind fun s => .ok ((find L s).getD s)

/-- update of `name2edge` -/
def put (m : Name × Name → Option Int) (k : Name × Name) (a : Int) : Name × Name → Option Int := fun x => if x = k then some a else m x

/-- `name2edge` after the first loop (292-300) -/
def nameInit (D : List (Name × Name)) : Name × Name → Option Int := D.foldl (fun m e => put (put m e (-1)) (e.2, e.1) (-1)) fun _ => none

/-- `name2edge` in the loop that makes `edgeInfo_` (334-364); `es` is `edgeInfo_`, whose entries are those of `edgeIndex` -/
def nameLoop (num : Name → Nat) : List (Name × Name) → List EdgeInfo → (Name × Name → Option Int) → Name × Name → Option Int
  | [], _, m => m
  | (s1, s2) :: rest, es, m =>
    let s := if num s1 > num s2 then (s2, s1) else (s1, s2)
    if es.any (fun e => e.v1 == num s.1 && e.v2 == num s.2) then nameLoop num rest es m
    else nameLoop num rest (es ++ [EdgeInfo.mk0 (num s.1) (num s.2)]) (put (put m (s.1, s.2) es.length) (s.2, s.1) es.length)

/-- `getEdge(name)` and `getEdge(name1, name2)` (525-536) -/
def getEdge (E : List (Name × Name)) (s : Name × Name) : Res Int :=
  match nameLoop (gNumber (gStack (gUnique E))) (gUnique E) [] (nameInit (gUnique E)) s with
  | some a => .ok a
  | none => .thrown

/-- `edgeName(e)` (538-541) -/
def edgeName (E : List (Name × Name)) (G : Graph) (e : Int) : Res (Name × Name) :=
  if e < 0 ∨ (G.info.length : Int) ≤ e then .ok (['?'], ['?']) else match (gUnique E)[e.toNat]? with
    | some s => .ok s
    | none => .ub

/-- `edgeLabel(e)` (543-554) -/
def edgeLabel (E L : List (Name × Name)) (G : Graph) (e : Int) : Res Name :=
  (edgeName E G e).bind fun s => .ok ((find L (s.1 ++ [','] ++ s.2)).getD (s.1 ++ [','] ++ s.2))

/-- `getEdge(v1, v2)` (560-571); `edgeIndex` has the positions of the entries of `edgeInfo_` -/
def getEdgeNum (G : Graph) (v1 v2 : Nat) : Res Nat :=
  if 1 ≤ v1 ∧ v1 ≤ G.vMax ∧ 1 ≤ v2 ∧ v2 ≤ G.vMax then
    let v := if v1 > v2 then (v2, v1) else (v1, v2)
    match G.info.findIdx? fun e => e.v1 == v.1 && e.v2 == v.2 with
    | some a => .ok a
    | none => .thrown
  else .ub

/-! ## The text -/

/-- `[label="…"]` (620-624, 639-643) -/
def labelText : Option Name → List Char
  | none => []
  | some l => ['[', 'l', 'a', 'b', 'e', 'l', '=', '"'] ++ l ++ ['"', ']']

/-- `[color="…",style=filled]` (625-628) -/
def fillText : Option Name → List Char
  | none => []
  | some c => ['[', 'c', 'o', 'l', 'o', 'r', '=', '"'] ++ c ++ ['"', ',', 's', 't', 'y', 'l', 'e', '=', 'f', 'i', 'l', 'l', 'e', 'd', ']']

/-- `[color="…",style=bold]` (644-647) -/
def boldText : Option Name → List Char
  | none => []
  | some c => ['[', 'c', 'o', 'l', 'o', 'r', '=', '"'] ++ c ++ ['"', ',', 's', 't', 'y', 'l', 'e', '=', 'b', 'o', 'l', 'd', ']']

/-- one round of the first loop of `dump` (616-630) -/
def dumpVertex (L C : List (Name × Name)) (s : Name) : List Char :=
  if s = [] then [] else [' ', ' ', '"'] ++ s ++ ['"'] ++ labelText (find L s) ++ fillText (find C s) ++ [';', '\n']

/-- one round of the second loop of `dump` (632-650) -/
def dumpEdge (E L C : List (Name × Name)) (deco : Nat → List Char) (a : Nat) (e : EdgeInfo) : Option (List Char) :=
  (vertex2name E)[e.v1]?.bind fun s1 => (vertex2name E)[e.v2]?.map fun s2 =>
    [' ', ' ', '"'] ++ s1 ++ ['"', '-', '-', '"'] ++ s2 ++ ['"'] ++ labelText (find L (s1 ++ [','] ++ s2)) ++ boldText (find C (s1 ++ [','] ++ s2)) ++
      deco a ++ [';', '\n']

/-- the second loop of `dump` (632-650) from edge `a` on -/
def dumpEdges (E L C : List (Name × Name)) (deco : Nat → List Char) : Nat → List EdgeInfo → Option (List Char)
  | _, [] => some []
  | a, e :: es => (dumpEdge E L C deco a e).bind fun t => (dumpEdges E L C deco (a + 1) es).map fun r => t ++ r

/-- `dump(os, edgeDecorator)` (611-655) -/
def dump (E L C : List (Name × Name)) (deco : Nat → List Char) (G : Graph) : Option (List Char) :=
  (dumpEdges E L C deco 0 G.info).map fun t =>
    ['g', 'r', 'a', 'p', 'h', ' ', '{', '\n'] ++ (vertex2name E).flatMap (dumpVertex L C) ++ t ++ ['}', '\n']

/-- `NoEdgeDecorator` (656-660) -/
def noDeco (_ : Nat) : List Char := []

/-- `EdgeDecorator` (`ddpaths.cpp` 84-98, `graphillion_example.cpp` 78-92) for the level set given by the iterator -/
def edgeDeco (n : Int) (levels : List Int) (a : Nat) : List Char :=
  if n - a ∈ levels then ['[', 's', 't', 'y', 'l', 'e', '=', 'b', 'o', 'l', 'd', ']']
  else ['[', 's', 't', 'y', 'l', 'e', '=', 'd', 'o', 't', 't', 'e', 'd', ',', 'c', 'o', 'l', 'o', 'r', '=', 'g', 'r', 'a', 'y', ']']

end GText

end TdZdd
