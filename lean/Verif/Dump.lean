import Verif.Structure

/-!
# Model of the Graphviz output of specifications and node tables

`DdDumper` (`dd/DdBuilder.hpp` 1243-1525), called by `DdSpecBase::dumpDot`, `dot` and `operator<<` (`DdSpec.hpp` 96-127), and
`NodeTableEntity::dumpDot` (`dd/NodeTable.hpp` 326-398).

The output is a list of lines, each with its text. The unique tables are abstracted to a search for an equal state (as in `Builder.lean`). The construction, copying and
destruction of states is modelled in `StateStore.lean` (C86) and left out here.
-/

namespace TdZdd

namespace Dot

variable {N : Nat} {S : Type}

/-- the lines of the output of `DdDumper` -/
inductive Line (N : Nat) (S : Type)
  /-- `digraph "title" {` -/
  | start (title : String)
  /-- `labelloc` and `label` -/
  | label (title : String)
  /-- the entry mark -/
  | entry (title : String)
  /-- the edge from the entry mark -/
  | root (f : NodeId)
  /-- the label of a level -/
  | level (i : Nat)
  /-- the invisible edge between the labels of two levels -/
  | below (i : Nat)
  /-- a node -/
  | node (f : NodeId) (s : S)
  /-- an edge -/
  | edge (f : NodeId) (b : Fin N) (g : NodeId)
  /-- the nodes of one level -/
  | rank (i m : Nat)
  /-- a former 1-terminal -/
  | invis (f : NodeId)
  /-- the 1-terminal -/
  | top (f : NodeId)
  /-- `}` -/
  | stop

/-- `operator<<` of `NodeId` (`Node.hpp` 131-135); there are no attributes here -/
def showId (f : NodeId) : String := toString f.row ++ ":" ++ toString f.col

/-- the style of an edge (`DdBuilder.hpp` 1501-1512, `NodeTable.hpp` 368-381) -/
def style (N b : Nat) : String :=
  if b = 0 then "dashed"
  else "solid" ++ (if N > 2 then ",color=" ++ (if b = 1 then "blue" else if b = 2 then "red" else "green") else "")

/-- the nodes of a level (`DdBuilder.hpp` 1516-1520, `NodeTable.hpp` 389-393) -/
def rankText (i m : Nat) : String := "  {rank=same; " ++ toString i ++ String.join ((List.range m).map fun j => "; \"" ++ showId ⟨i, j⟩ ++ "\"") ++ "}\n"

/-- the text of a line; `printLevel` and `printState` are those of the specification -/
def Line.text (printLevel : Nat → String) (printState : S → Nat → String) : Line N S → String
  | .start t => "digraph \"" ++ t ++ "\" {\n"
  | .label t => "  labelloc=\"t\";\n  label=\"" ++ t ++ "\";\n"
  | .entry t => "  \"^\" [shape=none,label=\"" ++ t ++ "\"];\n"
  | .root f => "  \"^\" -> \"" ++ showId f ++ "\" [style=dashed];\n"
  | .level i => "  " ++ toString i ++ " [shape=none,label=\"" ++ printLevel i ++ "\"];\n"
  | .below i => "  " ++ toString (i + 1) ++ " -> " ++ toString i ++ " [style=invis];\n"
  | .node f s => "  \"" ++ showId f ++ "\" [label=\"" ++ printState s f.row ++ "\"];\n"
  | .edge f b g => "  \"" ++ showId f ++ "\" -> \"" ++ showId g ++ "\" [style=" ++ style N b ++ "];\n"
  | .rank i m => rankText i m
  | .invis f => "  \"" ++ showId f ++ "\" [style=invis];\n"
  | .top f => "  \"" ++ showId f ++ "\" [shape=square,margin=0.05,width=0,label=\"T\"];\n"
  | .stop => "}\n"

/-- the members of `DdDumper` (`DdBuilder.hpp` 1304-1311). `lev` is `snodeTable` in the order of allocation (the C++ lists have the last node in front): state and `nodeId` field.
`uniq` lists the elements of the unique tables as position in `lev` and state. -/
structure St (S : Type) where
  lev : Nat → List (S × NodeId)
  uniq : Nat → List (Nat × S)
  oneId : Nat
  oneState : S

def upd (f : Nat → α) (i : Nat) (v : α) : Nat → α := fun j => if j = i then v else f j

/-- a 1-terminal in state `t` (`DdBuilder.hpp` 1432-1455) -/
def oneChild (sp : DdSpec N S) (t : S) (st : St S) : St S × NodeId :=
  if st.oneId = 1 then ({ st with oneId := 2, oneState := t }, ⟨0, 2⟩)
  else if sp.merge st.oneState t = 1 then ({ st with oneId := st.oneId + 1, oneState := t }, ⟨0, st.oneId + 1⟩)
  else if sp.merge st.oneState t = 2 then (st, .zero)
  else (st, ⟨0, st.oneId⟩)

/-- a new node of level `ii` in state `t` (`DdBuilder.hpp` 1456-1484); `none` cannot happen (`C91`) -/
def nodeChild (sp : DdSpec N S) (ii : Nat) (t : S) (st : St S) : Option (St S × NodeId) :=
  match (st.uniq ii).find? fun e => sp.eqv ii e.2 t with
  | none => some ({ st with lev := upd st.lev ii (st.lev ii ++ [(t, ⟨ii, (st.lev ii).length⟩)]), uniq := upd st.uniq ii (((st.lev ii).length, t) :: st.uniq ii) },
      ⟨ii, (st.lev ii).length⟩)
  | some e =>
    if sp.merge e.2 t = 1 then
      some ({ st with lev := upd st.lev ii ((st.lev ii).set e.1 (e.2, .zero) ++ [(t, ⟨ii, (st.lev ii).length⟩)]),
                      uniq := upd st.uniq ii ((st.uniq ii).map fun e' => if e'.1 = e.1 then ((st.lev ii).length, t) else e') },
        ⟨ii, (st.lev ii).length⟩)
    else if sp.merge e.2 t = 2 then some (st, .zero)
    else (st.lev ii)[e.1]?.map fun q => (st, q.2)

/-- the branch `b` of a node of level `i` in state `s` (`DdBuilder.hpp` 1418-1487). A child on level `i` or above is outside of the contract. -/
def branch (sp : DdSpec N S) (i : Nat) (s : S) (st : St S) (b : Fin N) : Option (St S × NodeId) :=
  if (sp.child s i b).1 = 0 then some (st, .zero)
  else if (sp.child s i b).1 < 0 then some (oneChild sp (sp.child s i b).2 st)
  else if (sp.child s i b).1 < i then nodeChild sp (sp.child s i b).1.toNat (sp.child s i b).2 st
  else none

/-- the branches from the listed values on -/
def branches (sp : DdSpec N S) (i : Nat) (s : S) : St S → List (Fin N) → Option (St S × List (Fin N × NodeId))
  | st, [] => some (st, [])
  | st, b :: l => (branch sp i s st b).bind fun r => (branches sp i s r.1 l).map fun q => (q.1, (b, r.2) :: q.2)

/-- the loop body for one node (`DdBuilder.hpp` 1409-1490) -/
def oneNode (sp : DdSpec N S) (i : Nat) (x : S × NodeId) (st : St S) : Option (St S × List (Fin N × NodeId)) :=
  if x.2 = .zero then some (st, (List.finRange N).map fun b => (b, .zero)) else branches sp i x.1 st (List.finRange N)

/-- the loop over the nodes of a level (`DdBuilder.hpp` 1409-1490); the given list has the last node first. The result is the contents of `nodeList` in the same order. -/
def nodes (sp : DdSpec N S) (i : Nat) : St S → List (S × NodeId) → Option (St S × List (List (Fin N × NodeId)))
  | st, [] => some (st, [])
  | st, x :: l => (oneNode sp i x st).bind fun r => (nodes sp i r.1 l).map fun q => (q.1, r.2 :: q.2)

/-- the labels of the nodes (`DdBuilder.hpp` 1414-1416), last node first -/
def nodeLines (i : Nat) (l : List (S × NodeId)) : List (Line N S) := (l.zipIdx.map fun x => Line.node ⟨i, x.2⟩ x.1.1).reverse

/-- the edges of the nodes (`DdBuilder.hpp` 1492-1514) -/
def edgeLines (i oneId : Nat) (t : List (List (Fin N × NodeId))) : List (Line N S) :=
  t.zipIdx.flatMap fun x => x.1.filterMap fun y =>
    if y.2 = .zero then none else some (.edge ⟨i, x.2⟩ y.1 (if y.2 = .one then ⟨0, oneId⟩ else y.2))

/-- `dumpStep` (`DdBuilder.hpp` 1402-1524) -/
def dumpStep (sp : DdSpec N S) (i : Nat) (st : St S) : Option (St S × List (Line N S)) :=
  (nodes sp i st (st.lev i).reverse).map fun q =>
    ({ q.1 with uniq := upd q.1.uniq (i - 1) [] },
      nodeLines i (st.lev i) ++ edgeLines i q.1.oneId q.2.reverse ++ [.rank i (st.lev i).length])

/-- the loop over the levels (`DdBuilder.hpp` 1385-1387) -/
def dumpLevels (sp : DdSpec N S) : Nat → St S → Option (St S × List (Line N S))
  | 0, st => some (st, [])
  | i + 1, st => (dumpStep sp (i + 1) st).bind fun r => (dumpLevels sp i r.1).map fun q => (q.1, r.2 ++ q.2)

/-- the state before the loop (`DdBuilder.hpp` 1371-1383) -/
def start (sp : DdSpec N S) (n : Nat) : St S where
  lev := upd (fun _ => []) n [(sp.root.2, ⟨n, 0⟩)]
  uniq := fun _ => []
  oneId := 1
  oneState := sp.root.2

/-- `dump` of a new `DdDumper` (`DdBuilder.hpp` 1333-1399) -/
def dump (sp : DdSpec N S) (title : String) : Option (List (Line N S)) :=
  if sp.root.1 = 0 then some ([.start title] ++ (if title.isEmpty then [] else [.label title]) ++ [.stop])
  else if sp.root.1 < 0 then some [.start title, .entry title, .root .one, .top .one, .stop]
  else
    (dumpLevels sp sp.root.1.toNat (start sp sp.root.1.toNat)).map fun r =>
      [.start title] ++ ((List.range' 1 sp.root.1.toNat).reverse.map .level) ++ ((List.range' 1 (sp.root.1.toNat - 1)).reverse.map .below) ++
      [.entry title, .root ⟨sp.root.1.toNat, 0⟩] ++ r.2 ++
      ((List.range' 2 (r.1.oneId - 2)).map fun j => .invis ⟨0, j⟩) ++ [.top ⟨0, r.1.oneId⟩, .stop]

/-- `dot(title)` (`DdSpec.hpp` 112-116) -/
def dot (sp : DdSpec N S) (printLevel : Nat → String) (printState : S → Nat → String) (title : String) : Option String :=
  (dump sp title).map fun l => String.join (l.map (Line.text printLevel printState))

/-! ## `NodeTableEntity::dumpDot` -/

/-- the lines of the output of `NodeTableEntity::dumpDot` -/
inductive TLine (N : Nat)
  | start (title : String)
  | level (i : Nat)
  | below (i : Nat)
  | label (title : String)
  | node (f : NodeId)
  /-- an edge to a node; `none` is the mark of the 1-terminal -/
  | edge (f : NodeId) (b : Fin N) (g : Option NodeId)
  | top
  | rank (i m : Nat)
  | stop

/-- the text of a line -/
def TLine.text : TLine N → String
  | .start t => "digraph \"" ++ t ++ "\" {\n"
  | .level i => "  " ++ toString i ++ " [shape=none];\n"
  | .below i => "  " ++ toString (i + 1) ++ " -> " ++ toString i ++ " [style=invis];\n"
  | .label t => "  labelloc=\"t\";\n  label=\"" ++ t ++ "\";\n"
  | .node f => "  \"" ++ showId f ++ "\";\n"
  | .edge f b g => "  \"" ++ showId f ++ "\" -> \"" ++ ((g.map showId).getD "$") ++ "\" [style=" ++ style N b ++ "];\n"
  | .top => "  \"$\" [shape=square,label=\"⊤\"];\n"
  | .rank i m => rankText i m
  | .stop => "}\n"

/-- the lines for one node (`NodeTable.hpp` 351-382) -/
def tnode (f : NodeId) (nd : Node N) : List (TLine N) :=
  .node f :: (List.finRange N).filterMap fun b =>
    if nd b = .zero then none else if nd b = .one then some (.edge f b none) else some (.edge f b (some (nd b)))

/-- has the row an edge to the 1-terminal (`terminal1`, `NodeTable.hpp` 359-360) -/
def rowOne (l : List (Node N)) : Bool := l.any fun nd => (List.finRange N).any fun b => decide (nd b = .one)

/-- the loop over the rows (`NodeTable.hpp` 347-394), `t1` is `terminal1` -/
def trows (T : Table N) : Nat → Bool → List (TLine N)
  | 0, _ => []
  | i + 1, t1 =>
    ((T.row (i + 1)).zipIdx.flatMap fun x => tnode ⟨i + 1, x.2⟩ x.1) ++
    (if t1 || rowOne (T.row (i + 1)) then [.top] else []) ++ [.rank (i + 1) (T.row (i + 1)).length] ++ trows T i (t1 || rowOne (T.row (i + 1)))

/-- `dumpDot` (`NodeTable.hpp` 331-398) -/
def tdump (T : Table N) (title : String) : List (TLine N) :=
  [.start title] ++ ((List.range' 1 (T.numRows - 1)).reverse.map .level) ++ ((List.range' 1 (T.numRows - 2)).reverse.map .below) ++
  (if title.isEmpty then [] else [.label title]) ++ trows T (T.numRows - 1) false ++ [.stop]

end Dot

end TdZdd
