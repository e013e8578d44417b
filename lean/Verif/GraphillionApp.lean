import Verif.PathByMap
import Verif.FrontierSearch
import Verif.DegreeConstraint
import Verif.SizeConstraint
import Verif.BinaryOperation
import Verif.Readers
import Verif.Graphillion
import Verif.Subsetter
import Verif.Cardinality
import Verif.Iterator

/-!
# Model of the application `apps/graphillion`

`main` of `graphillion_example.cpp` from the reading of the files to the diagram and what is printed for `-count` and `-solutions`. The messages, the dumps (options `-graph`, `-zdd`, `-export`) and the conversion to SAPPOROBDD are not modelled.
-/

namespace TdZdd

namespace Gx

/-- the options (`graphillion_example.cpp` 42-59, 94-100) that have an influence on the diagram; `uec`, `lb` and `ub` are `none` if the option has not been given -/
structure Opts where
  path : Bool := false
  matching : Bool := false
  spanning : Bool := false
  noloop : Bool := false
  uec : Option Int := none
  lb : Option Int := none
  ub : Option Int := none
  st : Bool := false
  nola : Bool := false
  a : Bool := false

/-- the graph of lines 162-173 -/
def ownEdges : List (List Char × List Char) :=
  [("v1", "v2"), ("v1", "v3"), ("v1", "v4"), ("v2", "v4"), ("v2", "v5"), ("v3", "v4"), ("v3", "v6"), ("v4", "v5"), ("v4", "v6"), ("v4", "v7"), ("v5", "v7"), ("v6", "v7")].map fun p => (p.1.toList, p.2.toList)

/-- the colours of lines 174-175 -/
def ownColors : List (List Char × List Char) := [("v2".toList, getColor 0), ("v3".toList, getColor 0)]

/-- lines 153-177 without `update()`: edges and colours; no text means that no file has been given -/
def edgesOf (o : Opts) : Option (List Char) → Res (List (List Char × List Char) × List (List Char × List Char))
  | some t => (if o.a then readAdjacencyList t else readEdges t []).bind fun E => .ok (E, [])
  | none => .ok (ownEdges, ownColors)

/-- `vertexName(v)` (`Graph.hpp` 508-511) for the vertices that `update()` has numbered -/
def vertexName (E : List (List Char × List Char)) (v : Nat) : List Char := if v < 1 then ['?'] else (gStack (gUnique E))[v - 1]?.getD ['?']

/-- lines 187-188 -/
def colorEnds (E C : List (List Char × List Char)) (m : Nat) : List (List Char × List Char) := setName (setName C (vertexName E 1) (getColor 0)) (vertexName E m) (getColor 0)

/-- lines 186-190 and 195-196; `G` is the graph with the edges `E` and the colours `C` -/
def finish (o : Opts) (E C : List (List Char × List Char)) (G : CGraph) : Res CGraph :=
  (if o.st = true ∧ 1 ≤ G.vMax then cgUpdate E (colorEnds E C G.vMax) else .ok G).bind fun G =>
  if G.info.length = 0 then .thrown else .ok G

/-- lines 151-196 for the texts of the files -/
def readGraph (o : Opts) (graphText termText : Option (List Char)) : Res CGraph :=
  (edgesOf o graphText).bind fun r =>
  -- `update()` of lines 155, 158, 176
  (cgUpdate r.1 r.2).bind fun _ =>
  (match termText with
    | none => Res.ok r.2
    -- `readVertexGroups` clears the colours
    | some t => readVertexGroups t).bind fun C =>
  (cgUpdate r.1 C).bind (finish o r.1 C)

/-- the constraints of `dc` (lines 203-234): those that are set later replace those that have been set before -/
def degrees (o : Opts) (G : CGraph) (v : Nat) : Option IntSubset :=
  if 1 ≤ v ∧ v ≤ G.vMax then
    if o.spanning = true ∧ G.color v = 0 then some (intRange 1 2147483647 1)
    else if o.matching then some (intRange 0 1 1)
    else if o.path then some (if G.color v = 0 then intRange 0 2 2 else intRange 1 1 1)
    else none
  else none

/-- `optNum["uec"]` (lines 94, 210) -/
def Opts.numUEC (o : Opts) : Int :=
  match o.uec with
  | some x => x
  | none => if o.path then 0 else -1

/-- `IntRange r(optNum["lb"], optNum["ub"])` (line 242) -/
def Opts.range (o : Opts) : IntSubset := intRange (o.lb.getD 0) (o.ub.getD 2147483647) 1

/-- `dfbs` (lines 236-237) -/
def dfbs (o : Opts) (G : CGraph) : DdSpec 2 (List Int × Int × List Mt) :=
  zddIntersection (degreeConstraint G.toGraph (degrees o G) !o.nola) (frontierSearch G.toGraph o.numUEC o.noloop !o.nola)

/-- `dd` from a specification (lines 246-252 and 255-261); `base` is what has been read from the standard input if there is the option `-import` -/
def dd {S : Type} (base : Option Gz) (sp : DdSpec 2 S) : Option (Dd 2) :=
  match base with
  | some g => (build (graphillion g)).bind fun D => zddSubset D sp false
  | none => build sp

/-- lines 239-262: the diagram -/
def diagram (o : Opts) (G : CGraph) (base : Option Gz) : Option (Dd 2) :=
  if o.lb.isSome || o.ub.isSome then dd base (zddIntersection (sizeConstraint G.info.length (some o.range)) (dfbs o G))
  else dd base (dfbs o G)

/-- the loop of lines 290-295: what is printed of the sets; `--count` is undefined for the smallest number -/
def show' (n : Nat) : Int → List (List Nat) → Option (List (List Nat))
  | _, [] => some []
  | count, s :: ss =>
    if count = -2147483648 then none
    else if count - 1 = 0 then some [(List.range n).filter fun a => decide (n - a ∈ s)]
    else (show' n (count - 1) ss).map (((List.range n).filter fun a => decide (n - a ∈ s)) :: ·)

/-- what is printed for `-count` (line 271) and `-solutions` (lines 286-296); `fuel` and `steps` bound the loops of the iterator -/
def output (D : Dd 2) (n : Nat) (count : Int) (sched : Nat → List (Nat × Nat)) (fuel steps : Nat) : Option (String × List (List Nat)) :=
  (D.zddCardinality sched).bind fun c =>
  (D.iterate fuel steps).bind fun sets =>
  (show' n count sets).map fun l => (c, l)

end Gx

end TdZdd
