import Verif.AppOps
import Verif.PathByMap
import Verif.PathZdd
import Verif.FrontierSearch
import Verif.DegreeConstraint
import Verif.SizeConstraint
import Verif.Readers
import Verif.Cardinality
import Verif.Iterator

/-!
# Model of the application `apps/ddpaths`

`main` of `ddpaths.cpp` from the reading of the files to the diagram. The messages, the dumps (options `-graph`, `-zdd`, `-zdd1`, `-export`) and the conversion to SAPPOROBDD are not modelled here.
-/

namespace TdZdd

namespace DdPaths

/-- the argument of the option `-t` (`ddpaths.cpp` 47-50); any other one is rejected when the options are read -/
inductive Kind where
  | path
  | cycle
  | cc
  | forest
deriving DecidableEq

/-- the options (`ddpaths.cpp` 46-65, 111-152) that have an influence on the diagram. `lb` and `ub` are `none` if the option has not been given, `uec` is −1 then. -/
structure Opts where
  kind : Kind := .path
  hamilton : Bool := false
  slow : Bool := false
  nola : Bool := false
  p : Bool := false
  dc : Bool := false
  nored : Bool := false
  lb : Option Int := none
  ub : Option Int := none
  uec : Int := -1

/-- `opt["lb"] || opt["ub"]` -/
def Opts.sized (o : Opts) : Bool := o.lb.isSome || o.ub.isSome

/-- `IntRange r(optNum["lb"], optNum["ub"])` (`ddpaths.cpp` 223) with the values of lines 113-114 -/
def Opts.range (o : Opts) : IntSubset := intRange (o.lb.getD 0) (o.ub.getD 2147483647) 1

/-- `name2color` after `setDefaultPathColor()` (`Graph.hpp` 593-595), where `n` is `vMax` -/
def defaultColor (n : Nat) : List (List Char × List Char) :=
  if n = 1 then [(intName 1, "#ff7777".toList)] else [(intName 1, "#ff7777".toList), (intName n, "#ff7777".toList)]

/-- lines 169-190, `G` is the graph that has been read and `E` are its edges -/
def adjust (o : Opts) (E : List (List Char × List Char)) (G : CGraph) : Res CGraph :=
  (if o.kind = .path ∧ G.numColor = 0 then cgUpdate E (defaultColor G.vMax) else .ok G).bind fun G =>
  if G.info.length = 0 then .thrown
  else if o.kind = .path ∧ G.pairs = false then .thrown
  else .ok (if o.kind = .cycle then G.clearColors else G)

/-- lines 165-190: the graph when both files have been read. `E` are the edges of the graph file; `C` are the colours of the file with the vertex groups, if there is one. -/
def graphOf (o : Opts) (E : List (List Char × List Char)) (C : Option (List (List Char × List Char))) : Res CGraph :=
  (cgUpdate E (C.getD [])).bind (adjust o E)

/-- lines 165-190 for the texts of the files -/
def readGraph (o : Opts) (graphText : List Char) (termText : Option (List Char)) : Res CGraph :=
  (readAdjacencyList graphText).bind fun E =>
  -- `readAdjacencyList` ends with `update()`, which may throw before the other file is read
  (cgUpdate E ([] : List (List Char × List Char))).bind fun _ =>
  match termText with
  | none => graphOf o E none
  | some t => (readVertexGroups t).bind fun C => graphOf o E (some C)

/-- the constraints of `dc` (`ddpaths.cpp` 204-215) -/
def degrees (G : CGraph) (v : Nat) : Option IntSubset :=
  if 1 ≤ v ∧ v ≤ G.vMax then some (if G.color v = 0 then intRange 0 2 2 else intRange 1 1 1) else none

/-- The specification of lines 233-244, 249-260 and of lines 272-283, 288-299 is given to `k`: the code has it once for `zddSubset` and once for the constructor. -/
def Opts.withSpec {α : Type} (o : Opts) (G : CGraph) (k : (S : Type) → DdSpec 2 S → α) : α :=
  match o.kind with
  | .cycle =>
    if o.hamilton then k _ (hamiltonCycleZdd G.toGraph !o.nola)
    else if o.slow then k _ (pathByMap G)
    else k _ (cycleZdd G.toGraph !o.nola)
  | _ =>
    if o.hamilton then k _ (hamiltonPathZdd G.toGraph !o.nola)
    else if o.slow then k _ (pathByMap G)
    else k _ (pathZdd G.toGraph !o.nola)

/-- `if (!opt["nored"]) f.zddReduce();` -/
def Opts.tidy (o : Opts) (e : Par) (k : Nat) (f : DdS) : Option DdS := if o.nored then some f else e.reduce k f

/-- lines 197-220 -/
def dcFilter (e : Par) (o : Opts) (G : CGraph) : Option DdS :=
  if o.dc = true ∧ (o.kind = .path ∨ o.kind = .cycle) then (e.make 0 (degreeConstraint G.toGraph (degrees G) true) o.p).bind (e.reduce 1) else some (DdS.all G.info.length)

/-- lines 222-227 -/
def sizeFilter (e : Par) (o : Opts) (G : CGraph) (f : DdS) : Option DdS :=
  if o.sized then (e.subset 2 f (sizeConstraint G.info.length (some o.range))).bind (e.reduce 3) else some f

/-- `if (!opt["nored"]) f.zddReduce(); f.zddSubset(g);` (lines 263-264, 302-303, 317-318) -/
def restrict (e : Par) (o : Opts) (g f : DdS) : Option DdS := (o.tidy e 5 f).bind fun f => e.subset 6 f g.dd.spec

/-- lines 231-266 and 270-305: paths and cycles -/
def simple (e : Par) (o : Opts) (G : CGraph) (f : DdS) : Option DdS :=
  if o.dc then o.withSpec G fun _ sp => e.subset 4 f sp
  else (o.withSpec G fun _ sp => e.make 4 sp o.p).bind fun h => if o.sized then restrict e o f h else some h

/-- lines 310-322: connected components and forests -/
def search (e : Par) (o : Opts) (G : CGraph) (f : DdS) : Option DdS :=
  if o.sized then (e.make 4 (frontierSearch G.toGraph o.uec (o.kind = .forest) true) o.p).bind (restrict e o f)
  else e.make 4 (frontierSearch G.toGraph o.uec (o.kind = .forest) true) false

/-- lines 197-324: the diagram -/
def diagram (e : Par) (o : Opts) (G : CGraph) : Option DdS :=
  (dcFilter e o G).bind fun f =>
  (sizeFilter e o G f).bind fun f =>
  (if o.kind = .path ∨ o.kind = .cycle then simple e o G f else search e o G f).bind (o.tidy e 7)

/-- the levels in `levels` are those of these edges (`EdgeDecorator`, `ddpaths.cpp` 86-99): edge `a` is bold -/
def bold (n : Nat) (levels : List Nat) : List Nat := (List.range n).filter fun a => decide (n - a ∈ levels)

/-- what is printed: the number of solutions (`-count`, line 337) and the edges of each solution (`-all`, lines 344-350). `fuel` and `steps` bound the loops of the iterator. -/
def output (f : DdS) (n : Nat) (sched : Nat → List (Nat × Nat)) (fuel steps : Nat) : Option (String × List (List Nat)) := do
  let count ← f.dd.zddCardinality sched
  let sets ← f.dd.iterate fuel steps
  some (count, sets.map (bold n))

end DdPaths

end TdZdd
