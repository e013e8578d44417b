import Verif.AppOps
import Verif.NumlinApp
import Verif.Cardinality

/-!
# The option `-p` of `ddqueens` and `ddnumlin`

The programs of `QueensApp.lean` and `NumlinApp.lean` with `DdStructure<2>(spec, opt["p"])`. A structure keeps its member `useMP` in copies, subsets and
reductions (`AppOps.lean`). The operations are numbered, so that each of them has its own schedule.
-/

namespace TdZdd

namespace Queens

/-- `DdStructure<2>(spec, p)`, then `zddReduce()` -/
def madeP {S : Type} (e : Par) (k : Nat) (sp : DdSpec 2 S) (p : Bool) : Option DdS := (e.make k sp p).bind fun f => e.reduce (k + 1) f

/-- `zddSubset(spec)`, then `zddReduce()` -/
def cutByP {S : Type} (e : Par) (k : Nat) (f : DdS) (sp : DdSpec 2 S) : Option DdS := (e.subset k f sp).bind fun f => e.reduce (k + 1) f

/-- no option but `-p` (`ddqueens.cpp` 182-185) -/
def plainP (e : Par) (n : Nat) (p : Bool) : Option DdS := madeP e 0 (spec false n none) p

/-- option `-rook` (175-181) -/
def viaRooksP (e : Par) (n : Nat) (p : Bool) : Option DdS := (madeP e 0 (spec true n none) p).bind fun f => cutByP e 2 f (spec false n none)

/-- option `-colored1` (133-137) -/
def colored1P (e : Par) (n : Nat) (p : Bool) : Option DdS := madeP e 0 (cspec false n) p

/-- option `-colored` (138-171). Only the diagrams `nqs[k]` are made with `opt["p"]`; `oh`, `dc` and so `ddk` and `dd` are made without. -/
def colouredP (e : Par) (n : Nat) (p : Bool) : Option (Dd 2) :=
  ((List.range n).mapM fun k => madeP e (2 * k) (spec false n (some k)) p).bind fun fs =>
  (build (NAry.oneHotNary n (n * n))).bind fun oh =>
  (colourK n (fs.map DdS.dd) oh (n - 1)).bind fun dd => colourLoop n (fs.map DdS.dd) oh (n - 1) dd

end Queens

namespace Nl

/-- the diagram (`ddnumlin.cpp` 119-134) -/
def diagramP (e : Par) (q : Board) (all : Bool) (k : Int) (p : Bool) : Option DdS :=
  if all then (Queens.madeP e 0 (zddLookahead (degreeZdd q)) p).bind fun f => Queens.cutByP e 2 f (zddLookahead (numlinZdd q k))
  else Queens.madeP e 0 (zddLookahead (zddIntersection (constraintZdd q) (numlinZdd q k))) p

/-- `run` after the input (112-141): the number that is printed, as text, and the boards; `sched` gives the schedule of the evaluation (`zddCardinality`) -/
def Grid.runP (e : Par) (sched : Dd 2 → Nat → List (Nat × Nat)) (g : Grid) (all : Bool) (k m : Int) (p : Bool) (fuel steps : Nat) : Option (String × List Grid) :=
  g.turn.bind fun q => (diagramP e q.toBoard all k p).bind fun f => (f.dd.zddCardinality (sched f.dd)).bind fun c =>
  (if m = 0 then some []
  else (f.dd.iterate fuel steps).bind fun L => outLoop q (decide (g.rows < g.cols)) m L 0).map fun bs => (c, bs)

end Nl

end TdZdd
