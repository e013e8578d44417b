import Verif.DdPaths
import Verif.GraphillionApp
import Verif.GraphText

/-!
# Model of the graphs printed by the applications `ddpaths` and `graphillion_example`

The options `-graph` (`ddpaths.cpp` 192-195, `graphillion_example.cpp` 198-201), `-all` (`ddpaths.cpp` 344-350) and `-solutions` (`graphillion_example.cpp` 286-297): the text that `Graph::dump` writes to the standard output.
In contrast to `readGraph` in `DdPaths.lean` and `GraphillionApp.lean`, the edges and `name2color` are kept, as `dump` uses them. No label is ever set.
-/

namespace TdZdd

namespace AppText

/-- edges, `name2color` and what `update()` has computed -/
abbrev Loaded := List (List Char × List Char) × List (List Char × List Char) × CGraph

/-- the text of the graph; an access outside of `vertex2name` is undefined -/
def pictureOf (x : Loaded) (deco : Nat → List Char) : Option (List Char) := GText.dump x.1 [] x.2.1 deco x.2.2.toGraph

/-- one round of the loops over the solutions: `EdgeDecorator edges(n, *t); graph.dump(std::cout, edges);` (`ddpaths.cpp` 347-348, `graphillion_example.cpp` 292-293) -/
def solution (x : Loaded) (levels : List Nat) : Option (List Char) := pictureOf x (GText.edgeDeco x.2.2.info.length (levels.map Int.ofNat))

end AppText

namespace DdPaths

/-- lines 169-190 with `name2color`, which `clearColors()` clears and `setDefaultPathColor()` replaces -/
def adjustAll (o : Opts) (E C : List (List Char × List Char)) (G : CGraph) : Res AppText.Loaded :=
  (if o.kind = .path ∧ G.numColor = 0 then (cgUpdate E (defaultColor G.vMax)).bind fun G1 => .ok (defaultColor G.vMax, G1) else .ok (C, G)).bind fun r =>
  if r.2.info.length = 0 then .thrown
  else if o.kind = .path ∧ r.2.pairs = false then .thrown
  else .ok (E, if o.kind = .cycle then ([], r.2.clearColors) else r)

/-- lines 165-190 for the texts of the files -/
def load (o : Opts) (graphText : List Char) (termText : Option (List Char)) : Res AppText.Loaded :=
  (readAdjacencyList graphText).bind fun E =>
  (cgUpdate E ([] : List (List Char × List Char))).bind fun G0 =>
  match termText with
  | none => adjustAll o E [] G0
  | some t => (readVertexGroups t).bind fun C => (cgUpdate E C).bind fun G => adjustAll o E C G

/-- the standard output for `-graph` (lines 192-195) -/
def graphText (o : Opts) (g : List Char) (t : Option (List Char)) : Res (List Char) :=
  (load o g t).bind fun x => match AppText.pictureOf x GText.noDeco with
    | some s => .ok s
    | none => .ub

/-- the loop of lines 345-349 over the sets of the iterator -/
def allLoop (x : AppText.Loaded) : List (List Nat) → Option (List Char)
  | [] => some []
  | levels :: rest => (AppText.solution x levels).bind fun s => (allLoop x rest).map fun r => s ++ r

/-- the standard output for `-all` (lines 344-350); `fuel` and `steps` bound the loops of the iterator -/
def allText (x : AppText.Loaded) (f : DdS) (fuel steps : Nat) : Option (List Char) := (f.dd.iterate fuel steps).bind (allLoop x)

end DdPaths

namespace Gx

/-- lines 186-190 and 195-196 with `name2color` -/
def finishAll (o : Opts) (E C : List (List Char × List Char)) (G : CGraph) : Res AppText.Loaded :=
  (if o.st = true ∧ 1 ≤ G.vMax then (cgUpdate E (colorEnds E C G.vMax)).bind fun G1 => .ok (colorEnds E C G.vMax, G1) else .ok (C, G)).bind fun r =>
  if r.2.info.length = 0 then .thrown else .ok (E, r)

/-- lines 151-196 for the texts of the files -/
def load (o : Opts) (graphText termText : Option (List Char)) : Res AppText.Loaded :=
  (edgesOf o graphText).bind fun r =>
  (cgUpdate r.1 r.2).bind fun G0 =>
  match termText with
  | none => finishAll o r.1 r.2 G0
  | some t => (readVertexGroups t).bind fun C => (cgUpdate r.1 C).bind fun G => finishAll o r.1 C G

/-- the standard output for `-graph` (lines 198-201) -/
def graphText (o : Opts) (g t : Option (List Char)) : Res (List Char) :=
  (load o g t).bind fun x => match AppText.pictureOf x GText.noDeco with
    | some s => .ok s
    | none => .ub

/-- the loop of lines 290-295; `--count` is undefined for the smallest number -/
def solLoop (x : AppText.Loaded) : Int → List (List Nat) → Option (List Char)
  | _, [] => some []
  | count, levels :: rest => (AppText.solution x levels).bind fun s =>
    if count = -2147483648 then none
    else if count - 1 = 0 then some s
    else (solLoop x (count - 1) rest).map fun r => s ++ r

/-- the standard output for `-solutions` (lines 286-296) -/
def solText (x : AppText.Loaded) (D : Dd 2) (count : Int) (fuel steps : Nat) : Option (List Char) := (D.iterate fuel steps).bind (solLoop x count)

end Gx

end TdZdd
