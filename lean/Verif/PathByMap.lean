import Verif.Semantics
import Verif.PodArray
import Verif.Graph

/-!
# Model of `virtualMate_`, `hasColorPairs_`, `clearColors`, `setDefaultPathColor` (`util/Graph.hpp`) and of `PathZddByStdMap` (`spec/PathZddByStdMap.hpp`)

A `std::map` is the list of its elements in the order of the keys.
-/

namespace TdZdd

section
variable {V K : Type} [DecidableEq V] [DecidableEq K]

/-- `virtualMate_` (`Graph.hpp` 382-401). The vertices of a colour are a `std::set` in the code; here they are the list made by `gColors`, in another order. -/
def gMates : List (K × List Nat) → (Nat → Nat) → Nat → Nat
  | [], f => f
  | (_, [x, y]) :: cs, f => gMates cs (gset (gset f x y) y x)
  | _ :: cs, f => gMates cs f

/-- `hasColorPairs_` (`Graph.hpp` 389, 396-404) -/
def gPairs (cs : List (K × List Nat)) : Bool := cs.foldl (fun b c => if c.2.length = 2 then b else false) (!cs.isEmpty)

/-- `Graph` with the members `virtualMate_` and `hasColorPairs_` -/
structure CGraph extends Graph where
  mate : Nat → Nat
  pairs : Bool

/-- `Graph::update()` (`Graph.hpp` 282-484) with these members -/
def cgUpdate (edgeNames : List (V × V)) (name2color : List (V × K)) : Res CGraph :=
  (gUpdate edgeNames name2color).bind fun G =>
  (gColors (gNumber (gStack (gUnique edgeNames))) name2color []).bind fun cs =>
  .ok { G with mate := gMates cs fun _ => 0, pairs := gPairs cs }

end

/-- `virtualMate(v)` (`Graph.hpp` 556-558) -/
def CGraph.virtualMate (G : CGraph) (v : Nat) : Nat := if 1 ≤ v ∧ v ≤ G.vMax then G.mate v else 0

/-- `clearColors()` (`Graph.hpp` 583-590) without `name2color`. `hasColorPairs_` and `edgeInfo_` are not touched. -/
def CGraph.clearColors (G : CGraph) : CGraph := { G with mate := fun _ => 0, color := fun _ => 0, numColor := 0 }

/-- `setDefaultPathColor()` (`Graph.hpp` 592-597) of a graph with the edges `edgeNames`; the names are those given by `to_string`, whatever the names of the vertices are. `n` is `vMax`.
The assignments to `name2color` are those to a `std::map`: for `n = 1` there is only one element. -/
def cgDefaultColor (edgeNames : List (String × String)) (n : Nat) : Res CGraph :=
  cgUpdate edgeNames (if n = 1 then [("1", "#ff7777")] else [("1", "#ff7777"), (toString n, "#ff7777")])

/-! ### `std::map<int16_t,int16_t>` -/

/-- `m.find(k)->second`, if it is there -/
def smFind : List (Int × Int) → Int → Option Int
  | [], _ => none
  | (j, x) :: m, k => if j = k then some x else smFind m k

/-- `m[k] = x` -/
def smSet : List (Int × Int) → Int → Int → List (Int × Int)
  | [], k, x => [(k, x)]
  | (j, y) :: m, k, x => if k < j then (k, x) :: (j, y) :: m else if k = j then (k, x) :: m else (j, y) :: smSet m k x

/-- `m.erase(k)` -/
def smErase (m : List (Int × Int)) (k : Int) : List (Int × Int) := m.filter fun p => p.1 ≠ k

/-- `m[k]` as a value, and the map after that: an element that is not there is made. -/
def smAt (m : List (Int × Int)) (k : Int) : Int × List (Int × Int) :=
  match smFind m k with
  | some x => (x, m)
  | none => (0, smSet m k 0)

/-! ### `PathZddByStdMap` -/

/-- `getRoot(mate)` (`PathZddByStdMap.hpp` 46-52): loop over the vertices `v, v + 1, …` (`k` of them) -/
def psInit (G : CGraph) : Nat → Nat → List (Int × Int) → List (Int × Int)
  | 0, _, m => m
  | k + 1, v, m => psInit G k (v + 1) (if 1 ≤ G.virtualMate v then smSet m (wrap16 v) (wrap16 (G.virtualMate v)) else m)

/-- "`if (e.v1final && !u1)`" and the same for `v2` (`PathZddByStdMap.hpp` 83-91): `none` for `return 0` -/
def psDone (final u : Bool) (m : List (Int × Int)) (v : Int) : Option (List (Int × Int)) :=
  if final = true ∧ u = false then
    if (smAt m v).1 ≠ 0 then none else some (smErase (smAt m v).2 v)
  else some m

/-- end of `getChild` (`PathZddByStdMap.hpp` 83-93) -/
def psLeave (e : EdgeInfo) (u1 u2 : Bool) (level : Nat) (m : List (Int × Int)) : Int × List (Int × Int) :=
  match psDone e.v1final u1 m (wrap16 e.v1) with
  | none => (0, m)
  | some m1 =>
    match psDone e.v2final u2 m1 (wrap16 e.v2) with
    | none => (0, m1)
    | some m2 => ((level : Int) - 1, m2)

/-- `getChild(mate, level, take)` (`PathZddByStdMap.hpp` 54-94). `none`: an index outside of `edgeInfo_`, or the assertion fails. -/
def psChild (G : CGraph) (m : List (Int × Int)) (level : Nat) (take : Bool) : Option (Int × List (Int × Int)) :=
  if level < 1 ∨ G.info.length < level then none
  else
    (G.info[G.info.length - level]?).bind fun e =>
    let t1 := smFind m (wrap16 e.v1)
    let t2 := smFind m (wrap16 e.v2)
    let u1 := t1.isNone
    let u2 := t2.isNone
    let w1 := t1.getD e.v1
    let w2 := t2.getD e.v2
    if take then
      if w1 = 0 ∨ w2 = 0 then some (0, m)
      else if e.v1final = true ∧ u1 = true then some (0, m)
      else if e.v2final = true ∧ u2 = true then some (0, m)
      else if w1 = e.v2 then
        if w2 ≠ e.v1 then none
        else if m.any (fun p => decide (p.1 ≠ e.v1 ∧ p.1 ≠ e.v2 ∧ 0 < p.2)) then some (0, m)
        else some (-1, m)
      else
        let m := smSet (smSet m (wrap16 e.v2) 0) (wrap16 e.v1) 0
        let m := smSet (smSet m (wrap16 w1) (wrap16 w2)) (wrap16 w2) (wrap16 w1)
        some (psLeave e u1 u2 level m)
    else some (psLeave e u1 u2 level m)

/-- `PathZddByStdMap(graph)` (`PathZddByStdMap.hpp` 34-105). The keys and values are added to the hash value as `size_t`. -/
def pathByMap (G : CGraph) : DdSpec 2 (List (Int × Int)) where
  root := ((G.info.length : Int), psInit G G.vMax 1 [])
  child m level value := (psChild G m level (value != 0)).getD (level, m)
  eqv _ s t := decide (s = t)
  hash _ s := s.foldl (fun h p => (((h + (p.1 % 2 ^ 64).toNat) * 314159257 % 2 ^ 64) + (p.2 % 2 ^ 64).toNat) * 271828171 % 2 ^ 64) 0
  merge _ _ := 0

end TdZdd
