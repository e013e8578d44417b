/-!
# Model of `Graph::update` and `maxFrontierSize` (`util/Graph.hpp`)

Vertex names have an arbitrary type `V` and colours an arbitrary type `K` (both are `std::string` in the code). Only the following members
are modelled: `edgeNames`, `name2color` (input), `edge2name`, `name2vertex`, `vertex2name`, `edgeInfo_`, `colorNumber_`,
`vMax`, `numColor_`. Not modelled: labels, `name2edge` and `edgeIndex` after `update` (lookups by name or by vertex
numbers), and `dump`; `virtualMate_` and `hasColorPairs_` are in `PathByMap.lean`, the readers are in `Readers.lean`. `int` and `size_t` are unbounded, so that the test for more than
`INT_MAX` edges is left out. The arrays over colours (`colorMap`, `finalEdgeToColor`, `touched`) have the indices `0..numColor_`; no bound is checked
here because colour numbers never exceed `numColor_` (`C41_colors`).
-/

namespace TdZdd

/-- Outcome of a function that may throw or have undefined behaviour -/
inductive Res (α : Type) where
  | ok (a : α)
  | thrown
  | ub
  deriving DecidableEq

/-- sequencing -/
def Res.bind {α β : Type} (x : Res α) (f : α → Res β) : Res β :=
  match x with
  | .ok a => f a
  | .thrown => .thrown
  | .ub => .ub

/-- `Graph::EdgeInfo` (`Graph.hpp` 50-65) -/
structure EdgeInfo where
  v0 : Nat
  v1 : Nat
  v2 : Nat
  v1final : Bool
  v2final : Bool
  v1final2 : Bool
  v2final2 : Bool
  allColorsSeen : Bool
  finalEdge : Bool
  deriving DecidableEq

/-- The result of `update` as far as it is used by the specifications: `edgeInfo_`, `vMax`, `colorNumber_` (index 0 unused), `numColor_` -/
structure Graph where
  info : List EdgeInfo
  vMax : Nat
  color : Nat → Nat
  numColor : Nat

section

variable {V K : Type} [DecidableEq V] [DecidableEq K]

/-- "Make unique edge name list" (`Graph.hpp` 292-300); `name2edge` has the entries of `edge2name` in both directions. -/
def gUnique (edgeNames : List (V × V)) : List (V × V) :=
  edgeNames.foldl (fun acc e => if e ∈ acc ∨ (e.2, e.1) ∈ acc then acc else acc ++ [e]) []

/-- `stack` (its back first) after the loop over the edges from the last to the first (`Graph.hpp` 304-320) -/
def gStack (edge2name : List (V × V)) : List V :=
  edge2name.reverse.foldl (fun st e =>
    let st' := if e.2 ∈ st then st else e.2 :: st
    if e.1 ∈ st' then st' else e.1 :: st') []

/-- `name2vertex` after the stack has been emptied (`Graph.hpp` 322-331); 0 for a name that is not there. -/
def gNumber (stack : List V) (s : V) : Nat := if s ∈ stack then stack.idxOf s + 1 else 0

/-- `EdgeInfo(v1, v2)` (`Graph.hpp` 61-65) -/
def EdgeInfo.mk0 (v1 v2 : Nat) : EdgeInfo := ⟨0, v1, v2, false, false, false, false, false, false⟩

/-- Loop that makes `edgeInfo_` (`Graph.hpp` 334-364); `edgeIndex` has the entries of `edgeInfo_`. -/
def gEdges (num : V → Nat) : List (V × V) → List EdgeInfo → Res (List EdgeInfo)
  | [], es => .ok es
  | (s1, s2) :: rest, es =>
    let s := if num s1 > num s2 then (s2, s1) else (s1, s2)
    let v1 := num s.1
    let v2 := num s.2
    if v1 = 0 then .thrown
    else if v2 = 0 then .thrown
    else gEdges num rest (if es.any (fun e => e.v1 == v1 && e.v2 == v2) then es else es ++ [EdgeInfo.mk0 v1 v2])

/-- `vMax` (`Graph.hpp` 289, 359) -/
def gMax (es : List EdgeInfo) : Nat := es.foldl (fun m e => if m < e.v2 then e.v2 else m) 0

/-- `color2vertices` (`Graph.hpp` 367-375): the colours with their vertices. The code lists the colours in alphabetical order, here they
are in the order of `name2color`; the final colour numbers do not depend on it (`C41_colors`). -/
def gColors (num : V → Nat) : List (V × K) → List (K × List Nat) → Res (List (K × List Nat))
  | [], cs => .ok cs
  | (s, k) :: rest, cs =>
    if num s = 0 then .thrown
    else gColors num rest
      (if cs.any (fun c => c.1 == k) then cs.map (fun c => if c.1 = k then (c.1, num s :: c.2) else c) else cs ++ [(k, [num s])])

/-- First numbering of the colours (`Graph.hpp` 382-411), from the number `i` on -/
def gColorNum : List (K × List Nat) → Nat → (Nat → Nat) → (Nat → Nat)
  | [], _, f => f
  | (_, vs) :: cs, i, f => gColorNum cs (i + 1) (fun v => if v ∈ vs then i else f v)

end

/-- "sort colorNumber" (`Graph.hpp` 413-422): vertices `v, v+1, …` (`k` of them), `colorMap`, `cn` -/
def gSortColors : Nat → Nat → (Nat → Nat) → Nat → (Nat → Nat) → (Nat → Nat)
  | 0, _, _, _, col => col
  | k + 1, v, cmap, cn, col =>
    let c := col v
    if c = 0 then gSortColors k (v + 1) cmap cn col
    else if cmap c = 0 then
      gSortColors k (v + 1) (fun j => if j = c then cn + 1 else cmap j) (cn + 1) (fun u => if u = v then cn + 1 else col u)
    else gSortColors k (v + 1) cmap cn (fun u => if u = v then cmap c else col u)

/-- array update -/
def gset {α : Type} (f : Nat → α) (i : Nat) (x : α) : Nat → α := fun j => if j = i then x else f j

/-- `lastEdge`, `secondLastEdge` (`Graph.hpp` 432-438), starting with edge `a`. The arrays have the indices `0..vMax`. -/
def gLast (vMax : Nat) : List EdgeInfo → Nat → (Nat → Int) → (Nat → Int) → Res ((Nat → Int) × (Nat → Int))
  | [], _, last, second => .ok (last, second)
  | e :: es, a, last, second =>
    if vMax < e.v1 ∨ vMax < e.v2 then .ub
    else
      let second := gset second e.v1 (last e.v1)
      let second := gset second e.v2 (last e.v2)
      let last := gset last e.v1 a
      let last := gset last e.v2 a
      gLast vMax es (a + 1) last second

/-- `fitstEdgeToFinalColor` (`Graph.hpp` 440-465) -/
def gFirstAll (col : Nat → Nat) : List EdgeInfo → Nat → (Nat → Bool) → Int → Nat
  | [], _, _, _ => 0
  | e :: es, a, touched, k =>
    let n1 := col e.v1
    let n2 := col e.v2
    if !touched n1 then
      if k - 1 = 0 then a
      else
        let touched := gset touched n1 true
        if !touched n2 then
          if k - 1 - 1 = 0 then a
          else gFirstAll col es (a + 1) (gset touched n2 true) (k - 1 - 1)
        else gFirstAll col es (a + 1) touched (k - 1)
    else if !touched n2 then
      if k - 1 = 0 then a
      else gFirstAll col es (a + 1) (gset touched n2 true) (k - 1)
    else gFirstAll col es (a + 1) touched k

/-- `while (lastEdge[v0] < a) ++v0` (`Graph.hpp` 471-474); the assertion (or the index, where assertions are off) fails beyond `vMax`. -/
def gAdvance (vMax : Nat) (last : Nat → Int) (a : Nat) : Nat → Nat → Res Nat
  | 0, _ => .ub
  | fuel + 1, v0 => if vMax < v0 then .ub else if last v0 < a then gAdvance vMax last a fuel (v0 + 1) else .ok v0

/-- Final loop (`Graph.hpp` 467-482) -/
def gFinal (vMax : Nat) (last second : Nat → Int) (first m : Nat) : List EdgeInfo → Nat → Nat → Res (List EdgeInfo)
  | [], _, _ => .ok []
  | e :: es, a, v0 => (gAdvance vMax last a (vMax + 2) v0).bind fun v0 =>
    (gFinal vMax last second first m es (a + 1) v0).bind fun r =>
      .ok (⟨v0, e.v1, e.v2, decide ((a : Int) = last e.v1), decide ((a : Int) = last e.v2), decide ((a : Int) = second e.v1),
        decide ((a : Int) = second e.v2), decide (first ≤ a), decide (a + 1 = m)⟩ :: r)

/-- `Graph::update()` (`Graph.hpp` 282-484) -/
def gUpdate {V K : Type} [DecidableEq V] [DecidableEq K] (edgeNames : List (V × V)) (name2color : List (V × K)) : Res Graph :=
  let edge2name := gUnique edgeNames
  let stack := gStack edge2name
  if 65535 < stack.length + 1 then .thrown
  else
    (gEdges (gNumber stack) edge2name []).bind fun es =>
    let vMax := gMax es
    (gColors (gNumber stack) name2color []).bind fun cs =>
    if 65535 < cs.length then .thrown
    else
      let col := gSortColors vMax 1 (fun _ => 0) 0 (gColorNum cs 1 fun _ => 0)
      (gLast vMax es 0 (fun _ => -1) (fun _ => -1)).bind fun ls =>
      let first := gFirstAll col es 0 (fun c => c == 0) cs.length
      (gFinal vMax ls.1 ls.2 first es.length es 0 1).bind fun info =>
      .ok ⟨info, vMax, col, cs.length⟩

/-- `maxFrontierSize()` (`Graph.hpp` 573-581) -/
def Graph.maxFrontierSize (G : Graph) : Int := G.info.foldl (fun n e => if n < (e.v2 : Int) - e.v0 + 1 then (e.v2 : Int) - e.v0 + 1 else n) 0

end TdZdd
