import Verif.Semantics
import Verif.PodArray
import Verif.Graph

/-!
# Model of `PathZdd`, `CycleZdd` and their Hamiltonian variants (`spec/PathZdd.hpp`)

All four classes are instances of `SimpathBasedImpl<S,type,hamilton>`; here `cyc` says that `type` is `Cycle` and `ham` is `hamilton`. The state is the array
`mate` of `mateArraySize_` elements (`int16_t`). Undefined behaviour (`none`): an index outside of an array, a violated `assert`. `getChild` then has the illegal level
code `level`, `getRoot` the illegal level code -2. `int` is unbounded.
-/

namespace TdZdd

/-- `SimpathBasedImpl::Takable` (`PathZdd.hpp` 52-54) -/
inductive Takable where
  | no
  | yes
  | hit
  deriving DecidableEq

/-- `initialMate[v]` for an index within the vector (`PathZdd.hpp` 135-145); the element 0 is zero-initialized. -/
def spInit (G : Graph) (v : Nat) : Int :=
  if v = 0 then 0
  else if v ≤ G.vMax then wrap16 (if 0 < G.color v then -(G.color v : Int) else v)
  else 0

/-- `shiftMate(mate, v0, vv0)` (`PathZdd.hpp` 56-64); the elements `initialMate[vv0 + k]` that are read must have an index below `m + mateArraySize_`. -/
def spShift (G : Graph) (mate : List Int) (v0 vv0 : Nat) : Option (List Int) :=
  if vv0 ≤ v0 then some mate
  else if G.maxFrontierSize.toNat < vv0 - v0 ∨ G.vMax < vv0 then none
  else some (mate.drop (vv0 - v0) ++ (List.range (vv0 - v0)).map fun k => spInit G (vv0 + (G.maxFrontierSize.toNat - (vv0 - v0) + k)))

/-- Loop over the frontier in case `Path` (`PathZdd.hpp` 85-92), for the elements from index `k` on -/
def spClean (ham : Bool) (e : EdgeInfo) : List Int → Nat → Bool → Takable
  | [], _, clean => if clean then .hit else .no
  | w :: ws, k, clean =>
    if e.v0 + k = e.v1 then spClean ham e ws (k + 1) clean
    else if e.v0 + k = e.v2 then spClean ham e ws (k + 1) clean
    else if w < 0 then .yes
    else spClean ham e ws (k + 1) (if w ≠ 0 ∧ (ham = true ∨ w ≠ ((e.v0 + k : Nat) : Int)) then false else clean)

/-- Loop over the frontier in case `Cycle` (`PathZdd.hpp` 99-105), for the elements from index `k` on -/
def spOnly (ham : Bool) (e : EdgeInfo) : List Int → Nat → Takable
  | [], _ => .hit
  | w :: ws, k =>
    if e.v0 + k = e.v1 then spOnly ham e ws (k + 1)
    else if e.v0 + k = e.v2 then spOnly ham e ws (k + 1)
    else if w ≠ 0 ∧ (ham = true ∨ w ≠ ((e.v0 + k : Nat) : Int)) then .no
    else spOnly ham e ws (k + 1)

/-- `takable(mate, e)` (`PathZdd.hpp` 66-111) -/
def spTakable (cyc ham : Bool) (mate : List Int) (e : EdgeInfo) : Option Takable :=
  (podGet mate ((e.v1 : Int) - e.v0)).bind fun w1 =>
  (podGet mate ((e.v2 : Int) - e.v0)).bind fun w2 =>
  if w1 = 0 then some .no
  else if e.v1final = true ∧ w1 = e.v1 then some .no
  else if w2 = 0 then some .no
  else if e.v2final = true ∧ w2 = e.v2 then some .no
  else if cyc = false then
    if w1 = e.v2 then some .no
    else if w1 < 0 ∧ w2 < 0 then
      if w1 ≠ w2 then some .no
      else if e.allColorsSeen = false then some .yes
      else some (spClean ham e mate 0 true)
    else some .yes
  else
    if w1 = e.v2 then
      if w2 ≠ e.v1 then none
      else some (spOnly ham e (mate.drop 1) 1)
    else some .yes

/-- `leavable(mate, e)` (`PathZdd.hpp` 113-129) -/
def spLeavable (ham : Bool) (mate : List Int) (e : EdgeInfo) : Option Bool :=
  (podGet mate ((e.v1 : Int) - e.v0)).bind fun w1 =>
  (podGet mate ((e.v2 : Int) - e.v0)).bind fun w2 =>
  if ham = true then
    if e.v1final = true ∧ w1 ≠ 0 then some false
    else if e.v2final = true ∧ w2 ≠ 0 then some false
    else if e.v1final2 = true ∧ w1 = e.v1 then some false
    else if e.v2final2 = true ∧ w2 = e.v2 then some false
    else some true
  else
    if e.v1final = true ∧ w1 ≠ 0 ∧ w1 ≠ e.v1 then some false
    else if e.v2final = true ∧ w2 ≠ 0 ∧ w2 ≠ e.v2 then some false
    else some true

/-- `if (c) mate[i] = x` -/
def spSetIf (c : Bool) (mate : List Int) (i x : Int) : Option (List Int) := if c then podSet mate i x else some mate

/-- The edge is taken (`PathZdd.hpp` 178-183). -/
def spTake (mate : List Int) (e : EdgeInfo) : Option (List Int) :=
  (podGet mate ((e.v1 : Int) - e.v0)).bind fun w1 =>
  (podGet mate ((e.v2 : Int) - e.v0)).bind fun w2 =>
  (spSetIf (decide (0 < w1)) mate (w1 - e.v0) w2).bind fun mate =>
  (spSetIf (decide (0 < w2)) mate (w2 - e.v0) w1).bind fun mate =>
  (spSetIf (e.v1final || decide (w1 ≠ e.v1)) mate ((e.v1 : Int) - e.v0) 0).bind fun mate =>
  spSetIf (e.v2final || decide (w2 ≠ e.v2)) mate ((e.v2 : Int) - e.v0) 0

/-- The edge is left (`PathZdd.hpp` 188-191, 205-208). `w1` and `w2` are references: the second is read after the first has been written. -/
def spLeave (mate : List Int) (e : EdgeInfo) : Option (List Int) :=
  (podGet mate ((e.v1 : Int) - e.v0)).bind fun w1 =>
  (spSetIf (e.v1final || (e.v1final2 && decide (w1 = e.v1))) mate ((e.v1 : Int) - e.v0) 0).bind fun mate =>
  (podGet mate ((e.v2 : Int) - e.v0)).bind fun w2 =>
  spSetIf (e.v2final || (e.v2final2 && decide (w2 = e.v2))) mate ((e.v2 : Int) - e.v0) 0

section
variable (G : Graph) (cyc ham lookahead : Bool)

/-- `while (lookahead)` and the final `return` of `getChild` (`PathZdd.hpp` 197-214), for edge `i` -/
def spLook : Nat → Nat → List Int → Option (Int × List Int)
  | 0, _, _ => none
  | fuel + 1, i, mate =>
    if lookahead = false then some ((G.info.length : Int) - i, mate)
    else
      (G.info[i]?).bind fun e =>
      (spTakable cyc ham mate e).bind fun t =>
      if t ≠ .no then some ((G.info.length : Int) - i, mate)
      else
        (spLeavable ham mate e).bind fun l =>
        if l = false then some (0, mate)
        else if i + 1 = G.info.length then some (0, mate)
        else
          (spLeave mate e).bind fun mate =>
          (G.info[i + 1]?).bind fun f =>
          (spShift G mate e.v0 f.v0).bind fun mate => spLook fuel (i + 1) mate

/-- Second half of `getChild` (`PathZdd.hpp` 194-214): edge `i` is done. -/
def spNext (i : Nat) (e : EdgeInfo) (mate : List Int) : Option (Int × List Int) :=
  if i + 1 = G.info.length then some (0, mate)
  else
    (G.info[i + 1]?).bind fun f =>
    (spShift G mate e.v0 f.v0).bind fun mate => spLook G cyc ham lookahead G.info.length (i + 1) mate

/-- `getChild(mate, level, take)` (`PathZdd.hpp` 162-215) -/
def spChild (mate : List Int) (level : Nat) (take : Bool) : Option (Int × List Int) :=
  if level < 1 ∨ G.info.length < level then none
  else
    (G.info[G.info.length - level]?).bind fun e =>
    if e.v2 < e.v1 then none
    else if take then
      (spTakable cyc ham mate e).bind fun t =>
      match t with
      | .no => some (0, mate)
      | .hit => some (-1, mate)
      | .yes => (spTake mate e).bind fun mate => spNext G cyc ham lookahead (G.info.length - level) e mate
    else
      (spLeavable ham mate e).bind fun l =>
      if l = false then some (0, mate)
      else (spLeave mate e).bind fun mate => spNext G cyc ham lookahead (G.info.length - level) e mate

/-- `getRoot(mate)` (`PathZdd.hpp` 152-160) -/
def spRoot : Option (Int × List Int) :=
  (G.info[0]?).bind fun e =>
  if G.vMax < e.v0 then none
  else some (G.info.length, (List.range G.maxFrontierSize.toNat).map fun k => spInit G (e.v0 + k))

/-- `SimpathBasedImpl<S,type,hamilton>(graph, lookahead)` (`PathZdd.hpp` 38-216). Edge `i` is at level `n - i`. The hash function takes four elements at a time in the code. -/
def simpath : DdSpec 2 (List Int) where
  root := (spRoot G).getD (-2, [])
  child mate level value := (spChild G cyc ham lookahead mate level (value != 0)).getD (level, mate)
  eqv _ s t := decide (s = t)
  hash _ s := s.foldl (fun h x => (h + (x % 2 ^ 16).toNat) * 314159257 % 2 ^ 64) 0
  merge _ _ := 0

end

/-- `PathZdd` (`PathZdd.hpp` 218-222) -/
def pathZdd (G : Graph) (lookahead : Bool) : DdSpec 2 (List Int) := simpath G false false lookahead

/-- `HamiltonPathZdd` (`PathZdd.hpp` 224-228) -/
def hamiltonPathZdd (G : Graph) (lookahead : Bool) : DdSpec 2 (List Int) := simpath G false true lookahead

/-- `CycleZdd` (`PathZdd.hpp` 230-234) -/
def cycleZdd (G : Graph) (lookahead : Bool) : DdSpec 2 (List Int) := simpath G true false lookahead

/-- `HamiltonCycleZdd` (`PathZdd.hpp` 236-240) -/
def hamiltonCycleZdd (G : Graph) (lookahead : Bool) : DdSpec 2 (List Int) := simpath G true true lookahead

end TdZdd
