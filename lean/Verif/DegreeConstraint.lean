import Verif.Semantics
import Verif.PodArray
import Verif.Graph
import Verif.SizeConstraint

/-!
# Model of `DegreeConstraint` (`spec/DegreeConstraint.hpp`)

The state is the array `mate` of `mateSize` degrees. Undefined behaviour (`none`): an index outside of an array, a negative shift. `getChild` then has the illegal
level code `level`. `int` is unbounded; the degrees are `int16_t` and wrap around.
-/

namespace TdZdd

/-- `shiftMate(mate, d)` (`DegreeConstraint.hpp` 48-56) -/
def shiftMate {α : Type} (zero : α) (mateSize : Nat) (mate : List α) (d : Int) : Option (List α) :=
  if d < 0 then none
  else if d = 0 then some mate
  else if (mateSize : Int) < d then none
  else some (mate.drop d.toNat ++ List.replicate d.toNat zero)

/-- `takable(c, degree, final)` (`DegreeConstraint.hpp` 58-62) -/
def dcTakable (c : Option IntSubset) (degree : Int) (final : Bool) : Bool :=
  match c with
  | none => true
  | some c => if c.upper ≤ degree then false else !final || c.contains (degree + 1)

/-- `leavable(c, degree, final)` (`DegreeConstraint.hpp` 64-67) -/
def dcLeavable (c : Option IntSubset) (degree : Int) (final : Bool) : Bool :=
  match c with
  | none => true
  | some c => !final || c.contains degree

/-- `if (c) ++w` for `w = mate[i]` (`DegreeConstraint.hpp` 112-113) -/
def dcInc (c : Option IntSubset) (mate : List Int) (i : Int) : Option (List Int) :=
  match c with
  | none => some mate
  | some _ => (podGet mate i).bind fun w => podSet mate i (wrap16 (w + 1))

/-- `if (final) w = 0` for `w = mate[i]` (`DegreeConstraint.hpp` 120-121, 138-139) -/
def dcClear (final : Bool) (mate : List Int) (i : Int) : Option (List Int) := if final then podSet mate i 0 else some mate

/-- `getRoot` (`DegreeConstraint.hpp` 92-97) -/
def dcRoot (n mateSize : Nat) : Int × List Int := (n, List.replicate mateSize 0)

section
variable (G : Graph) (cs : Nat → Option IntSubset) (lookahead : Bool)

/-- `while (lookahead)` and the final `return` of `getChild` (`DegreeConstraint.hpp` 126-146), for edge `i` -/
def dcLook : Nat → Nat → List Int → Option (Int × List Int)
  | 0, _, _ => none
  | fuel + 1, i, mate =>
    if lookahead = false then some ((G.info.length : Int) - i, mate)
    else
      (G.info[i]?).bind fun e =>
      (podGet mate ((e.v1 : Int) - e.v0)).bind fun w1 =>
      (podGet mate ((e.v2 : Int) - e.v0)).bind fun w2 =>
      if G.vMax < e.v1 ∨ G.vMax < e.v2 then none
      else if dcTakable (cs e.v1) w1 e.v1final && dcTakable (cs e.v2) w2 e.v2final then some ((G.info.length : Int) - i, mate)
      else if !dcLeavable (cs e.v1) w1 e.v1final then some (0, mate)
      else if !dcLeavable (cs e.v2) w2 e.v2final then some (0, mate)
      else
        (dcClear e.v1final mate ((e.v1 : Int) - e.v0)).bind fun mate =>
        (dcClear e.v2final mate ((e.v2 : Int) - e.v0)).bind fun mate =>
        if i + 1 = G.info.length then some (-1, mate)
        else
          (G.info[i + 1]?).bind fun f =>
          (shiftMate 0 G.maxFrontierSize.toNat mate ((f.v0 : Int) - e.v0)).bind fun mate => dcLook fuel (i + 1) mate

/-- Second half of `getChild` (`DegreeConstraint.hpp` 120-146): edge `i` is done. -/
def dcNext (i : Nat) (e : EdgeInfo) (mate : List Int) : Option (Int × List Int) :=
  (dcClear e.v1final mate ((e.v1 : Int) - e.v0)).bind fun mate =>
  (dcClear e.v2final mate ((e.v2 : Int) - e.v0)).bind fun mate =>
  if i + 1 = G.info.length then some (-1, mate)
  else
    (G.info[i + 1]?).bind fun f =>
    (shiftMate 0 G.maxFrontierSize.toNat mate ((f.v0 : Int) - e.v0)).bind fun mate => dcLook G cs lookahead G.info.length (i + 1) mate

/-- `getChild(mate, level, take)` (`DegreeConstraint.hpp` 99-147) -/
def dcChild (mate : List Int) (level : Nat) (take : Bool) : Option (Int × List Int) :=
  if level < 1 ∨ G.info.length < level then none
  else
    (G.info[G.info.length - level]?).bind fun e =>
    (podGet mate ((e.v1 : Int) - e.v0)).bind fun w1 =>
    (podGet mate ((e.v2 : Int) - e.v0)).bind fun w2 =>
    if G.vMax < e.v1 ∨ G.vMax < e.v2 then none
    else if take then
      if !dcTakable (cs e.v1) w1 e.v1final then some (0, mate)
      else if !dcTakable (cs e.v2) w2 e.v2final then some (0, mate)
      else
        (dcInc (cs e.v1) mate ((e.v1 : Int) - e.v0)).bind fun mate =>
        (dcInc (cs e.v2) mate ((e.v2 : Int) - e.v0)).bind fun mate => dcNext G cs lookahead (G.info.length - level) e mate
    else
      if !dcLeavable (cs e.v1) w1 e.v1final then some (0, mate)
      else if !dcLeavable (cs e.v2) w2 e.v2final then some (0, mate)
      else dcNext G cs lookahead (G.info.length - level) e mate

/-- `DegreeConstraint(graph, …, lookahead)` with the constraints `cs` (`DegreeConstraint.hpp` 39-148). Edge `i` is at level `n - i`.
The hash function takes four elements at a time in the code. -/
def degreeConstraint : DdSpec 2 (List Int) where
  root := dcRoot G.info.length G.maxFrontierSize.toNat
  child mate level value := (dcChild G cs lookahead mate level (value != 0)).getD (level, mate)
  eqv _ s t := decide (s = t)
  hash _ s := s.foldl (fun h x => (h + (x % 2 ^ 16).toNat) * 314159257 % 2 ^ 64) 0
  merge _ _ := 0

end
end TdZdd
