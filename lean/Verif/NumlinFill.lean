import Verif.NumlinApp

/-!
# Model of `Board::fillNumbers` (`apps/numberlink/Board.cpp` 206-244)

`number` may hold `-1` during the call, so that it is a matrix of integers here. The recursion is bounded by `fuel`; `none` is a call that has not returned within it (or an access outside of an array, which does not happen on a board whose vectors have the right sizes, `fillFrom_eq`).
-/

namespace TdZdd.Nl

/-- `if (link) { num = fillNumbersFrom(...); if (num > 0) return num; }` followed by the rest of the function -/
def fillStep (i j : Nat) (link : Option Bool) (call rest : List (List Int) → Option (Int × List (List Int))) (a : List (List Int)) : Option (Int × List (List Int)) :=
  link.bind fun b =>
  if b then (call a).bind fun r => (set2 r.2 i j r.1).bind fun a => if 0 < r.1 then some (r.1, a) else rest a else rest a

/-- `fillNumbersFrom(i, j)` (214-244): the returned value and `number` -/
def Grid.fillFrom (g : Grid) : Nat → Nat → Nat → List (List Int) → Option (Int × List (List Int))
  | 0, _, _, _ => none
  | fuel + 1, i, j, a =>
    (get2 a i j).bind fun num =>
    if num < 0 then some (0, a) else if 0 < num then some (num, a)
    else (set2 a i j (-1)).bind fun a =>
      fillStep i j (if 1 ≤ i then get2 g.vlink (i - 1) j else some false) (fun a => g.fillFrom fuel (i - 1) j a) (fun a =>
      fillStep i j (if 1 ≤ j then get2 g.hlink i (j - 1) else some false) (fun a => g.fillFrom fuel i (j - 1) a) (fun a =>
      fillStep i j (if j + 1 < g.cols then get2 g.hlink i j else some false) (fun a => g.fillFrom fuel i (j + 1) a) (fun a =>
      fillStep i j (if i + 1 < g.rows then get2 g.vlink i j else some false) (fun a => g.fillFrom fuel (i + 1) j a) (fun a =>
      (set2 a i j 0).map fun a => (0, a)) a) a) a) a

/-- `fillNumbers()` (206-212): `number` afterwards -/
def Grid.fillNumbers (g : Grid) (fuel : Nat) : Option (List (List Int)) :=
  (List.range g.rows).foldlM (fun a i => (List.range g.cols).foldlM (fun a j => (g.fillFrom fuel i j a).map fun r => r.2) a) (g.number.map fun r => r.map fun k : Nat => Int.ofNat k)

end TdZdd.Nl
