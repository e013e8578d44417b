import Verif.Structure

/-!
# Model of `DdStructure::const_iterator` (`DdStructure.hpp` 556-671)

The loops carry a bound on the number of iterations; exceeding it, like reading outside of the table or the path,
gives `none`. A result `some` does not depend on the bound. `std::set<int>` is the list of its elements in the order
of insertion.
-/

namespace TdZdd

/-- `const_iterator` (556-579). -/
structure Iter where
  cursor : Int
  path : List (NodeId × Bool)
  itemset : List Nat
deriving DecidableEq, Repr

/-- `operator==` (598-600). -/
def Iter.same (a b : Iter) : Bool := a.cursor == b.cursor && a.path == b.path

/-- The loop "down" (611-623): final `f` and the iterator. -/
def iterDown (T : Table 2) : (fuel : Nat) → (f : NodeId) → Iter → Option (NodeId × Iter)
  | 0, _, _ => none
  | fuel + 1, f, it =>
    if f.row = 0 ∧ f.col ≤ 1 then some (f, it)
    else (T.node? f).bind fun s =>
      if s 0 ≠ .zero then
        iterDown T fuel (s 0) { it with cursor := it.path.length, path := it.path ++ [(f, false)] }
      else iterDown T fuel (s 1) { it with path := it.path ++ [(f, true)] }

/-- The loop "up" (627-638), `k = cursor + 1`: the new `f` if the loop was left by `break`, the cursor and the path. -/
def iterUp (T : Table 2) : (k : Nat) → List (NodeId × Bool) → Option (Option NodeId × Int × List (NodeId × Bool))
  | 0, p => some (none, -1, p)
  | k + 1, p =>
    (p[k]?).bind fun sel => (T.node? sel.1).bind fun ss =>
      if sel.2 = false ∧ ss 1 ≠ .zero then
        some (some (ss 1), (k : Int), (p.set k (sel.1, true)).take (k + 1))
      else iterUp T k p

/-- `path[i].node.row()` for the selected nodes (647-651). -/
def selected (p : List (NodeId × Bool)) : List Nat := (p.filter (·.2)).map (·.1.row)

/-- `next(f)` (607-652). The rows of the nodes decrease in the loop "down", so `f.row + 1` bounds its iterations. -/
def iterNext (T : Table 2) : (fuel : Nat) → (f : NodeId) → Iter → Option Iter
  | 0, _, _ => none
  | fuel + 1, f, it =>
    (iterDown T (f.row + 1) f { it with itemset := [] }).bind fun r =>
      if r.1 = .one then some { r.2 with itemset := selected r.2.path }
      else (iterUp T (r.2.cursor + 1).toNat r.2.path).bind fun u =>
        match u.1 with
        | none => some ⟨-2, [], []⟩
        | some g => iterNext T fuel g ⟨u.2.1, u.2.2, []⟩

/-- `end()` (580-583, 669-671). -/
def Iter.fin : Iter := ⟨-2, [], []⟩

/-- `begin()` (580-583, 659-661). -/
def Dd.begin (D : Dd 2) (fuel : Nat) : Option Iter := iterNext D.table fuel D.root ⟨-1, [], []⟩

/-- `for (; it != dd.end(); ++it)`, collecting `*it`; at most `steps` iterations. -/
def iterRun (T : Table 2) (fuel : Nat) : (steps : Nat) → Iter → Option (List (List Nat))
  | 0, _ => none
  | steps + 1, it =>
    if it.same Iter.fin then some []
    else (iterNext T fuel .zero it).bind fun it' => (iterRun T fuel steps it').map (it.itemset :: ·)

/-- `for (it = dd.begin(); it != dd.end(); ++it)`, collecting `*it`. -/
def Dd.iterate (D : Dd 2) (fuel steps : Nat) : Option (List (List Nat)) :=
  (D.begin fuel).bind (iterRun D.table fuel steps)

end TdZdd
