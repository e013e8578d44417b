import Verif.Reducer

/-!
# Model of `DdReducer::garbageCollect` (`DdReducer.hpp` 564-614)

The attribute bit of branch 0 of a node is the mark "not needed". It is kept in a function `bit` beside the table, all other bits are as in the table.
`std::sort` is any function that permutes and sorts. A failed assertion or an index out of bounds is `none`.
-/

namespace TdZdd

namespace Gc

variable {N : Nat}

/-- the input table and the attribute bits of the branches 0 -/
structure St (N : Nat) where
  tab : Rows (N + 1)
  bit : NodeId → Bool

/-- set a bit -/
def setBit (s : St N) (f : NodeId) (v : Bool) : St N := { s with bit := fun g => if g = f then v else s.bit g }

/-- `std::unique` -/
def unique : List Nat → List Nat
  | [] => []
  | [a] => [a]
  | a :: b :: l => if a = b then unique (b :: l) else a :: unique (b :: l)

/-- the roots of row `i` in the order of their columns, and a last element (569-580) -/
def columns (sort : List Nat → List Nat) (roots : List NodeId) (i m : Nat) : List Nat :=
  let cs := (roots.filter fun f => decide (f.row = i)).map (·.col)
  (if 2 ≤ cs.length then unique (sort cs) else cs) ++ [m]

/-- one column in the initialisation of the marks (583-590), with the index `k` -/
def markCol (i : Nat) (cols : List Nat) (a : Nat × St N) (j : Nat) : Option (Nat × St N) :=
  (cols[a.1]?).bind fun c =>
    if j < c then some (a.1, setBit a.2 ⟨i, j⟩ true)
    else if j = c then some (a.1 + 1, setBit a.2 ⟨i, j⟩ false)
    else none

/-- one row in the initialisation of the marks (567-591) -/
def markRow (sort : List Nat → List Nat) (roots : List NodeId) (s : St N) (i : Nat) : Option (St N) :=
  ((List.range (s.tab i).length).foldlM (markCol i (columns sort roots i (s.tab i).length)) (0, s)).map (·.2)

/-- the bit of the child is cleared (607, 610) -/
def reach (nr : Nat) (s : St N) (f : NodeId) : Option (St N) :=
  if f.row < nr ∧ f.col < (s.tab f.row).length then some (setBit s f false) else none

/-- one node (598-612) -/
def sweep (nr i : Nat) (s : St N) (j : Nat) : Option (St N) :=
  ((s.tab i)[j]?).bind fun nd =>
    if s.bit ⟨i, j⟩ then some (setBit { s with tab := upd s.tab i ((s.tab i).set j fun _ => .zero) } ⟨i, j⟩ false)
    else (List.finRange (N + 1)).foldlM (fun s b => reach nr s (nd b)) s

/-- one row (596-613) -/
def sweepRow (nr : Nat) (s : St N) (i : Nat) : Option (St N) := (List.range (s.tab i).length).foldlM (sweep nr i) s

/-- `garbageCollect()` (564-614); `roots` are the values of the variables given to `setRoot`, `nr` is the number of rows -/
def collect (sort : List Nat → List Nat) (nr : Nat) (roots : List NodeId) (s : St N) : Option (St N) :=
  ((levels (nr - 1)).foldlM (markRow sort roots) s).bind fun s => (levels (nr - 1)).foldlM (sweepRow nr) s

end Gc

end TdZdd
