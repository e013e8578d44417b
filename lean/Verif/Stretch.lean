import Verif.Builder

/-!
# Model of `NodeTableEntity::stretchBottom` (`dd/NodeTable.hpp` 112-160)

Simplifications: the two inner loops, which write every branch of the new row once, are one `map`; rows and columns are unbounded (C45). The
number of variables `n` is not negative. The index tables are not changed by the function; they are not part of `Table`.
-/

namespace TdZdd

variable {N : Nat}

/-- `DataTable::setNumRows` (`dd/DataTable.hpp` 100-102): new rows are empty. -/
def Table.setNumRows (T : Table N) (n : Nat) : Table N := ⟨n, fun r => if r < T.numRows then T.row r else []⟩

/-- `DataTable::initRow` (`dd/DataTable.hpp` 109-112); new nodes are not initialized, here they get an arbitrary value. -/
def Table.initRow (T : Table N) (i m : Nat) : Table N := { T with row := upd T.row i (List.replicate m (fun _ => NodeId.zero : Node N)) }

/-- the new value of a branch when levels move up (131-132) -/
def liftId (d : Nat) (f : NodeId) : NodeId := if f.row = 0 then f else ⟨f.row + d, f.col⟩

/-- the new value of a branch when levels move down by `k` (149-151) -/
def lowerId (k : Nat) (f : NodeId) : NodeId := if f.row = 0 then f else if f.row ≤ k then .one else ⟨f.row - k, f.col⟩

/-- One iteration (122-136, 141-155): row `i` is copied to row `t` with changed branches, then emptied. -/
def stretchStep (g : NodeId → NodeId) (t i : Nat) (T : Table N) : Table N :=
  let T1 : Table N := T.initRow t (T.row i).length
  let T2 : Table N := { T1 with row := upd T1.row t ((T1.row i).map fun nd b => g (nd b)) }
  T2.initRow i 0

/-- `stretchBottom(n)` (117-160). -/
def stretchBottom (T : Table N) (n : Nat) : Table N :=
  let n0 := T.numRows - 1
  if n0 < n then
    -- for (int i = n0; i > 0; --i)
    ((List.range n0).map fun k => n0 - k).foldl (fun T i => stretchStep (liftId (n - n0)) (i + (n - n0)) i T) (T.setNumRows (n + 1))
  else if n < n0 then
    -- for (int i = 1 - d; i <= n0; ++i)
    (((List.range n).map fun k => n0 - n + 1 + k).foldl (fun T i => stretchStep (lowerId (n0 - n)) (i - (n0 - n)) i T) T).setNumRows (n + 1)
  else T

end TdZdd
