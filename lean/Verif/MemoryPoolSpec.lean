import Verif.MemoryPool

/-!
# Reference semantics of the operations on `MemoryPool`

There are no addresses: each allocation is an array of its own, which exists until its pool is cleared, reused or destroyed.
-/

namespace TdZdd

/-- a pool: its allocations, whether there have been allocations since it was created or cleared, and whether one of them was large -/
structure PsPool where
  live : List Nat
  used : Bool
  large : Bool

structure PsSt where
  pool : Nat → Option PsPool
  /-- sizes in bytes of all allocations -/
  size : List Nat
  /-- values written, by number of the allocation and index -/
  val : Nat → Nat → Option Nat

def PsSt.empty : PsSt := ⟨fun _ => none, [], fun _ _ => none⟩

/-- Meaning of an operation; `none` if the operation is not allowed. Reuse of a pool is not allowed after allocations of more than 40000 bytes. -/
def psStep (st : PsSt) : PlOp → Option (PsSt × PlRes)
  | .new x => if (st.pool x).isSome then none else some ({ st with pool := upd st.pool x (some ⟨[], false, false⟩) }, .unit)
  | .copy x y => (st.pool y).bind fun _ => if (st.pool x).isSome then none else some ({ st with pool := upd st.pool x (some ⟨[], false, false⟩) }, .unit)
  | .move x y => (st.pool y).bind fun o => if (st.pool x).isSome then none else some ({ st with pool := upd (upd st.pool y none) x (some o) }, .unit)
  | .destroy x => (st.pool x).map fun _ => ({ st with pool := upd st.pool x none }, .unit)
  | .clear x => (st.pool x).map fun _ => ({ st with pool := upd st.pool x (some ⟨[], false, false⟩) }, .unit)
  | .reuse x => (st.pool x).bind fun p => if p.large then none else some ({ st with pool := upd st.pool x (some { p with live := [] }) }, .unit)
  | .splice x y => (st.pool x).bind fun p => (st.pool y).bind fun o => if x = y then none else
      some ({ st with pool := upd (upd st.pool x (some ⟨o.live ++ p.live, o.used || p.used, o.large || p.large⟩)) y (some ⟨[], false, false⟩) }, .unit)
  | .isEmpty x => (st.pool x).map fun p => (st, .bool !p.used)
  | .alloc x n => (st.pool x).bind fun p => if 0 < n ∧ n ≤ 2 ^ 64 - 8 then
      some ({ st with pool := upd st.pool x (some ⟨st.size.length :: p.live, true, p.large || decide (40000 < n)⟩), size := st.size ++ [n] }, .unit)
    else none
  | .store x h i w => (st.pool x).bind fun p => st.size[h]?.bind fun n =>
      if h ∈ p.live ∧ 8 * i < n then some ({ st with val := upd st.val h (upd (st.val h) i (some w)) }, .unit) else none
  | .load x h i => (st.pool x).bind fun p => st.size[h]?.bind fun n =>
      if h ∈ p.live ∧ 8 * i < n then (st.val h i).map fun w => (st, .word w) else none

def psRun : PsSt → List PlOp → Option (PsSt × List PlRes)
  | st, [] => some (st, [])
  | st, op :: ops => (psStep st op).bind fun r => (psRun r.1 ops).map fun q => (q.1, r.2 :: q.2)

end TdZdd
