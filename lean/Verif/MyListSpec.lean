import Verif.MyList

/-!
# Reference semantics of the operations on `MyList`

There are no addresses: a list is a stack of elements, each of which is an array of its own. Pointers are the numbers of the elements.
-/

namespace TdZdd

structure SkSt where
  /-- the elements, the newest first -/
  list : Nat → Option (List Nat)
  /-- sizes in bytes of all elements -/
  size : List Nat
  /-- values written, by number of the element and index -/
  val : Nat → Nat → Option Nat

def SkSt.empty : SkSt := ⟨fun _ => none, [], fun _ _ => none⟩

/-- Meaning of an operation; `none` if the operation is not allowed. -/
def skStep (st : SkSt) : LOp → Option (SkSt × LRes Nat)
  | .new x => if (st.list x).isSome then none else some ({ st with list := upd st.list x (some []) }, .unit)
  | .copy x y => (st.list y).bind fun o => if (st.list x).isSome then none
      else if o ≠ [] then some (st, .throws) else some ({ st with list := upd st.list x (some []) }, .unit)
  | .assign x y => (st.list y).bind fun o => (st.list x).bind fun _ =>
      if o ≠ [] then some (st, .throws) else some ({ st with list := upd st.list x (some []) }, .unit)
  | .destroy x => (st.list x).map fun _ => ({ st with list := upd st.list x none }, .unit)
  | .clear x => (st.list x).map fun _ => ({ st with list := upd st.list x (some []) }, .unit)
  | .alloc x n => (st.list x).map fun l =>
      ({ st with list := upd st.list x (some (st.size.length :: l)), size := st.size ++ [n] }, .ptrs [st.size.length])
  | .pop x => (st.list x).bind fun l => match l with
      | [] => none
      | _ :: l => some ({ st with list := upd st.list x (some l) }, .unit)
  | .front x => (st.list x).bind fun l => match l with
      | [] => none
      | h :: _ => some (st, .ptrs [h])
  | .elems x => (st.list x).map fun l => (st, .ptrs l)
  | .size x => (st.list x).map fun l => (st, .num l.length)
  | .isEmpty x => (st.list x).map fun l => (st, .bool l.isEmpty)
  | .store x h j w => (st.list x).bind fun l => st.size[h]?.bind fun n =>
      if h ∈ l ∧ 8 * j < n then some ({ st with val := upd st.val h (upd (st.val h) j (some w)) }, .unit) else none
  | .load x h j => (st.list x).bind fun l => st.size[h]?.bind fun n =>
      if h ∈ l ∧ 8 * j < n then (st.val h j).map fun w => (st, .word w) else none

def skRun : SkSt → List LOp → Option (SkSt × List (LRes Nat))
  | st, [] => some (st, [])
  | st, op :: ops => (skStep st op).bind fun r => (skRun r.1 ops).map fun q => (q.1, r.2 :: q.2)

end TdZdd
