import Verif.Builder

/-!
# Memory for the models of `MemoryPool` and `MyList`

Blocks of cells, which are addressed by block and index. Block 0 is the null pointer. Allocation never fails and does not reuse addresses, so that any access through a
pointer to a released block is detected. `none` is undefined behaviour.
-/

namespace TdZdd

variable {α : Type}

/-- a block of `len` cells; `cell i` is the value of the cell `i`, if it has been written -/
structure CBlk (α : Type) where
  len : Nat
  cell : Nat → Option α

structure CMem (α : Type) where
  fresh : Nat
  blk : Nat → Option (CBlk α)

def CMem.empty : CMem α := ⟨1, fun _ => none⟩

/-- `new Cell[len]`; the address is `m.fresh` -/
def CMem.new (m : CMem α) (len : Nat) : CMem α := ⟨m.fresh + 1, upd m.blk m.fresh (some ⟨len, fun _ => none⟩)⟩

/-- `delete[] a` -/
def CMem.free (m : CMem α) (a : Nat) : Option (CMem α) := (m.blk a).map fun _ => { m with blk := upd m.blk a none }

/-- reads a cell, which must exist and have been written -/
def CMem.load (m : CMem α) (a i : Nat) : Option α := (m.blk a).bind fun b => if i < b.len then b.cell i else none

/-- writes a cell, which must exist -/
def CMem.store (m : CMem α) (a i : Nat) (w : α) : Option (CMem α) :=
  (m.blk a).bind fun b => if i < b.len then some { m with blk := upd m.blk a (some { b with cell := upd b.cell i (some w) }) } else none

end TdZdd
