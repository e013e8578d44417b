import Verif.Builder

/-!
# Memory for the models of the container classes

Blocks of cells, addressed by block and index. Address 0 is the null pointer. Allocation never fails and does not reuse addresses, so that any
access through a pointer to a released block is detected. `none` is undefined behaviour.
-/

namespace TdZdd

variable {α T : Type}

structure Ram (α : Type) where
  fresh : Nat
  blk : Nat → Option (List α)

/-- no blocks -/
def Ram.empty : Ram α := ⟨1, fun _ => none⟩

/-- a new block; its address is `m.fresh` -/
def Ram.alloc (m : Ram α) (cells : List α) : Ram α := ⟨m.fresh + 1, upd m.blk m.fresh (some cells)⟩

/-- releases a block, which must exist -/
def Ram.free (m : Ram α) (a : Nat) : Option (Ram α) :=
  if (m.blk a).isSome then some { m with blk := upd m.blk a none } else none

def Ram.get (m : Ram α) (a i : Nat) : Option α := (m.blk a).bind fun l => l[i]?

def Ram.set (m : Ram α) (a i : Nat) (v : α) : Option (Ram α) :=
  (m.blk a).bind fun l => if i < l.length then some { m with blk := upd m.blk a (some (l.set i v)) } else none

/-! ## Cells that hold objects: `none` is raw memory -/

/-- `new (p) T(v)`: the cell must be raw memory (otherwise the old object would be lost without being destructed). -/
def Ram.construct (m : Ram (Option T)) (a i : Nat) (v : T) : Option (Ram (Option T)) :=
  (m.get a i).bind fun c => if c.isSome then none else m.set a i (some v)

/-- `p->~T()`: the cell must hold an object. -/
def Ram.destruct (m : Ram (Option T)) (a i : Nat) : Option (Ram (Option T)) :=
  (m.get a i).bind fun c => if c.isSome then m.set a i none else none

/-- value of an object -/
def Ram.read (m : Ram (Option T)) (a i : Nat) : Option T := (m.get a i).join

/-- `*p = v`: the cell must hold an object. -/
def Ram.assign (m : Ram (Option T)) (a i : Nat) (v : T) : Option (Ram (Option T)) :=
  (m.get a i).bind fun c => if c.isSome then m.set a i (some v) else none

end TdZdd
