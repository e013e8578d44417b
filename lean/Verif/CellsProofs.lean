import Verif.Cells
import Verif.BuilderProofs2

/-! Facts about memory. -/

namespace TdZdd

variable {α : Type}

theorem CMem.load_congr {m m' : CMem α} {a i : Nat} (h : m'.blk a = m.blk a) : m'.load a i = m.load a i := by
  unfold CMem.load; rw [h]

/-- memory without some blocks -/
def CMem.del (m : CMem α) (c : List Nat) : CMem α := { m with blk := fun a => if a ∈ c then none else m.blk a }

theorem CMem.free_eq {m : CMem α} {a : Nat} (h : m.blk a ≠ none) : m.free a = some (m.del [a]) := by
  unfold CMem.free CMem.del
  cases e : m.blk a with
  | none => exact absurd e h
  | some b =>
    simp only [Option.map_some, List.mem_singleton]
    unfold upd
    rfl

theorem CMem.del_del (m : CMem α) (c c' : List Nat) : (m.del c).del c' = m.del (c ++ c') := by
  unfold CMem.del
  dsimp only
  congr 1
  funext a
  by_cases h : a ∈ c <;> by_cases h' : a ∈ c' <;> simp [h, h']

theorem CMem.del_nil (m : CMem α) : m.del [] = m := by
  unfold CMem.del
  simp

theorem CMem.del_not {m : CMem α} {c : List Nat} {a : Nat} (h : a ∉ c) : (m.del c).blk a = m.blk a := by
  unfold CMem.del
  simp [h]

theorem CMem.del_mem {m : CMem α} {c : List Nat} {a : Nat} (h : a ∈ c) : (m.del c).blk a = none := by
  unfold CMem.del
  simp [h]

/-- a write that succeeds -/
theorem CMem.store_spec {m : CMem α} {a i : Nat} {b : CBlk α} (hb : m.blk a = some b) (hi : i < b.len) (w : α) :
    ∃ m', m.store a i w = some m' ∧ m'.fresh = m.fresh ∧ m'.blk a = some { b with cell := upd b.cell i (some w) } ∧ ∀ a', a' ≠ a → m'.blk a' = m.blk a' := by
  unfold CMem.store
  rw [hb, Option.bind_some, if_pos hi]
  exact ⟨_, rfl, rfl, upd_same .., fun a' h => upd_ne _ _ h⟩

theorem CMem.load_blk {m : CMem α} {a i : Nat} {w : α} (h : m.load a i = some w) : ∃ b, m.blk a = some b ∧ i < b.len ∧ b.cell i = some w := by
  unfold CMem.load at h
  cases hb : m.blk a with
  | none => rw [hb] at h; cases h
  | some b =>
    rw [hb, Option.bind_some] at h
    by_cases hi : i < b.len
    · rw [if_pos hi] at h; exact ⟨b, rfl, hi, h⟩
    · rw [if_neg hi] at h; cases h

theorem CMem.load_of {m : CMem α} {a i : Nat} {w : α} {b : CBlk α} (hb : m.blk a = some b) (hi : i < b.len) (h : b.cell i = some w) : m.load a i = some w := by
  unfold CMem.load
  rw [hb, Option.bind_some, if_pos hi, h]

theorem CMem.del_some {m : CMem α} {c : List Nat} {a : Nat} (h : (m.del c).blk a ≠ none) : a ∉ c ∧ m.blk a ≠ none := by
  by_cases ha : a ∈ c
  · exact absurd (CMem.del_mem ha) h
  · rw [CMem.del_not ha] at h
    exact ⟨ha, h⟩

theorem CMem.new_blk (m : CMem α) (k : Nat) : (m.new k).blk m.fresh = some ⟨k, fun _ => none⟩ := upd_same ..

theorem CMem.new_other (m : CMem α) (k : Nat) {a : Nat} (h : a ≠ m.fresh) : (m.new k).blk a = m.blk a := upd_ne _ _ h

/-- memory after an allocation by an object whose blocks were `c` and now are `c'` -/
structure CMem.Ext (m m' : CMem α) (c c' : List Nat) : Prop where
  fresh : m.fresh ≤ m'.fresh
  other : ∀ b, b ∉ c → b < m.fresh → m'.blk b = m.blk b
  sub : ∀ b ∈ c, b ∈ c'
  new : ∀ b ∈ c', b ∈ c ∨ m.fresh ≤ b
  own : ∀ b, m'.blk b ≠ none → b ∈ c' ∨ m.blk b ≠ none
  bound : ∀ b, m'.blk b ≠ none → 0 < b ∧ b < m'.fresh

end TdZdd
