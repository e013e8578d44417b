import Verif.MemoryPoolProofs3

/-!
# Property C48: `MemoryPool`
-/

namespace TdZdd

/-- C48: in every program that is allowed when each allocation is an array of its own, pools behave in this way: there is no undefined behaviour, and values
that were written are read back until the pool is cleared. -/
theorem C48_arrays (ops : List PlOp) (ps : PsSt) (rs : List PlRes) (h : psRun PsSt.empty ops = some (ps, rs)) :
    ∃ st, plRun PlSt.empty ops = some (st, rs) := by
  obtain ⟨st, C, e, _⟩ := plRun_spec ops plInv_empty h
  exact ⟨st, e⟩

/-- C48, layout: the allocations since the last `clear` or `reuse` lie in blocks that exist, behind the first unit, and do not overlap; this includes
allocations from different pools. -/
theorem C48_disjoint (ops : List PlOp) (ps : PsSt) (rs : List PlRes) (h : psRun PsSt.empty ops = some (ps, rs)) :
    ∃ st, plRun PlSt.empty ops = some (st, rs) ∧
      ∀ x P g, ps.pool x = some P → g ∈ P.live → ∃ a o n b, st.ptr[g]? = some (a, o) ∧ ps.size[g]? = some n ∧ st.mem.blk a = some b ∧ 1 ≤ o ∧ 8 * o + n ≤ 8 * b.len ∧
        ∀ x' P' g', ps.pool x' = some P' → g' ∈ P'.live → g' ≠ g → ∀ a' o' n', st.ptr[g']? = some (a', o') → ps.size[g']? = some n' →
          a ≠ a' ∨ 8 * o + n ≤ 8 * o' ∨ 8 * o' + n' ≤ 8 * o := by
  obtain ⟨st, C, e, k⟩ := plRun_spec ops plInv_empty h
  refine ⟨st, e, fun x P g hx hg => ?_⟩
  obtain ⟨p, p1, p2⟩ := k.alive x P hx
  obtain ⟨a, o, n, r, ha, _⟩ := p2.reg g hg
  obtain ⟨b, b1, b2, _⟩ := r.blk
  refine ⟨a, o, n, b, r.ptr, r.size, b1, r.one, by omega, fun x' P' g' hx' hg' hne a' o' n' h1 h2 => ?_⟩
  obtain ⟨p', q1, q2⟩ := k.alive x' P' hx'
  obtain ⟨a1, o1, n1, r', ha', _⟩ := q2.reg g' hg'
  have h1' := r'.ptr
  have h2' := r'.size
  rw [show (st.data ps).ptr = st.ptr from rfl, h1] at h1'
  rw [show (st.data ps).size = ps.size from rfl, h2] at h2'
  cases h1'
  cases h2'
  by_cases ex : x = x'
  · subst ex
    rw [hx] at hx'
    cases hx'
    rcases p2.sep g hg g' hg' (fun e => hne e.symm) _ _ _ _ _ _ r r' with h3 | h3 | h3
    · exact .inl h3
    · exact .inr (.inl (by omega))
    · exact .inr (.inr (by omega))
  · exact .inl fun e => ex (k.disj x x' a ha (e ▸ ha'))

/-- C48, memory: when no pool is alive all blocks have been released. -/
theorem C48_no_leak (ops : List PlOp) (ps : PsSt) (rs : List PlRes) (h : psRun PsSt.empty ops = some (ps, rs)) (hd : ∀ x, ps.pool x = none) :
    ∃ st, plRun PlSt.empty ops = some (st, rs) ∧ ∀ a, st.mem.blk a = none := by
  obtain ⟨st, C, e, k⟩ := plRun_spec ops plInv_empty h
  refine ⟨st, e, fun a => ?_⟩
  cases hb : st.mem.blk a with
  | none => rfl
  | some b =>
    obtain ⟨x, hx⟩ := k.own a (by rw [hb]; simp)
    rw [(k.dead x (hd x)).2] at hx
    cases hx

/-- the results of a program -/
def plResults (ops : List PlOp) : Option (List PlRes) := (plRun PlSt.empty ops).map (·.2)

/-- Example: a program with two pools that is allowed. -/
def poolProg : List PlOp :=
  [.new 0, .new 1, .alloc 0 24, .alloc 1 10, .alloc 0 40001, .store 0 0 2 7, .store 1 1 1 8, .store 0 2 5000 9, .alloc 1 400, .store 1 3 0 6, .reuse 1, .alloc 1 8, .store 1 4 0 5, .splice 0 1,
    .load 0 0 2, .load 0 2 5000, .load 0 4 0, .isEmpty 1, .move 2 0, .alloc 2 100, .store 2 5 12 4, .load 2 4 0, .clear 2, .isEmpty 2, .destroy 1, .destroy 2]

example : ((psRun PsSt.empty poolProg).map (·.2)).isSome ∧ (psRun PsSt.empty poolProg).map (·.2) = plResults poolProg ∧
    (plResults poolProg).map (fun r => (r.drop 14).take 4) = some [.word 7, .word 9, .word 5, .bool true] := by
  refine ⟨?_, ?_, ?_⟩ <;> decide +kernel

/-! ## Operations that the code gets wrong -/

/-- `reuse` after a large allocation can keep a block that is too small; then an allocation reaches behind its end. Without the call of `reuse` there is no
problem. -/
theorem C48_reuse_overflow : plResults [.new 0, .alloc 0 8, .alloc 0 40008, .reuse 0, .alloc 0 40000, .alloc 0 16, .store 0 3 1 5] = none ∧
    (plResults [.new 0, .alloc 0 8, .alloc 0 40008, .alloc 0 40000, .alloc 0 16, .store 0 3 1 5]).isSome = true := by
  refine ⟨?_, ?_⟩ <;> decide +kernel

/-- `alloc(0)` on an empty pool adds a number to the null pointer. -/
theorem C48_alloc_zero : plResults [.new 0, .alloc 0 0] = none := by decide +kernel

/-- A size near the maximum wraps around: nothing is allocated and the next allocation gets the same address. -/
theorem C48_size_overflow : (plResults [.new 0, .alloc 0 8, .alloc 0 (2 ^ 64 - 1), .alloc 0 8, .store 0 1 0 5, .store 0 2 0 6, .load 0 1 0]).map (·.drop 6) = some [.word 6] := by
  decide +kernel

/-- After `moveFrom(o)`, `o` has no block but may have free units, and allocation from it adds a number to the null pointer. -/
theorem C48_moved_from (m : PlMem) (o : Pool) (n : Nat) (hz : m.blk 0 = none) (hn : n ≤ 40000) (hr : o.next + 5000 ≤ blockUnits) :
    plAlloc m o.moveFrom.2 n = none := by
  have he : (n + (unitSize - 1)) % 2 ^ 64 / unitSize = (n + 7) / 8 := by
    rw [Nat.mod_eq_of_lt (by unfold unitSize; omega)]
    rfl
  have hmax : maxElementUnits = 5000 := by decide
  show plAlloc m ⟨0, o.next⟩ n = none
  unfold plAlloc
  dsimp only
  rw [he, if_neg (by omega), if_neg (by omega), hz]
  rfl

/-- such a pool is reached by one small allocation -/
example : ((plRun PlSt.empty [.new 0, .alloc 0 8]).bind fun r => r.1.pool 0) = some ⟨1, 2⟩ ∧
    ((plRun PlSt.empty [.new 0, .alloc 0 8]).map fun r => (r.1.mem.blk 0).isNone) = some true := by
  refine ⟨?_, ?_⟩ <;> decide +kernel

/-- Splicing a pool with itself loses its blocks. -/
theorem C48_self_splice : ((plRun PlSt.empty [.new 0, .alloc 0 8, .splice 0 0, .destroy 0]).map fun r => (r.1.mem.blk 1).isSome) = some true ∧
    ((plRun PlSt.empty [.new 0, .alloc 0 8, .destroy 0]).map fun r => (r.1.mem.blk 1).isSome) = some false := by
  refine ⟨?_, ?_⟩ <;> decide +kernel

end TdZdd
