import Verif.MyListProofs3
import Verif.MyListOnPoolProofs

/-!
# Property C49: `MyList`
-/

namespace TdZdd

/-- C49: every program that is allowed for stacks of arrays runs on lists without undefined behaviour and with the same results. The pointers returned by
`alloc_front` are given by the table `st.ptr`; `front` and iteration return the same pointers again, from newest to oldest. -/
theorem C49_stack (B : Nat) (hB : 0 < B) (ops : List LOp) (ps : SkSt) (rs : List (LRes Nat)) (h : skRun SkSt.empty ops = some (ps, rs)) :
    ∃ st, lRun B LSt.empty ops = some (st, rs.map (LRes.map fun e => st.ptr.getD e (0, 0))) ∧ st.ptr.length = ps.size.length := by
  obtain ⟨st, K, ext, e, k, _⟩ := lRun_spec hB ops lInv_empty h
  exact ⟨st, e, k.len⟩

/-- C49, layout: the elements of all lists lie in blocks that exist, and do not overlap. -/
theorem C49_disjoint (B : Nat) (hB : 0 < B) (ops : List LOp) (ps : SkSt) (rs : List (LRes Nat)) (h : skRun SkSt.empty ops = some (ps, rs)) :
    ∃ st r, lRun B LSt.empty ops = some (st, r) ∧
      ∀ x es e, ps.list x = some es → e ∈ es → ∃ a o n b, st.ptr[e]? = some (a, o) ∧ ps.size[e]? = some n ∧ st.mem.blk a = some b ∧ 8 * o + n ≤ 8 * b.len ∧
        ∀ x' es' e', ps.list x' = some es' → e' ∈ es' → e' ≠ e → ∀ a' o' n', st.ptr[e']? = some (a', o') → ps.size[e']? = some n' →
          a ≠ a' ∨ 8 * o + n ≤ 8 * o' ∨ 8 * o' + n' ≤ 8 * o := by
  obtain ⟨st, K, ext, e, k, _⟩ := lRun_spec hB ops lInv_empty h
  refine ⟨st, _, e, fun x es g hx hg => ?_⟩
  obtain ⟨p, p1, p2⟩ := k.alive x es hx
  have hg1 := p2.els ▸ hg
  obtain ⟨b, hb, _, o, n, el, ho⟩ := p2.rep.pos g hg1
  obtain ⟨bb, b1, b2⟩ := el.room
  refine ⟨b.a, o + 1, n, bb, el.ptr, el.size, b1, by unfold numCells at b2; omega, fun x' es' g' hx' hg' hne a' o' n' h1 h2 => ?_⟩
  obtain ⟨p', q1, q2⟩ := k.alive x' es' hx'
  have hg1' := q2.els ▸ hg'
  obtain ⟨b', hb', _, o1, n1, el', _⟩ := q2.rep.pos g' hg1'
  have h1' := el'.ptr
  have h2' := el'.size
  rw [show (st.data ps).ptr = st.ptr from rfl, h1] at h1'
  rw [show (st.data ps).size = ps.size from rfl, h2] at h2'
  cases h1'
  cases h2'
  by_cases ex : x = x'
  · subst ex
    rw [hx] at hx'
    cases hx'
    rcases p2.rep.sep p2.nodup g hg1 g' hg1' (fun e => hne e.symm) _ _ _ _ _ _ el el' with h3 | h3 | h3
    · exact .inl h3
    · exact .inr (.inl (by unfold numCells at h3; omega))
    · exact .inr (.inr (by unfold numCells at h3; omega))
  · exact .inl fun e => ex (k.disj x x' b.a (List.mem_map.2 ⟨b, hb, rfl⟩) (e ▸ List.mem_map.2 ⟨b', hb', rfl⟩))

/-- C49, memory: when all lists are empty or destroyed all blocks have been released. (`free` of a block that does not exist is undefined behaviour, so every
block is released once.) -/
theorem C49_no_leak (B : Nat) (hB : 0 < B) (ops : List LOp) (ps : SkSt) (rs : List (LRes Nat)) (h : skRun SkSt.empty ops = some (ps, rs))
    (hd : ∀ x es, ps.list x = some es → es = []) : ∃ st r, lRun B LSt.empty ops = some (st, r) ∧ ∀ a, st.mem.blk a = none := by
  obtain ⟨st, K, ext, e, k, _⟩ := lRun_spec hB ops lInv_empty h
  refine ⟨st, _, e, fun a => ?_⟩
  cases hb : st.mem.blk a with
  | none => rfl
  | some b =>
    obtain ⟨x, hx⟩ := k.own a (by rw [hb]; simp)
    cases hl : ps.list x with
    | none => rw [(k.dead x hl).2] at hx; cases hx
    | some es =>
      obtain ⟨l, _, g⟩ := k.alive x es hl
      rw [(bk_es_nil g).1 (hd x es hl)] at hx
      cases hx

/-- Example: a program with blocks of two elements. -/
def listProg : List LOp :=
  [.new 0, .new 1, .alloc 0 8, .store 0 0 0 10, .alloc 0 12, .store 0 1 0 11, .store 0 1 1 12, .alloc 1 24, .store 1 2 2 13, .alloc 0 0, .alloc 0 8, .store 0 4 0 14, .load 0 1 1, .elems 0,
    .pop 0, .pop 0, .front 0, .load 0 0 0, .load 0 1 0, .size 0, .copy 2 0, .copy 2 1, .pop 1, .copy 2 1, .assign 0 2, .isEmpty 0, .destroy 2, .destroy 1, .destroy 0]

example : (skRun SkSt.empty listProg).map (fun r => (r.2.drop 12).take 14) =
      some [.word 12, .ptrs [4, 3, 1, 0], .unit, .unit, .ptrs [1], .word 10, .word 11, .num 2, .throws, .throws, .unit, .unit, .unit, .bool true] ∧
    (lRun 2 LSt.empty listProg).map (fun r => r.1.ptr) = some [(1, 4), (2, 5), (3, 6), (2, 4), (2, 2)] := by
  refine ⟨?_, ?_⟩ <;> decide +kernel

/-! ## `MyListOnPool` -/

/-- C49 for `MyListOnPool`: every program that is allowed for stacks of arrays in pools runs without undefined behaviour and with the same results on lists that use
`MemoryPool`. -/
theorem C49_on_pool (ops : List PoOp) (t : SpSt) (rs : List (LRes Nat)) (h : spRun SpSt.empty ops = some (t, rs)) :
    ∃ st, poRun plStep (PoSt.empty PlSt.empty) ops = some (st, rs) := by
  obtain ⟨s1, e1, _⟩ := poRun_spec ops poInv_empty h
  have hr : (PoSt.empty PsSt.empty).Rel (fun ps st => ∃ C, PlInv st ps C) (PoSt.empty PlSt.empty) := ⟨⟨_, plInv_empty⟩, rfl, rfl⟩
  obtain ⟨s2, e2, _⟩ := pools_follow.run ops hr e1
  exact ⟨s2, e2⟩

/-- Example: two lists and two pools, which are merged. -/
def poolListProg : List PoOp :=
  [.pool (.new 0), .pool (.new 1), .new 0, .new 1, .alloc 0 0 8, .store 0 0 0 0 10, .alloc 0 1 40000, .store 0 1 1 4999 11, .alloc 1 1 0, .alloc 0 0 12, .copy 2 0, .pool (.splice 0 1),
    .elems 0 0, .load 0 0 1 4999, .pop 0 0, .pop 0 0, .front 0, .load 0 0 0 0, .elems 1 0, .size 0, .pool (.clear 0), .clear 0, .isEmpty 0, .isEmpty 1, .copy 2 0, .size 1]

example : (spRun SpSt.empty poolListProg).map (fun r => r.2.drop 9) =
      some [.ptrs [3], .throws, .unit, .ptrs [3, 1, 0], .word 11, .unit, .unit, .ptrs [0], .word 10, .ptrs [2], .num 1, .unit, .unit, .bool true, .bool false, .unit, .num 1] ∧
    (poRun plStep (PoSt.empty PlSt.empty) poolListProg).map (fun r => r.2.drop 10) = (spRun SpSt.empty poolListProg).map (fun r => r.2.drop 10) := by
  refine ⟨?_, ?_⟩ <;> decide +kernel

/-- When the pool is cleared before the list, the list must not be used: it still refers to memory that has been released. -/
theorem C49_on_pool_cleared : (poRun plStep (PoSt.empty PlSt.empty) [.pool (.new 0), .new 0, .alloc 0 0 8, .pool (.clear 0), .isEmpty 0]).map (·.2.drop 4) = some [.bool false] ∧
    (poRun plStep (PoSt.empty PlSt.empty) [.pool (.new 0), .new 0, .alloc 0 0 8, .pool (.clear 0), .pop 0 0]).isNone = true := by
  refine ⟨?_, ?_⟩ <;> decide +kernel

end TdZdd
