import Verif.IteratorProofs
import Verif.SampleDds

/-!
# Properties C33, C34: iteration over the itemsets of a binary structure

`asgOf x` is the assignment with value 1 at the levels in `x`, `SetLt x y`: at the highest level where `x` and `y` differ,
the level is in `y`.
-/

namespace TdZdd

/-- C33: the iteration from `begin()` to `end()` ends without invalid access, and its itemsets are the members of the family,
each exactly once (each itemset is listed as the decreasing list of its levels). -/
theorem C33_iteration (D : Dd 2) (hw : D.Wf) :
    (∃ fuel steps L, D.iterate fuel steps = some L) ∧
    ∀ fuel steps L, D.iterate fuel steps = some L → L.Nodup ∧ (∀ x ∈ L, x.Pairwise (· > ·) ∧ ∀ i ∈ x, 1 ≤ i ∧ i ≤ D.root.row) ∧
      ∀ n, D.root.row ≤ n → ∀ x : List Nat, x.Pairwise (· > ·) → (∀ i ∈ x, 1 ≤ i ∧ i ≤ n) →
        (x ∈ L ↔ ZddMem D.spec n (asgOf x)) := by
  obtain ⟨L, w, hE⟩ := enum_exists hw.table D.root.row (Nat.le_refl _) hw.root
  refine ⟨⟨_, _, L, iterate_spec hw hE⟩, ?_⟩
  intro fuel steps L' h
  have e := iterate_unique h (iterate_spec hw hE)
  subst e
  refine ⟨?_, hE.bounds hw.table, ?_⟩
  · refine (hE.sorted hw.table).imp ?_
    rintro x _ ⟨i, a, b, _⟩ rfl
    exact a b
  · intro n hn x hx hb
    rw [hw.zddMem_iff]
    exact hE.mem_iff hw.table hn hx hb

/-- C34: the itemsets come in increasing order. -/
theorem C34_order (D : Dd 2) (hw : D.Wf) (fuel steps : Nat) (L : List (List Nat)) (h : D.iterate fuel steps = some L) :
    L.Pairwise SetLt := by
  obtain ⟨L', w, hE⟩ := enum_exists hw.table D.root.row (Nat.le_refl _) hw.root
  have e := iterate_unique h (iterate_spec hw hE)
  subst e
  exact hE.sorted hw.table

/-- C33: incrementing an iterator at `end()` leaves it there. -/
theorem C33_end_stays (T : Table 2) (fuel : Nat) : iterNext T (fuel + 1) .zero Iter.fin = some Iter.fin := rfl

/-- the sets of `dupDd` in order; its 0-terminals are reached from both sides -/
example : dupDd.iterate 20 20 = some [[1], [2, 1], [3]] := by decide +kernel

example : List.Pairwise SetLt [[1], [2, 1], [3]] := C34_order dupDd dupDd_wf 20 20 _ (by decide +kernel)

/-- a structure without members whose root is not the 0-terminal, and the two constants -/
example : (mkDd [[nd2 .zero .zero]] ⟨1, 0⟩).iterate 20 20 = some [] ∧ (mkDd [] .one).iterate 20 20 = some [[]] ∧
    (mkDd [] .zero).iterate 20 20 = some [] := by decide +kernel

end TdZdd
