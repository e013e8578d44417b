import Verif.Counting
import Verif.Props.Builder

/-! # Property C36, cardinality of the universal structure -/

namespace TdZdd

/-- the number of value vectors of length `n` -/
theorem vec_count (N n : Nat) : HasCount (fun l : List (Fin (N + 1)) => l.length = n) ((N + 1) ^ n) := by
  induction n with
  | zero => exact (hasCount_one []).congr fun x => List.length_eq_zero_iff.symm
  | succ n ih =>
    have h := hasCount_snoc (N := N) (n := n) (P := fun _ l => l.length = n) (k := fun _ => (N + 1) ^ n) fun _ =>
      ih.congr fun x => ⟨fun h => ⟨h, h⟩, fun h => h.1⟩
    have e : (List.ofFn fun _ : Fin (N + 1) => (N + 1) ^ n).sum = (N + 1) ^ (n + 1) := by
      rw [ofFn_const', List.sum_replicate_nat, Nat.pow_succ, Nat.mul_comm]
    rw [e] at h
    refine h.congr fun l => ?_
    constructor
    · exact fun h => h.1
    · intro h
      obtain ⟨l', b, rfl, hl⟩ := snoc_exists h
      exact ⟨h, b, l', rfl, hl⟩

/-- C36: `DdStructure(n)` has exactly `N^n` members, and exactly `N^n` assignments satisfy it. -/
theorem C36_count (N n : Nat) : ZddCount (universal (N + 1) n).spec n ((N + 1) ^ n) ∧
    BddCount (universal (N + 1) n).spec n ((N + 1) ^ n) := by
  obtain ⟨_, _, hb, hz⟩ := C36_universal (N + 1) n
  exact ⟨(vec_count N n).congr fun l => ⟨fun h => ⟨h, hz _⟩, fun h => h.1⟩,
    (vec_count N n).congr fun l => ⟨fun h => ⟨h, hb _⟩, fun h => h.1⟩⟩

example : ZddCount (universal 3 4).spec 4 81 := (C36_count 2 4).1

end TdZdd
