import Verif.CardinalityProofs
import Verif.Props.Evaluate
import Verif.Props.Counting

/-!
# Properties C30, C31: `zddCardinality()` and `bddCardinality(n)`

`ZddCount D.spec n c` and `BddCount D.spec n c` (`Counting.lean`) count the value vectors over the levels `1..n` that are
members of the family, resp. satisfy the function. `EvSched D sched`: any order and any distribution over objects of
the node evaluations.
-/

namespace TdZdd

open Big

variable {N : Nat}

/-- C30, for any size of the temporaries that can hold the number of all value vectors up to the root level. -/
theorem C30_words (D : Dd (N + 1)) (hw : D.Wf) (h0 : D.table.row 0 = terminalRow (N + 1)) (hr : 0 < D.table.numRows)
    (sched : Nat → List (Nat × Nat)) (hs : EvSched D sched) (words : Nat → Nat)
    (hwd : (N + 1) ^ D.root.row < 2 ^ (63 * words D.root.row)) (n : Nat) (hn : D.root.row ≤ n) (nv : Int) :
    ∃ c, ZddCount D.spec n c ∧ D.evaluate (cardinality (N + 1) false nv words) sched = some (toString c) := by
  obtain ⟨s, t, v, e, hP, ⟨_, sz, hnum, _⟩, hf⟩ := C29_evaluate_state D hw h0 hr
    (zddSim N nv words D.root.row (wd_le (Nat.le_add_left 1 N) hwd)) sched hs
  exact ⟨v, (zddCount_iff hw hn).2 hf, e.trans (print_spec hnum)⟩

/-- C30: `zddCardinality()` is the decimal representation of the number of members. -/
theorem C30_zddCardinality (D : Dd (N + 1)) (hw : D.Wf) (h0 : D.table.row 0 = terminalRow (N + 1)) (hr : 0 < D.table.numRows)
    (sched : Nat → List (Nat × Nat)) (hs : EvSched D sched) (n : Nat) (hn : D.root.row ≤ n) :
    ∃ c, ZddCount D.spec n c ∧ D.zddCardinality sched = some (toString c) :=
  C30_words D hw h0 hr sched hs _ (maxWords_ok _ _) n hn 0

/-- C30 and C31 for the generic evaluators (`Cardinality.hpp` 37-82) over an unbounded number type. -/
theorem C30_generic (D : Dd (N + 1)) (hw : D.Wf) (h0 : D.table.row 0 = terminalRow (N + 1)) (hr : 0 < D.table.numRows)
    (sched : Nat → List (Nat × Nat)) (hs : EvSched D sched) (n : Nat) (hn : D.root.row ≤ n) :
    (∃ c, ZddCount D.spec n c ∧ D.evaluate (Evaluator.pure (fun j => j)
      (fun _ vs => (List.ofFn fun b => (vs b).1).sum) id) sched = some c) ∧
    ∃ c, BddCount D.spec n c ∧ D.evaluate (Evaluator.pure (fun j => j) bddNv
      fun v => v * (N + 1) ^ (n - D.root.row)) sched = some c := by
  obtain ⟨v, e, hf, _⟩ := C29_evaluate D hw h0 hr (fun j => j) (fun _ vs => (List.ofFn fun b => (vs b).1).sum) id sched hs
  obtain ⟨v', e', hf', _⟩ := C29_evaluate D hw h0 hr (fun j => j) bddNv (fun v => v * (N + 1) ^ (n - D.root.row)) sched hs
  exact ⟨⟨v, (zddCount_iff hw hn).2 hf, e⟩, ⟨_, (bddCount_iff hw hn).2 ⟨v', hf', rfl⟩, e'⟩⟩

/-- C31, for any size of the temporaries that can hold the number of all assignments to `n` variables. -/
theorem C31_words (D : Dd (N + 1)) (hw : D.Wf) (h0 : D.table.row 0 = terminalRow (N + 1)) (hr : 0 < D.table.numRows)
    (sched : Nat → List (Nat × Nat)) (hs : EvSched D sched) (words : Nat → Nat) (n : Nat) (hn : D.root.row ≤ n)
    (hwd : (N + 1) ^ n < 2 ^ (63 * words D.root.row)) :
    ∃ c, BddCount D.spec n c ∧ D.evaluate (cardinality (N + 1) true n words) sched = some (toString c) := by
  have h1N : 1 ≤ N + 1 := Nat.le_add_left 1 N
  have hwn := wd_le h1N hwd
  have hwm := wd_mono h1N hn
  obtain ⟨s, t, v, e, ⟨htop, t1, t2, t3, _, e2, e3, _, l2, l3⟩, ⟨hv, sz, hnum, hsz⟩, hf⟩ := C29_evaluate_state D hw h0 hr
    (bddSim N n words D.root.row (by omega)) sched hs
  obtain ⟨r, e4, h1, h2, _⟩ := (store_spec hnum t2).fits (by omega)
  have ek : (n : Int) - (s.top : Int) = ((n - D.root.row : Nat) : Int) := by omega
  have el : D.root.row + (n - D.root.row) = n := by omega
  obtain ⟨t', s', e5, h3, _⟩ := scale_spec (N := N + 1) (k := n - D.root.row) (t := (r, t3)) h1N h1 hsz hv
    (by dsimp only; rw [el]; omega) (by dsimp only; rw [el]; omega)
  refine ⟨_, (bddCount_iff hw hn).2 ⟨v, hf, rfl⟩, e.trans ?_⟩
  simp only [cardinality, if_true, e2, e3, Option.bind_some]
  rw [e4, Option.bind_some, ek, e5, Option.bind_some]
  exact print_spec h3

/-- C31, partial: if the allocated temporaries can hold the number of all assignments, `bddCardinality(n)` is the
decimal representation of the number of satisfying assignments. For binary diagrams the condition is
`n < 63 * (ceil(topLevel/63) + 1)`, so it holds for `n ≤ topLevel + 62`. What is missing from the claim is larger `n`, for
which the code writes outside of its temporaries, see `C31_storage_overflow`. -/
theorem C31_bddCardinality_partial (D : Dd (N + 1)) (hw : D.Wf) (h0 : D.table.row 0 = terminalRow (N + 1))
    (hr : 0 < D.table.numRows) (sched : Nat → List (Nat × Nat)) (hs : EvSched D sched) (n : Nat) (hn : D.root.row ≤ n)
    (hfit : (N + 1) ^ n < 2 ^ (63 * maxWords (N + 1) D.root.row)) :
    ∃ c, BddCount D.spec n c ∧ D.bddCardinality n sched = some (toString c) :=
  C31_words D hw h0 hr sched hs _ n hn hfit

/-- In particular for binary diagrams with `n` at most 62 above the root level. -/
theorem C31_near_root_partial (D : Dd 2) (hw : D.Wf) (h0 : D.table.row 0 = terminalRow 2) (hr : 0 < D.table.numRows)
    (sched : Nat → List (Nat × Nat)) (hs : EvSched D sched) (n : Nat) (hn : D.root.row ≤ n) (hn' : n ≤ D.root.row + 62) :
    ∃ c, BddCount D.spec n c ∧ D.bddCardinality n sched = some (toString c) := by
  refine C31_bddCardinality_partial D hw h0 hr sched hs n hn (Nat.pow_lt_pow_right (by decide) ?_)
  have : D.root.row ≤ clog2 (2 ^ D.root.row) := by
    have := le_clog2 (2 ^ D.root.row)
    exact (Nat.pow_le_pow_iff_right (by decide)).1 this
  show n < 63 * ((clog2 (2 ^ D.root.row) + 62) / 63 + 1)
  omega

/-- C31: for every `n` not below the root level, if the computation stays inside its storage then the result is right. -/
theorem C31_sound (D : Dd (N + 1)) (hw : D.Wf) (h0 : D.table.row 0 = terminalRow (N + 1)) (hr : 0 < D.table.numRows)
    (sched : Nat → List (Nat × Nat)) (hs : EvSched D sched) (n : Nat) (hn : D.root.row ≤ n) (str : String)
    (h : D.bddCardinality n sched = some str) : ∃ c, BddCount D.spec n c ∧ str = toString c := by
  have h1N : 1 ≤ N + 1 := Nat.le_add_left 1 N
  obtain ⟨s, t, v, e, ⟨htop, t1, t2, t3, _, e2, e3, _, l2, l3⟩, ⟨hv, sz, hnum, hsz⟩, hf⟩ := C29_evaluate_state D hw h0 hr
    (bddSim N n (maxWords (N + 1)) D.root.row (wd_le h1N (maxWords_ok _ _))) sched hs
  have hfit := wd_le h1N (maxWords_ok (N + 1) D.root.row)
  obtain ⟨r, e4, h1, h2, _⟩ := (store_spec hnum t2).fits (by omega)
  have ek : (n : Int) - (s.top : Int) = ((n - D.root.row : Nat) : Int) := by omega
  refine ⟨_, (bddCount_iff hw hn).2 ⟨v, hf, rfl⟩, ?_⟩
  have h' := e.symm.trans h
  simp only [cardinality, if_true, e2, e3, Option.bind_some] at h'
  rw [e4, Option.bind_some, ek] at h'
  cases e5 : scale (N + 1) ((n - D.root.row : Nat) : Int) (r, t3) with
  | none => rw [e5] at h'; cases h'
  | some t' =>
    rw [e5, Option.bind_some] at h'
    obtain ⟨s', h3⟩ := scale_sound (t := (r, t3)) h1N h1 e5
    rw [print_spec h3] at h'
    injection h' with h'
    exact h'.symm

/-- C31, the negation of the storage claim for binary diagrams: if `n` is large compared to the root level, the final
`shiftLeft` writes outside of the array of `tmp2`, whatever the diagram is. -/
theorem C31_storage_overflow (D : Dd 2) (hw : D.Wf) (h0 : D.table.row 0 = terminalRow 2) (hr : 0 < D.table.numRows)
    (sched : Nat → List (Nat × Nat)) (hs : EvSched D sched) (n : Nat)
    (hn : D.root.row + 63 * maxWords 2 D.root.row ≤ n) : D.bddCardinality n sched = none := by
  have h1N : 1 ≤ 1 + 1 := by decide
  obtain ⟨s, t, v, e, ⟨htop, t1, t2, t3, _, e2, e3, _, l2, l3⟩, ⟨hv, sz, hnum, hsz⟩, hf⟩ := C29_evaluate_state D hw h0 hr
    (bddSim 1 n (maxWords 2) D.root.row (wd_le h1N (maxWords_ok _ _))) sched hs
  have hfit := wd_le h1N (maxWords_ok 2 D.root.row)
  obtain ⟨r, e4, h1, h2, _⟩ := (store_spec hnum t2).fits (by omega)
  have ek : (n : Int) - (s.top : Int) = ((n - D.root.row : Nat) : Int) := by omega
  refine e.trans ?_
  simp only [cardinality, if_true, e2, e3, Option.bind_some]
  rw [e4, Option.bind_some, ek]
  have hpos := h1.pos
  have : scale 2 ((n - D.root.row : Nat) : Int) (r, t3) = none := by
    unfold scale
    rw [if_pos rfl, (shiftLeft_spec h1 (n - D.root.row)).short]
    · rfl
    · have : sz + (n - D.root.row) / 63 ≤ shiftNeed sz (n - D.root.row) v := by
        unfold shiftNeed need; split <;> omega
      show r.length < _
      omega
  rw [this]
  rfl

/-- The constant true function on 63 variables, and one variable out of 189. -/
example : (universal 2 0).bddCardinality 63 (seqSched (universal 2 0)) = none ∧ (universal 2 1).bddCardinality 189 (seqSched (universal 2 1)) = none :=
  ⟨C31_storage_overflow _ (universal_wf 2 0) rfl (by decide) _ (seqSched_ok _) _ (by decide),
    C31_storage_overflow _ (universal_wf 2 1) rfl (by decide) _ (seqSched_ok _) _ (by decide)⟩

set_option maxRecDepth 20000 in
/-- the power set of 70 elements: two 63-bit words -/
example : (universal 2 70).zddCardinality (seqSched (universal 2 70)) = some (toString (2 ^ 70)) := by
  obtain ⟨c, h1, h2⟩ := C30_zddCardinality _ (universal_wf 2 70) rfl (by decide) _ (seqSched_ok _) 70 (by decide)
  rw [h2, h1.unique (C36_count 1 70).1]

example : (universal 3 4).bddCardinality (9 : Nat) (seqSched (universal 3 4)) = some (toString (3 ^ 9)) := by
  obtain ⟨c, h1, h2⟩ := C31_bddCardinality_partial _ (universal_wf 3 4) rfl (by decide) _ (seqSched_ok _) 9 (by decide) (by decide)
  rw [h2, h1.unique]
  exact (vec_count 2 9).congr fun l => ⟨fun h => ⟨h, (C36_universal 3 4).2.2.1 _⟩, fun h => h.1⟩

/-- a diagram with skipped levels: counts by computation -/
example : (dupDd.zddCardinality (seqSched dupDd)).isSome = true ∧ (dupDd.bddCardinality 60 (seqSched dupDd)).isSome = true := by
  decide +kernel

end TdZdd
