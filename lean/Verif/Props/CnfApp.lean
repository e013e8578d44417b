import Verif.CnfAppProofs
import Verif.Props.Builder

/-!
# Property C76: the application `cnf2ztdd2bdd`

`Sat u cs` says that the truth assignment `u` satisfies the clauses `cs`. `Kinds cs ds` says that `ds` has one clause for each set of literals in `cs` that is no tautology. `modelText x` is the line with the signs and numbers of the variables.
-/

namespace TdZdd

namespace Cnf

theorem run_main (hash : Cudd → Nat) (nv : Nat) (cs : List Clause) (h : Over nv cs) :
    ∃ (f : Cudd) (zdd : Dd 2), zdd.Wf ∧ zdd.root.row ≤ nv ∧ (∀ u, f.eval u = true ↔ Sat (fun v => u (nv + 1 - v)) cs) ∧
      (∀ a : Asg 2, ZddMem zdd.spec nv a ↔ Sat (fun v => decide ((a (nv + 1 - v)).val ≠ 0)) cs) ∧
      ∀ fuel steps, run hash nv cs fuel steps = (zdd.iterate fuel steps).bind fun sets => some (toString (prepare cs).length, f, sets.flatMap (outputLine nv)) := by
  obtain ⟨h1, h2, h3⟩ := C75_clauses nv cs h
  obtain ⟨D, lab, e1, s1, s2, s3, _⟩ := build_main h1.lawful
  have hD : Has nv (fun a => ∃ c ∈ cs, Codes nv a c) D := by
    obtain ⟨D1, e, hD⟩ := has_build h1.lawful (fun _ _ => rfl) h2 h3
    rw [e1] at e
    cases e
    exact hD
  obtain ⟨D', e2, r⟩ := zddReduce_spec hD.wf
  have hD' : Has nv (fun a => ∃ c ∈ cs, Codes nv a c) D' := by
    obtain ⟨D1, e, hD⟩ := hD.reduce
    rw [e2] at e
    cases e
    exact hD
  have hr : 0 < D'.table.numRows := by rw [r.1, s2]; omega
  have h0 : D'.table.row 0 = terminalRow 3 := r.2.1
  obtain ⟨f, e4, hb, hf⟩ := evaluate_sat h hD' h0 hr
  obtain ⟨c, hc, e3⟩ := C30_zddCardinality D' hD'.wf h0 hr (seqSched D') (seqSched_ok D') nv hD'.le
  have ec : c = (prepare cs).length := by
    refine HasCount.unique hc ((count_clauses h).congr fun l => ?_)
    rw [hD'.mem]
  subst ec
  obtain ⟨b1, b2, b3⟩ := Cudd.spec_main (hash := hash) hb
  obtain ⟨B, lab', e5, t1, _⟩ := build_main b1.lawful
  have wB := t1.wf b1.lawful.toDesc
  obtain ⟨Z, e6, wZ, rZ, mZ⟩ := C24_bdd2zdd B wB nv (by have := t1.root_row; omega)
  refine ⟨f, Z, wZ, rZ, hf, fun a => ?_, fun fuel steps => ?_⟩
  · rw [mZ, bddSat_congr (fun p => ⟨t1.sub, t1.sup (fun _ _ => rfl)⟩) a, b3, hf]
  · unfold run runSorted
    rw [e1]
    show (D.zddReduce).bind _ = _
    rw [e2]
    show (D'.zddCardinality (seqSched D')).bind _ = _
    rw [e3]
    show (D'.evaluate ztddToCudd (seqSched D')).bind _ = _
    rw [e4]
    show (build (f.spec hash)).bind _ = _
    rw [e5]
    show (bdd2zdd B nv).bind _ = _
    rw [e6]
    rfl

theorem asgOf_val {t : List Nat} {l : Nat} : decide ((asgOf t l).val ≠ 0) = decide (l ∈ t) := by
  unfold asgOf
  by_cases m : l ∈ t
  · rw [if_pos m, decide_eq_true m]; rfl
  · rw [if_neg m, decide_eq_false m]; rfl

/-- C76: for every list of clauses over the variables `1..nv`, the application `cnf2ztdd2bdd` ends. It prints the number of the different clauses that are no tautologies. Its BDD is true for exactly the truth assignments that satisfy all clauses, and its
output file has one line for each of them: no assignment is missing, and none is given twice. -/
theorem _root_.TdZdd.C76_app (hash : Cudd → Nat) (nv : Nat) (cs : List Clause) (h : Over nv cs) :
    (∃ fuel steps r, run hash nv cs fuel steps = some r) ∧
    ∀ fuel steps card f text, run hash nv cs fuel steps = some (card, f, text) →
      (∃ ds, Kinds cs ds ∧ card = toString ds.length) ∧
      (∀ u, f.eval u = true ↔ Sat (fun v => u (nv + 1 - v)) cs) ∧
      ∃ L : List (List Bool), L.Nodup ∧ (∀ x, x ∈ L ↔ x.length = nv ∧ Sat (truth x) cs) ∧ text = L.flatMap modelText := by
  obtain ⟨f, Z, wZ, rZ, hf, mZ, hrun⟩ := run_main hash nv cs h
  obtain ⟨⟨fuel, steps, L, e⟩, hL⟩ := C33_iteration Z wZ
  refine ⟨⟨fuel, steps, _, by rw [hrun, e]; rfl⟩, ?_⟩
  intro fuel steps card f' text er
  rw [hrun] at er
  obtain ⟨L, e, er⟩ := Option.bind_eq_some_iff.1 er
  cases er
  obtain ⟨l1, l2, l3⟩ := hL fuel steps L e
  refine ⟨⟨_, prepare_kinds h, rfl⟩, hf, L.map (truths nv), ?_, fun x => ?_, ?_⟩
  · refine List.pairwise_map.2 (l1.imp_of_mem ?_)
    intro s t hs ht hst et
    refine hst (desc_ext (l2 s hs).1 (l2 t ht).1 fun i => ?_)
    have key : ∀ i, 1 ≤ i → i ≤ nv → (i ∈ s ↔ i ∈ t) := by
      intro i i1 i2
      have a1 := truth_at (nv := nv) (t := s) (v := nv + 1 - i) (by omega) (by omega)
      have a2 := truth_at (nv := nv) (t := t) (v := nv + 1 - i) (by omega) (by omega)
      rw [et, a2, show nv + 1 - (nv + 1 - i) = i by omega] at a1
      rw [← decide_eq_true_iff (p := i ∈ s), ← a1, decide_eq_true_iff]
    constructor
    · intro hi
      have := (l2 s hs).2 i hi
      exact (key i this.1 (by omega)).1 hi
    · intro hi
      have := (l2 t ht).2 i hi
      exact (key i this.1 (by omega)).2 hi
  · rw [List.mem_map]
    constructor
    · rintro ⟨t, ht, rfl⟩
      refine ⟨truths_length, ?_⟩
      have hb : ∀ i ∈ t, 1 ≤ i ∧ i ≤ nv := fun i hi => ⟨((l2 t ht).2 i hi).1, Nat.le_trans ((l2 t ht).2 i hi).2 rZ⟩
      have := (mZ _).1 ((l3 nv rZ t (l2 t ht).1 hb).1 ht)
      refine sat_congr h (fun v v1 v2 => ?_) this
      rw [truth_at v1 v2, asgOf_val]
    · rintro ⟨hx, hs⟩
      refine ⟨levels nv x, ?_, truths_levels hx⟩
      refine (l3 nv rZ _ levels_sorted fun i hi => ⟨(mem_levels.1 hi).1, (mem_levels.1 hi).2.1⟩).2 ((mZ _).2 ?_)
      refine sat_congr h (fun v v1 v2 => ?_) hs
      rw [asgOf_val, ← truth_at v1 v2, truths_levels hx]
  · rw [List.flatMap_map]
    exact flatMap_ext fun t _ => outputLine_eq

/-! ## Examples -/

/-- two clauses over three variables, with a tautology and a repetition -/
def small : List Clause := [[1, -3], [2], [-3, 1, 1], [3, -3]]

example : Over 3 small := by decide

/-- the three truth assignments that satisfy the clauses -/
example : (run (fun _ => 0) 3 small 20 20).map (fun r => (r.1, String.ofList r.2.2)) = some ("2", "-1 +2 -3\n+1 +2 -3\n+1 +2 +3\n") := by decide +kernel

end Cnf

end TdZdd
