import Verif.SubsetterProofs3
import Verif.SampleDds
import Verif.RunDec
import Verif.Props.Builder

/-!
# Property C27: `zddSubset`

`zddSubset D sp shared` is the model of `dd.zddSubset(spec)` without OpenMP; `none` is undefined
behaviour or non-termination. `shared` tells whether other structures share the node table of
`dd`; if not, `derefLevel` destroys the input rows while they are processed.
-/

namespace TdZdd

variable {N : Nat} {S : Type}

/-- C27: for every well-formed structure and every lawful specification without pruning,
`zddSubset` finishes without undefined behaviour, the new structure is well-formed, and its family
over any number `m` of levels that covers both roots is the intersection of the two families. -/
theorem C27_subset (D : Dd (N + 1)) (sp : DdSpec (N + 1) S) (shared : Bool) (hw : D.Wf) (hl : Lawful sp)
    (hm : NoMerge sp) : ∃ D', zddSubset D sp shared = some D' ∧ D'.Wf ∧
      ∀ (m : Nat) (a : Asg (N + 1)), D.spec.root.1 ≤ m → sp.root.1 ≤ m →
        (ZddMem D'.spec m a ↔ ZddMem D.spec m a ∧ ZddMem sp m a) := by
  obtain ⟨rt, D', lab, _, hrt, h1, h2, _⟩ := zddSubset_main hw hl shared
  have hpl := prod_lawful hw hl hrt
  have hpm : NoMerge (prodSpec D.table rt sp) := fun s t => hm s.2 t.2
  refine ⟨D', h1, h2.wf hpl.toDesc, fun m a l1 l2 => ?_⟩
  rw [← prod_mem hw hl.toDesc hrt l1 l2]
  exact zddMem_congr (fun p => ⟨h2.sub, h2.sup hpm⟩) m a

/-- C27 with pruning: whatever `merge_states` answers, `zddSubset` is safe and the new structure
contains only common members; if there is a common member then the new structure is not empty. -/
theorem C27_pruning (D : Dd (N + 1)) (sp : DdSpec (N + 1) S) (shared : Bool) (hw : D.Wf) (hl : Lawful sp) :
    ∃ D', zddSubset D sp shared = some D' ∧ D'.Wf ∧
      (∀ (m : Nat) (a : Asg (N + 1)), D.spec.root.1 ≤ m → sp.root.1 ≤ m →
        ZddMem D'.spec m a → ZddMem D.spec m a ∧ ZddMem sp m a) ∧
      ((∃ (m : Nat) (a : Asg (N + 1)), D.spec.root.1 ≤ m ∧ sp.root.1 ≤ m ∧ ZddMem D.spec m a ∧
        ZddMem sp m a) → ∃ p, Accepts D'.spec D'.spec.root.1 D'.spec.root.2 p) := by
  obtain ⟨rt, D', lab, _, hrt, h1, h2, _, _, _, h6⟩ := zddSubset_main hw hl shared
  have hpl := prod_lawful hw hl hrt
  refine ⟨D', h1, h2.wf hpl.toDesc, ?_, ?_⟩
  · rintro m a l1 l2 ⟨p, hp, ha⟩
    rw [← prod_mem hw hl.toDesc hrt l1 l2]
    exact ⟨p, h2.sub hp, ha⟩
  · rintro ⟨m, a, l1, l2, k⟩
    rw [← prod_mem hw hl.toDesc hrt l1 l2] at k
    obtain ⟨p, hp, _⟩ := k
    exact h6 ⟨p, hp⟩

/-- C27, shape of the result: rows up to the common root level, terminals in row 0, and no node
that cannot be reached from the root. -/
theorem C27_live (D : Dd (N + 1)) (sp : DdSpec (N + 1) S) (shared : Bool) (hw : D.Wf) (hl : Lawful sp)
    (D' : Dd (N + 1)) (hD : zddSubset D sp shared = some D') :
    D'.table.row 0 = terminalRow (N + 1) ∧ D'.table.numRows ≤ D.root.row + 1 ∧
      (D'.table.numRows : Int) ≤ max (sp.root.1 + 1) 1 ∧
      ∀ f nd, 0 < f.row → D'.table.node? f = some nd → D'.Live f := by
  obtain ⟨rt, D'', lab, _, hrt, h1, _, h3, h4, h5, _⟩ := zddSubset_main hw hl shared
  cases h1.symm.trans hD
  refine ⟨h4, ?_, ?_, fun f nd hf hnd => h5 f hf (.inr (.inr ⟨hf, nd, hnd⟩))⟩
  · rw [h3]
    by_cases h0 : rt.1 = 0
    · rw [h0]; simp
    · have := hrt.le1 h0
      have h2 : D.spec.root.1 ≤ D.root.row := rootCode_le D.root
      omega
  · rw [h3]
    by_cases h0 : rt.1 = 0
    · rw [h0]; omega
    · have := hrt.le2 h0
      omega

/-! ### Examples -/

/-- {3,2}, {3,1}, {2} and the empty set over the levels 3, 2, 1; level 2 is skipped on one edge. -/
def sampleSub : Dd 2 := mkDd
  [[nd2 .zero .one], [nd2 ⟨1, 0⟩ .one, nd2 .one .one], [nd2 ⟨2, 1⟩ ⟨2, 0⟩]] ⟨3, 0⟩

theorem sampleSub_wf : sampleSub.Wf := wf_of_check (by decide +kernel)

example : ∃ D', zddSubset sampleSub imply31 false = some D' ∧ D'.Wf ∧
    ∀ (m : Nat) (a : Asg 2), sampleSub.spec.root.1 ≤ m → imply31.root.1 ≤ m →
      (ZddMem D'.spec m a ↔ ZddMem sampleSub.spec m a ∧ ZddMem imply31 m a) :=
  C27_subset _ _ _ sampleSub_wf imply31_lawful.lawful fun _ _ => rfl

/-- {3,1} is in both families, {3,2} only in the first one -/
example : ZddMem sampleSub.spec 3 (asgOf [3, 1]) ∧ ZddMem imply31 3 (asgOf [3, 1]) ∧
    ZddMem sampleSub.spec 3 (asgOf [3, 2]) ∧ ¬ ZddMem imply31 3 (asgOf [3, 2]) := by
  refine ⟨?_, ?_, ?_, ?_⟩
  · exact (zddRun_mem sampleSub_wf.desc (by decide)).1 (by decide +kernel)
  · exact (zddRun_mem imply31_lawful.toDesc (by decide)).1 (by decide +kernel)
  · exact (zddRun_mem sampleSub_wf.desc (by decide)).1 (by decide +kernel)
  · rw [← zddRun_mem imply31_lawful.toDesc (by decide)]; decide +kernel

/-- the subsetter really runs: {3,1} and the empty set remain, which takes two nodes -/
example : (zddSubset sampleSub imply31 false).map (fun D => D.table.size) = some 2 := by
  decide +kernel

/-- with pruning: of the four subsets of the levels 2, 1 only one with the least number of
elements remains -/
example : (zddSubset (universal 2 2) minTwo true).map
    (fun D => (D.root, (D.table.row 2).map fun nd => (nd 0, nd 1), (D.table.row 1).map fun nd => (nd 0, nd 1))) =
    some (⟨2, 0⟩, [(⟨1, 1⟩, ⟨1, 0⟩)], [(.zero, .zero), (.one, .zero)]) := by decide +kernel

example : ∃ D', zddSubset (universal 2 2) minTwo true = some D' ∧
    ∃ p, Accepts D'.spec D'.spec.root.1 D'.spec.root.2 p := by
  obtain ⟨D', h, _, _, h4⟩ := C27_pruning (universal 2 2) minTwo true (universal_wf 2 2) minTwo_lawful.lawful
  refine ⟨D', h, h4 ⟨2, asgOf [], by decide, by decide, ?_, ?_⟩⟩
  · exact (zddRun_mem (universal_wf 2 2).desc (by decide)).1 (by decide +kernel)
  · exact (zddRun_mem minTwo_lawful.toDesc (by decide)).1 (by decide +kernel)

/-- The restriction to the documented level codes matters: with the undocumented code -2 for the
1-terminal the loop of `initialize` violates its assertion (without assertions it never ends). -/
theorem C27_code_minus_two : ∃ sp : DdSpec 2 Unit, sp.root.1 = -2 ∧
    zddSubset (universal 2 0) sp false = none :=
  ⟨{ root := (-2, ()), child := fun _ _ _ => (0, ()), eqv := fun _ _ _ => true, hash := fun _ _ => 0,
     merge := fun _ _ => 0 }, rfl, by decide +kernel⟩

end TdZdd
