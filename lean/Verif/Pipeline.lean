import Verif.Props.Subset
import Verif.Props.Builder
import Verif.Props.Reducer

/-! Families of structures made by sequences of building, subsetting and reduction. -/

namespace TdZdd

variable {N : Nat} {S : Type}

/-- a well-formed structure with at most `n` levels that represents the family `F` over the levels `1..n` -/
structure Has (n : Nat) (F : Asg (N + 1) → Prop) (D : Dd (N + 1)) : Prop where
  wf : D.Wf
  le : D.root.row ≤ n
  mem : ∀ a, ZddMem D.spec n a ↔ F a

theorem has_build {sp : DdSpec (N + 1) S} {n : Nat} {F : Asg (N + 1) → Prop} (hl : Lawful sp) (hm : NoMerge sp) (hn : sp.root.1 ≤ n) (hF : ∀ a, ZddMem sp n a ↔ F a) : ∃ D, build sp = some D ∧ Has n F D := by
  obtain ⟨D, lab, h1, h2, _⟩ := build_main hl
  refine ⟨D, h1, h2.wf hl.toDesc, ?_, fun a => ?_⟩
  · have := h2.root_row; omega
  · rw [← hF]; exact zddMem_congr (fun p => ⟨h2.sub, h2.sup hm⟩) n a

theorem Has.reduce {D : Dd (N + 1)} {n : Nat} {F : Asg (N + 1) → Prop} (h : Has n F D) : ∃ D', D.zddReduce = some D' ∧ Has n F D' := by
  obtain ⟨D', e, hr⟩ := zddReduce_spec h.wf
  exact ⟨D', e, hr.wf h.wf, Nat.le_trans (hr.root_row h.wf) h.le, fun a => (hr.zddMem h.wf n h.le a).trans (h.mem a)⟩

theorem Has.subset {D : Dd (N + 1)} {sp : DdSpec (N + 1) S} {n : Nat} {F G : Asg (N + 1) → Prop} (h : Has n F D) (shared : Bool) (hl : Lawful sp) (hm : NoMerge sp) (hn : sp.root.1 ≤ n) (hG : ∀ a, F a → (ZddMem sp n a ↔ G a)) :
    ∃ D', zddSubset D sp shared = some D' ∧ Has n (fun a => F a ∧ G a) D' := by
  obtain ⟨rt, D', lab, _, hrt, h1, h2, _⟩ := zddSubset_main h.wf hl shared
  have hpl := prod_lawful h.wf hl hrt
  have hroot := Dd.root_row h.wf
  have hle := h.le
  refine ⟨D', h1, h2.wf hpl.toDesc, ?_, fun a => ?_⟩
  · have h3 : D'.root.row ≤ rt.1.toNat := h2.root_row
    have h4 := hrt.le1
    by_cases h0 : rt.1 = 0
    · rw [h0] at h3; exact Nat.le_trans h3 (Nat.zero_le _)
    · have := h4 h0; omega
  · have hpm : NoMerge (prodSpec D.table rt sp) := fun s t => hm s.2 t.2
    have : ZddMem D'.spec n a ↔ ZddMem D.spec n a ∧ ZddMem sp n a := by
      rw [← prod_mem h.wf hl.toDesc hrt (by omega) hn]
      exact zddMem_congr (fun p => ⟨h2.sub, h2.sup hpm⟩) n a
    rw [this, h.mem]
    exact ⟨fun ⟨h1, h2⟩ => ⟨h1, (hG a h1).1 h2⟩, fun ⟨h1, h2⟩ => ⟨h1, (hG a h1).2 h2⟩⟩

theorem Has.congr {D : Dd (N + 1)} {n : Nat} {F G : Asg (N + 1) → Prop} (h : Has n F D) (e : ∀ a, F a ↔ G a) : Has n G D := ⟨h.wf, h.le, fun a => (h.mem a).trans (e a)⟩

end TdZdd
