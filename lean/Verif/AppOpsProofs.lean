import Verif.AppOps
import Verif.Pipeline
import Verif.Props.BuilderMP
import Verif.Props.ReducerMP

/-! Families of structures made by sequences of building, subsetting and reduction, sequential or parallel. -/

namespace TdZdd

variable {S : Type}

/-- the structure represents the family `F` over the levels `1..n` and can be evaluated -/
structure DdS.Is (n : Nat) (F : Asg 2 → Prop) (f : DdS) : Prop extends Has n F f.dd where
  row0 : f.dd.table.row 0 = terminalRow 2
  rows : 0 < f.dd.table.numRows

/-- no node has a 1-branch to the 0-terminal, no two nodes of a level are equal -/
structure DdS.Reduced (f : DdS) : Prop where
  keep : ∀ p nd, 0 < p.row → f.dd.table.node? p = some nd → nd 1 ≠ .zero
  uniq : ∀ p q nd, 0 < p.row → p.row = q.row → f.dd.table.node? p = some nd → f.dd.table.node? q = some nd → p = q

theorem DdS.Is.congr {f : DdS} {n : Nat} {F G : Asg 2 → Prop} (h : f.Is n F) (e : ∀ a, F a ↔ G a) : f.Is n G := ⟨h.toHas.congr e, h.row0, h.rows⟩

theorem DdS.all_is (n : Nat) : (DdS.all n).Is n fun _ => True := by
  have h := C36_universal 2 n
  have hr : (universal 2 n).root.row ≤ n := by
    rw [universal_root]
    split
    · exact Nat.zero_le _
    · exact Nat.le_refl _
  refine ⟨⟨h.1, hr, fun a => ⟨fun _ => trivial, fun _ => h.2.2.2 a⟩⟩, ?_, Nat.succ_pos n⟩
  show ((List.range n).foldl universalStep _).1 0 = _
  rw [universal_fold]
  rfl

theorem Par.make_is {e : Par} {n : Nat} (he : e.Ok n) (k : Nat) {sp : DdSpec 2 S} (mp : Bool) {F : Asg 2 → Prop} (hl : Lawful sp) (hm : NoMerge sp) (hn : sp.root.1 ≤ n) (hF : ∀ a, ZddMem sp n a ↔ F a) :
    ∃ f, e.make k sp mp = some f ∧ f.mp = mp ∧ f.Is n F := by
  have key : ∀ {D : Dd 2} {lab : NodeId → Option S}, Sim sp D lab → D.table.numRows = sp.root.1.toNat + 1 → D.table.row 0 = terminalRow 2 → DdS.Is n F ⟨D, mp⟩ := by
    intro D lab h2 h3 h4
    refine ⟨⟨h2.wf hl.toDesc, ?_, fun a => ?_⟩, h4, by show 0 < D.table.numRows; omega⟩
    · have : D.root.row ≤ _ := h2.root_row
      show D.root.row ≤ n
      omega
    · rw [← hF]; exact zddMem_congr (fun p => ⟨h2.sub, h2.sup hm⟩) n a
  unfold Par.make
  cases mp with
  | false =>
    obtain ⟨D, lab, h1, h2, h3, h4, _⟩ := build_main hl
    exact ⟨⟨D, false⟩, by simp [h1], rfl, key h2 h3 h4⟩
  | true =>
    obtain ⟨D, lab, h1, h2, h3, h4, _⟩ := buildMP_main hl hm he.threads he.buildTasks (he.build k S)
    exact ⟨⟨D, true⟩, by simp [h1], rfl, key h2 h3 h4⟩

theorem Par.subset_is {e : Par} {n : Nat} (he : e.Ok n) (k : Nat) {f : DdS} {sp : DdSpec 2 S} {F G : Asg 2 → Prop} (h : f.Is n F) (hl : Lawful sp) (hm : NoMerge sp) (hn : sp.root.1 ≤ n) (hG : ∀ a, F a → (ZddMem sp n a ↔ G a)) :
    ∃ f', e.subset k f sp = some f' ∧ f'.mp = f.mp ∧ f'.Is n fun a => F a ∧ G a := by
  have hroot := Dd.root_row h.wf
  have hle := h.le
  have hpm : ∀ rt, NoMerge (prodSpec f.dd.table rt sp) := fun rt s t => hm s.2 t.2
  have key : ∀ {rt : Int × (NodeId × S)} {D : Dd 2} {lab}, PairOk f.dd sp f.dd.spec.root sp.root rt → Sim (prodSpec f.dd.table rt sp) D lab → D.table.numRows = rt.1.toNat + 1 → D.table.row 0 = terminalRow 2 →
      DdS.Is n (fun a => F a ∧ G a) ⟨D, f.mp⟩ := by
    intro rt D lab hrt h2 h3 h4
    have hpl := prod_lawful h.wf hl hrt
    refine ⟨⟨h2.wf hpl.toDesc, ?_, fun a => ?_⟩, h4, by show 0 < D.table.numRows; omega⟩
    · have h3 : D.root.row ≤ rt.1.toNat := h2.root_row
      have h4 := hrt.le1
      show D.root.row ≤ n
      by_cases h0 : rt.1 = 0
      · rw [h0] at h3; exact Nat.le_trans h3 (Nat.zero_le _)
      · have := h4 h0; omega
    · have : ZddMem D.spec n a ↔ ZddMem f.dd.spec n a ∧ ZddMem sp n a := by
        rw [← prod_mem h.wf hl.toDesc hrt (by omega) hn]
        exact zddMem_congr (fun p => ⟨h2.sub, h2.sup (hpm rt)⟩) n a
      show ZddMem D.spec n a ↔ _
      rw [this, h.mem]
      exact ⟨fun ⟨h1, h2⟩ => ⟨h1, (hG a h1).1 h2⟩, fun ⟨h1, h2⟩ => ⟨h1, (hG a h1).2 h2⟩⟩
  unfold Par.subset
  cases hmp : f.mp with
  | false =>
    obtain ⟨rt, D, lab, _, hrt, h1, h2, h3, h4, _⟩ := zddSubset_main h.wf hl false
    rw [hmp] at key
    exact ⟨⟨D, false⟩, by simp [h1], rfl, key hrt h2 h3 h4⟩
  | true =>
    obtain ⟨rt, D, lab, _, hrt, h1, h2, h3, h4, _⟩ := zddSubsetMP_main h.wf hl hm false he.threads (he.build k (NodeId × S))
    rw [hmp] at key
    exact ⟨⟨D, true⟩, by simp [h1], rfl, key hrt h2 h3 h4⟩

theorem Par.reduce_is {e : Par} {n : Nat} (he : e.Ok n) (k : Nat) {f : DdS} {F : Asg 2 → Prop} (h : f.Is n F) : ∃ f', e.reduce k f = some f' ∧ f'.mp = f.mp ∧ f'.Is n F ∧ f'.Reduced := by
  have hle := h.le
  have key : ∀ {D : Dd 2}, IsRed delZ f.dd D → DdS.Is n F ⟨D, f.mp⟩ ∧ DdS.Reduced ⟨D, f.mp⟩ := by
    intro D hr
    have hrow := hr.root_row h.wf
    refine ⟨⟨⟨hr.wf h.wf, Nat.le_trans hrow h.le, fun a => (hr.zddMem h.wf n h.le a).trans (h.mem a)⟩, hr.2.1, ?_⟩, fun p nd h0 hn h1 => ?_, (hr.canon h.wf).uniq⟩
    · show 0 < D.table.numRows
      rw [hr.1]; exact h.rows
    · refine (hr.canon h.wf).keep h0 hn ?_
      intro b hb
      match b, hb with
      | 0, hb => exact absurd rfl hb
      | 1, _ => exact h1
  unfold Par.reduce
  cases hmp : f.mp with
  | false =>
    obtain ⟨D, h1, hr⟩ := zddReduce_spec h.wf
    rw [hmp] at key
    exact ⟨⟨D, false⟩, by simp [h1], rfl, key hr⟩
  | true =>
    obtain ⟨D, nid, h1, r1, r2, r3, r4⟩ := reduceMP_spec (bdd := false) (zdd := true) h.wf he.redTasks (by have := he.bits; omega) (he.edges k f.dd) (he.red k f.dd)
    rw [hmp] at key
    exact ⟨⟨D, true⟩, by simp [h1], rfl, key ⟨r1, r2, nid, r3.congr_del delN_zdd, r4⟩⟩

end TdZdd
