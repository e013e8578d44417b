import Verif.CnfLabelProofs
import Verif.Props.CnfZtdd
import Verif.Props.Dump

/-!
# Property C107: the labels of `CnfToZtdd`
-/

namespace TdZdd.Cnf

/-- C107: `printState` ends and reads only existing clauses and literals, and writes in parentheses what is left of each clause: for the clauses `beg`, …, `end - 1` the literals from `pos` on. -/
theorem _root_.TdZdd.C107_text (nv : Nat) (cs : List Clause) (h : Over nv cs) {n : Nat} (hn : 0 < n) {s : ZSt} (hs : Reach (zSpec nv (prepare cs)) (n : Int) s) :
    label (prepare cs) s = some (((((prepare cs).drop s.beg).take (s.fin - s.beg)).map fun c =>
      ['('] ++ [' '].intercalate ((c.drop s.pos).map fun x => (toString x).toList) ++ [')']).flatten) := by
  rw [label_eq (zReach (prepare_spec h).1 hn hs).inside]
  congr 1
  have hsp : ∀ (l : Clause), spaced false l = [' '].intercalate (l.map fun x => (toString x).toList) := by
    have ht : ∀ (l : Clause) (x : Int), spaced false (x :: l) = [' '].intercalate ((x :: l).map fun x => (toString x).toList) := by
      intro l
      induction l with
      | nil => intro x; simp [spaced, Lab.number, List.intercalate]
      | cons y l ih =>
        intro x
        have e : spaced false (x :: y :: l) = Lab.number x ++ ([' '] ++ spaced false (y :: l)) := by simp [spaced]
        rw [e, ih y]
        simp [List.intercalate, Lab.number]
    intro l
    cases l with
    | nil => simp [spaced, List.intercalate]
    | cons x l => exact ht l x
  unfold written ZSt.rest ZSt.rng
  rw [List.flatMap_def, List.map_map]
  congr 1
  apply List.map_congr_left
  intro c _
  show ['('] ++ spaced false (c.drop s.pos) ++ [')'] = _
  rw [hsp]

/-- C107: two nodes' states have the same text if and only if they are equal for `operator==`, even if they stand for different parts of the list of clauses. -/
theorem _root_.TdZdd.C107_equal (nv : Nat) (cs : List Clause) (h : Over nv cs) {n m : Nat} (hn : 0 < n) (hm : 0 < m) {s t : ZSt} (hs : Reach (zSpec nv (prepare cs)) (n : Int) s)
    (ht : Reach (zSpec nv (prepare cs)) (m : Int) t) : label (prepare cs) s = label (prepare cs) t ↔ sameState (prepare cs) s t = true := by
  have i := zReach (prepare_spec h).1 hn hs
  have j := zReach (prepare_spec h).1 hm ht
  rw [label_eq i.inside, label_eq j.inside, same_iff i.inside j.inside i.pos j.pos]
  exact ⟨fun e => written_inj (Option.some.inj e), fun e => by rw [e]⟩

/-- C107: two nodes of a level of the picture have different labels. -/
theorem _root_.TdZdd.C107_picture (nv : Nat) (cs : List Clause) (h : Over nv cs) (title : String) (ls : List (Dot.Line 3 ZSt)) (hd : Dot.dump (zSpec nv (prepare cs)) title = some ls)
    (h0 : 0 < (zSpec nv (prepare cs)).root.1) {f g : NodeId} {s s' : ZSt} (hf : .node f s ∈ ls) (hg : .node g s' ∈ ls) (hr : f.row = g.row) (hpos : 0 < f.row)
    (e : label (prepare cs) s = label (prepare cs) s') : f = g := by
  have hl := (C75_clauses nv cs h).1
  have hN := C91_names _ hl.lawful title ls hd h0
  have r1 := (hN.2.2.2.2.2.2 f s hf).1
  have r2 := (hN.2.2.2.2.2.2 g s' hg).1
  have es := (C107_equal nv cs h (by omega) hpos r2 r1).1 e.symm
  obtain ⟨f0, t0, _, _, _, hu⟩ := C91_nodes _ hl (fun _ _ => rfl) title ls hd f.row hpos s r1
  rw [hu f s rfl hf (hl.refl hpos r1), hu g s' hr.symm hg es]

/-! Examples -/

/-- the labels of the root and of the node for the clauses with the literal -1 -/
example : Reach (zSpec 4 (prepare four)) (4 : Nat) ⟨0, 4, 0⟩ ∧ label (prepare four) ⟨0, 4, 0⟩ = some "(2 4)(-1)(-1 3)(1 2 -4)".toList ∧
    Reach (zSpec 4 (prepare four)) (2 : Nat) ⟨1, 3, 1⟩ ∧ label (prepare four) ⟨1, 3, 1⟩ = some "()(3)".toList := by
  have h0 : Reach (zSpec 4 (prepare four)) (4 : Nat) ⟨0, 4, 0⟩ := by
    have h := Reach.root (sp := zSpec 4 (prepare four))
    rw [show (zSpec 4 (prepare four)).root = (4, ⟨0, 4, 0⟩) by decide +kernel] at h
    exact h
  refine ⟨h0, by decide +kernel, ?_, by decide +kernel⟩
  have h := Reach.step (1 : Fin 3) (by decide) h0
  rw [show (zSpec 4 (prepare four)).child ⟨0, 4, 0⟩ 4 1 = (2, ⟨1, 3, 1⟩) by decide +kernel] at h
  exact h

/-- states for different parts of the list that are equal, with the same text -/
example : let cnf := prepare [[1, 3], [-1, 3], [1, 2], [-1, 2]]
    Reach (zSpec 3 cnf) (2 : Nat) ⟨0, 2, 1⟩ ∧ Reach (zSpec 3 cnf) (2 : Nat) ⟨2, 4, 1⟩ ∧ label cnf ⟨0, 2, 1⟩ = some "(3)(2)".toList ∧ label cnf ⟨2, 4, 1⟩ = some "(3)(2)".toList := by
  intro cnf
  have h0 : Reach (zSpec 3 cnf) (3 : Nat) ⟨0, 4, 0⟩ := by
    have h := Reach.root (sp := zSpec 3 cnf)
    rw [show (zSpec 3 cnf).root = (3, ⟨0, 4, 0⟩) by decide +kernel] at h
    exact h
  refine ⟨?_, ?_, by decide +kernel, by decide +kernel⟩
  · have h := Reach.step (1 : Fin 3) (by decide) h0
    rw [show (zSpec 3 cnf).child ⟨0, 4, 0⟩ 3 1 = (2, ⟨0, 2, 1⟩) by decide +kernel] at h
    exact h
  · have h := Reach.step (2 : Fin 3) (by decide) h0
    rw [show (zSpec 3 cnf).child ⟨0, 4, 0⟩ 3 2 = (2, ⟨2, 4, 1⟩) by decide +kernel] at h
    exact h

end TdZdd.Cnf
