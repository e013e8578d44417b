import Verif.NumlinLabelProofs
import Verif.Props.Numlin
import Verif.Props.NumlinTidy
import Verif.Props.Dump

/-!
# Property C106: the labels of the number link specifications
-/

namespace TdZdd.Nl

variable {q : Board}

/-- C106: `printState` of `DegreeZdd` stays within the array, and the text determines the state, for all reachable states. -/
theorem _root_.TdZdd.C106_degree (hq : q.Ok) {c c' : Int} {s s' : List Nat} (h : Reach (degreeZdd q) c s) (h' : Reach (degreeZdd q) c' s') :
    (∃ w, Degree.label q s = some w) ∧ (Degree.label q s = Degree.label q s' ↔ s = s') :=
  have g := degree_label (degree_reach hq h) (degree_reach hq h')
  ⟨g.1, g.2, fun e => by rw [e]⟩

/-- C106: the same for `NumlinZdd`. -/
theorem _root_.TdZdd.C106_numlin (hq : q.Ok) {mb c c' : Int} {s s' : Numlin.St} (h : Reach (numlinZdd q mb) c s) (h' : Reach (numlinZdd q mb) c' s') :
    (∃ w, Numlin.label q s = some w) ∧ (Numlin.label q s = Numlin.label q s' ↔ s = s') :=
  have g := numlin_label hq.cols_pos (numlin_reach hq h) (numlin_reach hq h')
  ⟨g.1, g.2, fun e => by rw [e]⟩

/-- C106: the same for `ConstraintZdd`, although the mark for a line to the south hides whether the box is used. -/
theorem _root_.TdZdd.C106_constraint {c c' : Int} {s s' : Constraint.St} (h : Reach (constraintZdd q) c s) (h' : Reach (constraintZdd q) c' s') :
    (∃ w, Constraint.label q s = some w) ∧ (Constraint.label q s = Constraint.label q s' ↔ s = s') :=
  have i := constraint_reach h
  have i' := constraint_reach h'
  have g := constraint_label i.1 i'.1 i.2 i'.2
  ⟨g.1, g.2, fun e => by rw [e]⟩

/-- for states that are not reachable the mark does hide it -/
example : Constraint.label ⟨1, 2, [[0, 0]]⟩ (false, [⟨false, true, true⟩, ⟨false, false, false⟩]) = Constraint.label ⟨1, 2, [[0, 0]]⟩ (false, [⟨false, true, false⟩, ⟨false, false, false⟩]) := by
  decide +kernel

theorem labels_of {S : Type} {sp : DdSpec 2 S} {t : S → Option (List Char)} (ht : ∀ {c c' : Int} {s s' : S}, Reach sp c s → Reach sp c' s' → t s = t s' → s = s') (hl : LawfulC sp)
    (hm : NoMerge sp) {title : String} {ls : List (Dot.Line 2 S)} (hd : Dot.dump sp title = some ls) (h0 : 0 < sp.root.1) {f g : NodeId} {s s' : S} (hf : .node f s ∈ ls)
    (hg : .node g s' ∈ ls) (hr : f.row = g.row) (hpos : 0 < f.row) (e : t s = t s') : f = g := by
  have hN := C91_names sp hl.lawful title ls hd h0
  have r1 := (hN.2.2.2.2.2.2 f s hf).1
  have r2 := (hN.2.2.2.2.2.2 g s' hg).1
  have es := ht r1 r2 e
  subst es
  obtain ⟨f0, t0, _, _, _, hu⟩ := C91_nodes sp hl hm title ls hd f.row hpos s r1
  have hrefl := hl.refl hpos r1
  rw [hu f s rfl hf hrefl, hu g s hr.symm hg hrefl]

theorem top_pos (hq : q.Ok) (hn : 2 ≤ q.cols) : 0 < q.top := Nat.mul_pos hq.rows_pos (by omega)

theorem rootOf_pos {S : Type} (hq : q.Ok) (hn : 2 ≤ q.cols) {d : S} {r : Option S} (h : -1 ≤ (rootOf q d r).1) : 0 < (rootOf q d r).1 := by
  have := top_pos hq hn
  cases r with
  | none => exact absurd h (by show ¬ (-1 : Int) ≤ -2; decide)
  | some s => show (0 : Int) < (q.top : Int); omega

/-- C106: in the pictures of the three diagrams two nodes of a level have different labels. -/
theorem _root_.TdZdd.C106_pictures (hq : q.Ok) (hn : 2 ≤ q.cols) (title : String) :
    (∀ ls, Dot.dump (degreeZdd q) title = some ls → ∀ (f g : NodeId) (s s' : List Nat), .node f s ∈ ls → .node g s' ∈ ls → f.row = g.row → 0 < f.row →
      Degree.label q s = Degree.label q s' → f = g) ∧
    (∀ mb : Int, mb ≤ 65535 → (∀ i j, i < q.rows → j < q.cols → q.cols + q.num (i, j) ≤ 255) → ∀ ls, Dot.dump (numlinZdd q mb) title = some ls →
      ∀ (f g : NodeId) (s s' : Numlin.St), .node f s ∈ ls → .node g s' ∈ ls → f.row = g.row → 0 < f.row → Numlin.label q s = Numlin.label q s' → f = g) ∧
    (∀ ls, Dot.dump (constraintZdd q) title = some ls → ∀ (f g : NodeId) (s s' : Constraint.St), .node f s ∈ ls → .node g s' ∈ ls → f.row = g.row → 0 < f.row →
      Constraint.label q s = Constraint.label q s' → f = g) := by
  refine ⟨fun ls hd f g s s' h1 h2 h3 h4 e => ?_, fun mb hmb hs ls hd f g s s' h1 h2 h3 h4 e => ?_, fun ls hd f g s s' h1 h2 h3 h4 e => ?_⟩
  · exact labels_of (fun h h' e => (C106_degree hq h h').2.1 e) (C68_lawful hq hn) (fun _ _ => rfl) hd (rootOf_pos hq hn (C68_lawful hq hn).root_ge) h1 h2 h3 h4 e
  · exact labels_of (fun h h' e => (C106_numlin hq h h').2.1 e) (C69_lawful hq hn hs hmb) (fun _ _ => rfl) hd (rootOf_pos hq hn (C69_lawful hq hn hs hmb).root_ge) h1 h2 h3 h4 e
  · have h0 : 0 < (constraintZdd q).root.1 := by
      have := top_pos hq hn
      show (0 : Int) < (q.top : Int)
      omega
    exact labels_of (fun h h' e => (C106_constraint h h').2.1 e) (C70_lawful hq hn) (fun _ _ => rfl) hd h0 h1 h2 h3 h4 e

/-! Examples -/

/-- the root of `NumlinZdd` and a node below it, with their labels -/
example : Reach (numlinZdd board3 (-1)) 6 (0, [4, 1, 2]) ∧ Reach (numlinZdd board3 (-1)) 5 (0, [0, 4, 2]) ∧ Numlin.label board3 (0, [4, 1, 2]) = some "[4](0) . (0) . (0)".toList ∧
    Numlin.label board3 (0, [0, 4, 2]) = some " . (0)[4](0) . (0)".toList := by
  have h0 : Reach (numlinZdd board3 (-1)) (6 : Nat) (0, [4, 1, 2]) := Reach.root
  exact ⟨h0, Reach.step 1 (by decide) h0, by decide +kernel, by decide +kernel⟩

/-- a degree that happens to be the number of its column is shown as a dot, here in columns 0 and 1 -/
example : Degree.label board3 [0, 1, 1] = some " .  .  1 ".toList ∧ Degree.label board3 [1, 0, 2] = some " 1  0  . ".toList := by decide +kernel

example : Reach (degreeZdd board3) 6 [1, 0, 0] ∧ board3.Ok ∧ Degree.label board3 [1, 0, 0] = some " 1  0  0 ".toList := ⟨Reach.root, board3_ok, by decide +kernel⟩

example : Reach (constraintZdd board3) 5 (false, [⟨true, false, true⟩, ⟨false, false, false⟩, ⟨false, false, false⟩]) ∧
    Constraint.label board3 (true, [⟨true, true, true⟩, ⟨false, false, true⟩, ⟨false, false, false⟩]) = some "|-*.O. ┌".toList := by
  have h0 : Reach (constraintZdd board3) (6 : Nat) (false, [⟨false, false, false⟩, ⟨false, false, false⟩, ⟨false, false, false⟩]) := Reach.root
  exact ⟨Reach.step 1 (by decide) h0, by decide +kernel⟩

end TdZdd.Nl
