import Verif.CnfLabel
import Verif.StateTextProofs
import Verif.CnfZtddProofs3

/-! Proofs about the labels of `CnfToZtdd`. -/

namespace TdZdd.Cnf

open Lab (number number_delim Sep)

/-- the literals with a blank before each but possibly the first -/
def spaced : Bool → Clause → List Char
  | _, [] => []
  | b, x :: l => (if b then [' '] else []) ++ number x ++ spaced true l

/-- the clauses in parentheses -/
def written (R : List Clause) : List Char := R.flatMap fun c => ['('] ++ spaced false c ++ [')']

theorem litLoop_eq {c : Clause} {pos : Nat} : ∀ (k i : Nat), i + k = c.length → pos ≤ i → litLoop c pos k i = some (spaced (decide (i ≠ pos)) (c.drop i)) := by
  intro k
  induction k with
  | zero =>
    intro i hi _
    rw [List.drop_eq_nil_of_le (by omega)]
    rfl
  | succ k ih =>
    intro i hi hp
    have hlt : i < c.length := by omega
    rw [List.drop_eq_getElem_cons hlt]
    unfold litLoop
    rw [List.getElem?_eq_getElem hlt, Option.bind_some, ih (i + 1) (by omega) (by omega)]
    rw [show decide (i + 1 ≠ pos) = true from decide_eq_true (by omega)]
    by_cases e : i = pos
    · subst e
      simp [spaced]
    · simp [spaced, e]

theorem litLoop_rest (c : Clause) (pos : Nat) : litLoop c pos (c.length - pos) pos = some (spaced false (c.drop pos)) := by
  by_cases h : pos ≤ c.length
  · rw [litLoop_eq _ _ (by omega) (Nat.le_refl _)]
    simp
  · rw [show c.length - pos = 0 by omega, List.drop_eq_nil_of_le (by omega)]
    rfl

theorem clauseLoop_eq {cnf : List Clause} {pos : Nat} : ∀ (k p : Nat), p + k ≤ cnf.length → clauseLoop cnf pos k p = some (written (((cnf.drop p).take k).map (·.drop pos))) := by
  intro k
  induction k with
  | zero => intro p _; rw [List.take_zero]; rfl
  | succ k ih =>
    intro p hp
    have hlt : p < cnf.length := by omega
    rw [List.drop_eq_getElem_cons hlt, List.take_succ_cons, List.map_cons]
    unfold clauseLoop
    rw [List.getElem?_eq_getElem hlt, Option.bind_some, litLoop_rest, Option.bind_some, ih (p + 1) (by omega)]
    simp [written]

theorem label_eq {cnf : List Clause} {s : ZSt} (h : Inside cnf s) : label cnf s = some (written (s.rest cnf)) := by
  have h1 := h.le
  have h2 := h.fin
  unfold label
  rw [if_pos h1, clauseLoop_eq _ _ (by omega)]
  rfl

theorem spaced_sep (l : Clause) (r : List Char) : Sep (spaced true l ++ ')' :: r) := by
  cases l with
  | nil => exact Sep.cons (by decide)
  | cons x l => exact Sep.cons (by decide)

theorem spaced_cut : ∀ (l l' : Clause) (b : Bool) {r r' : List Char}, spaced b l ++ ')' :: r = spaced b l' ++ ')' :: r' → l = l' ∧ r = r' := by
  have first : ∀ (x : Int) (l : Clause) (b : Bool) (r r' : List Char), spaced b (x :: l) ++ ')' :: r ≠ ')' :: r' := by
    intro x l b r r' e
    unfold spaced at e
    cases b with
    | true => exact absurd (List.cons.inj e).1 (by decide)
    | false =>
      cases hx : number x with
      | nil => exact absurd hx (SetText.number_ne_nil x)
      | cons c w =>
        have hc := Lab.number_all x c (by rw [hx]; exact List.mem_cons_self ..)
        rw [hx] at e
        have e1 : c = ')' := (List.cons.inj e).1
        subst e1
        exact absurd hc (by decide)
  intro l
  induction l with
  | nil =>
    intro l' b r r' e
    cases l' with
    | nil => exact ⟨rfl, (List.cons.inj e).2⟩
    | cons x l' => exact absurd e.symm (first x l' b r' r)
  | cons x l ih =>
    intro l' b r r' e
    cases l' with
    | nil => exact absurd e (first x l b r r')
    | cons y l' =>
      have hu : ∀ (x : Int) (l : Clause), spaced b (x :: l) = (if b then [' '] else []) ++ number x ++ spaced true l := fun _ _ => rfl
      rw [hu, hu, List.append_assoc, List.append_assoc, List.append_assoc, List.append_assoc] at e
      obtain ⟨e1, e2⟩ := number_delim (spaced_sep l r) (spaced_sep l' r') (List.append_cancel_left e)
      obtain ⟨e3, e4⟩ := ih l' true e2
      exact ⟨by rw [e1, e3], e4⟩

theorem written_inj : ∀ {R R' : List Clause}, written R = written R' → R = R' := by
  intro R
  induction R with
  | nil =>
    intro R' e
    cases R' with
    | nil => rfl
    | cons c R' => cases e
  | cons c R ih =>
    intro R' e
    cases R' with
    | nil => cases e
    | cons d R' =>
      have hu : ∀ (c : Clause) (R : List Clause), written (c :: R) = '(' :: (spaced false c ++ ')' :: written R) := by
        intro c R
        simp [written]
      rw [hu, hu] at e
      obtain ⟨e1, e2⟩ := spaced_cut _ _ _ (List.cons.inj e).2
      rw [e1, ih e2]

theorem zReach {nv : Nat} {cnf : List Clause} (h : Sorted nv 1 cnf) {n : Nat} {s : ZSt} (hn : 0 < n) (hr : Reach (zSpec nv cnf) (n : Int) s) : Inv nv cnf n s := by
  obtain ⟨s0, hroot, hs⟩ := getRoot_eq h
  rcases code_cases h (Nat.le_refl _) with ⟨e, c⟩ | ⟨e, c⟩ | ⟨k, k1, k2, c, k3, k4⟩
  · exact absurd hr ((desc_const (sp := zSpec nv cnf) (by rw [hroot, c]; show (-1 : Int) ≤ 0; decide) (by rw [hroot, c]; exact Int.le_refl 0)).2 n s hn)
  · exact absurd hr ((desc_const (sp := zSpec nv cnf) (by rw [hroot, c]; exact Int.le_refl (-1)) (by rw [hroot, c]; show (-1 : Int) ≤ 0; decide)).2 n s hn)
  · have hs := hs (by omega)
    subst hs
    have hI : Inv nv cnf k ⟨0, cnf.length, 0⟩ := by
      refine ⟨⟨Nat.zero_le _, Nat.le_refl _⟩, k3, ?_, fun _ _ => Nat.zero_le _, ?_⟩
      · rw [rest_all]; exact h.raise k3 k4
      · rw [rest_all]; exact c
    rw [c] at hroot
    refine reach_inv hroot hI ?_ hr n hn rfl
    intro n s b j hn hj hI e
    rcases step n s b hn hI with ⟨h, _⟩ | ⟨h, _⟩ | ⟨k', h0, h, hk', h', _⟩
    · omega
    · omega
    · obtain rfl : j = k' := by omega
      exact h'

end TdZdd.Cnf
