import Verif.StateText
import Verif.Props.SetText

/-! Proofs about the texts of states: a text ends where no digit and no sign follows. -/

namespace TdZdd.Lab

variable {S S1 S2 A : Type}

/-- a character of a number -/
def isNum (c : Char) : Bool := c.isDigit || c == '-'

/-- no number goes on -/
def Sep (r : List Char) : Prop := ∀ c, r.head? = some c → isNum c = false

theorem Sep.cons {c : Char} {r : List Char} (h : isNum c = false) : Sep (c :: r) := by
  intro d hd
  cases hd
  exact h

/-- the text is read back from any longer text -/
def Delim (t : S → List Char) : Prop := ∀ {s s' : S} {r r' : List Char}, Sep r → Sep r' → t s ++ r = t s' ++ r' → s = s' ∧ r = r'

theorem Delim.inj {t : S → List Char} (h : Delim t) {s s' : S} (e : t s = t s') : s = s' :=
  (h (r := []) (r' := []) (by intro c hc; cases hc) (by intro c hc; cases hc) (by rw [e])).1

theorem number_all (x : Int) : ∀ c ∈ number x, isNum c = true := by
  intro c hc
  by_cases h1 : c.isDigit = false
  · by_cases h2 : c = '-'
    · subst h2; decide
    · exact absurd hc (SetText.number_plain x h1 h2)
  · unfold isNum
    rw [Bool.not_eq_false] at h1
    rw [h1]; rfl

theorem number_inj {x y : Int} (h : number x = number y) : x = y := Int.repr_injective (String.toList_inj.1 h)

theorem cut_num : ∀ {a a' r r' : List Char}, (∀ c ∈ a, isNum c = true) → (∀ c ∈ a', isNum c = true) → Sep r → Sep r' → a ++ r = a' ++ r' → a = a' ∧ r = r' := by
  intro a
  induction a with
  | nil =>
    intro a' r r' _ h' hr _ e
    cases a' with
    | nil => exact ⟨rfl, e⟩
    | cons c a' =>
      rw [List.nil_append] at e
      subst e
      have h1 := hr c rfl
      rw [h' c (List.mem_cons_self ..)] at h1
      cases h1
  | cons c a ih =>
    intro a' r r' h h' hr hr' e
    cases a' with
    | nil =>
      rw [List.nil_append] at e
      subst e
      have h1 := hr' c rfl
      rw [h c (List.mem_cons_self ..)] at h1
      cases h1
    | cons d a' =>
      obtain ⟨e1, e2⟩ := List.cons.inj e
      obtain ⟨e3, e4⟩ := ih (fun x hx => h x (List.mem_cons_of_mem _ hx)) (fun x hx => h' x (List.mem_cons_of_mem _ hx)) hr hr' e2
      exact ⟨by rw [e1, e3], e4⟩

theorem number_delim : Delim number := by
  intro s s' r r' hr hr' e
  obtain ⟨e1, e2⟩ := cut_num (number_all s) (number_all s') hr hr' e
  exact ⟨number_inj e1, e2⟩

theorem star_delim : Delim star := by
  intro s s' r r' _ _ e
  exact ⟨rfl, (List.cons.inj e).2⟩

theorem mate_delim : Delim mate := by
  intro s s' r r' _ _ e
  unfold mate at e
  simp only [List.append_assoc, List.cons_append, List.nil_append, List.cons.injEq, true_and] at e
  obtain ⟨e1, e⟩ := number_delim (Sep.cons (by decide)) (Sep.cons (by decide)) e
  obtain ⟨e2, e⟩ := number_delim (Sep.cons (by decide)) (Sep.cons (by decide)) (List.cons.inj e).2
  exact ⟨Prod.ext e1 e2, (List.cons.inj e).2⟩

theorem binary_delim (c : Char) {t1 : S1 → List Char} {t2 : S2 → List Char} (h1 : Delim t1) (h2 : Delim t2) : Delim (binary c t1 t2) := by
  intro s s' r r' _ _ e
  unfold binary at e
  simp only [List.append_assoc, List.cons_append, List.nil_append, List.cons.injEq, true_and] at e
  obtain ⟨e1, e⟩ := number_delim (Sep.cons (by decide)) (Sep.cons (by decide)) e
  obtain ⟨e2, e⟩ := h1 (Sep.cons (by decide)) (Sep.cons (by decide)) (List.cons.inj e).2
  simp only [List.cons.injEq, true_and] at e
  obtain ⟨e3, e⟩ := number_delim (Sep.cons (by decide)) (Sep.cons (by decide)) e
  obtain ⟨e4, e⟩ := h2 (Sep.cons (by decide)) (Sep.cons (by decide)) (List.cons.inj e).2
  exact ⟨Prod.ext (Prod.ext e1 e2) (Prod.ext e3 e4), (List.cons.inj e).2⟩

theorem variadic_cut (c : Char) {t1 : S1 → List Char} {t2 : S2 → List Char} (h1 : Delim t1) (h2 : Delim t2) {s s' : BinState S1 S2} {r r' : List Char} (hr : Sep r) (hr' : Sep r')
    (e : variadic c t1 t2 s ++ r = variadic c t1 t2 s' ++ r') : s.1 = s'.1 ∧ s.2.2 = s'.2.2 ∧ r = r' := by
  unfold variadic at e
  simp only [List.append_assoc, List.cons_append, List.nil_append, List.cons.injEq, true_and] at e
  obtain ⟨e1, e⟩ := number_delim (Sep.cons (by decide)) (Sep.cons (by decide)) e
  obtain ⟨e2, e⟩ := h1 (Sep.cons (by decide)) (Sep.cons (by decide)) (List.cons.inj e).2
  simp only [List.cons.injEq, true_and] at e
  obtain ⟨e4, e⟩ := h2 hr hr' e
  exact ⟨Prod.ext e1 e2, e4, e⟩

theorem inter_delim {t1 : S1 → List Char} {t2 : S2 → List Char} (h1 : Delim t1) (h2 : Delim t2) : Delim (inter t1 t2) := by
  intro s s' r r' _ _ e
  unfold inter at e
  simp only [List.append_assoc, List.cons_append, List.nil_append, List.cons.injEq, true_and] at e
  obtain ⟨e2, e⟩ := h1 (Sep.cons (by decide)) (Sep.cons (by decide)) e
  simp only [List.cons.injEq, true_and] at e
  obtain ⟨e4, e⟩ := h2 (Sep.cons (by decide)) (Sep.cons (by decide)) e
  exact ⟨Prod.ext e2 e4, (List.cons.inj e).2⟩

theorem unred_delim {t : S → List Char} (h : Delim t) : Delim (unred t) := by
  intro s s' r r' _ _ e
  unfold unred at e
  simp only [List.append_assoc, List.cons_append, List.nil_append, List.cons.injEq, true_and] at e
  obtain ⟨e1, e⟩ := number_delim (Sep.cons (by decide)) (Sep.cons (by decide)) e
  obtain ⟨e2, e⟩ := h (Sep.cons (by decide)) (Sep.cons (by decide)) (List.cons.inj e).2
  exact ⟨Prod.ext e1 e2, (List.cons.inj e).2⟩

/-- the text of an element begins neither with a comma nor with the closing bracket -/
def Opens (t : A → List Char) : Prop := ∀ a, ∃ c l, t a = c :: l ∧ c ≠ ',' ∧ c ≠ ']'

theorem number_opens : Opens number := by
  intro x
  cases h : number x with
  | nil => exact absurd h (SetText.number_ne_nil x)
  | cons c l =>
    have hc : isNum c = true := number_all x c (by rw [h]; exact List.mem_cons_self ..)
    exact ⟨c, l, rfl, by rintro rfl; exact absurd hc (by decide), by rintro rfl; exact absurd hc (by decide)⟩

theorem mate_opens : Opens mate := fun _ => ⟨'<', _, rfl, by decide, by decide⟩

theorem elems_sep (t : A → List Char) (i : Nat) (l : List A) (r : List Char) : Sep (elems t (i + 1) l ++ ']' :: r) := by
  cases l with
  | nil => exact Sep.cons (by decide)
  | cons a l =>
    unfold elems
    rw [if_pos (show i + 1 > 0 by omega)]
    exact Sep.cons (by decide)

theorem elems_cut {t : A → List Char} (h : Delim t) (ho : Opens t) : ∀ (l l' : List A) (i : Nat) {r r' : List Char},
    elems t i l ++ ']' :: r = elems t i l' ++ ']' :: r' → l = l' ∧ r = r' := by
  have first : ∀ (a : A) (l : List A) (i : Nat) (r r' : List Char), elems t i (a :: l) ++ ']' :: r ≠ ']' :: r' := by
    intro a l i r r' e
    unfold elems at e
    by_cases hi : i > 0
    · rw [if_pos hi] at e
      exact absurd (List.cons.inj e).1 (by decide)
    · rw [if_neg hi] at e
      obtain ⟨c, w, hw, _, hc⟩ := ho a
      rw [hw] at e
      exact hc (List.cons.inj e).1
  intro l
  induction l with
  | nil =>
    intro l' i r r' e
    cases l' with
    | nil => exact ⟨rfl, (List.cons.inj e).2⟩
    | cons a l' => exact absurd e.symm (first a l' i r' r)
  | cons a l ih =>
    intro l' i r r' e
    cases l' with
    | nil => exact absurd e (first a l i r r')
    | cons b l' =>
      have hu : ∀ (a : A) (l : List A), elems t i (a :: l) = (if i > 0 then [','] else []) ++ t a ++ elems t (i + 1) l := fun _ _ => rfl
      rw [hu, hu, List.append_assoc, List.append_assoc, List.append_assoc, List.append_assoc] at e
      obtain ⟨e1, e2⟩ := h (elems_sep t i l r) (elems_sep t i l' r') (List.append_cancel_left e)
      obtain ⟨e3, e4⟩ := ih l' (i + 1) e2
      exact ⟨by rw [e1, e3], e4⟩

theorem array_delim {t : A → List Char} (h : Delim t) (ho : Opens t) : Delim (array t) := by
  intro s s' r r' _ _ e
  unfold array at e
  simp only [List.append_assoc, List.cons_append, List.nil_append, List.cons.injEq, true_and] at e
  exact elems_cut h ho _ _ _ e

theorem hybrid_delim {u : S → List Char} {t : A → List Char} (h : Delim u) (h' : Delim t) (ho : Opens t) : Delim (hybrid u t) := by
  intro s s' r r' _ _ e
  unfold hybrid at e
  simp only [List.append_assoc, List.cons_append, List.nil_append, List.cons.injEq, true_and] at e
  obtain ⟨e1, e⟩ := h (Sep.cons (by decide)) (Sep.cons (by decide)) e
  obtain ⟨e2, e⟩ := elems_cut h' ho _ _ _ (List.cons.inj e).2
  exact ⟨Prod.ext e1 e2, e⟩

end TdZdd.Lab
