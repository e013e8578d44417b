import Verif.NumlinLabel
import Verif.StateTextProofs
import Verif.Semantics

/-! Proofs about the labels of the number link specifications. -/

namespace TdZdd.Nl

open Lab (number number_delim Sep)

variable {A : Type}

theorem labelLoop_def (f : Nat → A → List Char) (a : List A) : ∀ (k j : Nat), j + k ≤ a.length → ∃ w, labelLoop f a k j = some w := by
  intro k
  induction k with
  | zero => intro j _; exact ⟨[], rfl⟩
  | succ k ih =>
    intro j h
    obtain ⟨w, hw⟩ := ih (j + 1) (by omega)
    refine ⟨f j (a[j]'(by omega)) ++ w, ?_⟩
    unfold labelLoop
    rw [List.getElem?_eq_getElem (by omega), Option.bind_some, hw]
    rfl

theorem labelLoop_cut {f f' : Nat → A → List Char} {R : A → A → Prop} {a a' : List A}
    (hf : ∀ (j : Nat) (x x' : A) (r r' : List Char), x ∈ a → x' ∈ a' → f j x ++ r = f' j x' ++ r' → R x x' ∧ r = r') : ∀ (k j : Nat) (w w' r r' : List Char),
    labelLoop f a k j = some w → labelLoop f' a' k j = some w' → w ++ r = w' ++ r' →
    (∀ i : Nat, j ≤ i → i < j + k → ∃ x x', a[i]? = some x ∧ a'[i]? = some x' ∧ R x x') ∧ r = r' := by
  intro k
  induction k with
  | zero =>
    intro j w w' r r' h h' e
    cases h
    cases h'
    exact ⟨fun i h1 h2 => by omega, e⟩
  | succ k ih =>
    intro j w w' r r' h h' e
    unfold labelLoop at h h'
    obtain ⟨x, hx, h⟩ := Option.bind_eq_some_iff.1 h
    obtain ⟨x', hx', h'⟩ := Option.bind_eq_some_iff.1 h'
    obtain ⟨v, hv, rfl⟩ := Option.map_eq_some_iff.1 h
    obtain ⟨v', hv', rfl⟩ := Option.map_eq_some_iff.1 h'
    rw [List.append_assoc, List.append_assoc] at e
    obtain ⟨h1, h2⟩ := hf j x x' _ _ (List.mem_of_getElem? hx) (List.mem_of_getElem? hx') e
    obtain ⟨h3, h4⟩ := ih (j + 1) v v' r r' hv hv' h2
    refine ⟨fun i hi hi' => ?_, h4⟩
    by_cases e : i = j
    · subst e; exact ⟨x, x', hx, hx', h1⟩
    · exact h3 i (by omega) (by omega)

theorem number_head (d : Nat) : ∃ c l, number (d : Int) = c :: l ∧ Lab.isNum c = true := by
  cases h : number (d : Int) with
  | nil => exact absurd h (SetText.number_ne_nil _)
  | cons c l => exact ⟨c, l, rfl, Lab.number_all (d : Int) c (by rw [h]; exact List.mem_cons_self ..)⟩

theorem mark_number {c : Char} (hc : Lab.isNum c = false) {d : Nat} {r r' : List Char} (e : c :: r = number (d : Int) ++ r') : False := by
  obtain ⟨x, l, h, hx⟩ := number_head d
  rw [h] at e
  have := (List.cons.inj e).1
  subst this
  rw [hc] at hx
  cases hx

/-- the four forms of the text of a column -/
theorem cell_cases (n j d : Nat) : (d = j ∧ cell n j d = [' ', '.', ' ']) ∨ (d ≠ j ∧ d = n ∧ cell n j d = [' ', '*', ' ']) ∨
    (cell n j d = ['['] ++ number d ++ [']']) ∨ (cell n j d = [' '] ++ number d ++ [' ']) := by
  unfold cell
  by_cases h1 : d = j
  · exact .inl ⟨h1, if_pos h1⟩
  · rw [if_neg h1]
    by_cases h2 : d = n
    · exact .inr (.inl ⟨h1, h2, if_pos h2⟩)
    · rw [if_neg h2]
      by_cases h3 : d > n
      · exact .inr (.inr (.inl (if_pos h3)))
      · exact .inr (.inr (.inr (if_neg h3)))

theorem cell_cut {n j d d' : Nat} {r r' : List Char} (e : cell n j d ++ r = cell n j d' ++ r') : d = d' ∧ r = r' := by
  have num : ∀ {c : Char} {x x' : Nat} {r r' : List Char}, Lab.isNum c = false → number (x : Int) ++ c :: r = number (x' : Int) ++ c :: r' → x = x' ∧ r = r' := by
    intro c x x' r r' hc e
    obtain ⟨e1, e2⟩ := number_delim (Sep.cons hc) (Sep.cons hc) e
    exact ⟨by omega, (List.cons.inj e2).2⟩
  have ne1 : ('.' : Char) ≠ '*' := by decide
  have ne2 : (' ' : Char) ≠ '[' := by decide
  rcases cell_cases n j d with ⟨h1, h⟩ | ⟨_, h1, h⟩ | h | h <;> rcases cell_cases n j d' with ⟨h1', h'⟩ | ⟨_, h1', h'⟩ | h' | h' <;> rw [h, h'] at e <;>
    simp only [List.append_assoc, List.cons_append, List.nil_append, List.cons.injEq, true_and] at e
  · exact ⟨by omega, e⟩
  · exact absurd e.1 ne1
  · exact absurd e.1 ne2
  · exact (mark_number (by decide) e).elim
  · exact absurd e.1.symm ne1
  · exact ⟨by omega, e⟩
  · exact absurd e.1 ne2
  · exact (mark_number (by decide) e).elim
  · exact absurd e.1.symm ne2
  · exact absurd e.1.symm ne2
  · exact num (by decide) e
  · exact absurd e.1.symm ne2
  · exact (mark_number (by decide) e.symm).elim
  · exact (mark_number (by decide) e.symm).elim
  · exact absurd e.1 ne2
  · exact num (by decide) e

theorem ext_of {R : A → A → Prop} {a a' : List A} {n : Nat} (h : a.length = n) (h' : a'.length = n)
    (hi : ∀ i : Nat, 0 ≤ i → i < 0 + n → ∃ x x', a[i]? = some x ∧ a'[i]? = some x' ∧ R x x') (hR : ∀ x ∈ a, ∀ x' ∈ a', R x x' → x = x') : a = a' := by
  apply List.ext_getElem?
  intro i
  by_cases hn : i < n
  · obtain ⟨x, x', h1, h2, h3⟩ := hi i (Nat.zero_le _) (by omega)
    rw [h1, h2, hR x (List.mem_of_getElem? h1) x' (List.mem_of_getElem? h2) h3]
  · rw [List.getElem?_eq_none (by omega), List.getElem?_eq_none (by omega)]

theorem degree_label {q : Board} {d d' : List Nat} (h : d.length = q.cols) (h' : d'.length = q.cols) :
    (∃ w, Degree.label q d = some w) ∧ (Degree.label q d = Degree.label q d' → d = d') := by
  unfold Degree.label
  obtain ⟨w, hw⟩ := labelLoop_def (cell q.cols) d q.cols 0 (by omega)
  obtain ⟨w', hw'⟩ := labelLoop_def (cell q.cols) d' q.cols 0 (by omega)
  refine ⟨⟨w, hw⟩, fun e => ?_⟩
  rw [hw, hw'] at e
  obtain ⟨h1, _⟩ := labelLoop_cut (f := cell q.cols) (f' := cell q.cols) (a := d) (a' := d') (R := fun x x' => x = x') (fun j x x' r r' _ _ e => cell_cut e) q.cols 0 w w' [] [] hw hw' (by rw [Option.some.inj e])
  exact ext_of h h' h1 fun _ _ _ _ e => e

theorem numlin_label {q : Board} (hq : 1 ≤ q.cols) {s s' : Numlin.St} (h : s.2.length = q.cols) (h' : s'.2.length = q.cols) :
    (∃ w, Numlin.label q s = some w) ∧ (Numlin.label q s = Numlin.label q s' → s = s') := by
  unfold Numlin.label
  obtain ⟨w, hw⟩ := labelLoop_def (fun j m => cell q.cols j m ++ (['('] ++ number s.1 ++ [')'])) s.2 q.cols 0 (by omega)
  obtain ⟨w', hw'⟩ := labelLoop_def (fun j m => cell q.cols j m ++ (['('] ++ number s'.1 ++ [')'])) s'.2 q.cols 0 (by omega)
  refine ⟨⟨w, hw⟩, fun e => ?_⟩
  rw [hw, hw'] at e
  obtain ⟨h1, _⟩ := labelLoop_cut (R := fun x x' => x = x' ∧ s.1 = s'.1) (fun j x x' r r' _ _ e => by
    simp only [List.append_assoc] at e
    obtain ⟨e1, e⟩ := cell_cut e
    simp only [List.cons_append, List.nil_append, List.cons.injEq, true_and] at e
    obtain ⟨e2, e⟩ := number_delim (Sep.cons (by decide)) (Sep.cons (by decide)) e
    exact ⟨⟨e1, by omega⟩, (List.cons.inj e).2⟩) q.cols 0 w w' [] [] hw hw' (by rw [Option.some.inj e])
  obtain ⟨_, _, _, _, _, hc⟩ := h1 0 (Nat.le_refl _) (by omega)
  exact Prod.ext hc (ext_of h h' h1 fun _ _ _ _ e => e.1)

theorem constraint_label {q : Board} {s s' : Constraint.St} (h : s.2.length = q.cols) (h' : s'.2.length = q.cols) (hu : ∀ v ∈ s.2, v.south = true → v.used = true)
    (hu' : ∀ v ∈ s'.2, v.south = true → v.used = true) : (∃ w, Constraint.label q s = some w) ∧ (Constraint.label q s = Constraint.label q s' → s = s') := by
  unfold Constraint.label
  obtain ⟨w, hw⟩ := labelLoop_def Constraint.cell s.2 q.cols 0 (by omega)
  obtain ⟨w', hw'⟩ := labelLoop_def Constraint.cell s'.2 q.cols 0 (by omega)
  refine ⟨⟨_, by rw [hw]; rfl⟩, fun e => ?_⟩
  rw [hw, hw'] at e
  obtain ⟨h1, h2⟩ := labelLoop_cut (R := fun x x' => x = x') (fun j x x' r r' hx hx' e => by
    have g := hu x hx
    have g' := hu' x' hx'
    obtain ⟨e1, s1, u1⟩ := x
    obtain ⟨e2, s2, u2⟩ := x'
    unfold Constraint.cell at e
    simp only [List.cons_append, List.nil_append, List.cons.injEq] at e
    obtain ⟨a1, a2, a3⟩ := e
    refine ⟨?_, a3⟩
    revert g g' a1 a2
    clear hx hx' a3
    revert e1 s1 u1 e2 s2 u2
    decide) q.cols 0 w w' _ _ hw hw' (Option.some.inj e)
  refine Prod.ext ?_ (ext_of h h' h1 fun _ _ _ _ e => e)
  revert h2
  cases s.1 <;> cases s'.1 <;> simp

/-! ## reachable states -/

theorem inv_reach {S : Type} {sp : DdSpec 2 S} {P : S → Prop} (h0 : P sp.root.2) (hs : ∀ s l b, P s → P (sp.child s l b).2) {c : Int} {s : S} (h : Reach sp c s) : P s := by
  induction h with
  | root => exact h0
  | step b _ _ ih => exact hs _ _ _ ih

theorem childOf_inv {S : Type} {P : S → Prop} {s : S} {level : Nat} {r : Option (Option S)} (hs : P s) (h : ∀ t, r = some (some t) → P t) : P (childOf s level r).2 := by
  unfold childOf
  split
  · exact hs
  · exact hs
  · exact h _ rfl

theorem andThen_some {S : Type} {r : Option (Option S)} {f : S → Option (Option S)} {t : S} (h : Degree.andThen r f = some (some t)) : ∃ s, r = some (some s) ∧ f s = some (some t) := by
  unfold Degree.andThen at h
  split at h
  · cases h
  · cases h
  · exact ⟨_, rfl, h⟩

theorem degree_horz {j : Nat} {take : Bool} {d t : List Nat} (h : Degree.horz j take d = some (some t)) : t.length = d.length := by
  unfold Degree.horz at h
  split at h
  · obtain ⟨_, _, h⟩ := Option.bind_eq_some_iff.1 h
    obtain ⟨_, _, h⟩ := Option.map_eq_some_iff.1 h
    split at h
    · cases h
    · rw [← Option.some.inj h, List.length_set, List.length_set]
  · rw [Option.some.inj (Option.some.inj h)]

theorem degree_vert {q : Board} {i j : Nat} {d t : List Nat} (h : Degree.vert q i j d = some (some t)) : t.length = d.length := by
  unfold Degree.vert at h
  obtain ⟨_, _, h⟩ := Option.bind_eq_some_iff.1 h
  split at h
  · obtain ⟨_, _, h⟩ := Option.map_eq_some_iff.1 h
    rw [← Option.some.inj h, List.length_set]
  · split at h
    · cases h
    · rw [← Option.some.inj (Option.some.inj h), List.length_set]

theorem mapM_len {f : Nat → Option Nat} : ∀ {l m : List Nat}, l.mapM f = some m → m.length = l.length := by
  intro l
  induction l with
  | nil => intro m h; rw [List.mapM_nil] at h; cases h; rfl
  | cons a l ih =>
    intro m h
    rw [List.mapM_cons] at h
    obtain ⟨x, _, h⟩ := Option.bind_eq_some_iff.1 h
    obtain ⟨y, hy, h⟩ := Option.bind_eq_some_iff.1 h
    rw [← Option.some.inj h, List.length_cons, List.length_cons, ih hy]

theorem mapM_defined {f : Nat → Option Nat} : ∀ {l : List Nat}, (∀ x ∈ l, ∃ y, f x = some y) → ∃ m, l.mapM f = some m := by
  intro l
  induction l with
  | nil => intro _; exact ⟨[], by rw [List.mapM_nil]; rfl⟩
  | cons a l ih =>
    intro h
    obtain ⟨y, hy⟩ := h a (List.mem_cons_self ..)
    obtain ⟨m, hm⟩ := ih fun x hx => h x (List.mem_cons_of_mem _ hx)
    exact ⟨y :: m, by rw [List.mapM_cons, hy, hm]; rfl⟩

theorem num_some {q : Board} (hq : q.Ok) {i j : Nat} (hi : i < q.rows) (hj : j < q.cols) : ∃ t, q.num? i j = some t := by
  unfold Board.num?
  have h1 := hq.len
  rw [List.getElem?_eq_getElem (by omega), Option.bind_some]
  have h2 := hq.width _ (List.getElem_mem (show i < q.number.length by omega))
  exact ⟨_, List.getElem?_eq_getElem (by omega)⟩

theorem degree_reach {q : Board} (hq : q.Ok) {c : Int} {s : List Nat} (h : Reach (degreeZdd q) c s) : s.length = q.cols := by
  refine inv_reach (P := fun s : List Nat => s.length = q.cols) ?_ ?_ h
  · have hr := hq.rows_pos
    obtain ⟨m, hm⟩ := mapM_defined (f := fun j => (q.num? 0 j).map fun t => if t > 0 then 1 else 0) (l := List.range q.cols) (fun j hj => by
      obtain ⟨t, ht⟩ := num_some hq (i := 0) (by omega) (List.mem_range.1 hj)
      exact ⟨_, by rw [ht]; rfl⟩)
    have e : Degree.root q = some m := hm
    show (rootOf q [] (Degree.root q)).2.length = q.cols
    rw [e]
    exact (mapM_len hm).trans List.length_range
  · intro s l b hs
    refine childOf_inv (P := fun s : List Nat => s.length = q.cols) hs fun t ht => ?_
    unfold Degree.child at ht
    obtain ⟨d1, g1, ht⟩ := andThen_some ht
    obtain ⟨d2, g2, ht⟩ := andThen_some ht
    have l1 := degree_horz g1
    have l2 := degree_vert g2
    split at ht
    · have l3 := degree_vert ht
      omega
    · have l3 := Option.some.inj (Option.some.inj ht)
      rw [← l3]
      omega

theorem numlin_horz {n j : Nat} {take : Bool} {s t : Numlin.St} (h : Numlin.horz n j take s = some (some t)) : t.2.length = s.2.length := by
  unfold Numlin.horz at h
  split at h
  · obtain ⟨_, _, h⟩ := Option.bind_eq_some_iff.1 h
    obtain ⟨_, _, h⟩ := Option.map_eq_some_iff.1 h
    split at h
    · cases h
    · split at h
      · cases h
      · split at h
        · split at h
          · cases h
          · rw [← Option.some.inj h]
            simp only [List.length_set]
        · rw [← Option.some.inj h]
          dsimp only
          split <;> split <;> simp only [List.length_set]
  · rw [Option.some.inj (Option.some.inj h)]

theorem numlin_vert {q : Board} {mb : Int} {i k : Nat} {s t : Numlin.St} (h : Numlin.vert q mb i k s = some (some t)) : t.2.length = s.2.length := by
  unfold Numlin.vert at h
  obtain ⟨mk, _, h⟩ := Option.bind_eq_some_iff.1 h
  by_cases hi : i < q.rows - 1
  · rw [if_pos hi] at h
    generalize (if mk = k then Numlin.blank mb s.1 else some s.1) = o at h
    cases o with
    | none => cases h
    | some c =>
      obtain ⟨t', _, h⟩ := Option.map_eq_some_iff.1 h
      by_cases h1 : mk ≠ k ∧ mk ≠ q.cols
      · rw [if_pos h1] at h
        by_cases h2 : t' > 0
        · rw [if_pos h2] at h
          dsimp only at h
          by_cases h3 : mk > q.cols
          · rw [if_pos h3] at h
            by_cases h4 : mk ≠ q.cols + t'
            · rw [if_pos h4] at h; cases h
            · rw [if_neg h4] at h
              rw [← Option.some.inj h, List.length_set]
          · rw [if_neg h3] at h
            rw [← Option.some.inj h, List.length_set, List.length_set]
        · rw [if_neg h2] at h
          rw [← Option.some.inj h]
      · rw [if_neg h1] at h
        rw [← Option.some.inj h, List.length_set]
  · rw [if_neg hi] at h
    by_cases h1 : mk = k
    · rw [if_pos h1] at h
      obtain ⟨_, _, h⟩ := Option.map_eq_some_iff.1 (Option.some.inj h)
      rw [← h, List.length_set]
    · rw [if_neg h1] at h
      by_cases h2 : mk ≠ q.cols
      · rw [if_pos h2] at h; cases h
      · rw [if_neg h2] at h
        rw [← Option.some.inj (Option.some.inj h), List.length_set]

theorem numlin_reach {q : Board} (hq : q.Ok) {mb c : Int} {s : Numlin.St} (h : Reach (numlinZdd q mb) c s) : s.2.length = q.cols := by
  refine inv_reach (P := fun s : Numlin.St => s.2.length = q.cols) ?_ ?_ h
  · have hr := hq.rows_pos
    obtain ⟨m, hm⟩ := mapM_defined (f := fun j => (q.num? 0 j).map fun t => (if t > 0 then q.cols + t else j) % 256) (l := List.range q.cols) (fun j hj => by
      obtain ⟨t, ht⟩ := num_some hq (i := 0) (by omega) (List.mem_range.1 hj)
      exact ⟨_, by rw [ht]; rfl⟩)
    have e : Numlin.root q = some (0, m) := by
      unfold Numlin.root
      rw [hm]; rfl
    show (rootOf q (0, []) (Numlin.root q)).2.2.length = q.cols
    rw [e]
    exact (mapM_len hm).trans List.length_range
  · intro s l b hs
    refine childOf_inv (P := fun s : Numlin.St => s.2.length = q.cols) hs fun t ht => ?_
    unfold Numlin.child at ht
    obtain ⟨d1, g1, ht⟩ := andThen_some ht
    obtain ⟨d2, g2, ht⟩ := andThen_some ht
    have l1 := numlin_horz g1
    have l2 := numlin_vert g2
    split at ht
    · have l3 := Option.some.inj (Option.some.inj ht)
      rw [← l3]
      omega
    · have l3 := numlin_vert ht
      omega

theorem box_used (t : Nat) (x : Constraint.VS) (take : Bool) (w : Option Constraint.VS) (h : (Constraint.box t x take w).south = true) : (Constraint.box t x take w).used = true := by
  unfold Constraint.box at h ⊢
  dsimp only at h ⊢
  rw [beq_iff_eq] at h
  rw [h]; rfl

theorem boxLast_used (t : Nat) (y x : Constraint.VS) (h : (Constraint.boxLast t y x).south = true) : (Constraint.boxLast t y x).used = true := by
  unfold Constraint.boxLast at h ⊢
  dsimp only at h ⊢
  rw [beq_iff_eq] at h
  rw [h]; rfl

/-- what holds of the states of `ConstraintZdd`: a box with a line to the south is used -/
def CInv (q : Board) (s : Constraint.St) : Prop := s.2.length = q.cols ∧ ∀ v ∈ s.2, v.south = true → v.used = true

theorem constraint_reach {q : Board} {c : Int} {s : Constraint.St} (h : Reach (constraintZdd q) c s) : CInv q s := by
  refine inv_reach (P := CInv q) ⟨List.length_replicate, fun v hv hs => ?_⟩ ?_ h
  · rw [(List.mem_replicate.1 hv).2] at hs
    cases hs
  · intro s l b hs
    refine childOf_inv (P := CInv q) hs fun t ht => ?_
    unfold Constraint.child at ht
    obtain ⟨x, _, ht⟩ := Option.bind_eq_some_iff.1 ht
    obtain ⟨y, _, ht⟩ := Option.bind_eq_some_iff.1 ht
    obtain ⟨n, _, ht⟩ := Option.bind_eq_some_iff.1 ht
    split at ht
    · cases ht
    · split at ht
      · cases ht
      · obtain ⟨w, _, ht⟩ := Option.bind_eq_some_iff.1 ht
        split at ht
        · cases ht
        · split at ht
          · obtain ⟨n', _, ht⟩ := Option.map_eq_some_iff.1 ht
            split at ht
            · cases ht
            · rw [← Option.some.inj ht]
              refine ⟨by rw [List.length_set, List.length_set]; exact hs.1, fun v hv hsv => ?_⟩
              rcases List.mem_or_eq_of_mem_set hv with hv | rfl
              · rcases List.mem_or_eq_of_mem_set hv with hv | rfl
                · exact hs.2 v hv hsv
                · exact box_used _ _ _ _ hsv
              · exact boxLast_used _ _ _ hsv
          · rw [← Option.some.inj (Option.some.inj ht)]
            refine ⟨by rw [List.length_set]; exact hs.1, fun v hv hsv => ?_⟩
            rcases List.mem_or_eq_of_mem_set hv with hv | rfl
            · exact hs.2 v hv hsv
            · exact box_used _ _ _ _ hsv

end TdZdd.Nl
