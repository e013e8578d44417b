import Verif.StateTextProofs
import Verif.Lookahead
import Verif.SizeConstraint
import Verif.Props.Operators
import Verif.Props.SizeConstraint
import Verif.Props.Dump

/-!
# Property C105: the labels of the nodes

The text of a state determines the state, except for operations on three or more operands, where it is so for conjunctions and disjunctions but not for unions.
-/

namespace TdZdd

variable {S S1 S2 : Type}

/-- the ways in which the library prints states: `t` is the function `print_state` of some type of specifications with states in `S` -/
inductive Printed : {S : Type} → (S → List Char) → Prop
  | stateless : Printed Lab.star
  | scalar : Printed Lab.number
  | array : Printed (Lab.array Lab.number)
  | hybrid : Printed (Lab.hybrid Lab.number Lab.number)
  /-- `FrontierBasedSearch` -/
  | frontier : Printed (Lab.hybrid Lab.number Lab.mate)
  /-- `BddAnd`, `BddOr` and `ZddUnion` of two operands -/
  | binary {S1 S2 : Type} {t1 : S1 → List Char} {t2 : S2 → List Char} (c : Char) : Printed t1 → Printed t2 → Printed (Lab.binary c t1 t2)
  /-- `ZddIntersection` of two operands -/
  | inter {S1 S2 : Type} {t1 : S1 → List Char} {t2 : S2 → List Char} : Printed t1 → Printed t2 → Printed (Lab.inter t1 t2)
  /-- the unreductions -/
  | unred {S : Type} {t : S → List Char} : Printed t → Printed (Lab.unred t)

/-- the conjunction of two or more specifications and its `print_state` -/
inductive AndChain : {S : Type} → DdSpec 2 S → (S → List Char) → Prop
  | two {S1 S2 : Type} {s1 : DdSpec 2 S1} {s2 : DdSpec 2 S2} {t1 : S1 → List Char} {t2 : S2 → List Char} : Printed t1 → Printed t2 → AndChain (bddAnd s1 s2) (Lab.binary '∧' t1 t2)
  | more {S1 S2 : Type} {s1 : DdSpec 2 S1} {s2 : DdSpec 2 S2} {t1 : S1 → List Char} {t2 : S2 → List Char} : Printed t1 → AndChain s2 t2 → AndChain (bddAnd s1 s2) (Lab.variadic '∧' t1 t2)

/-- the disjunction of two or more specifications and its `print_state` -/
inductive OrChain : {S : Type} → DdSpec 2 S → (S → List Char) → Prop
  | two {S1 S2 : Type} {s1 : DdSpec 2 S1} {s2 : DdSpec 2 S2} {t1 : S1 → List Char} {t2 : S2 → List Char} : Printed t1 → Printed t2 → OrChain (bddOr s1 s2) (Lab.binary '∨' t1 t2)
  | more {S1 S2 : Type} {s1 : DdSpec 2 S1} {s2 : DdSpec 2 S2} {t1 : S1 → List Char} {t2 : S2 → List Char} : Printed t1 → OrChain s2 t2 → OrChain (bddOr s1 s2) (Lab.variadic '∨' t1 t2)

namespace Lab

theorem printed_delim {t : S → List Char} (h : Printed t) : Delim t := by
  induction h with
  | stateless => exact star_delim
  | scalar => exact number_delim
  | array => exact array_delim number_delim number_opens
  | hybrid => exact hybrid_delim number_delim number_delim number_opens
  | frontier => exact hybrid_delim number_delim mate_delim mate_opens
  | binary c _ _ h1 h2 => exact binary_delim c h1 h2
  | inter _ _ h1 h2 => exact inter_delim h1 h2
  | unred _ h => exact unred_delim h

theorem andChain_cut {sp : DdSpec 2 S} {t : S → List Char} (h : AndChain sp t) : ∀ {l l' : Int} {p p' : S} {r r' : List Char}, l ≠ 0 → l' ≠ 0 → Reach sp l p → Reach sp l' p' →
    Sep r → Sep r' → t p ++ r = t p' ++ r' → l = l' ∧ p = p' := by
  induction h with
  | two h1 h2 =>
    intro l l' p p' r r' h0 h0' hp hp' hr hr' e
    obtain ⟨e1, _⟩ := binary_delim _ (printed_delim h1) (printed_delim h2) hr hr' e
    subst e1
    have i := (and_reach hp).resolve_left h0
    have i' := (and_reach hp').resolve_left h0'
    exact ⟨i.lvl.trans i'.lvl.symm, rfl⟩
  | @more S1 S2 s1 s2 t1 t2 h1 h2 ih =>
    intro l l' p p' r r' h0 h0' hp hp' hr hr' e
    have i := (and_reach hp).resolve_left h0
    have i' := (and_reach hp').resolve_left h0'
    unfold variadic at e
    simp only [List.append_assoc, List.cons_append, List.nil_append, List.cons.injEq, true_and] at e
    obtain ⟨e1, e⟩ := number_delim (Sep.cons (by decide)) (Sep.cons (by decide)) e
    obtain ⟨e2, e⟩ := printed_delim h1 (Sep.cons (by decide)) (Sep.cons (by decide)) (List.cons.inj e).2
    simp only [List.cons.injEq, true_and] at e
    obtain ⟨e3, e4⟩ := ih i.ne2 i'.ne2 i.r2 i'.r2 hr hr' e
    have e5 : p = p' := Prod.ext (Prod.ext e1 e2) (Prod.ext e3 e4)
    subst e5
    exact ⟨i.lvl.trans i'.lvl.symm, rfl⟩

theorem orChain_cut {sp : DdSpec 2 S} {t : S → List Char} (h : OrChain sp t) : ∀ {l l' : Int} {p p' : S} {r r' : List Char}, l ≠ -1 → l' ≠ -1 → Reach sp l p → Reach sp l' p' →
    Sep r → Sep r' → t p ++ r = t p' ++ r' → l = l' ∧ p = p' := by
  induction h with
  | two h1 h2 =>
    intro l l' p p' r r' h0 h0' hp hp' hr hr' e
    obtain ⟨e1, _⟩ := binary_delim _ (printed_delim h1) (printed_delim h2) hr hr' e
    subst e1
    have i := (or_reach hp).resolve_left h0
    have i' := (or_reach hp').resolve_left h0'
    exact ⟨i.lvl.trans i'.lvl.symm, rfl⟩
  | @more S1 S2 s1 s2 t1 t2 h1 h2 ih =>
    intro l l' p p' r r' h0 h0' hp hp' hr hr' e
    have i := (or_reach hp).resolve_left h0
    have i' := (or_reach hp').resolve_left h0'
    unfold variadic at e
    simp only [List.append_assoc, List.cons_append, List.nil_append, List.cons.injEq, true_and] at e
    obtain ⟨e1, e⟩ := number_delim (Sep.cons (by decide)) (Sep.cons (by decide)) e
    obtain ⟨e2, e⟩ := printed_delim h1 (Sep.cons (by decide)) (Sep.cons (by decide)) (List.cons.inj e).2
    simp only [List.cons.injEq, true_and] at e
    have n := i.ge2
    have n' := i'.ge2
    obtain ⟨e3, e4⟩ := ih (by omega) (by omega) i.r2 i'.r2 hr hr' e
    have e5 : p = p' := Prod.ext (Prod.ext e1 e2) (Prod.ext e3 e4)
    subst e5
    exact ⟨i.lvl.trans i'.lvl.symm, rfl⟩

end Lab

/-- C105: the text of a state determines the state, for every type of specifications built from the basic ones with operations on two operands and unreductions. -/
theorem C105_text {t : S → List Char} (h : Printed t) (s s' : S) : t s = t s' ↔ s = s' :=
  ⟨fun e => Lab.Delim.inj (Lab.printed_delim h) e, fun e => by rw [e]⟩

/-- C105: for conjunctions and disjunctions of any number of specifications the text determines the states of nodes, although the level of the rest is not printed. -/
theorem C105_chains {sp : DdSpec 2 S} {t : S → List Char} (h : AndChain sp t ∨ OrChain sp t) {n m : Nat} (hn : 0 < n) (hm : 0 < m) {s s' : S} (hs : Reach sp (n : Int) s)
    (hs' : Reach sp (m : Int) s') : t s = t s' ↔ s = s' := by
  refine ⟨fun e => ?_, fun e => by rw [e]⟩
  have hsep : Lab.Sep [] := by intro c hc; cases hc
  rcases h with h | h
  · exact (Lab.andChain_cut h (by omega) (by omega) hs hs' hsep hsep (by rw [e])).2
  · exact (Lab.orChain_cut h (by omega) (by omega) hs hs' hsep hsep (by rw [e])).2

/-- C105: in the picture drawn by `dumpDot` two nodes of a level have different labels. -/
theorem C105_labels {sp : DdSpec 2 S} {t : S → List Char} (h : Printed t ∨ AndChain sp t ∨ OrChain sp t) (hl : LawfulC sp) (hm : NoMerge sp) (title : String)
    (ls : List (Dot.Line 2 S)) (hd : Dot.dump sp title = some ls) (h0 : 0 < sp.root.1) {f g : NodeId} {s s' : S} (hf : .node f s ∈ ls) (hg : .node g s' ∈ ls) (hr : f.row = g.row)
    (hpos : 0 < f.row) (e : t s = t s') : f = g := by
  have hN := C91_names sp hl.lawful title ls hd h0
  have r1 := (hN.2.2.2.2.2.2 f s hf).1
  have r2 := (hN.2.2.2.2.2.2 g s' hg).1
  have es : s = s' := by
    rcases h with h | h
    · exact (C105_text h s s').1 e
    · exact (C105_chains h hpos (by omega) r1 r2).1 e
  subst es
  obtain ⟨f0, t0, _, _, _, hu⟩ := C91_nodes sp hl hm title ls hd f.row hpos s r1
  have hrefl := hl.refl hpos r1
  rw [hu f s rfl hf hrefl, hu g s hr.symm hg hrefl]

/-- the union of the subsets of a set of three items with two copies of the subsets of a set of one item -/
def three : DdSpec 2 (BinState Int (BinState Int Int)) := zddUnion (sizeConstraint 3 none) (zddUnion (sizeConstraint 1 none) (sizeConstraint 1 none))

/-- C105: the text does not determine the state for unions of three specifications: two nodes of one level, not equal for the specification, have the same label. -/
theorem C105_union_confused : ∃ s s', Reach three 2 s ∧ Reach three 2 s' ∧ three.eqv 2 s s' = false ∧
    Lab.variadic '∪' Lab.number (Lab.binary '∪' Lab.number Lab.number) s = Lab.variadic '∪' Lab.number (Lab.binary '∪' Lab.number Lab.number) s' := by
  have h3 : Reach three (3 : Nat) ((3, 0), (1, ((1, 0), (1, 0)))) := Reach.root
  exact ⟨((2, 0), (1, ((1, 0), (1, 0)))), ((2, 0), (0, ((1, 0), (1, 0)))), Reach.step 0 (by decide) h3, Reach.step 1 (by decide) h3, by decide, rfl⟩

/-- C105: and both are drawn: the picture has two different nodes of level 2 with the same label. -/
theorem C105_union_picture : ∃ ls, Dot.dump three "U" = some ls ∧ ∃ s s', Dot.Line.node ⟨2, 0⟩ s ∈ ls ∧ Dot.Line.node ⟨2, 1⟩ s' ∈ ls ∧
    Lab.variadic '∪' Lab.number (Lab.binary '∪' Lab.number Lab.number) s = Lab.variadic '∪' Lab.number (Lab.binary '∪' Lab.number Lab.number) s' := by
  have hd : (Dot.dump three "U").isSome = true := by decide +kernel
  obtain ⟨ls, h⟩ := Option.isSome_iff_exists.1 hd
  have hm : ∀ j : Nat, j < 2 → ((Dot.dump three "U").any fun ls => ls.any fun x => match x with
      | .node f s => decide (f = ⟨2, j⟩) && decide (s.1 = (2, 0)) && decide (s.2.2 = ((1, 0), (1, 0)))
      | _ => false) = true := by
    decide +kernel
  have key : ∀ j : Nat, j < 2 → ∃ s, Dot.Line.node ⟨2, j⟩ s ∈ ls ∧ s.1 = (2, 0) ∧ s.2.2 = ((1, 0), (1, 0)) := by
    intro j hj
    have h1 := hm j hj
    rw [h] at h1
    obtain ⟨x, hx, h2⟩ := List.any_eq_true.1 h1
    cases x with
    | node f s =>
      rw [Bool.and_eq_true, Bool.and_eq_true, decide_eq_true_eq, decide_eq_true_eq, decide_eq_true_eq] at h2
      obtain ⟨⟨rfl, h3⟩, h4⟩ := h2
      exact ⟨s, hx, h3, h4⟩
    | _ => cases h2
  obtain ⟨s, hs, h1, h2⟩ := key 0 (by decide)
  obtain ⟨s', hs', h1', h2'⟩ := key 1 (by decide)
  refine ⟨ls, h, s, s', hs, hs', ?_⟩
  unfold Lab.variadic
  rw [h1, h2, h1', h2']

/-- C105: what the text of a union (or of any operation) on three or more operands determines: all but the level of the rest. -/
theorem C105_variadic (c : Char) {t1 : S1 → List Char} {t2 : S2 → List Char} (h1 : Printed t1) (h2 : Printed t2) (s s' : BinState S1 S2) :
    Lab.variadic c t1 t2 s = Lab.variadic c t1 t2 s' ↔ s.1 = s'.1 ∧ s.2.2 = s'.2.2 := by
  constructor
  · intro e
    have hsep : Lab.Sep [] := by intro c hc; cases hc
    obtain ⟨e1, e2, _⟩ := Lab.variadic_cut (s := s) (s' := s') c (Lab.printed_delim h1) (Lab.printed_delim h2) hsep hsep (by rw [e])
    exact ⟨e1, e2⟩
  · rintro ⟨e1, e2⟩
    unfold Lab.variadic
    rw [e1, e2]

/-! Examples -/

/-- a frontier state under an unreduction, met with an array -/
example : Lab.inter (Lab.unred (Lab.hybrid Lab.number Lab.mate)) (Lab.array Lab.number) ((3, (-1, [(0, 2), (-12, 0)])), [4, 0, -5]) = "<<3,[-1:<0,2>,<-12,0>]>>∩<[4,0,-5]>".toList := by
  decide +kernel

example : Printed (Lab.inter (Lab.unred (Lab.hybrid Lab.number Lab.mate)) (Lab.array Lab.number)) := .inter (.unred .frontier) .array

/-- two states that differ only in where a number ends -/
example : Lab.array Lab.number [1, 23] ≠ Lab.array Lab.number [12, 3] := fun h => absurd ((C105_text .array _ _).1 h) (by decide)

example : Lab.binary '∧' Lab.star Lab.number ((2, ()), (1, 7)) = "<2,*>∧<1,7>".toList := by decide +kernel

/-- a conjunction of three specifications and one of its nodes below the root -/
example : AndChain (bddAnd (sizeConstraint 3 none) (bddAnd (sizeConstraint 2 none) (sizeConstraint 1 none))) (Lab.variadic '∧' Lab.number (Lab.binary '∧' Lab.number Lab.number)) ∧
    Reach (bddAnd (sizeConstraint 3 none) (bddAnd (sizeConstraint 2 none) (sizeConstraint 1 none))) (2 : Nat) ((2, 0), (2, ((2, 0), (1, 0)))) ∧
    Lab.variadic '∧' Lab.number (Lab.binary '∧' Lab.number Lab.number) ((2, 0), (2, ((2, 0), (1, 0)))) = "<2,0>∧<2,0>∧<1,0>".toList := by
  have h3 : Reach (bddAnd (sizeConstraint 3 none) (bddAnd (sizeConstraint 2 none) (sizeConstraint 1 none))) (3 : Nat) ((3, 0), (2, ((2, 0), (1, 0)))) := Reach.root
  exact ⟨.more .scalar (.two .scalar .scalar), Reach.step 0 (by decide) h3, by decide +kernel⟩

/-- the conditions of the theorem on labels hold for a diagram with two nodes of one level -/
example : ∃ ls, Dot.dump (combination 2 1) "C" = some ls ∧ Dot.Line.node ⟨1, 0⟩ 0 ∈ ls ∧ Dot.Line.node ⟨1, 1⟩ 1 ∈ ls ∧ Printed (Lab.number) ∧ LawfulC (combination 2 1) ∧
    NoMerge (combination 2 1) ∧ 0 < (combination 2 1).root.1 := by
  have hl := C89_combination_lawful 2 1 (by decide) (by decide)
  have hd : (Dot.dump (combination 2 1) "C").isSome = true := by decide +kernel
  obtain ⟨ls, h⟩ := Option.isSome_iff_exists.1 hd
  have hm : ∀ j : Nat, j < 2 → ((Dot.dump (combination 2 1) "C").any fun ls => ls.any fun x => match x with | .node f s => decide (f = ⟨1, j⟩) && decide (s = (j : Int)) | _ => false) = true := by
    decide +kernel
  have key : ∀ j : Nat, j < 2 → Dot.Line.node ⟨1, j⟩ (j : Int) ∈ ls := by
    intro j hj
    have h1 := hm j hj
    rw [h] at h1
    obtain ⟨x, hx, h2⟩ := List.any_eq_true.1 h1
    cases x with
    | node f s =>
      rw [Bool.and_eq_true, decide_eq_true_eq, decide_eq_true_eq] at h2
      obtain ⟨rfl, rfl⟩ := h2
      exact hx
    | _ => cases h2
  exact ⟨ls, h, key 0 (by decide), key 1 (by decide), .scalar, hl.1, hl.2.1, by decide⟩

end TdZdd
