import Verif.CnfBdd

/-! The map to canonical clauses: the assertion of `makeClauseMap` never fails, and each clause is mapped to the first one with the same literals at the levels up to the given one. -/

namespace TdZdd

namespace CnfB

open Cnf

/-- a clause and its number -/
abbrev Row := Nat × List Int

/-- literals with increasing levels, followed by 0 -/
structure Form (nv : Nat) (w : List Int) : Prop where
  incr : w.Pairwise fun x y => lev nv x < lev nv y
  zero : ∃ ls, w = ls ++ [0] ∧ ∀ x ∈ ls, 1 ≤ x.natAbs ∧ x.natAbs ≤ nv

/-- the literals at the levels up to `i` -/
def low (nv i : Nat) (w : List Int) : List Int := w.takeWhile fun x => decide (lev nv x ≤ i)

/-! ## The order of the rows -/

/-- `a` may come before `b` -/
def Le (a b : List Int) : Prop := relaxLt b a = false

theorem le_cons {x y : Int} {a b : List Int} : Le (x :: a) (y :: b) ↔ y.natAbs < x.natAbs ∨ y.natAbs = x.natAbs ∧ (y < x ∨ y = x ∧ Le a b) := by
  unfold Le
  rw [relaxLt]
  by_cases h : y.natAbs = x.natAbs
  · rw [if_neg (by simpa using h)]
    by_cases g : y = x
    · rw [if_neg (by simpa using g)]
      constructor
      · intro e; exact .inr ⟨h, .inr ⟨g, e⟩⟩
      · rintro (e | ⟨_, e | ⟨_, e⟩⟩)
        · omega
        · omega
        · exact e
    · rw [if_pos g, decide_eq_false_iff_not]
      constructor
      · intro e; exact .inr ⟨h, .inl (by omega)⟩
      · rintro (e | ⟨_, e | ⟨e, _⟩⟩)
        · omega
        · omega
        · exact absurd e g
  · rw [if_pos h, decide_eq_false_iff_not]
    constructor
    · intro e; exact .inl (by omega)
    · rintro (e | ⟨e, _⟩)
      · omega
      · exact absurd e h

theorem le_nil {a : List Int} {x : Int} : ¬ Le [] (x :: a) := by
  unfold Le
  rw [relaxLt]
  exact Bool.noConfusion

/-- A row between two rows with a common prefix has the prefix, too. -/
theorem sandwich {L : List Int} : ∀ {q : List Int} {x y : Int} {a b : List Int}, Le (L ++ x :: a) q → Le q (L ++ y :: b) → ∃ z c, q = L ++ z :: c ∧ z.natAbs ≤ x.natAbs := by
  induction L with
  | nil =>
    intro q x y a b h1 h2
    cases q with
    | nil => exact absurd h2 le_nil
    | cons z c =>
      refine ⟨z, c, rfl, ?_⟩
      rcases le_cons.1 h1 with h | ⟨h, _⟩ <;> omega
  | cons l L ih =>
    intro q x y a b h1 h2
    cases q with
    | nil => exact absurd h2 le_nil
    | cons z c =>
      have g1 := le_cons.1 h1
      have g2 := le_cons.1 h2
      have : z = l ∧ Le (L ++ x :: a) c ∧ Le c (L ++ y :: b) := by
        rcases g1 with g1 | ⟨g1, g1' | ⟨g1', g1''⟩⟩
        · rcases g2 with g2 | ⟨g2, g2' | ⟨g2', g2''⟩⟩ <;> omega
        · rcases g2 with g2 | ⟨g2, g2' | ⟨g2', g2''⟩⟩ <;> omega
        · rcases g2 with g2 | ⟨g2, g2' | ⟨g2', g2''⟩⟩
          · omega
          · omega
          · exact ⟨g1', g1'', g2''⟩
      obtain ⟨rfl, k1, k2⟩ := this
      obtain ⟨z', c', e, h⟩ := ih k1 k2
      exact ⟨z', c', by rw [e]; rfl, h⟩

theorem le_refl {a : List Int} : Le a a := by
  induction a with
  | nil => rfl
  | cons x a ih => exact le_cons.2 (.inr ⟨rfl, .inr ⟨rfl, ih⟩⟩)

theorem le_next {L : List Int} {x y : Int} {a b : List Int} (h : Le (L ++ x :: a) (L ++ y :: b)) : y.natAbs ≤ x.natAbs := by
  obtain ⟨z, c, e, g⟩ := sandwich h le_refl
  obtain ⟨rfl, _⟩ := List.cons.inj (List.append_cancel_left e)
  exact g

/-! ## Literals at low levels -/

variable {nv : Nat}

theorem lev_zero : lev nv 0 = nv + 1 := rfl

theorem low_append {i : Nat} {L : List Int} {z : Int} {c : List Int} (h : ∀ x ∈ L, lev nv x ≤ i) (hz : i < lev nv z) : low nv i (L ++ z :: c) = L := by
  unfold low
  rw [List.takeWhile_append_of_pos (fun x hx => decide_eq_true (h x hx)), List.takeWhile_cons, if_neg, List.append_nil]
  rw [decide_eq_true_iff]
  omega

theorem low_mem {i : Nat} {w : List Int} {x : Int} (h : x ∈ low nv i w) : lev nv x ≤ i := by
  have := List.all_takeWhile (l := w) (p := fun x => decide (lev nv x ≤ i))
  exact of_decide_eq_true (List.all_eq_true.1 this x h)

theorem low_split {i : Nat} {w : List Int} (hw : Form nv w) (hi : i ≤ nv) : ∃ z c, w = low nv i w ++ z :: c ∧ i < lev nv z := by
  obtain ⟨ls, e, _⟩ := hw.zero
  have h : ∀ w : List Int, (0 : Int) ∈ w → ∃ z c, w = low nv i w ++ z :: c ∧ i < lev nv z := by
    intro w
    induction w with
    | nil => intro h; cases h
    | cons x w ih =>
      intro h
      by_cases hx : lev nv x ≤ i
      · have hne : (0 : Int) ≠ x := by
          rintro rfl
          rw [lev_zero] at hx
          omega
        obtain ⟨z, c, e, g⟩ := ih ((List.mem_cons.1 h).resolve_left hne)
        refine ⟨z, c, ?_, g⟩
        unfold low
        rw [List.takeWhile_cons, if_pos (decide_eq_true hx), List.cons_append]
        exact congrArg _ e
      · refine ⟨x, w, ?_, by omega⟩
        unfold low
        rw [List.takeWhile_cons, if_neg (by simpa using hx)]
        rfl
  exact h w (by rw [e]; simp)

theorem low_eq_iff {i : Nat} {w L : List Int} (hw : Form nv w) (hi : i ≤ nv) : low nv i w = L ↔ (∀ x ∈ L, lev nv x ≤ i) ∧ ∃ z c, w = L ++ z :: c ∧ i < lev nv z := by
  constructor
  · rintro rfl
    exact ⟨fun x hx => low_mem hx, low_split hw hi⟩
  · rintro ⟨h, z, c, rfl, hz⟩
    exact low_append h hz

/-- A position with a literal: the literals before it, and the next entry. -/
theorem Form.at {w : List Int} (hw : Form nv w) {k : Nat} {t : Int} (h : w[k]? = some t) (ht : t ≠ 0) :
    ∃ t2 c, w = w.take k ++ t :: t2 :: c ∧ (w.take k).length = k ∧ w[k + 1]? = some t2 ∧ 1 ≤ t.natAbs ∧ t.natAbs ≤ nv ∧ lev nv t < lev nv t2 ∧ (∀ x ∈ w.take k ++ [t], lev nv x ≤ lev nv t) := by
  obtain ⟨ls, e, hl⟩ := hw.zero
  have hk : k < w.length := (List.getElem?_eq_some_iff.1 h).1
  have e1 : w = w.take k ++ t :: w.drop (k + 1) := by
    have := List.drop_eq_getElem_cons hk
    rw [(List.getElem?_eq_some_iff.1 h).2] at this
    rw [← this, List.take_append_drop]
  have hk2 : k + 1 < w.length := by
    rcases Nat.lt_or_ge (k + 1) w.length with g | g
    · exact g
    · exfalso
      have : k = ls.length := by rw [e] at hk g; simp at hk g; omega
      rw [e, this, List.getElem?_append_right (Nat.le_refl _), Nat.sub_self] at h
      exact ht (Option.some.inj h).symm
  refine ⟨w[k + 1], w.drop (k + 2), ?_, by rw [List.length_take]; omega, List.getElem?_eq_getElem hk2, ?_⟩
  · rw [← List.drop_eq_getElem_cons hk2]
    exact e1
  · have hin : t ∈ ls := by
      have : t ∈ ls ++ [0] := by rw [← e]; exact List.mem_of_getElem? h
      rcases List.mem_append.1 this with g | g
      · exact g
      · exact absurd (List.mem_singleton.1 g) ht
    have hp := hw.incr
    rw [e1] at hp
    obtain ⟨p1, p2, p3⟩ := List.pairwise_append.1 hp
    refine ⟨(hl t hin).1, (hl t hin).2, ?_, ?_⟩
    · refine (List.pairwise_cons.1 p2).1 _ ?_
      rw [List.drop_eq_getElem_cons hk2]
      exact List.mem_cons_self
    · intro x hx
      rcases List.mem_append.1 hx with g | g
      · exact Nat.le_of_lt (p3 x g t List.mem_cons_self)
      · rw [List.mem_singleton.1 g]
        exact Nat.le_refl _

theorem index_le {w : List Int} : ∀ {n k : Nat} {t : Int}, (∀ x ∈ w, n ≤ lev nv x) → w.Pairwise (fun x y => lev nv x < lev nv y) → w[k]? = some t → n + k ≤ lev nv t := by
  induction w with
  | nil => intro n k t _ _ h; simp at h
  | cons x w ih =>
    intro n k t h1 h2 h
    obtain ⟨p1, p2⟩ := List.pairwise_cons.1 h2
    cases k with
    | zero =>
      rw [List.getElem?_cons_zero, Option.some.injEq] at h
      subst h
      exact h1 _ List.mem_cons_self
    | succ k =>
      rw [List.getElem?_cons_succ] at h
      have := ih (n := n + 1) (fun y hy => by have := p1 y hy; have := h1 x List.mem_cons_self; omega) p2 h
      omega

theorem Form.index {w : List Int} (hw : Form nv w) {k : Nat} {t : Int} (h : w[k]? = some t) (ht : t ≠ 0) : k + 1 ≤ nv := by
  obtain ⟨_, _, _, _, _, h1, h2, _⟩ := hw.at h ht
  have := index_le (n := 1) (fun x hx => by
    obtain ⟨ls, e, hl⟩ := hw.zero
    rw [e] at hx
    unfold lev
    rcases List.mem_append.1 hx with g | g
    · have := hl x g; omega
    · rw [List.mem_singleton.1 g]; simp) hw.incr h
  unfold lev at this
  omega

/-! ## The states of classes -/

structure Rows (nv : Nat) (cp : List Row) : Prop where
  form : ∀ r ∈ cp, Form nv r.2
  sorted : cp.Pairwise fun a b => Le a.2 b.2
  nodup : (cp.map (·.1)).Nodup

/-- the first row with its literals at the levels up to `i` -/
def Fst (nv : Nat) (cp : List Row) (i : Nat) (f : Row) : Prop := ∃ A B, cp = A ++ f :: B ∧ ∀ a ∈ A, low nv i a.2 ≠ low nv i f.2

/-- The clauses with the literals `L` at the levels up to `i` are mapped to the first one. -/
def Dn (nv : Nat) (cp : List Row) (cm : CMap) (i : Nat) (L : List Int) : Prop := ∀ f, Fst nv cp i f → low nv i f.2 = L → ∀ r ∈ cp, low nv i r.2 = L → cm i r.1 = f.1

/-- The clauses with the literals `L` at the levels up to `i` are not mapped. -/
def Un (nv : Nat) (cp : List Row) (cm : CMap) (i : Nat) (L : List Int) : Prop := ∀ r ∈ cp, low nv i r.2 = L → cm i r.1 = r.1

structure MInv (nv : Nat) (cp : List Row) (cm : CMap) : Prop where
  st : ∀ i, i ≤ nv → ∀ L, Dn nv cp cm i L ∨ Un nv cp cm i L
  band : ∀ p i i', i < i' → i' ≤ nv → Fst nv cp i p → low nv i p.2 = low nv i' p.2 → low nv i p.2 ≠ [] → (Dn nv cp cm i (low nv i p.2) ↔ Dn nv cp cm i' (low nv i p.2))

variable {cp : List Row}

theorem Fst.mem {i : Nat} {f : Row} (h : Fst nv cp i f) : f ∈ cp := by
  obtain ⟨A, B, rfl, _⟩ := h
  simp

theorem split_unique {α : Type} {x : α} {l1 l2 r1 r2 : List α} (hn : (l1 ++ x :: r1).Nodup) (h : l1 ++ x :: r1 = l2 ++ x :: r2) : l1 = l2 := by
  induction l1 generalizing l2 with
  | nil =>
    cases l2 with
    | nil => rfl
    | cons y l2 =>
      obtain ⟨rfl, e⟩ := List.cons.inj h
      exact absurd (by rw [e]; simp) (List.nodup_cons.1 hn).1
  | cons y l1 ih =>
    cases l2 with
    | nil =>
      obtain ⟨rfl, e⟩ := List.cons.inj h
      exact absurd (by simp) (List.nodup_cons.1 hn).1
    | cons z l2 =>
      obtain ⟨rfl, e⟩ := List.cons.inj h
      rw [ih (List.nodup_cons.1 hn).2 e]

theorem Rows.rows_nodup (hR : Rows nv cp) : cp.Nodup := by
  have h := hR.nodup
  rw [List.Nodup, List.pairwise_map] at h
  exact h.imp fun g e => g (by rw [e])

theorem Rows.inj (hR : Rows nv cp) {r s : Row} (hr : r ∈ cp) (hs : s ∈ cp) (h : r.1 = s.1) : r = s := by
  have key : ∀ {l : List Row}, (l.map (·.1)).Nodup → r ∈ l → s ∈ l → r = s := by
    intro l
    induction l with
    | nil => intro _ hr; cases hr
    | cons x l ih =>
      intro hn hr hs
      rw [List.map_cons, List.nodup_cons] at hn
      rcases List.mem_cons.1 hr with e | hr
      · rcases List.mem_cons.1 hs with e' | hs
        · rw [e, e']
        · exact absurd (by rw [← e, h]; exact List.mem_map_of_mem hs) hn.1
      · rcases List.mem_cons.1 hs with e' | hs
        · exact absurd (by rw [← e', ← h]; exact List.mem_map_of_mem hr) hn.1
        · exact ih hn.2 hr hs
  exact key hR.nodup hr hs

theorem Fst.unique {i : Nat} {f g : Row} (hf : Fst nv cp i f) (hg : Fst nv cp i g) (h : low nv i f.2 = low nv i g.2) : f = g := by
  obtain ⟨A, B, e, hA⟩ := hf
  obtain ⟨A', B', e', hA'⟩ := hg
  rw [e] at e'
  clear e
  induction A generalizing A' with
  | nil =>
    cases A' with
    | nil => exact (List.cons.inj e').1
    | cons x A' =>
      obtain ⟨rfl, _⟩ := List.cons.inj e'
      exact absurd h (hA' _ List.mem_cons_self)
  | cons y A ih =>
    cases A' with
    | nil =>
      obtain ⟨rfl, _⟩ := List.cons.inj e'
      exact absurd h.symm (hA _ List.mem_cons_self)
    | cons x A' =>
      exact ih (fun a ha => hA a (List.mem_cons_of_mem _ ha)) A' (List.cons.inj e').2 (fun a ha => hA' a (List.mem_cons_of_mem _ ha))

theorem exists_fst {i : Nat} {r : Row} (h : r ∈ cp) : ∃ f, Fst nv cp i f ∧ low nv i f.2 = low nv i r.2 := by
  have key : ∀ {l : List Row}, r ∈ l → ∃ f A B, l = A ++ f :: B ∧ low nv i f.2 = low nv i r.2 ∧ ∀ a ∈ A, low nv i a.2 ≠ low nv i f.2 := by
    intro l
    induction l with
    | nil => intro h; cases h
    | cons x l ih =>
      intro h
      by_cases hx : low nv i x.2 = low nv i r.2
      · exact ⟨x, [], l, rfl, hx, fun a ha => by cases ha⟩
      · have hr : r ∈ l := by
          rcases List.mem_cons.1 h with rfl | h
          · exact absurd rfl hx
          · exact h
        obtain ⟨f, A, B, e, e', hA⟩ := ih hr
        refine ⟨f, x :: A, B, by rw [e]; rfl, e', fun a ha => ?_⟩
        rcases List.mem_cons.1 ha with rfl | ha
        · rw [e']; exact hx
        · exact hA a ha
  obtain ⟨f, A, B, e, e', hA⟩ := key h
  exact ⟨f, ⟨A, B, e, hA⟩, e'⟩

theorem low_raise {w : List Int} (hw : Form nv w) {i i' : Nat} {L : List Int} (hi : i ≤ i') (hn : i' ≤ nv) (h : low nv i' w = L) (hL : ∀ x ∈ L, lev nv x ≤ i) : low nv i w = L := by
  obtain ⟨_, z, c, e, hz⟩ := (low_eq_iff hw hn).1 h
  exact (low_eq_iff hw (by omega)).2 ⟨hL, z, c, e, by omega⟩

theorem Fst.raise (hR : Rows nv cp) {i i' : Nat} {p : Row} (h : Fst nv cp i p) (hi : i ≤ i') (hn : i' ≤ nv) (e : low nv i p.2 = low nv i' p.2) : Fst nv cp i' p := by
  obtain ⟨A, B, ec, hA⟩ := h
  refine ⟨A, B, ec, fun a ha g => hA a ha ?_⟩
  exact low_raise (hR.form a (by rw [ec]; simp [ha])) hi hn (g.trans e.symm) fun x hx => low_mem hx

theorem dn_congr {cm cm' : CMap} {i : Nat} {L : List Int} (h : ∀ r ∈ cp, low nv i r.2 = L → cm' i r.1 = cm i r.1) : Dn nv cp cm' i L ↔ Dn nv cp cm i L := by
  constructor
  · intro g f hf e r hr e'
    rw [← h r hr e']
    exact g f hf e r hr e'
  · intro g f hf e r hr e'
    rw [h r hr e']
    exact g f hf e r hr e'

theorem un_congr {cm cm' : CMap} {i : Nat} {L : List Int} (h : ∀ r ∈ cp, low nv i r.2 = L → cm' i r.1 = cm i r.1) : Un nv cp cm' i L ↔ Un nv cp cm i L := by
  constructor
  · intro g r hr e'
    rw [← h r hr e']
    exact g r hr e'
  · intro g r hr e'
    rw [h r hr e']
    exact g r hr e'

/-- A clause that is not the first one of its class is free if and only if the class has not been treated. -/
theorem dn_of_mapped {cm : CMap} (hm : MInv nv cp cm) {i : Nat} (hi : i ≤ nv) {q : Row} (hq : q ∈ cp) (h : cm i q.1 ≠ q.1) : Dn nv cp cm i (low nv i q.2) :=
  (hm.st i hi _).resolve_right fun g => h (g q hq rfl)

theorem not_dn_of_free (hR : Rows nv cp) {cm : CMap} {i : Nat} {A B : List Row} {p q : Row} (e : cp = A ++ p :: q :: B) (hl : low nv i p.2 = low nv i q.2) (h : cm i q.1 = q.1) : ¬ Dn nv cp cm i (low nv i q.2) := by
  intro g
  have hq : q ∈ cp := by rw [e]; simp
  obtain ⟨f, hf, ef⟩ := exists_fst (nv := nv) (i := i) hq
  have h1 := g f hf ef q hq rfl
  have : f = q := hR.inj hf.mem hq (h1.symm.trans h)
  subst this
  obtain ⟨A', B', e', hA'⟩ := hf
  have e2 : (A ++ [p]) ++ f :: B = A' ++ f :: B' := by rw [← e', e]; simp
  have hn := hR.rows_nodup
  have : A ++ [p] = A' := split_unique (by rw [e2, ← e']; exact hn) e2
  exact hA' p (by rw [← this]; simp) hl

/-! ## The loops -/

theorem freeLevel_spec {cm : CMap} {j : Nat} : ∀ {n i : Nat}, i ≤ freeLevel cm j n i ∧ freeLevel cm j n i ≤ i + n ∧ (∀ i', i ≤ i' → i' < freeLevel cm j n i → cm i' j ≠ j) ∧ (freeLevel cm j n i < i + n → cm (freeLevel cm j n i) j = j) := by
  intro n
  induction n with
  | zero => intro i; exact ⟨Nat.le_refl _, Nat.le_refl _, fun i' h1 h2 => absurd h2 (Nat.not_lt.2 h1), fun h => absurd h (Nat.lt_irrefl _)⟩
  | succ n ih =>
    intro i
    rw [freeLevel]
    split
    · rename_i h
      obtain ⟨h1, h2, h3, h4⟩ := ih (i := i + 1)
      refine ⟨by omega, by omega, fun i' g1 g2 => ?_, fun g => h4 (by omega)⟩
      by_cases e : i' = i
      · rw [e]; exact h
      · exact h3 i' (by omega) g2
    · rename_i h
      exact ⟨Nat.le_refl _, by omega, fun i' h1 h2 => absurd h2 (Nat.not_lt.2 h1), fun _ => Decidable.of_not_not h⟩

theorem mapBand_spec {j1 j2 : Nat} : ∀ {n i : Nat} {cm : CMap}, (∀ i', i ≤ i' → i' < i + n → cm i' j2 = j2) →
    mapBand j1 j2 n i cm = some fun i' j => if (i ≤ i' ∧ i' < i + n) ∧ j = j2 then j1 else cm i' j := by
  intro n
  induction n with
  | zero =>
    intro i cm _
    rw [mapBand, Option.some.injEq]
    funext i' j
    rw [if_neg (by omega)]
  | succ n ih =>
    intro i cm h
    rw [mapBand, if_pos (h i (Nat.le_refl _) (by omega)), ih (fun i' h1 h2 => by rw [if_neg (by omega)]; exact h i' (by omega) (by omega)), Option.some.injEq]
    funext i' j
    by_cases e : i' = i ∧ j = j2
    · rw [if_neg (by omega), if_pos e, if_pos (by omega)]
    · rw [if_neg e]
      by_cases e2 : (i + 1 ≤ i' ∧ i' < i + 1 + n) ∧ j = j2
      · rw [if_pos e2, if_pos (by omega)]
      · rw [if_neg e2, if_neg (by omega)]

theorem mapGroup_spec {j1 n i : Nat} : ∀ {g : List Row} {cm : CMap}, (g.map (·.1)).Nodup → (∀ r ∈ g, ∀ i', i ≤ i' → i' < i + n → cm i' r.1 = r.1) →
    mapGroup j1 n i g cm = some fun i' j => if (i ≤ i' ∧ i' < i + n) ∧ j ∈ g.map (·.1) then j1 else cm i' j := by
  intro g
  induction g with
  | nil =>
    intro cm _ _
    rw [mapGroup, Option.some.injEq]
    funext i' j
    rw [if_neg (by simp)]
  | cons q g ih =>
    intro cm hn h
    rw [List.map_cons, List.nodup_cons] at hn
    rw [mapGroup, mapBand_spec (h q List.mem_cons_self), Option.bind_some, ih hn.2, Option.some.injEq]
    · funext i' j
      simp only [List.map_cons, List.mem_cons]
      by_cases e1 : i ≤ i' ∧ i' < i + n
      · by_cases e2 : j = q.1
        · by_cases e3 : j ∈ g.map (·.1) <;> simp [e1, e2]
        · simp only [e1, e2, false_or, and_false, if_false, true_and, and_self]
      · simp [e1]
    · intro r hr i' h1 h2
      rw [if_neg]
      · exact h r (List.mem_cons_of_mem _ hr) i' h1 h2
      · rintro ⟨_, e⟩
        exact hn.1 (by rw [← e]; exact List.mem_map_of_mem hr)

end CnfB

end TdZdd
