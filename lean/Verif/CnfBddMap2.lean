import Verif.CnfBddMap

/-! The map to canonical clauses: `makeClauseMap` keeps the invariant. -/

namespace TdZdd

namespace CnfB

open Cnf

variable {nv : Nat} {cp : List Row}

/-- All classes of the row at the levels from its `k`-th literal on have been treated. -/
def DoneR (nv : Nat) (cp : List Row) (cm : CMap) (k : Nat) (r : Row) : Prop := ∀ t, r.2[k]? = some t → t ≠ 0 → ∀ i, lev nv t ≤ i → i ≤ nv → Dn nv cp cm i (low nv i r.2)

theorem DoneR.mono {cm cm' : CMap} {k : Nat} {r : Row} (h : DoneR nv cp cm k r) (hm : ∀ i L, Dn nv cp cm i L → Dn nv cp cm' i L) : DoneR nv cp cm' k r :=
  fun t h1 h2 i h3 h4 => hm _ _ (h t h1 h2 i h3 h4)

theorem DoneR.next (hR : Rows nv cp) {cm : CMap} {k : Nat} {r : Row} (hr : r ∈ cp) {t : Int} (ht : r.2[k]? = some t) (h0 : t ≠ 0) (h : DoneR nv cp cm k r) : DoneR nv cp cm (k + 1) r := by
  intro t' h1 h2 i h3 h4
  obtain ⟨t2, c, _, _, e, _, _, hl, _⟩ := (hR.form r hr).at ht h0
  rw [e, Option.some.injEq] at h1
  subst h1
  exact h t ht h0 i (by omega) h4

/-- a row with a given beginning -/
theorem take_iff {w Q : List Int} {k : Nat} (hw : Form nv w) {t : Int} (hQ : ∃ P, Q = P ++ [t] ∧ P.length = k) (ht : t ≠ 0) : w.take (k + 1) = Q ↔ ∃ z c, w = Q ++ z :: c := by
  obtain ⟨P, rfl, hP⟩ := hQ
  constructor
  · intro h
    have hk : w[k]? = some t := by
      have : (w.take (k + 1))[k]? = some t := by rw [h, ← hP]; simp
      rwa [List.getElem?_take_of_lt (by omega)] at this
    obtain ⟨t2, c, e, _⟩ := hw.at hk ht
    have e2 : w.take k = P := by
      have := congrArg (List.take k) h
      rw [List.take_take, Nat.min_eq_left (by omega)] at this
      rw [this, ← hP, List.take_left]
    refine ⟨t2, c, ?_⟩
    rw [e2] at e
    rw [e]
    simp
  · rintro ⟨z, c, rfl⟩
    have : (P ++ [t]).length = k + 1 := by simp [hP]
    rw [← this, List.take_left]

/-- What is known when the clauses after `p` that have the same literal have been found. -/
structure Ctx (nv : Nat) (cp : List Row) (cm : CMap) (k : Nat) (A : List Row) (p q : Row) (g B : List Row) (P : List Int) (t1 t2 : Int) : Prop where
  eq : cp = A ++ p :: q :: (g ++ B)
  len : P.length = k
  ht : t1 ≠ 0
  lev1 : 1 ≤ t1.natAbs ∧ t1.natAbs ≤ nv
  incr : lev nv t1 < lev nv t2
  top : lev nv t2 ≤ nv + 1
  bound : ∀ x ∈ P ++ [t1], lev nv x ≤ lev nv t1
  row : ∃ c, p.2 = P ++ t1 :: t2 :: c
  grp : ∀ r ∈ q :: g, ∃ z c, r.2 = (P ++ [t1]) ++ z :: c
  out : ∀ r ∈ B, ∀ z c, r.2 ≠ (P ++ [t1]) ++ z :: c
  old : ∀ r ∈ A, (∃ z c, r.2 = (P ++ [t1]) ++ z :: c) → ∀ i, lev nv t1 ≤ i → i ≤ nv → Dn nv cp cm i (low nv i r.2)

namespace Ctx

variable {cm : CMap} {k : Nat} {A : List Row} {p q : Row} {g B : List Row} {P : List Int} {t1 t2 : Int}

theorem memp (c : Ctx nv cp cm k A p q g B P t1 t2) : p ∈ cp := by rw [c.eq]; simp

theorem memq (c : Ctx nv cp cm k A p q g B P t1 t2) {r : Row} (h : r ∈ q :: g) : r ∈ cp := by
  rw [c.eq]
  rcases List.mem_cons.1 h with rfl | h
  · simp
  · simp [h]

theorem le (hR : Rows nv cp) (c : Ctx nv cp cm k A p q g B P t1 t2) {r : Row} (h : r ∈ q :: g) : Le p.2 r.2 := by
  have hs := hR.sorted
  rw [c.eq] at hs
  obtain ⟨_, h2, _⟩ := List.pairwise_append.1 hs
  refine (List.pairwise_cons.1 h2).1 r ?_
  rcases List.mem_cons.1 h with rfl | h
  · simp
  · simp [h]

theorem lowp (c : Ctx nv cp cm k A p q g B P t1 t2) {i : Nat} (h1 : lev nv t1 ≤ i) (h2 : i < lev nv t2) : low nv i p.2 = P ++ [t1] := by
  obtain ⟨d, e⟩ := c.row
  rw [e, show P ++ t1 :: t2 :: d = (P ++ [t1]) ++ t2 :: d by simp]
  exact low_append (fun x hx => Nat.le_trans (c.bound x hx) h1) h2

theorem lowq (hR : Rows nv cp) (c : Ctx nv cp cm k A p q g B P t1 t2) {i : Nat} (h1 : lev nv t1 ≤ i) (h2 : i < lev nv t2) {r : Row} (h : r ∈ q :: g) : low nv i r.2 = P ++ [t1] := by
  obtain ⟨d, e⟩ := c.row
  obtain ⟨z, d', e'⟩ := c.grp r h
  have hl := c.le hR h
  rw [e, e', show P ++ t1 :: t2 :: d = (P ++ [t1]) ++ t2 :: d by simp] at hl
  have := le_next hl
  rw [e']
  refine low_append (fun x hx => Nat.le_trans (c.bound x hx) h1) ?_
  unfold lev at h2 ⊢
  omega

theorem cases (hR : Rows nv cp) (c : Ctx nv cp cm k A p q g B P t1 t2) {i : Nat} (hi : i ≤ nv) {r : Row} (hr : r ∈ cp) (h : low nv i r.2 = P ++ [t1]) : (r ∈ A ∧ ∃ z c, r.2 = (P ++ [t1]) ++ z :: c) ∨ r = p ∨ r ∈ q :: g := by
  obtain ⟨_, z, d, e, _⟩ := (low_eq_iff (hR.form r hr) hi).1 h
  rw [c.eq] at hr
  rcases List.mem_append.1 hr with h | h
  · exact .inl ⟨h, z, d, e⟩
  · rcases List.mem_cons.1 h with h | h
    · exact .inr (.inl h)
    · rcases List.mem_cons.1 h with h | h
      · exact .inr (.inr (by rw [h]; exact List.mem_cons_self))
      · rcases List.mem_append.1 h with h | h
        · exact .inr (.inr (List.mem_cons_of_mem _ h))
        · exact absurd e (c.out r h z d)

theorem not_dn (hR : Rows nv cp) (c : Ctx nv cp cm k A p q g B P t1 t2) {i : Nat} (h1 : lev nv t1 ≤ i) (h2 : i < lev nv t2) (h : cm i q.1 = q.1) : ¬ Dn nv cp cm i (P ++ [t1]) := by
  have := not_dn_of_free hR c.eq ((c.lowp h1 h2).trans (c.lowq hR h1 h2 List.mem_cons_self).symm) h
  rwa [c.lowq hR h1 h2 List.mem_cons_self] at this

theorem dn (hR : Rows nv cp) (c : Ctx nv cp cm k A p q g B P t1 t2) (hm : MInv nv cp cm) {i : Nat} (h1 : lev nv t1 ≤ i) (h2 : i < lev nv t2) (h : cm i q.1 ≠ q.1) : Dn nv cp cm i (P ++ [t1]) := by
  have := c.top
  have := dn_of_mapped hm (by omega) (c.memq List.mem_cons_self) h
  rwa [c.lowq hR h1 h2 List.mem_cons_self] at this

theorem fst (hR : Rows nv cp) (c : Ctx nv cp cm k A p q g B P t1 t2) {i : Nat} (h1 : lev nv t1 ≤ i) (h2 : i < lev nv t2) (h : cm i q.1 = q.1) : Fst nv cp i p := by
  refine ⟨A, _, c.eq, fun a ha e => ?_⟩
  have ht := c.top
  rw [c.lowp h1 h2] at e
  have hm : a ∈ cp := by rw [c.eq]; simp [ha]
  obtain ⟨_, z, d, e', _⟩ := (low_eq_iff (hR.form a hm) (by omega)).1 e
  have := c.old a ha ⟨z, d, e'⟩ i h1 (by omega)
  rw [e] at this
  exact c.not_dn hR h1 h2 h this

/-- The clauses of the group are mapped to `p` from the first free level on. -/
theorem act (hR : Rows nv cp) (c : Ctx nv cp cm k A p q g B P t1 t2) (hm : MInv nv cp cm) {i1 : Nat} (h1 : lev nv t1 ≤ i1) (h2 : i1 < lev nv t2) (hb : ∀ i, lev nv t1 ≤ i → i < i1 → cm i q.1 ≠ q.1) (hf : cm i1 q.1 = q.1) :
    ∃ cm', mapGroup p.1 (lev nv t2 - i1) i1 (q :: g) cm = some cm' ∧ MInv nv cp cm' ∧ (∀ i L, Dn nv cp cm i L → Dn nv cp cm' i L) ∧ ∀ i, lev nv t1 ≤ i → i < lev nv t2 → Dn nv cp cm' i (P ++ [t1]) := by
  have ht := c.top
  have hne : P ++ [t1] ≠ [] := by simp
  have f1 : ∀ i, i1 ≤ i → i < lev nv t2 → Fst nv cp i p := fun i g1 g2 =>
    (c.fst hR h1 h2 hf).raise hR g1 (by omega) ((c.lowp h1 h2).trans (c.lowp (by omega) g2).symm)
  have nd : ∀ i, i1 ≤ i → i < lev nv t2 → ¬ Dn nv cp cm i (P ++ [t1]) := by
    intro i g1 g2
    rcases Nat.eq_or_lt_of_le g1 with rfl | g1
    · exact c.not_dn hR h1 h2 hf
    · intro hd
      have := hm.band p i1 i g1 (by omega) (f1 i1 (Nat.le_refl _) h2) ((c.lowp h1 h2).trans (c.lowp (by omega) g2).symm) (by rw [c.lowp h1 h2]; exact hne)
      rw [c.lowp h1 h2] at this
      exact c.not_dn hR h1 h2 hf (this.2 hd)
  have un : ∀ i, i1 ≤ i → i < lev nv t2 → Un nv cp cm i (P ++ [t1]) := fun i g1 g2 => (hm.st i (by omega) _).resolve_left (nd i g1 g2)
  have hnd : ((p :: q :: g).map (·.1)).Nodup := by
    have := hR.nodup
    rw [c.eq, show A ++ p :: q :: (g ++ B) = A ++ ((p :: q :: g) ++ B) by simp, List.map_append, List.map_append] at this
    exact (List.nodup_append.1 (List.nodup_append.1 this).2.1).1
  rw [List.map_cons, List.nodup_cons] at hnd
  have hrange : ∀ i, (i1 ≤ i ∧ i < i1 + (lev nv t2 - i1)) ↔ (i1 ≤ i ∧ i < lev nv t2) := fun i => by omega
  refine ⟨_, mapGroup_spec hnd.2 fun r hr i g1 g2 => ?_, ?_⟩
  · exact un i g1 (by omega) r (c.memq hr) (c.lowq hR (by omega) (by omega) hr)
  · simp only [hrange]
    generalize hcm : (fun i' j => if (i1 ≤ i' ∧ i' < lev nv t2) ∧ j ∈ (q :: g).map (·.1) then p.1 else cm i' j) = cm'
    have loc : ∀ i L, ¬ ((i1 ≤ i ∧ i < lev nv t2) ∧ L = P ++ [t1]) → ∀ r ∈ cp, low nv i r.2 = L → cm' i r.1 = cm i r.1 := by
      intro i L hn r hr e
      rw [← hcm]
      show (if _ then _ else _) = _
      rw [if_neg]
      rintro ⟨g1, g2⟩
      obtain ⟨s, hs, es⟩ := List.mem_map.1 g2
      have : s = r := hR.inj (c.memq hs) hr es
      subst this
      exact hn ⟨g1, e.symm.trans (c.lowq hR (by omega) g1.2 hs)⟩
    have new : ∀ i, i1 ≤ i → i < lev nv t2 → Dn nv cp cm' i (P ++ [t1]) := by
      intro i g1 g2 f hf' ef r hr er
      have : f = p := hf'.unique (f1 i g1 g2) (ef.trans (c.lowp (by omega) g2).symm)
      subst this
      rw [← hcm]
      show (if _ then _ else _) = _
      rcases c.cases hR (by omega) hr er with ⟨ha, hz⟩ | rfl | hq
      · exfalso
        have := c.old r ha hz i (by omega) (by omega)
        rw [er] at this
        exact nd i g1 g2 this
      · rw [if_neg (fun h => hnd.1 h.2)]
        exact un i g1 g2 r hr er
      · rw [if_pos ⟨⟨g1, g2⟩, List.mem_map_of_mem hq⟩]
    have dnc : ∀ i L, ¬ ((i1 ≤ i ∧ i < lev nv t2) ∧ L = P ++ [t1]) → (Dn nv cp cm' i L ↔ Dn nv cp cm i L) := fun i L h => dn_congr (loc i L h)
    have mono : ∀ i L, Dn nv cp cm i L → Dn nv cp cm' i L := by
      intro i L hd
      by_cases h : (i1 ≤ i ∧ i < lev nv t2) ∧ L = P ++ [t1]
      · rw [h.2]; exact new i h.1.1 h.1.2
      · exact (dnc i L h).2 hd
    refine ⟨⟨fun i hi L => ?_, fun p2 i i' hi hi' hp el en => ?_⟩, mono, fun i g1 g2 => ?_⟩
    · by_cases h : (i1 ≤ i ∧ i < lev nv t2) ∧ L = P ++ [t1]
      · rw [h.2]; exact .inl (new i h.1.1 h.1.2)
      · exact (hm.st i hi L).imp (dnc i L h).2 (un_congr (loc i L h)).2
    · have hp2 := hR.form p2 hp.mem
      by_cases h' : (i1 ≤ i' ∧ i' < lev nv t2) ∧ low nv i p2.2 = P ++ [t1]
      · have hd' := new i' h'.1.1 h'.1.2
        rw [← h'.2] at hd'
        refine ⟨fun _ => hd', fun _ => ?_⟩
        by_cases h : i1 ≤ i
        · rw [h'.2]; exact new i h (by omega)
        · have e' := hp.raise hR (Nat.le_of_lt hi) hi' el
          have : p2 = p := e'.unique (f1 i' h'.1.1 h'.1.2) ((el.symm.trans h'.2).trans (c.lowp (by omega) h'.1.2).symm)
          subst this
          have hlev : lev nv t1 ≤ i := low_mem (w := p2.2) (by rw [h'.2]; simp)
          have hd := c.dn hR hm hlev (by omega) (hb i hlev (by omega))
          exfalso
          have := hm.band p2 i i' hi hi' hp el en
          rw [h'.2] at this
          exact nd i' h'.1.1 h'.1.2 (this.1 hd)
      · by_cases h : (i1 ≤ i ∧ i < lev nv t2) ∧ low nv i p2.2 = P ++ [t1]
        · exfalso
          apply h'
          refine ⟨⟨by omega, ?_⟩, h.2⟩
          have : p2 = p := hp.unique (f1 i h.1.1 h.1.2) (h.2.trans (c.lowp (by omega) h.1.2).symm)
          subst this
          rcases Nat.lt_or_ge i' (lev nv t2) with g | g
          · exact g
          · exfalso
            have e2 := el.symm.trans h.2
            obtain ⟨_, z, d, e3, hz⟩ := (low_eq_iff hp2 hi').1 e2
            obtain ⟨d', e4⟩ := c.row
            rw [e4, show P ++ t1 :: t2 :: d' = (P ++ [t1]) ++ t2 :: d' by simp] at e3
            obtain ⟨rfl, _⟩ := List.cons.inj (List.append_cancel_left e3)
            omega
        · rw [dnc _ _ h, dnc _ _ h']
          exact hm.band p2 i i' hi hi' hp el en
    · by_cases h : i1 ≤ i
      · exact new i h g2
      · exact mono _ _ (c.dn hR hm g1 g2 (hb i g1 (by omega)))

end Ctx

theorem low_prefix {i : Nat} {Q c : List Int} (h : ∀ x ∈ Q, lev nv x ≤ i) : ∃ L, low nv i (Q ++ c) = Q ++ L :=
  ⟨c.takeWhile fun x => decide (lev nv x ≤ i), List.takeWhile_append_of_pos fun x hx => decide_eq_true (h x hx)⟩

theorem same_prefix {i : Nat} (hi : i ≤ nv) {w v Q c : List Int} (hw : Form nv w) (hv : v = Q ++ c) (h : ∀ x ∈ Q, lev nv x ≤ i) (e : low nv i w = low nv i v) : ∃ z d, w = Q ++ z :: d := by
  obtain ⟨L, eL⟩ := low_prefix (nv := nv) (c := c) h
  rw [hv, eL] at e
  obtain ⟨_, z, d, e2, _⟩ := (low_eq_iff hw hi).1 e
  cases L with
  | nil => exact ⟨z, d, by rw [e2, List.append_nil]⟩
  | cons y L => exact ⟨y, L ++ z :: d, by rw [e2]; simp⟩

/-- If no row after `p` is in the class of `p`, then the class is done if it has been done for the rows before `p`. -/
theorem last_done {cm : CMap} (hm : MInv nv cp cm) {A C : List Row} {p : Row} (e : cp = A ++ p :: C) {i : Nat} (hi : i ≤ nv) (hC : ∀ r ∈ C, low nv i r.2 ≠ low nv i p.2)
    (hA : ∀ a ∈ A, low nv i a.2 = low nv i p.2 → Dn nv cp cm i (low nv i a.2)) : Dn nv cp cm i (low nv i p.2) := by
  by_cases h : ∃ a ∈ A, low nv i a.2 = low nv i p.2
  · obtain ⟨a, ha, ea⟩ := h
    rw [← ea]
    exact hA a ha ea
  · rcases hm.st i hi (low nv i p.2) with g | g
    · exact g
    · have only : ∀ r ∈ cp, low nv i r.2 = low nv i p.2 → r = p := by
        intro r hr er
        rw [e] at hr
        rcases List.mem_append.1 hr with k | k
        · exact absurd ⟨r, k, er⟩ h
        · rcases List.mem_cons.1 k with k | k
          · exact k
          · exact absurd er (hC r k)
      intro f hf ef r hr er
      rw [only f hf.mem ef, only r hr er]
      exact g p (by rw [e]; simp) rfl

theorem dropWhile_split {α : Type} {p : α → Bool} {l : List α} {r : α} (h : r ∈ l.dropWhile p) : ∃ A d B, l = A ++ d :: B ∧ p d = false ∧ (r = d ∨ r ∈ B) ∧ l.takeWhile p = A ∧ l.dropWhile p = d :: B := by
  induction l with
  | nil => cases h
  | cons x l ih =>
    by_cases hx : p x = true
    · rw [List.dropWhile_cons, if_pos hx] at h
      obtain ⟨A, d, B, e, h1, h2, h3, h4⟩ := ih h
      exact ⟨x :: A, d, B, by rw [e]; rfl, h1, h2, by rw [List.takeWhile_cons, if_pos hx, h3], by rw [List.dropWhile_cons, if_pos hx, h4]⟩
    · rw [List.dropWhile_cons, if_neg hx] at h
      exact ⟨[], x, l, rfl, by simpa using hx, List.mem_cons.1 h, by rw [List.takeWhile_cons, if_neg hx], by rw [List.dropWhile_cons, if_neg hx]⟩

theorem Rows.between (hR : Rows nv cp) {A B C : List Row} {p d r : Row} (e : cp = A ++ p :: (B ++ d :: C)) (hr : r ∈ C) : Le p.2 d.2 ∧ Le d.2 r.2 := by
  have hs := hR.sorted
  rw [e] at hs
  obtain ⟨h1, h2⟩ := List.pairwise_cons.1 (List.pairwise_append.1 hs).2.1
  exact ⟨h1 d (by simp), (List.pairwise_cons.1 (List.pairwise_append.1 h2).2.1).1 r hr⟩

/-- what a call of `makeClauseMap` does -/
def Calls (nv : Nat) (cp : List Row) (k : Nat) (next : List Row → CMap → Option CMap) : Prop :=
  ∀ A g B Q cm, cp = A ++ (g ++ B) → Q.length = k → (∀ r ∈ g, r.2.take k = Q ∧ ∃ t, r.2[k]? = some t) → (∀ r ∈ B, r.2.take k ≠ Q) → (∀ r ∈ A, r.2.take k = Q → DoneR nv cp cm k r) → MInv nv cp cm →
    ∃ cm', next g cm = some cm' ∧ MInv nv cp cm' ∧ (∀ i L, Dn nv cp cm i L → Dn nv cp cm' i L) ∧ ∀ r ∈ g, DoneR nv cp cm' k r

theorem take_succ {w Q : List Int} {k : Nat} (hk : Q.length = k) {t : Int} {z : Int} {c : List Int} (h : w = (Q ++ [t]) ++ z :: c) : w.take k = Q ∧ w[k]? = some t := by
  subst h
  subst hk
  constructor
  · rw [List.append_assoc, List.take_left]
  · simp

theorem mapFirst_spec (hR : Rows nv cp) {k : Nat} {next : List Row → CMap → Option CMap} (hnext : k + 1 ≤ nv → Calls nv cp (k + 1) next) {A B rest : List Row} {p : Row} {P : List Int} {cm : CMap}
    (e : cp = A ++ p :: (rest ++ B)) (hP : P.length = k) (hp : p.2.take k = P) (ht : ∃ t, p.2[k]? = some t) (hr : ∀ r ∈ rest, r.2.take k = P ∧ ∃ t, r.2[k]? = some t) (hB : ∀ r ∈ B, r.2.take k ≠ P)
    (hA : ∀ r ∈ A, r.2.take k = P → DoneR nv cp cm k r) (hm : MInv nv cp cm) :
    ∃ cm', mapFirst nv k p rest next cm = some cm' ∧ MInv nv cp cm' ∧ (∀ i L, Dn nv cp cm i L → Dn nv cp cm' i L) ∧ DoneR nv cp cm' k p := by
  obtain ⟨t1, ht⟩ := ht
  have pm : p ∈ cp := by rw [e]; simp
  have hform := hR.form p pm
  have same : t1 ≠ 0 → ∀ i, lev nv t1 ≤ i → i ≤ nv → ∀ r ∈ cp, low nv i r.2 = low nv i p.2 → ∃ z d, r.2 = (P ++ [t1]) ++ z :: d := by
    intro h0 i h1 h2 r hrm er
    obtain ⟨t2, c, ep, _, _, _, _, _, hb⟩ := hform.at ht h0
    rw [hp] at ep hb
    exact same_prefix (Q := P ++ [t1]) (c := t2 :: c) h2 (hR.form r hrm) (by rw [ep]; simp) (fun x hx => Nat.le_trans (hb x hx) h1) er
  have back : t1 ≠ 0 → ∀ i, lev nv t1 ≤ i → i ≤ nv → ∀ a ∈ A, low nv i a.2 = low nv i p.2 → Dn nv cp cm i (low nv i a.2) := by
    intro h0 i h1 h2 a ha ea
    obtain ⟨z, d, ez⟩ := same h0 i h1 h2 a (by rw [e]; simp [ha]) ea
    obtain ⟨k1, k2⟩ := take_succ hP ez
    exact hA a ha k1 t1 k2 h0 i h1 h2
  unfold mapFirst
  cases rest with
  | nil =>
    refine ⟨cm, rfl, hm, fun _ _ h => h, fun t et h0 i h1 h2 => ?_⟩
    rw [ht, Option.some.injEq] at et
    subst et
    refine last_done hm e h2 (fun r hrm er => ?_) (back h0 i h1 h2)
    rw [List.nil_append] at hrm
    obtain ⟨z, d, ez⟩ := same h0 i h1 h2 r (by rw [e]; simp [hrm]) er
    exact hB r hrm (take_succ hP ez).1
  | cons q rest =>
    rw [List.head?_cons, Option.elim_some, ht, Option.bind_some]
    by_cases h0 : t1 = 0
    · rw [if_pos h0]
      refine ⟨cm, rfl, hm, fun _ _ h => h, fun t et h0' => ?_⟩
      rw [ht, Option.some.injEq] at et
      exact absurd (et.symm.trans h0) h0'
    · rw [if_neg h0]
      obtain ⟨hq1, x, hx⟩ := hr q List.mem_cons_self
      rw [hx, Option.bind_some]
      by_cases h1 : x = t1
      · subst h1
        rw [if_neg (by simp)]
        obtain ⟨t2, c, ep, _, et2, l1, l2, l3, hb⟩ := hform.at ht h0
        rw [hp] at ep hb
        rw [et2, Option.bind_some]
        have i2e : (if t2 ≠ 0 then lev nv t2 else nv + 1) = lev nv t2 := by
          split
          · rfl
          · rename_i g
            rw [Decidable.of_not_not g]; rfl
        simp only [i2e]
        obtain ⟨f1, f2, f3, f4⟩ := freeLevel_spec (cm := cm) (j := q.1) (n := nv + 1 - lev nv x) (i := lev nv x)
        have hlx : lev nv x ≤ nv := by unfold lev; omega
        rw [show lev nv x + (nv + 1 - lev nv x) = nv + 1 by omega] at f2 f4
        generalize freeLevel cm q.1 (nv + 1 - lev nv x) (lev nv x) = i1 at f1 f2 f3 f4 ⊢
        have qm : q ∈ cp := by rw [e]; simp
        by_cases h2 : i1 > nv
        · rw [if_pos h2]
          refine ⟨cm, rfl, hm, fun _ _ h => h, fun t et h0' i g1 g2 => ?_⟩
          rw [ht, Option.some.injEq] at et
          subst et
          by_cases hc : low nv i q.2 = low nv i p.2
          · rw [← hc]
            exact dn_of_mapped hm g2 qm (f3 i g1 (by omega))
          · refine last_done hm e g2 (fun r hrm er => ?_) (back h0 i g1 g2)
            rcases List.mem_cons.1 hrm with k1 | k1
            · rw [k1] at er; exact hc er
            · obtain ⟨b1, b2⟩ := hR.between (B := []) (d := q) (C := rest ++ B) (by rw [e]; rfl) k1
              obtain ⟨z1, c1, e1, lz⟩ := low_split hform g2
              obtain ⟨_, z2, c2, e2, _⟩ := (low_eq_iff (hR.form r (by rw [e]; rcases List.mem_append.1 k1 with k | k <;> simp [k])) g2).1 er
              rw [e1] at b1
              rw [e2] at b2
              obtain ⟨z3, c3, e3, l⟩ := sandwich b1 b2
              apply hc
              refine (low_eq_iff (hR.form q qm) g2).2 ⟨fun y hy => low_mem hy, z3, c3, e3, ?_⟩
              unfold lev at lz ⊢
              omega
        · rw [if_neg h2]
          have hgw : (q :: rest).takeWhile (fun q => decide (q.2[k]? = some x)) = q :: rest.takeWhile (fun q => decide (q.2[k]? = some x)) := by
            rw [List.takeWhile_cons, if_pos (decide_eq_true hx)]
          rw [hgw]
          have hsplit : rest = rest.takeWhile (fun q => decide (q.2[k]? = some x)) ++ rest.dropWhile (fun q => decide (q.2[k]? = some x)) := List.takeWhile_append_dropWhile.symm
          have hgrp0 : ∀ r ∈ q :: rest.takeWhile (fun q => decide (q.2[k]? = some x)), r ∈ q :: rest ∧ r.2[k]? = some x := by
            intro r hrm
            rcases List.mem_cons.1 hrm with rfl | hrm
            · exact ⟨List.mem_cons_self, hx⟩
            · exact ⟨List.mem_cons_of_mem _ (List.takeWhile_subset _ hrm), of_decide_eq_true (List.all_eq_true.1 List.all_takeWhile r hrm)⟩
          have hout0 : ∀ r ∈ rest.dropWhile (fun q => decide (q.2[k]? = some x)), ∀ z c, r.2 ≠ (P ++ [x]) ++ z :: c := by
            intro r hrm z d ez
            obtain ⟨A', d', B', e', hd, hrd, _, _⟩ := dropWhile_split hrm
            have hnd : ¬ d'.2[k]? = some x := of_decide_eq_false hd
            rcases hrd with rfl | hrd
            · exact hnd (take_succ hP ez).2
            · obtain ⟨b1, b2⟩ := hR.between (A := A) (p := p) (B := q :: A') (d := d') (C := B' ++ B) (r := r) (by rw [e, e']; simp) (by simp [hrd])
              rw [show p.2 = (P ++ [x]) ++ t2 :: c by rw [ep]; simp] at b1
              rw [ez] at b2
              obtain ⟨z3, c3, e3, _⟩ := sandwich b1 b2
              exact hnd (take_succ hP e3).2
          generalize rest.takeWhile (fun q => decide (q.2[k]? = some x)) = g at hsplit hgrp0 ⊢
          generalize rest.dropWhile (fun q => decide (q.2[k]? = some x)) = D at hsplit hout0 ⊢
          have hgrp : ∀ r ∈ q :: g, ∃ z c, r.2 = (P ++ [x]) ++ z :: c := by
            intro r hrm
            obtain ⟨m1, m2⟩ := hgrp0 r hrm
            obtain ⟨y2, c', er, _⟩ := (hR.form r (by rw [e]; rcases List.mem_cons.1 m1 with k | k <;> simp [k])).at m2 h0
            rw [(hr r m1).1] at er
            exact ⟨y2, c', by rw [er]; simp⟩
          have ctx : Ctx nv cp cm k A p q g (D ++ B) P x t2 := by
            refine ⟨by rw [e, hsplit]; simp, hP, h0, ⟨l1, l2⟩, l3, by unfold lev; omega, hb, ⟨c, ep⟩, hgrp, ?_, ?_⟩
            · intro r hrm z d ez
              rcases List.mem_append.1 hrm with k1 | k1
              · exact hout0 r k1 z d ez
              · exact hB r k1 (take_succ hP ez).1
            · rintro r hrm ⟨z, d, ez⟩ i g1 g2
              obtain ⟨k1, k2⟩ := take_succ hP ez
              exact hA r hrm k1 x k2 h0 i g1 g2
          have step : ∃ cm1, mapGroup p.1 (lev nv t2 - i1) i1 (q :: g) cm = some cm1 ∧ MInv nv cp cm1 ∧ (∀ i L, Dn nv cp cm i L → Dn nv cp cm1 i L) ∧ ∀ i, lev nv x ≤ i → i < lev nv t2 → Dn nv cp cm1 i (P ++ [x]) := by
            by_cases h3 : i1 < lev nv t2
            · exact ctx.act hR hm f1 h3 f3 (f4 (by omega))
            · refine ⟨cm, ?_, hm, fun _ _ h => h, fun i g1 g2 => ctx.dn hR hm g1 g2 (f3 i g1 (by omega))⟩
              have hnd : ((q :: g).map (·.1)).Nodup := by
                have := hR.nodup
                rw [ctx.eq, show A ++ p :: q :: (g ++ (D ++ B)) = (A ++ [p]) ++ ((q :: g) ++ (D ++ B)) by simp, List.map_append, List.map_append (l₁ := q :: g)] at this
                exact (List.nodup_append.1 (List.nodup_append.1 this).2.1).1
              rw [mapGroup_spec hnd (fun _ _ i' g1 g2 => by omega), Option.some.injEq]
              funext i' j
              rw [if_neg (by omega)]
          obtain ⟨cm1, e1, hm1, mono1, d1⟩ := step
          rw [e1, Option.bind_some]
          have hQ : ∃ P', P ++ [x] = P' ++ [x] ∧ P'.length = k := ⟨P, rfl, hP⟩
          obtain ⟨cm2, e2, hm2, mono2, d2⟩ := hnext (hform.index ht h0) A (p :: q :: g) (D ++ B) (P ++ [x]) cm1 (by rw [ctx.eq]; simp) (by simp [hP]) (by
              intro r hrm
              rcases List.mem_cons.1 hrm with k1 | k1
              · rw [k1]
                exact ⟨(take_iff hform hQ h0).2 ⟨t2, c, by rw [ep]; simp⟩, t2, et2⟩
              · have rm := ctx.memq k1
                refine ⟨(take_iff (hR.form r rm) hQ h0).2 (hgrp r k1), ?_⟩
                obtain ⟨y2, _, _, _, ey, _⟩ := (hR.form r rm).at (hgrp0 r k1).2 h0
                exact ⟨y2, ey⟩)
            (by
              intro r hrm er
              have rm : r ∈ cp := by rw [ctx.eq]; rcases List.mem_append.1 hrm with k1 | k1 <;> simp [k1]
              obtain ⟨z, d, ez⟩ := (take_iff (hR.form r rm) hQ h0).1 er
              exact ctx.out r hrm z d ez)
            (by
              intro r hrm er
              have rm : r ∈ cp := by rw [ctx.eq]; simp [hrm]
              obtain ⟨z, d, ez⟩ := (take_iff (hR.form r rm) hQ h0).1 er
              obtain ⟨k1, k2⟩ := take_succ hP ez
              exact (DoneR.next hR rm k2 h0 (hA r hrm k1)).mono mono1) hm1
          refine ⟨cm2, e2, hm2, fun i L h => mono2 i L (mono1 i L h), fun t et h0' i g1 g2 => ?_⟩
          rw [ht, Option.some.injEq] at et
          subst et
          by_cases h3 : i < lev nv t2
          · rw [ctx.lowp g1 h3]
            exact mono2 _ _ (d1 i g1 h3)
          · refine d2 p List.mem_cons_self t2 et2 ?_ i (by omega) g2
            rintro rfl
            rw [lev_zero] at h3
            omega
      · rw [if_pos h1]
        refine ⟨cm, rfl, hm, fun _ _ h => h, fun t et h0' i g1 g2 => ?_⟩
        rw [ht, Option.some.injEq] at et
        subst et
        have hqn : ∀ z d, q.2 ≠ (P ++ [t1]) ++ z :: d := by
          intro z d ez
          have := (take_succ hP ez).2
          rw [hx, Option.some.injEq] at this
          exact h1 this
        refine last_done hm e g2 (fun r hrm er => ?_) (back h0 i g1 g2)
        have rm : r ∈ cp := by
          rw [e]
          rcases List.mem_append.1 hrm with k1 | k1
          · rcases List.mem_cons.1 k1 with k1 | k1 <;> simp [k1]
          · simp [k1]
        obtain ⟨z, d, ez⟩ := same h0 i g1 g2 r rm er
        rcases List.mem_cons.1 hrm with k1 | k1
        · rw [k1] at ez
          exact hqn z d ez
        · obtain ⟨b1, b2⟩ := hR.between (B := []) (d := q) (C := rest ++ B) (by rw [e]; rfl) k1
          obtain ⟨t2, c, ep, _⟩ := hform.at ht h0
          rw [hp] at ep
          rw [show p.2 = (P ++ [t1]) ++ t2 :: c by rw [ep]; simp] at b1
          rw [ez] at b2
          obtain ⟨z3, c3, e3, _⟩ := sandwich b1 b2
          exact hqn z3 c3 e3

theorem mapLoop_spec (hR : Rows nv cp) {k : Nat} {next : List Row → CMap → Option CMap} (hnext : k + 1 ≤ nv → Calls nv cp (k + 1) next) : Calls nv cp k (mapLoop nv k next) := by
  intro A g
  induction g generalizing A with
  | nil =>
    intro B Q cm _ _ _ _ _ hm
    exact ⟨cm, rfl, hm, fun _ _ h => h, fun r hr => by cases hr⟩
  | cons p rest ih =>
    intro B Q cm e hQ hg hB hA hm
    obtain ⟨cm1, e1, hm1, mono1, d1⟩ := mapFirst_spec hR hnext (rest := rest) (p := p) (by rw [e]; rfl) hQ (hg p List.mem_cons_self).1 (hg p List.mem_cons_self).2 (fun r hr => hg r (List.mem_cons_of_mem _ hr)) hB hA hm
    obtain ⟨cm2, e2, hm2, mono2, d2⟩ := ih (A ++ [p]) B Q cm1 (by rw [e]; simp) hQ (fun r hr => hg r (List.mem_cons_of_mem _ hr)) hB (by
      intro r hr er
      rcases List.mem_append.1 hr with k1 | k1
      · exact (hA r k1 er).mono mono1
      · rw [List.mem_singleton.1 k1]; exact d1) hm1
    refine ⟨cm2, by rw [mapLoop, e1]; exact e2, hm2, fun i L h => mono2 i L (mono1 i L h), fun r hr => ?_⟩
    rcases List.mem_cons.1 hr with k1 | k1
    · rw [k1]; exact d1.mono mono2
    · exact d2 r k1

theorem makeMap_spec (hR : Rows nv cp) : ∀ {d k : Nat}, k ≤ nv → nv + 1 ≤ d + k → Calls nv cp k (makeMap nv d k) := by
  intro d
  induction d with
  | zero => intro k h1 h2; omega
  | succ d ih =>
    intro k h1 h2
    exact mapLoop_spec hR fun h => ih h (by omega)

/-- The map is defined, and each clause is mapped to the first one with the same literals at the levels up to the given one, if there are such literals. -/
theorem clauseMap_spec (hR : Rows nv cp) (hne : cp ≠ []) : ∃ cm, clauseMap nv cp = some cm ∧
    (∀ i, i ≤ nv → ∀ r ∈ cp, ∃ s ∈ cp, cm i r.1 = s.1 ∧ low nv i s.2 = low nv i r.2) ∧
    ∀ i, i ≤ nv → ∀ r ∈ cp, low nv i r.2 ≠ [] → ∀ f, Fst nv cp i f → low nv i f.2 = low nv i r.2 → cm i r.1 = f.1 := by
  have h0 : MInv nv cp fun _ j => j := by
    refine ⟨fun i _ L => .inr fun r _ _ => rfl, fun p i i' hi hi' hp el _ => ?_⟩
    have hp' := hp.raise hR (Nat.le_of_lt hi) hi' el
    constructor
    · intro hd f hf ef r hr er
      have : f = p := hf.unique hp' (ef.trans el)
      subst this
      exact hd f hp rfl r hr (low_raise (hR.form r hr) (Nat.le_of_lt hi) hi' er fun x hx => low_mem hx)
    · intro hd f hf ef r hr er
      have : f = p := hf.unique hp ef
      subst this
      refine hd f hp' el.symm r hr ?_
      obtain ⟨A, B, e, hA⟩ := hp
      rw [e] at hr
      rcases List.mem_append.1 hr with k | k
      · exact absurd er (hA r k)
      · rcases List.mem_cons.1 k with k | k
        · rw [k]; exact el.symm
        · have rm : r ∈ cp := by rw [e]; simp [k]
          have hs := hR.sorted
          rw [e] at hs
          have hl := (List.pairwise_cons.1 (List.pairwise_append.1 hs).2.1).1 r k
          obtain ⟨z1, c1, e1, l1⟩ := low_split (hR.form f hf.mem) hi'
          obtain ⟨_, z2, c2, e2, l2⟩ := (low_eq_iff (hR.form r rm) (by omega)).1 er
          rw [e1, e2, ← el] at hl
          have := le_next hl
          refine (low_eq_iff (hR.form r rm) hi').2 ⟨fun x hx => by have := low_mem hx; omega, z2, c2, e2, ?_⟩
          unfold lev at l1 ⊢
          omega
  obtain ⟨cm, e, hm, _, hd⟩ := makeMap_spec hR (d := nv + 2) (k := 0) (by omega) (by omega) [] cp [] [] (fun _ j => j) (by simp) rfl (by
    intro r hr
    refine ⟨rfl, ?_⟩
    obtain ⟨ls, e, _⟩ := (hR.form r hr).zero
    rw [e]
    cases ls with
    | nil => exact ⟨0, rfl⟩
    | cons x ls => exact ⟨x, rfl⟩) (fun r hr => by cases hr) (fun r hr => by cases hr) h0
  refine ⟨cm, by rw [clauseMap, if_neg hne]; exact e, fun i hi r hr => ?_, fun i hi r hr hl f hf ef => ?_⟩
  · rcases hm.st i hi (low nv i r.2) with g | g
    · obtain ⟨f, hf, ef⟩ := exists_fst (nv := nv) (i := i) hr
      exact ⟨f, hf.mem, g f hf ef r hr rfl, ef⟩
    · exact ⟨r, hr, g r hr rfl, rfl⟩
  · obtain ⟨ls, e, hls⟩ := (hR.form r hr).zero
    cases ls with
    | nil =>
      exfalso
      apply hl
      rw [e]
      show low nv i ([] ++ 0 :: []) = []
      exact low_append (fun x hx => by cases hx) (by rw [lev_zero]; omega)
    | cons x ls =>
      refine hd r hr x (by rw [e]; rfl) (by rintro rfl; exact absurd (hls 0 List.mem_cons_self).1 (by decide)) i ?_ hi f hf ef r hr rfl
      rcases Nat.lt_or_ge i (lev nv x) with g | g
      · exfalso
        apply hl
        rw [e]
        show low nv i ([] ++ x :: (ls ++ [0])) = []
        exact low_append (fun x hx => by cases hx) g
      · exact g

end CnfB

end TdZdd
