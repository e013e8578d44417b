import Verif.CnfZtddProofs2

/-! The preparation of the clauses. -/

namespace TdZdd

namespace Cnf

theorem mem_uniqueFrom {α : Type} [DecidableEq α] {l : List α} {z : α} : ∀ {x : α}, z ∈ uniqueFrom x l ↔ z = x ∨ z ∈ l := by
  induction l with
  | nil => intro x; rw [uniqueFrom, List.mem_singleton]; simp
  | cons y l ih =>
    intro x
    rw [uniqueFrom]
    split
    · rename_i h; subst h
      rw [ih, List.mem_cons]
      exact ⟨fun h => h.elim .inl fun h => .inr (.inr h), fun h => h.elim .inl fun h => h.elim .inl .inr⟩
    · rw [List.mem_cons, ih, List.mem_cons]

theorem mem_unique {α : Type} [DecidableEq α] {l : List α} {z : α} : z ∈ unique l ↔ z ∈ l := by
  cases l with
  | nil => rw [unique]
  | cons x l => rw [unique, mem_uniqueFrom, List.mem_cons]

theorem unique_strict {α : Type} [DecidableEq α] {r : α → α → Prop} {l : List α} (h : l.Pairwise r) (anti : ∀ x ∈ l, ∀ y ∈ l, r x y → r y x → x = y) : (unique l).Pairwise fun x y => r x y ∧ x ≠ y := by
  have key : ∀ (l : List α) (x : α), (x :: l).Pairwise r → (∀ a ∈ x :: l, ∀ b ∈ x :: l, r a b → r b a → a = b) → (uniqueFrom x l).Pairwise fun x y => r x y ∧ x ≠ y := by
    intro l
    induction l with
    | nil => intro x _ _; rw [uniqueFrom]; exact List.pairwise_singleton _ _
    | cons y l ih =>
      intro x h anti
      obtain ⟨h1, h2⟩ := List.pairwise_cons.1 h
      rw [uniqueFrom]
      split
      · rename_i hxy
        subst hxy
        exact ih x h2 fun a ha b hb => anti a (List.mem_cons_of_mem _ ha) b (List.mem_cons_of_mem _ hb)
      · rename_i hxy
        refine List.pairwise_cons.2 ⟨fun z hz => ?_, ih y h2 fun a ha b hb => anti a (List.mem_cons_of_mem _ ha) b (List.mem_cons_of_mem _ hb)⟩
        have hz' : z ∈ y :: l := List.mem_cons.2 (mem_uniqueFrom.1 hz)
        refine ⟨h1 z hz', fun e => ?_⟩
        subst e
        rcases List.mem_cons.1 hz' with e | e
        · exact hxy e
        · exact hxy (anti x List.mem_cons_self y (by simp) (h1 y List.mem_cons_self) ((List.pairwise_cons.1 h2).1 x e))
  cases l with
  | nil => rw [unique]; exact .nil
  | cons x l => rw [unique]; exact key l x h anti

theorem insertBy_perm {α : Type} {lt : α → α → Bool} {x : α} {l : List α} : (insertBy lt x l).Perm (x :: l) := by
  induction l with
  | nil => exact .refl _
  | cons y l ih =>
    rw [insertBy]
    split
    · exact (ih.cons y).trans (.swap x y l)
    · exact .refl _

theorem isort_perm {α : Type} {lt : α → α → Bool} {l : List α} : (isort lt l).Perm l := by
  induction l with
  | nil => exact .refl _
  | cons x l ih => exact insertBy_perm.trans (ih.cons x)

theorem mem_isort {α : Type} {lt : α → α → Bool} {l : List α} {z : α} : z ∈ isort lt l ↔ z ∈ l := isort_perm.mem_iff

theorem insertBy_sorted {α : Type} {lt : α → α → Bool} (trans : ∀ a b c, lt b a = false → lt c b = false → lt c a = false) (total : ∀ a b, lt b a = false ∨ lt a b = false) {x : α} {l : List α}
    (h : l.Pairwise fun a b => lt b a = false) : (insertBy lt x l).Pairwise fun a b => lt b a = false := by
  induction l with
  | nil => exact List.pairwise_singleton _ _
  | cons y l ih =>
    obtain ⟨h1, h2⟩ := List.pairwise_cons.1 h
    rw [insertBy]
    split
    · rename_i hl
      refine List.pairwise_cons.2 ⟨fun z hz => ?_, ih h2⟩
      rcases List.mem_cons.1 (insertBy_perm.mem_iff.1 hz) with e | e
      · subst e
        exact (total y z).resolve_right fun g => by rw [hl] at g; cases g
      · exact h1 z e
    · rename_i hl
      have hl : lt y x = false := by simpa using hl
      refine List.pairwise_cons.2 ⟨fun z hz => ?_, h⟩
      rcases List.mem_cons.1 hz with e | e
      · subst e; exact hl
      · exact trans x y z hl (h1 z e)

theorem isort_sorted {α : Type} {lt : α → α → Bool} (trans : ∀ a b c, lt b a = false → lt c b = false → lt c a = false) (total : ∀ a b, lt b a = false ∨ lt a b = false) {l : List α} :
    (isort lt l).Pairwise fun a b => lt b a = false := by
  induction l with
  | nil => exact .nil
  | cons x l ih => exact insertBy_sorted trans total ih

theorem ge_heads {x y : Int} {a b : Clause} : clauseLt (y :: b) (x :: a) = false ↔ y.natAbs < x.natAbs ∨ (y = -x ∧ x ≤ y) ∨ (x = y ∧ x ≠ 0 ∧ clauseLt b a = false) := by
  rw [clauseLt]
  by_cases h1 : y = -x
  · rw [if_pos h1, decide_eq_false_iff_not]
    constructor
    · intro h; exact .inr (.inl ⟨h1, by omega⟩)
    · rintro (h | h | ⟨h, h', _⟩) <;> omega
  · rw [if_neg h1]
    by_cases h2 : y.natAbs = x.natAbs
    · rw [if_neg (by omega)]
      constructor
      · intro h; exact .inr (.inr ⟨by omega, by omega, h⟩)
      · rintro (h | h | ⟨_, _, h⟩)
        · omega
        · omega
        · exact h
    · rw [if_pos h2, decide_eq_false_iff_not]
      constructor
      · intro h; exact .inl (by omega)
      · rintro (h | h | ⟨h, h', _⟩) <;> omega

theorem le_trans {a b c : Clause} (h1 : clauseLt b a = false) (h2 : clauseLt c b = false) : clauseLt c a = false := by
  induction a generalizing b c with
  | nil => exact lt_nil
  | cons x a ih =>
    cases b with
    | nil => cases h1
    | cons y b =>
      cases c with
      | nil => cases h2
      | cons z c =>
        rw [ge_heads] at h1 h2 ⊢
        rcases h1 with h1 | h1 | ⟨e, h0, h1⟩
        · rcases h2 with h2 | h2 | ⟨e', _, h2⟩
          · exact .inl (by omega)
          · exact .inl (by omega)
          · exact .inl (by omega)
        · rcases h2 with h2 | h2 | ⟨e', _, h2⟩
          · exact .inl (by omega)
          · by_cases hx : x = 0
            · exact .inr (.inl (by omega))
            · exact .inr (.inl (by omega))
          · exact .inr (.inl (by omega))
        · subst e
          rcases h2 with h2 | h2 | ⟨e', _, h2⟩
          · exact .inl h2
          · exact .inr (.inl h2)
          · exact .inr (.inr ⟨e', h0, ih h1 h2⟩)

theorem le_total (a b : Clause) : (clauseLt b a = false) ∨ clauseLt a b = false := by
  induction a generalizing b with
  | nil => exact .inl lt_nil
  | cons x a ih =>
    cases b with
    | nil => exact .inr lt_nil
    | cons y b =>
      rw [ge_heads, ge_heads]
      rcases Nat.lt_trichotomy x.natAbs y.natAbs with h | h | h
      · exact .inr (.inl h)
      · by_cases e : x = y
        · subst e
          by_cases h0 : x = 0
          · exact .inl (.inr (.inl (by omega)))
          · exact (ih b).elim (fun g => .inl (.inr (.inr ⟨rfl, h0, g⟩))) fun g => .inr (.inr (.inr ⟨rfl, h0, g⟩))
        · rcases Int.lt_or_le x y with g | g
          · exact .inl (.inr (.inl (by omega)))
          · exact .inr (.inr (.inl (by omega)))
      · exact .inl (.inl h)

theorem le_antisymm {nv : Nat} {a b : Clause} (ha : InOrder nv 1 a) (hb : InOrder nv 1 b) (h1 : clauseLt b a = false) (h2 : clauseLt a b = false) : a = b := by
  have key : ∀ (a b : Clause), (∀ x ∈ a, 1 ≤ x.natAbs) → (∀ x ∈ b, 1 ≤ x.natAbs) → clauseLt b a = false → clauseLt a b = false → a = b := by
    intro a
    induction a with
    | nil =>
      intro b _ _ _ h2
      cases b with
      | nil => rfl
      | cons y b => simp [clauseLt] at h2
    | cons x a ih =>
      intro b ha hb h1 h2
      cases b with
      | nil => simp [clauseLt] at h1
      | cons y b =>
        have hx := ha x List.mem_cons_self
        have hy := hb y List.mem_cons_self
        rw [ge_heads] at h1 h2
        rcases h1 with h1 | h1 | ⟨e, _, h1⟩
        · rcases h2 with h2 | h2 | ⟨h2, _, _⟩ <;> omega
        · rcases h2 with h2 | h2 | ⟨h2, _, _⟩ <;> omega
        · subst e
          rcases h2 with h2 | h2 | ⟨_, _, h2⟩
          · omega
          · omega
          · rw [ih b (fun z hz => ha z (List.mem_cons_of_mem _ hz)) (fun z hz => hb z (List.mem_cons_of_mem _ hz)) h1 h2]
  exact key a b (fun x hx => (ha.var x hx).1) (fun x hx => (hb.var x hx).1) h1 h2

theorem sortClauses_spec {nv : Nat} {cnf : List Clause} (h : ∀ c ∈ cnf, InOrder nv 1 c) : Sorted nv 1 (sortClauses cnf) ∧ ∀ c, c ∈ sortClauses cnf ↔ c ∈ cnf := by
  have hm : ∀ c, c ∈ sortClauses cnf ↔ c ∈ cnf := fun c => by
    unfold sortClauses
    rw [mem_unique, mem_isort]
  refine ⟨⟨?_, fun c hc => h c ((hm c).1 hc)⟩, hm⟩
  have hp := isort_sorted (lt := clauseLt) (l := cnf) (fun _ _ _ => le_trans) le_total
  have := unique_strict hp fun a ha b hb h1 h2 => le_antisymm (h a (mem_isort.1 ha)) (h b (mem_isort.1 hb)) h1 h2
  refine List.Pairwise.imp_of_mem (R := fun x y => clauseLt y x = false ∧ x ≠ y) ?_ this
  intro a b ha hb g
  cases e : clauseLt a b with
  | true => rfl
  | false => exact absurd (le_antisymm (h a ((hm a).1 ha)) (h b ((hm b).1 hb)) g.1 e) g.2

theorem tidy_spec {nv : Nat} {c d : Clause} (h : tidy c = some d) (hc : ∀ x ∈ c, 1 ≤ x.natAbs ∧ x.natAbs ≤ nv) : InOrder nv 1 d ∧ (∀ x, x ∈ d ↔ x ∈ c) ∧ ∀ x ∈ c, -x ∉ c := by
  unfold tidy at h
  split at h
  · cases h
  · rename_i ht
    have ht' : ∀ x ∈ c, -x ∉ c := by
      intro x hx hx'
      refine ht (List.any_eq_true.2 ⟨x, hx, ?_⟩)
      rw [List.contains_iff_mem]
      exact hx'
    obtain rfl := Option.some.inj h
    have hm : ∀ x, x ∈ unique (isort (fun x y => decide (x.natAbs < y.natAbs)) c) ↔ x ∈ c := fun x => by rw [mem_unique, mem_isort]
    refine ⟨⟨?_, fun x hx => hc x ((hm x).1 hx)⟩, hm, ht'⟩
    have hp : (isort (fun x y => decide (x.natAbs < y.natAbs)) c).Pairwise fun x y => x.natAbs ≤ y.natAbs := by
      refine (isort_sorted (lt := fun (x y : Int) => decide (x.natAbs < y.natAbs)) ?_ ?_).imp ?_
      · intro a b c h1 h2
        have h1 := of_decide_eq_false h1
        have h2 := of_decide_eq_false h2
        exact decide_eq_false (by omega)
      · intro a b
        rw [decide_eq_false_iff_not, decide_eq_false_iff_not]
        omega
      · intro a b h
        have := of_decide_eq_false h
        omega
    have anti : ∀ x ∈ c, ∀ y ∈ c, x.natAbs = y.natAbs → x = y := by
      intro x hx y hy e
      rcases Int.natAbs_eq_natAbs_iff.1 e with e | e
      · exact e
      · exact absurd (e ▸ hx) (ht' y hy)
    have := unique_strict hp fun x hx y hy h1 h2 => anti x (mem_isort.1 hx) y (mem_isort.1 hy) (by omega)
    refine List.Pairwise.imp_of_mem ?_ this
    intro x y hx hy g
    have h1 : x.natAbs ≠ y.natAbs := fun e => g.2 (anti x ((hm x).1 hx) y ((hm y).1 hy) e)
    have h2 := g.1
    omega

theorem mem_word {nv : Nat} {a : Asg 3} {x : Int} : ∀ {n : Nat}, x ∈ word nv a n ↔ ∃ j, 1 ≤ j ∧ j ≤ n ∧ x ∈ lit nv j (a j) := by
  intro n
  induction n with
  | zero => exact ⟨fun h => (by cases h), fun ⟨j, h1, h2, _⟩ => (by omega)⟩
  | succ n ih =>
    rw [word, List.mem_append, ih]
    constructor
    · rintro (h | ⟨j, h1, h2, h3⟩)
      · exact ⟨n + 1, by omega, Nat.le_refl _, h⟩
      · exact ⟨j, h1, by omega, h3⟩
    · rintro ⟨j, h1, h2, h3⟩
      by_cases e : j = n + 1
      · subst e; exact .inl h3
      · exact .inr ⟨j, h1, by omega, h3⟩

theorem word_inOrder {nv : Nat} {a : Asg 3} : ∀ {n : Nat}, n ≤ nv → InOrder nv (nv + 1 - n) (word nv a n) := by
  intro n
  induction n with
  | zero => intro _; exact ⟨.nil, fun _ h => absurd h List.not_mem_nil⟩
  | succ n ih =>
    intro hn
    have ih := ih (by omega)
    refine ⟨?_, fun x hx => ⟨word_var hn hx, ?_⟩⟩
    · rw [word]
      refine List.pairwise_append.2 ⟨?_, ih.incr, fun x hx y hy => ?_⟩
      · unfold lit
        split
        · exact .nil
        · split <;> exact List.pairwise_singleton _ _
      · have h1 := lit_var hn hx
        have h2 := (ih.var y hy).1
        omega
    · rcases List.mem_append.1 hx with h | h
      · have := lit_var hn h; omega
      · exact (ih.var x h).2

theorem incr_ext {c : Clause} : ∀ {d : Clause}, (c.Pairwise fun x y => x.natAbs < y.natAbs) → (d.Pairwise fun x y => x.natAbs < y.natAbs) → (∀ x, x ∈ c ↔ x ∈ d) → c = d := by
  induction c with
  | nil =>
    intro d _ _ h
    cases d with
    | nil => rfl
    | cons y d => exact absurd ((h y).2 List.mem_cons_self) List.not_mem_nil
  | cons x c ih =>
    intro d hc hd h
    cases d with
    | nil => exact absurd ((h x).1 List.mem_cons_self) List.not_mem_nil
    | cons y d =>
      obtain ⟨c1, c2⟩ := List.pairwise_cons.1 hc
      obtain ⟨d1, d2⟩ := List.pairwise_cons.1 hd
      have e : x = y := by
        rcases List.mem_cons.1 ((h x).1 List.mem_cons_self) with e | e
        · exact e
        · rcases List.mem_cons.1 ((h y).2 List.mem_cons_self) with e' | e'
          · exact e'.symm
          · have := d1 x e
            have := c1 y e'
            omega
      subst e
      rw [ih c2 d2 fun z => ?_]
      constructor
      · intro hz
        have := c1 z hz
        rcases List.mem_cons.1 ((h z).1 (List.mem_cons_of_mem _ hz)) with e | e
        · subst e; omega
        · exact e
      · intro hz
        have := d1 z hz
        rcases List.mem_cons.1 ((h z).2 (List.mem_cons_of_mem _ hz)) with e | e
        · subst e; omega
        · exact e

theorem mem_lit {nv j : Nat} {b : Fin 3} {x : Int} : x ∈ lit nv j b ↔ (b.val = 1 ∧ x = -((nv : Int) + 1 - j)) ∨ (b.val = 2 ∧ x = (nv : Int) + 1 - j) := by
  match b with
  | 0 => exact ⟨fun h => (by cases h), fun h => (by rcases h with ⟨h, _⟩ | ⟨h, _⟩ <;> cases h)⟩
  | 1 =>
    show x ∈ [_] ↔ (1 = 1 ∧ _) ∨ (1 = 2 ∧ _)
    rw [List.mem_singleton]
    omega
  | 2 =>
    show x ∈ [_] ↔ (2 = 1 ∧ _) ∨ (2 = 2 ∧ _)
    rw [List.mem_singleton]
    omega

theorem mem_word_pos {nv : Nat} {a : Asg 3} {v : Nat} (h1 : 1 ≤ v) (h2 : v ≤ nv) : (v : Int) ∈ word nv a nv ↔ (a (nv + 1 - v)).val = 2 := by
  rw [mem_word]
  constructor
  · rintro ⟨j, j1, j2, hj⟩
    rcases mem_lit.1 hj with h | h
    · omega
    · rw [show nv + 1 - v = j by omega]; exact h.1
  · intro h
    exact ⟨nv + 1 - v, by omega, by omega, mem_lit.2 (.inr ⟨h, by omega⟩)⟩

theorem mem_word_neg {nv : Nat} {a : Asg 3} {v : Nat} (h1 : 1 ≤ v) (h2 : v ≤ nv) : -(v : Int) ∈ word nv a nv ↔ (a (nv + 1 - v)).val = 1 := by
  rw [mem_word]
  constructor
  · rintro ⟨j, j1, j2, hj⟩
    rcases mem_lit.1 hj with h | h
    · rw [show nv + 1 - v = j by omega]; exact h.1
    · omega
  · intro h
    exact ⟨nv + 1 - v, by omega, by omega, mem_lit.2 (.inl ⟨h, by omega⟩)⟩

theorem word_eq_iff {nv : Nat} {a : Asg 3} {c : Clause} (h : InOrder nv 1 c) : word nv a nv = c ↔ Codes nv a c := by
  constructor
  · rintro rfl
    intro v h1 h2
    exact ⟨(mem_word_pos h1 h2).symm, (mem_word_neg h1 h2).symm⟩
  · intro g
    have hw := word_inOrder (a := a) (Nat.le_refl nv)
    refine incr_ext hw.incr h.incr fun x => ?_
    have key : 1 ≤ x.natAbs → x.natAbs ≤ nv → (x ∈ word nv a nv ↔ x ∈ c) := by
      intro h1 h2
      rcases Int.natAbs_eq x with e | e
      · rw [e, mem_word_pos h1 h2]; exact (g _ h1 h2).1
      · rw [e, mem_word_neg h1 h2]; exact (g _ h1 h2).2
    constructor
    · intro hx
      have := hw.var x hx
      exact (key (by omega) this.2).1 hx
    · intro hx
      have := h.var x hx
      exact (key this.1 this.2).2 hx

theorem codes_congr {nv : Nat} {a : Asg 3} {c d : Clause} (h : ∀ x, x ∈ d ↔ x ∈ c) : Codes nv a d ↔ Codes nv a c := by
  unfold Codes
  simp only [h]

theorem prepare_spec {nv : Nat} {cs : List Clause} (h : Over nv cs) : Sorted nv 1 (prepare cs) ∧ ∀ d, d ∈ prepare cs ↔ ∃ c ∈ cs, tidy c = some d := by
  have hok : ∀ d ∈ cs.filterMap tidy, InOrder nv 1 d := by
    intro d hd
    obtain ⟨c, hc, e⟩ := List.mem_filterMap.1 hd
    exact (tidy_spec e (h c hc)).1
  obtain ⟨h1, h2⟩ := sortClauses_spec hok
  exact ⟨h1, fun d => by unfold prepare; rw [h2, List.mem_filterMap]⟩

/-- A tautology is the clause of no assignment. -/
theorem codes_tidy {nv : Nat} {a : Asg 3} {c : Clause} (h : ∀ x ∈ c, 1 ≤ x.natAbs ∧ x.natAbs ≤ nv) (g : Codes nv a c) : ∃ d, tidy c = some d := by
  unfold tidy
  split
  · rename_i ht
    obtain ⟨x, hx, hx'⟩ := List.any_eq_true.1 ht
    rw [List.contains_iff_mem] at hx'
    obtain ⟨h1, h2⟩ := h x hx
    obtain ⟨g1, g2⟩ := g _ h1 h2
    exfalso
    rcases Int.natAbs_eq x with e | e
    · rw [e] at hx hx'
      have := g1.2 hx
      have := g2.2 hx'
      omega
    · rw [e, Int.neg_neg] at hx'
      rw [e] at hx
      have := g1.2 hx'
      have := g2.2 hx
      omega
  · exact ⟨_, rfl⟩

theorem prepare_codes {nv : Nat} {cs : List Clause} (h : Over nv cs) (a : Asg 3) : word nv a nv ∈ prepare cs ↔ ∃ c ∈ cs, Codes nv a c := by
  obtain ⟨h1, h2⟩ := prepare_spec h
  rw [h2]
  constructor
  · rintro ⟨c, hc, e⟩
    obtain ⟨t1, t2, _⟩ := tidy_spec e (h c hc)
    exact ⟨c, hc, (codes_congr t2).1 ((word_eq_iff t1).1 rfl)⟩
  · rintro ⟨c, hc, g⟩
    obtain ⟨d, e⟩ := codes_tidy (h c hc) g
    obtain ⟨t1, t2, _⟩ := tidy_spec e (h c hc)
    refine ⟨c, hc, ?_⟩
    rw [e, (word_eq_iff t1).2 ((codes_congr t2).2 g)]

/-! ## The specification -/

theorem getRoot_eq {nv : Nat} {cnf : List Clause} (h : Sorted nv 1 cnf) : ∃ s, (zSpec nv cnf).root = (code nv cnf, s) ∧ (0 < code nv cnf → s = ⟨0, cnf.length, 0⟩) := by
  show ∃ s, (getRoot nv cnf).getD _ = _ ∧ _
  unfold getRoot
  by_cases h0 : cnf = []
  · subst h0; exact ⟨_, rfl, fun g => absurd g (Int.lt_irrefl 0)⟩
  · by_cases h1 : cnf = [[]]
    · subst h1; exact ⟨_, rfl, fun (g : (0 : Int) < -1) => absurd g (by decide)⟩
    · rw [if_neg h0, if_neg h1]
      obtain ⟨A, x, c, rfl⟩ := last_cons h h0 h1
      have hx := (h.ok (x :: c) (by simp)).var x List.mem_cons_self
      refine ⟨⟨0, (A ++ [x :: c]).length, 0⟩, ?_, fun _ => rfl⟩
      rw [List.getLast?_concat, code_last]
      show ((levelOfVar nv x.natAbs).bind _).getD _ = _
      unfold levelOfVar
      rw [if_pos (by omega), Option.bind_some, if_pos (by omega), Option.getD_some]
      congr 1
      omega

theorem rest_all {cnf : List Clause} : ZSt.rest cnf ⟨0, cnf.length, 0⟩ = cnf := by
  unfold ZSt.rest ZSt.rng
  simp

theorem desc_const {N : Nat} {S : Type} {sp : DdSpec N S} (h0 : -1 ≤ sp.root.1) (h : sp.root.1 ≤ 0) : Desc sp ∧ ∀ (n : Nat) (s : S), 0 < n → ¬ Reach sp (n : Int) s := by
  have key : ∀ {l : Int} {s : S}, Reach sp l s → l ≤ 0 := by
    intro l s hr
    induction hr with
    | root => exact h
    | step b hn _ ih => exact absurd ih (by omega)
  have key' : ∀ (n : Nat) (s : S), 0 < n → ¬ Reach sp (n : Int) s := fun n s hn hr => by have := key hr; omega
  exact ⟨⟨h0, fun _ hn hr => absurd hr (key' _ _ hn), fun _ hn hr => absurd hr (key' _ _ hn)⟩, key'⟩

theorem zSpec_main {nv : Nat} {cnf : List Clause} (h : Sorted nv 1 cnf) : LawfulC (zSpec nv cnf) ∧ (zSpec nv cnf).root.1 ≤ nv ∧ ∀ a, ZddMem (zSpec nv cnf) nv a ↔ word nv a nv ∈ cnf := by
  obtain ⟨s, hroot, hs⟩ := getRoot_eq h
  rcases code_cases h (Nat.le_refl _) with ⟨e, c⟩ | ⟨e, c⟩ | ⟨k, k1, k2, c, k3, k4⟩
  · obtain ⟨hd, hno⟩ := desc_const (sp := zSpec nv cnf) (by rw [hroot, c]; show (-1 : Int) ≤ 0; decide) (by rw [hroot, c]; exact Int.le_refl 0)
    refine ⟨⟨hd, fun hn hr => absurd hr (hno _ _ hn), fun hn hr => absurd hr (hno _ _ hn), fun hn hr => absurd hr (hno _ _ hn), fun hn hr => absurd hr (hno _ _ hn), fun _ hn hr => absurd hr (hno _ _ hn)⟩, ?_, fun a => ?_⟩
    · rw [hroot, c]; exact Int.natCast_nonneg _
    · unfold ZddMem
      rw [hroot, c, e]
      exact ⟨fun g => absurd g zddMemAt_zero, fun g => absurd g List.not_mem_nil⟩
  · obtain ⟨hd, hno⟩ := desc_const (sp := zSpec nv cnf) (by rw [hroot, c]; exact Int.le_refl (-1)) (by rw [hroot, c]; show (-1 : Int) ≤ 0; decide)
    refine ⟨⟨hd, fun hn hr => absurd hr (hno _ _ hn), fun hn hr => absurd hr (hno _ _ hn), fun hn hr => absurd hr (hno _ _ hn), fun hn hr => absurd hr (hno _ _ hn), fun _ hn hr => absurd hr (hno _ _ hn)⟩, ?_, fun a => ?_⟩
    · rw [hroot, c]; show (-1 : Int) ≤ nv; omega
    · unfold ZddMem
      rw [hroot, c, zddMemAt_neg (by show (-1 : Int) < 0; decide), e, List.mem_singleton, word_nil]
  · have hs := hs (by omega)
    subst hs
    have hin : Inside cnf ⟨0, cnf.length, 0⟩ := ⟨Nat.zero_le _, Nat.le_refl _⟩
    have hI : Inv nv cnf k ⟨0, cnf.length, 0⟩ := by
      refine ⟨hin, k3, ?_, fun _ _ => Nat.zero_le _, ?_⟩
      · rw [rest_all]; exact h.raise k3 k4
      · rw [rest_all]; exact c
    rw [c] at hroot
    obtain ⟨hd, hm⟩ := zddMem_of_step (sp := zSpec nv cnf) (Inv := Inv nv cnf) (P := fun n s a => word nv a n ∈ s.rest cnf) hroot hI k1 step
    have hreach : ∀ {n : Nat} {s : ZSt}, 0 < n → Reach (zSpec nv cnf) (n : Int) s → Inv nv cnf n s := by
      intro n s hn hr
      refine reach_inv hroot hI ?_ hr n hn rfl
      intro n s b j hn hj hI e
      rcases step n s b hn hI with ⟨h, _⟩ | ⟨h, _⟩ | ⟨k', h0, h, hk', h', _⟩
      · omega
      · omega
      · obtain rfl : j = k' := by omega
        exact h'
    have hsame : ∀ {n : Nat} {s t : ZSt}, Inv nv cnf n s → Inv nv cnf n t → (sameState cnf s t = true ↔ s.rest cnf = t.rest cnf) := fun hs ht => same_iff hs.inside ht.inside hs.pos ht.pos
    refine ⟨⟨hd, ?_, ?_, ?_, ?_, ?_⟩, ?_, fun a => ?_⟩
    · intro n s hn hr
      exact (hsame (hreach hn hr) (hreach hn hr)).2 rfl
    · intro n s t hn hs ht e
      exact (hsame (hreach hn ht) (hreach hn hs)).2 ((hsame (hreach hn hs) (hreach hn ht)).1 e).symm
    · intro n s t u hn hs ht hu e1 e2
      exact (hsame (hreach hn hs) (hreach hn hu)).2 (((hsame (hreach hn hs) (hreach hn ht)).1 e1).trans ((hsame (hreach hn ht) (hreach hn hu)).1 e2))
    · intro n s t hn hs ht e
      show hashState cnf s = hashState cnf t
      rw [hash_rest, hash_rest, (hsame (hreach hn hs) (hreach hn ht)).1 e]
    · intro n s t b hn hs ht e
      have hs' := hreach hn hs
      have ht' := hreach hn ht
      have e := (hsame hs' ht').1 e
      obtain ⟨s1, e1, i1, r1, p1, _⟩ := child_eq hn hs' b
      obtain ⟨t1, e2, i2, r2, p2, _⟩ := child_eq hn ht' b
      have er : s1.rest cnf = t1.rest cnf := by rw [r1, r2, e]
      rw [e1, e2]
      exact ⟨by rw [er], fun k hk ek => (same_iff i1 i2 p1 p2).2 er⟩
    · rw [hroot]; show (k : Int) ≤ nv; omega
    · have hr : Reach (zSpec nv cnf) (k : Int) ⟨0, cnf.length, 0⟩ := by have := Reach.root (sp := zSpec nv cnf); rw [hroot] at this; exact this
      have hm := hm a
      unfold ZddMem at hm ⊢
      rw [hroot] at hm ⊢
      rw [zddMemAt_raise hd hr (Int.le_refl _) k3, hm, word_mem k4 k3 (Nat.le_refl _), rest_all]

end Cnf

end TdZdd
