import Verif.Semantics

/-! Basic facts about `Accepts`, `BddSatAt` and `ZddMemAt`. -/

namespace TdZdd

variable {N : Nat} {S : Type} {sp : DdSpec N S}

theorem not_accepts_zero {s : S} {p : Path N} : ¬ Accepts sp 0 s p := by
  intro h
  generalize hl : (0 : Int) = l at h
  cases h with
  | one h => omega
  | step h _ => omega

theorem accepts_neg {l : Int} {s : S} {p : Path N} (hl : l < 0) :
    Accepts sp l s p ↔ p = [] := by
  constructor
  · intro h
    cases h with
    | one _ => rfl
    | step h _ => omega
  · rintro rfl; exact .one hl

theorem accepts_pos {n : Nat} {s : S} {p : Path N} (hn : 0 < n) :
    Accepts sp (n : Int) s p ↔
      ∃ b q, p = (n, b) :: q ∧ Accepts sp (sp.child s n b).1 (sp.child s n b).2 q := by
  constructor
  · intro h
    generalize hl : (n : Int) = l at h
    cases h with
    | one h => omega
    | step h h' =>
      have : n = _ := Int.ofNat.inj hl
      subst this
      exact ⟨_, _, rfl, h'⟩
  · rintro ⟨b, q, rfl, h⟩; exact .step hn h

/-- Levels of an accepted path from a reachable state are positive and not above it. -/
theorem accepts_levels (hd : Desc sp) {l : Int} {s : S} {p : Path N}
    (h : Accepts sp l s p) (hr : Reach sp l s) : ∀ x ∈ p, 1 ≤ x.1 ∧ (x.1 : Int) ≤ l := by
  induction h with
  | one _ => simp
  | step hn h ih =>
    intro x hx
    rcases List.mem_cons.1 hx with rfl | hx
    · exact ⟨hn, Int.le_refl _⟩
    · have := ih (Reach.step _ hn hr) x hx
      have := hd.child_lt ‹_› hn hr
      omega

theorem reach_ge (hd : Desc sp) {l : Int} {s : S} (hr : Reach sp l s) : -1 ≤ l := by
  cases hr with
  | root => exact hd.root_ge
  | step b hn hr => exact hd.child_ge b hn hr

theorem bddSatAt_zero {s : S} {a : Asg N} : ¬ BddSatAt sp 0 s a := by
  rintro ⟨p, h, _⟩; exact not_accepts_zero h

theorem bddSatAt_neg {l : Int} {s : S} {a : Asg N} (hl : l < 0) : BddSatAt sp l s a :=
  ⟨[], .one hl, by simp [Agrees]⟩

theorem bddSatAt_pos {n : Nat} {s : S} {a : Asg N} (hn : 0 < n) :
    BddSatAt sp (n : Int) s a ↔
      BddSatAt sp (sp.child s n (a n)).1 (sp.child s n (a n)).2 a := by
  constructor
  · rintro ⟨p, h, ha⟩
    obtain ⟨b, q, rfl, h'⟩ := (accepts_pos hn).1 h
    have hb : a n = b := ha (n, b) (by simp)
    subst hb
    exact ⟨q, h', fun x hx => ha x (by simp [hx])⟩
  · rintro ⟨q, h, ha⟩
    refine ⟨(n, a n) :: q, .step hn h, ?_⟩
    intro x hx
    rcases List.mem_cons.1 hx with rfl | hx
    · rfl
    · exact ha x hx

theorem zddMemAt_zero {m : Nat} {s : S} {a : Asg N} : ¬ ZddMemAt sp m 0 s a := by
  rintro ⟨p, h, _⟩; exact not_accepts_zero h

theorem zddMemAt_neg {m : Nat} {l : Int} {s : S} {a : Asg N} (hl : l < 0) :
    ZddMemAt sp m l s a ↔ ∀ j, 1 ≤ j → j ≤ m → (a j).val = 0 := by
  constructor
  · rintro ⟨p, h, _, h0⟩
    rw [accepts_neg hl] at h
    subst h
    intro j h1 h2
    exact h0 j h1 h2 (by simp)
  · intro h
    exact ⟨[], .one hl, by simp [Agrees], fun j h1 h2 _ => h j h1 h2⟩

theorem zddMemAt_pos (hd : Desc sp) {m n : Nat} {s : S} {a : Asg N}
    (hn : 0 < n) (hr : Reach sp (n : Int) s) (hnm : n ≤ m) :
    ZddMemAt sp m (n : Int) s a ↔
      (∀ j, n < j → j ≤ m → (a j).val = 0) ∧
      ZddMemAt sp (n - 1) (sp.child s n (a n)).1 (sp.child s n (a n)).2 a := by
  have hr' := fun b => Reach.step b hn hr
  constructor
  · rintro ⟨p, h, ha, h0⟩
    have hlv := accepts_levels hd h hr
    obtain ⟨b, q, rfl, h'⟩ := (accepts_pos hn).1 h
    have hb : a n = b := ha (n, b) (by simp)
    subst hb
    refine ⟨?_, q, h', fun x hx => ha x (by simp [hx]), ?_⟩
    · intro j h1 h2
      refine h0 j (by omega) h2 fun b hb => ?_
      have := (hlv _ hb).2
      simp at this; omega
    · intro j h1 h2 h3
      refine h0 j h1 (by omega) fun b hb => ?_
      rcases List.mem_cons.1 hb with hb | hb
      · simp at hb; omega
      · exact h3 b hb
  · rintro ⟨hz, q, h, ha, h0⟩
    refine ⟨(n, a n) :: q, .step hn h, ?_, ?_⟩
    · intro x hx
      rcases List.mem_cons.1 hx with rfl | hx
      · rfl
      · exact ha x hx
    · intro j h1 h2 h3
      rcases Nat.lt_trichotomy j n with hj | hj | hj
      · exact h0 j h1 (by omega) fun b hb => h3 b (by simp [hb])
      · subst hj; exact absurd (by simp) (h3 (a j))
      · exact hz j hj h2

/-- Raising the number of variables only requires value 0 at the new levels. -/
theorem zddMemAt_raise (hd : Desc sp) {m m' : Nat} {l : Int} {s : S} {a : Asg N}
    (hr : Reach sp l s) (hl : l ≤ m) (hmm : m ≤ m') :
    ZddMemAt sp m' l s a ↔ (∀ j, m < j → j ≤ m' → (a j).val = 0) ∧ ZddMemAt sp m l s a := by
  constructor
  · rintro ⟨p, h, ha, h0⟩
    have hlv := accepts_levels hd h hr
    refine ⟨fun j h1 h2 => h0 j (by omega) h2 fun b hb => ?_, p, h, ha,
      fun j h1 h2 h3 => h0 j h1 (by omega) h3⟩
    have := (hlv _ hb).2
    simp at this; omega
  · rintro ⟨hz, p, h, ha, h0⟩
    refine ⟨p, h, ha, fun j h1 h2 h3 => ?_⟩
    by_cases hj : j ≤ m
    · exact h0 j h1 hj h3
    · exact hz j (by omega) h2

/-- moving down one level splits membership -/
theorem mem_lower (hd : Desc sp) {l : Int} {s : S} {n m : Nat} {a : Asg N}
    (hr : Reach sp l s) (hl : l < n) (hn : 0 < n) (hnm : n ≤ m) :
    ZddMemAt sp m l s a ↔
      (∀ j, n < j → j ≤ m → (a j).val = 0) ∧ (a n).val = 0 ∧ ZddMemAt sp (n - 1) l s a := by
  rw [zddMemAt_raise hd (m := n - 1) (m' := m) hr (by omega) (by omega)]
  constructor
  · rintro ⟨h1, h2⟩
    exact ⟨fun j h h' => h1 j (by omega) h', h1 n (by omega) hnm, h2⟩
  · rintro ⟨h1, h2, h3⟩
    refine ⟨fun j h h' => ?_, h3⟩
    by_cases hj : j = n
    · subst hj; exact h2
    · exact h1 j (by omega) h'

/-- Two specifications accepting the same paths from their roots have the same Boolean function
and the same family. -/
theorem bddSat_congr {S1 S2 : Type} {sp1 : DdSpec N S1} {sp2 : DdSpec N S2}
    (h : ∀ p, Accepts sp1 sp1.root.1 sp1.root.2 p ↔ Accepts sp2 sp2.root.1 sp2.root.2 p)
    (a : Asg N) : BddSat sp1 a ↔ BddSat sp2 a := by
  simp only [BddSat, BddSatAt, h]

theorem zddMem_congr {S1 S2 : Type} {sp1 : DdSpec N S1} {sp2 : DdSpec N S2}
    (h : ∀ p, Accepts sp1 sp1.root.1 sp1.root.2 p ↔ Accepts sp2 sp2.root.1 sp2.root.2 p)
    (n : Nat) (a : Asg N) : ZddMem sp1 n a ↔ ZddMem sp2 n a := by
  simp only [ZddMem, ZddMemAt, h]

/-- The step-by-step contract implies the semantic one. -/
theorem LawfulC.sound' (hc : LawfulC sp) {p : Path N} : ∀ {n : Nat} {s t : S}, 0 < n →
    Reach sp (n : Int) s → Reach sp (n : Int) t → sp.eqv n s t = true →
    Accepts sp (n : Int) s p → Accepts sp (n : Int) t p := by
  induction p with
  | nil =>
    intro n s t hn hs ht _ h
    obtain ⟨b, q, hq, _⟩ := (accepts_pos hn).1 h
    cases hq
  | cons x p ih =>
    intro n s t hn hs ht he h
    obtain ⟨b, q, hq, h⟩ := (accepts_pos hn).1 h
    cases hq
    refine .step hn ?_
    obtain ⟨h1, h2⟩ := hc.congr b hn hs ht he
    rw [← h1]
    rcases Int.lt_trichotomy (sp.child s n b).1 0 with hl | hl | hl
    · rw [accepts_neg hl] at h ⊢; exact h
    · rw [hl] at h; exact absurd h not_accepts_zero
    · obtain ⟨k, hk⟩ := Int.eq_ofNat_of_zero_le (Int.le_of_lt hl)
      have hk0 : 0 < k := by omega
      have r1 := Reach.step b hn hs
      have r2 := Reach.step b hn ht
      rw [← h1] at r2
      rw [hk] at r1 r2 h ⊢
      exact ih hk0 r1 r2 (h2 k hk0 hk) h

theorem LawfulC.lawful (hc : LawfulC sp) : Lawful sp where
  toDesc := hc.toDesc
  refl := hc.refl
  symm := hc.symm
  trans := hc.trans
  hash_eq := hc.hash_eq
  sound := fun hn hs ht he _ =>
    ⟨hc.sound' hn hs ht he, hc.sound' hn ht hs (hc.symm hn hs ht he)⟩

/-- A specification whose `equal_to` is equality of states obeys the contract as soon as its
levels descend. -/
theorem lawfulC_of_eq (hd : Desc sp) (he : ∀ n s t, sp.eqv n s t = true ↔ s = t) : LawfulC sp where
  toDesc := hd
  refl := fun _ _ => (he _ _ _).2 rfl
  symm := fun _ _ _ h => (he _ _ _).2 ((he _ _ _).1 h).symm
  trans := fun _ _ _ _ h h' => (he _ _ _).2 (((he _ _ _).1 h).trans ((he _ _ _).1 h'))
  hash_eq := fun _ _ _ h => by rw [(he _ _ _).1 h]
  congr := fun _ _ _ _ h => by
    rw [(he _ _ _).1 h]
    exact ⟨rfl, fun _ _ _ => (he _ _ _).2 rfl⟩

/-- Following a given path is a decision procedure. -/
def acceptsDec (sp : DdSpec N S) : (p : Path N) → (l : Int) → (s : S) → Decidable (Accepts sp l s p)
  | [], l, s =>
    if h : l < 0 then .isTrue (.one h) else .isFalse fun h' => by
      generalize hp : ([] : Path N) = p at h'
      cases h' with
      | one h1 => exact h h1
      | step _ _ => cases hp
  | (n, b) :: q, l, s =>
    if h : 0 < n ∧ l = n then
      match acceptsDec sp q (sp.child s n b).1 (sp.child s n b).2 with
      | .isTrue h' => .isTrue (by rw [h.2]; exact .step h.1 h')
      | .isFalse h' => .isFalse fun h'' => by
          rw [h.2] at h''
          obtain ⟨b', q', hq, h3⟩ := (accepts_pos h.1).1 h''
          cases hq
          exact h' h3
    else .isFalse fun h' => by
      generalize hp : (n, b) :: q = p at h'
      cases h' with
      | one h1 => cases hp
      | step h1 _ =>
        cases hp
        exact h ⟨h1, rfl⟩

instance (sp : DdSpec N S) (l : Int) (s : S) (p : Path N) : Decidable (Accepts sp l s p) :=
  acceptsDec sp p l s

end TdZdd
