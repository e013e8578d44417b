import Verif.BinaryOperation

/-! Helper lemmas for the binary operations. -/

namespace TdZdd

variable {N : Nat} {S S1 S2 : Type} {s1 : DdSpec 2 S1} {s2 : DdSpec 2 S2}

section StepAt
variable {sp : DdSpec 2 S}

theorem stepAt_reach {c : Int × S} {n : Nat} (b : Fin 2) (hn : 0 < n)
    (hr : Reach sp c.1 c.2) : Reach sp (stepAt sp c n b).1 (stepAt sp c n b).2 := by
  unfold stepAt
  split
  · rename_i h; rw [h] at hr; exact Reach.step b hn hr
  · exact hr

theorem stepAt_lt (hd : Desc sp) {c : Int × S} {n : Nat} (b : Fin 2) (hn : 0 < n)
    (hr : Reach sp c.1 c.2) (hc : c.1 ≤ n) :
    (stepAt sp c n b).1 < n ∧ -1 ≤ (stepAt sp c n b).1 := by
  have hg := reach_ge hd (stepAt_reach b hn hr)
  refine ⟨?_, hg⟩
  unfold stepAt
  split
  · rename_i h; rw [h] at hr; exact hd.child_lt b hn hr
  · omega

theorem stepAt_sat {c : Int × S} {n : Nat} {a : Asg 2} (hn : 0 < n) :
    BddSatAt sp (stepAt sp c n (a n)).1 (stepAt sp c n (a n)).2 a ↔ BddSatAt sp c.1 c.2 a := by
  unfold stepAt
  split
  · rename_i h; rw [h]; exact (bddSatAt_pos hn).symm
  · rfl

/-- equality of code/state pairs up to `equal_to` -/
def CodeEqv (sp : DdSpec N S) (c d : Int × S) : Prop :=
  c.1 = d.1 ∧ ∀ k : Nat, 0 < k → c.1 = (k : Int) → sp.eqv k c.2 d.2 = true

theorem stepAt_congr (hc : LawfulC sp) {c d : Int × S} {n : Nat} (b : Fin 2) (hn : 0 < n)
    (h1 : Reach sp c.1 c.2) (h2 : Reach sp d.1 d.2) (he : CodeEqv sp c d) :
    CodeEqv sp (stepAt sp c n b) (stepAt sp d n b) := by
  unfold stepAt
  rw [← he.1]
  split
  · rename_i h
    have h' := he.1 ▸ h
    rw [h] at h1; rw [h'] at h2
    exact hc.congr b hn h1 h2 (he.2 n hn h)
  · exact he

end StepAt

theorem binEqv_iff {p q : BinState S1 S2} :
    binEqv s1 s2 p q = true ↔ CodeEqv s1 p.1 q.1 ∧ CodeEqv s2 p.2 q.2 := by
  have key : ∀ (S : Type) (sp : DdSpec 2 S) (c d : Int × S), c.1 = d.1 →
      ((∀ k : Nat, 0 < k → c.1 = (k : Int) → sp.eqv k c.2 d.2 = true) ↔
        (0 < c.1 → sp.eqv c.1.toNat c.2 d.2 = true)) := by
    intro S sp c d _
    constructor
    · intro h hp
      exact h c.1.toNat (by omega) (by omega)
    · intro h k hk hck
      have := h (by omega)
      rwa [hck] at this
  unfold binEqv CodeEqv
  constructor
  · intro h
    split at h; · simp at h
    split at h; · simp at h
    split at h; · simp at h
    split at h; · simp at h
    rename_i h1 h2 h3 h4
    simp only [ne_eq, Decidable.not_not] at h1 h2
    refine ⟨⟨h1, (key _ s1 _ _ h1).2 fun hp => ?_⟩, h2, (key _ s2 _ _ h2).2 fun hp => ?_⟩
    · simpa [hp] using h3
    · simpa [hp] using h4
  · rintro ⟨⟨h1, h3⟩, h2, h4⟩
    have h3 := (key _ s1 _ _ h1).1 h3
    have h4 := (key _ s2 _ _ h2).1 h4
    rw [if_neg (by simpa using h1), if_neg (by simpa using h2), if_neg, if_neg]
    · rintro ⟨h, h'⟩; exact h' (h4 h)
    · rintro ⟨h, h'⟩; exact h' (h3 h)

theorem codeEqv_refl {N : Nat} {sp : DdSpec N S} (hc : LawfulC sp) {c : Int × S}
    (h : Reach sp c.1 c.2) : CodeEqv sp c c :=
  ⟨rfl, fun _ hk hck => hc.refl hk (hck ▸ h)⟩

theorem codeEqv_symm {N : Nat} {sp : DdSpec N S} (hc : LawfulC sp) {c d : Int × S}
    (h1 : Reach sp c.1 c.2) (h2 : Reach sp d.1 d.2) (h : CodeEqv sp c d) : CodeEqv sp d c :=
  ⟨h.1.symm, fun k hk hdk => hc.symm hk ((h.1.trans hdk) ▸ h1) (hdk ▸ h2)
    (h.2 k hk (h.1.trans hdk))⟩

theorem codeEqv_trans {N : Nat} {sp : DdSpec N S} (hc : LawfulC sp) {c d e : Int × S}
    (h1 : Reach sp c.1 c.2) (h2 : Reach sp d.1 d.2) (h3 : Reach sp e.1 e.2)
    (h : CodeEqv sp c d) (h' : CodeEqv sp d e) : CodeEqv sp c e :=
  ⟨h.1.trans h'.1, fun k hk hck => hc.trans hk (hck ▸ h1) ((h.1.symm.trans hck) ▸ h2)
    ((h'.1.symm.trans (h.1.symm.trans hck)) ▸ h3) (h.2 k hk hck)
    (h'.2 k hk (h.1.symm.trans hck))⟩

theorem binHash_eq (hc1 : LawfulC s1) (hc2 : LawfulC s2) {p q : BinState S1 S2}
    (r1 : Reach s1 p.1.1 p.1.2) (r2 : Reach s2 p.2.1 p.2.2)
    (r1' : Reach s1 q.1.1 q.1.2) (r2' : Reach s2 q.2.1 q.2.2)
    (h : CodeEqv s1 p.1 q.1 ∧ CodeEqv s2 p.2 q.2) : binHash s1 s2 p = binHash s1 s2 q := by
  have key : ∀ (S : Type) (sp : DdSpec 2 S) (hc : LawfulC sp) (c d : Int × S) (m : Int),
      Reach sp c.1 c.2 → Reach sp d.1 d.2 → CodeEqv sp c d →
      (if 0 < c.1 then (sp.hash c.1.toNat c.2 : Int) * m else 0) =
      (if 0 < d.1 then (sp.hash d.1.toNat d.2 : Int) * m else 0) := by
    intro S sp hc c d m h1 h2 h
    rw [← h.1]
    split
    · rename_i hp
      obtain ⟨k, hk⟩ := Int.eq_ofNat_of_zero_le (Int.le_of_lt hp)
      have hk0 : 0 < k := by omega
      have hd : d.1 = k := h.1.symm.trans hk
      rw [hk] at h1; rw [hd] at h2
      rw [hk, Int.toNat_natCast, hc.hash_eq hk0 h1 h2 (h.2 k hk0 hk)]
    · rfl
  unfold binHash
  rw [key _ s1 hc1 p.1 q.1 _ r1 r1' h.1, key _ s2 hc2 p.2 q.2 _ r2 r2' h.2, h.1.1, h.2.1]

/-! ### bddAnd -/

/-- what holds of every live state of `bddAnd` -/
structure AndInv (s1 : DdSpec 2 S1) (s2 : DdSpec 2 S2) (l : Int) (p : BinState S1 S2) : Prop where
  r1 : Reach s1 p.1.1 p.1.2
  r2 : Reach s2 p.2.1 p.2.2
  ne1 : p.1.1 ≠ 0
  ne2 : p.2.1 ≠ 0
  lvl : l = max p.1.1 p.2.1

theorem and_child {p : BinState S1 S2} {n : Nat} (b : Fin 2) (h : AndInv s1 s2 (n : Int) p) :
    (bddAnd s1 s2).child p n b =
      (if (stepAt s1 p.1 n b).1 = 0 then (0, (stepAt s1 p.1 n b, p.2))
       else if (stepAt s2 p.2 n b).1 = 0 then (0, (stepAt s1 p.1 n b, stepAt s2 p.2 n b))
       else (max (stepAt s1 p.1 n b).1 (stepAt s2 p.2 n b).1,
        (stepAt s1 p.1 n b, stepAt s2 p.2 n b))) := by
  have hl := h.lvl
  have e1 : ((p.1.1 = (n : Int)) ∧ (stepAt s1 p.1 n b).1 = 0) ↔ (stepAt s1 p.1 n b).1 = 0 := by
    refine ⟨fun h => h.2, fun h' => ⟨?_, h'⟩⟩
    apply Decidable.byContradiction
    intro hne; simp [stepAt, hne] at h'; exact h.ne1 h'
  have e2 : ((p.2.1 = (n : Int)) ∧ (stepAt s2 p.2 n b).1 = 0) ↔ (stepAt s2 p.2 n b).1 = 0 := by
    refine ⟨fun h => h.2, fun h' => ⟨?_, h'⟩⟩
    apply Decidable.byContradiction
    intro hne; simp [stepAt, hne] at h'; exact h.ne2 h'
  simp only [bddAnd, e1, e2]
  rw [if_neg (by omega)]

theorem and_step {p : BinState S1 S2} {n : Nat} (b : Fin 2) (hn : 0 < n)
    (h : AndInv s1 s2 (n : Int) p) :
    ((bddAnd s1 s2).child p n b).1 = 0 ∨
    AndInv s1 s2 ((bddAnd s1 s2).child p n b).1 ((bddAnd s1 s2).child p n b).2 := by
  rw [and_child b h]
  split
  · exact .inl rfl
  · split
    · exact .inl rfl
    · exact .inr ⟨stepAt_reach b hn h.r1, stepAt_reach b hn h.r2, ‹_›, ‹_›, rfl⟩

theorem and_reach {l : Int} {p : BinState S1 S2} (h : Reach (bddAnd s1 s2) l p) :
    l = 0 ∨ AndInv s1 s2 l p := by
  induction h with
  | root =>
    simp only [bddAnd]
    split
    · exact .inl rfl
    · split
      · exact .inl rfl
      · exact .inr ⟨.root, .root, ‹_›, ‹_›, rfl⟩
  | step b hn _ ih =>
    rcases ih with ih | ih
    · omega
    · exact and_step b hn ih

theorem and_reach_pos {n : Nat} {p : BinState S1 S2} (hn : 0 < n)
    (h : Reach (bddAnd s1 s2) (n : Int) p) : AndInv s1 s2 (n : Int) p := by
  rcases and_reach h with h | h
  · omega
  · exact h

theorem and_desc (h1 : Desc s1) (h2 : Desc s2) : Desc (bddAnd s1 s2) := by
  have hlt : ∀ {n : Nat} {p : BinState S1 S2} (b : Fin 2), 0 < n →
      Reach (bddAnd s1 s2) (n : Int) p →
      ((bddAnd s1 s2).child p n b).1 < n ∧ -1 ≤ ((bddAnd s1 s2).child p n b).1 := by
    intro n p b hn hr
    have hi := and_reach_pos hn hr
    have hl := hi.lvl
    have a1 := stepAt_lt h1 b hn hi.r1 (by omega)
    have a2 := stepAt_lt h2 b hn hi.r2 (by omega)
    rw [and_child b hi]
    split
    · constructor <;> simp <;> omega
    · split
      · constructor <;> simp <;> omega
      · constructor <;> simp <;> omega
  refine ⟨?_, fun b hn hr => (hlt b hn hr).1, fun b hn hr => (hlt b hn hr).2⟩
  have := h1.root_ge
  simp only [bddAnd]
  split
  · simp
  · split
    · simp
    · simp; omega

theorem and_sat (h1 : Desc s1) (h2 : Desc s2) (a : Asg 2) :
    ∀ (m : Nat) {l : Int} {p : BinState S1 S2}, l < (m : Int) → AndInv s1 s2 l p →
    (BddSatAt (bddAnd s1 s2) l p a ↔ BddSatAt s1 p.1.1 p.1.2 a ∧ BddSatAt s2 p.2.1 p.2.2 a) := by
  intro m
  induction m with
  | zero =>
    intro l p hl h
    have := h.lvl
    exact ⟨fun _ => ⟨bddSatAt_neg (by omega), bddSatAt_neg (by omega)⟩,
      fun _ => bddSatAt_neg (by omega)⟩
  | succ m ih =>
    intro l p hl h
    have hlv := h.lvl
    rcases Int.lt_or_le l 0 with hneg | hnn
    · exact ⟨fun _ => ⟨bddSatAt_neg (by omega), bddSatAt_neg (by omega)⟩,
        fun _ => bddSatAt_neg hneg⟩
    obtain ⟨n, rfl⟩ := Int.eq_ofNat_of_zero_le hnn
    have n1 := h.ne1
    have n2 := h.ne2
    have hn : 0 < n := by omega
    rw [bddSatAt_pos hn, ← stepAt_sat (sp := s1) (c := p.1) hn, ← stepAt_sat (sp := s2) (c := p.2) hn]
    have a1 := stepAt_lt h1 (a n) hn h.r1 (by omega)
    have a2 := stepAt_lt h2 (a n) hn h.r2 (by omega)
    rcases and_step (a n) hn h with h0 | hi
    · rw [h0]
      refine ⟨fun h => absurd h bddSatAt_zero, ?_⟩
      rintro ⟨b1, b2⟩
      rw [and_child _ h] at h0
      split at h0
      · rename_i hz; rw [hz] at b1; exact absurd b1 bddSatAt_zero
      · split at h0
        · rename_i hz; rw [hz] at b2; exact absurd b2 bddSatAt_zero
        · simp at h0; omega
    · have hlt : ((bddAnd s1 s2).child p n (a n)).1 < m := by
        rw [and_child _ h]
        split
        · simp; omega
        · split
          · simp; omega
          · simp; omega
      rw [ih hlt hi]
      have : ((bddAnd s1 s2).child p n (a n)).2 = (stepAt s1 p.1 n (a n), stepAt s2 p.2 n (a n)) := by
        have := hi.ne1
        have := hi.ne2
        have hl := hi.lvl
        rw [and_child _ h] at *
        split
        · rename_i hz; simp [hz] at *
        · split
          · rename_i hz; simp [hz] at *
          · rfl
      rw [this]

theorem bin_congr_aux (hc1 : LawfulC s1) (hc2 : LawfulC s2) {p q : BinState S1 S2} {n : Nat}
    (b : Fin 2) (hn : 0 < n)
    (r1 : Reach s1 p.1.1 p.1.2) (r2 : Reach s2 p.2.1 p.2.2)
    (r1' : Reach s1 q.1.1 q.1.2) (r2' : Reach s2 q.2.1 q.2.2)
    (he : binEqv s1 s2 p q = true) :
    CodeEqv s1 (stepAt s1 p.1 n b) (stepAt s1 q.1 n b) ∧
    CodeEqv s2 (stepAt s2 p.2 n b) (stepAt s2 q.2 n b) := by
  obtain ⟨e1, e2⟩ := binEqv_iff.1 he
  exact ⟨stepAt_congr hc1 b hn r1 r1' e1, stepAt_congr hc2 b hn r2 r2' e2⟩

theorem and_lawful (hc1 : LawfulC s1) (hc2 : LawfulC s2) : LawfulC (bddAnd s1 s2) where
  toDesc := and_desc hc1.toDesc hc2.toDesc
  refl := fun hn hr =>
    have h := and_reach_pos hn hr
    binEqv_iff.2 ⟨codeEqv_refl hc1 h.r1, codeEqv_refl hc2 h.r2⟩
  symm := fun hn hr hr' he =>
    have h := and_reach_pos hn hr
    have h' := and_reach_pos hn hr'
    binEqv_iff.2 ⟨codeEqv_symm hc1 h.r1 h'.r1 (binEqv_iff.1 he).1,
      codeEqv_symm hc2 h.r2 h'.r2 (binEqv_iff.1 he).2⟩
  trans := fun hn hr hr' hr'' he he' =>
    have h := and_reach_pos hn hr
    have h' := and_reach_pos hn hr'
    have h'' := and_reach_pos hn hr''
    binEqv_iff.2 ⟨codeEqv_trans hc1 h.r1 h'.r1 h''.r1 (binEqv_iff.1 he).1 (binEqv_iff.1 he').1,
      codeEqv_trans hc2 h.r2 h'.r2 h''.r2 (binEqv_iff.1 he).2 (binEqv_iff.1 he').2⟩
  hash_eq := fun hn hr hr' he =>
    have h := and_reach_pos hn hr
    have h' := and_reach_pos hn hr'
    binHash_eq hc1 hc2 h.r1 h.r2 h'.r1 h'.r2 (binEqv_iff.1 he)
  congr := by
    intro n p q b hn hr hr' he
    have h := and_reach_pos hn hr
    have h' := and_reach_pos hn hr'
    obtain ⟨e1, e2⟩ := bin_congr_aux hc1 hc2 b hn h.r1 h.r2 h'.r1 h'.r2 he
    rw [and_child b h, and_child b h']
    have z1 := e1.1
    have z2 := e2.1
    rw [← z1, ← z2]
    split
    · simp; omega
    · split
      · simp; omega
      · exact ⟨rfl, fun k _ _ => binEqv_iff.2 ⟨e1, e2⟩⟩

/-! ### bddOr -/

/-- what holds of every live (positive level) state of `bddOr` -/
structure OrInv (s1 : DdSpec 2 S1) (s2 : DdSpec 2 S2) (l : Int) (p : BinState S1 S2) : Prop where
  r1 : Reach s1 p.1.1 p.1.2
  r2 : Reach s2 p.2.1 p.2.2
  ge1 : 0 ≤ p.1.1
  ge2 : 0 ≤ p.2.1
  lvl : l = max p.1.1 p.2.1

theorem or_child {p : BinState S1 S2} {n : Nat} (b : Fin 2) (h : OrInv s1 s2 (n : Int) p) :
    (bddOr s1 s2).child p n b =
      (if (stepAt s1 p.1 n b).1 < 0 then (-1, (stepAt s1 p.1 n b, p.2))
       else if (stepAt s2 p.2 n b).1 < 0 then (-1, (stepAt s1 p.1 n b, stepAt s2 p.2 n b))
       else (max (stepAt s1 p.1 n b).1 (stepAt s2 p.2 n b).1,
        (stepAt s1 p.1 n b, stepAt s2 p.2 n b))) := by
  have hl := h.lvl
  have g1 := h.ge1
  have g2 := h.ge2
  have e1 : ((p.1.1 = (n : Int)) ∧ (stepAt s1 p.1 n b).1 < 0) ↔ (stepAt s1 p.1 n b).1 < 0 := by
    refine ⟨fun h => h.2, fun h' => ⟨?_, h'⟩⟩
    apply Decidable.byContradiction
    intro hne; simp [stepAt, hne] at h'; omega
  have e2 : ((p.2.1 = (n : Int)) ∧ (stepAt s2 p.2 n b).1 < 0) ↔ (stepAt s2 p.2 n b).1 < 0 := by
    refine ⟨fun h => h.2, fun h' => ⟨?_, h'⟩⟩
    apply Decidable.byContradiction
    intro hne; simp [stepAt, hne] at h'; omega
  simp only [bddOr, e1, e2]
  rw [if_neg (by omega)]

theorem or_step {p : BinState S1 S2} {n : Nat} (b : Fin 2) (hn : 0 < n)
    (h : OrInv s1 s2 (n : Int) p) :
    ((bddOr s1 s2).child p n b).1 = -1 ∨
    OrInv s1 s2 ((bddOr s1 s2).child p n b).1 ((bddOr s1 s2).child p n b).2 := by
  rw [or_child b h]
  split
  · exact .inl rfl
  · split
    · exact .inl rfl
    · exact .inr ⟨stepAt_reach b hn h.r1, stepAt_reach b hn h.r2, by simp; omega, by simp; omega, rfl⟩

theorem or_reach {l : Int} {p : BinState S1 S2} (h : Reach (bddOr s1 s2) l p) :
    l = -1 ∨ OrInv s1 s2 l p := by
  induction h with
  | root =>
    simp only [bddOr]
    split
    · exact .inl rfl
    · split
      · exact .inl rfl
      · exact .inr ⟨.root, .root, by simp; omega, by simp; omega, rfl⟩
  | step b hn _ ih =>
    rcases ih with ih | ih
    · omega
    · exact or_step b hn ih

theorem or_reach_pos {n : Nat} {p : BinState S1 S2} (hn : 0 < n)
    (h : Reach (bddOr s1 s2) (n : Int) p) : OrInv s1 s2 (n : Int) p := by
  rcases or_reach h with h | h
  · omega
  · exact h

theorem or_desc (h1 : Desc s1) (h2 : Desc s2) : Desc (bddOr s1 s2) := by
  have hlt : ∀ {n : Nat} {p : BinState S1 S2} (b : Fin 2), 0 < n →
      Reach (bddOr s1 s2) (n : Int) p →
      ((bddOr s1 s2).child p n b).1 < n ∧ -1 ≤ ((bddOr s1 s2).child p n b).1 := by
    intro n p b hn hr
    have hi := or_reach_pos hn hr
    have hl := hi.lvl
    have a1 := stepAt_lt h1 b hn hi.r1 (by omega)
    have a2 := stepAt_lt h2 b hn hi.r2 (by omega)
    rw [or_child b hi]
    split
    · constructor <;> simp <;> omega
    · split
      · constructor <;> simp <;> omega
      · constructor <;> simp <;> omega
  refine ⟨?_, fun b hn hr => (hlt b hn hr).1, fun b hn hr => (hlt b hn hr).2⟩
  have := h1.root_ge
  simp only [bddOr]
  split
  · simp
  · split
    · simp
    · simp; omega

theorem or_sat (h1 : Desc s1) (h2 : Desc s2) (a : Asg 2) :
    ∀ (m : Nat) {l : Int} {p : BinState S1 S2}, l < (m : Int) → OrInv s1 s2 l p →
    (BddSatAt (bddOr s1 s2) l p a ↔ BddSatAt s1 p.1.1 p.1.2 a ∨ BddSatAt s2 p.2.1 p.2.2 a) := by
  intro m
  induction m with
  | zero =>
    intro l p hl h
    have := h.lvl
    have := h.ge1
    omega
  | succ m ih =>
    intro l p hl h
    have hlv := h.lvl
    have g1 := h.ge1
    have g2 := h.ge2
    by_cases h0 : l = 0
    · have e1 : p.1.1 = 0 := by omega
      have e2 : p.2.1 = 0 := by omega
      rw [h0, e1, e2]
      simp [bddSatAt_zero]
    obtain ⟨n, rfl⟩ := Int.eq_ofNat_of_zero_le (a := l) (by omega)
    have hn : 0 < n := by omega
    rw [bddSatAt_pos hn, ← stepAt_sat (sp := s1) (c := p.1) hn, ← stepAt_sat (sp := s2) (c := p.2) hn]
    have a1 := stepAt_lt h1 (a n) hn h.r1 (by omega)
    have a2 := stepAt_lt h2 (a n) hn h.r2 (by omega)
    by_cases c1 : (stepAt s1 p.1 n (a n)).1 < 0
    · have : ((bddOr s1 s2).child p n (a n)).1 < 0 := by rw [or_child _ h, if_pos c1]; simp
      exact ⟨fun _ => .inl (bddSatAt_neg c1), fun _ => bddSatAt_neg this⟩
    by_cases c2 : (stepAt s2 p.2 n (a n)).1 < 0
    · have : ((bddOr s1 s2).child p n (a n)).1 < 0 := by
        rw [or_child _ h, if_neg c1, if_pos c2]; simp
      exact ⟨fun _ => .inr (bddSatAt_neg c2), fun _ => bddSatAt_neg this⟩
    have hi := or_step (a n) hn h
    have he := or_child (a n) h
    rw [if_neg c1, if_neg c2] at he
    rw [he] at hi ⊢
    rcases hi with hi | hi
    · simp at hi; omega
    · rw [ih (by simp; omega) hi]

theorem or_lawful (hc1 : LawfulC s1) (hc2 : LawfulC s2) : LawfulC (bddOr s1 s2) where
  toDesc := or_desc hc1.toDesc hc2.toDesc
  refl := fun hn hr =>
    have h := or_reach_pos hn hr
    binEqv_iff.2 ⟨codeEqv_refl hc1 h.r1, codeEqv_refl hc2 h.r2⟩
  symm := fun hn hr hr' he =>
    have h := or_reach_pos hn hr
    have h' := or_reach_pos hn hr'
    binEqv_iff.2 ⟨codeEqv_symm hc1 h.r1 h'.r1 (binEqv_iff.1 he).1,
      codeEqv_symm hc2 h.r2 h'.r2 (binEqv_iff.1 he).2⟩
  trans := fun hn hr hr' hr'' he he' =>
    have h := or_reach_pos hn hr
    have h' := or_reach_pos hn hr'
    have h'' := or_reach_pos hn hr''
    binEqv_iff.2 ⟨codeEqv_trans hc1 h.r1 h'.r1 h''.r1 (binEqv_iff.1 he).1 (binEqv_iff.1 he').1,
      codeEqv_trans hc2 h.r2 h'.r2 h''.r2 (binEqv_iff.1 he).2 (binEqv_iff.1 he').2⟩
  hash_eq := fun hn hr hr' he =>
    have h := or_reach_pos hn hr
    have h' := or_reach_pos hn hr'
    binHash_eq hc1 hc2 h.r1 h.r2 h'.r1 h'.r2 (binEqv_iff.1 he)
  congr := by
    intro n p q b hn hr hr' he
    have h := or_reach_pos hn hr
    have h' := or_reach_pos hn hr'
    obtain ⟨e1, e2⟩ := bin_congr_aux hc1 hc2 b hn h.r1 h.r2 h'.r1 h'.r2 he
    rw [or_child b h, or_child b h']
    have z1 := e1.1
    have z2 := e2.1
    rw [← z1, ← z2]
    split
    · simp
    · split
      · simp
      · exact ⟨rfl, fun k _ _ => binEqv_iff.2 ⟨e1, e2⟩⟩

end TdZdd
