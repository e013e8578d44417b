import Verif.Lookahead
import Verif.BinaryOperationProofs2

/-! Helper lemmas for the lookaheads and unreductions. -/

namespace TdZdd

variable {N : Nat} [NeZero N] {S : Type} {sp : DdSpec N S}

/-! ### The loops -/

/-- A lookahead loop described by its test; both loops are of this form. -/
def genAhead (test : S → Nat → Bool) (sp : DdSpec N S) : Nat → Int × S → Option (Int × S)
  | 0, _ => none
  | fuel + 1, c =>
    if c.1 < 1 then some c
    else if test c.2 c.1.toNat then genAhead test sp fuel (sp.child c.2 c.1.toNat 0)
    else some c

theorem bddAhead_eq : bddAhead sp = genAhead (allSame sp) sp := by
  funext fuel
  induction fuel with
  | zero => rfl
  | succ k ih => funext c; simp only [bddAhead, genAhead, ih]

theorem zddAhead_eq : zddAhead sp = genAhead (allZeroBut0 sp) sp := by
  funext fuel
  induction fuel with
  | zero => rfl
  | succ k ih => funext c; simp only [zddAhead, genAhead, ih]

/-- what a lookahead loop guarantees: it stops at a reachable pair `d` not above `c`, which is
terminal or fails the test, and every relation preserved by one step relates `c` to `d` -/
theorem genAhead_ok {test : S → Nat → Bool} (hd : Desc sp) (R : Int × S → Int × S → Prop)
    (hrefl : ∀ c, R c c)
    (hstep : ∀ (n : Nat) (s : S) d, 0 < n → Reach sp (n : Int) s → test s n = true →
      R (sp.child s n 0) d → R ((n : Int), s) d) :
    ∀ (fuel : Nat) (c : Int × S), Reach sp c.1 c.2 → c.1.toNat < fuel →
    ∃ d, genAhead test sp fuel c = some d ∧ Reach sp d.1 d.2 ∧ d.1 ≤ c.1 ∧ R c d ∧
      (∀ n : Nat, 0 < n → d.1 = n → test d.2 n = false) := by
  intro fuel
  induction fuel with
  | zero =>
    intro c hr hf
    omega
  | succ k ih =>
    intro c hr hf
    obtain ⟨l, s⟩ := c
    unfold genAhead
    simp only at *
    by_cases hl : l < 1
    · rw [if_pos hl]
      exact ⟨_, rfl, hr, Int.le_refl _, hrefl _, fun n hn h => by simp only at h; omega⟩
    rw [if_neg hl]
    obtain ⟨n, rfl⟩ := Int.eq_ofNat_of_zero_le (a := l) (by omega)
    have hn : 0 < n := by omega
    rw [Int.toNat_natCast]
    by_cases ht : test s n = true
    · rw [if_pos ht]
      have hlt := hd.child_lt 0 hn hr
      obtain ⟨d, h1, h2, h3, h4, h5⟩ := ih _ (Reach.step 0 hn hr) (by omega)
      exact ⟨d, h1, h2, by omega, hstep n s d hn hr ht h4, h5⟩
    · rw [if_neg ht]
      refine ⟨_, rfl, hr, Int.le_refl _, hrefl _, fun m _ hm => ?_⟩
      have : n = m := Int.ofNat.inj hm
      subst this; simpa using ht

section Gen
variable {test : S → Nat → Bool}

/-- the properties of `get_root`/`get_child` of a lookahead -/
theorem ahead_child (hd : Desc sp) (R : Int × S → Int × S → Prop)
    (hrefl : ∀ c, R c c)
    (hstep : ∀ (n : Nat) (s : S) d, 0 < n → Reach sp (n : Int) s → test s n = true →
      R (sp.child s n 0) d → R ((n : Int), s) d)
    {n : Nat} {s : S} (b : Fin N) (hn : 0 < n) (hr : Reach sp (n : Int) s) :
    ∃ d, (ahead (genAhead test sp) sp).child s n b = d ∧ Reach sp d.1 d.2 ∧
      d.1 ≤ (sp.child s n b).1 ∧ R (sp.child s n b) d ∧
      (∀ k : Nat, 0 < k → d.1 = k → test d.2 k = false) := by
  obtain ⟨d, h1, h2⟩ := genAhead_ok (test := test) hd R hrefl hstep
    ((sp.child s n b).1.toNat + 1) _ (Reach.step b hn hr) (by omega)
  exact ⟨d, by simp [ahead, h1], h2⟩

theorem ahead_root (hd : Desc sp) (R : Int × S → Int × S → Prop)
    (hrefl : ∀ c, R c c)
    (hstep : ∀ (n : Nat) (s : S) d, 0 < n → Reach sp (n : Int) s → test s n = true →
      R (sp.child s n 0) d → R ((n : Int), s) d) :
    ∃ d, (ahead (genAhead test sp) sp).root = d ∧ Reach sp d.1 d.2 ∧
      d.1 ≤ sp.root.1 ∧ R sp.root d ∧
      (∀ k : Nat, 0 < k → d.1 = k → test d.2 k = false) := by
  obtain ⟨d, h1, h2⟩ := genAhead_ok (test := test) hd R hrefl hstep
    (sp.root.1.toNat + 1) sp.root .root (by omega)
  exact ⟨d, by simp [ahead, h1], h2⟩

theorem ahead_reach (hd : Desc sp) {l : Int} {s : S}
    (h : Reach (ahead (genAhead test sp) sp) l s) :
    Reach sp l s ∧ ∀ k : Nat, 0 < k → l = k → test s k = false := by
  induction h with
  | root =>
    obtain ⟨d, h1, h2, _, _, h5⟩ := ahead_root (test := test) hd (fun _ _ => True)
      (fun _ => trivial) (fun _ _ _ _ _ _ _ => trivial)
    rw [h1]; exact ⟨h2, h5⟩
  | step b hn _ ih =>
    obtain ⟨d, h1, h2, _, _, h5⟩ := ahead_child (test := test) hd (fun _ _ => True)
      (fun _ => trivial) (fun _ _ _ _ _ _ _ => trivial) b hn ih.1
    rw [h1]; exact ⟨h2, h5⟩

theorem ahead_desc (hd : Desc sp) : Desc (ahead (genAhead test sp) sp) := by
  refine ⟨?_, fun b hn hr => ?_, fun b hn hr => ?_⟩
  · exact reach_ge hd (ahead_reach (test := test) hd .root).1
  · have hr := (ahead_reach hd hr).1
    obtain ⟨d, h1, h2, h3, _, _⟩ := ahead_child (test := test) hd (fun _ _ => True)
      (fun _ => trivial) (fun _ _ _ _ _ _ _ => trivial) b hn hr
    have := hd.child_lt b hn hr
    rw [h1]; omega
  · exact reach_ge hd (ahead_reach (test := test) hd (Reach.step b hn hr)).1

/-- equal states give equal results of the loop, if the test respects equality -/
theorem genAhead_congr (hc : LawfulC sp)
    (htest : ∀ (n : Nat) (s t : S), 0 < n → Reach sp (n : Int) s → Reach sp (n : Int) t →
      sp.eqv n s t = true → test s n = test t n) :
    ∀ (fuel : Nat) (c d : Int × S), Reach sp c.1 c.2 → Reach sp d.1 d.2 → CodeEqv sp c d →
    ∀ r, genAhead test sp fuel c = some r →
    ∃ r', genAhead test sp fuel d = some r' ∧ CodeEqv sp r r' := by
  intro fuel
  induction fuel with
  | zero => intro c d _ _ _ r h; simp [genAhead] at h
  | succ k ih =>
    intro c d hc1 hd1 he r h
    obtain ⟨l, s⟩ := c
    obtain ⟨l', t⟩ := d
    have hl : l = l' := he.1
    subst hl
    unfold genAhead at h ⊢
    simp only at hc1 hd1 h ⊢
    by_cases hl : l < 1
    · rw [if_pos hl] at h ⊢
      cases h
      exact ⟨_, rfl, he⟩
    rw [if_neg hl] at h ⊢
    obtain ⟨n, rfl⟩ := Int.eq_ofNat_of_zero_le (a := l) (by omega)
    have hn : 0 < n := by omega
    rw [Int.toNat_natCast] at h ⊢
    have hst := he.2 n hn rfl
    rw [← htest n s t hn hc1 hd1 hst]
    by_cases ht : test s n = true
    · rw [if_pos ht] at h ⊢
      exact ih _ _ (Reach.step 0 hn hc1) (Reach.step 0 hn hd1) (hc.congr 0 hn hc1 hd1 hst) r h
    · rw [if_neg ht] at h ⊢
      cases h
      exact ⟨_, rfl, he⟩

theorem ahead_lawful (hc : LawfulC sp)
    (htest : ∀ (n : Nat) (s t : S), 0 < n → Reach sp (n : Int) s → Reach sp (n : Int) t →
      sp.eqv n s t = true → test s n = test t n) :
    LawfulC (ahead (genAhead test sp) sp) where
  toDesc := ahead_desc hc.toDesc
  refl := fun hn hr => hc.refl hn (ahead_reach hc.toDesc hr).1
  symm := fun hn hr hr' he =>
    hc.symm hn (ahead_reach hc.toDesc hr).1 (ahead_reach hc.toDesc hr').1 he
  trans := fun hn hr hr' hr'' he he' =>
    hc.trans hn (ahead_reach hc.toDesc hr).1 (ahead_reach hc.toDesc hr').1
      (ahead_reach hc.toDesc hr'').1 he he'
  hash_eq := fun hn hr hr' he =>
    hc.hash_eq hn (ahead_reach hc.toDesc hr).1 (ahead_reach hc.toDesc hr').1 he
  congr := by
    intro n s t b hn hr hr' he
    have r1 := (ahead_reach hc.toDesc hr).1
    have r2 := (ahead_reach hc.toDesc hr').1
    have ce := hc.congr b hn r1 r2 he
    have rc1 := Reach.step b hn r1
    have rc2 := Reach.step b hn r2
    obtain ⟨d, h1, _⟩ := genAhead_ok (test := test) hc.toDesc (fun _ _ => True)
      (fun _ => trivial) (fun _ _ _ _ _ _ _ => trivial)
      ((sp.child s n b).1.toNat + 1) _ rc1 (by omega)
    obtain ⟨d', h1', h2⟩ := genAhead_congr hc htest _ _ _ rc1 rc2 ce d h1
    have : (sp.child t n b).1 = (sp.child s n b).1 := ce.1.symm
    simp only [ahead, this, h1, h1']
    exact h2

end Gen

/-! ### bddLookahead -/

theorem bddStep (hl : Lawful sp) (n : Nat) (s : S) (d : Int × S) (hn : 0 < n)
    (hr : Reach sp (n : Int) s) (ht : allSame sp s n = true)
    (h : ∀ a, BddSatAt sp (sp.child s n 0).1 (sp.child s n 0).2 a ↔ BddSatAt sp d.1 d.2 a) :
    ∀ a, BddSatAt sp (n : Int) s a ↔ BddSatAt sp d.1 d.2 a := by
  intro a
  rw [bddSatAt_pos hn, ← h a]
  by_cases hb : a n = 0
  · rw [hb]
  · simp only [allSame, decide_eq_true_eq] at ht
    obtain ⟨h1, h2⟩ := ht (a n) hb
    rw [← h1]
    rcases h2 with h2 | h2
    · rcases Int.lt_or_eq_of_le h2 with h2 | h2
      · exact ⟨fun _ => bddSatAt_neg h2, fun _ => bddSatAt_neg h2⟩
      · rw [h2]
        exact ⟨fun h => absurd h bddSatAt_zero, fun h => absurd h bddSatAt_zero⟩
    · have rc0 := Reach.step 0 hn hr
      have rcb := Reach.step (a n) hn hr
      rcases Int.lt_trichotomy (sp.child s n 0).1 0 with hz | hz | hz
      · exact ⟨fun _ => bddSatAt_neg hz, fun _ => bddSatAt_neg hz⟩
      · rw [hz]
        exact ⟨fun h => absurd h bddSatAt_zero, fun h => absurd h bddSatAt_zero⟩
      · obtain ⟨k, hk⟩ := Int.eq_ofNat_of_zero_le (Int.le_of_lt hz)
        have hk0 : 0 < k := by omega
        rw [hk, Int.toNat_natCast] at h2
        rw [← h1] at rcb
        rw [hk] at rc0 rcb ⊢
        have := hl.sound hk0 rc0 rcb h2
        simp only [BddSatAt, this]

theorem bddLA_sat (hl : Lawful sp) (a : Asg N) : ∀ (k : Nat) {l : Int} {s : S}, l < (k : Int) →
    Reach (bddLookahead sp) l s →
    (BddSatAt (bddLookahead sp) l s a ↔ BddSatAt sp l s a) := by
  have hE : bddLookahead sp = ahead (genAhead (allSame sp) sp) sp := by
    simp only [bddLookahead, bddAhead_eq]
  rw [hE]
  have nonpos : ∀ {l : Int} {s : S}, l ≤ 0 →
      (BddSatAt (ahead (genAhead (allSame sp) sp) sp) l s a ↔ BddSatAt sp l s a) := by
    intro l s h
    rcases Int.lt_or_eq_of_le h with h | h
    · exact ⟨fun _ => bddSatAt_neg h, fun _ => bddSatAt_neg h⟩
    · rw [h]
      exact ⟨fun h => absurd h bddSatAt_zero, fun h => absurd h bddSatAt_zero⟩
  intro k
  induction k with
  | zero => intro l s h _; exact nonpos (by omega)
  | succ k ih =>
    intro l s h hr
    by_cases hl0 : l ≤ 0
    · exact nonpos hl0
    obtain ⟨n, rfl⟩ := Int.eq_ofNat_of_zero_le (a := l) (by omega)
    have hn : 0 < n := by omega
    have hrs := (ahead_reach hl.toDesc hr).1
    have hlt := (ahead_desc (test := allSame sp) hl.toDesc).child_lt (a n) hn hr
    rw [bddSatAt_pos hn, bddSatAt_pos hn, ih (by omega) (Reach.step (a n) hn hr)]
    obtain ⟨d, h1, _, _, h4, _⟩ := ahead_child (test := allSame sp) hl.toDesc
      (fun c d => ∀ a, BddSatAt sp c.1 c.2 a ↔ BddSatAt sp d.1 d.2 a)
      (fun _ _ => Iff.rfl) (fun n s d hn hr ht h => bddStep hl n s d hn hr ht h) (a n) hn hrs
    rw [h1]
    exact (h4 a).symm

theorem allSame_congr (hc : LawfulC sp) (n : Nat) (s t : S) (hn : 0 < n)
    (hs : Reach sp (n : Int) s) (ht : Reach sp (n : Int) t) (he : sp.eqv n s t = true) :
    allSame sp s n = allSame sp t n := by
  have key : ∀ (s t : S), Reach sp (n : Int) s → Reach sp (n : Int) t → sp.eqv n s t = true →
      allSame sp s n = true → allSame sp t n = true := by
    intro s t hs ht he h
    simp only [allSame, decide_eq_true_eq] at h ⊢
    intro b hb
    obtain ⟨h1, h2⟩ := h b hb
    obtain ⟨c0, e0⟩ := hc.congr 0 hn hs ht he
    obtain ⟨cb, eb⟩ := hc.congr b hn hs ht he
    rw [← c0, ← cb]
    refine ⟨h1, ?_⟩
    rcases h2 with h2 | h2
    · exact .inl h2
    · by_cases hz : (sp.child s n 0).1 ≤ 0
      · exact .inl hz
      · right
        obtain ⟨k, hk⟩ := Int.eq_ofNat_of_zero_le (a := (sp.child s n 0).1) (by omega)
        have hk0 : 0 < k := by omega
        have rs0 := Reach.step 0 hn hs
        have rsb := Reach.step b hn hs
        have rt0 := Reach.step 0 hn ht
        have rtb := Reach.step b hn ht
        have e0 := e0 k hk0 hk
        have eb := eb k hk0 (h1 ▸ hk)
        rw [← cb, ← h1] at rtb
        rw [← c0] at rt0
        rw [← h1] at rsb
        rw [hk] at rs0 rsb rt0 rtb h2 ⊢
        rw [Int.toNat_natCast] at h2 ⊢
        exact hc.trans hk0 rt0 rs0 rtb (hc.symm hk0 rs0 rt0 e0) (hc.trans hk0 rs0 rsb rtb h2 eb)
  rw [Bool.eq_iff_iff]
  exact ⟨key s t hs ht he, key t s ht hs (hc.symm hn hs ht he)⟩

theorem bddLA_lawful (hc : LawfulC sp) : LawfulC (bddLookahead sp) := by
  simp only [bddLookahead, bddAhead_eq]
  exact ahead_lawful hc (allSame_congr hc)

/-! ### zddLookahead -/

theorem zddStep (hd : Desc sp) (n : Nat) (s : S) (d : Int × S) (hn : 0 < n)
    (hr : Reach sp (n : Int) s) (ht : allZeroBut0 sp s n = true)
    (h : ∀ (m : Nat) a, (sp.child s n 0).1 ≤ m →
      (ZddMemAt sp m (sp.child s n 0).1 (sp.child s n 0).2 a ↔ ZddMemAt sp m d.1 d.2 a)) :
    ∀ (m : Nat) a, (n : Int) ≤ m → (ZddMemAt sp m (n : Int) s a ↔ ZddMemAt sp m d.1 d.2 a) := by
  intro m a hm
  have hlt := hd.child_lt 0 hn hr
  rw [← h m a (by omega), zddMemAt_pos hd hn hr (by omega),
    mem_lower hd (Reach.step 0 hn hr) hlt hn (by omega)]
  by_cases hb : a n = 0
  · simp [hb]
  · simp only [allZeroBut0, decide_eq_true_eq] at ht
    rw [ht (a n) hb]
    constructor
    · rintro ⟨_, h⟩; exact absurd h zddMemAt_zero
    · rintro ⟨_, h, _⟩
      exact absurd (Fin.ext (by simpa using h)) hb

theorem zddLA_mem (hd : Desc sp) (a : Asg N) : ∀ (k : Nat) {l : Int} {s : S} {m : Nat},
    l < (k : Int) → l ≤ m → Reach (zddLookahead sp) l s →
    (ZddMemAt (zddLookahead sp) m l s a ↔ ZddMemAt sp m l s a) := by
  have hE : zddLookahead sp = ahead (genAhead (allZeroBut0 sp) sp) sp := by
    simp only [zddLookahead, zddAhead_eq]
  rw [hE]
  have nonpos : ∀ {l : Int} {s : S} {m : Nat}, l ≤ 0 →
      (ZddMemAt (ahead (genAhead (allZeroBut0 sp) sp) sp) m l s a ↔ ZddMemAt sp m l s a) := by
    intro l s m h
    rcases Int.lt_or_eq_of_le h with h | h
    · rw [zddMemAt_neg h, zddMemAt_neg h]
    · rw [h]
      exact ⟨fun h => absurd h zddMemAt_zero, fun h => absurd h zddMemAt_zero⟩
  have hdA := ahead_desc (test := allZeroBut0 sp) hd
  intro k
  induction k with
  | zero => intro l s m h _ _; exact nonpos (by omega)
  | succ k ih =>
    intro l s m h hm hr
    by_cases hl0 : l ≤ 0
    · exact nonpos hl0
    obtain ⟨n, rfl⟩ := Int.eq_ofNat_of_zero_le (a := l) (by omega)
    have hn : 0 < n := by omega
    have hrs := (ahead_reach hd hr).1
    have hlt := hdA.child_lt (a n) hn hr
    rw [zddMemAt_pos hdA hn hr (by omega), zddMemAt_pos hd hn hrs (by omega),
      ih (by omega) (by omega) (Reach.step (a n) hn hr)]
    obtain ⟨d, h1, _, _, h4, _⟩ := ahead_child (test := allZeroBut0 sp) hd
      (fun c d => ∀ (m : Nat) a, c.1 ≤ m → (ZddMemAt sp m c.1 c.2 a ↔ ZddMemAt sp m d.1 d.2 a))
      (fun _ _ _ _ => Iff.rfl) (fun n s d hn hr ht h => zddStep hd n s d hn hr ht h) (a n) hn hrs
    have hlt' := hd.child_lt (a n) hn hrs
    rw [h1, h4 (n - 1) a (by omega)]

theorem zddLA_lawful (hc : LawfulC sp) : LawfulC (zddLookahead sp) := by
  simp only [zddLookahead, zddAhead_eq]
  refine ahead_lawful hc ?_
  intro n s t hn hs ht he
  have : ∀ b, (sp.child s n b).1 = (sp.child t n b).1 := fun b => (hc.congr b hn hs ht he).1
  simp only [allZeroBut0, this]

end TdZdd
