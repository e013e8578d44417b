import Verif.BinaryOperationProofs

/-! Helper lemmas for `zddUnion` and `zddIntersection`. -/

namespace TdZdd

variable {S S1 S2 : Type} {s1 : DdSpec 2 S1} {s2 : DdSpec 2 S2}

/-- a pair that is either the 0-terminal or reachable -/
def ZReach (sp : DdSpec 2 S) (c : Int × S) : Prop := c.1 = 0 ∨ Reach sp c.1 c.2

section
variable {sp : DdSpec 2 S}

theorem ZReach.pos {c : Int × S} (h : ZReach sp c) (hp : c.1 ≠ 0) : Reach sp c.1 c.2 :=
  h.resolve_left hp

theorem ZReach.ge (hd : Desc sp) {c : Int × S} (h : ZReach sp c) : -1 ≤ c.1 := by
  rcases h with h | h
  · omega
  · exact reach_ge hd h

theorem stepAtZ_reach {c : Int × S} {n : Nat} (b : Fin 2) (hn : 0 < n)
    (hr : ZReach sp c) : ZReach sp (stepAtZ sp c n b) := by
  unfold stepAtZ
  split
  · rename_i h
    have hr := hr.pos (by omega)
    rw [h] at hr; exact .inr (Reach.step b hn hr)
  · split
    · exact .inl rfl
    · exact hr

theorem stepAtZ_lt (hd : Desc sp) {c : Int × S} {n : Nat} (b : Fin 2) (hn : 0 < n)
    (hr : ZReach sp c) (hc : c.1 ≤ n) :
    (stepAtZ sp c n b).1 < n ∧ -1 ≤ (stepAtZ sp c n b).1 := by
  have hg := (stepAtZ_reach b hn hr).ge hd
  refine ⟨?_, hg⟩
  unfold stepAtZ
  split
  · rename_i h
    have hr := hr.pos (by omega)
    rw [h] at hr; exact hd.child_lt b hn hr
  · split
    · simp; omega
    · omega

theorem fin2_val_zero {b : Fin 2} : b.val = 0 ↔ b = 0 := by
  constructor
  · intro h; exact Fin.ext h
  · rintro rfl; rfl

theorem stepAtZ_mem (hd : Desc sp) {c : Int × S} {n m : Nat} {a : Asg 2} (hn : 0 < n)
    (hr : ZReach sp c) (hc : c.1 ≤ n) (hnm : n ≤ m) :
    ZddMemAt sp m c.1 c.2 a ↔ (∀ j, n < j → j ≤ m → (a j).val = 0) ∧
      ZddMemAt sp (n - 1) (stepAtZ sp c n (a n)).1 (stepAtZ sp c n (a n)).2 a := by
  by_cases h0 : c.1 = 0
  · rw [h0]
    have : (stepAtZ sp c n (a n)).1 = 0 := by
      unfold stepAtZ
      rw [if_neg (by omega)]
      split
      · rfl
      · exact h0
    rw [this]
    exact ⟨fun h => absurd h zddMemAt_zero, fun h => absurd h.2 zddMemAt_zero⟩
  have hr := hr.pos h0
  unfold stepAtZ
  split
  · rename_i h
    rw [h] at hr ⊢
    exact zddMemAt_pos hd hn hr hnm
  · rename_i h
    rw [mem_lower hd hr (by omega) hn hnm]
    split
    · rename_i hb
      constructor
      · rintro ⟨_, h2, _⟩
        exact absurd (fin2_val_zero.1 h2) hb
      · rintro ⟨_, h2⟩
        exact absurd h2 zddMemAt_zero
    · rename_i hb
      simp only [ne_eq, Decidable.not_not] at hb
      simp [hb]

theorem stepAtZ_congr (hc : LawfulC sp) {c d : Int × S} {n : Nat} (b : Fin 2) (hn : 0 < n)
    (h1 : ZReach sp c) (h2 : ZReach sp d) (he : CodeEqv sp c d) :
    CodeEqv sp (stepAtZ sp c n b) (stepAtZ sp d n b) := by
  unfold stepAtZ
  rw [← he.1]
  split
  · rename_i h
    have h' := he.1 ▸ h
    have h1 := h1.pos (by omega)
    have h2 := h2.pos (by omega)
    rw [h] at h1; rw [h'] at h2
    exact hc.congr b hn h1 h2 (he.2 n hn h)
  · split
    · exact ⟨rfl, fun k hk h => by simp at h; omega⟩
    · exact he

theorem zCodeEqv_refl (hc : LawfulC sp) {c : Int × S}
    (h : ZReach sp c) : CodeEqv sp c c :=
  ⟨rfl, fun _ hk hck => hc.refl hk (hck ▸ h.pos (by omega))⟩

theorem zCodeEqv_symm (hc : LawfulC sp) {c d : Int × S}
    (h1 : ZReach sp c) (h2 : ZReach sp d) (h : CodeEqv sp c d) : CodeEqv sp d c := by
  by_cases h0 : c.1 = 0
  · exact ⟨h.1.symm, fun k hk hdk => by have := h.1; omega⟩
  · exact codeEqv_symm hc (h1.pos h0) (h2.pos (h.1 ▸ h0)) h

theorem zCodeEqv_trans (hc : LawfulC sp) {c d e : Int × S}
    (h1 : ZReach sp c) (h2 : ZReach sp d) (h3 : ZReach sp e)
    (h : CodeEqv sp c d) (h' : CodeEqv sp d e) : CodeEqv sp c e := by
  by_cases h0 : c.1 = 0
  · exact ⟨h.1.trans h'.1, fun k hk hdk => by omega⟩
  · have hd : d.1 ≠ 0 := h.1 ▸ h0
    exact codeEqv_trans hc (h1.pos h0) (h2.pos hd) (h3.pos (h'.1 ▸ hd)) h h'

end

theorem binHash_eqZ (hc1 : LawfulC s1) (hc2 : LawfulC s2) {p q : BinState S1 S2}
    (r1 : ZReach s1 p.1) (r2 : ZReach s2 p.2) (r1' : ZReach s1 q.1) (r2' : ZReach s2 q.2)
    (h : CodeEqv s1 p.1 q.1 ∧ CodeEqv s2 p.2 q.2) : binHash s1 s2 p = binHash s1 s2 q := by
  have key : ∀ (S : Type) (sp : DdSpec 2 S) (hc : LawfulC sp) (c d : Int × S) (m : Int),
      ZReach sp c → ZReach sp d → CodeEqv sp c d →
      (if 0 < c.1 then (sp.hash c.1.toNat c.2 : Int) * m else 0) =
      (if 0 < d.1 then (sp.hash d.1.toNat d.2 : Int) * m else 0) := by
    intro S sp hc c d m h1 h2 h
    rw [← h.1]
    split
    · rename_i hp
      obtain ⟨k, hk⟩ := Int.eq_ofNat_of_zero_le (Int.le_of_lt hp)
      have hk0 : 0 < k := by omega
      have hd : d.1 = k := h.1.symm.trans hk
      have h1 := h1.pos (by omega)
      have h2 := h2.pos (by omega)
      rw [hk] at h1; rw [hd] at h2
      rw [hk, Int.toNat_natCast, hc.hash_eq hk0 h1 h2 (h.2 k hk0 hk)]
    · rfl
  unfold binHash
  rw [key _ s1 hc1 p.1 q.1 _ r1 r1' h.1, key _ s2 hc2 p.2 q.2 _ r2 r2' h.2, h.1.1, h.2.1]

/-! ### zddUnion -/

/-- the level code `ZddUnion_` computes from two operand codes (464-468, 490-492) -/
def unionCode (i1 i2 : Int) : Int :=
  if i1 = 0 ∧ i2 = 0 then 0 else if i1 ≤ 0 ∧ i2 ≤ 0 then -1 else max i1 i2

/-- what holds of every live state of `zddUnion` -/
structure UnionInv (s1 : DdSpec 2 S1) (s2 : DdSpec 2 S2) (l : Int) (p : BinState S1 S2) : Prop where
  r1 : ZReach s1 p.1
  r2 : ZReach s2 p.2
  lvl : l = unionCode p.1.1 p.2.1

theorem union_child {p : BinState S1 S2} {n : Nat} (b : Fin 2) (hn : 0 < n)
    (h : UnionInv s1 s2 (n : Int) p) :
    (zddUnion s1 s2).child p n b =
      (unionCode (stepAtZ s1 p.1 n b).1 (stepAtZ s2 p.2 n b).1,
        (stepAtZ s1 p.1 n b, stepAtZ s2 p.2 n b)) := by
  have hl := h.lvl
  unfold unionCode at hl
  simp only [zddUnion, unionCode]
  rw [if_neg]
  · split
    · rfl
    · split
      · rfl
      · rfl
  · split at hl
    · omega
    · split at hl <;> omega

theorem union_le {p : BinState S1 S2} {n : Nat} (hn : 0 < n)
    (h : UnionInv s1 s2 (n : Int) p) : p.1.1 ≤ n ∧ p.2.1 ≤ n := by
  have hl := h.lvl
  unfold unionCode at hl
  split at hl
  · omega
  · split at hl <;> omega

theorem union_step {p : BinState S1 S2} {n : Nat} (b : Fin 2) (hn : 0 < n)
    (h : UnionInv s1 s2 (n : Int) p) :
    UnionInv s1 s2 ((zddUnion s1 s2).child p n b).1 ((zddUnion s1 s2).child p n b).2 := by
  rw [union_child b hn h]
  exact ⟨stepAtZ_reach b hn h.r1, stepAtZ_reach b hn h.r2, rfl⟩

theorem union_root : (zddUnion s1 s2).root = (unionCode s1.root.1 s2.root.1, (s1.root, s2.root)) := by
  simp only [zddUnion, unionCode]
  split
  · rfl
  · split <;> rfl

theorem union_reach {l : Int} {p : BinState S1 S2} (h : Reach (zddUnion s1 s2) l p) :
    UnionInv s1 s2 l p := by
  induction h with
  | root => rw [union_root]; exact ⟨.inr .root, .inr .root, rfl⟩
  | step b hn _ ih => exact union_step b hn ih

theorem union_desc (h1 : Desc s1) (h2 : Desc s2) : Desc (zddUnion s1 s2) := by
  have hlt : ∀ {n : Nat} {p : BinState S1 S2} (b : Fin 2), 0 < n →
      Reach (zddUnion s1 s2) (n : Int) p →
      ((zddUnion s1 s2).child p n b).1 < n ∧ -1 ≤ ((zddUnion s1 s2).child p n b).1 := by
    intro n p b hn hr
    have hi := union_reach hr
    have hl := union_le hn hi
    have a1 := stepAtZ_lt h1 b hn hi.r1 hl.1
    have a2 := stepAtZ_lt h2 b hn hi.r2 hl.2
    rw [union_child b hn hi]
    simp only [unionCode]
    split
    · omega
    · split <;> omega
  refine ⟨?_, fun b hn hr => (hlt b hn hr).1, fun b hn hr => (hlt b hn hr).2⟩
  have := h1.root_ge
  rw [union_root]
  simp only [unionCode]
  split
  · omega
  · split <;> omega

theorem union_mem (h1 : Desc s1) (h2 : Desc s2) (a : Asg 2) :
    ∀ (k : Nat) {l : Int} {p : BinState S1 S2} {m : Nat}, l < (k : Int) → l ≤ m →
    UnionInv s1 s2 l p → Reach (zddUnion s1 s2) l p →
    (ZddMemAt (zddUnion s1 s2) m l p a ↔
      ZddMemAt s1 m p.1.1 p.1.2 a ∨ ZddMemAt s2 m p.2.1 p.2.2 a) := by
  have hdu := union_desc h1 h2
  have nonpos : ∀ {l : Int} {p : BinState S1 S2} {m : Nat}, l ≤ 0 → UnionInv s1 s2 l p →
      (ZddMemAt (zddUnion s1 s2) m l p a ↔
      ZddMemAt s1 m p.1.1 p.1.2 a ∨ ZddMemAt s2 m p.2.1 p.2.2 a) := by
    intro l p m hl hi
    have hlv := hi.lvl
    unfold unionCode at hlv
    split at hlv
    · rename_i h
      rw [hlv, h.1, h.2]
      exact ⟨fun h => absurd h zddMemAt_zero, fun h => by
        rcases h with h | h <;> exact absurd h zddMemAt_zero⟩
    · split at hlv
      · rename_i h' h
        rw [zddMemAt_neg (by omega)]
        by_cases e1 : p.1.1 = 0
        · have : p.2.1 < 0 := by omega
          rw [zddMemAt_neg (l := p.2.1) this, e1]
          exact ⟨.inr, fun h => h.resolve_left zddMemAt_zero⟩
        · have e1' : p.1.1 < 0 := by omega
          rw [zddMemAt_neg (l := p.1.1) e1']
          by_cases e2 : p.2.1 = 0
          · rw [e2]
            exact ⟨.inl, fun h => h.resolve_right zddMemAt_zero⟩
          · rw [zddMemAt_neg (l := p.2.1) (by omega), or_self]
      · omega
  intro k
  induction k with
  | zero =>
    intro l p m hl hm hi _
    exact nonpos (by omega) hi
  | succ k ih =>
    intro l p m hl hm hi hr
    by_cases hl0 : l ≤ 0
    · exact nonpos hl0 hi
    obtain ⟨n, rfl⟩ := Int.eq_ofNat_of_zero_le (a := l) (by omega)
    have hn : 0 < n := by omega
    have hle := union_le hn hi
    have hnm : n ≤ m := by omega
    have hst := union_step (a n) hn hi
    have hrc := Reach.step (a n) hn hr
    have hlt := hdu.child_lt (a n) hn hr
    rw [zddMemAt_pos hdu hn hr hnm, stepAtZ_mem h1 hn hi.r1 hle.1 hnm,
      stepAtZ_mem h2 hn hi.r2 hle.2 hnm, ih (by omega) (by omega) hst hrc]
    rw [union_child _ hn hi]
    constructor
    · rintro ⟨h, h' | h'⟩
      · exact .inl ⟨h, h'⟩
      · exact .inr ⟨h, h'⟩
    · rintro (⟨h, h'⟩ | ⟨h, h'⟩)
      · exact ⟨h, .inl h'⟩
      · exact ⟨h, .inr h'⟩

theorem union_lawful (hc1 : LawfulC s1) (hc2 : LawfulC s2) : LawfulC (zddUnion s1 s2) where
  toDesc := union_desc hc1.toDesc hc2.toDesc
  refl := fun hn hr =>
    have h := union_reach hr
    binEqv_iff.2 ⟨zCodeEqv_refl hc1 h.r1, zCodeEqv_refl hc2 h.r2⟩
  symm := fun hn hr hr' he =>
    have h := union_reach hr
    have h' := union_reach hr'
    binEqv_iff.2 ⟨zCodeEqv_symm hc1 h.r1 h'.r1 (binEqv_iff.1 he).1,
      zCodeEqv_symm hc2 h.r2 h'.r2 (binEqv_iff.1 he).2⟩
  trans := fun hn hr hr' hr'' he he' =>
    have h := union_reach hr
    have h' := union_reach hr'
    have h'' := union_reach hr''
    binEqv_iff.2 ⟨zCodeEqv_trans hc1 h.r1 h'.r1 h''.r1 (binEqv_iff.1 he).1 (binEqv_iff.1 he').1,
      zCodeEqv_trans hc2 h.r2 h'.r2 h''.r2 (binEqv_iff.1 he).2 (binEqv_iff.1 he').2⟩
  hash_eq := fun hn hr hr' he =>
    have h := union_reach hr
    have h' := union_reach hr'
    binHash_eqZ hc1 hc2 h.r1 h.r2 h'.r1 h'.r2 (binEqv_iff.1 he)
  congr := by
    intro n p q b hn hr hr' he
    have h := union_reach hr
    have h' := union_reach hr'
    obtain ⟨e1, e2⟩ := binEqv_iff.1 he
    have e1 := stepAtZ_congr hc1 b hn h.r1 h'.r1 e1
    have e2 := stepAtZ_congr hc2 b hn h.r2 h'.r2 e2
    rw [union_child b hn h, union_child b hn h', ← e1.1, ← e2.1]
    exact ⟨rfl, fun k _ _ => binEqv_iff.2 ⟨e1, e2⟩⟩

/-! ### zddIntersection -/

/-- what the alignment loop guarantees -/
structure AlignOk (s1 : DdSpec 2 S1) (s2 : DdSpec 2 S2) (c1 : Int × S1) (c2 : Int × S2)
    (r : Int × (S1 × S2)) : Prop where
  le1 : r.1 ≠ 0 → r.1 ≤ c1.1
  le2 : r.1 ≠ 0 → r.1 ≤ c2.1
  ge : -1 ≤ r.1
  r1 : r.1 ≠ 0 → Reach s1 r.1 r.2.1
  r2 : r.1 ≠ 0 → Reach s2 r.1 r.2.2
  pos : r.1 = 0 → 0 < c1.1 ∨ 0 < c2.1
  mem : ∀ (m : Nat) (a : Asg 2), c1.1 ≤ m → c2.1 ≤ m →
    ((ZddMemAt s1 m c1.1 c1.2 a ∧ ZddMemAt s2 m c2.1 c2.2 a) ↔
      (ZddMemAt s1 m r.1 r.2.1 a ∧ ZddMemAt s2 m r.1 r.2.2 a))

/-- one step of alignment on the left does not change the common members -/
theorem align_left (h1 : Desc s1) (h2 : Desc s2) {n : Nat} {st1 : S1} {c2 : Int × S2}
    (hn : 0 < n) (r1 : Reach s1 (n : Int) st1) (r2 : Reach s2 c2.1 c2.2)
    (hlt : c2.1 < n) (m : Nat) (a : Asg 2) (hm : n ≤ m) :
    (ZddMemAt s1 m n st1 a ∧ ZddMemAt s2 m c2.1 c2.2 a) ↔
    (ZddMemAt s1 m (s1.child st1 n 0).1 (s1.child st1 n 0).2 a ∧ ZddMemAt s2 m c2.1 c2.2 a) := by
  have hd := h1.child_lt 0 hn r1
  have rc := Reach.step 0 hn r1
  rw [zddMemAt_pos h1 hn r1 hm, mem_lower h2 r2 hlt hn hm, mem_lower h1 rc hd hn hm]
  constructor
  · rintro ⟨⟨a1, a2⟩, a3, a4, a5⟩
    rw [fin2_val_zero.1 a4] at a2
    exact ⟨⟨a1, a4, a2⟩, a1, a4, a5⟩
  · rintro ⟨⟨a1, a2, a3⟩, a4, a5, a6⟩
    rw [fin2_val_zero.1 a2]
    exact ⟨⟨a1, a3⟩, a1, rfl, a6⟩

theorem alignLoop_ok (h1 : Desc s1) (h2 : Desc s2) :
    ∀ (fuel : Nat) (c1 : Int × S1) (c2 : Int × S2), Reach s1 c1.1 c1.2 → Reach s2 c2.1 c2.2 →
    c1.1 ≠ 0 → c2.1 ≠ 0 → c1.1 + c2.1 + 2 < fuel →
    ∃ r, alignLoop s1 s2 fuel c1 c2 = some r ∧ AlignOk s1 s2 c1 c2 r := by
  intro fuel
  induction fuel with
  | zero =>
    intro c1 c2 r1 r2 _ _ hf
    have := reach_ge h1 r1
    have := reach_ge h2 r2
    omega
  | succ fuel ih =>
    intro c1 c2 r1 r2 z1 z2 hf
    have g1 := reach_ge h1 r1
    have g2 := reach_ge h2 r2
    obtain ⟨i1, st1⟩ := c1
    obtain ⟨i2, st2⟩ := c2
    simp only at *
    unfold alignLoop
    simp only
    by_cases he : i1 = i2
    · subst he
      refine ⟨(i1, (st1, st2)), by simp, ?_⟩
      exact ⟨fun _ => Int.le_refl _, fun _ => Int.le_refl _, g1, fun _ => r1, fun _ => r2,
        fun h => absurd h z1, fun _ _ _ _ => Iff.rfl⟩
    rw [if_neg he]
    by_cases hgt : i1 > i2
    · rw [if_pos hgt, if_neg (by omega)]
      obtain ⟨n, rfl⟩ := Int.eq_ofNat_of_zero_le (a := i1) (by omega)
      have hn : 0 < n := by omega
      rw [Int.toNat_natCast]
      have hlt := h1.child_lt 0 hn r1
      have hge := h1.child_ge 0 hn r1
      have rc := Reach.step 0 hn r1
      have al := fun (m : Nat) (a : Asg 2) (hm : n ≤ m) =>
        align_left h1 h2 (c2 := (i2, st2)) hn r1 r2 hgt m a hm
      by_cases h0 : (s1.child st1 n 0).1 = 0
      · rw [if_pos h0]
        refine ⟨_, rfl, ⟨fun h => absurd rfl h, fun h => absurd rfl h, by simp,
          fun h => absurd rfl h, fun h => absurd rfl h, fun _ => .inl (by simp; omega), ?_⟩⟩
        intro m a hm _
        have := al m a (by simp at hm; omega)
        rw [h0] at this
        exact this.trans ⟨fun h => absurd h.1 zddMemAt_zero, fun h => absurd h.1 zddMemAt_zero⟩
      · rw [if_neg h0]
        obtain ⟨r, hr, ok⟩ := ih (s1.child st1 n 0) (i2, st2) rc r2 h0 z2 (by simp; omega)
        refine ⟨r, hr, ⟨fun h => ?_, ok.le2, ok.ge, ok.r1, ok.r2, fun _ => .inl (by simp; omega), ?_⟩⟩
        · have := ok.le1 h; simp; omega
        · intro m a hm hm'
          simp only at hm hm'
          have := al m a (by omega)
          rw [this]
          exact ok.mem m a (by omega) (by simpa using hm')
    · rw [if_neg hgt, if_neg (by omega)]
      have hgt : i2 > i1 := by omega
      obtain ⟨n, rfl⟩ := Int.eq_ofNat_of_zero_le (a := i2) (by omega)
      have hn : 0 < n := by omega
      rw [Int.toNat_natCast]
      have hlt := h2.child_lt 0 hn r2
      have hge := h2.child_ge 0 hn r2
      have rc := Reach.step 0 hn r2
      have al := fun (m : Nat) (a : Asg 2) (hm : n ≤ m) =>
        align_left h2 h1 (c2 := (i1, st1)) hn r2 r1 hgt m a hm
      by_cases h0 : (s2.child st2 n 0).1 = 0
      · rw [if_pos h0]
        refine ⟨_, rfl, ⟨fun h => absurd rfl h, fun h => absurd rfl h, by simp,
          fun h => absurd rfl h, fun h => absurd rfl h, fun _ => .inr (by simp; omega), ?_⟩⟩
        intro m a _ hm
        have := al m a (by simp at hm; omega)
        rw [h0] at this
        rw [and_comm]
        exact this.trans ⟨fun h => absurd h.1 zddMemAt_zero, fun h => absurd h.1 zddMemAt_zero⟩
      · rw [if_neg h0]
        obtain ⟨r, hr, ok⟩ := ih (i1, st1) (s2.child st2 n 0) r1 rc z1 h0 (by simp; omega)
        refine ⟨r, hr, ⟨ok.le1, fun h => ?_, ok.ge, ok.r1, ok.r2, fun _ => .inr (by simp; omega), ?_⟩⟩
        · have := ok.le2 h; simp; omega
        · intro m a hm' hm
          simp only at hm hm'
          have := al m a (by omega)
          rw [and_comm, this, and_comm]
          exact ok.mem m a (by simpa using hm') (by omega)

theorem alignFuel_ok {i1 i2 : Int} : i1 + i2 + 2 < alignFuel i1 i2 := by
  unfold alignFuel; omega

/-- result of `getRoot`/`getChild` of the intersection from the two operand codes (348-363) -/
def interCode (s1 : DdSpec 2 S1) (s2 : DdSpec 2 S2) (c1 : Int × S1) (c2 : Int × S2) :
    Option (Int × (S1 × S2)) :=
  alignLoop s1 s2 (alignFuel c1.1 c2.1) c1 c2

theorem inter_child (h1 : Desc s1) (h2 : Desc s2) {p : S1 × S2} {n : Nat} (b : Fin 2) (hn : 0 < n)
    (r1 : Reach s1 (n : Int) p.1) (r2 : Reach s2 (n : Int) p.2) :
    ∃ r, (zddIntersection s1 s2).child p n b = r ∧ r.1 < n ∧ -1 ≤ r.1 ∧
      (r.1 ≠ 0 → Reach s1 r.1 r.2.1 ∧ Reach s2 r.1 r.2.2) ∧
      ∀ (m : Nat) (a : Asg 2), n - 1 ≤ m →
        ((ZddMemAt s1 m (s1.child p.1 n b).1 (s1.child p.1 n b).2 a ∧
          ZddMemAt s2 m (s2.child p.2 n b).1 (s2.child p.2 n b).2 a) ↔
        (ZddMemAt s1 m r.1 r.2.1 a ∧ ZddMemAt s2 m r.1 r.2.2 a)) := by
  have l1 := h1.child_lt b hn r1
  have l2 := h2.child_lt b hn r2
  have rc1 := Reach.step b hn r1
  have rc2 := Reach.step b hn r2
  simp only [zddIntersection]
  by_cases z1 : (s1.child p.1 n b).1 = 0
  · rw [if_pos z1]
    refine ⟨_, rfl, by simp; omega, by simp, by simp, ?_⟩
    intro m a _
    rw [z1]
    exact ⟨fun h => absurd h.1 zddMemAt_zero, fun h => absurd h.1 zddMemAt_zero⟩
  rw [if_neg z1]
  by_cases z2 : (s2.child p.2 n b).1 = 0
  · rw [if_pos z2]
    refine ⟨_, rfl, by simp; omega, by simp, by simp, ?_⟩
    intro m a _
    rw [z2]
    exact ⟨fun h => absurd h.2 zddMemAt_zero, fun h => absurd h.1 zddMemAt_zero⟩
  rw [if_neg z2]
  obtain ⟨r, hr, ok⟩ := alignLoop_ok h1 h2 (alignFuel _ _) _ _ rc1 rc2 z1 z2 alignFuel_ok
  rw [hr]
  refine ⟨r, rfl, ?_, ok.ge, fun h => ⟨ok.r1 h, ok.r2 h⟩, fun m a hm => ok.mem m a (by omega) (by omega)⟩
  by_cases hz : r.1 = 0
  · omega
  · have := ok.le1 hz; omega

theorem inter_root (h1 : Desc s1) (h2 : Desc s2) :
    ∃ r, (zddIntersection s1 s2).root = r ∧ -1 ≤ r.1 ∧
      (r.1 ≠ 0 → Reach s1 r.1 r.2.1 ∧ Reach s2 r.1 r.2.2) ∧
      (r.1 ≠ 0 → r.1 ≤ s1.root.1 ∧ r.1 ≤ s2.root.1) ∧
      ∀ (m : Nat) (a : Asg 2), s1.root.1 ≤ m → s2.root.1 ≤ m →
        ((ZddMemAt s1 m s1.root.1 s1.root.2 a ∧ ZddMemAt s2 m s2.root.1 s2.root.2 a) ↔
        (ZddMemAt s1 m r.1 r.2.1 a ∧ ZddMemAt s2 m r.1 r.2.2 a)) := by
  simp only [zddIntersection]
  by_cases z1 : s1.root.1 = 0
  · rw [if_pos z1]
    refine ⟨_, rfl, by simp, by simp, by simp, ?_⟩
    intro m a _ _
    rw [z1]
    exact ⟨fun h => absurd h.1 zddMemAt_zero, fun h => absurd h.1 zddMemAt_zero⟩
  rw [if_neg z1]
  by_cases z2 : s2.root.1 = 0
  · rw [if_pos z2]
    refine ⟨_, rfl, by simp, by simp, by simp, ?_⟩
    intro m a _ _
    rw [z2]
    exact ⟨fun h => absurd h.2 zddMemAt_zero, fun h => absurd h.1 zddMemAt_zero⟩
  rw [if_neg z2]
  obtain ⟨r, hr, ok⟩ := alignLoop_ok h1 h2 (alignFuel _ _) s1.root s2.root .root .root z1 z2 alignFuel_ok
  rw [hr]
  exact ⟨r, rfl, ok.ge, fun h => ⟨ok.r1 h, ok.r2 h⟩, fun h => ⟨ok.le1 h, ok.le2 h⟩,
    fun m a hm hm' => ok.mem m a (by omega) (by omega)⟩

theorem inter_reach (h1 : Desc s1) (h2 : Desc s2) {l : Int} {p : S1 × S2}
    (h : Reach (zddIntersection s1 s2) l p) : l ≠ 0 → Reach s1 l p.1 ∧ Reach s2 l p.2 := by
  induction h with
  | root =>
    obtain ⟨r, hr, _, h, _⟩ := inter_root h1 h2
    rw [hr]; exact h
  | step b hn _ ih =>
    have ih := ih (by omega)
    obtain ⟨r, hr, _, _, h, _⟩ := inter_child h1 h2 b hn ih.1 ih.2
    rw [hr]; exact h

theorem inter_desc (h1 : Desc s1) (h2 : Desc s2) : Desc (zddIntersection s1 s2) := by
  refine ⟨?_, fun b hn hr => ?_, fun b hn hr => ?_⟩
  · obtain ⟨r, hr, h, _⟩ := inter_root h1 h2
    rw [hr]; exact h
  all_goals
    have hi := inter_reach h1 h2 hr (by omega)
    obtain ⟨r, hr, ha, hb, _⟩ := inter_child h1 h2 b hn hi.1 hi.2
    rw [hr]
  · exact ha
  · exact hb

theorem inter_mem (h1 : Desc s1) (h2 : Desc s2) (a : Asg 2) :
    ∀ (k : Nat) {l : Int} {p : S1 × S2} {m : Nat}, l < (k : Int) → l ≤ m →
    Reach (zddIntersection s1 s2) l p →
    (ZddMemAt (zddIntersection s1 s2) m l p a ↔ ZddMemAt s1 m l p.1 a ∧ ZddMemAt s2 m l p.2 a) := by
  have hdi := inter_desc h1 h2
  have nonpos : ∀ {l : Int} {p : S1 × S2} {m : Nat}, l ≤ 0 →
      (ZddMemAt (zddIntersection s1 s2) m l p a ↔ ZddMemAt s1 m l p.1 a ∧ ZddMemAt s2 m l p.2 a) := by
    intro l p m hl
    by_cases h0 : l = 0
    · rw [h0]
      exact ⟨fun h => absurd h zddMemAt_zero, fun h => absurd h.1 zddMemAt_zero⟩
    · have : l < 0 := by omega
      rw [zddMemAt_neg this, zddMemAt_neg this, zddMemAt_neg this, and_self]
  intro k
  induction k with
  | zero => intro l p m hl _ _; exact nonpos (by omega)
  | succ k ih =>
    intro l p m hl hm hr
    by_cases hl0 : l ≤ 0
    · exact nonpos hl0
    obtain ⟨n, rfl⟩ := Int.eq_ofNat_of_zero_le (a := l) (by omega)
    have hn : 0 < n := by omega
    have hnm : n ≤ m := by omega
    have hi := inter_reach h1 h2 hr (by omega)
    obtain ⟨r, hr', hlt, _, _, hmem⟩ := inter_child h1 h2 (a n) hn hi.1 hi.2
    have hrc := Reach.step (a n) hn hr
    rw [zddMemAt_pos hdi hn hr hnm, zddMemAt_pos h1 hn hi.1 hnm, zddMemAt_pos h2 hn hi.2 hnm]
    rw [hr'] at hrc ⊢
    rw [ih (by omega) (by omega) hrc, ← hmem (n - 1) a (Nat.le_refl _)]
    constructor
    · rintro ⟨h, h', h''⟩; exact ⟨⟨h, h'⟩, h, h''⟩
    · rintro ⟨⟨h, h'⟩, _, h''⟩; exact ⟨h, h', h''⟩

theorem alignLoop_congr (hc1 : LawfulC s1) (hc2 : LawfulC s2) :
    ∀ (fuel : Nat) (c1 d1 : Int × S1) (c2 d2 : Int × S2),
    Reach s1 c1.1 c1.2 → Reach s1 d1.1 d1.2 → Reach s2 c2.1 c2.2 → Reach s2 d2.1 d2.2 →
    CodeEqv s1 c1 d1 → CodeEqv s2 c2 d2 → ∀ r, alignLoop s1 s2 fuel c1 c2 = some r →
    ∃ r', alignLoop s1 s2 fuel d1 d2 = some r' ∧ r.1 = r'.1 ∧
      ∀ k : Nat, 0 < k → r.1 = (k : Int) →
        s1.eqv k r.2.1 r'.2.1 = true ∧ s2.eqv k r.2.2 r'.2.2 = true := by
  intro fuel
  induction fuel with
  | zero => intro c1 d1 c2 d2 _ _ _ _ _ _ r h; simp [alignLoop] at h
  | succ fuel ih =>
    intro c1 d1 c2 d2 r1 r1' r2 r2' e1 e2 r h
    obtain ⟨i1, st1⟩ := c1
    obtain ⟨i2, st2⟩ := c2
    obtain ⟨j1, t1⟩ := d1
    obtain ⟨j2, t2⟩ := d2
    have q1 : i1 = j1 := e1.1
    have q2 : i2 = j2 := e2.1
    subst q1; subst q2
    simp only at r1 r2 r1' r2'
    unfold alignLoop at h ⊢
    simp only at h ⊢
    by_cases he : i1 = i2
    · rw [if_pos he] at h ⊢
      cases h
      exact ⟨_, rfl, rfl, fun k hk hik => ⟨e1.2 k hk hik, e2.2 k hk (he ▸ hik)⟩⟩
    rw [if_neg he] at h ⊢
    by_cases hgt : i1 > i2
    · rw [if_pos hgt] at h ⊢
      by_cases hp : i1 ≤ 0
      · rw [if_pos hp] at h; cases h
      rw [if_neg hp] at h ⊢
      obtain ⟨n, rfl⟩ := Int.eq_ofNat_of_zero_le (a := i1) (by omega)
      have hn : 0 < n := by omega
      rw [Int.toNat_natCast] at h ⊢
      have ec := hc1.congr 0 hn r1 r1' (e1.2 n hn rfl)
      rw [← ec.1]
      by_cases h0 : (s1.child st1 n 0).1 = 0
      · rw [if_pos h0] at h ⊢
        cases h
        exact ⟨_, rfl, rfl, fun k hk hik => by simp at hik; omega⟩
      · rw [if_neg h0] at h ⊢
        exact ih _ _ _ _ (Reach.step 0 hn r1) (Reach.step 0 hn r1') r2 r2' ec e2 r h
    · rw [if_neg hgt] at h ⊢
      by_cases hp : i2 ≤ 0
      · rw [if_pos hp] at h; cases h
      rw [if_neg hp] at h ⊢
      obtain ⟨n, rfl⟩ := Int.eq_ofNat_of_zero_le (a := i2) (by omega)
      have hn : 0 < n := by omega
      rw [Int.toNat_natCast] at h ⊢
      have ec := hc2.congr 0 hn r2 r2' (e2.2 n hn rfl)
      rw [← ec.1]
      by_cases h0 : (s2.child st2 n 0).1 = 0
      · rw [if_pos h0] at h ⊢
        cases h
        exact ⟨_, rfl, rfl, fun k hk hik => by simp at hik; omega⟩
      · rw [if_neg h0] at h ⊢
        exact ih _ _ _ _ r1 r1' (Reach.step 0 hn r2) (Reach.step 0 hn r2') e1 ec r h

theorem inter_lawful (hc1 : LawfulC s1) (hc2 : LawfulC s2) :
    LawfulC (zddIntersection s1 s2) := by
  have rr : ∀ {n : Nat} {p : S1 × S2}, 0 < n → Reach (zddIntersection s1 s2) (n : Int) p →
      Reach s1 (n : Int) p.1 ∧ Reach s2 (n : Int) p.2 :=
    fun hn hr => inter_reach hc1.toDesc hc2.toDesc hr (by omega)
  have ee : ∀ {n : Nat} {p q : S1 × S2}, (zddIntersection s1 s2).eqv n p q = true ↔
      s1.eqv n p.1 q.1 = true ∧ s2.eqv n p.2 q.2 = true := by
    intro n p q; simp [zddIntersection]
  refine
    { toDesc := inter_desc hc1.toDesc hc2.toDesc
      refl := fun hn hr => ee.2 ⟨hc1.refl hn (rr hn hr).1, hc2.refl hn (rr hn hr).2⟩
      symm := fun hn hr hr' he => ee.2 ⟨hc1.symm hn (rr hn hr).1 (rr hn hr').1 (ee.1 he).1,
        hc2.symm hn (rr hn hr).2 (rr hn hr').2 (ee.1 he).2⟩
      trans := fun hn hr hr' hr'' he he' => ee.2
        ⟨hc1.trans hn (rr hn hr).1 (rr hn hr').1 (rr hn hr'').1 (ee.1 he).1 (ee.1 he').1,
          hc2.trans hn (rr hn hr).2 (rr hn hr').2 (rr hn hr'').2 (ee.1 he).2 (ee.1 he').2⟩
      hash_eq := fun hn hr hr' he => ?_
      congr := ?_ }
  · simp only [zddIntersection]
    rw [hc1.hash_eq hn (rr hn hr).1 (rr hn hr').1 (ee.1 he).1,
      hc2.hash_eq hn (rr hn hr).2 (rr hn hr').2 (ee.1 he).2]
  · intro n p q b hn hr hr' he
    have ⟨r1, r2⟩ := rr hn hr
    have ⟨r1', r2'⟩ := rr hn hr'
    have ⟨e1, e2⟩ := ee.1 he
    have c1 := hc1.congr b hn r1 r1' e1
    have c2 := hc2.congr b hn r2 r2' e2
    have hg : ∀ k (u v : S1 × S2), (zddIntersection s1 s2).eqv k u v = true ↔
      s1.eqv k u.1 v.1 = true ∧ s2.eqv k u.2 v.2 = true := fun k u v => ee
    simp only [hg]
    simp only [zddIntersection]
    rw [← c1.1, ← c2.1]
    by_cases z1 : (s1.child p.1 n b).1 = 0
    · simp only [if_pos z1]
      exact ⟨trivial, fun k hk h => by omega⟩
    simp only [if_neg z1]
    by_cases z2 : (s2.child p.2 n b).1 = 0
    · simp only [if_pos z2]
      exact ⟨trivial, fun k hk h => by omega⟩
    simp only [if_neg z2]
    have rc1 := Reach.step b hn r1
    have rc2 := Reach.step b hn r2
    have rc1' := Reach.step b hn r1'
    have rc2' := Reach.step b hn r2'
    obtain ⟨r, hr, _⟩ := alignLoop_ok hc1.toDesc hc2.toDesc _ _ _ rc1 rc2 z1 z2 alignFuel_ok
    obtain ⟨r', hr', h1, h2⟩ := alignLoop_congr hc1 hc2 _ _ _ _ _ rc1 rc1' rc2 rc2' c1 c2 r hr
    rw [hr, hr']
    exact ⟨h1, h2⟩

end TdZdd
