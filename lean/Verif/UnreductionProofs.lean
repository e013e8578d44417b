import Verif.LookaheadProofs

/-! Helper lemmas for the unreductions. -/

namespace TdZdd

variable {N : Nat} [NeZero N] {S : Type} {sp : DdSpec N S} {z : Bool} {nv : Int}

/-- states of an unreduction: the remembered pair is reachable in the operand, is not the
0-terminal, and lies at or below the current level -/
structure UnInv (sp : DdSpec N S) (l : Int) (p : Int × S) : Prop where
  reach : Reach sp p.1 p.2
  ne : p.1 ≠ 0
  le : p.1 ≤ l
  neg : l ≤ 0 → l = -1

/-- every way `getChild` can go -/
theorem unred_child (hd : Desc sp) {n : Nat} {p : Int × S} (b : Fin N) (hn : 0 < n)
    (h : UnInv sp (n : Int) p) :
    (((unreduction z sp nv).child p n b).1 = 0 ∧
      ((p.1 = n ∧ (sp.child p.2 n b).1 = 0) ∨ (p.1 < n ∧ z = true ∧ b ≠ 0))) ∨
    (UnInv sp ((unreduction z sp nv).child p n b).1 ((unreduction z sp nv).child p n b).2 ∧
      ((unreduction z sp nv).child p n b).1 = (if (n : Int) - 1 > 0 then (n : Int) - 1 else -1) ∧
      ((p.1 = n ∧ ((unreduction z sp nv).child p n b).2 = sp.child p.2 n b) ∨
        (p.1 < n ∧ (z = true → b = 0) ∧ ((unreduction z sp nv).child p n b).2 = p))) := by
  obtain ⟨l, s⟩ := p
  have hr := h.reach
  have hle := h.le
  have hne := h.ne
  simp only at hr hle hne
  have hge := reach_ge hd hr
  simp only [unreduction]
  by_cases hl : l = n
  · subst hl
    rw [if_pos rfl]
    have hlt := hd.child_lt b hn hr
    have hcge := hd.child_ge b hn hr
    by_cases hc : (sp.child s n b).1 = 0
    · rw [if_pos hc]; exact .inl ⟨rfl, .inl ⟨rfl, hc⟩⟩
    · rw [if_neg hc]
      right
      have e : unredRet (sp.child s n b) n =
          (if (n : Int) - 1 > 0 then (n : Int) - 1 else -1, sp.child s n b) := by
        unfold unredRet
        rw [if_neg (by omega)]
        by_cases h1 : (n : Int) - 1 > 0
        · rw [if_pos h1, if_pos h1]
        · rw [if_neg h1, if_neg h1]
          have : (sp.child s n b).1 = -1 := by omega
          rw [this]
      rw [e]
      refine ⟨⟨Reach.step b hn hr, hc, ?_, ?_⟩, rfl, .inl ⟨rfl, rfl⟩⟩
      · dsimp only; split <;> omega
      · dsimp only; split <;> omega
  · rw [if_neg hl]
    by_cases hz : z = true ∧ b ≠ 0
    · rw [if_pos hz]; exact .inl ⟨rfl, .inr ⟨by omega, hz⟩⟩
    · rw [if_neg hz]
      right
      have e : unredRet (l, s) n =
          (if (n : Int) - 1 > 0 then (n : Int) - 1 else -1, (l, s)) := by
        unfold unredRet
        rw [if_neg (by simp only; omega)]
        by_cases h1 : (n : Int) - 1 > 0
        · rw [if_pos h1, if_pos h1]
        · rw [if_neg h1, if_neg h1]
          have : l = -1 := by omega
          rw [this]
      rw [e]
      refine ⟨⟨hr, hne, ?_, ?_⟩, rfl, .inr ⟨by omega, ?_, rfl⟩⟩
      · dsimp only; split <;> omega
      · dsimp only; split <;> omega
      · intro h1
        exact Decidable.byContradiction fun h2 => hz ⟨h1, h2⟩

/-- the root of an unreduction -/
theorem unred_root (hd : Desc sp) :
    ((unreduction z sp nv).root.1 = 0 ∧ sp.root.1 = 0) ∨
    (UnInv sp (unreduction z sp nv).root.1 (unreduction z sp nv).root.2 ∧
      (unreduction z sp nv).root.2 = sp.root ∧
      (unreduction z sp nv).root.1.toNat = (max nv sp.root.1).toNat) := by
  have hge := hd.root_ge
  simp only [unreduction]
  by_cases h0 : sp.root.1 = 0
  · rw [if_pos h0]; exact .inl ⟨rfl, h0⟩
  · rw [if_neg h0]
    right
    refine ⟨⟨.root, h0, ?_, ?_⟩, rfl, ?_⟩ <;> dsimp only <;> (repeat' split) <;> omega

theorem unred_reach (hd : Desc sp) {l : Int} {p : Int × S}
    (h : Reach (unreduction z sp nv) l p) : l = 0 ∨ UnInv sp l p := by
  induction h with
  | root =>
    rcases unred_root (z := z) (nv := nv) hd with h | h
    · exact .inl h.1
    · exact .inr h.1
  | step b hn _ ih =>
    rcases ih with ih | ih
    · omega
    · rcases unred_child (z := z) (nv := nv) hd b hn ih with h | h
      · exact .inl h.1
      · exact .inr h.1

theorem unred_desc (hd : Desc sp) : Desc (unreduction z sp nv) := by
  refine ⟨?_, fun b hn hr => ?_, fun b hn hr => ?_⟩
  · rcases unred_reach (z := z) (nv := nv) hd .root with h | h
    · omega
    · have := h.neg; omega
  · rcases unred_reach hd hr with h | h
    · omega
    · rcases unred_child (z := z) (nv := nv) hd b hn h with h | ⟨_, h, _⟩
      · omega
      · rw [h]; split <;> omega
  · rcases unred_reach hd hr with h | h
    · omega
    · rcases unred_child (z := z) (nv := nv) hd b hn h with h | ⟨_, h, _⟩
      · omega
      · rw [h]; split <;> omega

/-- Boolean function of an unreduction -/
theorem unred_sat (hd : Desc sp) (a : Asg N) : ∀ (k : Nat) {l : Int} {p : Int × S},
    l < (k : Int) → Reach (unreduction z sp nv) l p → UnInv sp l p →
    (BddSatAt (unreduction z sp nv) l p a ↔
      if z = true then ZddMemAt sp l.toNat p.1 p.2 a else BddSatAt sp p.1 p.2 a) := by
  have nonpos : ∀ {l : Int} {p : Int × S}, l ≤ 0 → UnInv sp l p →
      (BddSatAt (unreduction z sp nv) l p a ↔
      if z = true then ZddMemAt sp l.toNat p.1 p.2 a else BddSatAt sp p.1 p.2 a) := by
    intro l p h hi
    have h1 := hi.neg h
    have h2 := hi.le
    have h3 : p.1 < 0 := by omega
    subst h1
    have t : BddSatAt (unreduction z sp nv) (-1) p a := bddSatAt_neg (by omega)
    cases z with
    | false => simp only [Bool.false_eq_true, if_false]
               exact ⟨fun _ => bddSatAt_neg h3, fun _ => t⟩
    | true =>
      simp only [if_true]
      rw [zddMemAt_neg h3]
      exact ⟨fun _ j h4 h5 => by simp at h5; omega, fun _ => t⟩
  intro k
  induction k with
  | zero => intro l p h _ hi; exact nonpos (by omega) hi
  | succ k ih =>
    intro l p hlk hr hi
    by_cases hl0 : l ≤ 0
    · exact nonpos hl0 hi
    obtain ⟨n, rfl⟩ := Int.eq_ofNat_of_zero_le (a := l) (by omega)
    have hn : 0 < n := by omega
    rw [bddSatAt_pos hn, Int.toNat_natCast]
    have hrc := Reach.step (a n) hn hr
    rcases unred_child (z := z) (nv := nv) hd (a n) hn hi with ⟨hc, h⟩ | ⟨hi', hc, h⟩
    · rw [hc]
      have f : ¬ BddSatAt (unreduction z sp nv) 0 ((unreduction z sp nv).child p n (a n)).2 a :=
        bddSatAt_zero
      have hpr := hi.reach
      rcases h with ⟨h1, h2⟩ | ⟨h1, h2, h3⟩
      · rw [h1] at hpr ⊢
        cases z with
        | false =>
          simp only [Bool.false_eq_true, if_false]
          rw [bddSatAt_pos hn, h2]
          exact ⟨fun h => absurd h f, fun h => absurd h bddSatAt_zero⟩
        | true =>
          simp only [if_true]
          rw [zddMemAt_pos hd hn hpr (Nat.le_refl n), h2]
          exact ⟨fun h => absurd h f, fun h => absurd h.2 zddMemAt_zero⟩
      · subst h2
        simp only [if_true]
        rw [mem_lower hd hpr h1 hn (Nat.le_refl n)]
        exact ⟨fun h => absurd h f, fun h => absurd (Fin.ext (by simpa using h.2.1)) h3⟩
    · have hlt : ((unreduction z sp nv).child p n (a n)).1 < (k : Int) := by
        rw [hc]; split <;> omega
      have htn : ((unreduction z sp nv).child p n (a n)).1.toNat = n - 1 := by
        rw [hc]; split <;> omega
      rw [ih hlt hrc hi', htn]
      have hpr := hi.reach
      rcases h with ⟨h1, h2⟩ | ⟨h1, h2, h3⟩
      · rw [h2]
        rw [h1] at hpr ⊢
        cases z with
        | false => simp only [Bool.false_eq_true, if_false]; rw [bddSatAt_pos hn]
        | true =>
          simp only [if_true]
          rw [zddMemAt_pos hd hn hpr (Nat.le_refl n)]
          exact ⟨fun h => ⟨fun j h1 h2 => by omega, h⟩, fun h => h.2⟩
      · rw [h3]
        cases z with
        | false => simp only [Bool.false_eq_true, if_false]
        | true =>
          simp only [if_true]
          rw [mem_lower hd hpr h1 hn (Nat.le_refl n)]
          exact ⟨fun h => ⟨fun j h1 h2 => by omega, by simp [h2 rfl], h⟩, fun h => h.2.2⟩

/-- the levels `n, n-1, .., 1` -/
def downFrom : Nat → List Nat
  | 0 => []
  | n + 1 => (n + 1) :: downFrom n

theorem mem_downFrom {n j : Nat} : j ∈ downFrom n ↔ 1 ≤ j ∧ j ≤ n := by
  induction n with
  | zero => simp [downFrom]; omega
  | succ n ih => simp [downFrom, ih]; omega

/-- accepted paths of an unreduction skip no level -/
theorem unred_levels (hd : Desc sp) {l : Int} {p : Int × S} {w : Path N}
    (h : Accepts (unreduction z sp nv) l p w) (hi : UnInv sp l p) :
    w.map Prod.fst = downFrom l.toNat := by
  induction h with
  | one h =>
    rw [hi.neg (by omega)]; rfl
  | @step n p b w hn h ih =>
    rw [Int.toNat_natCast]
    obtain ⟨m, rfl⟩ : ∃ m, n = m + 1 := ⟨n - 1, by omega⟩
    rcases unred_child (z := z) (nv := nv) hd b hn hi with ⟨hc, _⟩ | ⟨hi', hc, _⟩
    · rw [hc] at h; exact absurd h not_accepts_zero
    · have htn : ((unreduction z sp nv).child p (m + 1) b).1.toNat = m := by
        rw [hc]; split <;> omega
      simp [downFrom, ih hi', htn]

/-- so its ZDD reading is its BDD reading with zeros above the top -/
theorem unred_mem (hd : Desc sp) {l : Int} {p : Int × S} {a : Asg N} {m : Nat}
    (hi : UnInv sp l p) :
    ZddMemAt (unreduction z sp nv) m l p a ↔
      (∀ j, l.toNat < j → j ≤ m → (a j).val = 0) ∧ BddSatAt (unreduction z sp nv) l p a := by
  constructor
  · rintro ⟨w, h, ha, h0⟩
    refine ⟨fun j h1 h2 => h0 j (by omega) h2 fun b hb => ?_, w, h, ha⟩
    have : j ∈ w.map Prod.fst := List.mem_map.2 ⟨_, hb, rfl⟩
    rw [unred_levels hd h hi, mem_downFrom] at this
    omega
  · rintro ⟨hz, w, h, ha⟩
    refine ⟨w, h, ha, fun j h1 h2 h3 => hz j ?_ h2⟩
    rcases Nat.lt_or_ge l.toNat j with h4 | h4
    · exact h4
    have : j ∈ w.map Prod.fst := by
      rw [unred_levels hd h hi, mem_downFrom]; omega
    obtain ⟨⟨j', b⟩, hx, rfl⟩ := List.mem_map.1 this
    exact absurd hx (h3 b)

theorem unred_eqv_iff {i : Nat} {p q : Int × S} :
    (unreduction z sp nv).eqv i p q = true ↔ CodeEqv sp p q := by
  simp only [unreduction, CodeEqv]
  by_cases h1 : p.1 = q.1
  · rw [if_neg (by simpa using h1)]
    by_cases h2 : 0 < p.1
    · obtain ⟨k, hk⟩ := Int.eq_ofNat_of_zero_le (Int.le_of_lt h2)
      have hk0 : 0 < k := by omega
      rw [hk, Int.toNat_natCast]
      by_cases h3 : sp.eqv k p.2 q.2 = true
      · rw [if_neg (by simp [h3])]
        simp only [true_iff]
        refine ⟨by omega, fun k' _ h => ?_⟩
        have : k = k' := Int.ofNat.inj h
        subst this; exact h3
      · rw [if_pos (by simp [h3]; omega)]
        simp only [Bool.false_eq_true, false_iff]
        rintro ⟨_, h⟩
        exact h3 (h k hk0 rfl)
    · rw [if_neg (by omega)]
      simp only [true_iff]
      exact ⟨h1, fun k _ h => by omega⟩
  · rw [if_pos h1]
    simp [h1]

theorem unred_lawful (hc : LawfulC sp) : LawfulC (unreduction z sp nv) where
  toDesc := unred_desc hc.toDesc
  refl := by
    intro n s hn hr
    rcases unred_reach hc.toDesc hr with h | h
    · omega
    · exact unred_eqv_iff.2 (codeEqv_refl hc h.reach)
  symm := by
    intro n s t hn hr hr' he
    rcases unred_reach hc.toDesc hr with h | h
    · omega
    rcases unred_reach hc.toDesc hr' with h' | h'
    · omega
    exact unred_eqv_iff.2 (codeEqv_symm hc h.reach h'.reach (unred_eqv_iff.1 he))
  trans := by
    intro n s t u hn hr hr' hr'' he he'
    rcases unred_reach hc.toDesc hr with h | h
    · omega
    rcases unred_reach hc.toDesc hr' with h' | h'
    · omega
    rcases unred_reach hc.toDesc hr'' with h'' | h''
    · omega
    exact unred_eqv_iff.2 (codeEqv_trans hc h.reach h'.reach h''.reach
      (unred_eqv_iff.1 he) (unred_eqv_iff.1 he'))
  hash_eq := by
    intro n s t hn hr hr' he
    rcases unred_reach hc.toDesc hr with h | h
    · omega
    rcases unred_reach hc.toDesc hr' with h' | h'
    · omega
    obtain ⟨e1, e2⟩ := unred_eqv_iff.1 he
    simp only [unreduction]
    rw [← e1]
    by_cases h2 : 0 < s.1
    · obtain ⟨k, hk⟩ := Int.eq_ofNat_of_zero_le (Int.le_of_lt h2)
      have r1 := h.reach
      have r2 := h'.reach
      rw [← e1] at r2
      rw [hk] at r1 r2
      rw [hk, Int.toNat_natCast, hc.hash_eq (by omega) r1 r2 (e2 k (by omega) hk)]
    · rw [if_neg h2, if_neg h2]
  congr := by
    intro n s t b hn hr hr' he
    rcases unred_reach hc.toDesc hr with h | h
    · omega
    rcases unred_reach hc.toDesc hr' with h' | h'
    · omega
    have ce := unred_eqv_iff.1 he
    obtain ⟨e1, e2⟩ := ce
    suffices hs : ((unreduction z sp nv).child s n b).1 = ((unreduction z sp nv).child t n b).1 ∧
        (((unreduction z sp nv).child s n b).1 ≠ 0 →
          CodeEqv sp ((unreduction z sp nv).child s n b).2 ((unreduction z sp nv).child t n b).2) by
      exact ⟨hs.1, fun k hk h => unred_eqv_iff.2 (hs.2 (by omega))⟩
    have hs1 := h.le
    have key : s.1 = n → CodeEqv sp (sp.child s.2 n b) (sp.child t.2 n b) := by
      intro h1
      have r1 := h.reach
      have r2 := h'.reach
      rw [← e1] at r2
      rw [h1] at r1 r2
      exact hc.congr b hn r1 r2 (e2 n hn h1)
    rcases unred_child (z := z) (nv := nv) hc.toDesc b hn h with ⟨c1, a1⟩ | ⟨_, c1, a1⟩ <;>
    rcases unred_child (z := z) (nv := nv) hc.toDesc b hn h' with ⟨c2, a2⟩ | ⟨_, c2, a2⟩
    · exact ⟨by rw [c1, c2], fun h => absurd c1 h⟩
    · exfalso
      rcases a1 with ⟨a11, a12⟩ | ⟨a11, a12, a13⟩ <;> rcases a2 with ⟨a21, a22⟩ | ⟨a21, a22, a23⟩
      · have := (key a11).1
        rename_i hx
        have := hx.ne
        rw [a22] at this
        omega
      · omega
      · omega
      · exact a13 (a22 a12)
    · exfalso
      rcases a1 with ⟨a11, a12⟩ | ⟨a11, a12, a13⟩ <;> rcases a2 with ⟨a21, a22⟩ | ⟨a21, a22, a23⟩
      · have := (key a11).1
        rename_i hx
        have := hx.ne
        rw [a12] at this
        omega
      · omega
      · omega
      · exact a23 (a12 a22)
    · refine ⟨by rw [c1, c2], fun _ => ?_⟩
      rcases a1 with ⟨a11, a12⟩ | ⟨a11, a12, a13⟩ <;> rcases a2 with ⟨a21, a22⟩ | ⟨a21, a22, a23⟩
      · rw [a12, a22]; exact key a11
      · omega
      · omega
      · rw [a13, a23]; exact ⟨e1, e2⟩

end TdZdd
