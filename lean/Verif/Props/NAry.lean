import Verif.NAry
import Verif.SpecInv
import Verif.RunDec

/-!
# `NAryZdd` and `OneHotNAryZdd` (C65)
-/

namespace TdZdd.NAry

/-- level `j` belongs to the digit `t` of `m` levels and is not above `l` -/
def In (m l t j : Nat) : Prop := t * m < j ∧ j ≤ t * m + m ∧ j ≤ l

def P (oneHot : Bool) (m l : Nat) (a : Asg 2) : Prop := ∀ t, t * m < l →
  (∀ j j', In m l t j → In m l t j' → (a j).val ≠ 0 → (a j').val ≠ 0 → j = j') ∧ (oneHot = true ∨ t = 0 → ∃ j, In m l t j ∧ (a j).val ≠ 0)

theorem digit {m t : Nat} (l : Nat) (hm : 0 < m) (h1 : (l - 1) / m * m < l) : t * m < l ↔ t ≤ (l - 1) / m := by
  rw [Nat.le_div_iff_mul_le hm]; omega

theorem take {oneHot : Bool} {m l : Nat} {a : Asg 2} (hm : 0 < m) (hl : 0 < l) (ha : (a l).val ≠ 0) :
    P oneHot m l a ↔ (∀ j, (l - 1) / m * m < j → j < l → (a j).val = 0) ∧ P oneHot m ((l - 1) / m * m) a := by
  have hd : (l - 1) / m * m + (l - 1) % m = l - 1 := by rw [Nat.mul_comm]; exact Nat.div_add_mod _ _
  have hr := Nat.mod_lt (l - 1) hm
  generalize (l - 1) / m = q at *
  have hin : ∀ t j, t < q → (In m l t j ↔ In m (q * m) t j) := fun t j ht => by
    have : (t + 1) * m ≤ q * m := Nat.mul_le_mul_right _ ht
    rw [Nat.succ_mul] at this
    unfold In; omega
  constructor
  · intro h
    have hq := h q (by omega)
    refine ⟨fun j h1 h2 => ?_, fun t ht => ?_⟩
    · apply Classical.byContradiction
      intro h0
      have := hq.1 j l ⟨by omega, by omega, by omega⟩ ⟨by omega, by omega, by omega⟩ h0 ha
      omega
    · have htq : t < q := Nat.lt_of_mul_lt_mul_right ht
      have := h t (by omega)
      simp only [hin t _ htq] at this
      exact this
  · rintro ⟨hz, h⟩ t ht
    have htq : t ≤ q := by
      apply Classical.byContradiction
      intro hn
      have : (q + 1) * m ≤ t * m := Nat.mul_le_mul_right _ (by omega)
      rw [Nat.succ_mul] at this
      omega
    rcases Nat.lt_or_ge t q with h1 | h1
    · have : t * m < q * m := Nat.mul_lt_mul_of_pos_right h1 hm
      have := h t this
      simp only [hin t _ h1]
      exact this
    · have : t = q := by omega
      subst this
      have hone : ∀ j, In m l t j → (a j).val ≠ 0 → j = l := fun j hj h0 => by
        apply Classical.byContradiction
        intro hne
        exact h0 (hz j hj.1 (by unfold In at hj; omega))
      exact ⟨fun j j' hj hj' h0 h0' => (hone j hj h0).trans (hone j' hj' h0').symm, fun _ => ⟨l, ⟨by omega, by omega, by omega⟩, ha⟩⟩

theorem P_zero {oneHot : Bool} {m : Nat} {a : Asg 2} : P oneHot m 0 a := fun t ht => by omega

/-- the lowest level of a digit cannot be passed if the digit needs a value -/
theorem drop_last {oneHot : Bool} {m l : Nat} {a : Asg 2} (_hm : 0 < m) (hl : 0 < l) (ha : (a l).val = 0) (hb : (l - 1) % m = 0) (ho : oneHot = true ∨ l = 1) : ¬ P oneHot m l a := by
  intro h
  have hd : (l - 1) / m * m + (l - 1) % m = l - 1 := by rw [Nat.mul_comm]; exact Nat.div_add_mod _ _
  have h1 : l = 1 → (l - 1) / m = 0 := fun h => by subst h; simp
  generalize (l - 1) / m = q at *
  obtain ⟨j, hj, h0⟩ := (h q (by omega)).2 (ho.imp_right h1)
  have : j = l := by unfold In at hj; omega
  subst this
  exact h0 ha

theorem drop {oneHot : Bool} {m l : Nat} {a : Asg 2} (hm : 0 < m) (hl : 1 < l) (ha : (a l).val = 0) (hb : ¬ (oneHot = true ∧ (l - 1) % m = 0)) : P oneHot m l a ↔ P oneHot m (l - 1) a := by
  have hd : (l - 1) / m * m + (l - 1) % m = l - 1 := by rw [Nat.mul_comm]; exact Nat.div_add_mod _ _
  have hr := Nat.mod_lt (l - 1) hm
  have hin : ∀ t j, (a j).val ≠ 0 → (In m l t j ↔ In m (l - 1) t j) := fun t j h0 => by
    have : j ≠ l := fun e => h0 (e ▸ ha)
    unfold In; omega
  constructor
  · intro h t ht
    have := h t (by omega)
    refine ⟨fun j j' hj hj' h0 h0' => this.1 j j' ((hin t j h0).2 hj) ((hin t j' h0').2 hj') h0 h0', fun ho => ?_⟩
    obtain ⟨j, hj, h0⟩ := this.2 ho
    exact ⟨j, (hin t j h0).1 hj, h0⟩
  · intro h t ht
    rcases Nat.lt_or_ge (t * m) (l - 1) with h1 | h1
    · have := h t h1
      refine ⟨fun j j' hj hj' h0 h0' => this.1 j j' ((hin t j h0).1 hj) ((hin t j' h0').1 hj') h0 h0', fun ho => ?_⟩
      obtain ⟨j, hj, h0⟩ := this.2 ho
      exact ⟨j, (hin t j h0).2 hj, h0⟩
    · have e : t * m = l - 1 := by omega
      refine ⟨fun j j' hj _ h0 _ => ?_, fun ho => ?_⟩
      · have : j = l := by unfold In at hj; omega
        exact absurd (this ▸ ha) h0
      · rcases ho with ho | ho
        · exact absurd ⟨ho, by rw [← e]; exact Nat.mul_mod_left t m⟩ hb
        · subst ho; omega

theorem base_all {oneHot : Bool} {m n : Nat} (hm : 1 ≤ m) (hn : 1 ≤ n) :
    Desc (base oneHot m n) ∧ ∀ a, ZddMem (base oneHot m n) (m * n) a ↔ P oneHot m (m * n) a := by
  refine zddMem_of_step (Inv := fun _ _ => True) (P := fun l _ => P oneHot m l) (s0 := ()) ?_ trivial (Nat.mul_pos hm hn) ?_
  · show (if 1 ≤ m ∧ 1 ≤ n then _ else _) = _
    rw [if_pos ⟨hm, hn⟩]
  · intro l s b hl _
    show (child oneHot m l (b != 0) = 0 ∧ _) ∨ (child oneHot m l (b != 0) = -1 ∧ _) ∨ ∃ k : Nat, 0 < k ∧ child oneHot m l (b != 0) = k ∧ k < l ∧ True ∧ _
    have hd : (l - 1) / m * m + (l - 1) % m = l - 1 := by rw [Nat.mul_comm]; exact Nat.div_add_mod _ _
    by_cases hb : b = 0
    · subst hb
      have e : ((0 : Fin 2) != 0) = false := rfl
      simp only [child, e, Bool.false_eq_true, if_false]
      by_cases hc : oneHot = true ∧ (l - 1) % m = 0
      · rw [if_pos hc]
        exact .inl ⟨rfl, fun a ha => drop_last hm hl (by rw [ha]; rfl) hc.2 (.inl hc.1)⟩
      · rw [if_neg hc]
        by_cases h1 : l = 1
        · subst h1
          exact .inl ⟨rfl, fun a ha => drop_last hm hl (by rw [ha]; rfl) (by simp) (.inr rfl)⟩
        · refine .inr (.inr ⟨l - 1, by omega, rfl, by omega, trivial, fun a ha => ?_⟩)
          rw [drop hm (by omega) (by rw [ha]; rfl) hc]
          exact ⟨fun h => ⟨fun j h1 h2 => by omega, h⟩, fun h => h.2⟩
    · have e : (b != 0) = true := by simpa using hb
      have hv : ∀ a : Asg 2, a l = b → (a l).val ≠ 0 := fun a ha h => hb (by rw [← ha]; exact Fin.ext h)
      simp only [child, e, if_true]
      by_cases h0 : (l - 1) / m * m = 0
      · rw [if_pos h0]
        refine .inr (.inl ⟨rfl, fun a ha => ?_⟩)
        rw [take hm hl (hv a ha), h0]
        exact ⟨fun h j h1 h2 => h.1 j h1 h2, fun h => ⟨fun j h1 h2 => h j h1 h2, P_zero⟩⟩
      · rw [if_neg h0]
        exact .inr (.inr ⟨(l - 1) / m * m, by omega, rfl, by omega, trivial, fun a ha => take hm hl (hv a ha)⟩)

theorem val_ne {x : Fin 2} : x.val ≠ 0 ↔ x = 1 := by
  rw [Fin.ext_iff]; show x.val ≠ 0 ↔ x.val = 1; omega

theorem P_iff {oneHot : Bool} {m n : Nat} {a : Asg 2} (hm : 1 ≤ m) :
    P oneHot m (m * n) a ↔ ∀ t, t < n → (∀ k k', k < m → k' < m → a (t * m + k + 1) = 1 → a (t * m + k' + 1) = 1 → k = k') ∧
      (oneHot = true ∨ t = 0 → ∃ k, k < m ∧ a (t * m + k + 1) = 1) := by
  have ht : ∀ t, t * m < m * n ↔ t < n := fun t => by rw [Nat.mul_comm t m]; exact Nat.mul_lt_mul_left hm
  have hin : ∀ t j, t < n → (In m (m * n) t j ↔ ∃ k, k < m ∧ j = t * m + k + 1) := fun t j h => by
    have : (t + 1) * m ≤ n * m := Nat.mul_le_mul_right _ h
    rw [Nat.succ_mul, Nat.mul_comm n m] at this
    constructor
    · intro h; unfold In at h; exact ⟨j - t * m - 1, by omega, by omega⟩
    · rintro ⟨k, hk, rfl⟩; unfold In; omega
  unfold P
  simp only [ht, val_ne]
  constructor
  · intro h t htn
    obtain ⟨h1, h2⟩ := h t htn
    refine ⟨fun k k' hk hk' ha ha' => ?_, fun ho => ?_⟩
    · have := h1 _ _ ((hin t _ htn).2 ⟨k, hk, rfl⟩) ((hin t _ htn).2 ⟨k', hk', rfl⟩) ha ha'
      omega
    · obtain ⟨j, hj, ha⟩ := h2 ho
      obtain ⟨k, hk, rfl⟩ := (hin t j htn).1 hj
      exact ⟨k, hk, ha⟩
  · intro h t htn
    obtain ⟨h1, h2⟩ := h t htn
    refine ⟨fun j j' hj hj' ha ha' => ?_, fun ho => ?_⟩
    · obtain ⟨k, hk, rfl⟩ := (hin t j htn).1 hj
      obtain ⟨k', hk', rfl⟩ := (hin t j' htn).1 hj'
      rw [h1 k k' hk hk' ha ha']
    · obtain ⟨k, hk, ha⟩ := h2 ho
      exact ⟨_, (hin t _ htn).2 ⟨k, hk, rfl⟩, ha⟩

/-- **C65.** `OneHotNAryZdd(arity, length)`: exactly one of the `arity` variables of every digit is 1. -/
theorem _root_.TdZdd.C65_oneHot (arity length : Nat) (h1 : 1 ≤ arity) (h2 : 1 ≤ length) (a : Asg 2) :
    ZddMem (oneHotNary arity length) (arity * length) a ↔ ∀ t, t < length → ∃ k, k < arity ∧ a (t * arity + k + 1) = 1 ∧ ∀ k', k' < arity → a (t * arity + k' + 1) = 1 → k' = k := by
  unfold oneHotNary
  rw [(base_all h1 h2).2, P_iff h1]
  constructor
  · intro h t ht
    obtain ⟨k, hk, ha⟩ := (h t ht).2 (.inl rfl)
    exact ⟨k, hk, ha, fun k' hk' ha' => (h t ht).1 k' k hk' hk ha' ha⟩
  · intro h t ht
    obtain ⟨k, hk, ha, hu⟩ := h t ht
    exact ⟨fun k1 k2 h1 h2 a1 a2 => (hu k1 h1 a1).trans (hu k2 h2 a2).symm, fun _ => ⟨k, hk, ha⟩⟩

/-- **C65.** `NAryZdd(arity, length)` as it is: at most one of the `arity - 1` variables of every digit is 1, but the lowest digit must not be 0. -/
theorem _root_.TdZdd.C65_nary (arity length : Nat) (h1 : 2 ≤ arity) (h2 : 1 ≤ length) (a : Asg 2) :
    ZddMem (nary arity length) ((arity - 1) * length) a ↔
      (∀ t, t < length → ∀ k k', k < arity - 1 → k' < arity - 1 → a (t * (arity - 1) + k + 1) = 1 → a (t * (arity - 1) + k' + 1) = 1 → k = k') ∧ ∃ k, k < arity - 1 ∧ a (k + 1) = 1 := by
  unfold nary
  rw [(base_all (by omega) h2).2, P_iff (by omega)]
  constructor
  · intro h
    refine ⟨fun t ht => (h t ht).1, ?_⟩
    obtain ⟨k, hk, ha⟩ := (h 0 (by omega)).2 (.inr rfl)
    exact ⟨k, hk, by simpa using ha⟩
  · rintro ⟨h, k, hk, ha⟩ t ht
    refine ⟨h t ht, fun ho => ⟨k, hk, ?_⟩⟩
    have : t = 0 := by simpa using ho
    subst this
    simpa using ha

theorem _root_.TdZdd.C65_lawful (arity length : Nat) (h2 : 1 ≤ length) : (1 ≤ arity → LawfulC (oneHotNary arity length)) ∧ (2 ≤ arity → LawfulC (nary arity length)) :=
  ⟨fun h => lawfulC_of_eq (base_all h h2).1 fun _ s t => by simp [oneHotNary, base], fun h => lawfulC_of_eq (base_all (by omega) h2).1 fun _ s t => by simp [nary, base]⟩

/-- **C65, negation.** `NAryZdd` does not contain the number 0, nor any multiple of `arity`: `getChild` returns `level` after decrementing it to 0, which is the 0-terminal. -/
theorem _root_.TdZdd.C65_nary_false (arity length : Nat) (h1 : 2 ≤ arity) (h2 : 1 ≤ length) : ¬ ZddMem (nary arity length) ((arity - 1) * length) fun _ => 0 := by
  rw [C65_nary arity length h1 h2]
  rintro ⟨_, k, _, h⟩
  exact absurd h (by decide)

/-! Two digits of base 3: the number with the digits 2, 1 is there, the one with the digits 2, 0 is not. One-hot code of three digits of base 3. -/

example : ZddMem (nary 3 2) 4 (fun l => if l = 1 ∨ l = 4 then 1 else 0) ∧ ¬ ZddMem (nary 3 2) 4 (fun l => if l = 4 then 1 else 0) := by
  have h := ((C65_lawful 3 2 (by decide)).2 (by decide)).toDesc
  refine ⟨?_, ?_⟩
  · rw [← zddRun_mem h (by decide +kernel)]; decide +kernel
  · rw [← zddRun_mem h (by decide +kernel)]; decide +kernel

example : ZddMem (oneHotNary 3 3) 9 (fun l => if l = 1 ∨ l = 6 ∨ l = 8 then 1 else 0) ∧ ¬ ZddMem (oneHotNary 3 3) 9 (fun l => if l = 1 ∨ l = 8 then 1 else 0) := by
  have h := ((C65_lawful 3 3 (by decide)).1 (by decide)).toDesc
  refine ⟨?_, ?_⟩
  · rw [← zddRun_mem h (by decide +kernel)]; decide +kernel
  · rw [← zddRun_mem h (by decide +kernel)]; decide +kernel

end TdZdd.NAry
