import Verif.SemanticsLemmas

/-! The meaning of a specification by an invariant of its states and the meaning of each state. -/

namespace TdZdd

variable {N : Nat} {S : Type} {sp : DdSpec N S}

theorem reach_inv {Inv : Nat → S → Prop} {top : Nat} {s0 : S} (hroot : sp.root = ((top : Int), s0)) (hi : Inv top s0)
    (hinv : ∀ n s (b : Fin N) (k : Nat), 0 < n → 0 < k → Inv n s → (sp.child s n b).1 = k → Inv k (sp.child s n b).2) {l : Int} {s : S} (h : Reach sp l s) :
    ∀ n : Nat, 0 < n → l = n → Inv n s := by
  induction h with
  | root =>
    intro n _ e
    rw [hroot] at e ⊢
    have : top = n := Int.ofNat_inj.1 e
    exact this ▸ hi
  | step b hn _ ih =>
    intro k hk e
    exact hinv _ _ b k hn hk (ih _ hn rfl) e

/-- Levels descend if the children of states with the invariant have lower levels. -/
theorem desc_of_inv {Inv : Nat → S → Prop} {top : Nat} {s0 : S} (hroot : sp.root = ((top : Int), s0)) (hi : Inv top s0)
    (hlt : ∀ n s (b : Fin N), 0 < n → Inv n s → -1 ≤ (sp.child s n b).1 ∧ (sp.child s n b).1 < n)
    (hinv : ∀ n s (b : Fin N) (k : Nat), 0 < n → 0 < k → Inv n s → (sp.child s n b).1 = k → Inv k (sp.child s n b).2) : Desc sp where
  root_ge := by rw [hroot]; show -1 ≤ (top : Int); omega
  child_lt := fun b hn hr => (hlt _ _ b hn (reach_inv hroot hi hinv hr _ hn rfl)).2
  child_ge := fun b hn hr => (hlt _ _ b hn (reach_inv hroot hi hinv hr _ hn rfl)).1

/-- The family of a specification from the meaning `P` of its states. -/
theorem zddMem_of_inv {Inv : Nat → S → Prop} {P : Nat → S → Asg N → Prop} {top : Nat} {s0 : S} (hroot : sp.root = ((top : Int), s0)) (hi : Inv top s0) (htop : 0 < top)
    (hlt : ∀ n s (b : Fin N), 0 < n → Inv n s → -1 ≤ (sp.child s n b).1 ∧ (sp.child s n b).1 < n)
    (hinv : ∀ n s (b : Fin N) (k : Nat), 0 < n → 0 < k → Inv n s → (sp.child s n b).1 = k → Inv k (sp.child s n b).2)
    (h0 : ∀ n s a, 0 < n → Inv n s → (sp.child s n (a n)).1 = 0 → ¬ P n s a)
    (h1 : ∀ n s a, 0 < n → Inv n s → (sp.child s n (a n)).1 = -1 → (P n s a ↔ ∀ j, 1 ≤ j → j < n → (a j).val = 0))
    (hk : ∀ n s a (k : Nat), 0 < n → 0 < k → Inv n s → (sp.child s n (a n)).1 = k → (P n s a ↔ (∀ j, k < j → j < n → (a j).val = 0) ∧ P k (sp.child s n (a n)).2 a))
    (a : Asg N) : ZddMem sp top a ↔ P top s0 a := by
  have hd := desc_of_inv hroot hi hlt hinv
  have key : ∀ (n : Nat) s, 0 < n → Reach sp (n : Int) s → (ZddMemAt sp n n s a ↔ P n s a) := by
    intro n
    induction n using Nat.strongRecOn with
    | ind n ih =>
      intro s hn hr
      have hI := reach_inv hroot hi hinv hr n hn rfl
      have hc := hlt n s (a n) hn hI
      have hrc : Reach sp (sp.child s n (a n)).1 (sp.child s n (a n)).2 := .step _ hn hr
      rw [zddMemAt_pos hd hn hr (Nat.le_refl _)]
      have e0 : (∀ j, n < j → j ≤ n → (a j).val = 0) := fun j h1 h2 => by omega
      have h0 := h0 n s a hn hI
      have h1 := h1 n s a hn hI
      have hk := fun k => hk n s a k hn
      generalize (sp.child s n (a n)).2 = s' at *
      generalize (sp.child s n (a n)).1 = c at *
      rcases Int.lt_trichotomy c 0 with h | h | h
      · have : c = -1 := by omega
        subst this
        rw [h1 rfl, zddMemAt_neg (by decide)]
        exact ⟨fun h j j1 j2 => h.2 j j1 (by omega), fun h => ⟨e0, fun j j1 j2 => h j j1 (by omega)⟩⟩
      · subst h
        exact ⟨fun h => absurd h.2 zddMemAt_zero, fun h => absurd h (h0 rfl)⟩
      · obtain ⟨k, rfl⟩ : ∃ k : Nat, c = k := ⟨c.toNat, by omega⟩
        have hkn : k ≤ n - 1 := by omega
        rw [hk k (by omega) hI rfl, zddMemAt_raise hd hrc (Int.le_refl _) hkn, ih k (by omega) s' (by omega) hrc]
        exact ⟨fun h => ⟨fun j j1 j2 => h.2.1 j j1 (by omega), h.2.2⟩, fun h => ⟨e0, fun j j1 j2 => h.1 j j1 (by omega), h.2⟩⟩
  have := key top s0 htop (by have := Reach.root (sp := sp); rw [hroot] at this; exact this)
  unfold ZddMem
  rw [hroot]
  exact this

/-- The same with all that is known about a step in one hypothesis -/
theorem zddMem_of_step {Inv : Nat → S → Prop} {P : Nat → S → Asg N → Prop} {top : Nat} {s0 : S} (hroot : sp.root = ((top : Int), s0)) (hi : Inv top s0) (htop : 0 < top)
    (hstep : ∀ n s (b : Fin N), 0 < n → Inv n s →
      ((sp.child s n b).1 = 0 ∧ ∀ a, a n = b → ¬ P n s a) ∨
      ((sp.child s n b).1 = -1 ∧ ∀ a, a n = b → (P n s a ↔ ∀ j, 1 ≤ j → j < n → (a j).val = 0)) ∨
      ∃ k : Nat, 0 < k ∧ (sp.child s n b).1 = k ∧ k < n ∧ Inv k (sp.child s n b).2 ∧
        ∀ a, a n = b → (P n s a ↔ (∀ j, k < j → j < n → (a j).val = 0) ∧ P k (sp.child s n b).2 a)) :
    Desc sp ∧ ∀ a, ZddMem sp top a ↔ P top s0 a := by
  have hlt : ∀ n s (b : Fin N), 0 < n → Inv n s → -1 ≤ (sp.child s n b).1 ∧ (sp.child s n b).1 < n := by
    intro n s b hn hI
    rcases hstep n s b hn hI with ⟨h, _⟩ | ⟨h, _⟩ | ⟨k, h0, h, hk, _⟩ <;> omega
  have hinv : ∀ n s (b : Fin N) (k : Nat), 0 < n → 0 < k → Inv n s → (sp.child s n b).1 = k → Inv k (sp.child s n b).2 := by
    intro n s b k hn hk hI e
    rcases hstep n s b hn hI with ⟨h, _⟩ | ⟨h, _⟩ | ⟨k', h0, h, hk', h', _⟩
    · omega
    · omega
    · have : k' = k := by omega
      exact this ▸ h'
  refine ⟨desc_of_inv hroot hi hlt hinv, zddMem_of_inv hroot hi htop hlt hinv ?_ ?_ ?_⟩
  · intro n s a hn hI e
    rcases hstep n s (a n) hn hI with ⟨h, h'⟩ | ⟨h, _⟩ | ⟨k', h0, h, hk', _⟩
    · exact h' a rfl
    · omega
    · omega
  · intro n s a hn hI e
    rcases hstep n s (a n) hn hI with ⟨h, _⟩ | ⟨h, h'⟩ | ⟨k', h0, h, hk', _⟩
    · omega
    · exact h' a rfl
    · omega
  · intro n s a k hn hk hI e
    rcases hstep n s (a n) hn hI with ⟨h, _⟩ | ⟨h, _⟩ | ⟨k', h0, h, hk', _, h'⟩
    · omega
    · omega
    · have : k' = k := by omega
      subst this
      exact h' a rfl

end TdZdd
