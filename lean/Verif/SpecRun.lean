import Verif.SpecInv

/-! The meaning of a specification that has a node at every level, by a relation between the states and the assignments that lead to them. -/

namespace TdZdd

variable {S : Type} {sp : DdSpec 2 S}

theorem zddMem_of_run {R : Nat → S → Asg 2 → Prop} {Sol : Asg 2 → Prop} {top : Nat} {s0 : S} (hroot : sp.root = ((top : Int), s0)) (htop : 0 < top) (h0 : ∀ a, R top s0 a)
    (hcongr : ∀ l s a a', R l s a → (∀ l', l < l' → a l' = a' l') → R l s a')
    (hstep : ∀ l s a, 0 < l → R l s a →
      ((sp.child s l (a l)).1 = 0 ∧ ¬ Sol a) ∨ (l = 1 ∧ (sp.child s l (a l)).1 = -1 ∧ Sol a) ∨ (1 < l ∧ (sp.child s l (a l)).1 = ((l - 1 : Nat) : Int) ∧ R (l - 1) (sp.child s l (a l)).2 a)) :
    Desc sp ∧ ∀ a, ZddMem sp top a ↔ Sol a := by
  have hmod : ∀ l s, (∃ a, R l s a) → ∀ b : Fin 2, ∃ a, R l s a ∧ a l = b := by
    rintro l s ⟨a, h⟩ b
    exact ⟨fun j => if j = l then b else a j, hcongr l s a _ h fun l' hl => (if_neg (by omega)).symm, if_pos rfl⟩
  have hd : Desc sp := by
    refine desc_of_inv (Inv := fun l s => ∃ a, R l s a) hroot ⟨_, h0 fun _ => 0⟩ ?_ ?_
    · intro l s b hl hI
      obtain ⟨a, h, e⟩ := hmod l s hI b
      have := hstep l s a hl h
      rw [e] at this
      rcases this with ⟨g, _⟩ | ⟨_, g, _⟩ | ⟨_, g, _⟩ <;> omega
    · intro l s b k hl hk hI ek
      obtain ⟨a, h, e⟩ := hmod l s hI b
      have := hstep l s a hl h
      rw [e] at this
      rcases this with ⟨g, _⟩ | ⟨_, g, _⟩ | ⟨_, g, g'⟩
      · omega
      · omega
      · have : k = l - 1 := by omega
        exact ⟨a, this ▸ g'⟩
  refine ⟨hd, fun a => ?_⟩
  have key : ∀ (l : Nat) s, 0 < l → Reach sp (l : Int) s → R l s a → (ZddMemAt sp l l s a ↔ Sol a) := by
    intro l
    induction l with
    | zero => intro s h; omega
    | succ l ih =>
      intro s hl hr hR
      have hrc : Reach sp (sp.child s (l + 1) (a (l + 1))).1 (sp.child s (l + 1) (a (l + 1))).2 := .step _ hl hr
      rw [zddMemAt_pos hd hl hr (Nat.le_refl _)]
      have e0 : (∀ j, l + 1 < j → j ≤ l + 1 → (a j).val = 0) := fun j h1 h2 => by omega
      have hs := hstep (l + 1) s a hl hR
      generalize (sp.child s (l + 1) (a (l + 1))).2 = s' at *
      generalize (sp.child s (l + 1) (a (l + 1))).1 = c at *
      rcases hs with ⟨g, h⟩ | ⟨g1, g2, h⟩ | ⟨g1, g2, h⟩
      · subst g
        exact ⟨fun h => absurd h.2 zddMemAt_zero, fun h' => absurd h' h⟩
      · subst g2
        have : l = 0 := by omega
        subst this
        exact ⟨fun _ => h, fun _ => ⟨e0, by rw [zddMemAt_neg (by decide)]; intro j j1 j2; omega⟩⟩
      · subst g2
        rw [Nat.add_sub_cancel] at hrc h ⊢
        rw [ih s' (by omega) hrc h]
        exact ⟨fun h => h.2, fun h => ⟨e0, h⟩⟩
  have := key top s0 htop (by have := Reach.root (sp := sp); rw [hroot] at this; exact this) (h0 a)
  unfold ZddMem
  rw [hroot]
  exact this

end TdZdd
