import Verif.SemanticsLemmas

/-! Specifications that skip levels only on edges to the 0-terminal. -/

namespace TdZdd

variable {N : Nat} {S : Type} {sp : DdSpec N S}

/-- From level `n` on, every edge goes one level down or to the 0-terminal. -/
structure Dense (sp : DdSpec N S) (n : Nat) : Prop where
  pos : 0 < n
  root : sp.root.1 = 0 ∨ sp.root.1 = n
  child : ∀ {l : Nat} {s : S} (b : Fin N), 0 < l → Reach sp (l : Int) s →
    (sp.child s l b).1 = 0 ∨ (sp.child s l b).1 = if l = 1 then -1 else (l : Int) - 1

theorem Dense.desc {n : Nat} (h : Dense sp n) : Desc sp where
  root_ge := by rcases h.root with e | e <;> omega
  child_lt b h0 hr := by rcases h.child b h0 hr with e | e <;> rw [e] <;> (try split) <;> omega
  child_ge b h0 hr := by rcases h.child b h0 hr with e | e <;> rw [e] <;> (try split) <;> omega

theorem Dense.sat_at {n : Nat} (h : Dense sp n) (a : Asg N) : ∀ (l : Nat) (s : S), 0 < l → Reach sp (l : Int) s →
    (ZddMemAt sp l (l : Int) s a ↔ BddSatAt sp (l : Int) s a) := by
  intro l
  induction l with
  | zero => intro s h0; omega
  | succ l ih =>
    intro s h0 hr
    rw [zddMemAt_pos h.desc h0 hr (Nat.le_refl _), bddSatAt_pos h0]
    have hr' : Reach sp _ _ := .step (a (l + 1)) h0 hr
    have key : ZddMemAt sp l (sp.child s (l + 1) (a (l + 1))).1 (sp.child s (l + 1) (a (l + 1))).2 a ↔
        BddSatAt sp (sp.child s (l + 1) (a (l + 1))).1 (sp.child s (l + 1) (a (l + 1))).2 a := by
      generalize hc : sp.child s (l + 1) (a (l + 1)) = c at hr'
      have hcc := h.child (a (l + 1)) h0 hr
      rw [hc] at hcc
      rcases hcc with e | e
      · rw [e]; exact ⟨fun h => absurd h zddMemAt_zero, fun h => absurd h bddSatAt_zero⟩
      · split at e
        next h1 =>
          have : l = 0 := by omega
          subst this
          rw [zddMemAt_neg (by omega)]
          exact ⟨fun _ => bddSatAt_neg (by omega), fun _ j h1 h2 => by omega⟩
        next h1 =>
          have e' : c.1 = (l : Int) := by omega
          rw [e'] at hr' ⊢
          exact ih _ (by omega) hr'
    rw [Nat.add_sub_cancel, key]
    constructor
    · exact fun h => h.2
    · exact fun h => ⟨fun j h1 h2 => by omega, h⟩

/-- both readings agree -/
theorem Dense.mem_iff {n : Nat} (h : Dense sp n) (a : Asg N) : ZddMem sp n a ↔ BddSat sp a := by
  unfold ZddMem BddSat
  have hr : Reach sp sp.root.1 sp.root.2 := .root
  rcases h.root with e | e
  · rw [e]; exact ⟨fun h => absurd h zddMemAt_zero, fun h => absurd h bddSatAt_zero⟩
  · rw [e] at hr ⊢; exact h.sat_at a n _ h.pos hr

end TdZdd
