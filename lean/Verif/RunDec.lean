import Verif.SemanticsLemmas

/-! Deciding membership of a given assignment (for examples). -/

namespace TdZdd

variable {N : Nat} {S : Type} {sp : DdSpec N S}

/-- follow the assignment `a` from level `m` down -/
def zddRun (sp : DdSpec N S) (a : Asg N) : Nat → Int → S → Bool
  | 0, l, _ => decide (l < 0)
  | m + 1, l, s => if l = ((m + 1 : Nat) : Int) then zddRun sp a m (sp.child s (m + 1) (a (m + 1))).1 (sp.child s (m + 1) (a (m + 1))).2
    else decide ((a (m + 1)).val = 0) && zddRun sp a m l s

theorem zddRun_iff (hd : Desc sp) {a : Asg N} : ∀ {m : Nat} {l : Int} {s : S}, Reach sp l s → l ≤ m → (zddRun sp a m l s = true ↔ ZddMemAt sp m l s a)
  | 0, l, s, hr, hl => by
    unfold zddRun
    rw [decide_eq_true_eq]
    by_cases h : l < 0
    · rw [zddMemAt_neg h]
      exact ⟨fun _ j h1 h2 => by omega, fun _ => h⟩
    · have : l = 0 := by omega
      subst this
      exact ⟨fun h => by omega, fun h => absurd h zddMemAt_zero⟩
  | m + 1, l, s, hr, hl => by
    unfold zddRun
    by_cases h : l = ((m + 1 : Nat) : Int)
    · rw [if_pos h]
      subst h
      have hlt := hd.child_lt (a (m + 1)) (Nat.succ_pos m) hr
      rw [zddRun_iff hd (.step _ (Nat.succ_pos m) hr) (by omega), zddMemAt_pos hd (Nat.succ_pos m) hr (Nat.le_refl _)]
      exact ⟨fun h => ⟨fun j h1 h2 => by omega, h⟩, fun h => h.2⟩
    · rw [if_neg h, Bool.and_eq_true, decide_eq_true_eq, zddRun_iff hd hr (by omega), mem_lower hd hr (by omega : l < ((m + 1 : Nat) : Int)) (Nat.succ_pos m) (Nat.le_refl _)]
      exact ⟨fun h => ⟨fun j h1 h2 => by omega, h⟩, fun h => h.2⟩

theorem zddRun_mem (hd : Desc sp) {a : Asg N} {n : Nat} (h : sp.root.1 ≤ n) : zddRun sp a n sp.root.1 sp.root.2 = true ↔ ZddMem sp n a :=
  zddRun_iff hd .root h

end TdZdd
