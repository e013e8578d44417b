import Verif.Builder

/-!
# Specifications with fewer illegal branches

If the constructor succeeds then no illegal level came up, and a specification that differs from the given one only in branches with an illegal level gives the same diagram.
-/

namespace TdZdd

variable {N : Nat} {S : Type}

/-- `q` and `p` differ only where the level of a branch of `p` is illegal. -/
structure Mends (p q : DdSpec N S) : Prop where
  root : p.root = q.root
  eqv : p.eqv = q.eqv
  merge : p.merge = q.merge
  child : ∀ s n b, 0 < n → p.child s n b = q.child s n b ∨ (n : Int) ≤ (p.child s n b).1

theorem foldlM_mono {α β : Type} {f g : α → β → Option α} (h : ∀ a x b, f a x = some b → g a x = some b) : ∀ {l : List β} {a b : α}, l.foldlM f a = some b → l.foldlM g a = some b := by
  intro l
  induction l with
  | nil => intro a b e; exact e
  | cons x l ih =>
    intro a b e
    rw [List.foldlM_cons] at e ⊢
    cases g1 : f a x with
    | none => rw [g1] at e; cases e
    | some c =>
      rw [g1] at e
      rw [h a x c g1]
      exact ih e

theorem branchStep_mends {p q : DdSpec N S} (h : Mends p q) {i jj : Nat} (hi : 0 < i) {s : S} {a : P2 N S} {b : Fin N} {r : P2 N S} (e : branchStep p i jj s a b = some r) : branchStep q i jj s a b = some r := by
  rcases h.child s i b hi with g | g
  · have : branchStep q i jj s a b = branchStep p i jj s a b := by
      unfold branchStep oneCase
      rw [g, h.merge]
    rw [this]
    exact e
  · unfold branchStep at e
    rw [if_neg (by omega), if_neg (by omega), if_neg (by omega)] at e
    cases e

theorem phase1Step_mends {p q : DdSpec N S} (h : Mends p q) (i : Nat) : phase1Step p i = phase1Step q i := by
  unfold phase1Step
  rw [h.eqv, h.merge]

theorem phase2Step_mends {p q : DdSpec N S} (h : Mends p q) {i : Nat} (hi : 0 < i) (a : P3 N S) (x : S × NodeId) (r : P3 N S) (e : phase2Step p i a x = some r) : phase2Step q i a x = some r := by
  unfold phase2Step at e ⊢
  split at e
  · rename_i g; rw [if_pos g]; exact e
  · rename_i g
    rw [if_neg g]
    split at e
    · rename_i g; rw [if_pos g]; exact e
    · rename_i g
      rw [if_neg g]
      rw [Option.map_eq_some_iff] at e ⊢
      obtain ⟨c, e, e'⟩ := e
      exact ⟨c, foldlM_mono (fun _ _ _ => branchStep_mends h hi) e, e'⟩

theorem construct_mends {p q : DdSpec N S} (h : Mends p q) {i : Nat} (hi : 0 < i) {st r : BSt N S} (e : construct p st i = some r) : construct q st i = some r := by
  unfold construct at e ⊢
  dsimp only at e ⊢
  rw [← phase1Step_mends h]
  rw [Option.bind_eq_some_iff] at e ⊢
  obtain ⟨a, e, e'⟩ := e
  refine ⟨a, e, ?_⟩
  rw [Option.bind_eq_some_iff] at e' ⊢
  obtain ⟨c, e, e'⟩ := e'
  exact ⟨c, foldlM_mono (phase2Step_mends h hi) e, e'⟩

theorem foldlM_mono' {α β : Type} {f g : α → β → Option α} : ∀ {l : List β}, (∀ a, ∀ x ∈ l, ∀ b, f a x = some b → g a x = some b) → ∀ {a b : α}, l.foldlM f a = some b → l.foldlM g a = some b := by
  intro l
  induction l with
  | nil => intro _ a b e; exact e
  | cons x l ih =>
    intro h a b e
    rw [List.foldlM_cons] at e ⊢
    cases g1 : f a x with
    | none => rw [g1] at e; cases e
    | some c =>
      rw [g1] at e
      rw [h a x List.mem_cons_self c g1]
      exact ih (fun a y hy => h a y (List.mem_cons_of_mem _ hy)) e

theorem build_mends {p q : DdSpec N S} (h : Mends p q) {D : Dd N} (e : build p = some D) : build q = some D := by
  unfold build at e ⊢
  rw [Option.bind_eq_some_iff] at e ⊢
  obtain ⟨a, e, e'⟩ := e
  have ei : initBuild q = initBuild p := by unfold initBuild; rw [h.root]
  rw [ei, ← h.root]
  refine ⟨a, foldlM_mono' (fun st i hi r => ?_) e, e'⟩
  have : 0 < i := by
    unfold levels at hi
    obtain ⟨k, _, rfl⟩ := List.mem_map.1 hi
    exact Nat.succ_pos _
  exact construct_mends h this

end TdZdd
