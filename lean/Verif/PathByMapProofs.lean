import Verif.PathByMap
import Verif.PathProofs6

/-! Proofs about `PathZddByStdMap` (1): the map, and what it says about the chosen edges. -/

namespace TdZdd.Ps

open Gr Deg Sp

/-! ### the map -/

/-- sorted by the keys -/
def Sorted (m : List (Int × Int)) : Prop := m.Pairwise fun p q => p.1 < q.1

theorem find_set (x : Int) (k j : Int) : ∀ m : List (Int × Int), smFind (smSet m k x) j = if j = k then some x else smFind m j
  | [] => by
    unfold smSet smFind
    by_cases h : j = k
    · rw [if_pos h, if_pos h.symm]
    · rw [if_neg h, if_neg (Ne.symm h)]; rfl
  | (l, y) :: m => by
    unfold smSet
    by_cases h1 : k < l
    · rw [if_pos h1]
      rw [smFind]
      by_cases h : j = k
      · rw [if_pos h, if_pos h.symm]
      · rw [if_neg h, if_neg (Ne.symm h)]
    · rw [if_neg h1]
      by_cases h2 : k = l
      · subst h2
        rw [if_pos rfl, smFind, smFind]
        by_cases h : j = k
        · rw [if_pos h, if_pos h.symm]
        · rw [if_neg h, if_neg (Ne.symm h), if_neg (Ne.symm h)]
      · rw [if_neg h2, smFind, smFind, find_set x k j m]
        by_cases h : l = j
        · rw [if_pos h, if_pos h, if_neg (by omega)]
        · rw [if_neg h, if_neg h]

theorem find_erase (k j : Int) : ∀ m : List (Int × Int), smFind (smErase m k) j = if j = k then none else smFind m j
  | [] => by show none = _; split <;> rfl
  | (l, y) :: m => by
    have ih := find_erase k j m
    unfold smErase at ih ⊢
    rw [List.filter_cons]
    by_cases h : l = k
    · subst h
      rw [if_neg (by simp), ih, smFind]
      by_cases h : j = l
      · rw [if_pos h, if_pos h]
      · rw [if_neg h, if_neg h, if_neg (Ne.symm h)]
    · rw [if_pos (by simpa using h), smFind, smFind, ih]
      by_cases hj : l = j
      · rw [if_pos hj, if_pos hj, if_neg (by omega)]
      · rw [if_neg hj, if_neg hj]

theorem mem_set {x k : Int} {p : Int × Int} : ∀ {m : List (Int × Int)}, p ∈ smSet m k x → p = (k, x) ∨ p ∈ m
  | [], h => .inl (List.mem_singleton.1 h)
  | (l, y) :: m, h => by
    unfold smSet at h
    by_cases h1 : k < l
    · rw [if_pos h1] at h
      exact List.mem_cons.1 h
    · rw [if_neg h1] at h
      by_cases h2 : k = l
      · rw [if_pos h2] at h
        rcases List.mem_cons.1 h with h | h
        · exact .inl h
        · exact .inr (List.mem_cons_of_mem _ h)
      · rw [if_neg h2] at h
        rcases List.mem_cons.1 h with h | h
        · exact .inr (by rw [h]; exact List.mem_cons_self ..)
        · rcases mem_set h with h | h
          · exact .inl h
          · exact .inr (List.mem_cons_of_mem _ h)

theorem sorted_set (x k : Int) : ∀ {m : List (Int × Int)}, Sorted m → Sorted (smSet m k x)
  | [], _ => List.pairwise_singleton ..
  | (l, y) :: m, h => by
    obtain ⟨g1, g2⟩ := List.pairwise_cons.1 h
    unfold smSet
    by_cases h1 : k < l
    · rw [if_pos h1]
      refine List.pairwise_cons.2 ⟨fun p hp => ?_, h⟩
      rcases List.mem_cons.1 hp with rfl | hp
      · exact h1
      · have := g1 p hp
        dsimp only at this ⊢
        omega
    · rw [if_neg h1]
      by_cases h2 : k = l
      · rw [if_pos h2]
        exact List.pairwise_cons.2 ⟨fun p hp => by rw [h2]; exact g1 p hp, g2⟩
      · rw [if_neg h2]
        refine List.pairwise_cons.2 ⟨fun p hp => ?_, sorted_set x k g2⟩
        rcases mem_set hp with rfl | hp
        · dsimp only; omega
        · exact g1 p hp

theorem sorted_erase (k : Int) {m : List (Int × Int)} (h : Sorted m) : Sorted (smErase m k) := List.Pairwise.filter _ h

theorem find_mem {k x : Int} : ∀ {m : List (Int × Int)}, smFind m k = some x → (k, x) ∈ m
  | (l, y) :: m, h => by
    rw [smFind] at h
    by_cases hl : l = k
    · rw [if_pos hl] at h
      injection h with h
      rw [hl, h]
      exact List.mem_cons_self ..
    · rw [if_neg hl] at h
      exact List.mem_cons_of_mem _ (find_mem h)

theorem mem_find {k x : Int} : ∀ {m : List (Int × Int)}, Sorted m → (k, x) ∈ m → smFind m k = some x
  | (l, y) :: m, hs, h => by
    obtain ⟨g1, g2⟩ := List.pairwise_cons.1 hs
    rw [smFind]
    rcases List.mem_cons.1 h with h | h
    · injection h with h1 h2
      rw [if_pos h1.symm, h2]
    · have := g1 _ h
      dsimp only at this
      rw [if_neg (by omega)]
      exact mem_find g2 h

/-- sorted lists with the same elements are equal -/
theorem sorted_ext {m m' : List (Int × Int)} (h : Sorted m) (h' : Sorted m') (he : ∀ k, smFind m k = smFind m' k) : m = m' := by
  induction m generalizing m' with
  | nil =>
    cases m' with
    | nil => rfl
    | cons p m' =>
      have := he p.1
      rw [smFind, smFind, if_pos rfl] at this
      cases this
  | cons p m ih =>
    cases m' with
    | nil =>
      have := he p.1
      rw [smFind, smFind, if_pos rfl] at this
      cases this
    | cons q m' =>
      obtain ⟨g1, g2⟩ := List.pairwise_cons.1 h
      obtain ⟨k1, k2⟩ := List.pairwise_cons.1 h'
      have hpq : p = q := by
        have e1 := he p.1
        have e2 := he q.1
        rw [smFind, smFind, if_pos rfl] at e1
        rw [smFind, smFind, if_pos (rfl : q.1 = q.1)] at e2
        by_cases heq : q.1 = p.1
        · rw [if_pos heq] at e1
          injection e1 with e1
          exact Prod.ext heq.symm e1
        · rw [if_neg heq] at e1
          rw [if_neg (Ne.symm heq)] at e2
          have a1 := k1 _ (find_mem e1.symm)
          have a2 := g1 _ (find_mem e2)
          dsimp only at a1 a2
          omega
      subst hpq
      congr 1
      refine ih g2 k2 fun k => ?_
      have := he k
      rw [smFind, smFind] at this
      by_cases hk : p.1 = k
      · have n1 : smFind m k = none := by
          cases hm : smFind m k with
          | none => rfl
          | some x => have := g1 _ (find_mem hm); dsimp only at this; omega
        have n2 : smFind m' k = none := by
          cases hm : smFind m' k with
          | none => rfl
          | some x => have := k1 _ (find_mem hm); dsimp only at this; omega
        rw [n1, n2]
      · rwa [if_neg hk, if_neg hk] at this

/-! ### the end of `getChild` -/

variable {G : CGraph} {A : Nat → Nat → Prop} {i : Nat}

/-- the map without the vertices that are final -/
def dropFinal (e : EdgeInfo) (m m' : List (Int × Int)) : Prop :=
  Sorted m' ∧ ∀ k : Int, smFind m' k = if (e.v1final = true ∧ k = e.v1) ∨ (e.v2final = true ∧ k = e.v2) then none else smFind m k

theorem done_some {final u : Bool} {m : List (Int × Int)} {v : Int} (hs : Sorted m) (h0 : final = true → u = false → smFind m v = some 0) (h1 : final = true → u = true → smFind m v = none) :
    ∃ m', psDone final u m v = some m' ∧ Sorted m' ∧ ∀ k, smFind m' k = if final = true ∧ k = v then none else smFind m k := by
  unfold psDone
  by_cases h : final = true ∧ u = false
  · rw [if_pos h]
    have hf := h0 h.1 h.2
    unfold smAt
    rw [hf]
    dsimp only
    rw [if_neg (fun h => h rfl)]
    refine ⟨_, rfl, sorted_erase _ hs, fun k => ?_⟩
    rw [find_erase]
    by_cases hk : k = v
    · rw [if_pos hk, if_pos ⟨h.1, hk⟩]
    · rw [if_neg hk, if_neg fun hh => hk hh.2]
  · rw [if_neg h]
    refine ⟨m, rfl, hs, fun k => ?_⟩
    by_cases hk : final = true ∧ k = v
    · rw [if_pos hk, hk.2]
      refine h1 hk.1 ?_
      cases u with
      | true => rfl
      | false => exact absurd ⟨hk.1, rfl⟩ h
    · rw [if_neg hk]

theorem leave_some {e : EdgeInfo} {u1 u2 : Bool} {level : Nat} {m : List (Int × Int)} (hs : Sorted m) (hw1 : wrap16 e.v1 = e.v1) (hw2 : wrap16 e.v2 = e.v2) (hne : e.v1 ≠ e.v2)
    (h1 : e.v1final = true → u1 = false → smFind m e.v1 = some 0) (h1' : e.v1final = true → u1 = true → smFind m e.v1 = none)
    (h2 : e.v2final = true → u2 = false → smFind m e.v2 = some 0) (h2' : e.v2final = true → u2 = true → smFind m e.v2 = none) :
    ∃ m', psLeave e u1 u2 level m = ((level : Int) - 1, m') ∧ dropFinal e m m' := by
  obtain ⟨m1, e1, s1, f1⟩ := done_some hs h1 h1'
  have hk : smFind m1 e.v2 = smFind m e.v2 := by rw [f1, if_neg fun h => hne (by omega)]
  obtain ⟨m2, e2, s2, f2⟩ := done_some (final := e.v2final) (u := u2) (v := e.v2) s1 (by rw [hk]; exact h2) (by rw [hk]; exact h2')
  unfold psLeave
  rw [hw1, hw2, e1]; dsimp only
  rw [e2]; dsimp only
  refine ⟨m2, rfl, s2, fun k => ?_⟩
  rw [f2, f1]
  by_cases a2 : e.v2final = true ∧ k = e.v2
  · rw [if_pos a2, if_pos (Or.inr a2)]
  · rw [if_neg a2]
    by_cases a1 : e.v1final = true ∧ k = e.v1
    · rw [if_pos a1, if_pos (Or.inl a1)]
    · rw [if_neg a1, if_neg fun h => h.elim a1 a2]

theorem leave_zero {e : EdgeInfo} {u1 u2 : Bool} {level : Nat} {m : List (Int × Int)} (hw1 : wrap16 e.v1 = e.v1) (hw2 : wrap16 e.v2 = e.v2) (hne : e.v1 ≠ e.v2)
    (h : (e.v1final = true ∧ u1 = false ∧ ∃ w, w ≠ 0 ∧ smFind m e.v1 = some w) ∨ (e.v2final = true ∧ u2 = false ∧ ∃ w, w ≠ 0 ∧ smFind m e.v2 = some w)) :
    (psLeave e u1 u2 level m).1 = 0 := by
  have hne' : (e.v2 : Int) ≠ e.v1 := by clear hw1 hw2; omega
  have hno : ∀ {final u m v w}, final = true → u = false → w ≠ 0 → smFind m v = some w → psDone final u m v = none := by
    intro final u m v w g1 g2 g3 g4
    unfold psDone smAt
    rw [if_pos ⟨g1, g2⟩, g4]
    dsimp only
    rw [if_pos g3]
  unfold psLeave
  rw [hw1, hw2]
  rcases h with ⟨g1, g2, w, g3, g4⟩ | ⟨g1, g2, w, g3, g4⟩
  · rw [hno g1 g2 g3 g4]
  · generalize hd : psDone e.v1final u1 m (e.v1 : Int) = d
    cases d with
    | none => rfl
    | some m1 =>
      dsimp only
      have : smFind m1 e.v2 = some w := by
        unfold psDone at hd
        by_cases hc : e.v1final = true ∧ u1 = false
        · rw [if_pos hc] at hd
          by_cases hz : (smAt m (e.v1 : Int)).1 ≠ 0
          · rw [if_pos hz] at hd; cases hd
          · rw [if_neg hz] at hd
            rw [← Option.some.inj hd, find_erase, if_neg hne']
            unfold smAt
            cases smFind m (e.v1 : Int) with
            | some x => exact g4
            | none => show smFind (smSet m _ _) _ = _; rw [find_set, if_neg hne']; exact g4
        · rw [if_neg hc] at hd
          rw [← Option.some.inj hd]; exact g4
      rw [hno g1 g2 g3 this]

end TdZdd.Ps
