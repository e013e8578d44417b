import Verif.GraphProofs2

/-! Proofs about `Graph::update` (3): `allColorsSeen`, the result as a whole. -/

namespace TdZdd

namespace Gr

/-- number of colours `1..n` that are not touched -/
def cnt (t : Nat → Bool) : Nat → Nat
  | 0 => 0
  | n + 1 => cnt t n + if t (n + 1) then 0 else 1

theorem cnt_zero {t : Nat → Bool} : ∀ {n : Nat}, cnt t n = 0 → ∀ c, 1 ≤ c → c ≤ n → t c = true
  | 0, _, c, h1, h2 => by omega
  | n + 1, h, c, h1, h2 => by
    unfold cnt at h
    by_cases hc : c = n + 1
    · subst hc
      cases ht : t (n + 1) with
      | true => rfl
      | false => rw [ht] at h; simp at h
    · exact cnt_zero (n := n) (by omega) c h1 (by omega)

theorem cnt_congr {t t' : Nat → Bool} : ∀ {n : Nat}, (∀ c, 1 ≤ c → c ≤ n → t c = t' c) → cnt t n = cnt t' n
  | 0, _ => rfl
  | n + 1, h => by
    unfold cnt
    rw [cnt_congr (fun c h1 h2 => h c h1 (by omega)), h (n + 1) (by omega) (by omega)]

theorem cnt_set {t : Nat → Bool} {m : Nat} (hm : 1 ≤ m) (ht : t m = false) : ∀ {n : Nat}, m ≤ n → cnt (gset t m true) n + 1 = cnt t n
  | 0, h => by omega
  | n + 1, h => by
    unfold cnt
    by_cases hc : m = n + 1
    · subst hc
      rw [cnt_congr (t' := t) (fun c h1 h2 => by unfold gset; rw [if_neg (by omega)]), ht]
      simp [gset]
    · have := cnt_set hm ht (n := n) (by omega)
      have e : gset t m true (n + 1) = t (n + 1) := by unfold gset; rw [if_neg (Ne.symm hc)]
      rw [e]; omega

theorem cnt_all {t : Nat → Bool} : ∀ {n : Nat}, (∀ c, 1 ≤ c → t c = false) → cnt t n = n
  | 0, _ => rfl
  | n + 1, h => by
    unfold cnt
    rw [cnt_all h, h (n + 1) (by omega)]
    simp

theorem seen_succ {all : List EdgeInfo} {col : Nat → Nat} {a : Nat} {e : EdgeInfo} (he : all[a]? = some e) (c : Nat) :
    SeenBy all col (a + 1) c ↔ SeenBy all col a c ∨ col e.v1 = c ∨ col e.v2 = c := by
  constructor
  · rintro ⟨b, v, h1, h2, h3⟩
    by_cases hb : b = a
    · subst hb
      rcases (uses_get he v).1 h2 with h | h
      · exact .inr (.inl (by rw [h]; exact h3))
      · exact .inr (.inr (by rw [h]; exact h3))
    · exact .inl ⟨b, v, by omega, h2, h3⟩
  · rintro (⟨b, v, h1, h2, h3⟩ | h | h)
    · exact ⟨b, v, by omega, h2, h3⟩
    · exact ⟨a, _, by omega, ⟨e, he, .inl rfl⟩, h⟩
    · exact ⟨a, _, by omega, ⟨e, he, .inr rfl⟩, h⟩

theorem first_inv {N : Nat} (all : List EdgeInfo) (col : Nat → Nat) (hcol : ∀ v, col v ≤ N) (hall : ∀ c, 1 ≤ c → c ≤ N → SeenBy all col all.length c) :
    ∀ (es : List EdgeInfo) (a : Nat) (t : Nat → Bool) (k : Int), all.drop a = es → (∀ c, t c = true ↔ c = 0 ∨ SeenBy all col a c) → k = cnt t N → 0 < k →
    ∃ j, gFirstAll col es a t k = j ∧ (∀ c, 1 ≤ c → c ≤ N → SeenBy all col (j + 1) c) ∧ ∃ c, 1 ≤ c ∧ c ≤ N ∧ ¬ SeenBy all col j c
  | [], a, t, k, hd, ht, hk, hpos => by
    have ha : all.length ≤ a := List.drop_eq_nil_iff.1 hd
    have : cnt t N = cnt (fun _ => true) N := by
      apply cnt_congr
      intro c h1 h2
      rw [ht]
      obtain ⟨b, v, g1, g2, g3⟩ := hall c h1 h2
      exact .inr ⟨b, v, by omega, g2, g3⟩
    have h0 : ∀ n, cnt (fun _ => true) n = 0 := by intro n; induction n with
      | zero => rfl
      | succ n ih => unfold cnt; rw [ih]; rfl
    rw [h0] at this
    omega
  | e :: es, a, t, k, hd, ht, hk, hpos => by
    have hlt : a < all.length := by
      rcases Nat.lt_or_ge a all.length with h | h
      · exact h
      · rw [List.drop_eq_nil_of_le h] at hd; cases hd
    have hdc := List.drop_eq_getElem_cons hlt
    rw [hdc] at hd
    injection hd with hd1 hd'
    have he : all[a]? = some e := by rw [List.getElem?_eq_getElem hlt, hd1]
    have hsucc := seen_succ (col := col) he
    have htr : ∀ c, t c = false → 1 ≤ c ∧ ¬ SeenBy all col a c := by
      intro c hc
      constructor
      · rcases Nat.eq_zero_or_pos c with h | h
        · have := (ht c).2 (.inl h); rw [hc] at this; cases this
        · exact h
      · intro hs
        have := (ht c).2 (.inr hs); rw [hc] at this; cases this
    unfold gFirstAll
    dsimp only
    cases h1 : t (col e.v1) with
    | false =>
      have hc1 := htr _ h1
      have hk1 := cnt_set hc1.1 h1 (hcol e.v1)
      simp only [Bool.not_false, if_true]
      by_cases hz : k - 1 = 0
      · rw [if_pos hz]
        refine ⟨a, rfl, fun c g1 g2 => ?_, _, hc1.1, hcol _, hc1.2⟩
        have := cnt_zero (t := gset t (col e.v1) true) (n := N) (by omega) c g1 g2
        rw [hsucc]
        unfold gset at this
        split at this
        next hc => exact .inr (.inl hc.symm)
        next hc => rcases (ht c).1 this with h | h
                   · omega
                   · exact .inl h
      · rw [if_neg hz]
        cases h2 : gset t (col e.v1) true (col e.v2) with
        | false =>
          have hne : col e.v2 ≠ col e.v1 := fun h => by unfold gset at h2; rw [if_pos h] at h2; cases h2
          have h2' : t (col e.v2) = false := by unfold gset at h2; rw [if_neg hne] at h2; exact h2
          have hc2 := htr _ h2'
          have hk2 := cnt_set hc2.1 h2 (hcol e.v2)
          simp only [Bool.not_false, if_true]
          by_cases hz2 : k - 1 - 1 = 0
          · rw [if_pos hz2]
            refine ⟨a, rfl, fun c g1 g2 => ?_, _, hc2.1, hcol _, hc2.2⟩
            have := cnt_zero (t := gset (gset t (col e.v1) true) (col e.v2) true) (n := N) (by omega) c g1 g2
            rw [hsucc]
            unfold gset at this
            split at this
            next hc => exact .inr (.inr hc.symm)
            next hc =>
              split at this
              next hc => exact .inr (.inl hc.symm)
              next hc => rcases (ht c).1 this with h | h
                         · omega
                         · exact .inl h
          · rw [if_neg hz2]
            refine first_inv all col hcol hall es (a + 1) _ _ hd' (fun c => ?_) (by omega) (by omega)
            rw [hsucc]
            unfold gset
            by_cases g2 : c = col e.v2
            · rw [if_pos g2]; exact ⟨fun _ => .inr (.inr (.inr g2.symm)), fun _ => rfl⟩
            · rw [if_neg g2]
              by_cases g1 : c = col e.v1
              · rw [if_pos g1]; exact ⟨fun _ => .inr (.inr (.inl g1.symm)), fun _ => rfl⟩
              · rw [if_neg g1, ht]
                constructor
                · rintro (h | h)
                  · exact .inl h
                  · exact .inr (.inl h)
                · rintro (h | h | h | h)
                  · exact .inl h
                  · exact .inr h
                  · exact absurd h.symm g1
                  · exact absurd h.symm g2
        | true =>
          simp only [Bool.not_true, Bool.false_eq_true, if_false]
          refine first_inv all col hcol hall es (a + 1) _ _ hd' (fun c => ?_) (by omega) (by omega)
          rw [hsucc]
          have hse : ∀ c, gset t (col e.v1) true c = true ↔ c = col e.v1 ∨ c = 0 ∨ SeenBy all col a c := by
            intro c
            unfold gset
            by_cases g1 : c = col e.v1
            · rw [if_pos g1]; exact ⟨fun _ => .inl g1, fun _ => rfl⟩
            · rw [if_neg g1, ht]
              exact ⟨.inr, fun h => h.elim (fun h => absurd h g1) id⟩
          have h2' := (hse _).1 h2
          rw [hse]
          constructor
          · rintro (h | h | h)
            · exact .inr (.inr (.inl h.symm))
            · exact .inl h
            · exact .inr (.inl h)
          · rintro (h | h | h | h)
            · exact .inr (.inl h)
            · exact .inr (.inr h)
            · exact .inl h.symm
            · rw [← h]; exact h2'
    | true =>
      simp only [Bool.not_true, Bool.false_eq_true, if_false]
      have h1' := (ht _).1 h1
      cases h2 : t (col e.v2) with
      | false =>
        have hc2 := htr _ h2
        have hk2 := cnt_set hc2.1 h2 (hcol e.v2)
        simp only [Bool.not_false, if_true]
        have hse : ∀ c, gset t (col e.v2) true c = true ↔ c = col e.v2 ∨ c = 0 ∨ SeenBy all col a c := by
          intro c
          unfold gset
          by_cases g1 : c = col e.v2
          · rw [if_pos g1]; exact ⟨fun _ => .inl g1, fun _ => rfl⟩
          · rw [if_neg g1, ht]
            exact ⟨.inr, fun h => h.elim (fun h => absurd h g1) id⟩
        by_cases hz : k - 1 = 0
        · rw [if_pos hz]
          refine ⟨a, rfl, fun c g1 g2 => ?_, _, hc2.1, hcol _, hc2.2⟩
          have := cnt_zero (t := gset t (col e.v2) true) (n := N) (by omega) c g1 g2
          rw [hsucc]
          rcases (hse c).1 this with h | h | h
          · exact .inr (.inr h.symm)
          · omega
          · exact .inl h
        · rw [if_neg hz]
          refine first_inv all col hcol hall es (a + 1) _ _ hd' (fun c => ?_) (by omega) (by omega)
          rw [hsucc, hse]
          constructor
          · rintro (h | h | h)
            · exact .inr (.inr (.inr h.symm))
            · exact .inl h
            · exact .inr (.inl h)
          · rintro (h | h | h | h)
            · exact .inr (.inl h)
            · exact .inr (.inr h)
            · rw [← h]; exact .inr h1'
            · exact .inl h.symm
      | true =>
        simp only [Bool.not_true, Bool.false_eq_true, if_false]
        have h2' := (ht _).1 h2
        refine first_inv all col hcol hall es (a + 1) _ _ hd' (fun c => ?_) hk hpos
        rw [hsucc, ht]
        constructor
        · rintro (h | h)
          · exact .inl h
          · exact .inr (.inl h)
        · rintro (h | h | h | h)
          · exact .inl h
          · exact .inr h
          · rw [← h]; exact h1'
          · rw [← h]; exact h2'

theorem first_zero (all : List EdgeInfo) (col : Nat → Nat) (hcol : ∀ v, col v = 0) : ∀ (es : List EdgeInfo) (a : Nat) (t : Nat → Bool) (k : Int), t 0 = true → gFirstAll col es a t k = 0
  | [], _, _, _, _ => rfl
  | e :: es, a, t, k, h => by
    unfold gFirstAll
    dsimp only
    rw [hcol, hcol, h]
    exact first_zero all col hcol es (a + 1) t k h

/-- first edge at which all colours have been seen -/
theorem first_spec {N : Nat} (all : List EdgeInfo) (col : Nat → Nat) (hcol : ∀ v, col v ≤ N) (hall : ∀ c, 1 ≤ c → c ≤ N → SeenBy all col all.length c) (a : Nat) :
    gFirstAll col all 0 (fun c => c == 0) N ≤ a ↔ ∀ c, 1 ≤ c → c ≤ N → SeenBy all col (a + 1) c := by
  rcases Nat.eq_zero_or_pos N with h | h
  · subst h
    rw [first_zero all col (fun v => Nat.le_zero.1 (hcol v)) all 0 _ _ rfl]
    exact ⟨fun _ c h1 h2 => by omega, fun _ => Nat.zero_le _⟩
  · obtain ⟨j, e, h1, c, c1, c2, c3⟩ := first_inv all col hcol hall all 0 (fun c => c == 0) N rfl (fun c => by
      constructor
      · intro h; exact .inl (by simpa using h)
      · rintro (h | ⟨b, v, hb, _⟩)
        · simpa using h
        · omega) (by rw [cnt_all]; intro c hc; simp; omega) (by omega)
    rw [e]
    constructor
    · intro hj c g1 g2
      obtain ⟨b, v, k1, k2, k3⟩ := h1 c g1 g2
      exact ⟨b, v, by omega, k2, k3⟩
    · intro hs
      rcases Nat.lt_or_ge a j with hlt | hge
      · obtain ⟨b, v, k1, k2, k3⟩ := hs c c1 c2
        exact absurd ⟨b, v, by omega, k2, k3⟩ c3
      · exact hge

end Gr
end TdZdd
