import Verif.Queens
import Verif.SpecInv

/-! Bitmaps of the queens specifications -/

namespace TdZdd.Queens

theorem getLsbD_bit {j c : Nat} (hj : j < 32) : (bit j).getLsbD c = decide (c = j) := by
  unfold bit
  rw [BitVec.getLsbD_shiftLeft]
  by_cases h : c = j
  · subst h; simp [hj]
  · by_cases h1 : c < j
    · simp [h, h1]
    · have : c - j ≠ 0 := by omega
      simp [h, h1, this]

theorem eq_zero_iff {w : BitVec 32} : w = 0 ↔ ∀ c, w.getLsbD c = false := by
  constructor
  · rintro rfl c; simp
  · intro h
    apply BitVec.eq_of_getLsbD_eq
    intro i hi
    rw [h i]; simp

theorem ne_zero_iff {w : BitVec 32} : w ≠ 0 ↔ ∃ c, w.getLsbD c = true := by
  rw [ne_eq, eq_zero_iff]
  constructor
  · intro h
    apply Classical.byContradiction
    intro hc
    exact h fun c => by
      cases e : w.getLsbD c
      · rfl
      · exact absurd ⟨c, e⟩ hc
  · rintro ⟨c, hc⟩ h
    rw [h c] at hc
    cases hc

theorem and_bit {w : BitVec 32} {j : Nat} (hj : j < 32) : w &&& bit j ≠ 0 ↔ w.getLsbD j = true := by
  rw [ne_zero_iff]
  simp only [BitVec.getLsbD_and, getLsbD_bit hj, Bool.and_eq_true, decide_eq_true_eq]
  exact ⟨fun ⟨c, h, e⟩ => e ▸ h, fun h => ⟨j, h, rfl⟩⟩

theorem getLsbD_lt {w : BitVec 32} {c : Nat} (h : w.getLsbD c = true) : c < 32 := by
  apply Classical.byContradiction
  intro hc
  rw [BitVec.getLsbD_of_ge _ _ (by omega)] at h
  cases h

theorem clear_bit {w : BitVec 32} {j c : Nat} (hj : j < 32) : (w &&& ~~~bit j).getLsbD c = true ↔ w.getLsbD c = true ∧ c ≠ j := by
  rw [BitVec.getLsbD_and, BitVec.getLsbD_not, getLsbD_bit hj]
  constructor
  · intro h
    simp at h
    exact ⟨h.1, h.2.2⟩
  · intro h
    have := getLsbD_lt h.1
    simp [h, this]

/-- A piece in row `i`, column `j` attacks row `ii`, column `c` (`ii` below `i`). -/
def Att (rook : Bool) (i j ii c : Nat) : Prop := c = j ∨ rook = false ∧ (i + j = ii + c ∨ i + c = ii + j)

theorem cut_spec {rook : Bool} {n i j ii c : Nat} {w : BitVec 32} (hn : n < 32) (hj : j < n) (hi : ii < i) (hw : ∀ c, w.getLsbD c = true → c < n) :
    (cut rook n i j ii w).getLsbD c = true ↔ w.getLsbD c = true ∧ ¬ Att rook i j ii c := by
  have hc := hw c
  unfold cut Att
  cases rook with
  | true =>
    simp only [if_true, clear_bit (show j < 32 by omega)]
    simp
  | false =>
    simp only [Bool.false_eq_true, if_false, true_and]
    by_cases hb : w.getLsbD c = true
    · have hc := hc hb
      by_cases h1 : i - ii ≤ j
      · rw [if_pos h1]
        by_cases h2 : j + (i - ii) < n
        · rw [if_pos h2, clear_bit (by omega), clear_bit (by omega), clear_bit (by omega)]
          simp only [hb, true_and]
          omega
        · rw [if_neg h2, clear_bit (by omega), clear_bit (by omega)]
          simp only [hb, true_and]
          omega
      · rw [if_neg h1]
        by_cases h2 : j + (i - ii) < n
        · rw [if_pos h2, clear_bit (by omega), clear_bit (by omega)]
          simp only [hb, true_and]
          omega
        · rw [if_neg h2, clear_bit (by omega)]
          simp only [hb, true_and]
          omega
    · by_cases h1 : i - ii ≤ j
      · rw [if_pos h1]
        by_cases h2 : j + (i - ii) < n
        · rw [if_pos h2, clear_bit (by omega), clear_bit (by omega), clear_bit (by omega)]
          simp only [hb, Bool.false_eq_true, false_and]
        · rw [if_neg h2, clear_bit (by omega), clear_bit (by omega)]
          simp only [hb, Bool.false_eq_true, false_and]
      · rw [if_neg h1]
        by_cases h2 : j + (i - ii) < n
        · rw [if_pos h2, clear_bit (by omega), clear_bit (by omega)]
          simp only [hb, Bool.false_eq_true, false_and]
        · rw [if_neg h2, clear_bit (by omega)]
          simp only [hb, Bool.false_eq_true, false_and]

/-- column `c` is free at index `p` -/
def Free (a : List (BitVec 32)) (p c : Nat) : Prop := ∃ w, a[p]? = some w ∧ w.getLsbD c = true

theorem free_iff {a : List (BitVec 32)} {p c : Nat} {w : BitVec 32} (h : a[p]? = some w) : Free a p c ↔ w.getLsbD c = true :=
  ⟨fun ⟨w', e, hc⟩ => by rw [h] at e; cases e; exact hc, fun hc => ⟨w, h, hc⟩⟩

theorem free_set_ne {a : List (BitVec 32)} {p q c : Nat} {w : BitVec 32} (h : p ≠ q) : Free (a.set p w) q c ↔ Free a q c := by
  unfold Free
  rw [List.getElem?_set_ne h]

theorem free_set {a : List (BitVec 32)} {p c : Nat} {w : BitVec 32} (h : p < a.length) : Free (a.set p w) p c ↔ w.getLsbD c = true :=
  free_iff (by rw [List.getElem?_set_self h])

theorem getElem_some {α : Type} {a : List α} {p : Nat} (h : p < a.length) : ∃ w, a[p]? = some w := ⟨_, List.getElem?_eq_getElem h⟩

/-- what the loop over the lower rows does to the array -/
theorem takeLoop_spec {rook : Bool} {n i j : Nat} {pos : Nat → Nat} (hn : n < 32) (hj : j < n) (hinj : ∀ x y, x < i → y < i → pos x = pos y → x = y) :
    ∀ (ii : Nat) (a : List (BitVec 32)) (total : BitVec 32), ii ≤ i → (∀ x, x < ii → pos x < a.length) → (∀ p c, Free a p c → c < n) →
      ∃ r, takeLoop rook n i j pos ii a total = some r ∧
        match r with
        | none => ∃ x, x < ii ∧ ∀ c, Free a (pos x) c → Att rook i j x c
        | some (a', total') => a'.length = a.length ∧ (∀ p, (∀ x, x < ii → p ≠ pos x) → ∀ c, Free a' p c ↔ Free a p c) ∧
            (∀ x, x < ii → ∀ c, Free a' (pos x) c ↔ Free a (pos x) c ∧ ¬ Att rook i j x c) ∧ (∀ x, x < ii → ∃ c, Free a' (pos x) c) ∧
            ∀ c, total'.getLsbD c = true ↔ total.getLsbD c = true ∨ ∃ x, x < ii ∧ Free a' (pos x) c
  | 0, a, total, _, _, _ => ⟨some (a, total), rfl, rfl, fun _ _ _ => Iff.rfl, fun x h => by omega, fun x h => by omega, fun c => ⟨.inl, fun h => h.elim id fun ⟨x, h, _⟩ => by omega⟩⟩
  | ii + 1, a, total, hi, hl, hw => by
    obtain ⟨w, hwa⟩ := getElem_some (hl ii (by omega))
    have hpl := hl ii (by omega)
    have hcut : ∀ c, (cut rook n i j ii w).getLsbD c = true ↔ Free a (pos ii) c ∧ ¬ Att rook i j ii c := fun c => by
      rw [cut_spec hn hj (by omega) (fun c hc => hw _ c ((free_iff hwa).2 hc)), free_iff hwa]
    unfold takeLoop
    rw [hwa, Option.bind_some]
    dsimp only
    by_cases h0 : cut rook n i j ii w = 0
    · rw [if_pos h0]
      refine ⟨none, rfl, ii, by omega, fun c hc => ?_⟩
      have := eq_zero_iff.1 h0 c
      apply Classical.byContradiction
      intro hA
      rw [(hcut c).2 ⟨hc, hA⟩] at this
      cases this
    · rw [if_neg h0]
      have hself : ∀ c, Free (a.set (pos ii) (cut rook n i j ii w)) (pos ii) c ↔ Free a (pos ii) c ∧ ¬ Att rook i j ii c := fun c => by rw [free_set hpl, hcut]
      have hne : ∀ p, p ≠ pos ii → ∀ c, Free (a.set (pos ii) (cut rook n i j ii w)) p c ↔ Free a p c := fun p hp c => free_set_ne (fun h => hp h.symm)
      obtain ⟨r, e, hr⟩ := takeLoop_spec hn hj hinj ii (a.set (pos ii) (cut rook n i j ii w)) (total ||| cut rook n i j ii w) (by omega)
        (fun x hx => by rw [List.length_set]; exact hl x (by omega)) (fun p c hc => by
          by_cases hp : p = pos ii
          · subst hp; exact hw _ c ((hself c).1 hc).1
          · exact hw _ c ((hne p hp c).1 hc))
      refine ⟨r, e, ?_⟩
      have hx : ∀ x, x < ii → pos x ≠ pos ii := fun x hx h => by have := hinj x ii (by omega) (by omega) h; omega
      match r, hr with
      | none, ⟨x, hxi, hr⟩ => exact ⟨x, by omega, fun c hc => hr c ((hne _ (hx x hxi) c).2 hc)⟩
      | some (a', total'), ⟨r1, r2, r3, r4, r5⟩ =>
        have hii : ∀ c, Free a' (pos ii) c ↔ Free a (pos ii) c ∧ ¬ Att rook i j ii c := fun c => by
          rw [r2 (pos ii) (fun x h => (hx x h).symm), hself]
        refine ⟨by rw [r1, List.length_set], fun p hp c => ?_, fun x h c => ?_, fun x h => ?_, fun c => ?_⟩
        · rw [r2 p (fun x h => hp x (by omega)), hne p (hp ii (by omega))]
        · by_cases hxi : x = ii
          · subst hxi; exact hii c
          · rw [r3 x (by omega), hne _ (hx x (by omega))]
        · by_cases hxi : x = ii
          · subst hxi
            obtain ⟨c, hc⟩ := ne_zero_iff.1 h0
            exact ⟨c, (hii c).2 ((hcut c).1 hc)⟩
          · exact r4 x (by omega)
        · rw [r5, BitVec.getLsbD_or, Bool.or_eq_true, hcut, ← hii]
          constructor
          · rintro ((h | h) | ⟨x, h1, h2⟩)
            · exact .inl h
            · exact .inr ⟨ii, by omega, h⟩
            · exact .inr ⟨x, by omega, h2⟩
          · rintro (h | ⟨x, h1, h2⟩)
            · exact .inl (.inl h)
            · by_cases hxi : x = ii
              · subst hxi; exact .inl (.inr h2)
              · exact .inr ⟨x, by omega, h2⟩

theorem lookLoop_spec {rook : Bool} {n i j : Nat} {pos : Nat → Nat} {a : List (BitVec 32)} (hn : n < 32) (hj : j < n) (hw : ∀ p c, Free a p c → c < n) :
    ∀ (ii : Nat) (total : BitVec 32), ii ≤ i → (∀ x, x < ii → pos x < a.length) →
      ∃ r, lookLoop rook n i j pos a ii total = some r ∧
        match r with
        | none => ∃ x, x < ii ∧ ∀ c, Free a (pos x) c → Att rook i j x c
        | some total' => ∀ c, total'.getLsbD c = true ↔ total.getLsbD c = true ∨ ∃ x, x < ii ∧ Free a (pos x) c ∧ ¬ Att rook i j x c
  | 0, total, _, _ => ⟨some total, rfl, fun c => ⟨.inl, fun h => h.elim id fun ⟨x, h, _⟩ => by omega⟩⟩
  | ii + 1, total, hi, hl => by
    obtain ⟨w, hwa⟩ := getElem_some (hl ii (by omega))
    have hcut : ∀ c, (cut rook n i j ii w).getLsbD c = true ↔ Free a (pos ii) c ∧ ¬ Att rook i j ii c := fun c => by
      rw [cut_spec hn hj (by omega) (fun c hc => hw _ c ((free_iff hwa).2 hc)), free_iff hwa]
    unfold lookLoop
    rw [hwa, Option.bind_some]
    dsimp only
    by_cases h0 : cut rook n i j ii w = 0
    · rw [if_pos h0]
      refine ⟨none, rfl, ii, by omega, fun c hc => ?_⟩
      have := eq_zero_iff.1 h0 c
      apply Classical.byContradiction
      intro hA
      rw [(hcut c).2 ⟨hc, hA⟩] at this
      cases this
    · rw [if_neg h0]
      obtain ⟨r, e, hr⟩ := lookLoop_spec (rook := rook) (i := i) (pos := pos) hn hj hw ii (total ||| cut rook n i j ii w) (by omega) (fun x hx => hl x (by omega))
      refine ⟨r, e, ?_⟩
      match r, hr with
      | none, ⟨x, hxi, hr⟩ => exact ⟨x, by omega, hr⟩
      | some total', hr =>
        intro c
        rw [hr, BitVec.getLsbD_or, Bool.or_eq_true, hcut]
        constructor
        · rintro ((h | h) | ⟨x, h1, h2⟩)
          · exact .inl h
          · exact .inr ⟨ii, by omega, h⟩
          · exact .inr ⟨x, by omega, h2⟩
        · rintro (h | ⟨x, h1, h2⟩)
          · exact .inl (.inl h)
          · by_cases hxi : x = ii
            · subst hxi; exact .inl (.inr h2)
            · exact .inr ⟨x, by omega, h2⟩

/-- a map of `m` rows to different columns of the bitmap -/
theorem popcount_ge {w : BitVec 32} {m : Nat} (q : Nat → Nat) (h : ∀ x, x < m → w.getLsbD (q x) = true) (hq : ∀ x y, x < y → y < m → q x ≠ q y) : m ≤ popcount w := by
  have hnd : ((List.range m).map q).Nodup := by
    rw [List.nodup_iff_pairwise_ne, List.pairwise_map]
    refine List.Pairwise.imp_of_mem (R := (· < ·)) ?_ List.pairwise_lt_range
    intro x y hx hy hxy
    exact hq x y hxy (List.mem_range.1 hy)
  have := hnd.length_le_of_subset (l₂ := (List.range 32).filter fun c => w.getLsbD c) fun c hc => by
    obtain ⟨x, hx, rfl⟩ := List.mem_map.1 hc
    have := h x (List.mem_range.1 hx)
    exact List.mem_filter.2 ⟨List.mem_range.2 (getLsbD_lt this), this⟩
  simpa [popcount] using this

/-- The lower rows can be filled with pieces at free columns that are not attacked by row `i`, column `j`, nor by each other. -/
def Fill (rook : Bool) (i : Nat) (F : Nat → Nat → Prop) (q : Nat → Nat) : Prop :=
  (∀ x, x < i → F x (q x)) ∧ ∀ x y, x < y → y < i → ¬ Att rook y (q y) x (q x)

theorem takable_spec {rook : Bool} {n i j : Nat} {pos : Nat → Nat} {a : List (BitVec 32)} (hn : n < 32) (hj : j < n) (hw : ∀ p c, Free a p c → c < n) (hl : ∀ x, x < i → pos x < a.length) :
    ∃ t, takable rook n i j pos a = some t ∧ (t = false → ¬ ∃ q, Fill rook i (fun x c => Free a (pos x) c ∧ ¬ Att rook i j x c) q) := by
  obtain ⟨r, e, hr⟩ := lookLoop_spec (rook := rook) hn hj hw i 0 (Nat.le_refl _) hl
  unfold takable
  rw [e]
  refine ⟨_, rfl, fun ht => ?_⟩
  rintro ⟨q, h1, h2⟩
  match r, hr with
  | none, ⟨x, hx, hr⟩ => exact (h1 x hx).2 (hr _ (h1 x hx).1)
  | some total, hr =>
    simp only [decide_eq_false_iff_not] at ht
    apply ht
    refine popcount_ge q (fun x hx => (hr _).2 (.inr ⟨x, hx, h1 x hx⟩)) fun x y hxy hy h => ?_
    exact h2 x y hxy hy (.inl h)

end TdZdd.Queens
