import Verif.QueensProofs3

/-! States of `ColoredNQueenZdd`: invariant and meaning -/

namespace TdZdd.Queens

theorem idx_inj {n r k r' k' : Nat} (hk : k < n) (hk' : k' < n) (h : r * n + k = r' * n + k') : r = r' ∧ k = k' := by
  have h1 := lev_div (i := r) hk
  have h2 := lev_div (i := r') hk'
  have h3 := lev_mod (i := r) hk
  have h4 := lev_mod (i := r') hk'
  rw [h] at h1 h3
  exact ⟨h1.symm.trans h2, h3.symm.trans h4⟩

/-- `k` has its piece in row `i` if its mark at column `n - 1` is a field that has been passed. (`t` fields are to come in row `i`.) -/
def Done (n i t : Nat) (s : List (BitVec 32)) (k : Nat) : Prop := Free s (i * n + k) (n - 1) ∧ t ≤ (n - 1) * n + k

/-- the piece of colour `k` in row `r` is set -/
def Placed (n i t : Nat) (s : List (BitVec 32)) (r k : Nat) : Prop := (i < r ∧ r < n) ∨ (r = i ∧ Done n i t s k)

/-- the piece of colour `k` in row `r` is to be set -/
def Todo (n i t : Nat) (s : List (BitVec 32)) (r k : Nat) : Prop := r < i ∨ (r = i ∧ ¬ Done n i t s k)

/-- The columns `h` of the pieces that are set -/
structure Hist (n i t : Nat) (s : List (BitVec 32)) (h : Nat → Nat → Nat) : Prop where
  lt : ∀ r k, k < n → Placed n i t s r k → h r k < n
  row : ∀ r k k', k < n → k' < n → k ≠ k' → Placed n i t s r k → Placed n i t s r k' → h r k ≠ h r k'
  col : ∀ r r' k, k < n → r ≠ r' → Placed n i t s r k → Placed n i t s r' k → h r k ≠ h r' k
  exc : ∀ r r' k, k < n → Placed n i t s r k → Todo n i t s r' k → ¬ Free s (r' * n + k) (h r k)
  excRow : ∀ k k', k < n → k' < n → Done n i t s k → ¬ Done n i t s k' → ¬ Free s (i * n + k') (h i k)
  zero : i = 0 → ∀ k, k < n → Done n i t s k → h 0 k ≠ 0

/-- The invariant of the states -/
structure CInv (n i t : Nat) (s : List (BitVec 32)) : Prop where
  ok : Ok n (n * n) s
  hi : i < n
  ht : t ≤ n * n
  mark : ∀ k c, k < n → Done n i t s k → Free s (i * n + k) c → c = n - 1
  undone : ∀ k c, k < n → ¬ Done n i t s k → Free s (i * n + k) c → c * n + k < t
  passed : ∀ k, k < n → t ≤ k → Done n i t s k
  fut : ∀ r k, r < i → k < n → ∃ c, Free s (r * n + k) c
  now : i = 0 → ∀ k, k < n → ¬ Done n i t s k → ∃ c, Free s (i * n + k) c
  hist : ∃ h, Hist n i t s h

/-- The pieces to be set are in the columns `q`. -/
structure CSol (rook : Bool) (n i t : Nat) (s : List (BitVec 32)) (a : Asg 2) (q : Nat → Nat → Nat) : Prop where
  free : ∀ r k, k < n → Todo n i t s r k → Free s (r * n + k) (q r k)
  safe : ∀ r r' k, k < n → r < r' → Todo n i t s r k → Todo n i t s r' k → ¬ Att rook r' (q r' k) r (q r k)
  row : ∀ r k k', k < n → k' < n → k ≠ k' → Todo n i t s r k → Todo n i t s r k' → q r k ≠ q r k'
  asg : ∀ r k c, k < n → c < n → r ≤ i → (r = i → c * n + k < t) → ((a (r * (n * n) + (c * n + k) + 1)).val ≠ 0 ↔ Todo n i t s r k ∧ c = q r k)

/-- meaning of a state -/
def CP (rook : Bool) (n i t : Nat) (s : List (BitVec 32)) (a : Asg 2) : Prop := ∃ q, CSol rook n i t s a q

/-- different numbers below `n`, none of them `x`, are at most `n - 1` -/
theorem count_le {n m : Nat} (q : Nat → Nat) (x : Nat) (hx : x < n) (h : ∀ y, y < m → q y < n ∧ q y ≠ x) (hq : ∀ y z, y < z → z < m → q y ≠ q z) : m ≤ n - 1 := by
  have hnd : ((List.range m).map q).Nodup := by
    rw [List.nodup_iff_pairwise_ne, List.pairwise_map]
    refine List.Pairwise.imp_of_mem (R := (· < ·)) ?_ List.pairwise_lt_range
    intro y z hy hz hyz
    exact hq y z hyz (List.mem_range.1 hz)
  have := hnd.length_le_of_subset (l₂ := (List.range n).erase x) fun c hc => by
    obtain ⟨y, hy, rfl⟩ := List.mem_map.1 hc
    have := h y (List.mem_range.1 hy)
    exact (List.mem_erase_of_ne this.2).2 (List.mem_range.2 this.1)
  rw [List.length_erase_of_mem (List.mem_range.2 hx)] at this
  simpa using this

theorem count_le2 {n m : Nat} (q : Nat → Nat) (x x' : Nat) (hx : x < n) (hx' : x' < n) (hne : x ≠ x') (h : ∀ y, y < m → q y < n ∧ q y ≠ x ∧ q y ≠ x') (hq : ∀ y z, y < z → z < m → q y ≠ q z) : m ≤ n - 2 := by
  have hnd : ((List.range m).map q).Nodup := by
    rw [List.nodup_iff_pairwise_ne, List.pairwise_map]
    refine List.Pairwise.imp_of_mem (R := (· < ·)) ?_ List.pairwise_lt_range
    intro y z hy hz hyz
    exact hq y z hyz (List.mem_range.1 hz)
  have := hnd.length_le_of_subset (l₂ := ((List.range n).erase x).erase x') fun c hc => by
    obtain ⟨y, hy, rfl⟩ := List.mem_map.1 hc
    have := h y (List.mem_range.1 hy)
    exact (List.mem_erase_of_ne this.2.2).2 ((List.mem_erase_of_ne this.2.1).2 (List.mem_range.2 this.1))
  rw [List.length_erase_of_mem ((List.mem_erase_of_ne (fun h => hne h.symm)).2 (List.mem_range.2 hx')), List.length_erase_of_mem (List.mem_range.2 hx)] at this
  simp at this
  omega

/-- `n` colours in different columns: every column has one -/
theorem onto {n : Nat} (q : Nat → Nat) (h : ∀ y, y < n → q y < n) (hq : ∀ y z, y < z → z < n → q y ≠ q z) (x : Nat) (hx : x < n) : ∃ y, y < n ∧ q y = x := by
  apply Classical.byContradiction
  intro hc
  have := count_le q x hx (fun y hy => ⟨h y hy, fun e => hc ⟨y, hy, e⟩⟩) hq
  omega

/-- In row 0 a column is left for one colour only. -/
theorem col_unique {n t : Nat} {s : List (BitVec 32)} (h : CInv n 0 t s) {k k' c : Nat} (hk : k < n) (hk' : k' < n) (hd : ¬ Done n 0 t s k) (hd' : ¬ Done n 0 t s k') (hf : Free s (0 * n + k) c)
    (hf' : Free s (0 * n + k') c) : k = k' := by
  apply Classical.byContradiction
  intro hne
  obtain ⟨H, hH⟩ := h.hist
  have hc : c < n := h.ok.lt _ _ hf
  have hpl : ∀ r y, r < n - 1 → Placed n 0 t s (r + 1) y := fun r y hr => .inl ⟨by omega, by omega⟩
  have hex : ∀ r, r < n - 1 → ∃ y, y < n ∧ H (r + 1) y = c := fun r hr =>
    onto (H (r + 1)) (fun y hy => hH.lt _ y hy (hpl r y hr)) (fun y z hyz hz => hH.row _ y z (by omega) hz (by omega) (hpl r y hr) (hpl r z hr)) c hc
  let κ : Nat → Nat := fun r => if hr : r < n - 1 then Classical.choose (hex r hr) else 0
  have hκ : ∀ r, r < n - 1 → κ r < n ∧ H (r + 1) (κ r) = c := fun r hr => by
    show (if hr : r < n - 1 then Classical.choose (hex r hr) else 0) < n ∧ H (r + 1) (if hr : r < n - 1 then Classical.choose (hex r hr) else 0) = c
    rw [dif_pos hr]
    exact Classical.choose_spec (hex r hr)
  have := count_le2 κ k k' hk hk' hne (m := n - 1) (fun r hr => ⟨(hκ r hr).1, fun e => ?_, fun e => ?_⟩) (fun r r' hrr hr' e => ?_)
  · omega
  · have := (hκ r hr).2
    rw [e] at this
    exact hH.exc (r + 1) 0 k hk (hpl r k hr) (.inr ⟨rfl, hd⟩) (by rw [this]; exact hf)
  · have := (hκ r hr).2
    rw [e] at this
    exact hH.exc (r + 1) 0 k' hk' (hpl r k' hr) (.inr ⟨rfl, hd'⟩) (by rw [this]; exact hf')
  · have h1 := hκ r (by omega)
    have h2 := hκ r' hr'
    rw [e] at h1
    exact hH.col (r + 1) (r' + 1) (κ r') h2.1 (by omega) (hpl r _ (by omega)) (hpl r' _ hr') (by rw [h1.2, h2.2])

theorem not_done_top {n i : Nat} {s : List (BitVec 32)} {k : Nat} (hk : k < n) : ¬ Done n i (n * n) s k := by
  rintro ⟨_, h⟩
  obtain ⟨m, rfl⟩ : ∃ m, n = m + 1 := ⟨n - 1, by omega⟩
  simp only [Nat.add_sub_cancel] at h
  rw [Nat.succ_mul] at h
  omega

/-- To the next row -/
theorem cross {rook : Bool} {n i : Nat} {s : List (BitVec 32)} (h : CInv n i 0 s) : ∃ i', i = i' + 1 ∧ CInv n i' (n * n) s ∧ ∀ a, CP rook n i 0 s a ↔ CP rook n i' (n * n) s a := by
  have hall : ∀ k, k < n → Done n i 0 s k := fun k hk => h.passed k hk (by omega)
  obtain ⟨H, hH⟩ := h.hist
  have hpi : ∀ k, k < n → Placed n i 0 s i k := fun k hk => .inr ⟨rfl, hall k hk⟩
  have hi0 : i ≠ 0 := by
    rintro rfl
    have hn : 0 < n := h.hi
    obtain ⟨k, hk, e⟩ := onto (H 0) (fun y hy => hH.lt 0 y hy (hpi y hy)) (fun y z hyz hz => hH.row 0 y z (by omega) hz (by omega) (hpi y (by omega)) (hpi z hz)) 0 hn
    exact hH.zero rfl k hk (hall k hk) e
  obtain ⟨i, rfl⟩ : ∃ i', i = i' + 1 := ⟨i - 1, by omega⟩
  refine ⟨i, rfl, ?_, fun a => ?_⟩
  · have hpl : ∀ r k, k < n → Placed n i (n * n) s r k → Placed n (i + 1) 0 s r k := by
      intro r k hk hp
      rcases hp with hp | hp
      · by_cases hr : r = i + 1
        · subst hr; exact hpi k hk
        · exact .inl ⟨by omega, hp.2⟩
      · exact absurd hp.2 (not_done_top hk)
    refine ⟨h.ok, by have := h.hi; omega, Nat.le_refl _, fun k c hk hd => absurd hd (not_done_top hk), fun k c hk _ hf => ?_, fun k hk ht => ?_, fun r k hr hk => h.fut r k (by omega) hk, fun _ k hk _ => h.fut i k (by omega) hk, H, ?_⟩
    · have := h.ok.lt _ _ hf
      have : (c + 1) * n ≤ n * n := Nat.mul_le_mul_right _ this
      rw [Nat.succ_mul] at this
      omega
    · have : n * 1 ≤ n * n := Nat.mul_le_mul_left _ (by omega)
      omega
    · refine ⟨fun r k hk hp => hH.lt r k hk (hpl r k hk hp), fun r k k' hk hk' hne hp hp' => hH.row r k k' hk hk' hne (hpl r k hk hp) (hpl r k' hk' hp'), fun r r' k hk hne hp hp' => hH.col r r' k hk hne (hpl r k hk hp) (hpl r' k hk hp'),
        fun r r' k hk hp ht => hH.exc r r' k hk (hpl r k hk hp) (.inl ?_), fun k k' hk _ hd => absurd hd (not_done_top hk), fun _ k hk hd => absurd hd (not_done_top hk)⟩
      rcases ht with ht | ht <;> omega
  · have htodo : ∀ r k, k < n → (Todo n (i + 1) 0 s r k ↔ Todo n i (n * n) s r k) := by
      intro r k hk
      have := hall k hk
      have hnt := not_done_top (i := i) (s := s) hk
      unfold Todo
      constructor
      · rintro (h | h)
        · by_cases hr : r = i
          · exact .inr ⟨hr, hnt⟩
          · exact .inl (by omega)
        · exact absurd this h.2
      · rintro (h | h)
        · exact .inl (by omega)
        · exact .inl (by omega)
    constructor
    · rintro ⟨q, hq⟩
      exact ⟨q, fun r k hk ht => hq.free r k hk ((htodo r k hk).2 ht), fun r r' k hk hr ht ht' => hq.safe r r' k hk hr ((htodo r k hk).2 ht) ((htodo r' k hk).2 ht'),
        fun r k k' hk hk' hne ht ht' => hq.row r k k' hk hk' hne ((htodo r k hk).2 ht) ((htodo r k' hk').2 ht'), fun r k c hk hc hr _ => by rw [← htodo r k hk]; exact hq.asg r k c hk hc (by omega) (fun e => by omega)⟩
    · rintro ⟨q, hq⟩
      exact ⟨q, fun r k hk ht => hq.free r k hk ((htodo r k hk).1 ht), fun r r' k hk hr ht ht' => hq.safe r r' k hk hr ((htodo r k hk).1 ht) ((htodo r' k hk).1 ht'),
        fun r k k' hk hk' hne ht ht' => hq.row r k k' hk hk' hne ((htodo r k hk).1 ht) ((htodo r k' hk').1 ht'), fun r k c hk hc hr hrt => by
          rw [htodo r k hk]
          refine hq.asg r k c hk hc ?_ fun _ => ?_
          · apply Classical.byContradiction
            intro hri
            have := hrt (by omega)
            omega
          · have : (c + 1) * n ≤ n * n := Nat.mul_le_mul_right _ hc
            rw [Nat.succ_mul] at this
            omega⟩

end TdZdd.Queens
