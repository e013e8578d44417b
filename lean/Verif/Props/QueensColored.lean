import Verif.QueensColored3
import Verif.Props.Queens

/-!
# `ColoredNQueenZdd` and `ColoredNRookZdd` (C64)
-/

namespace TdZdd.Queens

/-- Row `i`, column `c`, colour `k` belong to level `(i * n + c) * n + k + 1`. The pieces of every colour are a placement, every field has a piece of exactly one colour, and the colour `k` is in column `k`
of the last row. -/
def IsColored (rook : Bool) (n : Nat) (a : Asg 2) : Prop :=
  (∀ k, k < n → IsPlacement rook n fun l => a ((l - 1) * n + k + 1)) ∧
  (∀ i c, i < n → c < n → ∃ k, k < n ∧ a ((i * n + c) * n + k + 1) = 1 ∧ ∀ k', k' < n → a ((i * n + c) * n + k' + 1) = 1 → k' = k) ∧
  ∀ k, k < n → a (((n - 1) * n + k) * n + k + 1) = 1

theorem croot_free {n p c : Nat} {w : BitVec 32} (hn : n < 32) (hw : ∀ c, w.getLsbD c = true ↔ c < n) (hp : p < n * n) : Free (croot n w) p c ↔ if p < n * n - n then c < n else c = p - (n * n - n) := by
  unfold croot
  by_cases h : p < n * n - n
  · rw [if_pos h, ← hw]
    exact free_iff (by rw [List.getElem?_append_left (by simpa using h), List.getElem?_replicate, if_pos h])
  · rw [if_neg h]
    have hlt : p - (n * n - n) < n := by omega
    have : (List.replicate (n * n - n) w ++ (List.range n).map bit)[p]? = some (bit (p - (n * n - n))) := by
      rw [List.getElem?_append_right (by simp; omega), List.length_replicate, List.getElem?_map, List.getElem?_range hlt]; rfl
    rw [free_iff this, getLsbD_bit (by omega)]
    simp

theorem croot_idx {n r k c : Nat} {w : BitVec 32} (hn : n < 32) (hw : ∀ c, w.getLsbD c = true ↔ c < n) (hr : r < n) (hk : k < n) : Free (croot n w) (r * n + k) c ↔ c < n ∧ (r = n - 1 → c = k) := by
  have hnn : n * n = (n - 1) * n + n := by
    obtain ⟨m, rfl⟩ : ∃ m, n = m + 1 := ⟨n - 1, by omega⟩
    simp only [Nat.add_sub_cancel]
    rw [Nat.succ_mul]
  rw [croot_free hn hw (idx_lt hr hk)]
  by_cases e : r = n - 1
  · subst e
    rw [if_neg (by omega)]
    constructor
    · intro h; exact ⟨by omega, fun _ => by omega⟩
    · intro h; have := h.2 rfl; omega
  · have : (r + 1) * n ≤ (n - 1) * n := Nat.mul_le_mul_right _ (by omega)
    rw [Nat.succ_mul] at this
    rw [if_pos (by omega)]
    exact ⟨fun h => ⟨h, fun h => absurd h e⟩, fun h => h.1⟩

theorem croot_inv {n : Nat} {w : BitVec 32} (hn : n < 32) (h1 : 1 ≤ n) (hw : ∀ c, w.getLsbD c = true ↔ c < n) : CInv n (n - 1) (n * n) (croot n w) := by
  have hnn : n ≤ n * n := by have := Nat.mul_le_mul_left n h1; omega
  have hlen : (croot n w).length = n * n := by simp [croot]; omega
  refine ⟨⟨hlen, fun p c hf => ?_⟩, by omega, Nat.le_refl _, fun k c hk hd => absurd hd (not_done_top hk), fun k c hk _ hf => ?_, fun k hk ht => by omega, fun r k hr hk => ⟨0, (croot_idx hn hw (by omega) hk).2 ⟨by omega, fun e => by omega⟩⟩,
    fun h0 k hk _ => ⟨k, (croot_idx hn hw (by omega) hk).2 ⟨hk, fun _ => rfl⟩⟩, fun _ _ => 0, ?_⟩
  · have hp : p < n * n := by
      obtain ⟨w', e, _⟩ := hf
      apply Classical.byContradiction
      intro h
      rw [List.getElem?_eq_none (by omega)] at e
      cases e
    rw [croot_free hn hw hp] at hf
    split at hf <;> omega
  · have := ((croot_idx hn hw (by omega) hk).1 hf).1
    exact idx_lt this hk
  · have hpl : ∀ r k, k < n → ¬ Placed n (n - 1) (n * n) (croot n w) r k := by
      rintro r k hk (h | h)
      · omega
      · exact not_done_top hk h.2
    exact ⟨fun r k hk h => absurd h (hpl r k hk), fun r k k' hk _ _ h => absurd h (hpl r k hk), fun r r' k hk _ h => absurd h (hpl r k hk), fun r r' k hk h => absurd h (hpl r k hk),
      fun k k' hk _ hd => absurd hd (not_done_top hk), fun _ k hk hd => absurd hd (not_done_top hk)⟩

theorem colored_iff {rook : Bool} {n : Nat} {w : BitVec 32} (hn : n < 32) (h1 : 1 ≤ n) (hw : ∀ c, w.getLsbD c = true ↔ c < n) (a : Asg 2) :
    CP rook n (n - 1) (n * n) (croot n w) a ↔ IsColored rook n a := by
  have htodo : ∀ r k, k < n → (Todo n (n - 1) (n * n) (croot n w) r k ↔ r < n) := fun r k hk => by
    unfold Todo
    have := not_done_top (i := n - 1) (s := croot n w) hk
    constructor
    · rintro (h | h) <;> omega
    · intro h
      by_cases e : r = n - 1
      · exact .inr ⟨e, this⟩
      · exact .inl (by omega)
  have hlev : ∀ r c k, r * (n * n) + (c * n + k) + 1 = (r * n + c) * n + k + 1 := fun r c k => by rw [Nat.add_mul, Nat.mul_assoc]; omega
  constructor
  · rintro ⟨q, hq⟩
    have hlt : ∀ r k, r < n → k < n → q r k < n := fun r k hr hk => ((croot_idx hn hw hr hk).1 (hq.free r k hk ((htodo r k hk).2 hr))).1
    have hasg : ∀ r k c, r < n → k < n → c < n → (a ((r * n + c) * n + k + 1) = 1 ↔ c = q r k) := fun r k c hr hk hc => by
      rw [val_one, ← hlev, hq.asg r k c hk hc (by omega) (fun _ => idx_lt hc hk), htodo r k hk]
      exact ⟨fun h => h.2, fun h => ⟨hr, h⟩⟩
    refine ⟨fun k hk => ⟨fun i hi => ⟨q i k, hlt i k hi hk, ?_⟩, ?_⟩, fun i c hi hc => ?_, fun k hk => ?_⟩
    · show a ((i * n + q i k + 1 - 1) * n + k + 1) = 1
      rw [Nat.add_sub_cancel]
      exact (hasg i k _ hi hk (hlt i k hi hk)).2 rfl
    · intro i c i' c' hi hc hi' hc' ha ha' hne
      simp only [Nat.add_sub_cancel] at ha ha'
      have e := (hasg i k c hi hk hc).1 ha
      have e' := (hasg i' k c' hi' hk hc').1 ha'
      subst e e'
      have hii : i ≠ i' := fun h => hne (by rw [h])
      rcases Nat.lt_or_gt_of_ne hii with h | h
      · have := hq.safe i i' k hk h ((htodo i k hk).2 hi) ((htodo i' k hk).2 hi')
        unfold Att at this
        cases rook
        · simp only [true_and] at this ⊢; omega
        · simp only [reduceCtorEq, false_and, or_false] at this ⊢; refine ⟨hii, this, by simp⟩
      · have := hq.safe i' i k hk h ((htodo i' k hk).2 hi') ((htodo i k hk).2 hi)
        unfold Att at this
        cases rook
        · simp only [true_and] at this ⊢; omega
        · simp only [reduceCtorEq, false_and, or_false] at this ⊢; refine ⟨hii, fun h => this h.symm, by simp⟩
    · have hrow : ∀ k k', k < n → k' < n → k ≠ k' → q i k ≠ q i k' := fun k k' hk hk' hne => hq.row i k k' hk hk' hne ((htodo i k hk).2 hi) ((htodo i k' hk').2 hi)
      obtain ⟨k, hk, e⟩ := onto (q i) (fun y hy => hlt i y hi hy) (fun y z hyz hz => hrow y z (by omega) hz (by omega)) c hc
      refine ⟨k, hk, (hasg i k c hi hk hc).2 e.symm, fun k' hk' ha => ?_⟩
      apply Classical.byContradiction
      intro hne
      exact hrow k' k hk' hk hne (by rw [e]; exact ((hasg i k' c hi hk' hc).1 ha).symm)
    · have := ((croot_idx hn hw (by omega) hk).1 (hq.free (n - 1) k hk ((htodo _ k hk).2 (by omega)))).2 rfl
      exact (hasg (n - 1) k k (by omega) hk hk).2 this.symm
  · rintro ⟨hpl, hcell, htop⟩
    have hex : ∀ i k, i < n → k < n → ∃ c, c < n ∧ a ((i * n + c) * n + k + 1) = 1 := fun i k hi hk => by
      obtain ⟨c, hc, ha⟩ := (hpl k hk).1 i hi
      simp only [Nat.add_sub_cancel] at ha
      exact ⟨c, hc, ha⟩
    have hq : ∃ q : Nat → Nat → Nat, ∀ i k, i < n → k < n → q i k < n ∧ a ((i * n + q i k) * n + k + 1) = 1 := by
      refine ⟨fun i k => if h : i < n ∧ k < n then Classical.choose (hex i k h.1 h.2) else 0, fun i k hi hk => ?_⟩
      dsimp only
      rw [dif_pos ⟨hi, hk⟩]
      exact Classical.choose_spec (hex i k hi hk)
    obtain ⟨q, hq⟩ := hq
    have huniq : ∀ r k c, r < n → k < n → c < n → a ((r * n + c) * n + k + 1) = 1 → c = q r k := fun r k c hr hk hc ha => by
      apply Classical.byContradiction
      intro hne
      exact ((hpl k hk).2 r c r (q r k) hr hc hr (hq r k hr hk).1 (by simpa using ha) (by simpa using (hq r k hr hk).2) (fun e => hne (by injection e))).1 rfl
    refine ⟨q, fun r k hk ht => ?_, fun r r' k hk hr ht ht' => ?_, fun r k k' hk hk' hne ht _ e => ?_, fun r k c hk hc hr _ => ?_⟩
    · rw [htodo r k hk] at ht
      rw [croot_idx hn hw ht hk]
      refine ⟨(hq r k ht hk).1, fun e => ?_⟩
      subst e
      exact (huniq _ k k ht hk hk (htop k hk)).symm
    · rw [htodo _ k hk] at ht ht'
      have h1 := hq r k ht hk
      have h2 := hq r' k ht' hk
      have := (hpl k hk).2 r (q r k) r' (q r' k) ht h1.1 ht' h2.1 (by simpa using h1.2) (by simpa using h2.2) (fun h => by injection h; omega)
      unfold Att
      cases rook
      · simp only [true_and] at this ⊢; have := this.2.2 trivial; omega
      · simp only [reduceCtorEq, false_and, or_false] at this ⊢; exact this.2.1
    · rw [htodo _ k hk] at ht
      have h1 := hq r k ht hk
      have h2 := hq r k' ht hk'
      obtain ⟨k0, _, _, h3⟩ := hcell r (q r k) ht h1.1
      rw [← e] at h2
      exact hne ((h3 k hk h1.2).trans (h3 k' hk' h2.2).symm)
    · rw [← val_one, hlev, htodo r k hk]
      constructor
      · exact fun ha => ⟨by omega, huniq r k c (by omega) hk hc ha⟩
      · rintro ⟨_, rfl⟩
        exact (hq r k (by omega) hk).2

theorem cspec_all {rook : Bool} {n : Nat} {w : BitVec 32} (hn : n < 32) (h1 : 1 ≤ n) (hr : rootRow n = some w) (hw : ∀ c, w.getLsbD c = true ↔ c < n) :
    Desc (cspec rook n) ∧ ∀ a, ZddMem (cspec rook n) (n * n * n) a ↔ CM rook n (n * n * n) (croot n w) a := by
  have hlev : n * n * n = (n - 1) * (n * n) + ((n - 1) * n + (n - 1)) + 1 := by
    have e : (n - 1) * n + n = n * n := by
      obtain ⟨m, rfl⟩ : ∃ m, n = m + 1 := ⟨n - 1, by omega⟩
      simp only [Nat.add_sub_cancel]
      rw [Nat.succ_mul m (m + 1)]
    have e2 : (n - 1) * (n * n) + n * n = n * n * n := by
      have : (n - 1 + 1) * (n * n) = n * (n * n) := by rw [Nat.sub_add_cancel h1]
      rw [Nat.succ_mul] at this
      rw [this, Nat.mul_assoc]
    omega
  have htop : (n - 1) * n + (n - 1) + 1 = n * n := by
    obtain ⟨m, rfl⟩ : ∃ m, n = m + 1 := ⟨n - 1, by omega⟩
    simp only [Nat.add_sub_cancel]
    rw [Nat.succ_mul m (m + 1)]
    omega
  have hroot : (cspec rook n).root = (((n * n * n : Nat) : Int), croot n w) := by
    unfold cspec
    dsimp only
    rw [hr]
  refine zddMem_of_step (Inv := CNode n) (P := CM rook n) hroot ?_ (by omega) ?_
  · refine ⟨n - 1, n - 1, n - 1, by omega, by omega, by omega, hlev, ?_, (croot_idx hn hw (by omega) (by omega)).2 ⟨by omega, fun _ => rfl⟩⟩
    rw [htop]
    exact croot_inv hn h1 hw
  · intro l s b hl hI
    obtain ⟨r, e, hr⟩ := cchild_spec (rook := rook) hn hI (b != 0)
    have hc : (cspec rook n).child s l b = r := by
      show (cchild rook n s l (b != 0)).getD (l, s) = r
      rw [e]; rfl
    rw [hc]
    have hb : ∀ a : Asg 2, a l = b → ((b != 0) = true ↔ (a l).val ≠ 0) := fun a e => by rw [e]; exact bne_iff
    rcases hr with ⟨h, h'⟩ | ⟨h, h'⟩ | ⟨k, h, hk, hI', h'⟩
    · exact .inl ⟨h, fun a e => h' a (hb a e)⟩
    · exact .inr (.inl ⟨h, fun a e => h' a (hb a e)⟩)
    · refine .inr (.inr ⟨k, ?_, h, hk, hI', fun a e => h' a (hb a e)⟩)
      obtain ⟨_, _, _, _, _, _, e, _⟩ := hI'
      omega

/-- **C64.** `ColoredNQueenZdd(n)` contains exactly the colourings of all fields of the board with `n` colours whose classes are placements of `n` queens, with the last row in the order of the colours;
`ColoredNRookZdd(n)` likewise for rooks (Latin squares). -/
theorem _root_.TdZdd.C64_colored (rook : Bool) (n : Nat) (h1 : 1 ≤ n) (hn : n ≤ 31) (a : Asg 2) : ZddMem (cspec rook n) (n * n * n) a ↔ IsColored rook n a := by
  obtain ⟨w, hr, hw⟩ := rootRow_spec (show n < 32 by omega)
  rw [(cspec_all (by omega) h1 hr hw).2, ← colored_iff (w := w) (by omega) h1 hw]
  unfold CM
  have e2 : (n - 1) * (n * n) + n * n = n * n * n := by
    have : (n - 1 + 1) * (n * n) = n * (n * n) := by rw [Nat.sub_add_cancel h1]
    rw [Nat.succ_mul] at this
    rw [this, Nat.mul_assoc]
  have hnn : 0 < n * n := Nat.mul_pos h1 h1
  rw [show n * n * n = (n - 1) * (n * n) + (n * n - 1) + 1 by omega, lev_div (by omega), lev_mod (by omega), Nat.sub_add_cancel hnn]

/-- **C64.** The specifications are lawful (in particular no undefined behaviour is reached). -/
theorem _root_.TdZdd.C64_lawful (rook : Bool) (n : Nat) (h1 : 1 ≤ n) (hn : n ≤ 31) : LawfulC (cspec rook n) := by
  obtain ⟨w, hr, hw⟩ := rootRow_spec (show n < 32 by omega)
  exact lawfulC_of_eq (cspec_all (by omega) h1 hr hw).1 fun n s t => by simp [cspec]

/-! A Latin square of order 3 and a colouring of the 5×5 board by queens. -/

/-- the colour of the field in row `i`, column `c` is `f i c` -/
def colour (n : Nat) (f : Nat → Nat → Nat) : Asg 2 := fun l => if f ((l - 1) / n / n) ((l - 1) / n % n) = (l - 1) % n then 1 else 0

example : ZddMem (cspec true 3) 27 (colour 3 fun i c => (i + c + 1) % 3) ∧ ¬ ZddMem (cspec true 3) 27 (colour 3 fun i c => (i + c) % 3) := by
  have h1 := (C64_lawful true 3 (by decide) (by decide)).toDesc
  refine ⟨?_, ?_⟩
  · rw [← zddRun_mem h1 (by decide +kernel)]; decide +kernel
  · rw [← zddRun_mem h1 (by decide +kernel)]; decide +kernel

example : ZddMem (cspec false 5) 125 (colour 5 fun i c => (2 * i + c + 2) % 5) ∧ ¬ ZddMem (cspec false 5) 125 (colour 5 fun i c => (i + c + 1) % 5) := by
  have h1 := (C64_lawful false 5 (by decide) (by decide)).toDesc
  refine ⟨?_, ?_⟩
  · rw [← zddRun_mem h1 (by decide +kernel)]; decide +kernel
  · rw [← zddRun_mem h1 (by decide +kernel)]; decide +kernel

end TdZdd.Queens
