import Verif.QueensProofs2

/-! The families of `NQueenZdd` and `NRookZdd` -/

namespace TdZdd.Queens

theorem rootRow_spec {n : Nat} (hn : n < 32) : ∃ w, rootRow n = some w ∧ ∀ c, w.getLsbD c = true ↔ c < n := by
  refine ⟨_, if_pos hn, fun c => ?_⟩
  rw [BitVec.getLsbD_not, BitVec.getLsbD_shiftLeft, BitVec.getLsbD_not, BitVec.getLsbD_zero]
  by_cases hc : c < n
  · have : c < 32 := by omega
    simp [hc, this]
  · by_cases h32 : c < 32
    · have : c - n < 32 := by omega
      simp [hc, h32, this]
    · simp [hc, h32]

theorem free_replicate {n p c : Nat} {w : BitVec 32} (hp : p < n) : Free (List.replicate n w) p c ↔ w.getLsbD c = true :=
  free_iff (by rw [List.getElem?_replicate, if_pos hp])

section
variable {rook : Bool} {n : Nat} {fc : Option Nat}

/-- the condition that the top must be taken -/
abbrev Top (n : Nat) (fc : Option Nat) (l : Nat) : Prop := fc.isSome = true ∧ l = n * n - fc.getD 0

theorem top_pos (h1 : 1 ≤ n) (hf : fc.getD 0 < n) : 0 < n * n - fc.getD 0 := by
  have : n * 1 ≤ n * n := Nat.mul_le_mul_left _ h1
  omega

theorem root_eq {w : BitVec 32} (h1 : 1 ≤ n) (hf : fc.getD 0 < n) (hw : rootRow n = some w) : (spec rook n fc).root = (((n * n - fc.getD 0 : Nat) : Int), List.replicate n w) := by
  unfold spec
  dsimp only
  rw [hw]
  dsimp only
  rw [if_pos ⟨h1, hf⟩]

theorem top_lev (h1 : 1 ≤ n) (hf : fc.getD 0 < n) : n * n - fc.getD 0 = (n - 1) * n + (n - 1 - fc.getD 0) + 1 := by
  obtain ⟨k, rfl⟩ : ∃ k, n = k + 1 := ⟨n - 1, by omega⟩
  simp only [Nat.add_sub_cancel]
  rw [Nat.succ_mul]
  omega

theorem root_inv {w : BitVec 32} (hn : n < 32) (h1 : 1 ≤ n) (hf : fc.getD 0 < n) (hw : ∀ c, w.getLsbD c = true ↔ c < n) :
    Inv n (n * n - fc.getD 0) (Top n fc) (n * n - fc.getD 0) (List.replicate n w) := by
  refine ⟨top_pos h1 hf, Nat.le_refl _, ⟨List.length_replicate, fun p c hc => ?_⟩, fun ht c hc => ?_⟩
  · obtain ⟨w', e, hc⟩ := hc
    rw [List.getElem?_replicate] at e
    split at e
    · cases e; exact (hw c).1 hc
    · cases e
  · have : fc = none := by
      cases fc with
      | none => rfl
      | some f => exact absurd ⟨rfl, rfl⟩ ht
    subst this
    rw [top_lev h1 hf] at hc ⊢
    simp only [Option.getD_none, Nat.sub_zero] at hc ⊢
    rw [lev_div (by omega), free_replicate (by omega), hw] at hc
    rw [lev_mod (by omega)]
    omega

theorem child_eq {s : List (BitVec 32)} {l : Nat} {b : Fin 2} : (spec rook n fc).child s l b = (child rook n (n * n - fc.getD 0) fc.isSome s l (b != 0)).getD (l, s) := rfl

theorem bne_iff {b : Fin 2} : (b != 0) = true ↔ b.val ≠ 0 := by revert b; decide

theorem spec_all (hn : n < 32) (h1 : 1 ≤ n) (hf : fc.getD 0 < n) {w : BitVec 32} (hw : rootRow n = some w) (hw' : ∀ c, w.getLsbD c = true ↔ c < n) :
    Desc (spec rook n fc) ∧ ∀ a, ZddMem (spec rook n fc) (n * n - fc.getD 0) a ↔ P' rook n (Top n fc) (n * n - fc.getD 0) (List.replicate n w) a := by
  have hcs := fun l s (hI : Inv n (n * n - fc.getD 0) (Top n fc) l s) b => child_spec (rook := rook) hn (Nat.sub_le _ _) hI b
  have hlt : ∀ l s (b : Fin 2), 0 < l → Inv n (n * n - fc.getD 0) (Top n fc) l s → -1 ≤ ((spec rook n fc).child s l b).1 ∧ ((spec rook n fc).child s l b).1 < l := by
    intro l s b hl hI
    obtain ⟨r, e, hr⟩ := hcs l s hI (b != 0)
    rw [child_eq, e]
    show -1 ≤ r.1 ∧ r.1 < l
    rcases hr with ⟨h, _⟩ | ⟨h, _⟩ | ⟨k, h, hk, _⟩ <;> omega
  have hinv : ∀ l s (b : Fin 2) (k : Nat), 0 < l → 0 < k → Inv n (n * n - fc.getD 0) (Top n fc) l s → ((spec rook n fc).child s l b).1 = k → Inv n (n * n - fc.getD 0) (Top n fc) k ((spec rook n fc).child s l b).2 := by
    intro l s b k hl hk hI
    obtain ⟨r, e, hr⟩ := hcs l s hI (b != 0)
    rw [child_eq, e]
    show r.1 = k → Inv n (n * n - fc.getD 0) (Top n fc) k r.2
    intro hrk
    rcases hr with ⟨h, _⟩ | ⟨h, _⟩ | ⟨k', h, _, hI', _⟩
    · omega
    · omega
    · have : k' = k := by omega
      subst this
      exact hI'
  refine ⟨desc_of_inv (root_eq h1 hf hw) (root_inv hn h1 hf hw') hlt hinv, zddMem_of_inv (root_eq h1 hf hw) (root_inv hn h1 hf hw') (top_pos h1 hf) hlt hinv ?_ ?_ ?_⟩
  · intro l s a hl hI
    obtain ⟨r, e, hr⟩ := hcs l s hI (a l != 0)
    rw [child_eq, e]
    show r.1 = 0 → _
    intro h0
    rcases hr with ⟨_, h⟩ | ⟨h, _⟩ | ⟨k, h, _, hI', _⟩
    · exact h a bne_iff
    · omega
    · have := hI'.pos; omega
  · intro l s a hl hI
    obtain ⟨r, e, hr⟩ := hcs l s hI (a l != 0)
    rw [child_eq, e]
    show r.1 = -1 → _
    intro h0
    rcases hr with ⟨h, _⟩ | ⟨_, h⟩ | ⟨k, h, _, _⟩
    · omega
    · exact h a bne_iff
    · omega
  · intro l s a k hl hk hI
    obtain ⟨r, e, hr⟩ := hcs l s hI (a l != 0)
    rw [child_eq, e]
    show r.1 = k → (_ ↔ _ ∧ P' rook n (Top n fc) k r.2 a)
    intro h0
    rcases hr with ⟨h, _⟩ | ⟨h, _⟩ | ⟨k', h, _, _, h'⟩
    · omega
    · omega
    · have : k' = k := by omega
      subst this
      exact h' a bne_iff

end

end TdZdd.Queens
