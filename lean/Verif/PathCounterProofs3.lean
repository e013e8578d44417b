import Verif.PathCounterProofs2
import Verif.CardinalityProofs

/-! Proofs about `PathCounter`: the number types of `count` and `count64`. -/

namespace TdZdd

open Big

variable {N : Nat} {S : Type} {sp : DdSpec N S}

theorem canon_add {v u s t : Nat} (hv : Big.Canon v s) (hu : Big.Canon u t) (hs : 1 ≤ s) (ht : 1 ≤ t) :
    Big.Canon (v + u) (need (max s t) (v + u)) := by
  unfold need
  unfold Big.Canon at *
  split
  next h =>
    by_cases hst : t ≤ s
    · rw [Nat.max_eq_left hst]
      rcases hv with hv | hv
      · exact .inl hv
      · exact .inr (by omega)
    · rw [Nat.max_eq_right (by omega)]
      rcases hu with hu | hu
      · exact .inl hu
      · exact .inr (by omega)
  next h => exact .inr (by rw [Nat.add_sub_cancel]; omega)

theorem canon_le {v s len : Nat} (hv : Big.Canon v s) (h1 : 1 ≤ len) (h : v < 2 ^ (63 * len)) : s ≤ len := by
  rcases hv with hv | hv
  · omega
  · apply Classical.byContradiction
    intro hc
    have : 2 ^ (63 * len) ≤ 2 ^ (63 * (s - 1)) := Nat.pow_le_pow_right (by omega) (by omega)
    omega

theorem big_add {C th : Prop} {y x : List Nat} {a v s t : Nat} (hy : Num y a s) (cy : Big.Canon a s) (hx : Num x v t)
    (cx : Big.Canon v t) (h : C → a + v < 2 ^ (63 * y.length)) :
    Post (¬C, th) (bigOps.add y x) fun r => Num r.1 (a + v) r.2 ∧ Big.Canon (a + v) r.2 ∧ r.1.length = y.length := by
  show Post _ (Out.of (Big.add y x)) _
  have hg := add_spec hy hx
  have hy1 := hy.len
  have hs := hy.pos
  have ht := hx.pos
  by_cases hf : need (max s t) (a + v) ≤ y.length
  · obtain ⟨r, e, h1, h2, _⟩ := hg.fits hf
    rw [e]
    exact ⟨h1, canon_add cy cx hs ht, h2⟩
  · rw [hg.short (by omega)]
    intro hC
    have hb := h hC
    exact hf (need_le (by have := canon_le cx (len := y.length) (by omega) (by omega); omega) hb)

theorem big_store {C th : Prop} {x : List Nat} {v s cap : Nat} (hx : Num x v s) (h : C → s ≤ cap) :
    Post (¬C, th) (bigOps.store cap x) fun r => Num r v s ∧ r.length = cap := by
  show Post _ (Out.of ((Big.store (List.replicate cap 0) x).map (·.1))) _
  have hg := store_spec hx (List.replicate cap 0)
  by_cases hf : s ≤ cap
  · obtain ⟨r, e, h1, h2, _⟩ := hg.fits (by simpa using hf)
    rw [e]
    exact ⟨h1, by simpa using h2⟩
  · rw [hg.short (by simpa using hf)]
    exact fun hC => hf (h hC)

theorem big_isZero {u : Prop × Prop} {x : List Nat} {v s : Nat} (hx : Num x v s) (c : Big.Canon v s) :
    Post u (bigOps.isZero x) fun z => (z = true → v % 0 = 0) ∧ (z = false → 0 < v) := by
  show Post _ (Out.of (eqWord x 0)) _
  rw [eqWord_spec hx c (by decide)]
  show (decide (v = 0) = true → v % 0 = 0) ∧ (decide (v = 0) = false → 0 < v)
  rw [Nat.mod_zero]
  constructor
  · intro h; exact of_decide_eq_true h
  · intro h; have := of_decide_eq_false h; omega

/-- `total` is large enough, and so are the numbers: `i` and `ii` are the levels of a node and of its child. -/
structure PcSafe (sp : DdSpec N S) (n lim : Nat) : Prop where
  tot : N ^ n < 2 ^ (63 * (n / 63 + 1))
  edge : ∀ (i : Nat) (s : S) (b : Fin N) (ii : Nat), 0 < ii → ii < i → i ≤ n → Reach sp (i : Int) s → (sp.child s i b).1 = ii →
    N ^ (n - ii) < 2 ^ 126 ∨ n * max lim 1 * N ^ (i - ii) ≤ 2 ^ (63 * (1 + (i - ii) / 63))

/-- representation of `total` -/
def BigTot (n : Nat) (t : List Nat) (a : Nat) : Prop := (∃ s, Num t a s ∧ Big.Canon a s) ∧ t.length = n / 63 + 1

theorem bigTot_zero (n : Nat) : BigTot n (List.replicate (n / 63 + 1) 0) 0 :=
  ⟨⟨1, by rw [List.replicate_succ]; exact .last (by decide), .inl rfl⟩, by simp⟩

theorem bigTot_add {C th : Prop} {n : Nat} (hC : C → N ^ n < 2 ^ (63 * (n / 63 + 1))) {t x : List Nat} {a v s : Nat}
    (ht : BigTot n t a) (hx : Num x v s) (cx : Big.Canon v s) (h : a + v ≤ N ^ n) :
    Post (¬C, th) (bigOps.add t x) fun r => BigTot n r.1 (a + v) := by
  obtain ⟨⟨s', h1, h2⟩, h3⟩ := ht
  refine (big_add h1 h2 hx cx fun c => ?_).imp fun r hr => ⟨⟨_, hr.1, hr.2.1⟩, by rw [hr.2.2, h3]⟩
  rw [h3]; have := hC c; omega

theorem pcCount_post (hl : Lawful sp) (hN : 0 < N) {n : Nat} (h0 : 0 < n) (hroot : sp.root.1 = n) (lim : Nat) :
    Post (¬PcSafe sp n lim, lim < N ^ n) (pcRun (pcLevel bigOps sp (insUniq bigOps sp lim)) sp.root.2 n [1]
      (List.replicate (n / 63 + 1) 0)) fun t => BigTot n t (cntF sp n sp.root.2) := by
  have key := count_post (ops := bigOps) (T := BigTot n) (M := 0) (u := (¬PcSafe sp n lim, lim < N ^ n)) hl hN h0 hroot lim
    (one := [1]) (zero := List.replicate (n / 63 + 1) 0)
    (R := fun B w j x v => ∃ s, Num x v s ∧ Big.Canon v s ∧ (PcSafe sp n lim → s ≤ w ∧ B < 2 ^ (63 * x.length) * N ^ j))
    ?_ (bigTot_zero n) ?_ ?_ ?_ (fun h => h) ?_ ?_
  · refine key.imp fun t h => ?_
    obtain ⟨v, hv, e⟩ := h
    rw [Nat.mod_zero, Nat.mod_zero] at e
    rwa [← e]
  · refine ⟨1, .last (by decide), .inl rfl, fun _ => ⟨Nat.le_refl _, ?_⟩⟩
    have : 0 < N ^ n := Nat.pow_pos hN
    show N ^ n < 2 ^ 63 * N ^ n
    omega
  · rintro B B' w w' j x v hB hw ⟨s, h1, h2, h3⟩
    exact ⟨s, h1, h2, fun c => ⟨Nat.le_trans (h3 c).1 hw, Nat.lt_of_le_of_lt hB (h3 c).2⟩⟩
  · rintro B W w i ii y a x v ⟨s, h1, h2, h3⟩ ⟨t, h4, h5, h6⟩ _ hb
    refine (big_add h1 h2 h4 h5 fun c => ?_).imp fun r hr => ⟨r.2, hr.1, hr.2.1, fun c => ⟨Nat.le_max_right .., ?_⟩⟩
    · exact Nat.lt_of_mul_lt_mul_right (a := N ^ ii) (Nat.lt_of_le_of_lt hb (h3 c).2)
    · rw [hr.2.2]; exact (h3 c).2
  · rintro B W w i ii x v hii0 hii hin ⟨s', b, hr, hc⟩ hW hw hB hV ⟨s, h1, h2, h3⟩
    refine (big_store (C := PcSafe sp n lim) h1 fun c => ?_).imp fun r hr' => ⟨s, hr'.1, h2, fun c => ⟨?_, ?_⟩⟩
    · have := (h3 c).1; omega
    · have := (h3 c).1; omega
    · rw [hr'.2]
      rcases c.edge i s' b ii hii0 hii hin hr hc with h | h
      · have e : N ^ n = N ^ (n - ii) * N ^ ii := by rw [← Nat.pow_add]; congr 1; omega
        have h5 : (2 : Nat) ^ 126 ≤ 2 ^ (63 * (W + 1 + (i - ii) / 63)) := Nat.pow_le_pow_right (by omega) (by
          have : 63 * 2 ≤ 63 * (W + 1 + (i - ii) / 63) := Nat.mul_le_mul_left _ (by omega)
          omega)
        have h6 : N ^ (n - ii) * N ^ ii < 2 ^ (63 * (W + 1 + (i - ii) / 63)) * N ^ ii :=
          Nat.mul_lt_mul_of_pos_right (Nat.lt_of_lt_of_le h h5) (Nat.pow_pos hN)
        omega
      · have h4 := hV (2 ^ (63 * W) - 1) (by
          rintro j x v ⟨s, k1, k2, k3⟩
          have k4 := k1.lt
          have k5 : 2 ^ (63 * s) ≤ 2 ^ (63 * W) := Nat.pow_le_pow_right (by omega) (Nat.mul_le_mul_left _ (k3 c).1)
          omega)
        obtain ⟨V, hV'⟩ : ∃ V, V = 2 ^ (63 * W) - 1 := ⟨_, rfl⟩
        have hV2 : V < 2 ^ (63 * W) := by have : 0 < 2 ^ (63 * W) := Nat.pow_pos (by omega); omega
        rw [← hV'] at h4
        have e : N ^ i = N ^ (i - ii) * N ^ ii := by rw [← Nat.pow_add]; congr 1; omega
        have e2 : 2 ^ (63 * (W + 1 + (i - ii) / 63)) = 2 ^ (63 * W) * 2 ^ (63 * (1 + (i - ii) / 63)) := by
          rw [← Nat.pow_add]; congr 1; omega
        have h5 : i * max lim 1 * (V * N ^ i) ≤ n * max lim 1 * N ^ (i - ii) * V * N ^ ii := by
          have : i * max lim 1 * (V * N ^ i) = i * (max lim 1 * (N ^ (i - ii) * V * N ^ ii)) := by rw [e]; ac_rfl
          rw [this]
          refine Nat.le_trans (Nat.mul_le_mul_right _ hin) (Nat.le_of_eq ?_)
          ac_rfl
        have h6 : n * max lim 1 * N ^ (i - ii) * V * N ^ ii ≤ 2 ^ (63 * (1 + (i - ii) / 63)) * V * N ^ ii :=
          Nat.mul_le_mul_right _ (Nat.mul_le_mul_right _ h)
        have h7 : 2 ^ (63 * (1 + (i - ii) / 63)) * V * N ^ ii < 2 ^ (63 * (1 + (i - ii) / 63)) * 2 ^ (63 * W) * N ^ ii :=
          Nat.mul_lt_mul_of_pos_right (Nat.mul_lt_mul_of_pos_left hV2 (Nat.pow_pos (by omega))) (Nat.pow_pos hN)
        rw [e2, Nat.mul_comm (2 ^ (63 * W))]
        omega
  · rintro B w i t a x v ht ⟨s, h1, h2, _⟩ hb
    exact bigTot_add (fun c => c.tot) ht h1 h2 hb
  · rintro B w i x v ⟨s, h1, h2, _⟩ _
    exact (big_isZero h1 h2).imp fun z hz => hz.1

theorem pcCount64_post (hl : Lawful sp) (hN : 0 < N) {n : Nat} (h0 : 0 < n) (hroot : sp.root.1 = n) (lim : Nat) :
    Post (False, lim < N ^ n) (pcRun (pcLevel ops64 sp (insUniq ops64 sp lim)) sp.root.2 n 1 0)
      fun t => t = cntF sp n sp.root.2 % 2 ^ 64 := by
  have key := count_post (ops := ops64) (T := fun t v => t = v % 2 ^ 64) (M := 2 ^ 64) (u := (False, lim < N ^ n)) hl hN h0 hroot lim
    (one := 1) (zero := 0) (R := fun _ _ _ x v => x = v % 2 ^ 64) rfl rfl ?_ ?_ ?_ (fun h => h) ?_ ?_
  · refine key.imp fun t h => ?_
    obtain ⟨v, hv, e⟩ := h
    rw [hv, e]
  · rintro B B' w w' j x v _ _ h; exact h
  · rintro B W w i ii y a x v rfl rfl _ _
    show (a % 2 ^ 64 + v % 2 ^ 64) % 2 ^ 64 = _
    rw [← Nat.add_mod]
  · rintro B W w i ii x v _ _ _ _ _ _ _ _ h; exact h
  · rintro B w i t a x v rfl rfl _
    show (a % 2 ^ 64 + v % 2 ^ 64) % 2 ^ 64 = _
    rw [← Nat.add_mod]
  · rintro B w i x v rfl _
    intro h; exact of_decide_eq_true h

end TdZdd
