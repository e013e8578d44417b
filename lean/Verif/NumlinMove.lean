import Verif.NumlinReroute

/-! Moves that shorten or lower a line. -/

namespace TdZdd.Nl

variable {q : Board} {L L' : Links} {m n : Nat}

/-- the boundary of a unit square is toggled: the corners in cyclic order with the lines between them -/
structure Cyc (m n : Nat) (L L' : Links) (x0 x1 x2 x3 : Nat × Nat) (b01 b12 b23 b30 : Bool) : Prop where
  out : ∀ x, x ≠ x0 → x ≠ x1 → x ≠ x2 → x ≠ x3 → deg m n L' x = deg m n L x
  d0 : deg m n L' x0 + 2 * (b30.toNat + b01.toNat) = deg m n L x0 + 2
  d1 : deg m n L' x1 + 2 * (b01.toNat + b12.toNat) = deg m n L x1 + 2
  d2 : deg m n L' x2 + 2 * (b12.toNat + b23.toNat) = deg m n L x2 + 2
  d3 : deg m n L' x3 + 2 * (b23.toNat + b30.toNat) = deg m n L x3 + 2
  n01 : x0 ≠ x1
  n02 : x0 ≠ x2
  n03 : x0 ≠ x3
  n12 : x1 ≠ x2
  n13 : x1 ≠ x3
  n23 : x2 ≠ x3
  new : ∀ P : Nat × Nat → Prop, (b01 = false → P x0 ∧ P x1) → (b12 = false → P x1 ∧ P x2) → (b23 = false → P x2 ∧ P x3) → (b30 = false → P x3 ∧ P x0) →
    ∀ x y, Adj m n L' x y → Adj m n L x y ∨ (P x ∧ P y)
  old : ∀ P : Nat × Nat → Prop, (b01 = true → P x0 ∧ P x1) → (b12 = true → P x1 ∧ P x2) → (b23 = true → P x2 ∧ P x3) → (b30 = true → P x3 ∧ P x0) →
    ∀ x y, Adj m n L x y → Adj m n L' x y ∨ (P x ∧ P y)
  a01 : b01 = true → Adj m n L x0 x1
  a12 : b12 = true → Adj m n L x1 x2
  a23 : b23 = true → Adj m n L x2 x3
  a30 : b30 = true → Adj m n L x3 x0
  c01 : b01 = false → Adj m n L' x0 x1
  c12 : b12 = false → Adj m n L' x1 x2
  c23 : b23 = false → Adj m n L' x2 x3
  c30 : b30 = false → Adj m n L' x3 x0
  o0 : x0.1 < m ∧ x0.2 < n
  o1 : x1.1 < m ∧ x1.2 < n
  o2 : x2.1 < m ∧ x2.2 < n
  o3 : x3.1 < m ∧ x3.2 < n

variable {x0 x1 x2 x3 : Nat × Nat} {b01 b12 b23 b30 : Bool}

theorem Cyc.rot (h : Cyc m n L L' x0 x1 x2 x3 b01 b12 b23 b30) : Cyc m n L L' x1 x2 x3 x0 b12 b23 b30 b01 :=
  ⟨fun x h0 h1 h2 h3 => h.out x h3 h0 h1 h2, h.d1, h.d2, h.d3, h.d0, h.n12, h.n13, h.n01.symm, h.n23, h.n02.symm, h.n03.symm,
    fun P p0 p1 p2 p3 => h.new P p3 p0 p1 p2, fun P p0 p1 p2 p3 => h.old P p3 p0 p1 p2, h.a12, h.a23, h.a30, h.a01, h.c12, h.c23, h.c30, h.c01, h.o1, h.o2, h.o3, h.o0⟩

theorem IsSolution.deg_le (hS : IsSolution q L) {x : Nat × Nat} (hx : x.1 < q.rows ∧ x.2 < q.cols) : deg q.rows q.cols L x ≤ 2 ∧ (deg q.rows q.cols L x = 2 → q.num x = 0) ∧ (deg q.rows q.cols L x = 0 → q.num x = 0) := by
  by_cases h : q.num x = 0
  · have : deg q.rows q.cols L x = 0 ∨ deg q.rows q.cols L x = 2 := hS.other x.1 x.2 hx.1 hx.2 h
    exact ⟨by omega, fun _ => h, fun _ => h⟩
  · have : deg q.rows q.cols L x = 1 := hS.number x.1 x.2 hx.1 hx.2 h
    exact ⟨by omega, fun _ => by omega, fun _ => by omega⟩

/-- `□` does not occur. -/
theorem Cyc.four (hS : IsSolution q L) (h : Cyc q.rows q.cols L L' x0 x1 x2 x3 true true true true) : False := by
  have e0 := h.d0; have e1 := h.d1; have e2 := h.d2; have e3 := h.d3
  simp only [Bool.toNat_true] at e0 e1 e2 e3
  have f0 := (hS.deg_le h.o0).1; have f1 := (hS.deg_le h.o1).1; have f2 := (hS.deg_le h.o2).1; have f3 := (hS.deg_le h.o3).1
  obtain ⟨y, hy, hy0⟩ := hS.noLoop x0.1 x0.2 h.o0.1 h.o0.2 (show deg q.rows q.cols L x0 ≠ 0 by omega)
  have hc : ∀ x, (x = x0 ∨ x = x1 ∨ x = x2 ∨ x = x3) → deg q.rows q.cols L' x = 0 := by
    rintro x (rfl | rfl | rfl | rfl) <;> omega
  have : y = x0 ∨ y = x1 ∨ y = x2 ∨ y = x3 := hy.stay (P := fun y => y = x0 ∨ y = x1 ∨ y = x2 ∨ y = x3) (fun x y hx hxy => by
    rcases h.old (fun y => y = x0 ∨ y = x1 ∨ y = x2 ∨ y = x3) (fun _ => ⟨.inl rfl, .inr (.inl rfl)⟩) (fun _ => ⟨.inr (.inl rfl), .inr (.inr (.inl rfl))⟩)
      (fun _ => ⟨.inr (.inr (.inl rfl)), .inr (.inr (.inr rfl))⟩) (fun _ => ⟨.inr (.inr (.inr rfl)), .inl rfl⟩) x y hxy with g | g
    · exact absurd g (no_adj_of_deg (hc x hx))
    · exact g.2) (.inl rfl)
  rcases this with rfl | rfl | rfl | rfl
  · exact hy0 ((hS.deg_le h.o0).2.1 (by omega))
  · exact hy0 ((hS.deg_le h.o1).2.1 (by omega))
  · exact hy0 ((hS.deg_le h.o2).2.1 (by omega))
  · exact hy0 ((hS.deg_le h.o3).2.1 (by omega))

/-- Three sides are replaced by the fourth. -/
theorem Cyc.three (hS : IsSolution q L) (h : Cyc q.rows q.cols L L' x0 x1 x2 x3 true true true false) : IsSolution q L' := by
  have e0 := h.d0; have e1 := h.d1; have e2 := h.d2; have e3 := h.d3
  simp only [Bool.toNat_true, Bool.toNat_false] at e0 e1 e2 e3
  have f1 := (hS.deg_le h.o1).1; have f2 := (hS.deg_le h.o2).1
  have a := h.a01 rfl
  refine hS.reroute (s := x0) (t := x3) (B := fun x => x = x1 ∨ x = x2) (C := fun _ => False) (fun x hB _ => ?_) ?_ ?_ (fun _ => False.elim) ?_ ?_ ?_ ?_ (fun _ => False.elim) h.o0 ?_ ?_
  · by_cases g0 : x = x0
    · subst g0; omega
    · by_cases g3 : x = x3
      · subst g3; omega
      · exact h.out x g0 (fun g => hB (.inl g)) (fun g => hB (.inr g)) g3
  · rintro x (rfl | rfl) <;> omega
  · rintro x (rfl | rfl)
    · exact h.o1
    · exact h.o2
  · exact h.new _ (fun g => nomatch g) (fun g => nomatch g) (fun g => nomatch g) (fun _ => ⟨.inr (.inr rfl), .inr (.inl rfl)⟩)
  · exact h.old _ (fun _ => ⟨.inr (.inl rfl), .inl (.inl rfl)⟩) (fun _ => ⟨.inl (.inl rfl), .inl (.inr rfl)⟩) (fun _ => ⟨.inl (.inr rfl), .inr (.inr rfl)⟩) (fun g => nomatch g)
  · exact .tail (.tail (.one a) (h.a12 rfl)) (h.a23 rfl)
  · exact .one (adj_symm _ _ (h.c30 rfl))
  · exact fun g => no_adj_of_deg g a
  · rintro (g | g)
    · exact h.n01 g
    · exact h.n02 g

/-- Two sides are replaced by the other two if the fourth corner is blank. -/
theorem Cyc.two (hS : IsSolution q L) (h : Cyc q.rows q.cols L L' x0 x1 x2 x3 true true false false) (h3 : deg q.rows q.cols L x3 = 0) : IsSolution q L' := by
  have e0 := h.d0; have e1 := h.d1; have e2 := h.d2; have e3 := h.d3
  simp only [Bool.toNat_true, Bool.toNat_false] at e0 e1 e2 e3
  have f1 := (hS.deg_le h.o1).1
  have a := h.a01 rfl
  refine hS.reroute (s := x0) (t := x2) (B := fun x => x = x1) (C := fun x => x = x3) (fun x hB hC => ?_) ?_ ?_ ?_ ?_ ?_ ?_ ?_ ?_ h.o0 ?_ h.n01
  · by_cases g0 : x = x0
    · subst g0; omega
    · by_cases g2 : x = x2
      · subst g2; omega
      · exact h.out x g0 hB g2 hC
  · rintro x rfl; omega
  · rintro x rfl; exact h.o1
  · rintro x rfl; exact ⟨h3, by omega, (hS.deg_le h.o3).2.2 h3⟩
  · exact h.new _ (fun g => nomatch g) (fun g => nomatch g) (fun _ => ⟨.inr (.inr rfl), .inl rfl⟩) (fun _ => ⟨.inl rfl, .inr (.inl rfl)⟩)
  · exact h.old _ (fun _ => ⟨.inr (.inl rfl), .inl rfl⟩) (fun _ => ⟨.inl rfl, .inr (.inr rfl)⟩) (fun g => nomatch g) (fun g => nomatch g)
  · exact .tail (.one a) (h.a12 rfl)
  · exact .tail (.one (adj_symm _ _ (h.c30 rfl))) (adj_symm _ _ (h.c23 rfl))
  · rintro x rfl; exact .one (adj_symm _ _ (h.c30 rfl))
  · exact fun g => no_adj_of_deg g a

section unit
variable {i j : Nat} (hi : i + 1 < m) (hj : j + 1 < n)
include hi hj

theorem cyc_tog : Cyc m n L (tog L i j (j + 1)) (i, j) (i, j + 1) (i + 1, j + 1) (i + 1, j) (L.h i j) (L.v i (j + 1)) (L.h (i + 1) j) (L.v i j) := by
  have lt : j < j + 1 := Nat.lt_succ_self j
  have w0 := deg_west (L := L) hi lt hj (r := i) (.inl rfl)
  have w1 := deg_west (L := L) hi lt hj (r := i + 1) (.inr rfl)
  have e0 := deg_east (L := L) hi lt hj (r := i) (.inl rfl)
  have e1 := deg_east (L := L) hi lt hj (r := i + 1) (.inr rfl)
  rw [Nat.add_sub_cancel] at e0 e1
  have tt : ∀ {b : Bool}, b = false → (!b) = true := fun h => by rw [h]; rfl
  have t1 : L.h i j = false → (tog L i j (j + 1)).h i j = true := fun g => (tog_h_in ⟨.inl rfl, Nat.le_refl _, lt⟩).trans (tt g)
  have t2 : L.h (i + 1) j = false → (tog L i j (j + 1)).h (i + 1) j = true := fun g => (tog_h_in ⟨.inr rfl, Nat.le_refl _, lt⟩).trans (tt g)
  have t3 : L.v i j = false → (tog L i j (j + 1)).v i j = true := fun g => (tog_v_in ⟨rfl, .inl rfl⟩).trans (tt g)
  have t4 : L.v i (j + 1) = false → (tog L i j (j + 1)).v i (j + 1) = true := fun g => (tog_v_in ⟨rfl, .inr rfl⟩).trans (tt g)
  refine ⟨fun x h0 h1 h2 h3 => deg_out (by omega) ?_, by omega, by omega, by omega, by omega, ?_, ?_, ?_, ?_, ?_, ?_, fun P p0 p1 p2 p3 x y => ?_, fun P p0 p1 p2 p3 x y => ?_,
    fun g => .right (by omega) hj g, fun g => .down hi (by omega) g, fun g => .left hi hj g, fun g => .up hi (by omega) g,
    fun g => .right (by omega) hj (t1 g), fun g => .down hi (by omega) (t4 g), fun g => .left hi hj (t2 g), fun g => .up hi (by omega) (t3 g), ?_, ?_, ?_, ?_⟩
  · obtain ⟨r, c⟩ := x
    rintro ⟨g1, g2⟩
    simp only [ne_eq, Prod.mk.injEq] at h0 h1 h2 h3 g1 g2
    omega
  all_goals first | (simp only [ne_eq, Prod.mk.injEq]; omega) | skip
  · refine tog_adj (fun r c hr hc hc' g => ?_) (fun c hc g => ?_)
    · obtain rfl : c = j := by omega
      rcases hr with rfl | rfl
      · exact p0 g
      · exact (p2 g).symm
    · rcases hc with rfl | rfl
      · exact (p3 g).symm
      · exact p1 g
  · refine adj_tog (fun r c hr hc hc' g => ?_) (fun c hc g => ?_)
    · obtain rfl : c = j := by omega
      rcases hr with rfl | rfl
      · exact p0 g
      · exact (p2 g).symm
    · rcases hc with rfl | rfl
      · exact (p3 g).symm
      · exact p1 g
  all_goals (dsimp only; omega)

end unit

/-- A roof is lowered by one row if there is no number below it. -/
theorem roof_lower (hS : IsSolution q L) {i p e : Nat} (hi : i + 1 < q.rows) (hpe : p < e) (he : e < q.cols) (h1 : L.v i p = true) (h2 : L.v i e = true)
    (h3 : ∀ c, p ≤ c → c < e → L.h i c = true ∧ L.h (i + 1) c = false) (h4 : ∀ c, p < c → c < e → q.num (i + 1, c) = 0) : IsSolution q (tog L i p e) := by
  have wt := deg_west (L := L) hi hpe he (r := i) (.inl rfl)
  have wb := deg_west (L := L) hi hpe he (r := i + 1) (.inr rfl)
  have et := deg_east (L := L) hi hpe he (r := i) (.inl rfl)
  have eb := deg_east (L := L) hi hpe he (r := i + 1) (.inr rfl)
  rw [(h3 p (Nat.le_refl _) hpe).1, h1] at wt
  rw [(h3 p (Nat.le_refl _) hpe).2, h1] at wb
  rw [(h3 (e - 1) (by omega) (by omega)).1, h2] at et
  rw [(h3 (e - 1) (by omega) (by omega)).2, h2] at eb
  simp only [Bool.toNat_true, Bool.toNat_false] at wt wb et eb
  have top : ∀ c, p ≤ c → c ≤ e → deg q.rows q.cols (tog L i p e) (i, c) = 0 ∧ deg q.rows q.cols L (i, c) = 2 := fun c hc hc' => by
    have f := (hS.deg_le (x := (i, c)) ⟨by dsimp only; omega, by dsimp only; omega⟩).1
    by_cases g1 : c = p
    · subst g1; omega
    · by_cases g2 : c = e
      · subst g2; omega
      · have := deg_inner (L := L) hi hpe he (r := i) (c := c) (.inl rfl) (by omega) (by omega)
        rw [(h3 c hc (by omega)).1, (h3 (c - 1) (by omega) (by omega)).1] at this
        simp only [Bool.toNat_true] at this
        omega
  have bot : ∀ c, p < c → c < e → deg q.rows q.cols L (i + 1, c) = 0 ∧ deg q.rows q.cols (tog L i p e) (i + 1, c) = 2 := fun c hc hc' => by
    have ht := deg_inner (L := L) hi hpe he (r := i + 1) (c := c) (.inr rfl) hc hc'
    rw [(h3 c (by omega) hc').2, (h3 (c - 1) (by omega) (by omega)).2] at ht
    simp only [Bool.toNat_false] at ht
    have hv : L.v i c = false := by
      cases g : L.v i c
      · rfl
      · have hd := (top c (by omega) (by omega)).2
        unfold deg at hd
        dsimp only at hd
        rw [if_pos ⟨by omega, (h3 (c - 1) (by omega) (by omega)).1⟩, if_pos ⟨by omega, (h3 c (by omega) hc').1⟩, if_pos (⟨hi, g⟩ : i + 1 < q.rows ∧ L.v i c = true)] at hd
        omega
    have hle : deg q.rows q.cols L (i + 1, c) ≤ 1 := by
      unfold deg
      dsimp only
      rw [if_neg (fun g => by rw [(h3 (c - 1) (by omega) (by omega)).2] at g; exact Bool.false_ne_true g.2), if_neg (fun g => by rw [(h3 c (by omega) hc').2] at g; exact Bool.false_ne_true g.2),
        if_neg (fun g => by rw [Nat.add_sub_cancel, hv] at g; exact Bool.false_ne_true g.2)]
      split <;> omega
    have := hS.other (i + 1) c hi (by omega) (h4 c hc hc')
    omega
  have ctop : ∀ d, p + d ≤ e → Conn (Adj q.rows q.cols L) (i + 1, p) (i, p + d) := fun d => by
    induction d with
    | zero => exact fun _ => .one (.up hi (by omega) h1)
    | succ d ih => exact fun hd => .tail (ih (by omega)) (.right (by omega) (by omega) (h3 (p + d) (by omega) (by omega)).1)
  have cbot : ∀ d, p + d ≤ e → Conn (Adj q.rows q.cols (tog L i p e)) (i + 1, p) (i + 1, p + d) := fun d => by
    induction d with
    | zero => exact fun _ => .refl
    | succ d ih =>
      intro hd
      refine .tail (ih (by omega)) (.right hi (by omega) ?_)
      rw [tog_h_in ⟨.inr rfl, by omega, by omega⟩, (h3 (p + d) (by omega) (by omega)).2]
      rfl
  refine hS.reroute (s := (i + 1, p)) (t := (i + 1, e)) (B := fun x => x.1 = i ∧ p ≤ x.2 ∧ x.2 ≤ e) (C := fun x => x.1 = i + 1 ∧ p < x.2 ∧ x.2 < e) (fun x hB hC => ?_) ?_ ?_ ?_ ?_ ?_ ?_ ?_ ?_ ?_ ?_ ?_
  · obtain ⟨r, c⟩ := x
    dsimp only at hB hC
    by_cases g : (r = i ∨ r = i + 1) ∧ p ≤ c ∧ c ≤ e
    · have gr : r = i + 1 := by omega
      subst gr
      rcases (by omega : c = p ∨ c = e) with rfl | rfl <;> omega
    · exact deg_out (by omega) g
  · rintro ⟨r, c⟩ ⟨rfl, hc, hc'⟩; exact top c hc hc'
  · rintro ⟨r, c⟩ ⟨rfl, hc, hc'⟩; dsimp only at hc hc' hi ⊢; omega
  · rintro ⟨r, c⟩ ⟨rfl, hc, hc'⟩; exact ⟨(bot c hc hc').1, (bot c hc hc').2, h4 c hc hc'⟩
  · intro x y
    refine tog_adj (P := fun x => (x.1 = i + 1 ∧ p < x.2 ∧ x.2 < e) ∨ x = (i + 1, p) ∨ x = (i + 1, e)) (fun r c hr hc hc' g => ?_) (fun c hc g => ?_)
    · rcases hr with rfl | rfl
      · rw [(h3 c hc hc').1] at g; exact nomatch g
      · simp only [Prod.mk.injEq, true_and]; omega
    · rcases hc with rfl | rfl
      · rw [h1] at g; exact nomatch g
      · rw [h2] at g; exact nomatch g
  · intro x y
    refine adj_tog (P := fun x => (x.1 = i ∧ p ≤ x.2 ∧ x.2 ≤ e) ∨ x = (i + 1, p) ∨ x = (i + 1, e)) (fun r c hr hc hc' g => ?_) (fun c hc g => ?_)
    · rcases hr with rfl | rfl
      · simp only [Prod.mk.injEq, true_and]; omega
      · rw [(h3 c hc hc').2] at g; exact nomatch g
    · simp only [Prod.mk.injEq, true_and]; omega
  · have := ctop (e - p) (by omega)
    rw [show p + (e - p) = e by omega] at this
    exact .tail this (.down hi he h2)
  · have := cbot (e - p) (by omega)
    rw [show p + (e - p) = e by omega] at this
    exact this
  · rintro ⟨r, c⟩ ⟨rfl, hc, hc'⟩
    have := cbot (c - p) (by dsimp only at hc hc'; omega)
    rw [show p + (c - p) = c by dsimp only at hc; omega] at this
    exact this
  · exact ⟨hi, by dsimp only; omega⟩
  · exact fun g => no_adj_of_deg g (.up hi (by omega) h1)
  · rintro ⟨g, _⟩; dsimp only at g; omega

end TdZdd.Nl
