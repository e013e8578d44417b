import Verif.NumlinTidy3

/-! Rerouting a line of a solution. -/

namespace TdZdd.Nl

set_option linter.unusedSectionVars false

variable {m n : Nat} {q : Board} {L L' : Links}

/-- One direction of the rerouting: boxes of `C` are new, the new steps stay within `C` and the two ends. -/
theorem conn_reroute {s t : Nat × Nat} {C : Nat × Nat → Prop} (hC : ∀ x, C x → deg m n L x = 0)
    (hnew : ∀ x y, Adj m n L' x y → Adj m n L x y ∨ ((C x ∨ x = s ∨ x = t) ∧ (C y ∨ y = s ∨ y = t)))
    (hst : Conn (Adj m n L) s t) {x y : Nat × Nat} (h : Conn (Adj m n L') x y) (hx : ¬ C x) (hy : ¬ C y) : Conn (Adj m n L) x y := by
  have hts := hst.symm adj_symm
  have key : ∀ {y}, Conn (Adj m n L') x y → (¬ C y ∧ Conn (Adj m n L) x y) ∨ (C y ∧ Conn (Adj m n L) x s) := fun {y} h => by
    induction h with
    | refl => exact .inl ⟨hx, .refl⟩
    | tail _ hyz ih =>
      rename_i y z _
      rcases hnew _ _ hyz with g | ⟨g1, g2⟩
      · rcases ih with ⟨_, ih⟩ | ⟨ih, _⟩
        · refine .inl ⟨fun hz => no_adj_of_deg (hC _ hz) (adj_symm _ _ g), .tail ih g⟩
        · exact absurd g (no_adj_of_deg (hC _ ih))
      · have hs : Conn (Adj m n L) x s := by
          rcases ih with ⟨h1, ih⟩ | ⟨_, ih⟩
          · rcases g1 with g1 | g1 | g1
            · exact absurd g1 h1
            · exact g1 ▸ ih
            · exact ih.trans (g1 ▸ hts)
          · exact ih
        by_cases hz : C z
        · exact .inr ⟨hz, hs⟩
        · rcases g2 with g2 | g2 | g2
          · exact absurd g2 hz
          · exact .inl ⟨hz, g2 ▸ hs⟩
          · exact .inl ⟨hz, g2 ▸ hs.trans hst⟩
  rcases key h with ⟨_, h⟩ | ⟨h, _⟩
  · exact h
  · exact absurd h hy

/-- A path through the boxes `B` from `s` to `t` is replaced by one through the blank boxes `C`. -/
theorem IsSolution.reroute (hS : IsSolution q L) {s t : Nat × Nat} {B C : Nat × Nat → Prop}
    (hdeg : ∀ x, ¬ B x → ¬ C x → deg q.rows q.cols L' x = deg q.rows q.cols L x)
    (hB : ∀ x, B x → deg q.rows q.cols L' x = 0 ∧ deg q.rows q.cols L x = 2)
    (hBb : ∀ x, B x → x.1 < q.rows ∧ x.2 < q.cols)
    (hC : ∀ x, C x → deg q.rows q.cols L x = 0 ∧ deg q.rows q.cols L' x = 2 ∧ q.num x = 0)
    (hnew : ∀ x y, Adj q.rows q.cols L' x y → Adj q.rows q.cols L x y ∨ ((C x ∨ x = s ∨ x = t) ∧ (C y ∨ y = s ∨ y = t)))
    (hold : ∀ x y, Adj q.rows q.cols L x y → Adj q.rows q.cols L' x y ∨ ((B x ∨ x = s ∨ x = t) ∧ (B y ∨ y = s ∨ y = t)))
    (hst : Conn (Adj q.rows q.cols L) s t) (hst' : Conn (Adj q.rows q.cols L') s t) (hCs : ∀ x, C x → Conn (Adj q.rows q.cols L') s x)
    (hs : s.1 < q.rows ∧ s.2 < q.cols) (hs0 : deg q.rows q.cols L s ≠ 0) (hsB : ¬ B s) : IsSolution q L' := by
  have hBn : ∀ x, B x → q.num x = 0 := fun x hx => Classical.byContradiction fun h => by
    have h1 := (hB x hx).2
    have h2 : deg q.rows q.cols L x = 1 := hS.number x.1 x.2 (hBb x hx).1 (hBb x hx).2 h
    omega
  have back : ∀ {x y}, Conn (Adj q.rows q.cols L) x y → ¬ B x → ¬ B y → Conn (Adj q.rows q.cols L') x y := fun h hx hy =>
    conn_reroute (fun x hx => (hB x hx).1) hold hst' h hx hy
  refine ⟨fun i j hi hj hn => ?_, fun i j hi hj hn => ?_, fun i j hi hj hd => ?_, fun x y h hx hy => ?_⟩
  · rw [hdeg (i, j) (fun h => hn (hBn _ h)) (fun h => hn (hC _ h).2.2)]
    exact hS.number i j hi hj hn
  · by_cases h1 : B (i, j)
    · exact .inl (hB _ h1).1
    · by_cases h2 : C (i, j)
      · exact .inr (hC _ h2).2.1
      · rw [hdeg _ h1 h2]; exact hS.other i j hi hj hn
  · have h1 : ¬ B (i, j) := fun h => hd (hB _ h).1
    by_cases h2 : C (i, j)
    · obtain ⟨y, hy, hy0⟩ := hS.noLoop s.1 s.2 hs.1 hs.2 hs0
      exact ⟨y, ((hCs _ h2).symm adj_symm).trans (back hy hsB fun h => hy0 (hBn _ h)), hy0⟩
    · rw [hdeg _ h1 h2] at hd
      obtain ⟨y, hy, hy0⟩ := hS.noLoop i j hi hj hd
      exact ⟨y, back hy h1 fun h => hy0 (hBn _ h), hy0⟩
  · exact hS.same x y (conn_reroute (fun x hx => (hC x hx).1) hnew hst h (fun h => hx (hC _ h).2.2) (fun h => hy (hC _ h).2.2)) hx hy

/-- the boundary of the rectangle of rows `i, i + 1` and columns `p .. e` is toggled -/
def tog (L : Links) (i p e : Nat) : Links :=
  ⟨fun r c => if (r = i ∨ r = i + 1) ∧ p ≤ c ∧ c < e then !L.h r c else L.h r c, fun r c => if r = i ∧ (c = p ∨ c = e) then !L.v r c else L.v r c⟩

section tog
variable {i p e : Nat}

theorem tog_h_in {r c : Nat} (h : (r = i ∨ r = i + 1) ∧ p ≤ c ∧ c < e) : (tog L i p e).h r c = !L.h r c := if_pos h
theorem tog_h_out {r c : Nat} (h : ¬ ((r = i ∨ r = i + 1) ∧ p ≤ c ∧ c < e)) : (tog L i p e).h r c = L.h r c := if_neg h
theorem tog_v_in {r c : Nat} (h : r = i ∧ (c = p ∨ c = e)) : (tog L i p e).v r c = !L.v r c := if_pos h
theorem tog_v_out {r c : Nat} (h : ¬ (r = i ∧ (c = p ∨ c = e))) : (tog L i p e).v r c = L.v r c := if_neg h

theorem tog_tog : tog (tog L i p e) i p e = L := by
  obtain ⟨h, v⟩ := L
  unfold tog
  congr 1
  · funext r c
    dsimp only
    split <;> simp
  · funext r c
    dsimp only
    split <;> simp

theorem flip_eq {P : Prop} [Decidable P] (hP : P) (b : Bool) : (if P ∧ b = true then 1 else 0) = b.toNat := by cases b <;> simp [hP]
theorem flip_not {P : Prop} [Decidable P] (hP : P) (b : Bool) : (if P ∧ (!b) = true then 1 else 0) + b.toNat = 1 := by cases b <;> simp [hP]

theorem deg_out {x : Nat × Nat} (hpe : p ≤ e) (h : ¬ ((x.1 = i ∨ x.1 = i + 1) ∧ p ≤ x.2 ∧ x.2 ≤ e)) : deg m n (tog L i p e) x = deg m n L x := by
  unfold deg
  have e1 : (0 < x.2 ∧ (tog L i p e).h x.1 (x.2 - 1) = true) ↔ (0 < x.2 ∧ L.h x.1 (x.2 - 1) = true) := and_congr_right fun g => by rw [tog_h_out (by omega)]
  have e2 : (x.2 + 1 < n ∧ (tog L i p e).h x.1 x.2 = true) ↔ (x.2 + 1 < n ∧ L.h x.1 x.2 = true) := and_congr_right fun g => by rw [tog_h_out (by omega)]
  have e3 : (0 < x.1 ∧ (tog L i p e).v (x.1 - 1) x.2 = true) ↔ (0 < x.1 ∧ L.v (x.1 - 1) x.2 = true) := and_congr_right fun g => by rw [tog_v_out (by omega)]
  have e4 : (x.1 + 1 < m ∧ (tog L i p e).v x.1 x.2 = true) ↔ (x.1 + 1 < m ∧ L.v x.1 x.2 = true) := and_congr_right fun g => by rw [tog_v_out (by omega)]
  rw [iteEq e1, iteEq e2, iteEq e3, iteEq e4]

variable (hi : i + 1 < m) (hpe : p < e) (he : e < n)
include hi hpe he

/-- west corners -/
theorem deg_west {r : Nat} (hr : r = i ∨ r = i + 1) : deg m n (tog L i p e) (r, p) + 2 * ((L.h r p).toNat + (L.v i p).toNat) = deg m n L (r, p) + 2 := by
  unfold deg
  dsimp only
  have e1 : (0 < p ∧ (tog L i p e).h r (p - 1) = true) ↔ (0 < p ∧ L.h r (p - 1) = true) := and_congr_right fun g => by rw [tog_h_out (by omega)]
  have e2 := flip_not (P := p + 1 < n) (by omega) (L.h r p)
  have e2' := flip_eq (P := p + 1 < n) (by omega) (L.h r p)
  rw [iteEq e1, tog_h_in ⟨hr, Nat.le_refl _, hpe⟩, e2']
  rcases hr with rfl | rfl
  · have e3 : (0 < r ∧ (tog L r p e).v (r - 1) p = true) ↔ (0 < r ∧ L.v (r - 1) p = true) := and_congr_right fun g => by rw [tog_v_out (by omega)]
    have e4 := flip_not (P := r + 1 < m) hi (L.v r p)
    rw [iteEq e3, tog_v_in ⟨rfl, .inl rfl⟩, flip_eq hi (L.v r p)]
    omega
  · have e3 : (i + 1 + 1 < m ∧ (tog L i p e).v (i + 1) p = true) ↔ (i + 1 + 1 < m ∧ L.v (i + 1) p = true) := and_congr_right fun g => by rw [tog_v_out (by omega)]
    have e4 := flip_not (P := 0 < i + 1) (by omega) (L.v i p)
    rw [iteEq e3, Nat.add_sub_cancel, tog_v_in ⟨rfl, .inl rfl⟩, flip_eq (Nat.succ_pos i) (L.v i p)]
    omega

/-- east corners -/
theorem deg_east {r : Nat} (hr : r = i ∨ r = i + 1) : deg m n (tog L i p e) (r, e) + 2 * ((L.h r (e - 1)).toNat + (L.v i e).toNat) = deg m n L (r, e) + 2 := by
  unfold deg
  dsimp only
  have e1 : (e + 1 < n ∧ (tog L i p e).h r e = true) ↔ (e + 1 < n ∧ L.h r e = true) := and_congr_right fun g => by rw [tog_h_out (by omega)]
  have e2 := flip_not (P := 0 < e) (by omega) (L.h r (e - 1))
  have e2' := flip_eq (P := 0 < e) (by omega) (L.h r (e - 1))
  rw [iteEq e1, tog_h_in ⟨hr, by omega, by omega⟩, e2']
  rcases hr with rfl | rfl
  · have e3 : (0 < r ∧ (tog L r p e).v (r - 1) e = true) ↔ (0 < r ∧ L.v (r - 1) e = true) := and_congr_right fun g => by rw [tog_v_out (by omega)]
    have e4 := flip_not (P := r + 1 < m) hi (L.v r e)
    rw [iteEq e3, tog_v_in ⟨rfl, .inr rfl⟩, flip_eq hi (L.v r e)]
    omega
  · have e3 : (i + 1 + 1 < m ∧ (tog L i p e).v (i + 1) e = true) ↔ (i + 1 + 1 < m ∧ L.v (i + 1) e = true) := and_congr_right fun g => by rw [tog_v_out (by omega)]
    have e4 := flip_not (P := 0 < i + 1) (by omega) (L.v i e)
    rw [iteEq e3, Nat.add_sub_cancel, tog_v_in ⟨rfl, .inr rfl⟩, flip_eq (Nat.succ_pos i) (L.v i e)]
    omega

/-- between the corners -/
theorem deg_inner {r c : Nat} (hr : r = i ∨ r = i + 1) (hc : p < c) (hc' : c < e) :
    deg m n (tog L i p e) (r, c) + 2 * ((L.h r (c - 1)).toNat + (L.h r c).toNat) = deg m n L (r, c) + 2 := by
  unfold deg
  dsimp only
  have e1 := flip_not (P := 0 < c) (by omega) (L.h r (c - 1))
  have e1' := flip_eq (P := 0 < c) (by omega) (L.h r (c - 1))
  have e2 := flip_not (P := c + 1 < n) (by omega) (L.h r c)
  have e2' := flip_eq (P := c + 1 < n) (by omega) (L.h r c)
  have e3 : (0 < r ∧ (tog L i p e).v (r - 1) c = true) ↔ (0 < r ∧ L.v (r - 1) c = true) := and_congr_right fun g => by rw [tog_v_out (by omega)]
  have e4 : (r + 1 < m ∧ (tog L i p e).v r c = true) ↔ (r + 1 < m ∧ L.v r c = true) := and_congr_right fun g => by rw [tog_v_out (by omega)]
  rw [iteEq e3, iteEq e4, tog_h_in ⟨hr, by omega, by omega⟩, tog_h_in ⟨hr, by omega, by omega⟩, e1', e2']
  omega

omit hi hpe he in
/-- a new step -/
theorem tog_adj {P : Nat × Nat → Prop} (hh : ∀ r c, (r = i ∨ r = i + 1) → p ≤ c → c < e → L.h r c = false → P (r, c) ∧ P (r, c + 1))
    (hv : ∀ c, c = p ∨ c = e → L.v i c = false → P (i, c) ∧ P (i + 1, c)) {x y : Nat × Nat} (h : Adj m n (tog L i p e) x y) : Adj m n L x y ∨ (P x ∧ P y) := by
  have h1 : ∀ {r c}, (tog L i p e).h r c = true → L.h r c = true ∨ (P (r, c) ∧ P (r, c + 1)) := fun {r c} g => by
    by_cases g1 : (r = i ∨ r = i + 1) ∧ p ≤ c ∧ c < e
    · rw [tog_h_in g1, Bool.not_eq_true'] at g
      exact .inr (hh r c g1.1 g1.2.1 g1.2.2 g)
    · rw [tog_h_out g1] at g; exact .inl g
  have h2 : ∀ {r c}, (tog L i p e).v r c = true → L.v r c = true ∨ (P (r, c) ∧ P (r + 1, c)) := fun {r c} g => by
    by_cases g1 : r = i ∧ (c = p ∨ c = e)
    · rw [tog_v_in g1, Bool.not_eq_true', g1.1] at g
      rw [g1.1]
      exact .inr (hv c g1.2 g)
    · rw [tog_v_out g1] at g; exact .inl g
  cases h with
  | right g1 g2 g3 => exact (h1 g3).imp (fun g => .right g1 g2 g) id
  | left g1 g2 g3 => exact (h1 g3).imp (fun g => .left g1 g2 g) fun g => ⟨g.2, g.1⟩
  | down g1 g2 g3 => exact (h2 g3).imp (fun g => .down g1 g2 g) id
  | up g1 g2 g3 => exact (h2 g3).imp (fun g => .up g1 g2 g) fun g => ⟨g.2, g.1⟩

omit hi hpe he in
/-- a step that is no longer there -/
theorem adj_tog {P : Nat × Nat → Prop} (hh : ∀ r c, (r = i ∨ r = i + 1) → p ≤ c → c < e → L.h r c = true → P (r, c) ∧ P (r, c + 1))
    (hv : ∀ c, c = p ∨ c = e → L.v i c = true → P (i, c) ∧ P (i + 1, c)) {x y : Nat × Nat} (h : Adj m n L x y) : Adj m n (tog L i p e) x y ∨ (P x ∧ P y) := by
  rw [← tog_tog (L := L) (i := i) (p := p) (e := e)] at h
  refine tog_adj (fun r c h1 h2 h3 h4 => hh r c h1 h2 h3 ?_) (fun c h1 h2 => hv c h1 ?_) h
  · rw [tog_h_in ⟨h1, h2, h3⟩, Bool.not_eq_false'] at h4; exact h4
  · rw [tog_v_in ⟨rfl, h1⟩, Bool.not_eq_false'] at h2; exact h2

end tog

end TdZdd.Nl
