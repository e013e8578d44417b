import Verif.NumlinMove

/-! A shortest solution has no detours. -/

namespace TdZdd.Nl

set_option linter.unusedSectionVars false

variable {q : Board} {L L' : Links} {m n : Nat}

def sumTo : Nat → (Nat → Nat) → Nat
  | 0, _ => 0
  | k + 1, f => sumTo k f + f k

theorem sumTo_congr {f g : Nat → Nat} : ∀ {k : Nat}, (∀ x, x < k → f x = g x) → sumTo k f = sumTo k g
  | 0, _ => rfl
  | k + 1, h => by unfold sumTo; rw [sumTo_congr fun x hx => h x (by omega), h k (by omega)]

theorem sumTo_le {f g : Nat → Nat} : ∀ {k : Nat}, (∀ x, x < k → f x ≤ g x) → sumTo k f ≤ sumTo k g
  | 0, _ => Nat.le_refl _
  | k + 1, h => Nat.add_le_add (sumTo_le fun x hx => h x (by omega)) (h k (by omega))

theorem sumTo_lt {f g : Nat → Nat} : ∀ {k c : Nat}, (∀ x, x < k → f x ≤ g x) → c < k → f c < g c → sumTo k f < sumTo k g
  | 0, _, _, hc, _ => by omega
  | k + 1, c, h, hc, hl => by
    unfold sumTo
    have h1 := h k (by omega)
    by_cases e : c = k
    · have := sumTo_le (k := k) fun x hx => h x (by omega)
      subst e
      omega
    · have := sumTo_lt (k := k) (c := c) (fun x hx => h x (by omega)) (by omega) hl
      omega

theorem sumTo_one {f g : Nat → Nat} : ∀ {k i : Nat}, i < k → (∀ x, x ≠ i → f x = g x) → sumTo k f + g i = sumTo k g + f i
  | 0, _, hi, _ => by omega
  | k + 1, i, hi, h => by
    unfold sumTo
    by_cases e : i = k
    · subst e
      rw [sumTo_congr (f := f) (g := g) fun x hx => h x (by omega)]
      omega
    · have := sumTo_one (k := k) (i := i) (by omega) h
      rw [h k fun g => e g.symm]
      omega

theorem sumTo_two {f g : Nat → Nat} {k i j : Nat} (hi : i < k) (hj : j < k) (hij : i ≠ j) (h : ∀ x, x ≠ i → x ≠ j → f x = g x) : sumTo k f + (g i + g j) = sumTo k g + (f i + f j) := by
  have h1 := sumTo_one (f := f) (g := fun x => if x = j then f j else g x) hi fun x hx => by
    by_cases e : x = j
    · rw [if_pos e, e]
    · rw [if_neg e, h x hx e]
  have h2 := sumTo_one (f := fun x => if x = j then f j else g x) (g := g) hj fun x hx => if_neg hx
  rw [if_neg hij] at h1
  rw [if_pos rfl] at h2
  omega

def colH (m : Nat) (L : Links) (c : Nat) : Nat := sumTo m fun r => (L.h r c).toNat
def rowV (n : Nat) (L : Links) (r : Nat) : Nat := sumTo n fun c => (L.v r c).toNat
def colR (m : Nat) (L : Links) (c : Nat) : Nat := sumTo m fun r => (L.h r c).toNat * r

/-- number of lines -/
def size (m n : Nat) (L : Links) : Nat := sumTo n (colH m L) + sumTo m (rowV n L)

/-- sum of the rows of the horizontal lines -/
def depth (m n : Nat) (L : Links) : Nat := sumTo n (colR m L)

theorem toNat_not (b : Bool) : (!b).toNat + b.toNat = 1 := by cases b <;> rfl

section tog
variable {i p e : Nat} (hi : i + 1 < m) (hpe : p < e) (he : e < n)
include hi hpe he

theorem colH_in {c : Nat} (hc : p ≤ c) (hc' : c < e) : colH m (tog L i p e) c + 2 * ((L.h i c).toNat + (L.h (i + 1) c).toNat) = colH m L c + 2 := by
  have := sumTo_two (k := m) (i := i) (j := i + 1) (f := fun r => ((tog L i p e).h r c).toNat) (g := fun r => (L.h r c).toNat) (by omega) hi (by omega) fun r h1 h2 => by
    rw [tog_h_out (by omega)]
  rw [tog_h_in ⟨.inl rfl, hc, hc'⟩, tog_h_in ⟨.inr rfl, hc, hc'⟩] at this
  have := toNat_not (L.h i c)
  have := toNat_not (L.h (i + 1) c)
  unfold colH
  omega

omit hi hpe he in
theorem colH_out {c : Nat} (hc : ¬ (p ≤ c ∧ c < e)) : colH m (tog L i p e) c = colH m L c :=
  sumTo_congr fun r _ => by rw [tog_h_out (fun h => hc h.2)]

omit hi hpe he in
theorem colR_out {c : Nat} (hc : ¬ (p ≤ c ∧ c < e)) : colR m (tog L i p e) c = colR m L c :=
  sumTo_congr fun r _ => by rw [tog_h_out (fun h => hc h.2)]

omit hi hpe he in
theorem rowV_out {r : Nat} (hr : r ≠ i) : rowV n (tog L i p e) r = rowV n L r :=
  sumTo_congr fun c _ => by rw [tog_v_out (fun h => hr h.1)]

theorem rowV_in : rowV n (tog L i p e) i + 2 * ((L.v i p).toNat + (L.v i e).toNat) = rowV n L i + 2 := by
  have := sumTo_two (k := n) (i := p) (j := e) (f := fun c => ((tog L i p e).v i c).toNat) (g := fun c => (L.v i c).toNat) (by omega) he (by omega) fun r h1 h2 => by
    rw [tog_v_out (by omega)]
  rw [tog_v_in ⟨rfl, .inl rfl⟩, tog_v_in ⟨rfl, .inr rfl⟩] at this
  have := toNat_not (L.v i p)
  have := toNat_not (L.v i e)
  unfold rowV
  omega

theorem size_lt (hh : ∀ c, p ≤ c → c < e → 1 ≤ (L.h i c).toNat + (L.h (i + 1) c).toNat) (hv : 1 ≤ (L.v i p).toNat + (L.v i e).toNat)
    (hs : 3 ≤ (L.h i p).toNat + (L.h (i + 1) p).toNat + (L.v i p).toNat + (L.v i e).toNat) : size m n (tog L i p e) < size m n L := by
  have k1 : ∀ c, c < n → colH m (tog L i p e) c ≤ colH m L c := fun c _ => by
    by_cases g : p ≤ c ∧ c < e
    · have := colH_in (L := L) hi hpe he g.1 g.2
      have := hh c g.1 g.2
      omega
    · rw [colH_out g]; exact Nat.le_refl _
  have r0 := rowV_in (L := L) hi hpe he
  have k2 : ∀ r, r < m → rowV n (tog L i p e) r ≤ rowV n L r := fun r _ => by
    by_cases g : r = i
    · subst g; omega
    · rw [rowV_out g]; exact Nat.le_refl _
  unfold size
  have s1 := sumTo_le k1
  have s2 := sumTo_le k2
  by_cases g : (L.v i p).toNat + (L.v i e).toNat = 1
  · have := colH_in (L := L) hi hpe he (c := p) (Nat.le_refl _) hpe
    have := sumTo_lt (c := p) k1 (by omega) (by omega)
    omega
  · have := sumTo_lt (c := i) k2 (by omega) (by omega)
    omega

theorem size_eq (hh : ∀ c, p ≤ c → c < e → (L.h i c).toNat + (L.h (i + 1) c).toNat = 1) (hv : (L.v i p).toNat + (L.v i e).toNat = 1) : size m n (tog L i p e) = size m n L := by
  have k1 : ∀ c, c < n → colH m (tog L i p e) c = colH m L c := fun c _ => by
    by_cases g : p ≤ c ∧ c < e
    · have := colH_in (L := L) hi hpe he g.1 g.2
      have := hh c g.1 g.2
      omega
    · exact colH_out g
  have r0 := rowV_in (L := L) hi hpe he
  have k2 : ∀ r, r < m → rowV n (tog L i p e) r = rowV n L r := fun r _ => by
    by_cases g : r = i
    · subst g; omega
    · exact rowV_out g
  unfold size
  rw [sumTo_congr k1, sumTo_congr k2]

theorem depth_lt (hh : ∀ c, p ≤ c → c < e → L.h i c = false ∧ L.h (i + 1) c = true) : depth m n (tog L i p e) < depth m n L := by
  have k0 : ∀ c, p ≤ c → c < e → colR m (tog L i p e) c + 1 = colR m L c := fun c hc hc' => by
    have := sumTo_two (k := m) (i := i) (j := i + 1) (f := fun r => ((tog L i p e).h r c).toNat * r) (g := fun r => (L.h r c).toNat * r) (by omega) hi (by omega) fun r h1 h2 => by
      rw [tog_h_out (by omega)]
    rw [tog_h_in ⟨.inl rfl, hc, hc'⟩, tog_h_in ⟨.inr rfl, hc, hc'⟩, (hh c hc hc').1, (hh c hc hc').2] at this
    simp only [Bool.not_true, Bool.not_false, Bool.toNat_true, Bool.toNat_false, Nat.zero_mul, Nat.one_mul] at this
    unfold colR
    omega
  refine sumTo_lt (c := p) (fun c _ => ?_) (by omega) ?_
  · by_cases g : p ≤ c ∧ c < e
    · have := k0 c g.1 g.2; omega
    · rw [colR_out g]; exact Nat.le_refl _
  · have := k0 p (Nat.le_refl _) hpe; omega

end tog

/-- Lines with a detour can be made shorter, or higher. -/
theorem IsSolution.improve (hS : IsSolution q L) (hT : ¬ Tidy q L) :
    ∃ L', IsSolution q L' ∧ (size q.rows q.cols L' < size q.rows q.cols L ∨ (size q.rows q.cols L' = size q.rows q.cols L ∧ depth q.rows q.cols L' < depth q.rows q.cols L)) := by
  apply Classical.byContradiction
  intro hno
  have lt : ∀ j, j < j + 1 := Nat.lt_succ_self
  -- two sides
  have flip : ∀ i j, i + 1 < q.rows → j + 1 < q.cols → L.h i j = false → L.h (i + 1) j = true → (L.v i j).toNat + (L.v i (j + 1)).toNat = 1 → IsSolution q (tog L i j (j + 1)) → False := fun i j hi hj h1 h2 h3 h4 => by
    refine hno ⟨_, h4, .inr ⟨size_eq hi (lt j) hj (fun c hc hc' => ?_) h3, depth_lt hi (lt j) hj fun c hc hc' => ?_⟩⟩
    · obtain rfl : c = j := by omega
      rw [h1, h2]; rfl
    · obtain rfl : c = j := by omega
      exact ⟨h1, h2⟩
  have hsq : ∀ i j, i + 1 < q.rows → j + 1 < q.cols → (L.h i j).toNat + (L.h (i + 1) j).toNat + (L.v i j).toNat + (L.v i (j + 1)).toNat ≤ 2 := fun i j hi hj => by
    have key : 3 ≤ (L.h i j).toNat + (L.h (i + 1) j).toNat + (L.v i j).toNat + (L.v i (j + 1)).toNat → IsSolution q (tog L i j (j + 1)) → False := fun h3 hs => by
      have b1 := Bool.toNat_le (L.h i j); have b2 := Bool.toNat_le (L.h (i + 1) j); have b3 := Bool.toNat_le (L.v i j); have b4 := Bool.toNat_le (L.v i (j + 1))
      refine hno ⟨_, hs, .inl (size_lt hi (lt j) hj (fun c hc hc' => ?_) (by omega) h3)⟩
      obtain rfl : c = j := by omega
      omega
    have cy := cyc_tog (L := L) hi hj
    revert cy key
    generalize L.h i j = t
    generalize L.v i (j + 1) = r
    generalize L.h (i + 1) j = b
    generalize L.v i j = l
    intro key cy
    cases t <;> cases r <;> cases b <;> cases l <;> first | decide | (exfalso; first | exact cy.four hS | exact key (by decide) (cy.three hS) | exact key (by decide) (cy.rot.three hS) | exact key (by decide) (cy.rot.rot.three hS) | exact key (by decide) (cy.rot.rot.rot.three hS))
  have zero : ∀ i j, i + 1 < q.rows → j + 1 < q.cols → deg q.rows q.cols L (i, j + 1) = 0 → L.h i j = false ∧ L.v i (j + 1) = false := fun i j hi hj h0 =>
    ⟨Bool.eq_false_iff.2 fun g => no_adj_of_deg h0 (.left (by omega) hj g), Bool.eq_false_iff.2 fun g => no_adj_of_deg h0 (.down hi hj g)⟩
  have zero' : ∀ i j, i + 1 < q.rows → j + 1 < q.cols → deg q.rows q.cols L (i, j) = 0 → L.h i j = false ∧ L.v i j = false := fun i j hi hj h0 =>
    ⟨Bool.eq_false_iff.2 fun g => no_adj_of_deg h0 (.right (by omega) hj g), Bool.eq_false_iff.2 fun g => no_adj_of_deg h0 (.down hi (by omega) g)⟩
  refine hT ⟨hsq, fun i j hi hj h1 h2 h0 => ?_, fun i j hi hj h1 h2 h0 => ?_, fun i p e hi hpe he h1 h2 h3 => ?_⟩
  · obtain ⟨z1, z2⟩ := zero i j hi hj h0
    have cy := cyc_tog (L := L) hi hj
    refine flip i j hi hj z1 h2 (by rw [h1, z2]; rfl) ?_
    rw [h1, h2, z1, z2] at cy
    exact cy.rot.rot.two hS h0
  · obtain ⟨z1, z2⟩ := zero' i j hi hj h0
    have cy := cyc_tog (L := L) hi hj
    refine flip i j hi hj z1 h2 (by rw [h1, z2]; rfl) ?_
    rw [h1, h2, z1, z2] at cy
    exact cy.rot.two hS h0
  · apply Classical.byContradiction
    intro hn
    refine hno ⟨_, roof_lower hS hi hpe he h1 h2 h3 fun c hc hc' => Classical.byContradiction fun g => hn ⟨c, hc, hc', g⟩, .inl (size_lt hi hpe he (fun c hc hc' => ?_) ?_ ?_)⟩
    · rw [(h3 c hc hc').1]; simp only [Bool.toNat_true]; omega
    · rw [h1, h2]; decide
    · rw [h1, h2, (h3 p (Nat.le_refl _) hpe).1]; simp only [Bool.toNat_true]; omega

/-- If there is a solution, then there is one without detours. -/
theorem IsSolution.tidy (hS : IsSolution q L) : ∃ L', IsSolution q L' ∧ Tidy q L' := by
  have : ∀ k d, ∀ L, size q.rows q.cols L = k → depth q.rows q.cols L = d → IsSolution q L → ∃ L', IsSolution q L' ∧ Tidy q L' := by
    intro k
    induction k using Nat.strongRecOn with
    | ind k ihk =>
      intro d
      induction d using Nat.strongRecOn with
      | ind d ihd =>
        intro L hk hd hS
        by_cases hT : Tidy q L
        · exact ⟨L, hS, hT⟩
        · obtain ⟨L', hS', h | ⟨h1, h2⟩⟩ := hS.improve hT
          · exact ihk _ (hk ▸ h) _ L' rfl rfl hS'
          · exact ihd _ (hd ▸ h2) L' (h1.trans hk) rfl hS'
  exact this _ _ L rfl rfl hS

end TdZdd.Nl
