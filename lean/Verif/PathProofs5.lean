import Verif.PathProofs4

/-! Proofs about `PathZdd` (5): cycles. -/

namespace TdZdd.Sp

open Gr Deg

variable {G : Graph} {A T : Nat → Nat → Prop} {i : Nat}

/-- next position in a cycle of length `n` -/
def nx (n i : Nat) : Nat := if i + 1 = n then 0 else i + 1

/-- previous position in a cycle of length `n` -/
def pv (n i : Nat) : Nat := if i = 0 then n - 1 else i - 1

theorem nx_lt {n i : Nat} (h : i < n) : nx n i < n := by unfold nx; split <;> omega

theorem pv_lt {n i : Nat} (h : i < n) : pv n i < n := by unfold pv; split <;> omega

theorem nx_pv {n i : Nat} (h : i < n) : nx n (pv n i) = i := by
  unfold nx pv
  by_cases h0 : i = 0
  · rw [if_pos h0, if_pos (by omega)]; exact h0.symm
  · rw [if_neg h0, if_neg (by omega)]; omega

theorem pv_nx {n i : Nat} (_ : i < n) : pv n (nx n i) = i := by
  unfold nx pv
  by_cases h0 : i + 1 = n
  · rw [if_pos h0, if_pos rfl]; omega
  · rw [if_neg h0, if_neg (by omega)]; omega

theorem nx_ne_pv {n i : Nat} (hn : 3 ≤ n) (_ : i < n) : nx n i ≠ pv n i := by
  unfold nx pv
  split <;> split <;> omega

/-- the edges form one cycle -/
def CycleOk (T : Nat → Nat → Prop) : Prop :=
  ∃ (n : Nat) (f : Nat → Nat), 3 ≤ n ∧ (∀ i j, i < n → j < n → f i = f j → i = j) ∧ ∀ x y, T x y ↔ ∃ i, i < n ∧ x = f i ∧ (y = f (nx n i) ∨ y = f (pv n i))

theorem CycleOk.sym (h : CycleOk T) {x y : Nat} (hxy : T x y) : T y x := by
  obtain ⟨n, f, hn, hinj, hT⟩ := h
  obtain ⟨i, hi, rfl, rfl | rfl⟩ := (hT x y).1 hxy
  · exact (hT _ _).2 ⟨nx n i, nx_lt hi, rfl, .inr (by rw [pv_nx hi])⟩
  · exact (hT _ _).2 ⟨pv n i, pv_lt hi, rfl, .inl (by rw [nx_pv hi])⟩

theorem CycleOk.d2 (h : CycleOk T) (v x y z : Nat) (hx : T v x) (hy : T v y) (hz : T v z) : x = y ∨ y = z ∨ x = z := by
  obtain ⟨n, f, hn, hinj, hT⟩ := h
  obtain ⟨i, hi, hv, hx⟩ := (hT _ _).1 hx
  obtain ⟨j, hj, hij, hy⟩ := (hT _ _).1 hy
  obtain ⟨k, hk, hik, hz⟩ := (hT _ _).1 hz
  rw [hv] at hij hik
  have e1 := hinj _ _ hi hj hij
  have e2 := hinj _ _ hi hk hik
  subst e1; subst e2
  rcases hx with rfl | rfl <;> rcases hy with rfl | rfl <;> rcases hz with rfl | rfl <;> simp

theorem CycleOk.deg (hcol : ∀ v, G.color v = 0) (h : CycleOk T) : DegOk G T := by
  refine ⟨fun v y hy _ => ?_, fun v hc => absurd (hcol v) hc, fun v y y' hc => absurd (hcol v) hc, h.d2⟩
  obtain ⟨n, f, hn, hinj, hT⟩ := h
  obtain ⟨i, hi, rfl, hx⟩ := (hT _ _).1 hy
  have hne : f (nx n i) ≠ f (pv n i) := fun he => nx_ne_pv hn hi (hinj _ _ (nx_lt hi) (pv_lt hi) he)
  rcases hx with rfl | rfl
  · exact ⟨f (pv n i), Ne.symm hne, (hT _ _).2 ⟨i, hi, rfl, .inr rfl⟩⟩
  · exact ⟨f (nx n i), hne, (hT _ _).2 ⟨i, hi, rfl, .inl rfl⟩⟩

/-- a cycle has no edge outside of a cycle within -/
theorem CycleOk.cover (h : CycleOk T) {n : Nat} {f : Nat → Nat} (hn : 3 ≤ n) (hinj : ∀ i j, i < n → j < n → f i = f j → i = j) (hf : ∀ i, i < n → T (f i) (f (nx n i))) (x y : Nat) (hxy : T x y) :
    ∃ i, i < n ∧ x = f i ∧ (y = f (nx n i) ∨ y = f (pv n i)) := by
  have hb : ∀ i, i < n → T (f i) (f (pv n i)) := by
    intro i hi
    have := hf (pv n i) (pv_lt hi)
    rw [nx_pv hi] at this
    exact h.sym this
  have hnb : ∀ i y, i < n → T (f i) y → y = f (nx n i) ∨ y = f (pv n i) := by
    intro i y hi hy
    have hne : f (nx n i) ≠ f (pv n i) := fun he => nx_ne_pv hn hi (hinj _ _ (nx_lt hi) (pv_lt hi) he)
    rcases h.d2 _ _ _ _ (hf i hi) hy (hb i hi) with h | h | h
    · exact .inl h.symm
    · exact .inr h
    · exact absurd h hne
  have hcl : ∀ x y, (∃ i, i < n ∧ x = f i) → T x y → ∃ i, i < n ∧ y = f i := by
    rintro _ y ⟨i, hi, rfl⟩ hy
    rcases hnb i y hi hy with h | h
    · exact ⟨_, nx_lt hi, h⟩
    · exact ⟨_, pv_lt hi, h⟩
  suffices hx : ∃ i, i < n ∧ x = f i by
    obtain ⟨i, hi, rfl⟩ := hx
    exact ⟨i, hi, rfl, hnb i y hi hxy⟩
  obtain ⟨m, g, hm, ginj, hT⟩ := h
  obtain ⟨k, hk, hfk, _⟩ := (hT _ _).1 (hf 0 (by omega))
  obtain ⟨j, hj, rfl, _⟩ := (hT _ _).1 hxy
  have step : ∀ a, a + 1 < m → T (g a) (g (a + 1)) ∧ T (g (a + 1)) (g a) := by
    intro a ha
    refine ⟨(hT _ _).2 ⟨a, by omega, rfl, .inl ?_⟩, (hT _ _).2 ⟨a + 1, ha, rfl, .inr ?_⟩⟩
    · unfold nx; rw [if_neg (by omega)]
    · unfold pv; rw [if_neg (by omega)]; rfl
  have h0 : ∃ i, i < n ∧ g k = f i := ⟨0, by omega, hfk.symm⟩
  have up : ∀ d, k + d < m → ∃ i, i < n ∧ g (k + d) = f i := by
    intro d
    induction d with
    | zero => exact fun _ => h0
    | succ d ih => exact fun hd => hcl _ _ (ih (by omega)) (step (k + d) (by omega)).1
  have down : ∀ d, d ≤ k → ∃ i, i < n ∧ g (k - d) = f i := by
    intro d
    induction d with
    | zero => exact fun _ => h0
    | succ d ih =>
      intro hd
      have := (step (k - (d + 1)) (by omega)).2
      rw [show k - (d + 1) + 1 = k - d by omega] at this
      exact hcl _ _ (ih (by omega)) this
  rcases Nat.lt_or_ge j k with hlt | hge
  · have := down (k - j) (by omega)
    rwa [show k - (k - j) = j by omega] at this
  · have := up (j - k) (by omega)
    rwa [show k + (j - k) = j by omega] at this

theorem Forest.not_cycle (h : Forest A) (hc : CycleOk A) : False := by
  obtain ⟨n, f, hn, hinj, hT⟩ := hc
  obtain ⟨m, g, k, hg, hk, h0⟩ := h.comp (f 0)
  refine hg.no_cycle hn hinj (fun i hi => (hT _ _).2 ⟨i, by omega, rfl, .inl ?_⟩) ((hT _ _).2 ⟨0, by omega, rfl, .inr ?_⟩) hk h0.symm
  · unfold nx; rw [if_neg (by omega)]
  · unfold pv; rw [if_pos rfl]

/-- the cycle closed by the edge -/
theorem closing (hH : Hyp G) {e : EdgeInfo} (he : G.info[i]? = some e) (hS : Struct G A i) (hend : IsEnd A e.v1 e.v2) :
    ∃ (n : Nat) (f : Nat → Nat), 3 ≤ n ∧ Comp A n f ∧ f 0 = e.v1 ∧ f (n - 1) = e.v2 ∧ ∀ i, i < n → addE A e.v1 e.v2 (f i) (f (nx n i)) := by
  obtain ⟨n, f, hc, h0, h1⟩ := hend
  have hp := hc.pos
  have hloop := hH.loop i e he
  have hn3 : 3 ≤ n := by
    rcases Nat.lt_or_ge n 3 with h | h
    · exfalso
      rcases (show n = 1 ∨ n = 2 by omega) with rfl | rfl
      · exact hloop (by rw [← h0, ← h1])
      · have := hc.next (i := 0) (by omega)
        rw [h0, show 0 + 1 = 2 - 1 by rfl, h1] at this
        obtain ⟨b, hb, hj⟩ := hS.sub _ _ this
        have := hj.index hH (c := i) ⟨e, he, .inl ⟨rfl, rfl⟩⟩
        omega
    · exact h
  refine ⟨n, f, hn3, hc, h0, h1, fun k hk => ?_⟩
  unfold nx
  by_cases hl : k + 1 = n
  · rw [if_pos hl, h0, show k = n - 1 by omega, h1]
    exact .inr (.inr ⟨rfl, rfl⟩)
  · rw [if_neg hl]
    exact .inl (hc.next (by omega))

/-- `CycleZdd` and `HamiltonCycleZdd` -/
theorem cycleSem (hH : Hyp G) (hcol : ∀ v, G.color v = 0) (ham : Bool) : Sem G true ham CycleOk (fun _ => True) where
  deg _ h := h.deg hcol
  fin _ _ hS _ hv := hS.forest.not_cycle hv
  yes _ _ _ _ _ _ := trivial
  no {A i e mate u1 u2} he hS _ hE hp ht T hsub hv hA := by
    unfold typed at ht
    rw [if_neg (by decide)] at ht
    by_cases hu : u1 = e.v2
    · rw [if_pos hu] at ht
      subst hu
      obtain ⟨n, f, hn, hc, h0, h1, hcy⟩ := closing hH he hS hp.end1
      have hcov := hv.cover hn hc.inj fun i hi => hsub _ _ (hcy i hi)
      obtain ⟨j, w, g1, g2, g3, g5, g6⟩ := only_no ht
      rw [List.getElem?_drop] at g1
      obtain ⟨ha, hm⟩ := hE.entry g1 g5
      generalize e.v0 + (1 + j) = v at *
      obtain ⟨u, k1, k2, k3⟩ := hm.nonzero g5
      have hno : ∀ y, ¬ T v y := by
        intro y hy
        obtain ⟨k, hk, rfl, _⟩ := hcov v y hy
        refine k1.not_inner ⟨n, f, k, hc, ?_, ?_, rfl⟩
        · rcases Nat.eq_zero_or_pos k with h | h
          · subst h; exact absurd h0 g2
          · exact h
        · rcases Nat.lt_or_ge (k + 1) n with h | h
          · exact h
          · exact absurd (by rw [← h1]; congr 1; omega) g3
      by_cases huv : u = v
      · subst huv
        have hh := g6.resolve_right fun h => h (by rw [k2, rep_zero (hcol u)])
        have hr := ha.range hH
        obtain ⟨y, hy⟩ := hA hh u hr.1 hr.2
        exact hno y hy
      · obtain ⟨x, hx, _⟩ := k1.one huv
        exact hno x (hsub _ _ (.inl hx))
    · rw [if_neg hu] at ht; cases ht
  hit {A i e mate u1 u2} he hS _ hE hp ht := by
    unfold typed at ht
    rw [if_neg (by decide)] at ht
    by_cases hu : u1 = e.v2
    · rw [if_pos hu] at ht
      subst hu
      obtain ⟨n, f, hn, hc, h0, h1, hcy⟩ := closing hH he hS hp.end1
      have hcyb : ∀ k, k < n → addE A e.v1 e.v2 (f k) (f (pv n k)) := by
        intro k hk
        have := hcy (pv n k) (pv_lt hk)
        rw [nx_pv hk] at this
        rcases this with h | ⟨h, h'⟩ | ⟨h, h'⟩
        · exact .inl (hS.sym _ _ h)
        · exact .inr (.inr ⟨h', h⟩)
        · exact .inr (.inl ⟨h', h⟩)
      -- other fragments would be seen
      have hfrag : ∀ z z', IsEnd A z z' → z' < z → z = e.v1 ∨ z = e.v2 := by
        intro z z' hz hlt
        apply Classical.byContradiction
        intro hne
        have ha := hS.open1 z z' hz (by omega) (hcol z)
        have ha' := hS.open1 z' z hz.symm (by omega) (hcol z')
        obtain ⟨b, hb, hub⟩ := hS.used hz (by omega)
        obtain ⟨b', hb', hub'⟩ := hS.used hz.symm (by omega)
        obtain ⟨j, w, g1, g2, g3⟩ := hE.at_win hH he (by omega) hub ha
        have hw' := win hH he (by omega : b' ≤ i) hub' ha'
        have := only_hit ht (j - 1) w (by rw [List.getElem?_drop, show 1 + (j - 1) = j by omega]; exact g1) (by omega) (by omega)
        rw [show e.v0 + (1 + (j - 1)) = z by omega, g3.of_open hz (by omega) (hcol z), rep_zero (hcol z')] at this
        have hr := ha'.range hH
        exact this ⟨by omega, .inr (by omega)⟩
      have hin : ∀ x y, A x y → ∃ k, k < n ∧ x = f k := by
        intro x y hxy
        obtain ⟨m, g, k, hg, hk, rfl⟩ := hS.forest.comp x
        have hm : g 0 ≠ g (m - 1) := by
          intro h
          have := hg.inj _ _ (by omega) (by omega) h
          rcases (hg.adj k hk y).1 hxy with ⟨h, _⟩ | ⟨_, h, _⟩ <;> omega
        have hcase : ∃ l, l < m ∧ (g l = e.v1 ∨ g l = e.v2) := by
          rcases Nat.lt_or_ge (g 0) (g (m - 1)) with h | h
          · exact ⟨m - 1, by omega, hfrag _ _ (IsEnd.symm ⟨m, g, hg, rfl, rfl⟩) h⟩
          · exact ⟨0, by omega, hfrag _ _ ⟨m, g, hg, rfl, rfl⟩ (by omega)⟩
        obtain ⟨l, hl, hl'⟩ := hcase
        have : ∃ p, p < n ∧ f p = g l := by
          rcases hl' with h | h
          · exact ⟨0, by omega, by rw [h, h0]⟩
          · exact ⟨n - 1, by omega, by rw [h, h1]⟩
        obtain ⟨p, hp, hpl⟩ := this
        obtain ⟨e1, e2⟩ := hc.same hg hp hl hpl
        subst e1
        rcases e2 with e2 | e2
        · exact ⟨k, hk, e2 k hk⟩
        · exact ⟨m - 1 - k, by omega, e2 k hk⟩
      refine ⟨⟨n, f, hn, hc.inj, fun x y => ⟨?_, ?_⟩⟩, fun T hsub hv x y hxy => ?_⟩
      · rintro (h | ⟨rfl, rfl⟩ | ⟨rfl, rfl⟩)
        · obtain ⟨k, hk, rfl⟩ := hin x y h
          refine ⟨k, hk, rfl, ?_⟩
          rcases (hc.adj k hk y).1 h with ⟨h1, rfl⟩ | ⟨l, rfl, rfl⟩
          · left; unfold nx; rw [if_neg (by omega)]
          · right; unfold pv; rw [if_neg (by omega)]; rfl
        · exact ⟨0, by omega, h0.symm, .inr (by unfold pv; rw [if_pos rfl]; exact h1.symm)⟩
        · exact ⟨n - 1, by omega, h1.symm, .inl (by unfold nx; rw [if_pos (by omega)]; exact h0.symm)⟩
      · rintro ⟨k, hk, rfl, rfl | rfl⟩
        · exact hcy k hk
        · exact hcyb k hk
      · obtain ⟨k, hk, rfl, rfl | rfl⟩ := hv.cover hn hc.inj (fun i hi => hsub _ _ (hcy i hi)) x y hxy
        · exact hcy k hk
        · exact hcyb k hk
    · rw [if_neg hu] at ht; cases ht

end TdZdd.Sp
