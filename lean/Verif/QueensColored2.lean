import Verif.QueensColored

/-! Steps of `ColoredNQueenZdd` -/

namespace TdZdd.Queens

section
variable {rook : Bool} {n i j k : Nat} {s s' : List (BitVec 32)}

theorem drop_done (hk : k < n) (_hj : j < n) (hF : ∀ p c, Free s' p c ↔ Free s p c ∧ ¬ (p = i * n + k ∧ c = j)) {k' : Nat} (hk' : k' < n) :
    Done n i (j * n + k) s' k' ↔ Done n i (j * n + k + 1) s k' := by
  unfold Done
  rw [hF]
  constructor
  · rintro ⟨⟨h1, h2⟩, h3⟩
    refine ⟨h1, ?_⟩
    apply Classical.byContradiction
    intro h
    obtain ⟨e1, e2⟩ := idx_inj hk hk' (show j * n + k = (n - 1) * n + k' by omega)
    exact h2 ⟨by rw [e2], e1.symm⟩
  · rintro ⟨h1, h2⟩
    refine ⟨⟨h1, fun ⟨e1, e2⟩ => ?_⟩, by omega⟩
    have := (idx_inj hk' hk e1).2
    rw [e2, this] at h2
    omega

theorem drop_todo (hk : k < n) (hj : j < n) (hF : ∀ p c, Free s' p c ↔ Free s p c ∧ ¬ (p = i * n + k ∧ c = j)) {r k' : Nat} (hk' : k' < n) :
    Todo n i (j * n + k) s' r k' ↔ Todo n i (j * n + k + 1) s r k' := by
  unfold Todo
  rw [drop_done hk hj hF hk']

theorem drop_placed (hk : k < n) (hj : j < n) (hF : ∀ p c, Free s' p c ↔ Free s p c ∧ ¬ (p = i * n + k ∧ c = j)) {r k' : Nat} (hk' : k' < n) :
    Placed n i (j * n + k) s' r k' ↔ Placed n i (j * n + k + 1) s r k' := by
  unfold Placed
  rw [drop_done hk hj hF hk']

/-- No piece of colour `k` in row `i`, column `j` -/
theorem drop_inv (hk : k < n) (hj : j < n) (hF : ∀ p c, Free s' p c ↔ Free s p c ∧ ¬ (p = i * n + k ∧ c = j)) (hl : s'.length = s.length) (hne : ∃ c, Free s' (i * n + k) c)
    (h : CInv n i (j * n + k + 1) s) : CInv n i (j * n + k) s' := by
  have hd := fun {k'} hk' => drop_done (i := i) hk hj hF (k' := k') hk'
  have ht := fun {r k'} hk' => drop_todo (i := i) hk hj hF (k' := k') (r := r) hk'
  have hp := fun {r k'} hk' => drop_placed (i := i) hk hj hF (k' := k') (r := r) hk'
  have hund : ∀ k' c, k' < n → ¬ Done n i (j * n + k) s' k' → Free s' (i * n + k') c → c * n + k' < j * n + k := by
    intro k' c hk' hd' hf
    rw [hd hk'] at hd'
    obtain ⟨h1, h2⟩ := (hF _ _).1 hf
    have := h.undone k' c hk' hd' h1
    apply Classical.byContradiction
    intro hc
    obtain ⟨e1, e2⟩ := idx_inj hk' hk (show c * n + k' = j * n + k by omega)
    exact h2 ⟨by rw [e2], e1⟩
  obtain ⟨H, hH⟩ := h.hist
  refine ⟨⟨by rw [hl, h.ok.length], fun p c hc => h.ok.lt p c ((hF p c).1 hc).1⟩, h.hi, by have := h.ht; omega, fun k' c hk' hd' hf => h.mark k' c hk' ((hd hk').1 hd') ((hF _ _).1 hf).1, hund, fun k' hk' htk => ?_, fun r k' hr hk' => ?_, fun hi0 k' hk' hd' => ?_, H, ?_⟩
  · by_cases e : j * n + k + 1 ≤ k'
    · exact (hd hk').2 (h.passed k' hk' e)
    · obtain ⟨e1, e2⟩ := idx_inj hk hk' (show j * n + k = 0 * n + k' by omega)
      subst e2
      apply Classical.byContradiction
      intro hd'
      obtain ⟨c, hc⟩ := hne
      have := hund k c hk hd' hc
      subst e1
      omega
  · obtain ⟨c, hc⟩ := h.fut r k' hr hk'
    refine ⟨c, (hF _ _).2 ⟨hc, fun ⟨e, _⟩ => ?_⟩⟩
    have := (idx_inj hk' hk e).1
    omega
  · by_cases e : k' = k
    · subst e; exact hne
    · obtain ⟨c, hc⟩ := h.now hi0 k' hk' (fun x => hd' ((hd hk').2 x))
      exact ⟨c, (hF _ _).2 ⟨hc, fun ⟨e', _⟩ => e (idx_inj hk' hk e').2⟩⟩
  · exact ⟨fun r k' hk' x => hH.lt r k' hk' ((hp hk').1 x), fun r k1 k2 h1 h2 hne x y => hH.row r k1 k2 h1 h2 hne ((hp h1).1 x) ((hp h2).1 y), fun r r' k1 h1 hne x y => hH.col r r' k1 h1 hne ((hp h1).1 x) ((hp h1).1 y),
      fun r r' k1 h1 x y hf => hH.exc r r' k1 h1 ((hp h1).1 x) ((ht h1).1 y) ((hF _ _).1 hf).1, fun k1 k2 h1 h2 x y hf => hH.excRow k1 k2 h1 h2 ((hd h1).1 x) (fun z => y ((hd h2).2 z)) ((hF _ _).1 hf).1,
      fun e k1 h1 x => hH.zero e k1 h1 ((hd h1).1 x)⟩

theorem drop_cp {a : Asg 2} (hk : k < n) (hj : j < n) (hF : ∀ p c, Free s' p c ↔ Free s p c ∧ ¬ (p = i * n + k ∧ c = j))
    (hq : ∀ q, CSol rook n i (j * n + k + 1) s a q → ¬ Done n i (j * n + k + 1) s k → q i k ≠ j) :
    CP rook n i (j * n + k + 1) s a ↔ (a (i * (n * n) + (j * n + k) + 1)).val = 0 ∧ CP rook n i (j * n + k) s' a := by
  have ht := fun {r k'} hk' => drop_todo (i := i) hk hj hF (k' := k') (r := r) hk'
  constructor
  · rintro ⟨q, h⟩
    have hnot : ∀ r k', k' < n → Todo n i (j * n + k + 1) s r k' → ¬ (r * n + k' = i * n + k ∧ q r k' = j) := by
      rintro r k' hk' htd ⟨e1, e2⟩
      obtain ⟨e3, e4⟩ := idx_inj hk' hk e1
      subst e3 e4
      rcases htd with htd | htd
      · omega
      · exact hq q h htd.2 e2
    refine ⟨?_, q, fun r k' hk' htd => (hF _ _).2 ⟨h.free r k' hk' ((ht hk').1 htd), hnot r k' hk' ((ht hk').1 htd)⟩, fun r r' k' hk' hr x y => h.safe r r' k' hk' hr ((ht hk').1 x) ((ht hk').1 y),
      fun r k1 k2 h1 h2 hne x y => h.row r k1 k2 h1 h2 hne ((ht h1).1 x) ((ht h2).1 y), fun r k' c hk' hc hr hrt => by rw [ht hk']; exact h.asg r k' c hk' hc hr fun e => by have := hrt e; omega⟩
    apply Classical.byContradiction
    intro hz
    obtain ⟨h1, h2⟩ := (h.asg i k j hk hj (Nat.le_refl _) (fun _ => by omega)).1 hz
    exact hnot i k hk h1 ⟨rfl, h2.symm⟩
  · rintro ⟨hz, q, h⟩
    refine ⟨q, fun r k' hk' htd => ((hF _ _).1 (h.free r k' hk' ((ht hk').2 htd))).1, fun r r' k' hk' hr x y => h.safe r r' k' hk' hr ((ht hk').2 x) ((ht hk').2 y),
      fun r k1 k2 h1 h2 hne x y => h.row r k1 k2 h1 h2 hne ((ht h1).2 x) ((ht h2).2 y), fun r k' c hk' hc hr hrt => ?_⟩
    rw [← ht hk']
    by_cases e : r = i ∧ c * n + k' = j * n + k
    · obtain ⟨rfl, e⟩ := e
      obtain ⟨e1, e2⟩ := idx_inj hk' hk e
      subst e1 e2
      rw [hz]
      refine ⟨fun h => absurd rfl h, fun ⟨htd, e⟩ => ?_⟩
      have := ((hF _ _).1 (h.free r k' hk' htd)).2
      exact absurd ⟨rfl, e.symm⟩ this
    · exact h.asg r k' c hk' hc hr fun e' => by have := hrt e'; omega

/-- the array after a piece of colour `k` is set in row `i`, column `j` -/
structure Taken (rook : Bool) (n i j k : Nat) (s s' : List (BitVec 32)) : Prop where
  length : s'.length = s.length
  lt : ∀ p c, Free s' p c → c < n
  self : ∀ c, Free s' (i * n + k) c ↔ c = n - 1
  row : ∀ k' c, k' < n → k' ≠ k → (Free s' (i * n + k') c ↔ Free s (i * n + k') c ∧ (k' < k → c ≠ j))
  col : ∀ r c, r < i → (Free s' (r * n + k) c ↔ Free s (r * n + k) c ∧ ¬ Att rook i j r c)
  some : ∀ r, r < i → ∃ c, Free s' (r * n + k) c
  other : ∀ r k' c, r < i → k' < n → k' ≠ k → (Free s' (r * n + k') c ↔ Free s (r * n + k') c)

theorem take_undone (hf : Free s (i * n + k) j) (hk : k < n) (h : CInv n i (j * n + k + 1) s) : ¬ Done n i (j * n + k + 1) s k := by
  intro hd
  have := h.mark k j hk hd hf
  have := hd.2
  subst j
  omega

theorem take_done (hk : k < n) (hj : j < n) (hs : Taken rook n i j k s s') {k' : Nat} (hk' : k' < n) :
    Done n i (j * n + k) s' k' ↔ Done n i (j * n + k + 1) s k' ∨ k' = k := by
  by_cases e : k' = k
  · subst e
    refine ⟨fun _ => .inr rfl, fun _ => ⟨(hs.self _).2 rfl, ?_⟩⟩
    have := Nat.mul_le_mul_right n (show j ≤ n - 1 by omega)
    omega
  · unfold Done
    rw [hs.row k' _ hk' e]
    constructor
    · rintro ⟨⟨h1, h2⟩, h3⟩
      refine .inl ⟨h1, ?_⟩
      apply Classical.byContradiction
      intro h
      exact e (idx_inj hk hk' (show j * n + k = (n - 1) * n + k' by omega)).2.symm
    · rintro (⟨h1, h2⟩ | h)
      · refine ⟨⟨h1, fun hlt e => ?_⟩, by omega⟩
        rw [e] at h2
        omega
      · exact absurd h e

theorem take_todo (hk : k < n) (hj : j < n) (hs : Taken rook n i j k s s') {r k' : Nat} (hk' : k' < n) :
    Todo n i (j * n + k) s' r k' ↔ Todo n i (j * n + k + 1) s r k' ∧ ¬ (r = i ∧ k' = k) := by
  unfold Todo
  rw [take_done hk hj hs hk']
  constructor
  · rintro (h | ⟨h1, h2⟩)
    · exact ⟨.inl h, fun e => by omega⟩
    · exact ⟨.inr ⟨h1, fun x => h2 (.inl x)⟩, fun e => h2 (.inr e.2)⟩
  · rintro ⟨h | ⟨h1, h2⟩, h3⟩
    · exact .inl h
    · exact .inr ⟨h1, fun x => x.elim h2 fun e => h3 ⟨h1, e⟩⟩

theorem take_placed (hk : k < n) (hj : j < n) (hs : Taken rook n i j k s s') {r k' : Nat} (hk' : k' < n) :
    Placed n i (j * n + k) s' r k' ↔ Placed n i (j * n + k + 1) s r k' ∨ (r = i ∧ k' = k) := by
  unfold Placed
  rw [take_done hk hj hs hk']
  constructor
  · rintro (h | ⟨h1, h2 | h2⟩)
    · exact .inl (.inl h)
    · exact .inl (.inr ⟨h1, h2⟩)
    · exact .inr ⟨h1, h2⟩
  · rintro ((h | ⟨h1, h2⟩) | h)
    · exact .inl h
    · exact .inr ⟨h1, .inl h2⟩
    · exact .inr ⟨h.1, .inr h.2⟩

/-- free columns of pieces to be set after the step -/
theorem take_free (hf : Free s (i * n + k) j) (hk : k < n) (hj : j < n) (hs : Taken rook n i j k s s') (h : CInv n i (j * n + k + 1) s) {r k' c : Nat} (hk' : k' < n) (ht : Todo n i (j * n + k + 1) s r k') (hne : ¬ (r = i ∧ k' = k)) :
    Free s' (r * n + k') c ↔ Free s (r * n + k') c ∧ (r = i → c ≠ j) ∧ (r < i → k' = k → ¬ Att rook i j r c) := by
  rcases ht with hr | ⟨rfl, hd⟩
  · by_cases e : k' = k
    · subst e
      rw [hs.col r c hr]
      exact ⟨fun x => ⟨x.1, fun e => by omega, fun _ _ => x.2⟩, fun x => ⟨x.1, x.2.2 hr rfl⟩⟩
    · rw [hs.other r k' c hr hk' e]
      exact ⟨fun x => ⟨x, fun e => by omega, fun _ e' => absurd e' e⟩, fun x => x.1⟩
  · have e : k' ≠ k := fun e => hne ⟨rfl, e⟩
    rw [hs.row k' c hk' e]
    refine ⟨fun x => ⟨x.1, fun _ hc => ?_, fun h => by omega⟩, fun x => ⟨x.1, fun _ => x.2.1 rfl⟩⟩
    subst hc
    have := h.undone k' c hk' hd x.1
    exact x.2 (by omega) rfl

theorem take_inv (hf : Free s (i * n + k) j) (hk : k < n) (hj : j < n) (hs : Taken rook n i j k s s') (h0 : ¬ (i = 0 ∧ j = 0)) (h : CInv n i (j * n + k + 1) s) : CInv n i (j * n + k) s' := by
  have hd := fun {k'} hk' => take_done (i := i) hk hj hs (k' := k') hk'
  have ht := fun {r k'} hk' => take_todo (i := i) hk hj hs (k' := k') (r := r) hk'
  have hp := fun {r k'} hk' => take_placed (i := i) hk hj hs (k' := k') (r := r) hk'
  have hu := take_undone hf hk h
  obtain ⟨H, hH⟩ := h.hist
  refine ⟨⟨by rw [hs.length, h.ok.length], hs.lt⟩, h.hi, by have := h.ht; omega, fun k' c hk' hd' hf' => ?_, fun k' c hk' hd' hf' => ?_, fun k' hk' htk => ?_, fun r k' hr hk' => ?_, fun hi0 k' hk' hd' => ?_, fun r k' => if r = i ∧ k' = k then j else H r k', ?_⟩
  · by_cases e : k' = k
    · subst e; exact (hs.self c).1 hf'
    · rcases (hd hk').1 hd' with x | x
      · exact h.mark k' c hk' x ((hs.row k' c hk' e).1 hf').1
      · exact absurd x e
  · rw [hd hk', not_or] at hd'
    have := h.undone k' c hk' hd'.1 ((hs.row k' c hk' hd'.2).1 hf').1
    apply Classical.byContradiction
    intro hc
    exact hd'.2 (idx_inj hk' hk (show c * n + k' = j * n + k by omega)).2
  · rw [hd hk']
    by_cases e : j * n + k + 1 ≤ k'
    · exact .inl (h.passed k' hk' e)
    · exact .inr (idx_inj hk hk' (show j * n + k = 0 * n + k' by omega)).2.symm
  · by_cases e : k' = k
    · subst e; exact hs.some r hr
    · obtain ⟨c, hc⟩ := h.fut r k' hr hk'
      exact ⟨c, (hs.other r k' c hr hk' e).2 hc⟩
  · rw [hd hk', not_or] at hd'
    obtain ⟨c, hc⟩ := h.now hi0 k' hk' hd'.1
    refine ⟨c, (hs.row k' c hk' hd'.2).2 ⟨hc, fun _ e => hd'.2 ?_⟩⟩
    subst hi0 e
    exact col_unique h hk' hk hd'.1 hu hc hf
  · have hHk : ∀ r, Placed n i (j * n + k + 1) s r k → H r k ≠ j := fun r hpl e => by
      have := hH.exc r i k hk hpl (.inr ⟨rfl, hu⟩)
      rw [e] at this
      exact this hf
    have hnk : ∀ r k', Placed n i (j * n + k + 1) s r k' → ¬ (r = i ∧ k' = k) := by
      rintro r k' hpl ⟨rfl, rfl⟩
      rcases hpl with x | x
      · omega
      · exact hu x.2
    refine ⟨fun r k' hk' hpl => ?_, fun r k1 k2 h1 h2 hne x y => ?_, fun r r' k1 h1 hne x y => ?_, fun r r' k1 h1 x y => ?_, fun k1 k2 h1 h2 x y => ?_, fun hi0 k1 h1 x => ?_⟩
    · by_cases e : r = i ∧ k' = k
      · rw [if_pos e]; exact hj
      · rw [if_neg e]; exact hH.lt r k' hk' (((hp hk').1 hpl).resolve_right e)
    · by_cases e1 : r = i ∧ k1 = k
      · rw [if_pos e1]
        have e2 : ¬ (r = i ∧ k2 = k) := fun e2 => hne (by omega)
        rw [if_neg e2]
        have y := ((hp h2).1 y).resolve_right e2
        obtain ⟨rfl, rfl⟩ := e1
        have hdk : Done n r (j * n + k1 + 1) s k2 := by
          rcases y with y | y
          · omega
          · exact y.2
        intro e
        have := hH.excRow k2 k1 h2 h1 hdk hu
        rw [← e] at this
        exact this hf
      · rw [if_neg e1]
        have x := ((hp h1).1 x).resolve_right e1
        by_cases e2 : r = i ∧ k2 = k
        · rw [if_pos e2]
          obtain ⟨rfl, rfl⟩ := e2
          have hdk : Done n r (j * n + k2 + 1) s k1 := by
            rcases x with x | x
            · omega
            · exact x.2
          intro e
          have := hH.excRow k1 k2 h1 h2 hdk hu
          rw [e] at this
          exact this hf
        · rw [if_neg e2]
          exact hH.row r k1 k2 h1 h2 hne x (((hp h2).1 y).resolve_right e2)
    · by_cases e1 : r = i ∧ k1 = k
      · rw [if_pos e1]
        have e2 : ¬ (r' = i ∧ k1 = k) := fun e2 => hne (by omega)
        rw [if_neg e2]
        have y := ((hp h1).1 y).resolve_right e2
        rw [e1.2] at y ⊢
        exact fun e => hHk r' y e.symm
      · rw [if_neg e1]
        have x := ((hp h1).1 x).resolve_right e1
        by_cases e2 : r' = i ∧ k1 = k
        · rw [if_pos e2]
          rw [e2.2] at x ⊢
          exact hHk r x
        · rw [if_neg e2]
          exact hH.col r r' k1 h1 hne x (((hp h1).1 y).resolve_right e2)
    · obtain ⟨y, hyk⟩ := (ht h1).1 y
      rw [take_free hf hk hj hs h h1 y hyk]
      by_cases e1 : r = i ∧ k1 = k
      · rw [if_pos e1]
        rintro ⟨_, z2, z3⟩
        rcases y with y | y
        · exact z3 y e1.2 (.inl rfl)
        · exact z2 y.1 rfl
      · rw [if_neg e1]
        intro z
        exact hH.exc r r' k1 h1 (((hp h1).1 x).resolve_right e1) y z.1
    · rw [hd h2, not_or] at y
      rw [take_free hf hk hj hs h (r := i) (k' := k2) h2 (.inr ⟨rfl, y.1⟩) (fun e => y.2 e.2)]
      by_cases e1 : i = i ∧ k1 = k
      · rw [if_pos e1]
        rintro ⟨_, z2, _⟩
        exact z2 rfl rfl
      · rw [if_neg e1]
        intro z
        exact hH.excRow k1 k2 h1 h2 (((hd h1).1 x).resolve_right fun e => e1 ⟨rfl, e⟩) y.1 z.1
    · by_cases e1 : 0 = i ∧ k1 = k
      · rw [if_pos e1]
        exact fun e => h0 ⟨hi0, e⟩
      · rw [if_neg e1]
        exact hH.zero hi0 k1 h1 (((hd h1).1 x).resolve_right fun e => e1 ⟨hi0.symm, e⟩)

theorem take_cp {a : Asg 2} (hf : Free s (i * n + k) j) (hk : k < n) (hj : j < n) (hs : Taken rook n i j k s s') (h : CInv n i (j * n + k + 1) s)
    (ha : (a (i * (n * n) + (j * n + k) + 1)).val ≠ 0) : CP rook n i (j * n + k + 1) s a ↔ CP rook n i (j * n + k) s' a := by
  have ht := fun {r k'} hk' => take_todo (i := i) hk hj hs (k' := k') (r := r) hk'
  have hu := take_undone hf hk h
  have htk : Todo n i (j * n + k + 1) s i k := .inr ⟨rfl, hu⟩
  constructor
  · rintro ⟨q, hq⟩
    have e := ((hq.asg i k j hk hj (Nat.le_refl _) (fun _ => by omega)).1 ha).2
    refine ⟨q, fun r k' hk' htd => ?_, fun r r' k' hk' hr x y => hq.safe r r' k' hk' hr ((ht hk').1 x).1 ((ht hk').1 y).1,
      fun r k1 k2 h1 h2 hne x y => hq.row r k1 k2 h1 h2 hne ((ht h1).1 x).1 ((ht h2).1 y).1, fun r k' c hk' hc hr hrt => ?_⟩
    · obtain ⟨h1, h2⟩ := (ht hk').1 htd
      rw [take_free hf hk hj hs h hk' h1 h2]
      refine ⟨hq.free r k' hk' h1, fun hr => ?_, fun hr hkk => ?_⟩
      · subst hr
        rw [e]
        exact hq.row r k' k hk' hk (fun e => h2 ⟨rfl, e⟩) h1 htk
      · subst hkk
        rw [e]
        exact hq.safe r i k' hk hr h1 htk
    · rw [hq.asg r k' c hk' hc hr (fun e => by have := hrt e; omega), ht hk']
      constructor
      · rintro ⟨x, y⟩
        refine ⟨⟨x, ?_⟩, y⟩
        rintro ⟨rfl, rfl⟩
        have := hrt rfl
        rw [y, ← e] at this
        omega
      · exact fun x => ⟨x.1.1, x.2⟩
  · rintro ⟨q, hq⟩
    have hfr : ∀ r k', k' < n → Todo n i (j * n + k + 1) s r k' → ¬ (r = i ∧ k' = k) → _ := fun r k' hk' x y => (take_free hf hk hj hs h hk' x y).1 (hq.free r k' hk' ((ht hk').2 ⟨x, y⟩))
    refine ⟨fun r k' => if r = i ∧ k' = k then j else q r k', fun r k' hk' htd => ?_, fun r r' k' hk' hr x y => ?_, fun r k1 k2 h1 h2 hne x y => ?_, fun r k' c hk' hc hr hrt => ?_⟩
    · by_cases e : r = i ∧ k' = k
      · rw [if_pos e, e.1, e.2]; exact hf
      · rw [if_neg e]; exact (hfr r k' hk' htd e).1
    · have e : ¬ (r = i ∧ k' = k) := by
        rcases y with y | y <;> omega
      rw [if_neg e]
      by_cases e' : r' = i ∧ k' = k
      · rw [if_pos e', e'.1]
        exact (hfr r k' hk' x e).2.2 (by omega) e'.2
      · rw [if_neg e']
        exact hq.safe r r' k' hk' hr ((ht hk').2 ⟨x, e⟩) ((ht hk').2 ⟨y, e'⟩)
    · by_cases e : r = i ∧ k1 = k
      · have e' : ¬ (r = i ∧ k2 = k) := fun e2 => hne (by omega)
        rw [if_pos e, if_neg e']
        exact fun e2 => (hfr r k2 h2 y e').2.1 e.1 e2.symm
      · rw [if_neg e]
        by_cases e' : r = i ∧ k2 = k
        · rw [if_pos e']
          exact (hfr r k1 h1 x e).2.1 e'.1
        · rw [if_neg e']
          exact hq.row r k1 k2 h1 h2 hne ((ht h1).2 ⟨x, e⟩) ((ht h2).2 ⟨y, e'⟩)
    · by_cases e : r = i ∧ k' = k
      · obtain ⟨rfl, rfl⟩ := e
        rw [if_pos ⟨rfl, rfl⟩]
        by_cases hcj : c = j
        · subst hcj
          exact ⟨fun _ => ⟨htk, rfl⟩, fun _ => ha⟩
        · have := hrt rfl
          have hlt : c * n + k' < j * n + k' := by
            apply Classical.byContradiction
            intro hh
            exact hcj (idx_inj hk hk (show c * n + k' = j * n + k' by omega)).1
          rw [hq.asg r k' c hk' hc hr fun _ => hlt, ht hk']
          exact ⟨fun x => absurd ⟨rfl, rfl⟩ x.1.2, fun x => absurd x.2 hcj⟩
      · rw [if_neg e]
        by_cases e2 : r = i ∧ c * n + k' = j * n + k
        · exact absurd ⟨e2.1, (idx_inj hk' hk e2.2).2⟩ e
        · rw [hq.asg r k' c hk' hc hr (fun e => by have := hrt e; omega), ht hk']
          exact ⟨fun x => ⟨x.1.1, x.2⟩, fun x => ⟨⟨x.1, e⟩, x.2⟩⟩

/-- The last piece -/
theorem take_last {t : Nat} {a : Asg 2} (hn : n < 32) (hf : Free s (0 * n + k) 0) (hk : k < n) (h : CInv n 0 (0 * n + k + 1) s) (ha : (a (0 * (n * n) + (0 * n + k) + 1)).val ≠ 0) (ht : t = 0 * (n * n) + (0 * n + k) + 1) :
    CP rook n 0 (0 * n + k + 1) s a ↔ ∀ l, 1 ≤ l → l < t → (a l).val = 0 := by
  subst ht
  have hu := take_undone hf hk h
  have hall : ∀ k', k' < n → ¬ Done n 0 (0 * n + k + 1) s k' → k' = k := by
    intro k' hk' hd
    obtain ⟨c, hc⟩ := h.now rfl k' hk' hd
    have hlt := h.undone k' c hk' hd hc
    have hc0 : c = 0 := by
      apply Classical.byContradiction
      intro hc0
      have : 1 * n ≤ c * n := Nat.mul_le_mul_right _ (by omega)
      omega
    subst hc0
    exact col_unique h hk' hk hd hu hc hf
  have htodo : ∀ r k', k' < n → Todo n 0 (0 * n + k + 1) s r k' → r = 0 ∧ k' = k := by
    intro r k' hk' ht
    rcases ht with ht | ht
    · omega
    · exact ⟨ht.1, hall k' hk' ht.2⟩
  constructor
  · rintro ⟨q, hq⟩ l h1 h2
    apply Classical.byContradiction
    intro hz
    have := (hq.asg 0 (l - 1) 0 (by omega) (by omega) (Nat.le_refl _) (fun _ => by omega)).1 (by rw [show 0 * (n * n) + (0 * n + (l - 1)) + 1 = l by omega]; exact hz)
    have := htodo _ _ (by omega) this.1
    omega
  · intro hz
    refine ⟨fun _ _ => 0, fun r k' hk' ht => ?_, fun r r' k' hk' hr ht ht' => ?_, fun r k1 k2 h1 h2 hne x y => ?_, fun r k' c hk' hc hr hrt => ?_⟩
    · obtain ⟨rfl, rfl⟩ := htodo r k' hk' ht
      exact hf
    · have := htodo _ _ hk' ht
      have := htodo _ _ hk' ht'
      omega
    · have := htodo _ _ h1 x
      have := htodo _ _ h2 y
      omega
    · have hr0 : r = 0 := by omega
      subst hr0
      have hrt := hrt rfl
      have hc0 : c = 0 := by
        apply Classical.byContradiction
        intro hc0
        have : 1 * n ≤ c * n := Nat.mul_le_mul_right _ (by omega)
        omega
      subst hc0
      by_cases e : k' = k
      · subst e
        exact ⟨fun _ => ⟨.inr ⟨rfl, hu⟩, rfl⟩, fun _ => ha⟩
      · rw [hz _ (by omega) (by omega)]
        exact ⟨fun h => absurd rfl h, fun x => absurd (htodo _ _ hk' x.1).2 e⟩

end

end TdZdd.Queens
