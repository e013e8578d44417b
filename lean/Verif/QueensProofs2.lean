import Verif.QueensProofs

/-! Meaning of the states of `NQueenZdd` -/

namespace TdZdd.Queens

/-- The fields up to row `i`, column `j` hold one piece per row, in the columns `q` that are allowed by `F`. -/
structure Sol (rook : Bool) (n i j : Nat) (F : Nat → Nat → Prop) (a : Asg 2) (q : Nat → Nat) : Prop where
  last : q i ≤ j
  lt : ∀ x, x ≤ i → q x < n
  free : ∀ x, x ≤ i → F x (q x)
  safe : ∀ x y, x < y → y ≤ i → ¬ Att rook y (q y) x (q x)
  asg : ∀ x c, x ≤ i → c < n → (x = i → c ≤ j) → ((a (x * n + c + 1)).val ≠ 0 ↔ c = q x)

def P (rook : Bool) (n i j : Nat) (F : Nat → Nat → Prop) (a : Asg 2) : Prop := ∃ q, Sol rook n i j F a q

theorem fill_of_sol {rook : Bool} {n i j : Nat} {F : Nat → Nat → Prop} {a : Asg 2} {q : Nat → Nat} (h : Sol rook n i j F a q) :
    Fill rook i (fun x c => F x c ∧ ¬ Att rook i (q i) x c) q :=
  ⟨fun x hx => ⟨h.free x (by omega), h.safe x i hx (Nat.le_refl _)⟩, fun x y hxy hy => h.safe x y hxy (by omega)⟩

/-- no piece at row `i`, column `j + 1` -/
theorem drop_iff {rook : Bool} {n i j : Nat} {F F' : Nat → Nat → Prop} {a : Asg 2} (hj : j + 1 < n) (hF : ∀ x c, x ≤ i → (F' x c ↔ F x c ∧ ¬ (x = i ∧ c = j + 1)))
    (h : ∀ q, Sol rook n i (j + 1) F a q → q i ≠ j + 1) : P rook n i (j + 1) F a ↔ (a (i * n + (j + 1) + 1)).val = 0 ∧ P rook n i j F' a := by
  constructor
  · rintro ⟨q, hq⟩
    have hne := h q hq
    refine ⟨?_, q, ?_, hq.lt, fun x hx => (hF x _ hx).2 ⟨hq.free x hx, fun e => hne (by rw [← e.1]; exact e.2)⟩, hq.safe, fun x c hx hc hxc => hq.asg x c hx hc fun e => Nat.le_succ_of_le (hxc e)⟩
    · apply Classical.byContradiction
      intro hz
      exact hne ((hq.asg i (j + 1) (Nat.le_refl _) hj (fun _ => Nat.le_refl _)).1 hz).symm
    · have := hq.last; omega
  · rintro ⟨hz, q, hq⟩
    refine ⟨q, by have := hq.last; omega, hq.lt, fun x hx => ((hF x _ hx).1 (hq.free x hx)).1, hq.safe, fun x c hx hc hxc => ?_⟩
    by_cases hxi : x = i ∧ c = j + 1
    · obtain ⟨rfl, rfl⟩ := hxi
      have := hq.last
      rw [hz]
      omega
    · exact hq.asg x c hx hc fun e => by have := hxc e; omega

theorem drop_last {rook : Bool} {n i : Nat} {F : Nat → Nat → Prop} {a : Asg 2} (h : ∀ q, Sol rook n i 0 F a q → q i ≠ 0) : ¬ P rook n i 0 F a :=
  fun ⟨q, hq⟩ => h q hq (by have := hq.last; omega)

/-- a piece at row `i`, column `j` -/
theorem sol_at {rook : Bool} {n i j : Nat} {F : Nat → Nat → Prop} {a : Asg 2} {q : Nat → Nat} (hj : j < n) (ha : (a (i * n + j + 1)).val ≠ 0) (h : Sol rook n i j F a q) : q i = j :=
  ((h.asg i j (Nat.le_refl _) hj fun _ => Nat.le_refl _).1 ha).symm

theorem take_zero {rook : Bool} {n j : Nat} {F : Nat → Nat → Prop} {a : Asg 2} (hj : j < n) (hF : F 0 j) (ha : (a (0 * n + j + 1)).val ≠ 0) :
    P rook n 0 j F a ↔ ∀ l, 1 ≤ l → l < 0 * n + j + 1 → (a l).val = 0 := by
  constructor
  · rintro ⟨q, hq⟩ l h1 h2
    have e := sol_at hj ha hq
    have := hq.asg 0 (l - 1) (Nat.le_refl _) (by omega) (fun _ => by omega)
    rw [show 0 * n + (l - 1) + 1 = l by omega] at this
    apply Classical.byContradiction
    intro hz
    have := this.1 hz
    omega
  · intro h
    refine ⟨fun _ => j, Nat.le_refl _, fun _ _ => hj, fun x hx => ?_, fun x y hxy hy => by omega, fun x c hx hc hxc => ?_⟩
    · rw [show x = 0 by omega]; exact hF
    · have hx0 : x = 0 := by omega
      subst hx0
      have hcj := hxc rfl
      by_cases hc : c = j
      · subst hc; exact ⟨fun _ => rfl, fun _ => ha⟩
      · rw [h _ (by omega) (by omega)]
        exact ⟨fun h => absurd rfl h, fun h => absurd h hc⟩

theorem take_succ {rook : Bool} {n i j : Nat} {F F' : Nat → Nat → Prop} {a : Asg 2} (hj : j < n) (hF : F (i + 1) j) (ha : (a ((i + 1) * n + j + 1)).val ≠ 0)
    (hF' : ∀ x c, x ≤ i → (F' x c ↔ F x c ∧ ¬ Att rook (i + 1) j x c)) :
    P rook n (i + 1) j F a ↔ (∀ l, i * n + (n - 1) + 1 < l → l < (i + 1) * n + j + 1 → (a l).val = 0) ∧ P rook n i (n - 1) F' a := by
  have hin : i * n + (n - 1) + 1 = (i + 1) * n := by rw [Nat.succ_mul]; omega
  rw [hin]
  constructor
  · rintro ⟨q, hq⟩
    have e := sol_at hj ha hq
    refine ⟨fun l h1 h2 => ?_, q, ?_, fun x hx => hq.lt x (by omega), fun x hx => (hF' x _ hx).2 ⟨hq.free x (by omega), ?_⟩, fun x y hxy hy => hq.safe x y hxy (by omega), fun x c hx hc _ => hq.asg x c (by omega) hc (fun e => by omega)⟩
    · have := hq.asg (i + 1) (l - 1 - (i + 1) * n) (Nat.le_refl _) (by omega) (fun _ => by omega)
      rw [show (i + 1) * n + (l - 1 - (i + 1) * n) + 1 = l by omega] at this
      apply Classical.byContradiction
      intro hz
      have := this.1 hz
      omega
    · have := hq.lt i (by omega); omega
    · have := hq.safe x (i + 1) (by omega) (Nat.le_refl _)
      rw [e] at this
      exact this
  · rintro ⟨hz, q, hq⟩
    refine ⟨fun x => if x = i + 1 then j else q x, ?_, fun x hx => ?_, fun x hx => ?_, fun x y hxy hy => ?_, fun x c hx hc hxc => ?_⟩
    · rw [if_pos rfl]; exact Nat.le_refl _
    · by_cases hxi : x = i + 1
      · rw [if_pos hxi]; exact hj
      · rw [if_neg hxi]; exact hq.lt x (by omega)
    · by_cases hxi : x = i + 1
      · rw [if_pos hxi, hxi]; exact hF
      · rw [if_neg hxi]; exact ((hF' x _ (by omega)).1 (hq.free x (by omega))).1
    · rw [if_neg (by omega : ¬ x = i + 1)]
      by_cases hyi : y = i + 1
      · rw [if_pos hyi, hyi]; exact ((hF' x _ (by omega)).1 (hq.free x (by omega))).2
      · rw [if_neg hyi]; exact hq.safe x y hxy (by omega)
    · by_cases hxi : x = i + 1
      · rw [if_pos hxi]
        subst hxi
        have hcj := hxc rfl
        by_cases hc : c = j
        · subst hc; exact ⟨fun _ => rfl, fun _ => ha⟩
        · rw [hz _ (by omega) (by omega)]
          exact ⟨fun h => absurd rfl h, fun h => absurd h hc⟩
      · rw [if_neg hxi]
        exact hq.asg x c (by omega) hc fun e => by omega

/-- array of the right size with bits for the columns only -/
structure Ok (n len : Nat) (s : List (BitVec 32)) : Prop where
  length : s.length = len
  lt : ∀ p c, Free s p c → c < n

theorem Ok.set {n len : Nat} {s : List (BitVec 32)} (h : Ok n len s) {p : Nat} {w : BitVec 32} (hw : ∀ c, w.getLsbD c = true → c < n) : Ok n len (s.set p w) := by
  refine ⟨by rw [List.length_set, h.length], fun p' c hc => ?_⟩
  by_cases e : p = p'
  · subst e
    by_cases hp : p < s.length
    · exact hw c ((free_set hp).1 hc)
    · rw [List.set_eq_of_length_le (by omega)] at hc
      exact h.lt _ _ hc
  · exact h.lt _ _ ((free_set_ne e).1 hc)

theorem lev_div {n i j : Nat} (hj : j < n) : (i * n + j + 1 - 1) / n = i := by
  rw [Nat.add_sub_cancel, Nat.add_comm, Nat.add_mul_div_right _ _ (by omega), Nat.div_eq_of_lt hj]; omega

theorem lev_mod {n i j : Nat} (hj : j < n) : (i * n + j + 1 - 1) % n = j := by
  rw [Nat.add_sub_cancel, Nat.add_comm, Nat.add_mul_mod_self_right, Nat.mod_eq_of_lt hj]

theorem scan_spec {rook : Bool} {n i : Nat} (hn : n < 32) (hi : i < n) : ∀ (j : Nat) (s : List (BitVec 32)), j < n → Ok n n s → (∀ c, Free s i c → c ≤ j) →
    ∃ r, scan rook n (i * n + j + 1 + 1) s = some r ∧ ((r.1 = 0 ∧ ∀ a, ¬ P rook n i j (Free s) a) ∨
      ∃ j', j' ≤ j ∧ r.1 = ((i * n + j' + 1 : Nat) : Int) ∧ Ok n n r.2 ∧ (∀ c, Free r.2 i c → c ≤ j') ∧
        ∀ a, P rook n i j (Free s) a ↔ (∀ l, i * n + j' + 1 < l → l < i * n + j + 1 + 1 → (a l).val = 0) ∧ P rook n i j' (Free r.2) a) := by
  intro j
  induction j with
  | zero =>
    intro s hj hs hc
    obtain ⟨w, hw⟩ := getElem_some (a := s) (p := i) (by rw [hs.length]; exact hi)
    unfold scan
    rw [if_neg (by omega)]
    simp only [lev_div hj, lev_mod hj, hw, Option.bind_some]
    obtain ⟨t, ht, htf⟩ := takable_spec (rook := rook) (pos := id) (i := i) hn hj hs.lt (fun x hx => by rw [hs.length]; show x < n; omega)
    have hzero : (∀ q a, Sol rook n i 0 (Free s) a q → q i ≠ 0) → ∃ r, (if w &&& ~~~bit 0 = 0 then some (0, s.set i (w &&& ~~~bit 0)) else scan rook n (i * n + 0 + 1) (s.set i (w &&& ~~~bit 0))) = some r ∧ ((r.1 = 0 ∧ ∀ a, ¬ P rook n i 0 (Free s) a) ∨
      ∃ j', j' ≤ 0 ∧ r.1 = ((i * n + j' + 1 : Nat) : Int) ∧ Ok n n r.2 ∧ (∀ c, Free r.2 i c → c ≤ j') ∧
        ∀ a, P rook n i 0 (Free s) a ↔ (∀ l, i * n + j' + 1 < l → l < i * n + 0 + 1 + 1 → (a l).val = 0) ∧ P rook n i j' (Free r.2) a) := by
      intro h
      have : w &&& ~~~bit 0 = 0 := by
        apply Classical.byContradiction
        intro h0
        obtain ⟨c, h0⟩ := ne_zero_iff.1 h0
        have h0 := (clear_bit (by decide)).1 h0
        have := hc c ((free_iff hw).2 h0.1)
        omega
      rw [if_pos this]
      exact ⟨_, rfl, .inl ⟨rfl, fun a => drop_last fun q hq => h q a hq⟩⟩
    by_cases hb : w &&& bit 0 ≠ 0
    · rw [if_pos hb, ht, Option.bind_some]
      cases t with
      | true =>
        rw [if_pos rfl]
        exact ⟨_, rfl, .inr ⟨0, Nat.le_refl _, rfl, hs, hc, fun a => ⟨fun h => ⟨fun l h1 h2 => by omega, h⟩, fun h => h.2⟩⟩⟩
      | false =>
        rw [if_neg Bool.false_ne_true]
        refine hzero fun q a hq e => htf rfl ⟨q, ?_⟩
        have := fill_of_sol hq
        rw [e] at this
        exact this
    · rw [if_neg hb, Option.bind_some, if_neg Bool.false_ne_true]
      refine hzero fun q a hq e => hb ((and_bit (by decide)).2 ?_)
      have := hq.free i (Nat.le_refl _)
      rw [e, free_iff hw] at this
      exact this
  | succ j ih =>
    intro s hj hs hc
    have hil : i < s.length := by rw [hs.length]; exact hi
    obtain ⟨w, hw⟩ := getElem_some hil
    unfold scan
    rw [if_neg (by omega)]
    simp only [lev_div hj, lev_mod hj, hw, Option.bind_some]
    obtain ⟨t, ht, htf⟩ := takable_spec (rook := rook) (pos := id) (i := i) hn hj hs.lt (fun x hx => by rw [hs.length]; show x < n; omega)
    have hself : ∀ c, Free (s.set i (w &&& ~~~bit (j + 1))) i c ↔ Free s i c ∧ c ≠ j + 1 := fun c => by rw [free_set hil, clear_bit (by omega), free_iff hw]
    have hzero : (∀ q a, Sol rook n i (j + 1) (Free s) a q → q i ≠ j + 1) →
      ∃ r, (if w &&& ~~~bit (j + 1) = 0 then some (0, s.set i (w &&& ~~~bit (j + 1))) else scan rook n (i * n + (j + 1) + 1) (s.set i (w &&& ~~~bit (j + 1)))) = some r ∧ ((r.1 = 0 ∧ ∀ a, ¬ P rook n i (j + 1) (Free s) a) ∨
      ∃ j', j' ≤ j + 1 ∧ r.1 = ((i * n + j' + 1 : Nat) : Int) ∧ Ok n n r.2 ∧ (∀ c, Free r.2 i c → c ≤ j') ∧
        ∀ a, P rook n i (j + 1) (Free s) a ↔ (∀ l, i * n + j' + 1 < l → l < i * n + (j + 1) + 1 + 1 → (a l).val = 0) ∧ P rook n i j' (Free r.2) a) := by
      intro h
      have hdrop : ∀ a, P rook n i (j + 1) (Free s) a ↔ (a (i * n + (j + 1) + 1)).val = 0 ∧ P rook n i j (Free (s.set i (w &&& ~~~bit (j + 1)))) a := fun a =>
        drop_iff hj (fun x c hx => by
          by_cases hxi : x = i
          · subst hxi; rw [hself]; simp
          · rw [free_set_ne (fun e => hxi e.symm)]; simp [hxi]) (fun q hq => h q a hq)
      by_cases h0 : w &&& ~~~bit (j + 1) = 0
      · rw [if_pos h0]
        refine ⟨_, rfl, .inl ⟨rfl, fun a hP => ?_⟩⟩
        obtain ⟨_, q, hq⟩ := (hdrop a).1 hP
        have := hq.free i (Nat.le_refl _)
        rw [free_set hil, h0] at this
        simp at this
      · rw [if_neg h0]
        obtain ⟨r, e, hr⟩ := ih (s.set i (w &&& ~~~bit (j + 1))) (by omega)
          (hs.set fun c h => hs.lt i c ((free_iff hw).2 ((clear_bit (by omega)).1 h).1))
          (fun c h => by have := (hself c).1 h; have := hc c this.1; omega)
        refine ⟨r, e, ?_⟩
        rcases hr with ⟨h1, h2⟩ | ⟨j', h1, h2, h3, h4, h5⟩
        · exact .inl ⟨h1, fun a hP => h2 a ((hdrop a).1 hP).2⟩
        · refine .inr ⟨j', by omega, h2, h3, h4, fun a => ?_⟩
          rw [hdrop, h5]
          constructor
          · rintro ⟨g1, g2, g3⟩
            refine ⟨fun l l1 l2 => ?_, g3⟩
            by_cases hl : l = i * n + (j + 1) + 1
            · rw [hl]; exact g1
            · exact g2 l l1 (by omega)
          · rintro ⟨g1, g2⟩
            exact ⟨g1 _ (by omega) (by omega), fun l l1 l2 => g1 l l1 (by omega), g2⟩
    by_cases hb : w &&& bit (j + 1) ≠ 0
    · rw [if_pos hb, ht, Option.bind_some]
      cases t with
      | true =>
        rw [if_pos rfl]
        exact ⟨_, rfl, .inr ⟨j + 1, Nat.le_refl _, rfl, hs, hc, fun a => ⟨fun h => ⟨fun l h1 h2 => by omega, h⟩, fun h => h.2⟩⟩⟩
      | false =>
        rw [if_neg Bool.false_ne_true]
        refine hzero fun q a hq e => htf rfl ⟨q, ?_⟩
        have := fill_of_sol hq
        rw [e] at this
        exact this
    · rw [if_neg hb, Option.bind_some, if_neg Bool.false_ne_true]
      refine hzero fun q a hq e => hb ((and_bit (by omega)).2 ?_)
      have := hq.free i (Nat.le_refl _)
      rw [e, free_iff hw] at this
      exact this

/-- the meaning of a state of `NQueenZdd`; with `tt`, the field at the top must be taken -/
def P' (rook : Bool) (n : Nat) (tt : Nat → Prop) (l : Nat) (s : List (BitVec 32)) (a : Asg 2) : Prop :=
  P rook n ((l - 1) / n) ((l - 1) % n) (Free s) a ∧ (tt l → (a l).val ≠ 0)

/-- the invariant of the states -/
structure Inv (n : Nat) (top : Nat) (tt : Nat → Prop) (l : Nat) (s : List (BitVec 32)) : Prop where
  pos : 0 < l
  le : l ≤ top
  ok : Ok n n s
  cols : ¬ tt l → ∀ c, Free s ((l - 1) / n) c → c ≤ (l - 1) % n

theorem child_spec {rook : Bool} {n top : Nat} {takeTop : Bool} (hn : n < 32) (htop : top ≤ n * n) {l : Nat} {s : List (BitVec 32)} (hI : Inv n top (fun l => takeTop = true ∧ l = top) l s) (b : Bool) :
    ∃ r, child rook n top takeTop s l b = some r ∧
      ((r.1 = 0 ∧ ∀ a : Asg 2, (b = true ↔ (a l).val ≠ 0) → ¬ P' rook n (fun l => takeTop = true ∧ l = top) l s a) ∨
       (r.1 = -1 ∧ ∀ a : Asg 2, (b = true ↔ (a l).val ≠ 0) → (P' rook n (fun l => takeTop = true ∧ l = top) l s a ↔ ∀ j, 1 ≤ j → j < l → (a j).val = 0)) ∨
       ∃ k : Nat, r.1 = k ∧ k < l ∧ Inv n top (fun l => takeTop = true ∧ l = top) k r.2 ∧ ∀ a : Asg 2, (b = true ↔ (a l).val ≠ 0) →
        (P' rook n (fun l => takeTop = true ∧ l = top) l s a ↔ (∀ j, k < j → j < l → (a j).val = 0) ∧ P' rook n (fun l => takeTop = true ∧ l = top) k r.2 a)) := by
  obtain ⟨hpos, hle, hok, hcols⟩ := hI
  have hn0 : 0 < n := by
    cases n with
    | zero => omega
    | succ n => omega
  obtain ⟨i, j, hj, rfl⟩ : ∃ i j, j < n ∧ l = i * n + j + 1 := ⟨(l - 1) / n, (l - 1) % n, Nat.mod_lt _ hn0, by have := Nat.div_add_mod (l - 1) n; rw [Nat.mul_comm] at this; omega⟩
  have hi : i < n := by
    apply Classical.byContradiction
    intro h
    have : n * n ≤ i * n := Nat.mul_le_mul_right _ (by omega)
    omega
  unfold P'
  rw [lev_div hj, lev_mod hj]
  rw [lev_div hj, lev_mod hj] at hcols
  -- a state below the top
  have low : ∀ (k : Nat) (s' : List (BitVec 32)) (i' j' : Nat), k = i' * n + j' + 1 → j' < n → k < i * n + j + 1 → Ok n n s' → (∀ c, Free s' i' c → c ≤ j') →
      Inv n top (fun l => takeTop = true ∧ l = top) k s' ∧ ∀ a, ((P rook n ((k - 1) / n) ((k - 1) % n) (Free s') a ∧ (takeTop = true ∧ k = top → (a k).val ≠ 0)) ↔ P rook n i' j' (Free s') a) := by
    intro k s' i' j' e hj' hk hs' hc'
    subst e
    refine ⟨⟨by omega, by omega, hs', fun _ => ?_⟩, fun a => ?_⟩
    · rw [lev_div hj', lev_mod hj']; exact hc'
    · rw [lev_div hj', lev_mod hj']
      exact ⟨fun h => h.1, fun h => ⟨h, fun h => by omega⟩⟩
  have hil : i < s.length := by rw [hok.length]; exact hi
  obtain ⟨w, hw⟩ := getElem_some hil
  unfold child
  simp only [lev_div hj, lev_mod hj, hw, Option.bind_some]
  cases b with
  | true =>
    simp only [if_true, true_iff]
    by_cases hb : w &&& bit j = 0
    · rw [if_pos hb]
      refine ⟨_, rfl, .inl ⟨rfl, fun a ha hP => ?_⟩⟩
      obtain ⟨⟨q, hq⟩, _⟩ := hP
      have := hq.free i (Nat.le_refl _)
      rw [sol_at hj ha hq, free_iff hw, ← and_bit (by omega)] at this
      exact this hb
    · rw [if_neg hb]
      have hFj : Free s i j := (free_iff hw).2 ((and_bit (by omega)).1 hb)
      obtain ⟨r, e, hr⟩ := takeLoop_spec (rook := rook) (pos := id) hn hj (fun x y _ _ h => h) i s 0 (Nat.le_refl _) (fun x hx => Nat.lt_trans hx hil) hok.lt
      rw [e, Option.bind_some]
      match r, hr with
      | none, ⟨x, hx, hr⟩ =>
        refine ⟨_, rfl, .inl ⟨rfl, fun a ha hP => ?_⟩⟩
        obtain ⟨⟨q, hq⟩, _⟩ := hP
        have h1 := hq.safe x i hx (Nat.le_refl _)
        rw [sol_at hj ha hq] at h1
        exact h1 (hr _ (hq.free x (by omega)))
      | some (s', total), ⟨r1, r2, r3, r4, r5⟩ =>
        dsimp only
        by_cases hi0 : i = 0
        · rw [if_pos hi0]
          subst hi0
          refine ⟨_, rfl, .inr (.inl ⟨rfl, fun a ha => ?_⟩)⟩
          rw [← take_zero (rook := rook) hj hFj ha]
          exact ⟨fun h => h.1, fun h => ⟨h, fun _ => ha⟩⟩
        · rw [if_neg hi0]
          obtain ⟨i, rfl⟩ : ∃ k, i = k + 1 := ⟨i - 1, by omega⟩
          have hF' : ∀ x c, x ≤ i → (Free (s'.set (i + 1) 0) x c ↔ Free s x c ∧ ¬ Att rook (i + 1) j x c) := fun x c hx => by
            rw [free_set_ne (by omega)]
            exact r3 x (by omega) c
          have htake : ∀ a : Asg 2, (a ((i + 1) * n + j + 1)).val ≠ 0 → _ := fun a ha => take_succ (rook := rook) hj hFj ha hF'
          by_cases hp : popcount total < i + 1
          · rw [if_pos hp]
            refine ⟨_, rfl, .inl ⟨rfl, fun a ha hP => ?_⟩⟩
            obtain ⟨⟨q, hq⟩, _⟩ := hP
            have hf := fill_of_sol hq
            rw [sol_at hj ha hq] at hf
            have := popcount_ge (w := total) (m := i + 1) q (fun x hx => (r5 _).2 (.inr ⟨x, hx, (r3 x hx _).2 (hf.1 x hx)⟩)) (fun x y hxy hy h => hf.2 x y hxy hy (.inl h))
            omega
          · rw [if_neg hp]
            have hok' : Ok n n s' := ⟨by rw [r1, hok.length], fun p c hc => by
              by_cases hpi : p < i + 1
              · exact hok.lt p c ((r3 p hpi c).1 hc).1
              · exact hok.lt p c ((r2 p (fun x hx (h : p = x) => by omega) c).1 hc)⟩
            have hok2 : Ok n n (s'.set (i + 1) 0) := hok'.set fun c h => by simp at h
            have hin : (i + 1) * n + 1 = i * n + (n - 1) + 1 + 1 := by rw [Nat.succ_mul]; omega
            rw [hin]
            obtain ⟨r, e, hr⟩ := scan_spec (rook := rook) (i := i) hn (by omega) (n - 1) (s'.set (i + 1) 0) (by omega) hok2 (fun c hc => by have := hok2.lt _ _ hc; omega)
            refine ⟨r, e, ?_⟩
            rcases hr with ⟨h1, h2⟩ | ⟨j', h1, h2, h3, h4, h5⟩
            · exact .inl ⟨h1, fun a ha hP => h2 a ((htake a ha).1 hP.1).2⟩
            · refine .inr (.inr ⟨i * n + j' + 1, h2, by omega, ?_⟩)
              obtain ⟨g1, g2⟩ := low _ r.2 i j' rfl (by omega) (by omega) h3 h4
              refine ⟨g1, fun a ha => ?_⟩
              rw [g2, htake a ha, h5]
              have e0 : i * n + (n - 1) + 1 = (i + 1) * n := by rw [Nat.succ_mul]; omega
              constructor
              · rintro ⟨⟨k1, k2, k3⟩, _⟩
                refine ⟨fun l l1 l2 => ?_, k3⟩
                by_cases hl : l < i * n + (n - 1) + 1 + 1
                · exact k2 l l1 hl
                · exact k1 l (by omega) l2
              · rintro ⟨k1, k2⟩
                exact ⟨⟨fun l l1 l2 => k1 l (by omega) l2, fun l l1 l2 => k1 l l1 (by omega), k2⟩, fun _ => ha⟩
  | false =>
    simp only [Bool.false_eq_true, if_false, false_iff, ne_eq, Classical.not_not]
    by_cases htt : takeTop = true ∧ i * n + j + 1 = top
    · rw [if_pos htt]
      exact ⟨_, rfl, .inl ⟨rfl, fun a ha hP => hP.2 htt ha⟩⟩
    · rw [if_neg htt]
      have hc := hcols htt
      have hself : ∀ c, Free (s.set i (w &&& ~~~bit j)) i c ↔ Free s i c ∧ c ≠ j := fun c => by rw [free_set hil, clear_bit (by omega), free_iff hw]
      have hne : ∀ a q, (a (i * n + j + 1)).val = 0 → Sol rook n i j (Free s) a q → q i ≠ j := fun a q ha hq e =>
        ((hq.asg i j (Nat.le_refl _) hj fun _ => Nat.le_refl _).2 e.symm) ha
      by_cases h0 : w &&& ~~~bit j = 0
      · rw [if_pos h0]
        refine ⟨_, rfl, .inl ⟨rfl, fun a ha hP => ?_⟩⟩
        obtain ⟨⟨q, hq⟩, _⟩ := hP
        have h1 := (hself (q i)).2 ⟨hq.free i (Nat.le_refl _), hne a q ha hq⟩
        rw [free_set hil, h0] at h1
        simp at h1
      · rw [if_neg h0]
        have hj1 : ¬ j < 1 := by
          intro hj1
          obtain ⟨c, h0⟩ := ne_zero_iff.1 h0
          have h0 := (clear_bit (by omega)).1 h0
          have := hc c ((free_iff hw).2 h0.1)
          omega
        rw [if_neg hj1]
        obtain ⟨j, rfl⟩ : ∃ k, j = k + 1 := ⟨j - 1, by omega⟩
        have hdrop : ∀ a : Asg 2, (a (i * n + (j + 1) + 1)).val = 0 → _ := fun a ha => drop_iff (rook := rook) (F' := Free (s.set i (w &&& ~~~bit (j + 1)))) hj (fun x c hx => by
          by_cases hxi : x = i
          · subst hxi; rw [hself]; simp
          · rw [free_set_ne (fun e => hxi e.symm)]; simp [hxi]) (fun q hq => hne a q ha hq)
        obtain ⟨r, e, hr⟩ := scan_spec (rook := rook) (i := i) hn hi j (s.set i (w &&& ~~~bit (j + 1))) (by omega)
          (hok.set fun c h => hok.lt i c ((free_iff hw).2 ((clear_bit (by omega)).1 h).1))
          (fun c h => by have := (hself c).1 h; have := hc c this.1; omega)
        refine ⟨r, e, ?_⟩
        rcases hr with ⟨h1, h2⟩ | ⟨j', h1, h2, h3, h4, h5⟩
        · exact .inl ⟨h1, fun a ha hP => h2 a ((hdrop a ha).1 hP.1).2⟩
        · refine .inr (.inr ⟨i * n + j' + 1, h2, by omega, ?_⟩)
          obtain ⟨g1, g2⟩ := low _ r.2 i j' rfl (by omega) (by omega) h3 h4
          refine ⟨g1, fun a ha => ?_⟩
          rw [g2, hdrop a ha, h5]
          constructor
          · rintro ⟨⟨_, k2, k3⟩, _⟩
            exact ⟨fun l l1 l2 => k2 l l1 (by omega), k3⟩
          · rintro ⟨k1, k2⟩
            exact ⟨⟨ha, fun l l1 l2 => k1 l l1 (by omega), k2⟩, fun h => absurd h htt⟩

end TdZdd.Queens
