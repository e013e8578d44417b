import Verif.QueensColored2

/-! `ColoredNQueenZdd`: `getChild` -/

namespace TdZdd.Queens

theorem idx_lt {n i k : Nat} (hi : i < n) (hk : k < n) : i * n + k < n * n := by
  have : (i + 1) * n ≤ n * n := Nat.mul_le_mul_right _ hi
  rw [Nat.succ_mul] at this
  omega

theorem clev {n i j k : Nat} (hj : j < n) (hk : k < n) :
    (i * (n * n) + (j * n + k) + 1 - 1) / (n * n) = i ∧ (i * (n * n) + (j * n + k) + 1 - 1) % (n * n) / n = j ∧ (i * (n * n) + (j * n + k) + 1 - 1) % (n * n) % n = k := by
  have h := idx_lt hj hk
  rw [lev_div h, lev_mod h]
  have h1 := lev_div (i := j) hk
  have h2 := lev_mod (i := j) hk
  rw [Nat.add_sub_cancel] at h1 h2
  exact ⟨rfl, h1, h2⟩

theorem clearLoop_spec {n j base : Nat} (hj : j < 32) : ∀ (c : Nat) (s : List (BitVec 32)), base + c ≤ s.length → (∀ p x, Free s p x → x < n) →
    ∃ s', clearLoop j base c s = some s' ∧ s'.length = s.length ∧ ∀ p x, Free s' p x ↔ Free s p x ∧ (base ≤ p → p < base + c → x ≠ j)
  | 0, s, _, _ => ⟨s, rfl, rfl, fun p x => ⟨fun h => ⟨h, fun h1 h2 => by omega⟩, fun h => h.1⟩⟩
  | c + 1, s, hl, hs => by
    have hp : base + c < s.length := by omega
    obtain ⟨w, hw⟩ := getElem_some hp
    unfold clearLoop
    rw [hw, Option.bind_some]
    have hset : ∀ p x, Free (s.set (base + c) (w &&& ~~~bit j)) p x ↔ Free s p x ∧ (p = base + c → x ≠ j) := fun p x => by
      by_cases e : base + c = p
      · subst e
        rw [free_set hp, clear_bit hj, free_iff hw]
        exact ⟨fun h => ⟨h.1, fun _ => h.2⟩, fun h => ⟨h.1, h.2 rfl⟩⟩
      · rw [free_set_ne e]
        exact ⟨fun h => ⟨h, fun e' => absurd e'.symm e⟩, fun h => h.1⟩
    obtain ⟨s', e, h1, h2⟩ := clearLoop_spec (n := n) (base := base) hj c (s.set (base + c) (w &&& ~~~bit j)) (by rw [List.length_set]; omega) (fun p x h => hs p x ((hset p x).1 h).1)
    refine ⟨s', e, by rw [h1, List.length_set], fun p x => ?_⟩
    rw [h2, hset]
    constructor
    · rintro ⟨⟨x1, x2⟩, x3⟩
      refine ⟨x1, fun y1 y2 => ?_⟩
      by_cases e : p = base + c
      · exact x2 e
      · exact x3 y1 (by omega)
    · rintro ⟨x1, x2⟩
      exact ⟨⟨x1, fun e => x2 (by omega) (by omega)⟩, fun y1 y2 => x2 y1 (by omega)⟩

theorem cfill {rook : Bool} {n i t k j : Nat} {s : List (BitVec 32)} {a : Asg 2} {q : Nat → Nat → Nat} (h : CSol rook n i t s a q) (hk : k < n) (hu : ¬ Done n i t s k) (e : q i k = j) :
    Fill rook i (fun x c => Free s (x * n + k) c ∧ ¬ Att rook i j x c) fun x => q x k := by
  subst e
  exact ⟨fun x hx => ⟨h.free x k hk (.inl hx), h.safe x i k hk hx (.inl hx) (.inr ⟨rfl, hu⟩)⟩, fun x y hxy hy => h.safe x y k hk hxy (.inl (by omega)) (.inl hy)⟩

/-- The outcome of the rest of `getChild`: a terminal or a node. `l` is the level code below which the search began. -/
def CRes (rook : Bool) (n : Nat) (l : Nat) (M : Asg 2 → Prop) (r : Int × List (BitVec 32)) : Prop :=
  (r.1 = 0 ∧ ∀ a, ¬ M a) ∨
  ∃ i j k, i < n ∧ j < n ∧ k < n ∧ r.1 = ((i * (n * n) + (j * n + k) + 1 : Nat) : Int) ∧ i * (n * n) + (j * n + k) + 1 ≤ l ∧ CInv n i (j * n + k + 1) r.2 ∧ Free r.2 (i * n + k) j ∧
    ∀ a, M a ↔ (∀ x, i * (n * n) + (j * n + k) + 1 < x → x ≤ l → (a x).val = 0) ∧ CP rook n i (j * n + k + 1) r.2 a

theorem set_clear {n i j k : Nat} {s : List (BitVec 32)} {w : BitVec 32} (hj : j < 32) (hw : s[i * n + k]? = some w) (p c : Nat) :
    Free (s.set (i * n + k) (w &&& ~~~bit j)) p c ↔ Free s p c ∧ ¬ (p = i * n + k ∧ c = j) := by
  have hp : i * n + k < s.length := by
    apply Classical.byContradiction
    intro h
    rw [List.getElem?_eq_none (by omega)] at hw
    cases hw
  by_cases e : i * n + k = p
  · subst e
    rw [free_set hp, clear_bit hj, free_iff hw]
    simp
  · rw [free_set_ne e]
    exact ⟨fun h => ⟨h, fun e' => e e'.1.symm⟩, fun h => h.1⟩

theorem cscan_spec {rook : Bool} {n : Nat} (hn : n < 32) : ∀ (l i t : Nat) (s : List (BitVec 32)), l = i * (n * n) + t → CInv n i t s →
    ∃ r, cscan rook n (l + 1) s = some r ∧ CRes rook n l (CP rook n i t s) r := by
  intro l
  induction l with
  | zero =>
    intro i t s hl h
    have hn0 : 0 < n := Nat.lt_of_le_of_lt (Nat.zero_le _) h.hi
    have ht : t = 0 := by omega
    subst ht
    obtain ⟨i', e, _⟩ := cross (rook := rook) h
    subst e
    have : 1 * 1 ≤ (i' + 1) * (n * n) := Nat.mul_le_mul (by omega) (Nat.mul_pos hn0 hn0)
    omega
  | succ l ih =>
    have main : ∀ (i t : Nat) (s : List (BitVec 32)), l + 1 = i * (n * n) + (t + 1) → CInv n i (t + 1) s → ∃ r, cscan rook n (l + 1 + 1) s = some r ∧ CRes rook n (l + 1) (CP rook n i (t + 1) s) r := by
      intro i t s hl h
      have hn0 : 0 < n := Nat.lt_of_le_of_lt (Nat.zero_le _) h.hi
      obtain ⟨j, k, hj, hk, rfl⟩ : ∃ j k, j < n ∧ k < n ∧ t = j * n + k := ⟨t / n, t % n, by rw [Nat.div_lt_iff_lt_mul hn0]; have := h.ht; omega, Nat.mod_lt _ hn0, by rw [Nat.mul_comm]; exact (Nat.div_add_mod _ _).symm⟩
      obtain ⟨c1, c2, c3⟩ := clev (i := i) hj hk
      have hl' : l + 1 = i * (n * n) + (j * n + k) + 1 := by omega
      have hidx := idx_lt h.hi hk
      obtain ⟨w, hw⟩ := getElem_some (a := s) (p := i * n + k) (by rw [h.ok.length]; exact hidx)
      unfold cscan
      rw [if_neg (by omega), hl']
      simp only [c1, c2, c3, hw, Option.bind_some]
      obtain ⟨tk, ht, htf⟩ := takable_spec (rook := rook) (pos := fun ii => ii * n + k) (i := i) hn hj h.ok.lt (fun x hx => by rw [h.ok.length]; have := idx_lt (show x < n by have := h.hi; omega) hk; exact this)
      have hF := set_clear (n := n) (i := i) (k := k) (show j < 32 by omega) hw
      have hdrop : (∀ a q, CSol rook n i (j * n + k + 1) s a q → ¬ Done n i (j * n + k + 1) s k → q i k ≠ j) →
          ∃ r, (if w &&& ~~~bit j = 0 then some (0, s.set (i * n + k) (w &&& ~~~bit j)) else cscan rook n (i * (n * n) + (j * n + k) + 1) (s.set (i * n + k) (w &&& ~~~bit j))) = some r ∧ CRes rook n (i * (n * n) + (j * n + k) + 1) (CP rook n i (j * n + k + 1) s) r := by
        intro hq
        have hcp := fun a => drop_cp (rook := rook) hk hj hF (hq a)
        by_cases h0 : w &&& ~~~bit j = 0
        · rw [if_pos h0]
          refine ⟨_, rfl, .inl ⟨rfl, fun a ha => ?_⟩⟩
          have hdone : ¬ Done n i (j * n + k + 1) s k := by
            intro hd
            have h1 := h.mark k (n - 1) hk hd hd.1
            have hne : n - 1 ≠ j := fun e => by have := hd.2; rw [e] at this; omega
            have := (clear_bit (w := w) (j := j) (by omega)).2 ⟨(free_iff hw).1 hd.1, hne⟩
            rw [h0] at this
            simp at this
          obtain ⟨_, q, hq'⟩ := (hcp a).1 ha
          have h2 := hq'.free i k hk (.inr ⟨rfl, fun hd => hdone ((drop_done hk hj hF hk).1 hd)⟩)
          obtain ⟨w', e, hw'⟩ := h2
          rw [List.getElem?_set_self (by rw [h.ok.length]; exact hidx)] at e
          cases e
          rw [h0] at hw'
          simp at hw'
        · rw [if_neg h0]
          have hlast : l = i * (n * n) + (j * n + k) := by omega
          obtain ⟨r, e, hr⟩ := ih i (j * n + k) (s.set (i * n + k) (w &&& ~~~bit j)) hlast (drop_inv hk hj hF (List.length_set ..) (by
            obtain ⟨c, hc⟩ := ne_zero_iff.1 h0
            exact ⟨c, (free_set (by rw [h.ok.length]; exact hidx)).2 hc⟩) h)
          rw [hlast] at e
          refine ⟨r, e, ?_⟩
          rcases hr with ⟨h1, h2⟩ | ⟨i', j', k', g1, g2, g3, g4, g5, g6, g7, g8⟩
          · exact .inl ⟨h1, fun a ha => h2 a ((hcp a).1 ha).2⟩
          · refine .inr ⟨i', j', k', g1, g2, g3, g4, by omega, g6, g7, fun a => ?_⟩
            rw [hcp, g8]
            constructor
            · rintro ⟨x1, x2, x3⟩
              refine ⟨fun x y1 y2 => ?_, x3⟩
              by_cases e : x = i * (n * n) + (j * n + k) + 1
              · rw [e]; exact x1
              · exact x2 x y1 (by omega)
            · rintro ⟨x1, x2⟩
              exact ⟨x1 _ (by omega) (Nat.le_refl _), fun x y1 y2 => x1 x y1 (by omega), x2⟩
      by_cases hb : w &&& bit j ≠ 0
      · rw [if_pos hb, ht, Option.bind_some]
        cases tk with
        | true =>
          rw [if_pos rfl]
          exact ⟨_, rfl, .inr ⟨i, j, k, h.hi, hj, hk, rfl, Nat.le_refl _, h, (free_iff hw).2 ((and_bit (by omega)).1 hb), fun a => ⟨fun x => ⟨fun y y1 y2 => by omega, x⟩, fun x => x.2⟩⟩⟩
        | false =>
          rw [if_neg Bool.false_ne_true]
          exact hdrop fun a q hq hd e => htf rfl ⟨_, cfill hq hk hd e⟩
      · rw [if_neg hb, Option.bind_some, if_neg Bool.false_ne_true]
        refine hdrop fun a q hq hd e => hb ((and_bit (by omega)).2 ?_)
        have := hq.free i k hk (.inr ⟨rfl, hd⟩)
        rw [e, free_iff hw] at this
        exact this
    intro i t s hl h
    cases t with
    | zero =>
      obtain ⟨i', e, h', hP⟩ := cross (rook := rook) h
      subst e
      have hn0 : 0 < n := Nat.lt_of_le_of_lt (Nat.zero_le _) h'.hi
      have hnn : 0 < n * n := Nat.mul_pos hn0 hn0
      obtain ⟨t, ht⟩ : ∃ t, n * n = t + 1 := ⟨n * n - 1, by omega⟩
      rw [ht] at h'
      obtain ⟨r, e, hr⟩ := main i' t s (by rw [hl, Nat.succ_mul]; omega) h'
      refine ⟨r, e, ?_⟩
      rw [← ht] at hr
      rcases hr with ⟨h1, h2⟩ | ⟨i', j', k', g1, g2, g3, g4, g5, g6, g7, g8⟩
      · exact .inl ⟨h1, fun a ha => h2 a ((hP a).1 ha)⟩
      · exact .inr ⟨i', j', k', g1, g2, g3, g4, g5, g6, g7, fun a => by rw [hP, g8]⟩
    | succ t => exact main i t s hl h

/-- the invariant of the nodes -/
def CNode (n : Nat) (l : Nat) (s : List (BitVec 32)) : Prop :=
  ∃ i j k, i < n ∧ j < n ∧ k < n ∧ l = i * (n * n) + (j * n + k) + 1 ∧ CInv n i (j * n + k + 1) s ∧ Free s (i * n + k) j

/-- the meaning of the nodes -/
def CM (rook : Bool) (n : Nat) (l : Nat) (s : List (BitVec 32)) (a : Asg 2) : Prop := CP rook n ((l - 1) / (n * n)) ((l - 1) % (n * n) + 1) s a

theorem cm_eq {rook : Bool} {n i j k : Nat} (hj : j < n) (hk : k < n) {s : List (BitVec 32)} {a : Asg 2} : CM rook n (i * (n * n) + (j * n + k) + 1) s a ↔ CP rook n i (j * n + k + 1) s a := by
  unfold CM
  have h := idx_lt hj hk
  rw [lev_div h, lev_mod h]

theorem cchild_spec {rook : Bool} {n : Nat} (hn : n < 32) {l : Nat} {s : List (BitVec 32)} (hI : CNode n l s) (b : Bool) :
    ∃ r, cchild rook n s l b = some r ∧
      ((r.1 = 0 ∧ ∀ a : Asg 2, (b = true ↔ (a l).val ≠ 0) → ¬ CM rook n l s a) ∨
       (r.1 = -1 ∧ ∀ a : Asg 2, (b = true ↔ (a l).val ≠ 0) → (CM rook n l s a ↔ ∀ j, 1 ≤ j → j < l → (a j).val = 0)) ∨
       ∃ k : Nat, r.1 = k ∧ k < l ∧ CNode n k r.2 ∧ ∀ a : Asg 2, (b = true ↔ (a l).val ≠ 0) → (CM rook n l s a ↔ (∀ j, k < j → j < l → (a j).val = 0) ∧ CM rook n k r.2 a)) := by
  obtain ⟨i, j, k, hi, hj, hk, rfl, h, hf⟩ := hI
  have hcm := fun a => cm_eq (rook := rook) (i := i) (s := s) (a := a) hj hk
  obtain ⟨c1, c2, c3⟩ := clev (i := i) hj hk
  have hidx := idx_lt hi hk
  have hlen := h.ok.length
  obtain ⟨w, hw⟩ := getElem_some (a := s) (p := i * n + k) (by rw [hlen]; exact hidx)
  have hu := take_undone hf hk h
  unfold cchild
  simp only [c1, c2, c3, hw, Option.bind_some]
  cases b with
  | true =>
    simp only [if_true, true_iff]
    rw [if_neg ((and_bit (by omega)).2 ((free_iff hw).1 hf))]
    have hposl : ∀ x, x < i → x * n + k < s.length := fun x hx => by rw [hlen]; exact idx_lt (by omega) hk
    obtain ⟨r, e, hr⟩ := takeLoop_spec (rook := rook) (pos := fun ii => ii * n + k) hn hj (fun x y _ _ e => (idx_inj hk hk e).1) i s 0 (Nat.le_refl _) hposl h.ok.lt
    rw [e, Option.bind_some]
    have hat : ∀ a q, (a (i * (n * n) + (j * n + k) + 1)).val ≠ 0 → CSol rook n i (j * n + k + 1) s a q → q i k = j := fun a q ha hq =>
      (((hq.asg i k j hk hj (Nat.le_refl _) (fun _ => by omega)).1 ha).2).symm
    match r, hr with
    | none, ⟨x, hx, hr⟩ =>
      refine ⟨_, rfl, .inl ⟨rfl, fun a ha hP => ?_⟩⟩
      obtain ⟨q, hq⟩ := (hcm a).1 hP
      have hfl := cfill hq hk hu (hat a q ha hq)
      exact (hfl.1 x hx).2 (hr _ (hfl.1 x hx).1)
    | some (s1, total), ⟨r1, r2, r3, r4, r5⟩ =>
      dsimp only
      by_cases hp : popcount total < i
      · rw [if_pos hp]
        refine ⟨_, rfl, .inl ⟨rfl, fun a ha hP => ?_⟩⟩
        obtain ⟨q, hq⟩ := (hcm a).1 hP
        have hfl := cfill hq hk hu (hat a q ha hq)
        have := popcount_ge (w := total) (m := i) (fun x => q x k) (fun x hx => (r5 _).2 (.inr ⟨x, hx, (r3 x hx _).2 (hfl.1 x hx)⟩)) (fun x y hxy hy h => hfl.2 x y hxy hy (.inl h))
        omega
      · rw [if_neg hp]
        by_cases h0 : i = 0 ∧ j = 0
        · rw [if_pos h0]
          obtain ⟨rfl, rfl⟩ := h0
          refine ⟨_, rfl, .inr (.inl ⟨rfl, fun a ha => ?_⟩)⟩
          rw [hcm]
          exact take_last hn hf hk h ha rfl
        · rw [if_neg h0]
          have hok1 : ∀ p c, Free s1 p c → c < n := fun p c hc => by
            by_cases hx : ∃ x, x < i ∧ p = x * n + k
            · obtain ⟨x, hx, rfl⟩ := hx
              exact h.ok.lt _ c ((r3 x hx c).1 hc).1
            · exact h.ok.lt _ c ((r2 p (fun x hx' e => hx ⟨x, hx', e⟩) c).1 hc)
          have hl1 : i * n + k < s1.length := by rw [r1, hlen]; exact hidx
          have hset : ∀ p c, Free (s1.set (i * n + k) (bit (n - 1))) p c ↔ if p = i * n + k then c = n - 1 else Free s1 p c := fun p c => by
            by_cases e : p = i * n + k
            · rw [if_pos e, e, free_set hl1, getLsbD_bit (by omega)]; simp
            · rw [if_neg e, free_set_ne (fun e' => e e'.symm)]
          obtain ⟨s2, e2, l2, f2⟩ := clearLoop_spec (n := n) (j := j) (base := i * n) (by omega) k (s1.set (i * n + k) (bit (n - 1))) (by rw [List.length_set]; omega) (fun p c hc => by
            rw [hset] at hc
            split at hc
            · omega
            · exact hok1 p c hc)
          rw [e2, Option.bind_some]
          have hlow : ∀ r c k', r < i → k' < n → (Free s2 (r * n + k') c ↔ Free s1 (r * n + k') c) := fun r c k' hr hk' => by
            have hlt : r * n + k' < i * n := by
              have : (r + 1) * n ≤ i * n := Nat.mul_le_mul_right _ hr
              rw [Nat.succ_mul] at this
              omega
            rw [f2, hset, if_neg (by omega)]
            exact ⟨fun x => x.1, fun x => ⟨x, fun y => by omega⟩⟩
          have hT : Taken rook n i j k s s2 := by
            refine ⟨by rw [l2, List.length_set, r1], fun p c hc => ?_, fun c => ?_, fun k' c hk' hne => ?_, fun r c hr => ?_, fun r hr => ?_, fun r k' c hr hk' hne => ?_⟩
            · have := ((f2 p c).1 hc).1
              rw [hset] at this
              split at this
              · omega
              · exact hok1 p c this
            · rw [f2, hset, if_pos rfl]
              exact ⟨fun x => x.1, fun x => ⟨x, fun y z => by omega⟩⟩
            · rw [f2, hset, if_neg (fun e => hne (by omega)), r2 _ (fun x hx e => hne (idx_inj hk' hk e).2)]
              exact ⟨fun x => ⟨x.1, fun y => x.2 (by omega) (by omega)⟩, fun x => ⟨x.1, fun y z => x.2 (by omega)⟩⟩
            · rw [hlow r c k hr hk, r3 r hr]
            · obtain ⟨c, hc⟩ := r4 r hr
              exact ⟨c, (hlow r c k hr hk).2 hc⟩
            · rw [hlow r c k' hr hk', r2 _ (fun x hx e => hne (idx_inj hk' hk e).2)]
          obtain ⟨r, e, hr⟩ := cscan_spec (rook := rook) hn (i * (n * n) + (j * n + k)) i (j * n + k) s2 rfl (take_inv hf hk hj hT h0 h)
          refine ⟨r, e, ?_⟩
          rcases hr with ⟨h1, h2⟩ | ⟨i', j', k', g1, g2, g3, g4, g5, g6, g7, g8⟩
          · exact .inl ⟨h1, fun a ha hP => h2 a ((take_cp hf hk hj hT h ha).1 ((hcm a).1 hP))⟩
          · refine .inr (.inr ⟨_, g4, by omega, ⟨i', j', k', g1, g2, g3, rfl, g6, g7⟩, fun a ha => ?_⟩)
            rw [hcm, take_cp hf hk hj hT h ha, g8, cm_eq g2 g3]
            exact ⟨fun x => ⟨fun y y1 y2 => x.1 y y1 (by omega), x.2⟩, fun x => ⟨fun y y1 y2 => x.1 y y1 (by omega), x.2⟩⟩
  | false =>
    simp only [Bool.false_eq_true, if_false, false_iff, ne_eq, Classical.not_not]
    have hF := set_clear (n := n) (i := i) (k := k) (show j < 32 by omega) hw
    have hcp := fun (a : Asg 2) (ha : (a (i * (n * n) + (j * n + k) + 1)).val = 0) => drop_cp (rook := rook) (a := a) hk hj hF (fun q hq hd e =>
      (hq.asg i k j hk hj (Nat.le_refl _) (fun _ => by omega)).2 ⟨.inr ⟨rfl, hd⟩, e.symm⟩ ha)
    by_cases h0 : w &&& ~~~bit j = 0
    · rw [if_pos h0]
      refine ⟨_, rfl, .inl ⟨rfl, fun a ha hP => ?_⟩⟩
      obtain ⟨_, q, hq'⟩ := (hcp a ha).1 ((hcm a).1 hP)
      obtain ⟨w', e, hw'⟩ := hq'.free i k hk (.inr ⟨rfl, fun hd => hu ((drop_done hk hj hF hk).1 hd)⟩)
      rw [List.getElem?_set_self (by rw [hlen]; exact hidx)] at e
      cases e
      rw [h0] at hw'
      simp at hw'
    · rw [if_neg h0]
      have hex : ∃ c, Free (s.set (i * n + k) (w &&& ~~~bit j)) (i * n + k) c := by
        obtain ⟨c, hc⟩ := ne_zero_iff.1 h0
        exact ⟨c, (free_set (by rw [hlen]; exact hidx)).2 hc⟩
      have hj1 : ¬ j < 1 := by
        intro hj1
        have hj0 : j = 0 := by omega
        subst hj0
        obtain ⟨c, hc⟩ := hex
        obtain ⟨h1, h2⟩ := (hF _ _).1 hc
        have := h.undone k c hk hu h1
        have : c = 0 := by
          apply Classical.byContradiction
          intro hc0
          have : 1 * n ≤ c * n := Nat.mul_le_mul_right _ (by omega)
          omega
        exact h2 ⟨rfl, this⟩
      rw [if_neg hj1]
      obtain ⟨r, e, hr⟩ := cscan_spec (rook := rook) hn (i * (n * n) + (j * n + k)) i (j * n + k) _ rfl (drop_inv hk hj hF (List.length_set ..) hex h)
      refine ⟨r, e, ?_⟩
      rcases hr with ⟨h1, h2⟩ | ⟨i', j', k', g1, g2, g3, g4, g5, g6, g7, g8⟩
      · exact .inl ⟨h1, fun a ha hP => h2 a ((hcp a ha).1 ((hcm a).1 hP)).2⟩
      · refine .inr (.inr ⟨_, g4, by omega, ⟨i', j', k', g1, g2, g3, rfl, g6, g7⟩, fun a ha => ?_⟩)
        rw [hcm, hcp a ha, g8, cm_eq g2 g3]
        exact ⟨fun x => ⟨fun y y1 y2 => x.2.1 y y1 (by omega), x.2.2⟩, fun x => ⟨ha, fun y y1 y2 => x.1 y y1 (by omega), x.2⟩⟩

end TdZdd.Queens
