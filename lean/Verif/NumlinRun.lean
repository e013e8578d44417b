import Verif.NumlinProofs
import Verif.SpecRun

/-! The order in which the specifications of `ddnumlin` draw the lines of a board. -/

namespace TdZdd.Nl

variable {S : Type}

/-- outcome of a part of `getChild` -/
def Step (r : Option (Option S)) (P : S → Prop) (dead : Prop) : Prop :=
  match r with
  | none => False
  | some none => dead
  | some (some s) => P s

theorem Step.andThen {r : Option (Option S)} {P Q : S → Prop} {dead : Prop} {f : S → Option (Option S)} (h : Step r P dead) (hf : ∀ s, P s → Step (f s) Q dead) :
    Step (Degree.andThen r f) Q dead := by
  match r, h with
  | some none, h => exact h
  | some (some s), h => exact hf s h

theorem Step.mono {r : Option (Option S)} {P Q : S → Prop} {dead : Prop} (h : Step r P dead) (hf : ∀ s, P s → Q s) : Step r Q dead := by
  match r, h with
  | some none, h => exact h
  | some (some s), h => exact hf s h

/-- the lines determined by an assignment -/
def lines (q : Board) (a : Asg 2) : Links := full q.num q.rows q.cols (hOf q a)

theorem lines_onBoard (q : Board) (a : Asg 2) : OnBoard q.rows q.cols (lines q a) :=
  full_onBoard fun i j h => by
    unfold hOf at h
    rw [Bool.and_eq_true, decide_eq_true_iff] at h
    exact h.1

theorem vdet_congr {num : Nat × Nat → Nat} {m n : Nat} {h h' : Nat → Nat → Bool} {i j : Nat} (hh : ∀ i' j', i' < i ∨ (i' = i ∧ j' < j) → h i' j' = h' i' j') :
    ∀ i' k, i' < i ∨ (i' = i ∧ k < j) → vdet num m n h i' k = vdet num m n h' i' k := by
  intro i'
  have hhd : ∀ r k, r < i ∨ (r = i ∧ k < j) → r < m → hdeg n h r k = hdeg n h' r k := by
    intro r k hr hm
    unfold hdeg
    rw [hh r (k - 1) (by omega), hh r k (by omega)]
  induction i' with
  | zero =>
    intro k hk
    unfold vdet
    by_cases hm : 0 < m
    · rw [hhd 0 k hk hm]
    · rw [Bool.eq_iff_iff, decide_eq_true_iff, decide_eq_true_iff]
      exact ⟨fun g => by omega, fun g => by omega⟩
  | succ r ih =>
    intro k hk
    unfold vdet
    rw [ih k (by omega)]
    by_cases hm : r + 1 < m
    · rw [hhd (r + 1) k hk hm]
    · rw [Bool.eq_iff_iff, decide_eq_true_iff, decide_eq_true_iff]
      exact ⟨fun g => by omega, fun g => by omega⟩

theorem pos_lt {n i j i' j' : Nat} (hj : j' + 1 < n) (h : i' < i ∨ (i' = i ∧ j' < j)) : i' * (n - 1) + j' < i * (n - 1) + j := by
  rcases h with h | ⟨rfl, h⟩
  · have : (i' + 1) * (n - 1) ≤ i * (n - 1) := Nat.mul_le_mul_right _ h
    rw [Nat.add_mul] at this
    omega
  · omega

theorem lines_part {q : Board} {a a' : Asg 2} {i j l : Nat} (hl : l + (i * (q.cols - 1) + j) = q.top) (h : ∀ l', l < l' → a l' = a' l') :
    part (lines q a) i j j = part (lines q a') i j j := by
  have hh : ∀ i' j', i' < i ∨ (i' = i ∧ j' < j) → hOf q a i' j' = hOf q a' i' j' := by
    intro i' j' hlt
    unfold hOf
    by_cases e : i' < q.rows ∧ j' + 1 < q.cols
    · have := pos_lt e.2 hlt
      rw [h _ (by omega)]
    · simp [e]
  have hv := vdet_congr (num := q.num) (m := q.rows) (n := q.cols) hh
  unfold part lines full
  congr 1
  · funext i' j'
    dsimp only
    by_cases e : i' < i ∨ (i' = i ∧ j' < j)
    · rw [hh _ _ e]
    · have : (decide (i' < i) || (decide (i' = i) && decide (j' < j))) = false := by
        rw [Bool.eq_false_iff]; simpa using e
      rw [this, Bool.and_false, Bool.and_false]
  · funext i' j'
    dsimp only
    by_cases e : i' < i ∨ (i' = i ∧ j' < j)
    · rw [hv _ _ e]
    · have : (decide (i' < i) || (decide (i' = i) && decide (j' < j))) = false := by
        rw [Bool.eq_false_iff]; simpa using e
      rw [this, Bool.and_false, Bool.and_false]

/-- A specification that draws the lines row by row decides `Sol`, if its steps keep an invariant. -/
theorem grid_run {sp : DdSpec 2 S} {q : Board} (hm : 1 ≤ q.rows) (hn : 2 ≤ q.cols) {s0 : S} {horz : Nat → Bool → S → Option (Option S)} {vert : Nat → Nat → S → Option (Option S)}
    {I : Links → Nat → Nat → Nat → S → Prop} {Sol : Links → Prop}
    (hroot : sp.root = ((q.top : Int), s0))
    (hchild : ∀ s level b i j, (q.top - level) / (q.cols - 1) = i → (q.top - level) % (q.cols - 1) = j → sp.child s level b = childOf s level
      (Degree.andThen (horz j (b != 0) s) fun s => Degree.andThen (vert i j s) fun s => if j + 1 = q.cols - 1 then vert i (j + 1) s else some (some s)))
    (h0 : ∀ a, I (part (lines q a) 0 0 0) 0 0 0 s0)
    (hh : ∀ a i j s, i < q.rows → j + 1 < q.cols → I (part (lines q a) i j j) i j j s →
      Step (horz j ((lines q a).h i j) s) (fun s' => I (part (lines q a) i (j + 1) j) i (j + 1) j s') (¬ Sol (lines q a)))
    (hv : ∀ a i hc k s, i < q.rows → k < q.cols → (k < hc ∨ (hc + 1 = q.cols ∧ k + 1 = q.cols)) → I (part (lines q a) i hc k) i hc k s →
      Step (vert i k s) (fun s' => I (part (lines q a) i hc (k + 1)) i hc (k + 1) s') (¬ Sol (lines q a)))
    (hrow : ∀ P i s, I P i (q.cols - 1) q.cols s → I P (i + 1) 0 0 s)
    (hend : ∀ a s, I (lines q a) q.rows 0 0 s → Sol (lines q a)) :
    Desc sp ∧ ∀ a, ZddMem sp q.top a ↔ Sol (lines q a) := by
  have htop : 0 < q.top := Nat.mul_pos hm (by omega)
  have hw : 0 < q.cols - 1 := by omega
  refine zddMem_of_run (R := fun l s a => 0 < l → l ≤ q.top ∧ ∀ i j, (q.top - l) / (q.cols - 1) = i → (q.top - l) % (q.cols - 1) = j → I (part (lines q a) i j j) i j j s) (Sol := fun a => Sol (lines q a))
    hroot htop ?_ ?_ ?_
  · intro a _
    refine ⟨Nat.le_refl _, fun i j hi hj => ?_⟩
    rw [Nat.sub_self, Nat.zero_div] at hi
    rw [Nat.sub_self, Nat.zero_mod] at hj
    subst hi; subst hj
    exact h0 a
  · intro l s a a' hR ha hl
    obtain ⟨hle, hI⟩ := hR hl
    refine ⟨hle, fun i j hi hj => ?_⟩
    have e := Nat.div_add_mod (q.top - l) (q.cols - 1)
    rw [hi, hj, Nat.mul_comm] at e
    rw [← lines_part (l := l) (by omega) ha]
    exact hI i j hi hj
  · intro l s a hl hR
    obtain ⟨hle, hI⟩ := hR hl
    generalize hi : (q.top - l) / (q.cols - 1) = i at hI
    generalize hj : (q.top - l) % (q.cols - 1) = j at hI
    have hI := hI i j rfl rfl
    have e := Nat.div_add_mod (q.top - l) (q.cols - 1)
    rw [hi, hj, Nat.mul_comm] at e
    have hjn : j + 1 < q.cols := by have := Nat.mod_lt (q.top - l) hw; omega
    have him : i < q.rows := by
      rw [← hi, Nat.div_lt_iff_lt_mul hw]
      unfold Board.top at hle ⊢ htop
      omega
    have hb : (a l != 0) = (lines q a).h i j := by
      have e' : q.top - (i * (q.cols - 1) + j) = l := by omega
      show _ = hOf q a i j
      unfold hOf
      rw [e', decide_eq_true ⟨him, hjn⟩, Bool.true_and]
      generalize a l = b
      revert b
      decide
    rw [hchild s l (a l) i j hi hj, hb]
    have hst : Step (Degree.andThen (horz j ((lines q a).h i j) s) fun s => Degree.andThen (vert i j s) fun s => if j + 1 = q.cols - 1 then vert i (j + 1) s else some (some s))
        (fun s' => if j + 1 = q.cols - 1 then I (part (lines q a) (i + 1) 0 0) (i + 1) 0 0 s' else I (part (lines q a) i (j + 1) (j + 1)) i (j + 1) (j + 1) s') (¬ Sol (lines q a)) := by
      refine (hh a i j s him hjn hI).andThen fun s1 h1 => ?_
      refine (hv a i (j + 1) j s1 him (by omega) (.inl (by omega)) h1).andThen fun s2 h2 => ?_
      by_cases ej : j + 1 = q.cols - 1
      · simp only [if_pos ej]
        have := hv a i (j + 1) (j + 1) s2 him hjn (.inr ⟨by omega, by omega⟩) h2
        refine this.mono fun s3 h3 => ?_
        have e2 : j + 1 + 1 = q.cols := by omega
        have e1 := part_row (lines_onBoard q a) (i := i)
        rw [← ej, ← e2] at e1
        rw [← e1]
        refine hrow _ _ _ ?_
        rw [← ej, ← e2]
        exact h3
      · simp only [if_neg ej]
        exact h2
    generalize (Degree.andThen (horz j ((lines q a).h i j) s) fun s => Degree.andThen (vert i j s) fun s => if j + 1 = q.cols - 1 then vert i (j + 1) s else some (some s)) = r at hst ⊢
    match r, hst with
    | some none, hst => exact .inl ⟨rfl, hst⟩
    | some (some s'), hst =>
      refine .inr ?_
      change if j + 1 = q.cols - 1 then I (part (lines q a) (i + 1) 0 0) (i + 1) 0 0 s' else I (part (lines q a) i (j + 1) (j + 1)) i (j + 1) (j + 1) s' at hst
      show _ ∨ _ ∧ nextLevel l = _ ∧ _
      unfold nextLevel
      have htq : q.top = q.rows * (q.cols - 1) := rfl
      by_cases el : l = 1
      · left
        refine ⟨el, by show (if l - 1 > 0 then ((l - 1 : Nat) : Int) else -1) = -1; exact if_neg (by omega), ?_⟩
        have hlast : j + 1 = q.cols - 1 ∧ i + 1 = q.rows := by
          have h1 : (i + 1) * (q.cols - 1) ≤ q.rows * (q.cols - 1) := Nat.mul_le_mul_right _ him
          rw [Nat.add_mul] at h1
          have h2 : i + 1 = q.rows := by
            by_cases g : i + 1 < q.rows
            · have h3 : (i + 2) * (q.cols - 1) ≤ q.rows * (q.cols - 1) := Nat.mul_le_mul_right _ g
              rw [Nat.add_mul] at h3
              omega
            · omega
          rw [← h2, Nat.add_mul] at htq
          omega
        rw [if_pos hlast.1, hlast.2, part_all (lines_onBoard q a)] at hst
        exact hend a s' hst
      · right
        refine ⟨by omega, if_pos (by omega), fun _ => ⟨by omega, fun i' j' hi' hj' => ?_⟩⟩
        have e5 : q.top - (l - 1) = (q.top - l) + 1 := by omega
        rw [e5] at hi' hj'
        by_cases ej : j + 1 = q.cols - 1
        · rw [if_pos ej] at hst
          have e6 : (q.top - l) + 1 = (q.cols - 1) * (i + 1) := by rw [Nat.mul_comm, Nat.add_mul]; omega
          rw [e6, Nat.mul_div_cancel_left _ hw] at hi'
          rw [e6, Nat.mul_mod_right] at hj'
          subst hi'; subst hj'
          exact hst
        · rw [if_neg ej] at hst
          have e6 : (q.top - l) + 1 = (j + 1) + (q.cols - 1) * i := by rw [Nat.mul_comm]; omega
          rw [e6, Nat.add_mul_div_left _ _ hw, Nat.div_eq_of_lt (by omega), Nat.zero_add] at hi'
          rw [e6, Nat.add_mul_mod_self_left, Nat.mod_eq_of_lt (by omega)] at hj'
          subst hi'; subst hj'
          exact hst

end TdZdd.Nl
