import Verif.NumlinTidy

/-! `ConstraintZdd` accepts the lines that pass all checks. -/

namespace TdZdd.Nl.Constraint

variable {q : Board} {h h' : Nat → Nat → Bool} {i j : Nat}

theorem hOf_congr {a a' : Asg 2} {l : Nat} (hl : l + (i * (q.cols - 1) + j) = q.top) (ha : ∀ l', l < l' → a l' = a' l') :
    ∀ i' j', i' < i ∨ (i' = i ∧ j' < j) → hOf q a i' j' = hOf q a' i' j' := by
  intro i' j' hlt
  unfold hOf
  by_cases e : i' < q.rows ∧ j' + 1 < q.cols
  · have := pos_lt e.2 hlt
    rw [ha _ (by omega)]
  · simp [e]

section congr
variable (hh : ∀ i' j', i' < i ∨ (i' = i ∧ j' < j) → h i' j' = h' i' j')
include hh

theorem dg_congr : ∀ i' k, i' < i ∨ (i' = i ∧ k < j) → dg q h i' k = dg q h' i' k := by
  have hhd : ∀ r k, r < i ∨ (r = i ∧ k < j) → hdeg q.cols h r k = hdeg q.cols h' r k := by
    intro r k hr
    unfold hdeg
    rw [hh r (k - 1) (by omega), hh r k (by omega)]
  intro i'
  induction i' with
  | zero => intro k hk; unfold dg; rw [hhd 0 k hk]
  | succ r ih => intro k hk; unfold dg; rw [hhd (r + 1) k hk, ih k (by omega)]

theorem vs_congr (i' k : Nat) (hk : i' < i ∨ (i' = i ∧ k < j)) : vs q h i' k = vs q h' i' k := by
  unfold vs
  rw [dg_congr hh i' k hk, hh i' k hk]

theorem up_congr (i' k : Nat) (hk : i' ≤ i) : up q h i' k = up q h' i' k := by
  cases i' with
  | zero => rfl
  | succ i' => exact vs_congr hh i' k (.inl hk)

theorem flag_congr (i' : Nat) : ∀ k, i' < i ∨ (i' = i ∧ k < j) → flag q h i' k = flag q h' i' k := by
  intro k
  induction k with
  | zero => intro hk; unfold flag; rw [up_congr hh i' 0 (by omega), hh i' 0 hk]
  | succ k ih => intro hk; unfold flag; rw [up_congr hh i' _ (by omega), hh i' _ hk, ih (by omega)]

theorem at_congr {st : St} (hA : At q h i j st) : At q h' i j st := by
  refine ⟨?_, hA.len, fun k hk => ?_⟩
  · rw [hA.flag]
    cases j with
    | zero => rfl
    | succ j => exact flag_congr hh i j (.inr ⟨rfl, Nat.lt_succ_self j⟩)
  · rw [hA.val k hk, up_congr hh i k (Nat.le_refl _)]
    by_cases g : k < j
    · rw [if_pos g, if_pos g, vs_congr hh i k (.inr ⟨rfl, g⟩)]
    · rw [if_neg g, if_neg g]

theorem check_congr (hj : j + 1 < q.cols) {i' j' : Nat} (hlt : i' < i ∨ (i' = i ∧ j' < j)) (hc : Check q h i' j') : Check q h' i' j' := by
  have hcap : ∀ k, i' < i ∨ (i' = i ∧ k + 1 < j) → cap q h' i' k = cap q h i' k := fun k hk => by
    unfold cap
    rw [vs_congr hh i' k (by omega), vs_congr hh i' (k + 1) (by omega)]
  refine ⟨fun g => ?_, ?_, fun k hk => ?_, fun g => ?_⟩
  · rw [← up_congr hh i' j' (by omega), ← up_congr hh i' (j' + 1) (by omega)]
    exact hc.take (by rw [hh i' j' hlt]; exact g)
  · rw [← flag_congr hh i' j' hlt, ← up_congr hh i' (j' + 1) (by omega)]
    exact hc.roof
  · rw [hcap k (by omega)]; exact hc.cap k hk
  · rw [hcap j' (by omega)]; exact hc.last g

end congr

/-- all checks succeed -/
def Passes (q : Board) (h : Nat → Nat → Bool) : Prop := ∀ i j, i < q.rows → j + 1 < q.cols → Check q h i j

theorem run (hq : q.Ok) (hn : 2 ≤ q.cols) : Desc (constraintZdd q) ∧ ∀ a, ZddMem (constraintZdd q) q.top a ↔ Passes q (hOf q a) := by
  have hw : 0 < q.cols - 1 := by omega
  have htop : 0 < q.top := Nat.mul_pos hq.rows_pos hw
  refine zddMem_of_run (Sol := fun a => Passes q (hOf q a)) (top := q.top) (s0 := root q)
    (R := fun l st a => 0 < l → l ≤ q.top ∧ ∀ i j, (q.top - l) / (q.cols - 1) = i → (q.top - l) % (q.cols - 1) = j →
      At q (hOf q a) i j st ∧ ∀ i' j', i' < q.rows → j' + 1 < q.cols → i' < i ∨ (i' = i ∧ j' < j) → Check q (hOf q a) i' j') rfl htop ?_ ?_ ?_
  · intro a _
    refine ⟨Nat.le_refl _, fun i j hi hj => ?_⟩
    rw [Nat.sub_self, Nat.zero_div] at hi
    rw [Nat.sub_self, Nat.zero_mod] at hj
    subst hi; subst hj
    refine ⟨⟨rfl, by simp [root], fun k hk => ?_⟩, fun i' j' _ _ h => by omega⟩
    rw [if_neg (by omega)]
    show (List.replicate q.cols _)[k]? = _
    rw [List.getElem?_replicate, if_pos hk]
    rfl
  · intro l st a a' hR ha hl
    obtain ⟨hle, hI⟩ := hR hl
    refine ⟨hle, fun i j hi hj => ?_⟩
    have e := Nat.div_add_mod (q.top - l) (q.cols - 1)
    rw [hi, hj, Nat.mul_comm] at e
    have hjn : j + 1 < q.cols := by have := Nat.mod_lt (q.top - l) hw; omega
    obtain ⟨h1, h2⟩ := hI i j hi hj
    have hh := hOf_congr (q := q) (i := i) (j := j) (l := l) (by omega) ha
    exact ⟨at_congr hh h1, fun i' j' hi' hj' hlt => check_congr hh hjn hlt (h2 i' j' hi' hj' hlt)⟩
  · intro l st a hl hR
    obtain ⟨hle, hI⟩ := hR hl
    generalize hi : (q.top - l) / (q.cols - 1) = i at hI
    generalize hj : (q.top - l) % (q.cols - 1) = j at hI
    obtain ⟨hA, hC⟩ := hI i j rfl rfl
    have e := Nat.div_add_mod (q.top - l) (q.cols - 1)
    rw [hi, hj, Nat.mul_comm] at e
    have hjn : j + 1 < q.cols := by have := Nat.mod_lt (q.top - l) hw; omega
    have htq : q.top = q.rows * (q.cols - 1) := rfl
    have him : i < q.rows := by
      rw [← hi, Nat.div_lt_iff_lt_mul hw]
      omega
    have hb : (a l != 0) = hOf q a i j := by
      have e' : q.top - (i * (q.cols - 1) + j) = l := by omega
      unfold hOf
      rw [e', decide_eq_true ⟨him, hjn⟩, Bool.true_and]
      generalize a l = b
      revert b
      decide
    show ((childOf st l (child q st l (a l != 0))).1 = 0 ∧ _) ∨ (_ ∧ (childOf st l (child q st l (a l != 0))).1 = -1 ∧ _) ∨ (_ ∧ (childOf st l (child q st l (a l != 0))).1 = _ ∧ (0 < l - 1 → _))
    rw [show (constraintZdd q).child st l (a l) = childOf st l (child q st l (a l != 0)) from rfl, hb]
    rcases child_ok hq hi hj him hjn hA with ⟨e1, hno⟩ | ⟨st', e1, hok, hnext⟩
    · rw [e1]
      exact .inl ⟨rfl, fun hp => hno (hp i j him hjn)⟩
    · rw [e1]
      right
      have hC' : ∀ i' j', i' < q.rows → j' + 1 < q.cols → i' < i ∨ (i' = i ∧ j' < j + 1) → Check q (hOf q a) i' j' := fun i' j' h1 h2 h3 => by
        by_cases g : i' = i ∧ j' = j
        · rw [g.1, g.2]; exact hok
        · exact hC i' j' h1 h2 (by omega)
      show (_ ∧ nextLevel l = -1 ∧ _) ∨ (_ ∧ nextLevel l = _ ∧ _)
      unfold nextLevel
      by_cases el : l = 1
      · left
        refine ⟨el, if_neg (by omega), ?_⟩
        have hlast : j + 1 = q.cols - 1 ∧ i + 1 = q.rows := by
          have h1 : (i + 1) * (q.cols - 1) ≤ q.rows * (q.cols - 1) := Nat.mul_le_mul_right _ him
          rw [Nat.add_mul] at h1
          have h2 : i + 1 = q.rows := by
            by_cases g : i + 1 < q.rows
            · have h3 : (i + 2) * (q.cols - 1) ≤ q.rows * (q.cols - 1) := Nat.mul_le_mul_right _ g
              rw [Nat.add_mul] at h3
              omega
            · omega
          rw [← h2, Nat.add_mul] at htq
          omega
        exact fun i' j' h1 h2 => hC' i' j' h1 h2 (by omega)
      · right
        refine ⟨by omega, if_pos (by omega), fun _ => ⟨by omega, fun i' j' hi' hj' => ?_⟩⟩
        have e5 : q.top - (l - 1) = (q.top - l) + 1 := by omega
        rw [e5] at hi' hj'
        by_cases ej : j + 2 = q.cols
        · rw [if_pos ej] at hnext
          have e6 : (q.top - l) + 1 = (q.cols - 1) * (i + 1) := by rw [Nat.mul_comm, Nat.add_mul]; omega
          rw [e6, Nat.mul_div_cancel_left _ hw] at hi'
          rw [e6, Nat.mul_mod_right] at hj'
          subst hi'; subst hj'
          exact ⟨hnext, fun i' j' h1 h2 h3 => hC' i' j' h1 h2 (by omega)⟩
        · rw [if_neg ej] at hnext
          have e6 : (q.top - l) + 1 = (j + 1) + (q.cols - 1) * i := by rw [Nat.mul_comm]; omega
          rw [e6, Nat.add_mul_div_left _ _ hw, Nat.div_eq_of_lt (by omega), Nat.zero_add] at hi'
          rw [e6, Nat.add_mul_mod_self_left, Nat.mod_eq_of_lt (by omega)] at hj'
          subst hi'; subst hj'
          exact ⟨hnext, hC'⟩

end TdZdd.Nl.Constraint
