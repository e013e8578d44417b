import Verif.NumlinDegree

/-! `ConstraintZdd`: the states and the checks as functions of the lines. -/

namespace TdZdd.Nl.Constraint

variable {q : Board} {h : Nat → Nat → Bool}

/-- degree of a box without the line to the south (the line to the north is the one of the box above) -/
def dg (q : Board) (h : Nat → Nat → Bool) : Nat → Nat → Nat
  | 0, k => lab q.num (0, k) + hdeg q.cols h 0 k
  | i + 1, k => lab q.num (i + 1, k) + (if dg q h i k = 1 then 1 else 0) + hdeg q.cols h (i + 1) k

/-- `VertexState` of a box -/
def vs (q : Board) (h : Nat → Nat → Bool) (i k : Nat) : VS := ⟨decide (k + 1 < q.cols) && h i k, decide (dg q h i k = 1), decide (1 ≤ dg q h i k)⟩

/-- `VertexState` of the box above -/
def up (q : Board) (h : Nat → Nat → Bool) : Nat → Nat → VS
  | 0, _ => ⟨false, false, false⟩
  | i + 1, k => vs q h i k

/-- the flag `s` after the line `(i, j)` -/
def flag (q : Board) (h : Nat → Nat → Bool) (i : Nat) : Nat → Bool
  | 0 => roof false (up q h i 0) (h i 0) (q.num (i, 0))
  | j + 1 => roof (flag q h i j) (up q h i (j + 1)) (h i (j + 1)) (q.num (i, j + 1))

/-- the flag `s` before the line `(i, j)` -/
def before (q : Board) (h : Nat → Nat → Bool) (i : Nat) : Nat → Bool
  | 0 => false
  | j + 1 => flag q h i j

theorem flag_eq (i j : Nat) : flag q h i j = roof (before q h i j) (up q h i j) (h i j) (q.num (i, j)) := by cases j <;> rfl

/-- ⊓ -/
def cap (q : Board) (h : Nat → Nat → Bool) (i j : Nat) : Bool := (vs q h i j).east && (vs q h i j).south && (vs q h i (j + 1)).south

/-- what is checked with the line `(i, j)` -/
structure Check (q : Board) (h : Nat → Nat → Bool) (i j : Nat) : Prop where
  take : h i j = true → ok (up q h i j) (up q h i (j + 1)) = true
  roof : ¬ (flag q h i j = true ∧ (up q h i (j + 1)).south = true)
  cap : ∀ k, k + 1 = j → cap q h i k = false
  last : j + 2 = q.cols → Constraint.cap q h i j = false

/-- the state before the line `(i, j)` -/
structure At (q : Board) (h : Nat → Nat → Bool) (i j : Nat) (st : St) : Prop where
  flag : st.1 = before q h i j
  len : st.2.length = q.cols
  val : ∀ k, k < q.cols → st.2[k]? = some (if k < j then vs q h i k else ⟨(up q h i k).east, (up q h i k).south, (up q h i k).used⟩)

theorem dg_eq (i k : Nat) : dg q h i k = lab q.num (i, k) + (up q h i k).south.toNat + hdeg q.cols h i k := by
  cases i with
  | zero => rfl
  | succ i =>
    show _ + (if dg q h i k = 1 then 1 else 0) + _ = _ + (decide (dg q h i k = 1)).toNat + _
    rw [toNat_eq]
    simp only [decide_eq_true_eq]

theorem lab_eq (t : Nat) (x : Nat × Nat) (ht : q.num x = t) : (if t ≠ 0 then 1 else 0) = lab q.num x := by
  unfold lab
  rw [ht]
  by_cases e : t = 0
  · rw [if_pos e, if_neg (fun g => g e)]
  · rw [if_neg e, if_pos e]

theorem child_ok {i j : Nat} (hq : q.Ok) {st : St} {level : Nat} (hi : (q.top - level) / (q.cols - 1) = i) (hj : (q.top - level) % (q.cols - 1) = j)
    (him : i < q.rows) (hjn : j + 1 < q.cols) (hA : At q h i j st) :
    (child q st level (h i j) = some none ∧ ¬ Check q h i j) ∨
    (∃ st', child q st level (h i j) = some (some st') ∧ Check q h i j ∧ if j + 2 = q.cols then At q h (i + 1) 0 st' else At q h i (j + 1) st') := by
  have ex : st.2[j]? = some (up q h i j) := (hA.val j (by omega)).trans (by rw [if_neg (by omega)])
  have ey : st.2[j + 1]? = some (up q h i (j + 1)) := (hA.val (j + 1) hjn).trans (by rw [if_neg (by omega)])
  unfold child
  dsimp only
  rw [hi, hj, ex, ey, num_of hq him (by omega : j < q.cols)]
  dsimp only [Option.bind_some]
  by_cases c1 : (h i j && !ok (up q h i j) (up q h i (j + 1))) = true
  · rw [if_pos c1]
    left
    refine ⟨rfl, fun hc => ?_⟩
    rw [Bool.and_eq_true, Bool.not_eq_true'] at c1
    have := hc.take c1.1
    rw [c1.2] at this
    exact Bool.false_ne_true this
  rw [if_neg c1]
  have k1 : h i j = true → ok (up q h i j) (up q h i (j + 1)) = true := fun g => by
    rw [g, Bool.true_and, Bool.not_eq_true', Bool.not_eq_false] at c1
    exact c1
  rw [hA.flag, ← flag_eq]
  by_cases c2 : (flag q h i j && (up q h i (j + 1)).south) = true
  · rw [if_pos c2]
    left
    rw [Bool.and_eq_true] at c2
    exact ⟨rfl, fun hc => hc.roof c2⟩
  rw [if_neg c2]
  rw [Bool.and_eq_true] at c2
  -- the new state of the box
  have hw : (if 1 ≤ j then st.2[j - 1]?.map some else some none) = some (if 1 ≤ j then some (vs q h i (j - 1)) else none) := by
    by_cases g : 1 ≤ j
    · rw [if_pos g, if_pos g, hA.val (j - 1) (by omega), if_pos (by omega)]; rfl
    · rw [if_neg g, if_neg g]
  rw [hw]
  dsimp only [Option.bind_some]
  have hx : box (q.num (i, j)) (up q h i j) (h i j) (if 1 ≤ j then some (vs q h i (j - 1)) else none) = vs q h i j := by
    unfold box
    have hd : (if q.num (i, j) ≠ 0 then 1 else 0) + (up q h i j).south.toNat + (h i j).toNat + (if 1 ≤ j then some (vs q h i (j - 1)) else none).elim 0 (fun w => w.east.toNat) = dg q h i j := by
      rw [lab_eq (q.num (i, j)) (i, j) rfl, dg_eq]
      unfold hdeg
      have e1 : (if j + 1 < q.cols ∧ h i j = true then 1 else 0) = (h i j).toNat := by
        rw [toNat_eq]; exact iteEq ⟨fun g => g.2, fun g => ⟨hjn, g⟩⟩
      have e2 : (if 1 ≤ j then some (vs q h i (j - 1)) else none).elim 0 (fun w => w.east.toNat) = (if 0 < j ∧ h i (j - 1) = true then 1 else 0) := by
        by_cases g : 1 ≤ j
        · rw [if_pos g]
          show (decide (j - 1 + 1 < q.cols) && h i (j - 1)).toNat = _
          rw [decide_eq_true (by omega), Bool.true_and, toNat_eq]
          exact iteEq ⟨fun k => ⟨g, k⟩, fun k => k.2⟩
        · rw [if_neg g, if_neg (fun k => g k.1)]
          rfl
      rw [e1, e2]
      omega
    rw [hd]
    unfold vs
    rw [decide_eq_true hjn, Bool.true_and]
    rfl
  rw [hx]
  have hcap : ((if 1 ≤ j then some (vs q h i (j - 1)) else none).elim false fun w => isCap w (vs q h i j)) = (decide (1 ≤ j) && cap q h i (j - 1)) := by
    by_cases g : 1 ≤ j
    · rw [if_pos g, decide_eq_true g, Bool.true_and]
      unfold cap
      rw [Nat.sub_add_cancel g]
      rfl
    · rw [if_neg g, decide_eq_false g]; rfl
  rw [hcap]
  by_cases c3 : (decide (1 ≤ j) && cap q h i (j - 1)) = true
  · rw [if_pos c3]
    left
    rw [Bool.and_eq_true, decide_eq_true_eq] at c3
    exact ⟨rfl, fun hc => by
      have := hc.cap (j - 1) (by omega)
      rw [c3.2] at this
      cases this⟩
  rw [if_neg c3]
  have k3 : ∀ k, k + 1 = j → cap q h i k = false := fun k hk => by
    subst hk
    rw [Nat.add_sub_cancel, decide_eq_true (by omega), Bool.true_and, Bool.not_eq_true] at c3
    exact c3
  have hset : ∀ k, k < q.cols → (st.2.set j (vs q h i j))[k]? = some (if k < j + 1 then vs q h i k else up q h i k) := fun k hk => by
    rw [List.getElem?_set]
    by_cases e : j = k
    · rw [if_pos e, if_pos (by rw [hA.len]; omega), if_pos (by omega), e]
    · rw [if_neg e, hA.val k hk]
      by_cases g : k < j
      · rw [if_pos g, if_pos (by omega)]
      · rw [if_neg g, if_neg (by omega)]
  by_cases cl : j + 1 = q.cols - 1
  · rw [if_pos cl, num_of hq him hjn]
    dsimp only [Option.map_some]
    have hy : boxLast (q.num (i, j + 1)) (up q h i (j + 1)) (vs q h i j) = vs q h i (j + 1) := by
      unfold boxLast
      have hd2 : (if q.num (i, j + 1) ≠ 0 then 1 else 0) + (up q h i (j + 1)).south.toNat + (vs q h i j).east.toNat = dg q h i (j + 1) := by
        rw [lab_eq (q.num (i, j + 1)) (i, j + 1) rfl, dg_eq]
        unfold hdeg
        have e1 : (if j + 1 + 1 < q.cols ∧ h i (j + 1) = true then 1 else 0) = 0 := if_neg (by omega)
        have e2 : (vs q h i j).east.toNat = (if 0 < j + 1 ∧ h i (j + 1 - 1) = true then 1 else 0) := by
          show (decide (j + 1 < q.cols) && h i j).toNat = _
          rw [decide_eq_true hjn, Bool.true_and, toNat_eq, Nat.add_sub_cancel]
          exact iteEq ⟨fun k => ⟨by omega, k⟩, fun k => k.2⟩
        rw [e1, e2]
        omega
      rw [hd2]
      have heast : (up q h i (j + 1)).east = (vs q h i (j + 1)).east := by
        have : (vs q h i (j + 1)).east = false := by
          show (decide (j + 1 + 1 < q.cols) && _) = false
          rw [decide_eq_false (by omega)]; rfl
        rw [this]
        cases i with
        | zero => rfl
        | succ i => show (decide (j + 1 + 1 < q.cols) && _) = false; rw [decide_eq_false (by omega)]; rfl
      rw [heast]; rfl
    rw [hy]
    rw [show isCap (vs q h i j) (vs q h i (j + 1)) = cap q h i j from rfl]
    by_cases c4 : cap q h i j = true
    · rw [if_pos c4]
      left
      exact ⟨rfl, fun hc => by have := hc.last (by omega); rw [c4] at this; cases this⟩
    · rw [if_neg c4]
      right
      refine ⟨_, rfl, ⟨k1, c2, k3, fun _ => by rw [Bool.not_eq_true] at c4; exact c4⟩, ?_⟩
      rw [if_pos (by omega)]
      refine ⟨rfl, by rw [List.length_set, List.length_set]; exact hA.len, fun k hk => ?_⟩
      rw [if_neg (by omega), List.getElem?_set]
      show _ = some (vs q h i k)
      by_cases e : j + 1 = k
      · rw [if_pos e, if_pos (by rw [List.length_set, hA.len]; omega), e]
      · rw [if_neg e, hset k hk, if_pos (by omega)]
  · rw [if_neg cl]
    right
    refine ⟨_, rfl, ⟨k1, c2, k3, fun g => by omega⟩, ?_⟩
    rw [if_neg (by omega)]
    exact ⟨rfl, by rw [List.length_set]; exact hA.len, hset⟩

end TdZdd.Nl.Constraint
