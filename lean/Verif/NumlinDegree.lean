import Verif.NumlinRun
import Verif.SemanticsLemmas

/-! `DegreeZdd` decides the degrees of the boxes. -/

namespace TdZdd.Nl

/-- the lines at a box, and one more for a number -/
def tot (q : Board) (L : Links) (x : Nat × Nat) : Nat := lab q.num x + deg q.rows q.cols L x

/-- a number is an end of a line, and the other boxes are passed or blank -/
def DegOk (q : Board) (L : Links) : Prop := ∀ i j, i < q.rows → j < q.cols → tot q L (i, j) = 0 ∨ tot q L (i, j) = 2

/-- row of the box of column `k` that is waiting for its lines -/
def rowAt (i vc k : Nat) : Nat := if k < vc then i + 1 else i

theorem rowAt_ge {i vc k : Nat} (h : vc ≤ k) : rowAt i vc k = i := if_neg (by omega)
theorem rowAt_lt {i vc k : Nat} (h : k < vc) : rowAt i vc k = i + 1 := if_pos h

theorem num_of {q : Board} (hq : q.Ok) {i j : Nat} (hi : i < q.rows) (hj : j < q.cols) : q.num? i j = some (q.num (i, j)) := by
  unfold Board.num
  have h1 : i < q.number.length := by rw [hq.len]; exact hi
  have h2 : j < (q.number[i]'h1).length := by rw [hq.width _ (List.getElem_mem h1)]; exact hj
  have : q.num? i j = some ((q.number[i]'h1)[j]'h2) := by
    unfold Board.num?
    rw [List.getElem?_eq_getElem h1]
    exact List.getElem?_eq_getElem h2
  rw [this]
  rfl

theorem num_out {q : Board} (hq : q.Ok) {i j : Nat} (h : q.rows ≤ i ∨ q.cols ≤ j) : q.num (i, j) = 0 := by
  unfold Board.num Board.num?
  dsimp only
  by_cases h1 : i < q.number.length
  · rw [List.getElem?_eq_getElem h1]
    have h2 : (q.number[i]'h1).length ≤ j := by rw [hq.width _ (List.getElem_mem h1)]; rw [hq.len] at h1; omega
    show ((q.number[i]'h1)[j]?).getD 0 = 0
    rw [List.getElem?_eq_none h2]
    rfl
  · rw [List.getElem?_eq_none (by omega)]
    rfl

theorem mapM_some {α β : Type} {f : α → Option β} {g : α → β} : ∀ (l : List α), (∀ x ∈ l, f x = some (g x)) → l.mapM f = some (l.map g)
  | [], _ => rfl
  | x :: l, h => by
    rw [List.mapM_cons, h x (.head _), mapM_some l fun y hy => h y (.tail _ hy)]
    rfl

theorem deg_none (m n : Nat) (x : Nat × Nat) (L : Links) (h : ∀ i j, L.h i j = false) (v : ∀ i j, L.v i j = false) : deg m n L x = 0 := by
  unfold deg
  simp [h, v]

theorem part_zero_h (L : Links) (i j : Nat) : (part L 0 0 0).h i j = false := by simp [part]
theorem part_zero_v (L : Links) (i j : Nat) : (part L 0 0 0).v i j = false := by simp [part]

namespace Degree

structure Inv (q : Board) (P : Links) (i hc vc : Nat) (d : List Nat) : Prop where
  len : d.length = q.cols
  val : ∀ k, k < q.cols → rowAt i vc k < q.rows → d[k]? = some (tot q P (rowAt i vc k, k)) ∧ tot q P (rowAt i vc k, k) ≤ 2
  done : ∀ r k, r < q.rows → k < q.cols → (r < i ∨ (r = i ∧ k < vc)) → tot q P (r, k) = 0 ∨ tot q P (r, k) = 2

variable {q : Board} {P L : Links} {i j k hc vc : Nat} {d : List Nat}

theorem tot_setH (hf : P.h i j = false) (hj : j + 1 < q.cols) (x : Nat × Nat) : tot q (setH P i j) x = tot q P x + if x = (i, j) ∨ x = (i, j + 1) then 1 else 0 := by
  unfold tot; rw [deg_setH hf hj]; omega

theorem tot_setV (hf : P.v i j = false) (hi : i + 1 < q.rows) (x : Nat × Nat) : tot q (setV P i j) x = tot q P x + if x = (i, j) ∨ x = (i + 1, j) then 1 else 0 := by
  unfold tot; rw [deg_setV hf hi]; omega

theorem tot_le (h : Le L P) (x : Nat × Nat) : tot q L x ≤ tot q P x := Nat.add_le_add_left (deg_le h x) _

theorem get_set {d : List Nat} {j k a : Nat} (hj : j < d.length) : (d.set j a)[k]? = if k = j then some a else d[k]? := by
  rw [List.getElem?_set]
  by_cases e : j = k
  · rw [if_pos e, if_pos (by omega), if_pos e.symm]
  · rw [if_neg e, if_neg (fun h => e h.symm)]

theorem horz_ok {a : Asg 2} (hi : i < q.rows) (hj : j + 1 < q.cols) (hI : Inv q (part (lines q a) i j j) i j j d) :
    Step (horz j ((lines q a).h i j) d) (fun d' => Inv q (part (lines q a) i (j + 1) j) i (j + 1) j d') (¬ DegOk q (lines q a)) := by
  have hj0 := hI.val j (by omega) (by rw [rowAt_ge (by omega)]; exact hi)
  have hk0 := hI.val (j + 1) hj (by rw [rowAt_ge (by omega)]; exact hi)
  rw [rowAt_ge (Nat.le_refl j)] at hj0
  rw [rowAt_ge (Nat.le_succ j)] at hk0
  unfold horz
  cases hb : (lines q a).h i j with
  | false =>
    rw [part_h_false hb]
    exact ⟨hI.len, hI.val, hI.done⟩
  | true =>
    have ep := part_h_true (vc := j) hb
    have ht := fun x => tot_setH (q := q) (part_new_h (L := lines q a) (i := i) (j := j) (vc := j)) hj x
    rw [← ep] at ht
    have hle := part_le (lines q a) i (j + 1) j
    rw [if_pos rfl, hj0.1, hk0.1]
    have e1 : tot q (part (lines q a) i (j + 1) j) (i, j) = _ := (ht (i, j)).trans (congrArg _ (if_pos (.inl rfl)))
    have e2 : tot q (part (lines q a) i (j + 1) j) (i, j + 1) = _ := (ht (i, j + 1)).trans (congrArg _ (if_pos (.inr rfl)))
    dsimp only [Option.bind_some, Option.map_some]
    split
    · next h =>
      intro hs
      have s1 := hs i j hi (by omega)
      have s2 := hs i (j + 1) hi hj
      have l1 := tot_le (q := q) hle (i, j)
      have l2 := tot_le (q := q) hle (i, j + 1)
      omega
    · next h =>
      refine ⟨by simp [hI.len], fun k hk hr => ?_, fun r k hr hk hd => ?_⟩
      · rw [get_set (by simp [hI.len]; omega), get_set (by rw [hI.len]; omega)]
        by_cases c2 : k = j + 1
        · subst c2
          rw [rowAt_ge (Nat.le_succ j), if_pos rfl, e2, Nat.mod_eq_of_lt (by omega)]
          exact ⟨rfl, by omega⟩
        · by_cases c1 : k = j
          · subst c1
            rw [rowAt_ge (Nat.le_refl _), if_neg (by omega), if_pos rfl, e1, Nat.mod_eq_of_lt (by omega)]
            exact ⟨rfl, by omega⟩
          · rw [if_neg c2, if_neg c1, ht, if_neg (by simp only [Prod.mk.injEq]; omega)]
            exact hI.val k hk hr
      · rw [ht, if_neg (by simp only [Prod.mk.injEq]; omega)]
        exact hI.done r k hr hk hd

theorem vert_ok {a : Asg 2} (hq : q.Ok) (hi : i < q.rows) (hk : k < q.cols) (hh : k < hc ∨ (hc + 1 = q.cols ∧ k + 1 = q.cols)) (hI : Inv q (part (lines q a) i hc k) i hc k d) :
    Step (vert q i k d) (fun d' => Inv q (part (lines q a) i hc (k + 1)) i hc (k + 1) d') (¬ DegOk q (lines q a)) := by
  have hk0 := hI.val k hk (by rw [rowAt_ge (Nat.le_refl _)]; exact hi)
  rw [rowAt_ge (Nat.le_refl _)] at hk0
  have hother : ∀ c, c ≠ k → rowAt i (k + 1) c = rowAt i k c := fun c hc => by
    unfold rowAt
    by_cases g : c < k
    · rw [if_pos g, if_pos (by omega)]
    · rw [if_neg g, if_neg (by omega)]
  unfold vert
  rw [hk0.1]
  dsimp only [Option.bind_some]
  by_cases him : i + 1 < q.rows
  · rw [if_pos (by omega), num_of hq him hk]
    have hlab : tot q (part (lines q a) i hc k) (i + 1, k) = lab q.num (i + 1, k) := by
      unfold tot; rw [deg_new (by omega) (fun _ => Nat.le_refl _)]; rfl
    have hl2 : (if q.num (i + 1, k) > 0 then 1 else 0) = lab q.num (i + 1, k) := by
      unfold lab
      by_cases g : q.num (i + 1, k) = 0
      · rw [if_pos g, if_neg (by omega)]
      · rw [if_neg g, if_pos (by omega)]
    have hl1 : lab q.num (i + 1, k) ≤ 1 := by unfold lab; split <;> omega
    have hv := vdet_iff (num := q.num) (h := hOf q a) hh (Nat.le_refl k) him hk
    have ht : ∀ x, tot q (part (lines q a) i hc (k + 1)) x = tot q (part (lines q a) i hc k) x +
        if (x = (i, k) ∨ x = (i + 1, k)) ∧ tot q (part (lines q a) i hc k) (i, k) = 1 then 1 else 0 := by
      intro x
      cases hb : (lines q a).v i k with
      | false =>
        rw [part_v_false hb, if_neg]
        rfl
        rintro ⟨_, g⟩
        exact absurd (hv.2 g) (by show ¬ (lines q a).v i k = true; rw [hb]; decide)
      | true =>
        rw [part_v_true hb, tot_setV part_new_v him]
        congr 1
        exact iteEq ⟨fun g => ⟨g, hv.1 hb⟩, fun g => g.1⟩
    rw [Option.map_some, hl2]
    refine ⟨by simp [hI.len], fun c hcn hr => ?_, fun r c hr hcn hd => ?_⟩
    · rw [get_set (by rw [hI.len]; omega)]
      by_cases c1 : c = k
      · subst c1
        rw [rowAt_lt (Nat.lt_succ_self _), if_pos rfl, ht, hlab]
        simp only [or_true, true_and]
        exact ⟨by rw [Nat.add_comm], by split <;> omega⟩
      · rw [if_neg c1, hother c c1, ht, if_neg (by simp only [Prod.mk.injEq]; omega)]
        exact hI.val c hcn (by rw [← hother c c1]; exact hr)
    · rw [ht]
      by_cases e : (r, c) = (i, k)
      · rw [e]
        simp only [true_or, true_and]
        split <;> omega
      · rw [if_neg (by simp only [Prod.mk.injEq] at e ⊢; omega)]
        exact hI.done r c hr hcn (by simp only [Prod.mk.injEq] at e; omega)
  · rw [if_neg (by omega)]
    have hb : (lines q a).v i k = false := by
      rw [Bool.eq_false_iff]
      exact fun g => him ((lines_onBoard q a).v _ _ g).1
    rw [part_v_false hb]
    split
    · next e =>
      intro hs
      have := hs i k hi hk
      have e2 := deg_full (L := lines q a) (m := q.rows) (i := i) hh (Nat.le_refl k)
      rw [if_neg (fun g => him g.1)] at e2
      unfold tot at e this
      omega
    · next e =>
      refine ⟨by simp [hI.len], fun c hcn hr => ?_, fun r c hr hcn hd => ?_⟩
      · rw [get_set (by rw [hI.len]; omega)]
        by_cases c1 : c = k
        · subst c1
          rw [rowAt_lt (Nat.lt_succ_self _)] at hr
          omega
        · rw [hother c c1] at hr ⊢
          rw [if_neg c1]
          exact hI.val c hcn hr
      · by_cases g : (r, c) = (i, k)
        · rw [g]; omega
        · exact hI.done r c hr hcn (by simp only [Prod.mk.injEq] at g; omega)

theorem root_eq (hq : q.Ok) : root q = some ((List.range q.cols).map fun j => lab q.num (0, j)) := by
  unfold root
  refine mapM_some _ fun j hj => ?_
  rw [num_of hq (by have := hq.rows_pos; omega) (List.mem_range.1 hj)]
  dsimp only [Option.map_some]
  unfold lab
  by_cases g : q.num (0, j) = 0
  · rw [if_pos g, if_neg (by omega)]
  · rw [if_neg g, if_pos (by omega)]

theorem run (hq : q.Ok) (hn : 2 ≤ q.cols) : Desc (degreeZdd q) ∧ ∀ a, ZddMem (degreeZdd q) q.top a ↔ DegOk q (lines q a) := by
  refine grid_run (I := Inv q) hq.rows_pos hn (s0 := (List.range q.cols).map fun j => lab q.num (0, j)) (horz := horz) (vert := vert q) ?_ ?_ ?_ ?_ ?_ ?_ ?_
  · show rootOf q [] (root q) = _
    rw [root_eq hq]; rfl
  · intro s level b i j hi hj
    show childOf s level (child q s level (b != 0)) = _
    unfold child
    rw [hi, hj]
  · intro a
    have e : ∀ x, tot q (part (lines q a) 0 0 0) x = lab q.num x := fun x => by
      unfold tot; rw [deg_none _ _ _ _ (part_zero_h _) (part_zero_v _)]; rfl
    refine ⟨by simp, fun k hk _ => ?_, fun r k hr hk hd => by omega⟩
    rw [rowAt_ge (Nat.zero_le _), e]
    refine ⟨by simp [hk], ?_⟩
    unfold lab; split <;> omega
  · exact fun a i j s hi hj hI => horz_ok hi hj hI
  · exact fun a i hc k s hi hk hh hI => vert_ok hq hi hk hh hI
  · intro P i s h
    refine ⟨h.len, fun k hk hr => ?_, fun r k hr hk hd => h.done r k hr hk (by omega)⟩
    have := h.val k hk
    rw [rowAt_lt hk] at this
    rw [rowAt_ge (Nat.zero_le _)] at hr ⊢
    exact this hr
  · exact fun a s h i j hi hj => h.done i j hi hj (.inl hi)

end Degree

/-- Some vertical lines satisfy the degree condition iff the determined ones do. -/
theorem degOk_iff {q : Board} {a : Asg 2} : DegOk q (lines q a) ↔ ∃ v, DegOk q ⟨hOf q a, v⟩ := by
  constructor
  · exact fun h => ⟨_, h⟩
  · rintro ⟨v, hv⟩
    have hA : Agree q.rows q.cols ⟨hOf q a, v⟩ (lines q a) := ⟨fun _ _ _ _ => rfl, fun i j hi hj => vdet_unique hv i j hi hj⟩
    intro i j hi hj
    have := hv i j hi hj
    unfold tot at this ⊢
    rw [hA.deg hi hj] at this
    exact this

end TdZdd.Nl
