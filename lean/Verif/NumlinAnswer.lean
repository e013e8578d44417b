import Verif.NumlinTurn
import Verif.ReducerProofs1

/-! `setLinks`, `makeVerticalLinks` and the printed boards. -/

namespace TdZdd.Nl

variable {α : Type} {m n : Nat}

theorem set2_ok {a : List (List α)} (h : Shape m n a) {i j : Nat} (hi : i < m) (hj : j < n) (x : α) :
    ∃ b, set2 a i j x = some b ∧ Shape m n b ∧ ∀ r c, get2 b r c = if r = i ∧ c = j then some x else get2 a r c := by
  have h1 : i < a.length := by rw [h.1]; exact hi
  have h2 : j < (a[i]'h1).length := by rw [h.2 _ (List.getElem_mem h1)]; exact hj
  refine ⟨a.set i ((a[i]'h1).set j x), ?_, ⟨by rw [List.length_set]; exact h.1, fun r hr => ?_⟩, fun r c => ?_⟩
  · unfold set2
    rw [List.getElem?_eq_getElem h1, Option.bind_some, if_pos h2]
  · rcases List.mem_or_eq_of_mem_set hr with hr | rfl
    · exact h.2 r hr
    · rw [List.length_set]; exact h.2 _ (List.getElem_mem h1)
  · unfold get2
    by_cases e : r = i
    · subst e
      rw [List.getElem?_set_self h1, Option.bind_some, List.getElem?_eq_getElem h1, Option.bind_some]
      by_cases e' : c = j
      · subst e'
        rw [List.getElem?_set_self h2, if_pos ⟨rfl, rfl⟩]
      · rw [List.getElem?_set_ne (fun g => e' g.symm), if_neg (fun g => e' g.2)]
    · rw [List.getElem?_set_ne (fun g => e g.symm), if_neg (fun g => e g.1)]

/-- assignment of all elements -/
theorem set2_all {a : List (List α)} (h : Shape m n a) (f : Nat → Nat → α) :
    ((List.range m).foldlM (fun a i => (List.range n).foldlM (fun a j => set2 a i j (f i j)) a) a) = some (matOf m n f) := by
  obtain ⟨b, e, hs, hb⟩ := foldlM_up (f := fun a i => (List.range n).foldlM (fun a j => set2 a i j (f i j)) a)
    (fun i a => Shape m n a ∧ ∀ r c, r < i → c < n → get2 a r c = some (f r c)) m a ⟨h, fun r c hr => by omega⟩ fun i a hi ⟨hs, ha⟩ => by
      obtain ⟨b, e, hs, h1, h2⟩ := foldlM_up (f := fun a j => set2 a i j (f i j))
        (fun j b => Shape m n b ∧ (∀ r c, r < i → c < n → get2 b r c = some (f r c)) ∧ ∀ c, c < j → get2 b i c = some (f i c)) n a ⟨hs, ha, fun c hc => by omega⟩ fun j b hj ⟨hs, h1, h2⟩ => by
          obtain ⟨b', e, hs', hb⟩ := set2_ok hs hi hj (f i j)
          refine ⟨b', e, hs', fun r c hr hc => ?_, fun c hc => ?_⟩
          · rw [hb, if_neg (by omega)]; exact h1 r c hr hc
          · rw [hb]
            by_cases g : c = j
            · rw [if_pos ⟨rfl, g⟩, g]
            · rw [if_neg (fun h => g h.2)]; exact h2 c (by omega)
      refine ⟨b, e, hs, fun r c hr hc => ?_⟩
      by_cases g : r = i
      · rw [g]; exact h2 c hc
      · exact h1 r c (by omega) hc
  rw [e, hs.ext (matOf_shape f) fun i j hi hj => (hb i j hi hj).trans (matOf_get f hi hj).symm]

theorem get2_getD {a : List (List Bool)} (h : Shape m n a) {i j : Nat} (hi : i < m) (hj : j < n) : get2 a i j = some ((get2 a i j).getD false) := by
  obtain ⟨x, hx⟩ := h.get hi hj
  rw [hx]; rfl

theorem Grid.degreeAt_eq {g : Grid} (hg : g.Ok) {i j : Nat} (hi : i < g.rows) (hj : j < g.cols) : g.degreeAt i j = some (lab g.num (i, j) + hdeg g.cols g.links.h i j) := by
  unfold Grid.degreeAt
  have e0 : get2 g.number i j = some (g.num (i, j)) := num_of hg.board hi hj
  have e1 : (if 1 ≤ j then get2 g.hlink i (j - 1) else some false) = some (decide (1 ≤ j) && g.links.h i (j - 1)) := by
    by_cases h : 1 ≤ j
    · rw [if_pos h, get2_getD hg.hlink hi (by omega), decide_eq_true h]; rfl
    · rw [if_neg h, decide_eq_false h]; rfl
  have e2 : (if j + 1 < g.cols then get2 g.hlink i j else some false) = some (decide (j + 1 < g.cols) && g.links.h i j) := by
    by_cases h : j + 1 < g.cols
    · rw [if_pos h, get2_getD hg.hlink hi (by omega), decide_eq_true h]; rfl
    · rw [if_neg h, decide_eq_false h]; rfl
  rw [e0, e1, e2, Option.bind_some, Option.bind_some, Option.map_some, Constraint.lab_eq _ _ rfl, toNat_eq, toNat_eq]
  unfold hdeg
  rw [iteEq (show (decide (1 ≤ j) && g.links.h i (j - 1)) = true ↔ 0 < j ∧ g.links.h i (j - 1) = true by rw [Bool.and_eq_true, decide_eq_true_iff]; exact Iff.rfl),
    iteEq (show (decide (j + 1 < g.cols) && g.links.h i j) = true ↔ j + 1 < g.cols ∧ g.links.h i j = true by rw [Bool.and_eq_true, decide_eq_true_iff]), Nat.add_assoc]

section vert
variable {g : Grid}

/-- the line to the north of a box that has been drawn before the box `(i, j)` is treated -/
def north (g : Grid) (i j r c : Nat) : Nat := if 0 < r ∧ (r - 1 < i ∨ (r - 1 = i ∧ c < j)) then (vdet g.num g.rows g.cols g.links.h (r - 1) c).toNat else 0

structure VInv (g : Grid) (i j : Nat) (st : List (List Nat) × List (List Bool)) : Prop where
  sd : Shape g.rows g.cols st.1
  sv : Shape (g.rows - 1) g.cols st.2
  v : ∀ r c, c < g.cols → r < i ∨ (r = i ∧ c < j) → get2 st.2 r c = some (vdet g.num g.rows g.cols g.links.h r c)
  d : ∀ r c, r < g.rows → c < g.cols → i < r ∨ (r = i ∧ j ≤ c) → get2 st.1 r c = some (lab g.num (r, c) + hdeg g.cols g.links.h r c + north g i j r c)

theorem vdet_one {i j : Nat} (hi : i + 1 < g.rows) (hj : j < g.cols) : lab g.num (i, j) + hdeg g.cols g.links.h i j + north g i j i j = 1 ↔ vdet g.num g.rows g.cols g.links.h i j = true := by
  unfold north
  cases i with
  | zero =>
    rw [if_neg (by omega)]
    unfold vdet
    rw [decide_eq_true_iff]
    exact ⟨fun h => ⟨hi, hj, h⟩, fun h => h.2.2⟩
  | succ i =>
    rw [if_pos ⟨by omega, .inl (by omega)⟩, vdet, decide_eq_true_iff, Nat.add_sub_cancel]
    exact ⟨fun h => ⟨hi, hj, h⟩, fun h => h.2.2⟩

theorem linkCell_ok {i j : Nat} {st : List (List Nat) × List (List Bool)} (hi : i + 1 < g.rows) (hj : j < g.cols) (h : VInv g i j st) : ∃ st', Grid.linkCell i j st = some st' ∧ VInv g i (j + 1) st' := by
  have e := h.d i j (by omega) hj (.inr ⟨rfl, Nat.le_refl _⟩)
  have hv := vdet_one hi hj
  have hN : ∀ r c, ¬ (r = i + 1 ∧ c = j) → north g i (j + 1) r c = north g i j r c := fun r c hrc => by
    unfold north
    by_cases k : 0 < r ∧ (r - 1 < i ∨ (r - 1 = i ∧ c < j))
    · rw [if_pos k, if_pos (by omega)]
    · rw [if_neg k, if_neg (by omega)]
  have hN1 : north g i (j + 1) (i + 1) j = (vdet g.num g.rows g.cols g.links.h i j).toNat := by
    unfold north
    rw [if_pos ⟨by omega, .inr ⟨by omega, by omega⟩⟩, Nat.add_sub_cancel]
  have hN0 : north g i j (i + 1) j = 0 := by
    unfold north
    rw [if_neg (by omega)]
  unfold Grid.linkCell
  rw [e, Option.bind_some]
  by_cases c1 : lab g.num (i, j) + hdeg g.cols g.links.h i j + north g i j i j = 1
  · rw [if_pos c1]
    obtain ⟨v', e1, s1, g1⟩ := set2_ok h.sv (i := i) (j := j) (by omega) hj true
    obtain ⟨d1, e2, s2, g2⟩ := set2_ok h.sd (i := i) (j := j) (by omega) hj 2
    have e3 : get2 d1 (i + 1) j = some (lab g.num (i + 1, j) + hdeg g.cols g.links.h (i + 1) j + north g i j (i + 1) j) := by
      rw [g2, if_neg (by omega)]
      exact h.d (i + 1) j hi hj (.inl (by omega))
    obtain ⟨d2, e4, s4, g4⟩ := set2_ok s2 (i := i + 1) (j := j) hi hj (lab g.num (i + 1, j) + hdeg g.cols g.links.h (i + 1) j + north g i j (i + 1) j + 1)
    have hvt : vdet g.num g.rows g.cols g.links.h i j = true := hv.1 c1
    refine ⟨(d2, v'), ?_, s4, s1, fun r c hc hrc => ?_, fun r c hr hc hrc => ?_⟩
    · rw [e1, Option.bind_some, e2, Option.bind_some, e3, Option.bind_some, e4]; rfl
    · show get2 v' r c = _
      rw [g1]
      by_cases k : r = i ∧ c = j
      · rw [if_pos k, k.1, k.2, hvt]
      · rw [if_neg k]; exact h.v r c hc (by omega)
    · show get2 d2 r c = _
      rw [g4]
      by_cases k : r = i + 1 ∧ c = j
      · rw [if_pos k, k.1, k.2, hN1, hN0, hvt]; rfl
      · rw [if_neg k, g2, if_neg (by omega), hN r c k]
        exact h.d r c hr hc (by omega)
  · rw [if_neg c1]
    obtain ⟨v', e1, s1, g1⟩ := set2_ok h.sv (i := i) (j := j) (by omega) hj false
    have hvf : vdet g.num g.rows g.cols g.links.h i j = false := Bool.eq_false_iff.2 fun k => c1 (hv.2 k)
    refine ⟨(st.1, v'), by rw [e1]; rfl, h.sd, s1, fun r c hc hrc => ?_, fun r c hr hc hrc => ?_⟩
    · show get2 v' r c = _
      rw [g1]
      by_cases k : r = i ∧ c = j
      · rw [if_pos k, k.1, k.2, hvf]
      · rw [if_neg k]; exact h.v r c hc (by omega)
    · by_cases k : r = i + 1 ∧ c = j
      · have := h.d (i + 1) j hi hj (.inl (by omega))
        rw [hN0] at this
        rw [k.1, k.2, hN1, hvf]
        exact this
      · rw [hN r c k]
        exact h.d r c hr hc (by omega)

theorem Grid.makeVerticalLinks_eq (hg : g.Ok) : g.makeVerticalLinks = some { g with vlink := matOf (g.rows - 1) g.cols (vdet g.num g.rows g.cols g.links.h) } := by
  unfold makeVerticalLinks
  rw [mapM_matOf (g := fun i j => lab g.num (i, j) + hdeg g.cols g.links.h i j) fun i j hi hj => Grid.degreeAt_eq hg hi hj, Option.bind_some]
  have h0 : VInv g 0 0 (matOf g.rows g.cols fun i j => lab g.num (i, j) + hdeg g.cols g.links.h i j, g.vlink) := by
    refine ⟨matOf_shape _, hg.vlink, fun r c _ h => by omega, fun r c hr hc _ => ?_⟩
    rw [matOf_get _ hr hc]
    unfold north
    rw [if_neg (by omega)]; rfl
  obtain ⟨st, e, h⟩ := foldlM_up (f := fun st i => (List.range g.cols).foldlM (fun st j => linkCell i j st) st) (fun i st => VInv g i 0 st) (g.rows - 1) _ h0 fun i st hi h => by
    obtain ⟨st', e, h'⟩ := foldlM_up (f := fun st j => linkCell i j st) (fun j st => VInv g i j st) g.cols st h fun j st hj h => linkCell_ok (by omega) hj h
    refine ⟨st', e, h'.sd, h'.sv, fun r c hc hrc => h'.v r c hc (by omega), fun r c hr hc hrc => ?_⟩
    have : north g (i + 1) 0 r c = north g i g.cols r c := by
      unfold north
      by_cases k : 0 < r ∧ (r - 1 < i ∨ (r - 1 = i ∧ c < g.cols))
      · rw [if_pos k, if_pos (by omega)]
      · rw [if_neg k, if_neg (by omega)]
    rw [this]
    exact h'.d r c hr hc (by omega)
  rw [e, Option.map_some]
  congr 2
  exact h.sv.ext (matOf_shape _) fun i j hi hj => (h.v i j hj (.inl hi)).trans (matOf_get _ hi hj).symm

end vert

/-- the assignment of a set of levels, as read by `edges->count(level)` -/
def asgS (s : List Nat) : Asg 2 := fun l => if s.contains l then 1 else 0

theorem Grid.setLinks_eq {g : Grid} (hg : g.Ok) (s : List Nat) : g.setLinks s = some { g with hlink := matOf g.rows (g.cols - 1) (hOf g.toBoard (asgS s)) } := by
  unfold setLinks
  rw [set2_all hg.hlink, Option.map_some]
  congr 2
  unfold matOf
  refine List.map_congr_left fun i hi => List.map_congr_left fun j hj => ?_
  have hi' := List.mem_range.1 hi
  have hj' := List.mem_range.1 hj
  have hw : i < g.rows ∧ j + 1 < g.cols := ⟨hi', by omega⟩
  unfold hOf asgS
  dsimp only
  rw [decide_eq_true hw, Bool.true_and, Nat.sub_sub]
  cases s.contains (g.top - (i * (g.cols - 1) + j)) <;> rfl

/-- The printed board has the same numbers; its lines are those of the set and the determined vertical ones. -/
theorem Grid.answer_eq {g : Grid} (hg : g.Ok) (s : List Nat) : ∃ b, g.answer false s = some b ∧ b.Ok ∧ b.toBoard = g.toBoard ∧
    (∀ i j, b.links.h i j = (lines g.toBoard (asgS s)).h i j) ∧ (∀ i j, b.links.v i j = (lines g.toBoard (asgS s)).v i j) := by
  have hon := lines_onBoard g.toBoard (asgS s)
  have hH : ∀ i j, (get2 (matOf g.rows (g.cols - 1) (hOf g.toBoard (asgS s))) i j).getD false = hOf g.toBoard (asgS s) i j := fun i j => by
    by_cases k : i < g.rows ∧ j < g.cols - 1
    · rw [matOf_get _ k.1 k.2]; rfl
    · rw [(matOf_shape _).out (by omega)]
      exact (Bool.eq_false_iff.2 fun h => by have := hon.h i j h; omega).symm
  have hok : Grid.Ok { g with hlink := matOf g.rows (g.cols - 1) (hOf g.toBoard (asgS s)) } := ⟨hg.board, matOf_shape _, hg.vlink⟩
  have hL : (Grid.links { g with hlink := matOf g.rows (g.cols - 1) (hOf g.toBoard (asgS s)) }).h = hOf g.toBoard (asgS s) := funext fun i => funext fun j => hH i j
  refine ⟨⟨g.toBoard, matOf g.rows (g.cols - 1) (hOf g.toBoard (asgS s)), matOf (g.rows - 1) g.cols (vdet g.num g.rows g.cols (Grid.links { g with hlink := matOf g.rows (g.cols - 1) (hOf g.toBoard (asgS s)) }).h)⟩, ?_, ⟨hg.board, matOf_shape _, matOf_shape _⟩, rfl, hH, fun i j => ?_⟩
  · unfold answer
    rw [setLinks_eq hg, Option.bind_some, makeVerticalLinks_eq hok, Option.bind_some, if_neg Bool.false_ne_true]
  · show (get2 (matOf (g.rows - 1) g.cols (vdet g.num g.rows g.cols _)) i j).getD false = _
    rw [hL]
    show _ = vdet g.num g.rows g.cols (hOf g.toBoard (asgS s)) i j
    by_cases k : i < g.rows - 1 ∧ j < g.cols
    · rw [matOf_get _ k.1 k.2]; rfl
    · rw [(matOf_shape _).out (by omega)]
      exact (Bool.eq_false_iff.2 fun h => by have := hon.v i j h; omega).symm

end TdZdd.Nl
