import Verif.DataTableSpec
import Verif.MyVectorProofs3

/-! Proofs about `DataTable`: the loops over the rows. -/

namespace TdZdd

namespace DTab

variable {T : Type}

theorem code_inj : ∀ {a b i j : Nat}, code a i = code b j → a = b ∧ i = j
  | 0, 0, i, j, h => by unfold code at h; simp only [Nat.pow_zero, Nat.one_mul] at h; omega
  | 0, b + 1, i, j, h => by
    unfold code at h
    rw [Nat.pow_zero, Nat.one_mul, Nat.pow_succ, Nat.mul_comm (2 ^ b) 2, Nat.mul_assoc] at h
    generalize 2 ^ b * (2 * j + 1) = q at h
    omega
  | a + 1, 0, i, j, h => by
    unfold code at h
    rw [Nat.pow_zero, Nat.one_mul, Nat.pow_succ, Nat.mul_comm (2 ^ a) 2, Nat.mul_assoc] at h
    generalize 2 ^ a * (2 * i + 1) = q at h
    omega
  | a + 1, b + 1, i, j, h => by
    have h' : code a i = code b j := by
      unfold code at h ⊢
      rw [Nat.pow_succ, Nat.mul_comm (2 ^ a) 2, Nat.mul_assoc, Nat.pow_succ, Nat.mul_comm (2 ^ b) 2, Nat.mul_assoc] at h
      generalize 2 ^ a * (2 * i + 1) = q at h ⊢
      generalize 2 ^ b * (2 * j + 1) = q' at h ⊢
      omega
    obtain ⟨h1, h2⟩ := code_inj h'
    exact ⟨by omega, h2⟩

/-- contents of the cells -/
abbrev Cells (T : Type) := Nat → Nat → Option (List T)

def Cells.upd (w : Cells T) (a i : Nat) (v : Option (List T)) : Cells T := fun b j => if b = a ∧ j = i then v else w b j

/-- the rows have the contents `w`, and there are no other rows -/
def Holds (st : VSt T) (w : Cells T) : Prop :=
  ∃ env, VecInv st env ∧ (∀ b j, env (code b j) = w b j) ∧ ∀ x, env x ≠ none → ∃ b j, x = code b j

theorem Holds.congr {st : VSt T} {w w' : Cells T} (h : Holds st w) (e : ∀ b j, w b j = w' b j) : Holds st w' := by
  have : w = w' := funext fun b => funext fun j => e b j
  exact this ▸ h

theorem Holds.dead {st : VSt T} {w : Cells T} (h : Holds st w) {b j : Nat} (e : w b j = none) : st.vec (code b j) = none := by
  obtain ⟨env, h1, h2, _⟩ := h
  exact h1.dead _ ((h2 b j).trans e)

/-- only the rows have been changed -/
def Same (s s' : St T) : Prop := s'.fresh = s.fresh ∧ s'.blk = s.blk ∧ s'.tab = s.tab

theorem Same.refl (s : St T) : Same s s := ⟨rfl, rfl, rfl⟩

theorem Same.trans {s s' s'' : St T} (h : Same s s') (h' : Same s' s'') : Same s s'' := ⟨h'.1.trans h.1, h'.2.1.trans h.2.1, h'.2.2.trans h.2.2⟩

theorem row_write {s : St T} {w : Cells T} {d : T} {op : VOp T} {a i : Nat} {v : Option (List T)} {r : VRes T} (h : Holds s.inn w)
    (hop : ∀ env, (∀ b j, env (code b j) = w b j) → seqStep d (fun _ _ => true) env op = some (TdZdd.upd env (code a i) v, r)) :
    ∃ s', s.row d op = some (s', r) ∧ Same s s' ∧ Holds s'.inn (w.upd a i v) := by
  obtain ⟨env, h1, h2, h3⟩ := h
  obtain ⟨st', e, h4⟩ := vStep_spec d _ h1 (hop env h2)
  refine ⟨{ s with inn := st' }, by unfold St.row; rw [e]; rfl, ⟨rfl, rfl, rfl⟩, _, h4, fun b j => ?_, fun x hx => ?_⟩
  · unfold Cells.upd
    by_cases hc : b = a ∧ j = i
    · rw [if_pos hc, hc.1, hc.2, upd_same]
    · rw [if_neg hc, upd_ne _ _ (fun e => hc (code_inj e)), h2]
  · by_cases hc : x = code a i
    · exact ⟨a, i, hc⟩
    · rw [upd_ne _ _ hc] at hx; exact h3 x hx

theorem row_read {s : St T} {w : Cells T} {d : T} {op : VOp T} {r : VRes T} (h : Holds s.inn w)
    (hop : ∀ env, (∀ b j, env (code b j) = w b j) → seqStep d (fun _ _ => true) env op = some (env, r)) :
    ∃ s', s.row d op = some (s', r) := by
  obtain ⟨env, h1, h2, h3⟩ := h
  obtain ⟨st', e, h4⟩ := vStep_spec d _ h1 (hop env h2)
  exact ⟨{ s with inn := st' }, by unfold St.row; rw [e]; rfl⟩

theorem cell_some {s : St T} {a i c : Nat} (hb : s.blk a = some c) (hi : i < c) : s.cell a i = some (code a i) := by
  unfold St.cell; rw [hb, Option.bind_some, if_pos hi]

theorem newCell_spec {s : St T} {w : Cells T} (d : T) {a i c : Nat} (h : Holds s.inn w) (hb : s.blk a = some c) (hi : i < c) (hw : w a i = none) :
    ∃ s', newCell d s a i = some s' ∧ Same s s' ∧ Holds s'.inn (w.upd a i (some [])) := by
  obtain ⟨s', e, h1, h2⟩ := row_write (d := d) (op := .new (code a i) 0) (a := a) (i := i) (v := some []) (r := .unit) h fun env he => by
    dsimp only [seqStep]; rw [he, hw]; rfl
  exact ⟨s', by unfold newCell; rw [cell_some hb hi, Option.bind_some, e]; rfl, h1, h2⟩

theorem delCell_spec {s : St T} {w : Cells T} (d : T) {a i c : Nat} (h : Holds s.inn w) (hb : s.blk a = some c) (hi : i < c) (hw : w a i ≠ none) :
    ∃ s', delCell d s a i = some s' ∧ Same s s' ∧ Holds s'.inn (w.upd a i none) := by
  obtain ⟨s', e, h1, h2⟩ := row_write (d := d) (op := .destroy (code a i)) (a := a) (i := i) (v := none) (r := .unit) h fun env he => by
    dsimp only [seqStep]; rw [he]
    cases hl : w a i with
    | none => exact absurd hl hw
    | some l => rfl
  exact ⟨s', by unfold delCell; rw [cell_some hb hi, Option.bind_some, e]; rfl, h1, h2⟩

theorem copyCell_spec {s : St T} {w : Cells T} (d : T) {a b i c c' : Nat} (h : Holds s.inn w) (ha : s.blk a = some c) (hb : s.blk b = some c') (hi : i < c) (hi' : i < c')
    (hw : w a i ≠ none) (hw' : w b i = none) : ∃ s', copyCell d s a b i = some s' ∧ Same s s' ∧ Holds s'.inn (w.upd b i (w a i)) := by
  obtain ⟨s', e, h1, h2⟩ := row_write (d := d) (op := .copy (code b i) (code a i)) (a := b) (i := i) (v := w a i) (r := .unit) h fun env he => by
    dsimp only [seqStep]; rw [he, he, hw']
    cases hl : w a i with
    | none => exact absurd hl hw
    | some l => rfl
  exact ⟨s', by unfold copyCell; rw [cell_some ha hi, Option.bind_some, cell_some hb hi', Option.bind_some, e]; rfl, h1, h2⟩

theorem moveCell_spec {s : St T} {w : Cells T} (d : T) {a b i c c' : Nat} (h : Holds s.inn w) (hab : a ≠ b) (ha : s.blk a = some c) (hb : s.blk b = some c') (hi : i < c)
    (hi' : i < c') (hw : w a i ≠ none) (hw' : w b i = none) :
    ∃ s', moveCell d s a b i = some s' ∧ Same s s' ∧ Holds s'.inn ((w.upd b i (w a i)).upd a i none) := by
  obtain ⟨s1, e1, h1, h2⟩ := copyCell_spec d h ha hb hi hi' hw hw'
  obtain ⟨s2, e2, h3, h4⟩ := delCell_spec d (a := a) (i := i) (c := c) h2 (by rw [h1.2.1]; exact ha) hi
    (by unfold Cells.upd; rw [if_neg (fun e => hab e.1)]; exact hw)
  exact ⟨s2, by unfold moveCell; rw [e1, Option.bind_some, e2], h1.trans h3, h4⟩

theorem popTo_spec (d : T) {a n c : Nat} : ∀ (k : Nat) {s : St T} {w : Cells T}, Holds s.inn w → (0 < k → s.blk a = some c) → k ≤ c → (∀ i, i < k → w a i ≠ none) →
    ∃ s', popTo d a n k s = some s' ∧ Same s s' ∧ Holds s'.inn fun b j => if b = a ∧ n ≤ j ∧ j < k then none else w b j
  | 0, s, w, h, _, _, _ => ⟨s, rfl, .refl s, h.congr fun b j => by rw [if_neg (by omega)]⟩
  | k + 1, s, w, h, hb, hc, hw => by
    unfold popTo
    by_cases hn : n < k + 1
    · rw [if_pos hn]
      obtain ⟨s1, e1, h1, h2⟩ := delCell_spec d h (hb (by omega)) (show k < c by omega) (hw k (by omega))
      obtain ⟨s2, e2, h3, h4⟩ := popTo_spec d (n := n) k h2 (fun _ => by rw [h1.2.1]; exact hb (by omega)) (by omega) (fun i hi => by
        unfold Cells.upd; rw [if_neg (by omega)]; exact hw i (by omega))
      refine ⟨s2, by rw [e1, Option.bind_some, e2], h1.trans h3, h4.congr fun b j => ?_⟩
      unfold Cells.upd
      by_cases q : b = a ∧ n ≤ j ∧ j < k + 1
      · rw [if_pos q]
        by_cases q2 : j = k
        · rw [if_neg (by omega), if_pos ⟨q.1, q2⟩]
        · rw [if_pos ⟨q.1, q.2.1, by omega⟩]
      · rw [if_neg q, if_neg (by omega), if_neg (by omega)]
    · rw [if_neg hn]
      exact ⟨s, rfl, .refl s, h.congr fun b j => by rw [if_neg (by omega)]⟩

theorem grow_spec (d : T) {a c : Nat} : ∀ (k i : Nat) {s : St T} {w : Cells T}, Holds s.inn w → s.blk a = some c → i + k ≤ c → (∀ j, i ≤ j → w a j = none) →
    ∃ s', grow d a k i s = some s' ∧ Same s s' ∧ Holds s'.inn fun b j => if b = a ∧ i ≤ j ∧ j < i + k then some [] else w b j
  | 0, i, s, w, h, _, _, _ => ⟨s, rfl, .refl s, h.congr fun b j => by rw [if_neg (by omega)]⟩
  | k + 1, i, s, w, h, hb, hc, hw => by
    unfold grow
    obtain ⟨s1, e1, h1, h2⟩ := newCell_spec d h hb (show i < c by omega) (hw i (Nat.le_refl _))
    obtain ⟨s2, e2, h3, h4⟩ := grow_spec d k (i + 1) h2 (by rw [h1.2.1]; exact hb) (by omega) (fun j hj => by
      unfold Cells.upd; rw [if_neg (by omega)]; exact hw j (by omega))
    refine ⟨s2, by rw [e1, Option.bind_some, e2], h1.trans h3, h4.congr fun b j => ?_⟩
    unfold Cells.upd
    by_cases q : b = a ∧ i ≤ j ∧ j < i + (k + 1)
    · rw [if_pos q]
      by_cases q2 : j = i
      · rw [if_neg (by omega), if_pos ⟨q.1, q2⟩]
      · rw [if_pos ⟨q.1, by omega, by omega⟩]
    · rw [if_neg q, if_neg (by omega), if_neg (by omega)]

theorem moveAll_spec (d : T) {a b c c' : Nat} (hab : a ≠ b) : ∀ (k i : Nat) {s : St T} {w : Cells T}, Holds s.inn w → (0 < k → s.blk a = some c) → s.blk b = some c' →
    i + k ≤ c → i + k ≤ c' → (∀ j, i ≤ j → j < i + k → w a j ≠ none) → (∀ j, i ≤ j → w b j = none) →
    ∃ s', moveAll d a b k i s = some s' ∧ Same s s' ∧
      Holds s'.inn fun x j => if i ≤ j ∧ j < i + k then (if x = b then w a j else if x = a then none else w x j) else w x j
  | 0, i, s, w, h, _, _, _, _, _, _ => ⟨s, rfl, .refl s, h.congr fun b j => by rw [if_neg (by omega)]⟩
  | k + 1, i, s, w, h, ha, hb, hc, hc', hw, hw' => by
    unfold moveAll
    obtain ⟨s1, e1, h1, h2⟩ := moveCell_spec d h hab (ha (by omega)) hb (show i < c by omega) (show i < c' by omega) (hw i (by omega) (by omega)) (hw' i (by omega))
    obtain ⟨s2, e2, h3, h4⟩ := moveAll_spec d hab k (i + 1) h2 (fun _ => by rw [h1.2.1]; exact ha (by omega)) (by rw [h1.2.1]; exact hb) (by omega) (by omega)
      (fun j hj hj' => by unfold Cells.upd; rw [if_neg (by omega), if_neg (by omega)]; exact hw j (by omega) (by omega))
      (fun j hj => by unfold Cells.upd; rw [if_neg (by omega), if_neg (by omega)]; exact hw' j (by omega))
    refine ⟨s2, by rw [e1, Option.bind_some, e2], h1.trans h3, h4.congr fun x j => ?_⟩
    unfold Cells.upd
    by_cases q : i + 1 ≤ j ∧ j < i + 1 + k
    · rw [if_pos q, if_pos (show i ≤ j ∧ j < i + (k + 1) by omega), if_neg (show ¬(a = a ∧ j = i) by omega), if_neg (show ¬(a = b ∧ j = i) by omega)]
      by_cases q1 : x = b
      · rw [if_pos q1, if_pos q1]
      · rw [if_neg q1, if_neg q1]
        by_cases q2 : x = a
        · rw [if_pos q2, if_pos q2]
        · rw [if_neg q2, if_neg q2, if_neg (by omega), if_neg (by omega)]
    · rw [if_neg q]
      by_cases q0 : j = i
      · subst q0
        rw [if_pos (show j ≤ j ∧ j < j + (k + 1) by omega)]
        by_cases q1 : x = b
        · subst q1
          rw [if_pos rfl, if_neg (fun e => hab e.1.symm), if_pos ⟨rfl, rfl⟩]
        · rw [if_neg q1]
          by_cases q2 : x = a
          · rw [if_pos q2, if_pos ⟨q2, rfl⟩]
          · rw [if_neg q2, if_neg (by omega), if_neg (by omega)]
      · rw [if_neg (by omega), if_neg (by omega), if_neg (by omega)]

theorem copyAll_spec (d : T) {o : Vec} {b c c' : Nat} (hab : o.arr ≠ b) : ∀ (k i : Nat) {s : St T} {w : Cells T}, Holds s.inn w → (0 < k → s.blk o.arr = some c) →
    (0 < k → s.blk b = some c') → i + k ≤ c → i + k ≤ c' → i + k ≤ o.size → (∀ j, i ≤ j → j < i + k → w o.arr j ≠ none) → (∀ j, i ≤ j → w b j = none) →
    ∃ s', copyAll d o b k i s = some s' ∧ Same s s' ∧ Holds s'.inn fun x j => if x = b ∧ i ≤ j ∧ j < i + k then w o.arr j else w x j
  | 0, i, s, w, h, _, _, _, _, _, _, _ => ⟨s, rfl, .refl s, h.congr fun b j => by rw [if_neg (by omega)]⟩
  | k + 1, i, s, w, h, ha, hb, hc, hc', ho, hw, hw' => by
    unfold copyAll
    obtain ⟨s1, e1, h1, h2⟩ := copyCell_spec d h (ha (by omega)) (hb (by omega)) (show i < c by omega) (show i < c' by omega) (hw i (by omega) (by omega)) (hw' i (by omega))
    obtain ⟨s2, e2, h3, h4⟩ := copyAll_spec d hab k (i + 1) h2 (fun _ => by rw [h1.2.1]; exact ha (by omega)) (fun _ => by rw [h1.2.1]; exact hb (by omega)) (by omega) (by omega)
      (by omega) (fun j hj hj' => by unfold Cells.upd; rw [if_neg (by omega)]; exact hw j (by omega) (by omega))
      (fun j hj => by unfold Cells.upd; rw [if_neg (by omega)]; exact hw' j (by omega))
    refine ⟨s2, by rw [if_pos (by omega), e1, Option.bind_some, e2], h1.trans h3, h4.congr fun x j => ?_⟩
    unfold Cells.upd
    by_cases q : x = b ∧ i + 1 ≤ j ∧ j < i + 1 + k
    · rw [if_pos q, if_neg (fun e => hab e.1), if_pos ⟨q.1, by omega, by omega⟩]
    · rw [if_neg q]
      by_cases q0 : x = b ∧ j = i
      · rw [if_pos q0, if_pos ⟨q0.1, by omega, by omega⟩, q0.2]
      · rw [if_neg q0, if_neg (by omega)]

end DTab

end TdZdd
