import Verif.MyVector
import Verif.BuilderProofs2
import Verif.ListLemmas

/-! Proofs about `MyVector`: arrays as lists. -/

namespace TdZdd

variable {T : Type}

/-- contents of an array of `cap` cells, the first of which hold `l` -/
def cellsOf (l : List T) (cap : Nat) : List (Option T) := l.map some ++ List.replicate (cap - l.length) none

theorem cellsOf_length {l : List T} {cap : Nat} (h : l.length ≤ cap) : (cellsOf l cap).length = cap := by
  simp [cellsOf]; omega

theorem cellsOf_nil {cap : Nat} : cellsOf ([] : List T) cap = List.replicate cap none := by simp [cellsOf]

theorem cellsOf_get {l : List T} {cap i : Nat} : ((cellsOf l cap)[i]?).join = l[i]? := by
  unfold cellsOf
  rw [List.getElem?_append]
  by_cases h : i < l.length
  · rw [if_pos (by simpa using h)]
    simp [h]
  · rw [if_neg (by simpa using h), List.getElem?_replicate, List.getElem?_eq_none (by omega)]
    split <;> rfl

theorem cellsOf_get_lt {l : List T} {cap i : Nat} (h : i < l.length) : (cellsOf l cap)[i]? = some (some l[i]) := by
  unfold cellsOf
  rw [List.getElem?_append_left (by simpa using h)]
  simp [h]

theorem cellsOf_get_end {l : List T} {cap : Nat} (h : l.length < cap) : (cellsOf l cap)[l.length]? = some none := by
  unfold cellsOf
  rw [List.getElem?_append_right (by simp), List.length_map, Nat.sub_self, List.getElem?_replicate, if_pos (by omega)]

theorem cellsOf_set {l : List T} {cap i : Nat} {x : T} (h : i < l.length) : (cellsOf l cap).set i (some x) = cellsOf (l.set i x) cap := by
  unfold cellsOf
  rw [List.set_append_left _ _ (by simpa using h), List.map_set, List.length_set]

theorem cellsOf_push {l : List T} {cap : Nat} {x : T} (h : l.length < cap) : (cellsOf l cap).set l.length (some x) = cellsOf (l ++ [x]) cap := by
  unfold cellsOf
  rw [List.set_append_right _ _ (by simp)]
  obtain ⟨k, hk⟩ : ∃ k, cap - l.length = k + 1 := ⟨cap - l.length - 1, by omega⟩
  have : cap - (l ++ [x]).length = k := by simp; omega
  rw [this, hk]
  simp [List.replicate_succ]

theorem cellsOf_pop {l : List T} {cap : Nat} {x : T} (h : l.length < cap) : (cellsOf (l ++ [x]) cap).set l.length none = cellsOf l cap := by
  unfold cellsOf
  obtain ⟨k, hk⟩ : ∃ k, cap - l.length = k + 1 := ⟨cap - l.length - 1, by omega⟩
  have : cap - (l ++ [x]).length = k := by simp; omega
  rw [this, hk, List.map_append, List.append_assoc, List.set_append_right _ _ (by simp)]
  simp [List.replicate_succ]

/-- memory with the block `a` replaced -/
def Ram.with {α : Type} (m : Ram α) (a : Nat) (l : List α) : Ram α := { m with blk := upd m.blk a (some l) }

theorem Ram.with_with {α : Type} (m : Ram α) (a : Nat) (l l' : List α) : (m.with a l).with a l' = m.with a l' := by
  unfold Ram.with; simp [upd_upd]

@[simp] theorem Ram.with_blk {α : Type} (m : Ram α) (a : Nat) (l : List α) : (m.with a l).blk a = some l := by
  unfold Ram.with; simp

theorem Ram.with_blk_ne {α : Type} (m : Ram α) {a b : Nat} (l : List α) (h : b ≠ a) : (m.with a l).blk b = m.blk b := by
  unfold Ram.with; exact upd_ne _ _ h

theorem Ram.with_self {α : Type} {m : Ram α} {a : Nat} {l : List α} (h : m.blk a = some l) : m.with a l = m := by
  unfold Ram.with; rw [← h, upd_self]

theorem read_cell {m : VRam T} {a i cap : Nat} {l : List T} (h : m.blk a = some (cellsOf l cap)) : m.read a i = l[i]? := by
  unfold Ram.read Ram.get
  rw [h, Option.bind_some, cellsOf_get]

theorem construct_end {m : VRam T} {a cap : Nat} {l : List T} (h : m.blk a = some (cellsOf l cap)) (hc : l.length < cap) (x : T) :
    m.construct a l.length x = some (m.with a (cellsOf (l ++ [x]) cap)) := by
  unfold Ram.construct Ram.get Ram.set
  rw [h, Option.bind_some, cellsOf_get_end hc, Option.bind_some, if_neg (by simp), Option.bind_some,
    if_pos (by rw [cellsOf_length (by omega)]; exact hc), cellsOf_push hc]
  rfl

theorem destruct_end {m : VRam T} {a cap : Nat} {l : List T} {x : T} (h : m.blk a = some (cellsOf (l ++ [x]) cap)) (hc : l.length < cap) :
    m.destruct a l.length = some (m.with a (cellsOf l cap)) := by
  unfold Ram.destruct Ram.get Ram.set
  rw [h, Option.bind_some, cellsOf_get_lt (by simp), Option.bind_some, if_pos (by simp), Option.bind_some,
    if_pos (by rw [cellsOf_length (by simp; omega)]; exact hc), cellsOf_pop hc]
  rfl

theorem assign_cell {m : VRam T} {a i cap : Nat} {l : List T} (h : m.blk a = some (cellsOf l cap)) (hl : l.length ≤ cap) (hi : i < l.length) (x : T) :
    m.assign a i x = some (m.with a (cellsOf (l.set i x) cap)) := by
  unfold Ram.assign Ram.get Ram.set
  rw [h, Option.bind_some, cellsOf_get_lt hi, Option.bind_some, if_pos (by simp), Option.bind_some,
    if_pos (by rw [cellsOf_length hl]; omega), cellsOf_set hi]
  rfl

theorem vPopTo_spec {a cap : Nat} : ∀ (k : Nat) {m : VRam T} {l : List T} (n : Nat), l.length - n = k → m.blk a = some (cellsOf l cap) → l.length ≤ cap →
    vPopTo m a l.length n = some (m.with a (cellsOf (l.take n) cap))
  | 0, m, l, n, hk, h, hl => by
    unfold vPopTo
    rw [hk, List.take_of_length_le (by omega), Ram.with_self h]
    rfl
  | k + 1, m, l, n, hk, h, hl => by
    rcases l.eq_nil_or_concat with rfl | ⟨l, x, rfl⟩
    · simp at hk
    · rw [List.concat_eq_append] at *
      have hlen : (l ++ [x]).length = l.length + 1 := by simp
      have ih := vPopTo_spec (a := a) (cap := cap) k (m := m.with a (cellsOf l cap)) (l := l) n (by omega) (by simp) (by omega)
      unfold vPopTo at ih ⊢
      rw [hk, List.range_succ_eq_map, List.map_cons, List.foldlM_cons]
      have e0 : (l ++ [x]).length - 1 - 0 = l.length := by omega
      rw [e0, destruct_end h (by omega)]
      simp only [Option.bind_eq_bind, Option.bind_some]
      rw [Ram.with_with] at ih
      have e1 : l.length - n = k := by omega
      rw [e1] at ih
      rw [List.take_append_of_le_length (by omega), ← ih]
      congr 1
      rw [List.map_map]
      refine List.map_congr_left fun j _ => ?_
      dsimp only [Function.comp]
      omega

theorem vGrow_spec {a cap : Nat} (d : T) : ∀ (k : Nat) {m : VRam T} {l : List T} (n : Nat), n - l.length = k → m.blk a = some (cellsOf l cap) → n ≤ cap →
    vGrow d m a l.length n = some (m.with a (cellsOf (l ++ List.replicate (n - l.length) d) cap))
  | 0, m, l, n, hk, h, hl => by
    unfold vGrow
    rw [hk]
    simp [Ram.with_self h]
  | k + 1, m, l, n, hk, h, hl => by
    have ih := vGrow_spec (a := a) (cap := cap) d k (m := m.with a (cellsOf (l ++ [d]) cap)) (l := l ++ [d]) n (by simp; omega) (by simp) hl
    have hlen : (l ++ [d]).length = l.length + 1 := by simp
    unfold vGrow at ih ⊢
    rw [hk, List.range_succ_eq_map, List.map_cons, List.foldlM_cons, Nat.add_zero, construct_end h (by omega)]
    simp only [Option.bind_eq_bind, Option.bind_some]
    have e1 : n - (l ++ [d]).length = k := by omega
    rw [Ram.with_with, e1, List.append_assoc] at ih
    rw [List.replicate_succ]
    refine Eq.trans ?_ ih
    congr 1
    rw [List.map_map]
    refine List.map_congr_left fun j _ => ?_
    dsimp only [Function.comp]
    omega

/-- array whose first `i` objects have been moved away -/
theorem vMoveAll_spec {a b ca cb : Nat} {m : VRam T} {l : List T} (hab : a ≠ b) (ha : m.blk a = some (cellsOf l ca)) (hb : m.blk b = some (cellsOf [] cb))
    (hla : l.length ≤ ca) (hlb : l.length ≤ cb) :
    vMoveAll m a b l.length = some ((m.with a (List.replicate ca none)).with b (cellsOf l cb)) := by
  have key : ∀ i, i ≤ l.length → (List.range i).foldlM (fun m i => vMove m a b i) m =
      some ((m.with a (List.replicate i none ++ (l.drop i).map some ++ List.replicate (ca - l.length) none)).with b (cellsOf (l.take i) cb)) := by
    intro i
    induction i with
    | zero =>
      intro _
      have e1 : m.with a (List.replicate 0 none ++ (l.drop 0).map some ++ List.replicate (ca - l.length) none) = m :=
        Ram.with_self (by simp only [List.replicate_zero, List.nil_append, List.drop_zero]; exact ha)
      rw [e1, List.take_zero, Ram.with_self hb]
      rfl
    | succ i ih =>
      intro hi
      rw [List.range_succ, List.foldlM_append, ih (by omega)]
      simp only [Option.bind_eq_bind, Option.bind_some, List.foldlM_cons, List.foldlM_nil]
      have hti : (l.take i).length = i := by simp; omega
      have hget : ((List.replicate i none ++ (l.drop i).map some ++ List.replicate (ca - l.length) none) : List (Option T))[i]? = some (some l[i]) := by
        rw [List.append_assoc, List.getElem?_append_right (by simp), List.length_replicate, Nat.sub_self,
          List.getElem?_append_left (by simp; omega)]
        simp [show i < l.length by omega]
      have hset : ((List.replicate i none ++ (l.drop i).map some ++ List.replicate (ca - l.length) none) : List (Option T)).set i none =
          List.replicate (i + 1) none ++ (l.drop (i + 1)).map some ++ List.replicate (ca - l.length) none := by
        rw [List.append_assoc, List.set_append_right _ _ (by simp), List.length_replicate, Nat.sub_self,
          List.drop_eq_getElem_cons (by omega), List.replicate_succ', List.map_cons, List.cons_append, List.set_cons_zero]
        simp only [List.append_assoc, List.cons_append, List.nil_append]
      unfold vMove Ram.read Ram.get
      rw [Ram.with_blk_ne _ _ hab, Ram.with_blk, Option.bind_some, hget]
      simp only [Option.join_some, Option.bind_some]
      have hc := construct_end (m := (m.with a (List.replicate i none ++ (l.drop i).map some ++ List.replicate (ca - l.length) none)).with b
        (cellsOf (l.take i) cb)) (a := b) (cap := cb) (l := l.take i) (by simp) (by omega) l[i]
      rw [hti] at hc
      rw [hc, Option.bind_some, Ram.with_with]
      unfold Ram.destruct Ram.get Ram.set
      rw [Ram.with_blk_ne _ _ hab, Ram.with_blk, Option.bind_some, hget, Option.bind_some, if_pos (by simp), Option.bind_some,
        if_pos (by simp; omega), hset]
      rw [List.take_succ_eq_append_getElem (by omega)]
      simp only [Option.bind_some]
      congr 1
      unfold Ram.with
      simp only [Ram.mk.injEq, true_and]
      funext x
      unfold upd
      by_cases h1 : x = a
      · subst h1; simp [hab]
      · by_cases h2 : x = b
        · subst h2; simp [h1]
        · simp [h1, h2]
  unfold vMoveAll
  rw [key l.length (Nat.le_refl _)]
  have : List.replicate l.length none ++ (l.drop l.length).map some ++ List.replicate (ca - l.length) none = List.replicate ca (none : Option T) := by
    simp
    omega
  rw [this, List.take_length]

theorem vCopyLoop_spec {a cap : Nat} {m : VRam T} {o : Vec} {l : List T} (hab : o.arr ≠ a) (hs : o.size = l.length)
    (ho : l ≠ [] → ∃ c, m.blk o.arr = some (cellsOf l c)) (hb : l ≠ [] → m.blk a = some (cellsOf [] cap)) (hl : l.length ≤ cap) :
    vCopyLoop m a l.length o = some (if l = [] then m else m.with a (cellsOf l cap)) := by
  by_cases hl0 : l = []
  · subst hl0; rfl
  rw [if_neg hl0]
  obtain ⟨c, ho⟩ := ho hl0
  have hb := hb hl0
  have key : ∀ i, i ≤ l.length → (List.range i).foldlM (fun m i => if i < o.size then (m.read o.arr i).bind fun x => m.construct a i x else none) m =
      some (m.with a (cellsOf (l.take i) cap)) := by
    intro i
    induction i with
    | zero => intro _; rw [List.take_zero, Ram.with_self hb]; rfl
    | succ i ih =>
      intro hi
      rw [List.range_succ, List.foldlM_append, ih (by omega)]
      simp only [Option.bind_eq_bind, Option.bind_some, List.foldlM_cons, List.foldlM_nil]
      have hti : (l.take i).length = i := by simp; omega
      rw [if_pos (by omega), read_cell (l := l) (cap := c) (by rw [Ram.with_blk_ne _ _ hab]; exact ho), List.getElem?_eq_getElem (by omega), Option.bind_some]
      have hc := construct_end (m := m.with a (cellsOf (l.take i) cap)) (a := a) (cap := cap) (l := l.take i) (by simp) (by omega) l[i]
      rw [hti] at hc
      rw [hc, Ram.with_with, List.take_succ_eq_append_getElem (by omega)]
      rfl
  unfold vCopyLoop
  rw [key l.length (Nat.le_refl _), List.take_length]

end TdZdd
