import Verif.DataTableProofs

/-! Proofs about `DataTable`: the member functions of the outer `MyVector`. -/

namespace TdZdd

namespace DTab

variable {T : Type}

/-- the blocks in use have been given out, and there are no rows outside of them -/
structure Mem (s : St T) (w : Cells T) : Prop where
  holds : Holds s.inn w
  pos : 0 < s.fresh
  lt : ∀ a, s.blk a ≠ none → 0 < a ∧ a < s.fresh
  raw : ∀ b j, s.blk b = none → w b j = none

theorem Mem.zero {s : St T} {w : Cells T} (h : Mem s w) : s.blk 0 = none := by
  cases e : s.blk 0 with
  | none => rfl
  | some l => exact absurd (h.lt 0 (by rw [e]; simp)).1 (by omega)

theorem Mem.fresh_none {s : St T} {w : Cells T} (h : Mem s w) {a : Nat} (ha : s.fresh ≤ a) : s.blk a = none := by
  cases e : s.blk a with
  | none => rfl
  | some l => have := (h.lt a (by rw [e]; simp)).2; omega

/-- the vector `v` has room for the list `L` -/
def Shape (blk : Nat → Option Nat) (v : Vec) (L : List (List T)) : Prop :=
  (v.arr = 0 ∧ v.cap = 0 ∧ v.size = 0 ∧ L = []) ∨ (v.arr ≠ 0 ∧ 0 < v.cap ∧ v.size = L.length ∧ L.length ≤ v.cap ∧ blk v.arr = some v.cap)

theorem Shape.size {blk : Nat → Option Nat} {v : Vec} {L : List (List T)} (h : Shape blk v L) : v.size = L.length := by
  rcases h with ⟨_, _, h, e⟩ | ⟨_, _, h, _⟩
  · rw [h, e]; rfl
  · exact h

/-- the table `v` holds the rows `L` -/
def Rep (s : St T) (w : Cells T) (v : Vec) (L : List (List T)) : Prop := Shape s.blk v L ∧ ∀ j, v.arr ≠ 0 → w v.arr j = L[j]?

/-- contents after an operation that has replaced the vector `v` by `v'`, which holds `L` -/
def after (w : Cells T) (v v' : Vec) (L : List (List T)) : Cells T := fun b j =>
  if b = v'.arr ∧ b ≠ 0 then L[j]? else if b = v.arr then none else w b j

/-- effect of an operation on a table -/
structure Trans (s : St T) (w : Cells T) (v : Vec) (s' : St T) (v' : Vec) (L : List (List T)) : Prop where
  holds : Holds s'.inn (after w v v' L)
  tab : s'.tab = s.tab
  mono : s.fresh ≤ s'.fresh
  zero : s'.blk 0 = none
  lt : v'.arr < s'.fresh
  frame : ∀ a, a ≠ v.arr → a ≠ v'.arr → s'.blk a = s.blk a
  freed : v.arr ≠ v'.arr → s'.blk v.arr = none
  arr : v'.arr = v.arr ∨ v'.arr = 0 ∨ s.fresh ≤ v'.arr
  shape : Shape s'.blk v' L

theorem Trans.mem {s : St T} {w : Cells T} {v : Vec} {s' : St T} {v' : Vec} {L : List (List T)} (h : Trans s w v s' v' L) (h0 : Mem s w) : Mem s' (after w v v' L) := by
  have hm := h.mono
  refine ⟨h.holds, Nat.lt_of_lt_of_le h0.pos hm, fun a ha => ?_, fun b j hb => ?_⟩
  · have ha0 : a ≠ 0 := fun e => ha (by rw [e]; exact h.zero)
    by_cases e : a = v'.arr
    · exact ⟨by omega, by rw [e]; exact h.lt⟩
    · by_cases e2 : a = v.arr
      · exact absurd (by rw [e2]; exact h.freed (by rw [← e2]; exact e)) ha
      · rw [h.frame a e2 e] at ha
        have := h0.lt a ha
        omega
  · unfold after
    by_cases q : b = v'.arr ∧ b ≠ 0
    · rcases h.shape with ⟨g, _⟩ | ⟨_, _, _, _, g⟩
      · exact absurd (q.1.trans g) q.2
      · rw [q.1, g] at hb; cases hb
    · rw [if_neg q]
      by_cases q2 : b = v.arr
      · rw [if_pos q2]
      · rw [if_neg q2]
        by_cases q3 : b = 0
        · rw [q3]; exact h0.raw 0 j h0.zero
        · exact h0.raw b j ((h.frame b q2 fun e => q ⟨e, q3⟩).symm.trans hb)

theorem Trans.rep {s : St T} {w : Cells T} {v : Vec} {s' : St T} {v' : Vec} {L : List (List T)} (h : Trans s w v s' v' L) : Rep s' (after w v v' L) v' L :=
  ⟨h.shape, fun j h0 => by unfold after; rw [if_pos ⟨rfl, h0⟩]⟩

theorem Rep.facts {s : St T} {w : Cells T} {v : Vec} {L : List (List T)} (h0 : Mem s w) (h : Rep s w v L) :
    v.size = L.length ∧ L.length ≤ v.cap ∧ (0 < L.length → s.blk v.arr = some v.cap) ∧ (∀ j, w v.arr j = L[j]?) ∧ v.arr < s.fresh := by
  have hp := h0.pos
  obtain ⟨h1, h2⟩ := h
  refine ⟨h1.size, ?_⟩
  rcases h1 with ⟨a, b, c, e⟩ | ⟨a, b, c, e, f⟩
  · subst e
    exact ⟨by simp, fun h => absurd h (by simp), fun j => by rw [a, h0.raw 0 j h0.zero]; simp, by omega⟩
  · exact ⟨e, fun _ => f, fun j => h2 j a, (h0.lt _ (by rw [f]; simp)).2⟩

theorem dealloc_spec {s : St T} {w : Cells T} {p n : Nat} (h : Holds s.inn w) (hp : p ≠ 0) (hb : s.blk p = some n) (hw : ∀ i, w p i = none) :
    dealloc s p n = some { s with blk := TdZdd.upd s.blk p none } := by
  unfold dealloc
  rw [if_neg hp, if_pos ⟨hb, List.all_eq_true.2 fun i _ => by rw [h.dead (hw i)]; rfl⟩]

theorem Trans.refl {s : St T} {w : Cells T} {v v' : Vec} {L : List (List T)} (h0 : Mem s w) (h : Rep s w v L) (e : v'.arr = v.arr) (hs : Shape s.blk v' L) : Trans s w v s v' L := by
  obtain ⟨_, _, _, f, g⟩ := h.facts h0
  refine ⟨h0.holds.congr fun b j => ?_, rfl, Nat.le_refl _, h0.zero, by omega, fun _ _ _ => rfl, fun h => absurd e.symm h, .inl e, hs⟩
  unfold after
  by_cases q : b = v'.arr ∧ b ≠ 0
  · rw [if_pos q, q.1, e, f]
  · rw [if_neg q]
    by_cases q2 : b = v.arr
    · rw [if_pos q2]
      have : b = 0 := by
        by_cases hz : b = 0
        · exact hz
        · exact absurd ⟨q2.trans e.symm, hz⟩ q
      rw [this]; exact h0.raw 0 j h0.zero
    · rw [if_neg q2]

theorem clear_spec {s : St T} {w : Cells T} {v : Vec} {L : List (List T)} (d : T) (h0 : Mem s w) (h : Rep s w v L) :
    ∃ s', clear d s v = some (s', ⟨0, 0, 0⟩) ∧ Trans s w v s' ⟨0, 0, 0⟩ [] := by
  obtain ⟨f1, f2, f3, f4, f5⟩ := h.facts h0
  have hp := h0.pos
  unfold clear
  rcases h.1 with ⟨a, b, c, e⟩ | ⟨a, b, c, e, f⟩
  · rw [if_neg (by simp [a])]
    have ev : ({ v with cap := 0 } : Vec) = ⟨0, 0, 0⟩ := by rw [c, a]
    rw [ev]
    subst e
    exact ⟨s, rfl, .refl h0 h a.symm (.inl ⟨rfl, rfl, rfl, rfl⟩)⟩
  · rw [if_pos a, if_pos b]
    obtain ⟨s1, e1, g1, g2⟩ := popTo_spec d (a := v.arr) (n := 0) (c := v.cap) v.size h0.holds (fun _ => f) (by omega) (fun i hi => by
      rw [f4, List.getElem?_eq_getElem (by omega)]; simp)
    have hraw : ∀ i, (fun b j => if b = v.arr ∧ 0 ≤ j ∧ j < v.size then none else w b j) v.arr i = none := fun i => by
      dsimp only
      by_cases q : i < v.size
      · rw [if_pos ⟨rfl, Nat.zero_le _, q⟩]
      · rw [if_neg (by omega), f4, List.getElem?_eq_none (by omega)]
    rw [e1, Option.bind_some, dealloc_spec g2 a (by rw [g1.2.1]; exact f) hraw]
    refine ⟨_, rfl, ⟨g2.congr fun x j => ?_, g1.2.2, by dsimp only; rw [g1.1]; exact Nat.le_refl _, ?_, by dsimp only; rw [g1.1]; exact hp, fun x hx _ => ?_, fun _ => ?_, .inr (.inl rfl),
      .inl ⟨rfl, rfl, rfl, rfl⟩⟩⟩
    · unfold after
      dsimp only
      rw [if_neg (show ¬(x = 0 ∧ x ≠ 0) from fun hh => hh.2 hh.1)]
      by_cases q : x = v.arr
      · rw [if_pos q, q]; exact hraw j
      · rw [if_neg q, if_neg (show ¬(x = v.arr ∧ 0 ≤ j ∧ j < v.size) from fun hh => q hh.1)]
    · dsimp only; rw [upd_ne _ _ (Ne.symm a), g1.2.1]; exact h0.zero
    · dsimp only; rw [upd_ne _ _ hx, g1.2.1]
    · dsimp only; rw [upd_same]

/-- the rows after `resize(n)` -/
def resized (L : List (List T)) (n : Nat) : List (List T) := L.take n ++ List.replicate (n - L.length) []

theorem resized_length (L : List (List T)) (n : Nat) : (resized L n).length = n := by
  unfold resized; simp; omega

theorem resized_get (L : List (List T)) (n j : Nat) : (resized L n)[j]? = if j < n then (if j < L.length then L[j]? else some []) else none := by
  by_cases h : j < n
  · rw [if_pos h]
    unfold resized
    by_cases h2 : j < L.length
    · rw [if_pos h2, List.getElem?_append_left (by simp; omega), List.getElem?_take_of_lt h]
    · rw [if_neg h2, List.getElem?_append_right (by simp; omega), List.getElem?_replicate]
      rw [if_pos (by simp; omega)]
  · rw [if_neg h, List.getElem?_eq_none (by rw [resized_length]; omega)]

theorem alloc_same (s : St T) (n : Nat) : (alloc s n).blk s.fresh = some n := upd_same _ _ _

theorem alloc_ne {s : St T} {a n : Nat} (h : a ≠ s.fresh) : (alloc s n).blk a = s.blk a := upd_ne _ _ h

theorem resize_spec {s : St T} {w : Cells T} {v : Vec} {L : List (List T)} (d : T) (h0 : Mem s w) (h : Rep s w v L) (n : Nat) :
    ∃ s' v', resize d s v n = some (s', v') ∧ Trans s w v s' v' (resized L n) := by
  obtain ⟨f1, f2, f3, f4, f5⟩ := h.facts h0
  have hp := h0.pos
  unfold resize
  by_cases hn : n = 0
  · subst hn
    rw [if_pos rfl]
    obtain ⟨s', e, h1⟩ := clear_spec d h0 h
    refine ⟨s', _, e, ?_⟩
    unfold resized
    simpa using h1
  · rw [if_neg hn]
    obtain ⟨s1, e1, g1, g2⟩ := popTo_spec d (a := v.arr) (n := n) (c := v.cap) v.size h0.holds (fun _ => f3 (by omega)) (by omega) (fun i hi => by
      rw [f4, List.getElem?_eq_getElem (by omega)]; simp)
    rw [e1, Option.bind_some, Option.bind_some]
    -- the rows that remain
    have hrest : ∀ j, min n v.size ≤ j → (fun b j => if b = v.arr ∧ n ≤ j ∧ j < v.size then none else w b j) v.arr j = none := fun j hj => by
      dsimp only
      by_cases q : n ≤ j ∧ j < v.size
      · rw [if_pos ⟨rfl, q⟩]
      · rw [if_neg (fun hh => q hh.2), f4, List.getElem?_eq_none (by omega)]
    by_cases hc : v.cap * 10 ≤ n * 11 ∧ n ≤ v.cap
    · rw [if_pos hc]
      rcases h.1 with ⟨a, b, c, e⟩ | ⟨a, b, c, e, f⟩
      · omega
      obtain ⟨s2, e2, g3, g4⟩ := grow_spec d (n - min n v.size) (min n v.size) g2 (by rw [g1.2.1]; exact f) (by omega) hrest
      rw [e2]
      have hsame := g1.trans g3
      refine ⟨s2, _, rfl, ⟨g4.congr fun x j => ?_, hsame.2.2, by rw [hsame.1]; exact Nat.le_refl _, by rw [hsame.2.1]; exact h0.zero, by rw [hsame.1]; exact f5,
        fun x _ _ => by rw [hsame.2.1], fun hh => absurd rfl hh, .inl rfl, .inr ⟨a, b, ?_, ?_, ?_⟩⟩⟩
      · unfold after
        dsimp only
        by_cases q : x = v.arr
        · subst q
          rw [if_pos (show v.arr = v.arr ∧ v.arr ≠ 0 from ⟨rfl, a⟩), resized_get, f4]
          by_cases q1 : j < n
          · rw [if_pos q1]
            by_cases q2 : j < L.length
            · rw [if_pos q2, if_neg (by omega), if_neg (by omega)]
            · rw [if_neg q2, if_pos ⟨rfl, by omega, by omega⟩]
          · rw [if_neg q1, if_neg (by omega)]
            by_cases q2 : j < v.size
            · rw [if_pos ⟨rfl, by omega, q2⟩]
            · rw [if_neg (by omega), List.getElem?_eq_none (by omega)]
        · rw [if_neg (fun hh => q hh.1), if_neg (fun hh => q hh.1), if_neg (fun hh => q hh.1), if_neg q]
      · rw [resized_length]
      · rw [resized_length]; exact hc.2
      · rw [hsame.2.1]; exact f
    · rw [if_neg hc]
      have hf1 := g1.1
      have hfr : s1.fresh = s.fresh := g1.1
      have hne : v.arr ≠ s1.fresh := by omega
      have hwf : ∀ j, w s.fresh j = none := fun j => h0.raw _ j (h0.fresh_none (Nat.le_refl _))
      obtain ⟨s2, e2, g3, g4⟩ := moveAll_spec d (c := v.cap) hne (min n v.size) 0 (s := alloc s1 n) g2 (fun _ => by rw [alloc_ne hne, g1.2.1]; exact f3 (by omega))
        (alloc_same s1 n) (by omega) (by omega) (fun j _ hj => by
          rw [if_neg (by omega), f4, List.getElem?_eq_getElem (by omega)]; simp)
        (fun j _ => by rw [if_neg (by omega), hfr, hwf])
      have hb2 : s2.blk s1.fresh = some n := by rw [g3.2.1]; exact alloc_same s1 n
      obtain ⟨s3, e3, g5, g6⟩ := grow_spec d (n - min n v.size) (min n v.size) g4 hb2 (by omega) (fun j hj => by
        rw [if_neg (by omega), if_neg (by omega), hfr, hwf])
      dsimp only
      rw [e2, Option.bind_some, e3, Option.bind_some]
      have hsame := g3.trans g5
      have hfin : ∀ x j, (if x = s1.fresh ∧ min n v.size ≤ j ∧ j < min n v.size + (n - min n v.size) then some []
          else if 0 ≤ j ∧ j < 0 + min n v.size then (if x = s1.fresh then (if v.arr = v.arr ∧ n ≤ j ∧ j < v.size then none else w v.arr j) else if x = v.arr then none
            else (if x = v.arr ∧ n ≤ j ∧ j < v.size then none else w x j))
          else (if x = v.arr ∧ n ≤ j ∧ j < v.size then none else w x j)) = after w v ⟨n, n, s1.fresh⟩ (resized L n) x j := by
        intro x j
        unfold after
        dsimp only
        by_cases q : x = s1.fresh
        · rw [if_pos (show x = s1.fresh ∧ x ≠ 0 from ⟨q, by omega⟩), resized_get, if_pos q]
          by_cases q1 : j < n
          · rw [if_pos q1]
            by_cases q2 : j < L.length
            · rw [if_pos q2, if_neg (by omega), if_pos (by omega), if_neg (by omega), f4]
            · rw [if_neg q2, if_pos ⟨q, by omega, by omega⟩]
          · rw [if_neg q1, if_neg (by omega), if_neg (by omega), if_neg (by omega), q, hfr, hwf]
        · have qa : ¬(x = s1.fresh ∧ min n v.size ≤ j ∧ j < min n v.size + (n - min n v.size)) := fun hh => q hh.1
          have qb : ¬(x = s1.fresh ∧ x ≠ 0) := fun hh => q hh.1
          rw [if_neg qa, if_neg qb, if_neg q]
          by_cases q1 : x = v.arr
          · rw [if_pos q1, if_pos q1]
            by_cases q2 : j < min n v.size
            · rw [if_pos (show 0 ≤ j ∧ j < 0 + min n v.size by omega)]
            · rw [if_neg (show ¬(0 ≤ j ∧ j < 0 + min n v.size) by omega), q1]; exact hrest j (by omega)
          · have qc : ¬(x = v.arr ∧ n ≤ j ∧ j < v.size) := fun hh => q1 hh.1
            rw [if_neg q1, if_neg q1, if_neg qc, ite_self]
      have hold := g6.congr hfin
      have hraw3 : ∀ i, after w v ⟨n, n, s1.fresh⟩ (resized L n) v.arr i = none := fun i => by
        unfold after
        rw [if_neg (fun hh => hne hh.1), if_pos rfl]
      have hb3 : ∀ a, a ≠ s1.fresh → s3.blk a = s.blk a := fun a ha => by rw [hsame.2.1, alloc_ne ha, g1.2.1]
      have hb3' : s3.blk s1.fresh = some n := by rw [hsame.2.1]; exact alloc_same s1 n
      have hfr3 : s3.fresh = s1.fresh + 1 := hsame.1
      rcases h.1 with ⟨a, b, c, e⟩ | ⟨a, b, c, e, f⟩
      · have hd : dealloc s3 v.arr v.cap = some s3 := by unfold dealloc; rw [if_pos a]
        rw [hd]
        refine ⟨s3, _, rfl, ⟨hold, hsame.2.2.trans g1.2.2, by omega, ?_, by dsimp only; omega, fun x _ hx => hb3 x hx, fun _ => ?_, .inr (.inr (by dsimp only; omega)), .inr ⟨by dsimp only; omega, by dsimp only; omega, ?_, ?_, hb3'⟩⟩⟩
        · rw [hb3 0 (by omega)]; exact h0.zero
        · rw [a, hb3 0 (by omega)]; exact h0.zero
        · rw [resized_length]
        · rw [resized_length]; exact Nat.le_refl _
      · rw [dealloc_spec hold a (by rw [hb3 _ hne]; exact f) hraw3]
        refine ⟨_, _, rfl, ⟨hold, hsame.2.2.trans g1.2.2, by dsimp only; omega, ?_, by dsimp only; omega, fun x hx hx' => ?_, fun _ => ?_, .inr (.inr (by dsimp only; omega)),
          .inr ⟨by dsimp only; omega, by dsimp only; omega, ?_, ?_, ?_⟩⟩⟩
        · dsimp only; rw [upd_ne _ _ (Ne.symm a), hb3 0 (by omega)]; exact h0.zero
        · dsimp only at hx' ⊢; rw [upd_ne _ _ hx, hb3 x hx']
        · dsimp only; rw [upd_same]
        · rw [resized_length]
        · rw [resized_length]; exact Nat.le_refl _
        · dsimp only; rw [upd_ne _ _ (Ne.symm hne), hb3']

theorem copyAll_new {s : St T} {w : Cells T} {o : Vec} {L : List (List T)} (d : T) (h0 : Mem s w) (h : Rep s w o L) (hl : L ≠ []) :
    ∃ s', copyAll d o s.fresh o.size 0 (alloc s o.size) = some s' ∧ Trans s w ⟨0, 0, 0⟩ s' ⟨o.size, o.size, s.fresh⟩ L := by
  obtain ⟨f1, f2, f3, f4, f5⟩ := h.facts h0
  have hp := h0.pos
  have hlp : 0 < L.length := List.length_pos_iff.2 hl
  have hne : o.arr ≠ s.fresh := by omega
  have hwf : ∀ j, w s.fresh j = none := fun j => h0.raw _ j (h0.fresh_none (Nat.le_refl _))
  obtain ⟨s1, e1, g1, g2⟩ := copyAll_spec d (c := o.cap) (c' := o.size) hne o.size 0 (s := alloc s o.size) (w := w) h0.holds (fun _ => by rw [alloc_ne hne]; exact f3 hlp)
    (fun _ => alloc_same s _) (by omega) (by omega) (by omega) (fun j _ hj => by rw [f4, List.getElem?_eq_getElem (by omega)]; simp) (fun j _ => hwf j)
  have hb : ∀ a, a ≠ s.fresh → s1.blk a = s.blk a := fun a ha => by rw [g1.2.1, alloc_ne ha]
  have hfr : s1.fresh = s.fresh + 1 := g1.1
  refine ⟨s1, e1, ⟨g2.congr fun x j => ?_, g1.2.2, by omega, ?_, by dsimp only; omega, fun x _ hx => hb x hx, fun _ => ?_, .inr (.inr (Nat.le_refl _)),
    .inr ⟨by dsimp only; omega, by dsimp only; omega, f1, by dsimp only; omega, ?_⟩⟩⟩
  · unfold after
    dsimp only
    by_cases q : x = s.fresh
    · rw [if_pos (show x = s.fresh ∧ x ≠ 0 from ⟨q, by omega⟩)]
      by_cases q1 : j < o.size
      · rw [if_pos ⟨q, by omega, by omega⟩, f4]
      · rw [if_neg (by omega), q, hwf, List.getElem?_eq_none (by omega)]
    · rw [if_neg (fun hh => q hh.1), if_neg (fun hh => q hh.1)]
      by_cases q1 : x = 0
      · rw [if_pos q1, q1]; exact h0.raw 0 j h0.zero
      · rw [if_neg q1]
  · rw [hb 0 (by omega)]; exact h0.zero
  · dsimp only; rw [hb 0 (by omega)]; exact h0.zero
  · rw [g1.2.1]; exact alloc_same s _

theorem rep_null {s : St T} {w : Cells T} : Rep s w ⟨0, 0, 0⟩ [] := ⟨.inl ⟨rfl, rfl, rfl, rfl⟩, fun _ h => absurd rfl h⟩

theorem copy_spec {s : St T} {w : Cells T} {o : Vec} {L : List (List T)} (d : T) (h0 : Mem s w) (h : Rep s w o L) :
    ∃ s' v', copy d s o = some (s', v') ∧ Trans s w ⟨0, 0, 0⟩ s' v' L := by
  unfold copy
  have hs := h.1.size
  by_cases hl : L = []
  · subst hl
    rw [if_neg (by simp [hs])]
    exact ⟨s, _, rfl, .refl h0 rep_null rfl (.inl ⟨rfl, rfl, rfl, rfl⟩)⟩
  · have hlp : 0 < L.length := List.length_pos_iff.2 hl
    rw [if_pos (by omega)]
    obtain ⟨s', e, ht⟩ := copyAll_new d h0 h hl
    exact ⟨s', _, by rw [e]; rfl, ht⟩

theorem Trans.trans {s s1 s2 : St T} {w : Cells T} {v v1 v2 : Vec} {L1 L2 : List (List T)} (h0 : Mem s w) (h : Trans s w v s1 v1 L1)
    (h' : Trans s1 (after w v v1 L1) v1 s2 v2 L2) : Trans s w v s2 v2 L2 := by
  have hm := h.mono
  refine ⟨h'.holds.congr fun x j => ?_, h'.tab.trans h.tab, Nat.le_trans h.mono h'.mono, h'.zero, h'.lt, fun a h1 h2 => ?_, fun hne => ?_, ?_, h'.shape⟩
  · unfold after
    by_cases q : x = v2.arr ∧ x ≠ 0
    · rw [if_pos q, if_pos q]
    · rw [if_neg q, if_neg q]
      by_cases q1 : x = v1.arr
      · rw [if_pos q1]
        by_cases q2 : x = v.arr
        · rw [if_pos q2]
        · rw [if_neg q2]
          refine (h0.raw x j ?_).symm
          rcases h.arr with e | e | e
          · exact absurd (q1.trans e) q2
          · rw [q1, e, h0.zero]
          · rw [q1, h0.fresh_none e]
      · rw [if_neg q1, if_neg (fun hh => q1 hh.1)]
  · by_cases e : a = v1.arr
    · subst e
      rw [h'.freed h2]
      rcases h.arr with e | e | e
      · exact absurd e h1
      · rw [e, h0.zero]
      · rw [h0.fresh_none e]
    · rw [h'.frame a e h2, h.frame a h1 e]
  · by_cases e : v.arr = v1.arr
    · rw [e]; exact h'.freed (by rw [← e]; exact hne)
    · rw [h'.frame _ e hne, h.freed e]
  · rcases h'.arr with e | e | e
    · rcases h.arr with f | f | f
      · exact .inl (e.trans f)
      · exact .inr (.inl (e.trans f))
      · exact .inr (.inr (by omega))
    · exact .inr (.inl e)
    · exact .inr (.inr (by omega))

end DTab

end TdZdd
