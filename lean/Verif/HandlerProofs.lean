import Verif.Handler

/-! Proofs about `NodeTableHandler`. -/

namespace TdZdd

variable {N : Nat}

/-- number of handle variables with pointer `p` -/
def hcnt (l : List (Nat × Nat)) (p : Nat) : Nat := l.countP fun e => e.2 == p

theorem hcnt_cons (h q p : Nat) (l : List (Nat × Nat)) : hcnt ((h, q) :: l) p = hcnt l p + if q = p then 1 else 0 := by
  unfold hcnt
  rw [List.countP_cons]
  by_cases e : q = p <;> simp [e]

theorem lookup_none_iff {l : List (Nat × Nat)} {h : Nat} : l.lookup h = none ↔ ∀ e ∈ l, e.1 ≠ h := by
  induction l with
  | nil => simp
  | cons e l ih =>
    obtain ⟨k, q⟩ := e
    rw [List.lookup_cons]
    by_cases hk : h = k
    · subst hk; simp
    · have : (h == k) = false := by simpa using hk
      rw [this]
      rw [ih]
      constructor
      · intro a e he
        rcases List.mem_cons.1 he with rfl | he
        · exact fun c => hk c.symm
        · exact a e he
      · exact fun a e he => a e (List.mem_cons_of_mem _ he)

theorem hlookup_mem {l : List (Nat × Nat)} {h p : Nat} (e : l.lookup h = some p) : (h, p) ∈ l := by
  induction l with
  | nil => cases e
  | cons a l ih =>
    obtain ⟨k, q⟩ := a
    rw [List.lookup_cons] at e
    by_cases hk : h = k
    · subst hk
      simp at e
      subst e
      exact List.mem_cons_self
    · have : (h == k) = false := by simpa using hk
      rw [this] at e
      exact List.mem_cons_of_mem _ (ih e)

theorem lookup_of_mem {l : List (Nat × Nat)} (hk : (l.map Prod.fst).Nodup) {h p : Nat} (hm : (h, p) ∈ l) : l.lookup h = some p := by
  induction l with
  | nil => cases hm
  | cons a l ih =>
    obtain ⟨k, q⟩ := a
    rw [List.map_cons, List.nodup_cons] at hk
    rw [List.lookup_cons]
    rcases List.mem_cons.1 hm with e | hm
    · cases e; simp
    · have hne : h ≠ k := fun e => hk.1 (e ▸ List.mem_map.2 ⟨_, hm, rfl⟩)
      have : (h == k) = false := by simpa using hne
      rw [this]
      exact ih hk.2 hm

theorem lookup_cons' (l : List (Nat × Nat)) (h k q : Nat) : ((k, q) :: l).lookup h = if h = k then some q else l.lookup h := by
  rw [List.lookup_cons]
  by_cases hk : h = k
  · subst hk; simp
  · have : (h == k) = false := by simpa using hk
    rw [this, if_neg hk]

/-- assignment of a pointer -/
theorem lookup_set {l : List (Nat × Nat)} {h q : Nat} (k : Nat) (hin : l.lookup h ≠ none) :
    (l.map fun e => if e.1 = h then (h, q) else e).lookup k = if k = h then some q else l.lookup k := by
  induction l with
  | nil => exact absurd rfl hin
  | cons a l ih =>
    obtain ⟨j, r⟩ := a
    rw [List.map_cons]
    dsimp only
    by_cases hj : j = h
    · subst hj
      rw [if_pos rfl, lookup_cons', lookup_cons']
      by_cases hk : k = j
      · rw [if_pos hk, if_pos hk]
      · rw [if_neg hk, if_neg hk, if_neg hk]
        by_cases hl : l.lookup j = none
        · congr 1
          conv => rhs; rw [← List.map_id l]
          apply List.map_congr_left
          intro e he
          rw [if_neg (lookup_none_iff.1 hl e he)]
          rfl
        · rw [ih hl, if_neg hk]
    · rw [if_neg hj, lookup_cons', lookup_cons']
      rw [lookup_cons', if_neg (fun e => hj e.symm)] at hin
      by_cases hk : k = j
      · subst hk
        rw [if_pos rfl, if_neg hj, if_pos rfl]
      · rw [if_neg hk, if_neg hk, ih hin]

theorem map_keys {l : List (Nat × Nat)} {h q : Nat} :
    (l.map fun e => if e.1 = h then (h, q) else e).map Prod.fst = l.map Prod.fst := by
  rw [List.map_map]
  apply List.map_congr_left
  intro e _
  dsimp only [Function.comp]
  split
  · rename_i h; exact h.symm
  · rfl

theorem hcnt_set {l : List (Nat × Nat)} (hnd : (l.map Prod.fst).Nodup) {h p q : Nat} (hin : l.lookup h = some p) (r : Nat) :
    hcnt (l.map fun e => if e.1 = h then (h, q) else e) r + (if p = r then 1 else 0) =
      hcnt l r + if q = r then 1 else 0 := by
  induction l with
  | nil => cases hin
  | cons a l ih =>
    obtain ⟨j, s⟩ := a
    rw [List.map_cons, List.nodup_cons] at hnd
    rw [lookup_cons'] at hin
    rw [List.map_cons]
    dsimp only
    by_cases hj : h = j
    · subst hj
      rw [if_pos rfl] at hin
      cases hin
      rw [if_pos rfl, hcnt_cons, hcnt_cons]
      have : (l.map fun e => if e.1 = h then (h, q) else e) = l := by
        conv => rhs; rw [← List.map_id l]
        apply List.map_congr_left
        intro e he
        rw [if_neg]
        · rfl
        · intro c
          exact hnd.1 (List.mem_map.2 ⟨e, he, c⟩)
      rw [this]
      omega
    · rw [if_neg hj] at hin
      have := ih hnd.2 hin
      rw [if_neg (fun e => hj e.symm), hcnt_cons, hcnt_cons]
      omega

theorem filter_ne_self {l : List (Nat × Nat)} {h : Nat} (hn : ∀ e ∈ l, e.1 ≠ h) : (l.filter fun e => e.1 ≠ h) = l := by
  rw [List.filter_eq_self]
  intro e he
  simpa using hn e he

theorem lookup_filter (l : List (Nat × Nat)) (h k : Nat) :
    (l.filter fun e => e.1 ≠ h).lookup k = if k = h then none else l.lookup k := by
  induction l with
  | nil => simp
  | cons a l ih =>
    obtain ⟨j, s⟩ := a
    by_cases hj : j = h
    · subst hj
      rw [List.filter_cons_of_neg (by simp), ih, lookup_cons']
      by_cases hk : k = j
      · rw [if_pos hk, if_pos hk]
      · rw [if_neg hk, if_neg hk, if_neg hk]
    · rw [List.filter_cons_of_pos (by simpa using hj), lookup_cons', ih, lookup_cons']
      by_cases hk : k = j
      · subst hk; rw [if_pos rfl, if_neg hj, if_pos rfl]
      · rw [if_neg hk, if_neg hk]

theorem hcnt_filter {l : List (Nat × Nat)} (hnd : (l.map Prod.fst).Nodup) {h p : Nat} (hin : l.lookup h = some p) (r : Nat) :
    hcnt (l.filter fun e => e.1 ≠ h) r + (if p = r then 1 else 0) = hcnt l r := by
  induction l with
  | nil => cases hin
  | cons a l ih =>
    obtain ⟨j, s⟩ := a
    rw [List.map_cons, List.nodup_cons] at hnd
    rw [lookup_cons'] at hin
    by_cases hj : h = j
    · subst hj
      rw [if_pos rfl] at hin
      cases hin
      rw [List.filter_cons_of_neg (by simp), hcnt_cons, filter_ne_self]
      intro e he c
      exact hnd.1 (List.mem_map.2 ⟨e, he, c⟩)
    · rw [if_neg hj] at hin
      have := ih hnd.2 hin
      rw [List.filter_cons_of_pos (by simpa using fun e => hj e.symm), hcnt_cons, hcnt_cons]
      omega

theorem hcnt_pos {l : List (Nat × Nat)} {h p : Nat} (hin : l.lookup h = some p) : 0 < hcnt l p := by
  unfold hcnt
  rw [List.countP_pos_iff]
  exact ⟨_, hlookup_mem hin, by simp⟩

theorem hcnt_unique {l : List (Nat × Nat)} {h k p : Nat} (hin : l.lookup h = some p) (hc : hcnt l p = 1) (hk : l.lookup k = some p) :
    k = h := by
  induction l with
  | nil => cases hin
  | cons a l ih =>
    obtain ⟨j, s⟩ := a
    rw [lookup_cons'] at hin hk
    rw [hcnt_cons] at hc
    by_cases hj : h = j
    · by_cases hj' : k = j
      · rw [hj, hj']
      · exfalso
        rw [if_pos hj] at hin
        rw [if_neg hj'] at hk
        cases hin
        rw [if_pos rfl] at hc
        have := hcnt_pos hk
        omega
    · rw [if_neg hj] at hin
      by_cases hj' : k = j
      · exfalso
        rw [if_pos hj'] at hk
        cases hk
        rw [if_pos rfl] at hc
        have := hcnt_pos hin
        omega
      · rw [if_neg hj'] at hk
        have h2 := hcnt_pos hin
        split at hc
        · omega
        · exact ih hin hc hk

/-- Invariant: reference counts are right, an object is alive iff some variable points to it, and deleted objects were deleted once. -/
structure HInv (st : HSt N) : Prop where
  keys : (st.hdl.map Prod.fst).Nodup
  live : ∀ p o, st.heap p = some o → o.refCount = hcnt st.hdl p ∧ 0 < hcnt st.hdl p ∧ hcnt st.hdl p < 2 ^ 32 ∧ p < st.next
  dead : ∀ p, st.heap p = none → hcnt st.hdl p = 0
  once : st.freed.Nodup
  freed : ∀ p, p ∈ st.freed ↔ p < st.next ∧ st.heap p = none

theorem hinv_empty : HInv (HSt.empty : HSt N) :=
  ⟨.nil, fun _ _ h => (by cases h), fun _ _ => rfl, .nil, fun p => (by simp [HSt.empty])⟩

/-- an alive variable points to an alive object -/
theorem HInv.obj {st : HSt N} (h : HInv st) {x p : Nat} (hp : st.ptr x = some p) : ∃ o, st.heap p = some o := by
  cases e : st.heap p with
  | some o => exact ⟨o, rfl⟩
  | none =>
    have := h.dead p e
    have := hcnt_pos hp
    omega

theorem HInv.val_none {st : HSt N} (h : HInv st) {x : Nat} : st.val x = none ↔ st.ptr x = none := by
  unfold HSt.val
  cases e : st.ptr x with
  | none => simp
  | some p =>
    obtain ⟨o, ho⟩ := h.obj e
    simp [ho]

theorem HInv.ptr_some {st : HSt N} (h : HInv st) {x : Nat} (hv : st.val x ≠ none) :
    ∃ p o, st.ptr x = some p ∧ st.heap p = some o ∧ st.val x = some o.entity := by
  cases e : st.ptr x with
  | none => exact absurd (h.val_none.2 e) hv
  | some p =>
    obtain ⟨o, ho⟩ := h.obj e
    exact ⟨p, o, rfl, ho, by unfold HSt.val; rw [e]; dsimp only; rw [ho]; rfl⟩

theorem HInv.fresh {st : HSt N} (h : HInv st) : st.heap st.next = none := by
  cases e : st.heap st.next with
  | none => rfl
  | some o => exact absurd (h.live _ _ e).2.2.2 (Nat.lt_irrefl _)

theorem deref_last {st : HSt N} {p : Nat} {o : HObj N} (ho : st.heap p = some o) (hc : o.refCount = 1) :
    st.deref p = .ok { st.setObj p none with freed := p :: st.freed } := by
  unfold HSt.deref
  rw [ho]
  dsimp only
  rw [hc, if_pos (by decide)]

theorem deref_shared {st : HSt N} {p : Nat} {o : HObj N} (ho : st.heap p = some o) (hc : 2 ≤ o.refCount) (hb : o.refCount < 2 ^ 32) :
    st.deref p = .ok (st.setObj p (some ⟨o.refCount - 1, o.entity⟩)) := by
  unfold HSt.deref
  rw [ho]
  dsimp only
  have e : (o.refCount + (2 ^ 32 - 1)) % 2 ^ 32 = o.refCount - 1 := by omega
  rw [e, if_neg (by omega)]

theorem ref_ok {st : HSt N} {p : Nat} {o : HObj N} (ho : st.heap p = some o) (hb : o.refCount + 1 < 2 ^ 32) :
    st.ref p = .ok (st.setObj p (some ⟨o.refCount + 1, o.entity⟩)) := by
  unfold HSt.ref
  rw [ho]
  dsimp only
  rw [Nat.mod_eq_of_lt hb, if_neg (by omega)]

theorem ref_throw {st : HSt N} {p : Nat} {o : HObj N} (ho : st.heap p = some o) (hb : o.refCount + 1 = 2 ^ 32) :
    st.ref p = .threw := by
  unfold HSt.ref
  rw [ho]
  dsimp only
  rw [hb, Nat.mod_self, if_pos rfl]

/-- The result of an operation, given the state before. -/
def HGood (st : HSt N) (op : NhOp N) : HRes N → Prop
  | .ok st' => HInv st' ∧ HAbs st.val st'.val op
  | .threw => ∃ p, hcnt st.hdl p = 2 ^ 32 - 1
  | .ub => False

theorem val_eq {st : HSt N} {x p : Nat} {o : HObj N} (h1 : st.ptr x = some p) (h2 : st.heap p = some o) : st.val x = some o.entity := by
  unfold HSt.val; rw [h1]; dsimp only; rw [h2]; rfl

theorem val_congr {st st' : HSt N} {x : Nat} (h1 : st'.ptr x = st.ptr x)
    (h2 : ∀ p, st.ptr x = some p → (st'.heap p).map HObj.entity = (st.heap p).map HObj.entity) : st'.val x = st.val x := by
  unfold HSt.val
  rw [h1]
  cases e : st.ptr x with
  | none => rfl
  | some p => exact h2 p e

theorem alloc_good {st : HSt N} (h : HInv st) {x : Nat} (hx : st.ptr x = none) (e : Ent N) :
    HInv { st.alloc e with hdl := (x, st.next) :: st.hdl } ∧
      HSt.val { st.alloc e with hdl := (x, st.next) :: st.hdl } x = some e ∧
      ∀ k, k ≠ x → HSt.val { st.alloc e with hdl := (x, st.next) :: st.hdl } k = st.val k := by
  have hf := h.fresh
  have hcf : hcnt st.hdl st.next = 0 := h.dead _ hf
  refine ⟨⟨?_, ?_, ?_, h.once, ?_⟩, ?_, ?_⟩
  · show (((x, st.next) :: st.hdl).map Prod.fst).Nodup
    rw [List.map_cons, List.nodup_cons]
    refine ⟨?_, h.keys⟩
    intro hm
    obtain ⟨a, ha, hae⟩ := List.mem_map.1 hm
    exact lookup_none_iff.1 hx a ha hae
  · intro p o ho
    show o.refCount = hcnt ((x, st.next) :: st.hdl) p ∧ 0 < hcnt ((x, st.next) :: st.hdl) p ∧
      hcnt ((x, st.next) :: st.hdl) p < 2 ^ 32 ∧ p < st.next + 1
    rw [hcnt_cons]
    simp only [HSt.alloc, HSt.setObj] at ho
    by_cases hp : p = st.next
    · subst hp
      rw [if_pos rfl] at ho
      cases ho
      rw [hcf, if_pos rfl]
      exact ⟨rfl, by omega, by omega, by omega⟩
    · rw [if_neg hp] at ho
      have := h.live p o ho
      rw [if_neg (fun e => hp e.symm)]
      exact ⟨by omega, by omega, by omega, by omega⟩
  · intro p ho
    show hcnt ((x, st.next) :: st.hdl) p = 0
    simp only [HSt.alloc, HSt.setObj] at ho
    by_cases hp : p = st.next
    · rw [if_pos hp] at ho; cases ho
    · rw [if_neg hp] at ho
      rw [hcnt_cons, h.dead p ho, if_neg (fun e => hp e.symm)]
  · intro p
    simp only [HSt.alloc, HSt.setObj]
    rw [h.freed]
    by_cases hp : p = st.next
    · rw [if_pos hp]; subst hp; constructor
      · intro c; omega
      · intro c; cases c.2
    · rw [if_neg hp]
      constructor
      · exact fun c => ⟨by omega, c.2⟩
      · exact fun c => ⟨by omega, c.2⟩
  · refine val_eq (p := st.next) (o := ⟨1, e⟩) ?_ ?_
    · show ((x, st.next) :: st.hdl).lookup x = _
      rw [lookup_cons', if_pos rfl]
    · simp only [HSt.alloc, HSt.setObj, if_true]
  · intro k hk
    refine val_congr ?_ ?_
    · show ((x, st.next) :: st.hdl).lookup k = _
      rw [lookup_cons', if_neg hk]
      rfl
    · intro p hp
      obtain ⟨o, ho⟩ := h.obj hp
      simp only [HSt.alloc, HSt.setObj]
      rw [if_neg]
      intro e
      rw [e, hf] at ho
      cases ho

theorem good_new {st : HSt N} (h : HInv st) {x n : Nat} (hl : HLegal st.val (.new x n)) : HGood st (.new x n) (hStep st (.new x n)) := by
  obtain ⟨h1, h2⟩ := hl
  show HGood st _ (hNew st x n)
  unfold hNew
  rw [if_neg (by omega)]
  exact alloc_good h (h.val_none.1 h1) _

theorem good_copy {st : HSt N} (h : HInv st) {x y : Nat} (hl : HLegal st.val (.copy x y)) : HGood st (.copy x y) (hStep st (.copy x y)) := by
  obtain ⟨h1, h2⟩ := hl
  have hx := h.val_none.1 h1
  obtain ⟨p, o, hp, ho, hv⟩ := h.ptr_some h2
  obtain ⟨l1, l2, l3, l4⟩ := h.live p o ho
  show HGood st _ (hCopy st x y)
  unfold hCopy
  rw [hp]
  dsimp only
  by_cases hb : o.refCount + 1 = 2 ^ 32
  · rw [ref_throw (st := { st with hdl := (x, p) :: st.hdl }) ho hb]
    exact ⟨p, by omega⟩
  · rw [ref_ok (st := { st with hdl := (x, p) :: st.hdl }) ho (by omega)]
    refine ⟨⟨?_, ?_, ?_, h.once, ?_⟩, ?_, ?_⟩
    · show (((x, p) :: st.hdl).map Prod.fst).Nodup
      rw [List.map_cons, List.nodup_cons]
      refine ⟨?_, h.keys⟩
      intro hm
      obtain ⟨e, he, hee⟩ := List.mem_map.1 hm
      exact lookup_none_iff.1 hx e he hee
    · intro q o' ho'
      show o'.refCount = hcnt ((x, p) :: st.hdl) q ∧ 0 < hcnt ((x, p) :: st.hdl) q ∧ hcnt ((x, p) :: st.hdl) q < 2 ^ 32 ∧ q < st.next
      rw [hcnt_cons]
      simp only [HSt.setObj] at ho'
      by_cases hq : q = p
      · subst hq
        rw [if_pos rfl] at ho'
        cases ho'
        rw [if_pos rfl]
        exact ⟨by dsimp only; omega, by omega, by omega, l4⟩
      · rw [if_neg hq] at ho'
        have := h.live q o' ho'
        rw [if_neg (fun e => hq e.symm)]
        exact this
    · intro q ho'
      show hcnt ((x, p) :: st.hdl) q = 0
      simp only [HSt.setObj] at ho'
      by_cases hq : q = p
      · rw [if_pos hq] at ho'; cases ho'
      · rw [if_neg hq] at ho'
        rw [hcnt_cons, h.dead q ho', if_neg (fun e => hq e.symm)]
    · intro q
      simp only [HSt.setObj]
      rw [h.freed]
      by_cases hq : q = p
      · subst hq; rw [if_pos rfl, ho]; simp
      · rw [if_neg hq]
    · rw [hv]
      refine val_eq (p := p) (o := ⟨o.refCount + 1, o.entity⟩) ?_ ?_
      · show ((x, p) :: st.hdl).lookup x = _
        rw [lookup_cons', if_pos rfl]
      · simp only [HSt.setObj, if_true]
    · intro k hk
      refine val_congr ?_ ?_
      · show ((x, p) :: st.hdl).lookup k = _
        rw [lookup_cons', if_neg hk]
        rfl
      · intro q hq
        simp only [HSt.setObj]
        by_cases e : q = p
        · subst e; rw [if_pos rfl, ho]; rfl
        · rw [if_neg e]

/-- states that differ only in the order of the list of variables -/
theorem hdl_congr {s s' : HSt N} (h1 : s'.heap = s.heap) (h2 : s'.next = s.next) (h3 : s'.freed = s.freed)
    (h4 : (s'.hdl.map Prod.fst).Nodup) (h5 : ∀ p, hcnt s'.hdl p = hcnt s.hdl p) (h : HInv s) : HInv s' := by
  refine ⟨h4, ?_, ?_, ?_, ?_⟩
  · intro p o ho
    rw [h5, h2]
    rw [h1] at ho
    exact h.live p o ho
  · intro p ho
    rw [h1] at ho
    rw [h5]
    exact h.dead p ho
  · rw [h3]; exact h.once
  · intro p; rw [h3, h2, h1]; exact h.freed p

theorem val_hdl {s s' : HSt N} (h1 : s'.heap = s.heap) {x : Nat} (h2 : s'.ptr x = s.ptr x) : s'.val x = s.val x := by
  unfold HSt.val; rw [h2, h1]

/-- the list of variables without `x` -/
def HSt.drop (st : HSt N) (x : Nat) : HSt N := { st with hdl := st.hdl.filter fun e => e.1 ≠ x }

theorem drop_ptr (st : HSt N) (x k : Nat) : (st.drop x).ptr k = if k = x then none else st.ptr k := lookup_filter _ _ _

theorem hderef_spec {st : HSt N} (h : HInv st) {x p : Nat} (hp : st.ptr x = some p) :
    ∃ st1, st.deref p = .ok st1 ∧ st1.hdl = st.hdl ∧ st1.next = st.next ∧ HInv (st1.drop x) ∧
      ∀ k, k ≠ x → (st1.drop x).val k = st.val k := by
  obtain ⟨o, ho⟩ := h.obj hp
  obtain ⟨l1, l2, l3, l4⟩ := h.live p o ho
  have hkeys : ((st.hdl.filter fun e => e.1 ≠ x).map Prod.fst).Nodup :=
    List.Sublist.nodup (List.Sublist.map _ List.filter_sublist) h.keys
  have hcnt' := fun r => hcnt_filter h.keys hp r
  by_cases hc : o.refCount = 1
  · refine ⟨_, deref_last ho hc, rfl, rfl, ⟨hkeys, ?_, ?_, ?_, ?_⟩, ?_⟩
    · intro q o' ho'
      show o'.refCount = hcnt (st.hdl.filter fun e => e.1 ≠ x) q ∧ 0 < hcnt (st.hdl.filter fun e => e.1 ≠ x) q ∧
        hcnt (st.hdl.filter fun e => e.1 ≠ x) q < 2 ^ 32 ∧ q < st.next
      simp only [HSt.drop, HSt.setObj] at ho'
      by_cases hq : q = p
      · rw [if_pos hq] at ho'; cases ho'
      · rw [if_neg hq] at ho'
        have h1 := h.live q o' ho'
        have h2 := hcnt' q
        rw [if_neg (fun e => hq e.symm)] at h2
        omega
    · intro q ho'
      show hcnt (st.hdl.filter fun e => e.1 ≠ x) q = 0
      simp only [HSt.drop, HSt.setObj] at ho'
      have h2 := hcnt' q
      by_cases hq : q = p
      · subst hq
        rw [if_pos rfl] at h2
        omega
      · rw [if_neg hq] at ho'
        have h1 := h.dead q ho'
        omega
    · show (p :: st.freed).Nodup
      rw [List.nodup_cons]
      refine ⟨?_, h.once⟩
      intro hm
      have := ((h.freed p).1 hm).2
      rw [ho] at this
      cases this
    · intro q
      show q ∈ p :: st.freed ↔ _
      simp only [HSt.drop, HSt.setObj]
      rw [List.mem_cons, h.freed]
      by_cases hq : q = p
      · rw [if_pos hq]; subst hq; exact ⟨fun _ => ⟨l4, rfl⟩, fun _ => .inl rfl⟩
      · rw [if_neg hq]; exact ⟨fun c => c.resolve_left hq, .inr⟩
    · intro k hk
      refine val_congr ?_ ?_
      · rw [drop_ptr, if_neg hk]; rfl
      · intro q hq
        have : q ≠ p := by
          intro e
          subst e
          exact hk (hcnt_unique hp (by omega) hq)
        simp only [HSt.drop, HSt.setObj]
        rw [if_neg this]
  · refine ⟨_, deref_shared ho (by omega) (by omega), rfl, rfl, ⟨hkeys, ?_, ?_, h.once, ?_⟩, ?_⟩
    · intro q o' ho'
      show o'.refCount = hcnt (st.hdl.filter fun e => e.1 ≠ x) q ∧ 0 < hcnt (st.hdl.filter fun e => e.1 ≠ x) q ∧
        hcnt (st.hdl.filter fun e => e.1 ≠ x) q < 2 ^ 32 ∧ q < st.next
      simp only [HSt.drop, HSt.setObj] at ho'
      have h2 := hcnt' q
      by_cases hq : q = p
      · rw [if_pos hq] at ho'; cases ho'
        subst hq
        rw [if_pos rfl] at h2
        dsimp only
        omega
      · rw [if_neg hq] at ho'
        have h1 := h.live q o' ho'
        rw [if_neg (fun e => hq e.symm)] at h2
        omega
    · intro q ho'
      show hcnt (st.hdl.filter fun e => e.1 ≠ x) q = 0
      simp only [HSt.drop, HSt.setObj] at ho'
      have h2 := hcnt' q
      by_cases hq : q = p
      · rw [if_pos hq] at ho'; cases ho'
      · rw [if_neg hq] at ho'
        have h1 := h.dead q ho'
        omega
    · intro q
      simp only [HSt.drop, HSt.setObj]
      rw [h.freed]
      by_cases hq : q = p
      · rw [if_pos hq]; subst hq; rw [ho]; simp
      · rw [if_neg hq]
    · intro k hk
      refine val_congr ?_ ?_
      · rw [drop_ptr, if_neg hk]; rfl
      · intro q hq
        simp only [HSt.drop, HSt.setObj]
        by_cases e : q = p
        · subst e; rw [if_pos rfl, ho]; rfl
        · rw [if_neg e]

theorem good_destroy {st : HSt N} (h : HInv st) {x : Nat} (hl : HLegal st.val (.destroy x)) :
    HGood st (.destroy x) (hStep st (.destroy x)) := by
  obtain ⟨p, o, hp, ho, hv⟩ := h.ptr_some hl
  obtain ⟨st1, e1, _, _, h1, h2⟩ := hderef_spec h hp
  show HGood st _ (hDestroy st x)
  unfold hDestroy
  rw [hp]
  dsimp only
  rw [e1]
  refine ⟨h1, ?_, h2⟩
  show (st1.drop x).val x = none
  rw [h1.val_none, drop_ptr, if_pos rfl]

/-- replacing the pointer of `x` is the same as removing `x` and adding it again -/
theorem setPtr_inv {s : HSt N} {x q : Nat} (hx : s.ptr x ≠ none) (hk : (s.hdl.map Prod.fst).Nodup) {heap : Nat → Option (HObj N)}
    {next : Nat} {freed : List Nat} (h : HInv (⟨heap, next, freed, (x, q) :: (s.drop x).hdl⟩ : HSt N)) :
    HInv (⟨heap, next, freed, (s.setPtr x q).hdl⟩ : HSt N) ∧
      ∀ k, HSt.val (⟨heap, next, freed, (s.setPtr x q).hdl⟩ : HSt N) k =
        HSt.val (⟨heap, next, freed, (x, q) :: (s.drop x).hdl⟩ : HSt N) k := by
  constructor
  · refine hdl_congr (s := ⟨heap, next, freed, (x, q) :: (s.drop x).hdl⟩) rfl rfl rfl ?_ ?_ h
    · show ((s.setPtr x q).hdl.map Prod.fst).Nodup
      unfold HSt.setPtr
      rw [map_keys]
      exact hk
    · intro p
      show hcnt (s.setPtr x q).hdl p = hcnt ((x, q) :: (s.drop x).hdl) p
      cases e : s.hdl.lookup x with
      | none => exact absurd e hx
      | some r =>
        have h1 := hcnt_set hk e (q := q) p
        have h2 := hcnt_filter hk e p
        rw [hcnt_cons]
        show hcnt (s.hdl.map fun e => if e.1 = x then (x, q) else e) p = hcnt (s.hdl.filter fun e => e.1 ≠ x) p + _
        omega
  · intro k
    refine val_hdl (s := ⟨heap, next, freed, (x, q) :: (s.drop x).hdl⟩) (s' := ⟨heap, next, freed, (s.setPtr x q).hdl⟩) rfl ?_
    show (s.hdl.map fun e => if e.1 = x then (x, q) else e).lookup k = ((x, q) :: s.hdl.filter fun e => e.1 ≠ x).lookup k
    rw [lookup_set k hx, lookup_cons', lookup_filter]
    by_cases hk : k = x
    · rw [if_pos hk, if_pos hk]
    · rw [if_neg hk, if_neg hk, if_neg hk]

theorem good_assign {st : HSt N} (h : HInv st) {x y : Nat} (hl : HLegal st.val (.assign x y)) :
    HGood st (.assign x y) (hStep st (.assign x y)) := by
  obtain ⟨hl1, hl2, hne⟩ := hl
  obtain ⟨p, o, hp, ho, hv⟩ := h.ptr_some hl1
  obtain ⟨st1, e1, eh, en, h1, h2⟩ := hderef_spec h hp
  have hyv : (st1.drop x).val y ≠ none := by rw [h2 y (fun e => hne e.symm)]; exact hl2
  have hxv : (st1.drop x).val x = none := by rw [h1.val_none, drop_ptr, if_pos rfl]
  have hg := good_copy h1 (x := x) (y := y) ⟨hxv, hyv⟩
  obtain ⟨q, oq, hq, hoq, hvq⟩ := h1.ptr_some hyv
  have hq' : st1.ptr y = some q := by
    rw [drop_ptr, if_neg (fun e => hne e.symm)] at hq
    exact hq
  have hx' : st1.ptr x ≠ none := by
    show st1.hdl.lookup x ≠ none
    rw [eh]
    show st.ptr x ≠ none
    rw [hp]; simp
  have hk : (st1.hdl.map Prod.fst).Nodup := by rw [eh]; exact h.keys
  show HGood st _ (hAssign st x y)
  unfold hAssign
  rw [hp]
  dsimp only
  rw [e1]
  dsimp only [HRes.bind]
  rw [hq']
  dsimp only
  change HGood _ _ (hCopy (st1.drop x) x y) at hg
  unfold hCopy at hg
  rw [hq] at hg
  dsimp only at hg
  obtain ⟨l1, l2, l3, l4⟩ := h1.live q oq hoq
  by_cases hb : oq.refCount + 1 = 2 ^ 32
  · rw [ref_throw (st := st1.setPtr x q) hoq hb]
    refine ⟨q, ?_⟩
    have h3 := hcnt_filter h.keys hp q
    have h4 : hcnt (st1.drop x).hdl q = hcnt (st.hdl.filter fun e => e.1 ≠ x) q := by
      unfold HSt.drop; rw [eh]
    have h5 : hcnt st.hdl q < 2 ^ 32 := by
      cases e : st.heap q with
      | none => rw [h.dead q e]; omega
      | some o' => exact (h.live q o' e).2.2.1
    omega
  · rw [ref_ok (st := { st1.drop x with hdl := (x, q) :: (st1.drop x).hdl }) hoq (by omega)] at hg
    rw [ref_ok (st := st1.setPtr x q) hoq (by omega)]
    obtain ⟨g1, g2, g3⟩ := hg
    obtain ⟨k1, k2⟩ := setPtr_inv hx' hk g1
    refine ⟨k1, ?_, fun k hk => ?_⟩
    · exact (k2 x).trans (g2.trans (h2 y (fun e => hne e.symm)))
    · exact (k2 k).trans ((g3 k hk).trans (h2 k hk))

/-- a new object for the variable `x` -/
theorem hfresh_spec {st : HSt N} (h : HInv st) {x p : Nat} (hp : st.ptr x = some p) {st1 : HSt N} (e1 : st.deref p = .ok st1) (e : Ent N) :
    HInv ((st1.alloc e).setPtr x st1.next) ∧ ((st1.alloc e).setPtr x st1.next).val x = some e ∧
      ∀ k, k ≠ x → ((st1.alloc e).setPtr x st1.next).val k = st.val k := by
  obtain ⟨st1', e1', eh, en, h1, h2⟩ := hderef_spec h hp
  cases e1'.symm.trans e1
  have hxp : (st1.drop x).ptr x = none := by rw [drop_ptr, if_pos rfl]
  obtain ⟨g1, g2, g3⟩ := alloc_good h1 hxp e
  have hx' : st1.ptr x ≠ none := by
    show st1.hdl.lookup x ≠ none
    rw [eh]
    show st.ptr x ≠ none
    rw [hp]; simp
  have hk : (st1.hdl.map Prod.fst).Nodup := by rw [eh]; exact h.keys
  obtain ⟨k1, k2⟩ := setPtr_inv hx' hk g1
  exact ⟨k1, (k2 x).trans g2, fun k hk => (k2 k).trans ((g3 k hk).trans (h2 k hk))⟩

/-- a write through the only pointer to an object -/
theorem hwrite_spec {st : HSt N} (h : HInv st) {x p : Nat} {o : HObj N} (hp : st.ptr x = some p) (ho : st.heap p = some o)
    (hc : o.refCount = 1) (e : Ent N) :
    HInv (st.setObj p (some ⟨o.refCount, e⟩)) ∧ (st.setObj p (some ⟨o.refCount, e⟩)).val x = some e ∧
      ∀ k, k ≠ x → (st.setObj p (some ⟨o.refCount, e⟩)).val k = st.val k := by
  obtain ⟨l1, l2, l3, l4⟩ := h.live p o ho
  refine ⟨⟨h.keys, ?_, ?_, h.once, ?_⟩, ?_, ?_⟩
  · intro q o' ho'
    simp only [HSt.setObj] at ho'
    by_cases hq : q = p
    · rw [if_pos hq] at ho'; cases ho'; subst hq; exact ⟨l1, l2, l3, l4⟩
    · rw [if_neg hq] at ho'; exact h.live q o' ho'
  · intro q ho'
    simp only [HSt.setObj] at ho'
    by_cases hq : q = p
    · rw [if_pos hq] at ho'; cases ho'
    · rw [if_neg hq] at ho'; exact h.dead q ho'
  · intro q
    simp only [HSt.setObj]
    rw [h.freed]
    by_cases hq : q = p
    · rw [if_pos hq]; subst hq; rw [ho]; simp
    · rw [if_neg hq]
  · exact val_eq (p := p) (o := ⟨o.refCount, e⟩) hp (by simp only [HSt.setObj, if_true])
  · intro k hk
    refine val_congr rfl ?_
    intro q hq
    have : q ≠ p := by
      intro e
      subst e
      exact hk (hcnt_unique hp (by omega) hq)
    simp only [HSt.setObj]
    rw [if_neg this]

theorem hprivate_spec {st : HSt N} (h : HInv st) {x : Nat} (hx : st.val x ≠ none) :
    ∃ st', hPrivate st x = .ok st' ∧ HInv st' ∧ (∀ k, st'.val k = st.val k) ∧
      ∃ p o, st'.ptr x = some p ∧ st'.heap p = some o ∧ o.refCount = 1 := by
  obtain ⟨p, o, hp, ho, hv⟩ := h.ptr_some hx
  obtain ⟨l1, l2, l3, l4⟩ := h.live p o ho
  unfold hPrivate
  rw [hp]
  dsimp only
  rw [ho]
  dsimp only
  by_cases hc : 2 ≤ o.refCount
  · rw [if_pos hc]
    have e1 := deref_shared ho hc (by omega)
    obtain ⟨f1, f2, f3⟩ := hfresh_spec h hp e1 o.entity
    rw [e1]
    dsimp only [HRes.bind]
    have e2 : (st.setObj p (some ⟨o.refCount - 1, o.entity⟩)).heap p = some ⟨o.refCount - 1, o.entity⟩ := by
      simp only [HSt.setObj, if_true]
    rw [e2]
    refine ⟨_, rfl, f1, ?_, st.next, ⟨1, o.entity⟩, ?_, ?_, rfl⟩
    · intro k
      by_cases hk : k = x
      · subst hk; exact f2.trans hv.symm
      · exact f3 k hk
    · show (st.hdl.map fun e => if e.1 = x then (x, st.next) else e).lookup x = _
      rw [lookup_set x (by rw [show st.hdl.lookup x = some p from hp]; simp), if_pos rfl]
    · simp only [HSt.setPtr, HSt.alloc, HSt.setObj, if_true]
  · rw [if_neg hc]
    exact ⟨st, rfl, h, fun _ => rfl, p, o, hp, ho, by omega⟩

theorem good_modify {st : HSt N} (h : HInv st) {x : Nat} {f : Ent N → Ent N} (hl : HLegal st.val (.modify x f)) :
    HGood st (.modify x f) (hStep st (.modify x f)) := by
  obtain ⟨st', e, h1, h2, p, o, hp, ho, hc⟩ := hprivate_spec h hl
  obtain ⟨w1, w2, w3⟩ := hwrite_spec h1 hp ho hc (f o.entity)
  show HGood st _ ((hPrivate st x).bind fun st1 => hWrite st1 x f)
  rw [e]
  dsimp only [HRes.bind]
  unfold hWrite
  rw [hp]
  dsimp only
  rw [ho]
  refine ⟨w1, ?_, fun k hk => (w3 k hk).trans (h2 k)⟩
  rw [w2, ← h2 x, val_eq hp ho]
  rfl

theorem good_init {st : HSt N} (h : HInv st) {x n : Nat} (hl : HLegal st.val (.init x n)) :
    HGood st (.init x n) (hStep st (.init x n)) := by
  obtain ⟨p, o, hp, ho, hv⟩ := h.ptr_some hl.1
  have hn := hl.2
  show HGood st _ (hInit st x n)
  unfold hInit
  rw [if_neg (by omega), hp]
  dsimp only
  rw [ho]
  dsimp only
  by_cases hc : o.refCount = 1
  · rw [if_pos hc]
    obtain ⟨w1, w2, w3⟩ := hwrite_spec h hp ho hc (o.entity.init n)
    exact ⟨w1, ⟨_, w2, rfl⟩, w3⟩
  · rw [if_neg hc]
    obtain ⟨st1, e1, _⟩ := hderef_spec h hp
    obtain ⟨f1, f2, f3⟩ := hfresh_spec h hp e1 (Ent.new N n)
    rw [e1]
    exact ⟨f1, ⟨_, f2, rfl⟩, f3⟩

theorem good_derefLevel {st : HSt N} (h : HInv st) {x i : Nat} (hl : HLegal st.val (.derefLevel x i)) :
    HGood st (.derefLevel x i) (hStep st (.derefLevel x i)) := by
  obtain ⟨e, he, hi⟩ := hl
  obtain ⟨p, o, hp, ho, hv⟩ := h.ptr_some (by rw [he]; simp)
  rw [hv] at he
  cases he
  show HGood st _ (hDerefLevel st x i)
  unfold hDerefLevel
  rw [hp]
  dsimp only
  rw [ho]
  dsimp only
  by_cases hc : o.refCount = 1
  · rw [if_pos hc, if_pos hi]
    obtain ⟨w1, w2, w3⟩ := hwrite_spec h hp ho hc (o.entity.clearRow i)
    exact ⟨w1, .inr (by rw [w2, hv]; rfl), w3⟩
  · rw [if_neg hc]
    exact ⟨h, .inl rfl, fun _ _ => rfl⟩

theorem hstep_good {st : HSt N} (h : HInv st) {op : NhOp N} (hl : HLegal st.val op) : HGood st op (hStep st op) := by
  cases op with
  | new x n => exact good_new h hl
  | copy x y => exact good_copy h hl
  | assign x y => exact good_assign h hl
  | destroy x => exact good_destroy h hl
  | modify x f => exact good_modify h hl
  | init x n => exact good_init h hl
  | derefLevel x i => exact good_derefLevel h hl

theorem hreach_inv {st : HSt N} (h : HReach st) : HInv st := by
  induction h with
  | empty => exact hinv_empty
  | step _ hl e ih =>
    have := hstep_good ih hl
    rw [e] at this
    exact this.1

end TdZdd
