import Verif.HandlerProofs

/-!
# Property C47: `NodeTableHandler`

`HReach st` are the states after any sequence of handle operations that respects the obvious preconditions (`HLegal`); `st.val h` is
what the program sees through the variable `h`.
-/

namespace TdZdd

variable {N : Nat}

/-- C47, value semantics: whatever happened before, an operation has no undefined behaviour, does to its own variable what it
would do if every variable had a table of its own, and does not change what any other variable sees. The only exception thrown
is "Too many references", when a table has 2^32 - 1 handles. -/
theorem C47_value (st : HSt N) (h : HReach st) (op : NhOp N) (hl : HLegal st.val op) :
    (∃ st', hStep st op = .ok st' ∧ HAbs st.val st'.val op) ∨
      (hStep st op = .threw ∧ ∃ p, (st.hdl.filter fun e => e.2 = p).length = 2 ^ 32 - 1) := by
  have hg := hstep_good (hreach_inv h) hl
  cases e : hStep st op with
  | ok st' => rw [e] at hg; exact .inl ⟨st', rfl, hg.2⟩
  | threw =>
    rw [e] at hg
    obtain ⟨p, hp⟩ := hg
    refine .inr ⟨rfl, p, ?_⟩
    rw [← hp]
    unfold hcnt
    rw [List.countP_eq_length_filter]
    congr 1
  | ub => rw [e] at hg; exact hg.elim

/-- C47, copies are independent: after `b` is copied from `a`, any change through `a` leaves `b` with the table that `a` had. -/
theorem C47_copy (st : HSt N) (h : HReach st) (a b : Nat) (hab : a ≠ b) (hl : HLegal st.val (.copy b a)) (st' st'' : HSt N)
    (h1 : hStep st (.copy b a) = .ok st') (op : NhOp N)
    (hop : (∃ f, op = .modify a f) ∨ (∃ n, op = .init a n) ∨ (∃ i, op = .derefLevel a i) ∨ op = .destroy a)
    (hl' : HLegal st'.val op) (h2 : hStep st' op = .ok st'') : st''.val b = st.val a := by
  have g1 := hstep_good (hreach_inv h) hl
  rw [h1] at g1
  have g2 := hstep_good g1.1 hl'
  rw [h2] at g2
  have hb : st'.val b = st.val a := g1.2.1
  rw [← hb]
  rcases hop with ⟨f, rfl⟩ | ⟨n, rfl⟩ | ⟨i, rfl⟩ | rfl
  · exact g2.2.2 b (fun e => hab e.symm)
  · exact g2.2.2 b (fun e => hab e.symm)
  · exact g2.2.2 b (fun e => hab e.symm)
  · exact g2.2.2 b (fun e => hab e.symm)

/-- C47, memory: in every reachable state each object ever allocated either is alive and some variable points to it, or has been
deleted exactly once and no variable points to it. -/
theorem C47_memory (st : HSt N) (h : HReach st) : st.freed.Nodup ∧
    ∀ p, p < st.next → ((∃ o x, st.heap p = some o ∧ st.ptr x = some p) ∧ p ∉ st.freed) ∨
      (st.heap p = none ∧ p ∈ st.freed ∧ ∀ x, st.ptr x ≠ some p) := by
  have hi := hreach_inv h
  refine ⟨hi.once, fun p hp => ?_⟩
  cases e : st.heap p with
  | none =>
    refine .inr ⟨rfl, (hi.freed p).2 ⟨hp, e⟩, fun x hx => ?_⟩
    obtain ⟨o, ho⟩ := hi.obj hx
    rw [e] at ho
    cases ho
  | some o =>
    refine .inl ⟨?_, fun hf => ?_⟩
    · have hc := (hi.live p o e).2.1
      unfold hcnt at hc
      rw [List.countP_pos_iff] at hc
      obtain ⟨⟨x, q⟩, hm, hq⟩ := hc
      have hq' : q = p := by simpa using hq
      subst hq'
      refine ⟨o, x, rfl, ?_⟩
      exact lookup_of_mem hi.keys hm
    · have := ((hi.freed p).1 hf).2
      rw [e] at this
      cases this

/-- C47, no leak: when the last variable is gone, every object allocated has been deleted, exactly once. -/
theorem C47_no_leak (st : HSt N) (h : HReach st) (hd : ∀ x, st.val x = none) :
    st.freed.Nodup ∧ ∀ p, p < st.next → p ∈ st.freed := by
  obtain ⟨h1, h2⟩ := C47_memory st h
  refine ⟨h1, fun p hp => ?_⟩
  rcases h2 p hp with ⟨⟨o, x, ho, hx⟩, _⟩ | ⟨_, hf, _⟩
  · have := hd x
    rw [val_eq hx ho] at this
    cases this
  · exact hf

/-! ### Example: two handles share a table, then one is changed. -/

/-- run a list of operations -/
def nhRun (st : HSt N) : List (NhOp N) → HRes N
  | [] => .ok st
  | op :: l => (hStep st op).bind fun st' => nhRun st' l

def sampleOps : List (NhOp 2) :=
  [.new 0 2, .copy 1 0, .modify 1 (fun e => { e with tab := ⟨3, e.tab.row⟩ }), .copy 2 1, .derefLevel 2 0, .assign 0 2, .init 2 5]

/-- numbers of rows and references after each of the operations -/
def hView (r : HRes 2) : Option (List (Option (Nat × Nat)) × List Nat) :=
  match r with
  | .ok st => some ([0, 1, 2].map fun x => (st.val x).map (fun e =>
      (e.tab.numRows, ((st.ptr x).bind st.heap).elim 0 HObj.refCount)), st.freed)
  | _ => none

example : hView (nhRun HSt.empty (sampleOps.take 2)) = some ([some (2, 2), some (2, 2), none], []) ∧
    hView (nhRun HSt.empty (sampleOps.take 3)) = some ([some (2, 1), some (3, 1), none], []) ∧
    hView (nhRun HSt.empty (sampleOps.take 6)) = some ([some (3, 3), some (3, 3), some (3, 3)], [0]) ∧
    hView (nhRun HSt.empty sampleOps) = some ([some (3, 2), some (3, 2), some (5, 1)], [0]) := by
  refine ⟨?_, ?_, ?_, ?_⟩ <;> decide +kernel

/-- the preconditions hold: a table, a copy of its handle, and a change of the copy -/
example : ∃ st st' st'' : HSt 2, HReach st ∧ HLegal st.val (.copy 1 0) ∧ hStep st (.copy 1 0) = .ok st' ∧
    HLegal st'.val (.init 0 7) ∧ hStep st' (.init 0 7) = .ok st'' ∧ st''.val 1 = st.val 0 ∧ st''.val 0 ≠ st''.val 1 := by
  have l0 : HLegal (HSt.empty : HSt 2).val (.new 0 2) := ⟨rfl, by decide⟩
  have e0 : ∃ st, hStep (HSt.empty : HSt 2) (.new 0 2) = .ok st := ⟨_, rfl⟩
  obtain ⟨st, e0⟩ := e0
  have r0 : HReach st := .step .empty l0 e0
  cases e0
  have l1 : HLegal (HSt.val (N := 2) { (HSt.empty : HSt 2).alloc (Ent.new 2 2) with hdl := [(0, 0)] }) (.copy 1 0) :=
    ⟨rfl, by intro h; cases h⟩
  refine ⟨_, _, _, r0, l1, rfl, ⟨(by intro h; cases h), by decide⟩, rfl, rfl, ?_⟩
  intro h
  have := congrArg (fun v => v.elim 0 fun e : Ent 2 => e.tab.numRows) h
  exact absurd this (by decide +kernel)

/-! ### Defects -/

/-- Assigning the only handle of a table to itself accesses the table after it has been deleted. -/
theorem C47_self_assign : ∃ st : HSt 2, HReach st ∧ st.val 0 ≠ none ∧ hStep st (.assign 0 0) = .ub :=
  ⟨_, .step .empty (op := .new 0 1) ⟨rfl, by decide⟩ rfl, (by intro h; cases h), rfl⟩

/-- If the table has other handles self-assignment is harmless. -/
theorem C47_self_assign_shared (st : HSt N) (h : HReach st) (a b : Nat) (hab : a ≠ b) (p : Nat) (ha : st.ptr a = some p)
    (hb : st.ptr b = some p) : ∃ st', hStep st (.assign a a) = .ok st' ∧ ∀ x, st'.val x = st.val x := by
  have hi := hreach_inv h
  obtain ⟨o, ho⟩ := hi.obj ha
  obtain ⟨l1, l2, l3, _⟩ := hi.live p o ho
  have h2 : 2 ≤ o.refCount := by
    by_cases hc : hcnt st.hdl p = 1
    · exact absurd (hcnt_unique ha hc hb).symm hab
    · omega
  have e1 := deref_shared ho h2 (by omega)
  show ∃ st', hAssign st a a = .ok st' ∧ _
  unfold hAssign
  rw [ha]
  dsimp only
  rw [e1]
  dsimp only [HRes.bind]
  rw [show (st.setObj p (some ⟨o.refCount - 1, o.entity⟩)).ptr a = some p from ha]
  dsimp only
  have hob : ((st.setObj p (some ⟨o.refCount - 1, o.entity⟩)).setPtr a p).heap p = some ⟨o.refCount - 1, o.entity⟩ := by
    simp only [HSt.setPtr, HSt.setObj, if_true]
  rw [ref_ok hob (by dsimp only; omega)]
  refine ⟨_, rfl, fun x => ?_⟩
  refine val_congr ?_ ?_
  · show (st.hdl.map fun e => if e.1 = a then (a, p) else e).lookup x = _
    rw [lookup_set x (by rw [show st.hdl.lookup a = some p from ha]; simp)]
    by_cases hx : x = a
    · subst hx; rw [if_pos rfl]; exact ha.symm
    · rw [if_neg hx]; rfl
  · intro q _
    simp only [HSt.setPtr, HSt.setObj]
    by_cases hq : q = p
    · rw [if_pos hq]; subst hq; rw [ho]; rfl
    · rw [if_neg hq, if_neg hq]

/-- `init` of a table that is not shared keeps the index tables made for its former contents; a shared
table is replaced by a new one without index. -/
theorem C47_init_keeps_index : ∃ st st' : HSt 2, ∃ ix, HReach st ∧ hStep st (.init 0 1) = .ok st' ∧
    (st.val 0).map Ent.index = some (some ix) ∧ ix.2.length = 3 ∧ (st'.val 0).map (fun e => e.tab.numRows) = some 1 ∧
    (st'.val 0).map Ent.index = some (some ix) :=
  ⟨_, _, ([[], [], []], [[], [], []]),
    .step (.step .empty (op := .new 0 3) ⟨rfl, by decide⟩ rfl)
      (op := .modify 0 fun e => { e with index := some ([[], [], []], [[], [], []]) }) (by intro h; cases h) rfl, rfl, rfl, rfl, rfl, rfl⟩

end TdZdd
