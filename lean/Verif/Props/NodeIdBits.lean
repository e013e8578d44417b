import Verif.NodeIdBitsProofs

/-! # Property C45: the packing of `NodeId` -/

namespace TdZdd

open NodeCode

/-- C45: for every row below `2^20` and column below `2^43` the constructors accept their arguments and the three
fields are read back. -/
theorem C45_roundtrip (r c : Nat) (a : Bool) (hr : r < 2 ^ 20) (hc : c < 2 ^ 43) :
    (∃ x, make? (BitVec.ofNat 64 r) (BitVec.ofNat 64 c) = some x ∧ x.row.toNat = r ∧ x.col.toNat = c ∧ x.getAttr = false) ∧
    (∃ x, makeAttr? (BitVec.ofNat 64 r) (BitVec.ofNat 64 c) a = some x ∧ x.row.toNat = r ∧ x.col.toNat = c ∧ x.getAttr = a) := by
  have hr' : (BitVec.ofNat 64 r).toNat = r := by rw [BitVec.toNat_ofNat]; omega
  have hc' : (BitVec.ofNat 64 c).toNat = c := by rw [BitVec.toNat_ofNat]; omega
  have hcond : BitVec.ofNat 64 r ≤ rowMax ∧ BitVec.ofNat 64 c ≤ colMax := by
    rw [BitVec.le_def, BitVec.le_def, rowMax_toNat, colMax_toNat]
    omega
  have e1 : (pack (BitVec.ofNat 64 r) (BitVec.ofNat 64 c)).row = BitVec.ofNat 64 r := row_pack (by omega) (by omega)
  have e2 : (pack (BitVec.ofNat 64 r) (BitVec.ofNat 64 c)).col = BitVec.ofNat 64 c := col_pack (by omega)
  refine ⟨⟨_, if_pos hcond, by rw [e1, hr'], by rw [e2, hc'], ?_⟩,
    ⟨_, if_pos hcond, by rw [row_setAttr, e1, hr'], by rw [col_setAttr, e2, hc'], getAttr_setAttr _ _⟩⟩
  rw [getAttr_eq, pack_bit (by omega)]
  rfl

/-- C45: outside these ranges the assertions of the constructors fail. -/
theorem C45_range (r c : BitVec 64) (a : Bool) (h : 2 ^ 20 ≤ r.toNat ∨ 2 ^ 43 ≤ c.toNat) :
    make? r c = none ∧ makeAttr? r c a = none := by
  have hcond : ¬ (r ≤ rowMax ∧ c ≤ colMax) := by
    rw [BitVec.le_def, BitVec.le_def, rowMax_toNat, colMax_toNat]
    omega
  exact ⟨if_neg hcond, if_neg hcond⟩

/-- C45: setting, clearing and dropping the attribute leave row and column alone. -/
theorem C45_attr (x : NodeCode) (v : Bool) :
    (x.setAttr v).row = x.row ∧ (x.setAttr v).col = x.col ∧ (x.setAttr v).getAttr = v ∧
    x.withoutAttr.row = x.row ∧ x.withoutAttr.col = x.col ∧ x.withoutAttr.getAttr = false := by
  have e : x.withoutAttr = x.setAttr false := rfl
  exact ⟨row_setAttr x v, col_setAttr x v, getAttr_setAttr x v, e ▸ row_setAttr x _, e ▸ col_setAttr x _,
    e ▸ getAttr_setAttr x _⟩

/-- C45: a 64-bit code is determined by row, column and attribute, so distinct triples have distinct codes. -/
theorem C45_injective (x y : NodeCode) (h1 : x.row = y.row) (h2 : x.col = y.col) (h3 : x.getAttr = y.getAttr) :
    x = y := by
  apply BitVec.eq_of_getLsbD_eq
  intro i _
  have hc := congrArg (fun z : BitVec 64 => z.getLsbD i) ((code_eq_iff x y).2 ⟨h1, h2⟩)
  simp only [code_bit] at hc
  rw [getAttr_eq, getAttr_eq] at h3
  by_cases h : i = 43
  · subst h; exact h3
  · simpa [h] using hc

/-- C45: equality ignores the attribute and compares row and column; equal ids have equal hashes. -/
theorem C45_eq (x y : NodeCode) :
    (x.eq y = true ↔ x.row.toNat = y.row.toNat ∧ x.col.toNat = y.col.toNat) ∧
    (x.ne y = true ↔ ¬ (x.row.toNat = y.row.toNat ∧ x.col.toNat = y.col.toNat)) ∧
    (x.eq y = true → x.hash = y.hash) := by
  have key : x.code = y.code ↔ x.row.toNat = y.row.toNat ∧ x.col.toNat = y.col.toNat := by
    rw [code_eq_iff]
    exact ⟨fun h => ⟨congrArg _ h.1, congrArg _ h.2⟩, fun h => ⟨BitVec.eq_of_toNat_eq h.1, BitVec.eq_of_toNat_eq h.2⟩⟩
  refine ⟨?_, ?_, ?_⟩
  · rw [← key]; simp [NodeCode.eq]
  · rw [← key]; simp [NodeCode.ne, NodeCode.eq]
  · intro h
    have : x.code = y.code := by simpa [NodeCode.eq] using h
    unfold NodeCode.hash
    rw [this]

/-- C45: the four order operators are the lexicographic order of (row, column). -/
theorem C45_order (x y : NodeCode) :
    let L := fun x y : NodeCode => x.row.toNat < y.row.toNat ∨ (x.row.toNat = y.row.toNat ∧ x.col.toNat < y.col.toNat)
    (x.lt y = true ↔ L x y) ∧ (x.gt y = true ↔ L y x) ∧
    (x.le y = true ↔ ¬ L y x) ∧ (x.ge y = true ↔ ¬ L x y) := by
  intro L
  have key : ∀ x y : NodeCode, x.lt y = true ↔ L x y := by
    intro x y
    show decide (x.code < y.code) = true ↔ _ ∨ _
    rw [decide_eq_true_iff, BitVec.lt_def, code_toNat, code_toNat]
    have := col_lt x
    have := col_lt y
    omega
  refine ⟨key x y, key y x, ?_, ?_⟩
  · rw [← key]; simp [NodeCode.le]
  · rw [← key]; simp [NodeCode.ge]

/-- C45: only the 1-terminal has code 1 without attribute; `hasEmpty` holds for it and for marked ids. -/
theorem C45_hasEmpty (x : NodeCode) :
    x.hasEmpty = true ↔ x.getAttr = true ∨ (x.row.toNat = 0 ∧ x.col.toNat = 1) := by
  have h1 : (NodeCode.row 1#64).toNat = 0 ∧ (NodeCode.col 1#64).toNat = 1 ∧ NodeCode.getAttr 1#64 = false := by
    decide
  simp only [NodeCode.hasEmpty, Bool.or_eq_true, beq_iff_eq]
  constructor
  · rintro (h | h)
    · subst h; exact .inr ⟨h1.1, h1.2.1⟩
    · exact .inl h
  · rintro (h | ⟨h2, h3⟩)
    · exact .inr h
    · cases ha : x.getAttr
      · exact .inl (C45_injective _ _ (BitVec.eq_of_toNat_eq (h2.trans h1.1.symm))
          (BitVec.eq_of_toNat_eq (h3.trans h1.2.1.symm)) (ha.trans h1.2.2.symm))
      · exact .inr rfl

/-- C45 for nodes: `Node::operator==` compares rows and columns of all branches, and equal nodes have equal hashes,
as the unique tables need. -/
theorem C45_node (fs gs : List NodeCode) (hl : fs.length = gs.length) :
    (nodeEq fs gs = true ↔ fs.map (fun x => (x.row.toNat, x.col.toNat)) = gs.map fun x => (x.row.toNat, x.col.toNat)) ∧
    (nodeEq fs gs = true → nodeHash fs = nodeHash gs) := by
  refine ⟨?_, fun h => nodeHash_congr ((nodeEq_iff _ _ hl).1 h)⟩
  rw [nodeEq_iff _ _ hl]
  induction fs generalizing gs with
  | nil => cases gs with
    | nil => simp
    | cons g gs => cases hl
  | cons f fs ih =>
    cases gs with
    | nil => cases hl
    | cons g gs =>
      have := (C45_eq f g).1
      simp only [NodeCode.eq, beq_iff_eq] at this
      simp only [List.map_cons, List.cons.injEq, Prod.mk.injEq, ← this, ih gs (by simpa using hl)]

/-- Finding: without the assertions (`NDEBUG`) an out-of-range column silently changes the row or the attribute. -/
theorem C45_ndebug_alias : pack 0 (2 ^ 44) = pack 1 0 ∧ (pack 3 (2 ^ 43)).getAttr = true ∧
    (pack (2 ^ 20) 5).eq (pack 0 5) = true := by decide

example : ∃ x, makeAttr? 1048575 8796093022207 true = some x ∧ x.row.toNat = 1048575 ∧
    x.col.toNat = 8796093022207 ∧ x.getAttr = true ∧ x.withoutAttr ≠ x :=
  ⟨_, rfl, by decide, by decide, by decide, by decide⟩

example : (pack 2 0).lt ((pack 2 7).setAttr true) = true ∧ ((pack 2 7).setAttr true).lt (pack 3 0) = true ∧
    nodeEq [pack 2 7, 1] [(pack 2 7).setAttr true, 1] = true ∧ nodeEq [pack 2 7, 1] [pack 2 7, 0] = false := by decide

end TdZdd
