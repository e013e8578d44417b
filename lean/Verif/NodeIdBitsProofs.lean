import Verif.NodeIdBits

namespace TdZdd.NodeCode

theorem attrMask_bit (i : Nat) : attrMask.getLsbD i = decide (i = 43) := by
  by_cases h : i < 64
  · have : ∀ i : Fin 64, attrMask.getLsbD i.1 = decide (i.1 = 43) := by decide
    exact this ⟨i, h⟩
  · rw [BitVec.getLsbD_of_ge _ _ (by omega)]
    simp; omega

theorem colMax_bit (i : Nat) : colMax.getLsbD i = decide (i < 43) := by
  by_cases h : i < 64
  · have : ∀ i : Fin 64, colMax.getLsbD i.1 = decide (i.1 < 43) := by decide
    exact this ⟨i, h⟩
  · rw [BitVec.getLsbD_of_ge _ _ (by omega)]
    simp; omega

theorem row_bit (x : NodeCode) (i : Nat) : x.row.getLsbD i = x.getLsbD (44 + i) := by
  unfold row
  rw [BitVec.getLsbD_ushiftRight]
  rfl

theorem col_bit (x : NodeCode) (i : Nat) : x.col.getLsbD i = (x.getLsbD i && decide (i < 43)) := by
  unfold col
  rw [BitVec.getLsbD_and, colMax_bit]

theorem code_bit (x : NodeCode) (i : Nat) : x.code.getLsbD i = (x.getLsbD i && !decide (i = 43)) := by
  unfold code
  rw [BitVec.getLsbD_and, BitVec.getLsbD_not, attrMask_bit]
  by_cases h : i < 64
  · simp [h]
  · simp [BitVec.getLsbD_of_ge x i (by omega)]

theorem setAttr_bit (x : NodeCode) (v : Bool) (i : Nat) :
    (x.setAttr v).getLsbD i = if i = 43 then v else x.getLsbD i := by
  unfold setAttr
  cases v with
  | true =>
    simp only [if_true]
    rw [BitVec.getLsbD_or, attrMask_bit]
    by_cases h : i = 43 <;> simp [h]
  | false =>
    have := code_bit x i
    unfold code at this
    simp only [Bool.false_eq_true, if_false]
    rw [this]
    by_cases h : i = 43 <;> simp [h]

theorem getAttr_eq (x : NodeCode) : x.getAttr = x.getLsbD 43 := by
  unfold getAttr
  have e : x &&& attrMask = if x.getLsbD 43 then attrMask else 0#64 := by
    apply BitVec.eq_of_getLsbD_eq
    intro i _
    rw [BitVec.getLsbD_and, attrMask_bit]
    by_cases h : i = 43
    · subst h
      cases hx : x.getLsbD 43
      · simp
      · simp only [if_true, attrMask_bit]; rfl
    · cases hx : x.getLsbD 43
      · simp [h]
      · simp only [if_true, attrMask_bit]; simp [h]
  rw [e]
  cases x.getLsbD 43 <;> decide

theorem pack_bit {r c : BitVec 64} (hc : c.toNat < 2 ^ 43) (i : Nat) :
    (pack r c).getLsbD i = if i < 43 then c.getLsbD i else decide (44 ≤ i ∧ i < 64) && r.getLsbD (i - 44) := by
  have hz : 43 ≤ i → c.getLsbD i = false := by
    intro hi
    rw [BitVec.getLsbD, Nat.testBit_lt_two_pow]
    exact Nat.lt_of_lt_of_le hc (Nat.pow_le_pow_right (by omega) hi)
  unfold pack
  rw [BitVec.getLsbD_or, BitVec.getLsbD_shiftLeft]
  show (_ && !decide (i < 44) && r.getLsbD (i - 44) || _) = _
  by_cases h : i < 43
  · simp [h, show i < 44 by omega]
  · rw [hz (by omega)]
    by_cases h' : i < 44
    · simp [h, h', show ¬ 44 ≤ i by omega]
    · by_cases h2 : i < 64 <;> simp [h, h', h2, show 44 ≤ i by omega]

theorem rowMax_toNat : rowMax.toNat = 2 ^ 20 - 1 := by decide
theorem colMax_toNat : colMax.toNat = 2 ^ 43 - 1 := by decide

theorem row_setAttr (x : NodeCode) (v : Bool) : (x.setAttr v).row = x.row := by
  apply BitVec.eq_of_getLsbD_eq
  intro i _
  rw [row_bit, row_bit, setAttr_bit, if_neg (by omega)]

theorem col_setAttr (x : NodeCode) (v : Bool) : (x.setAttr v).col = x.col := by
  apply BitVec.eq_of_getLsbD_eq
  intro i _
  rw [col_bit, col_bit, setAttr_bit]
  by_cases h : i = 43 <;> simp [h]

theorem code_setAttr (x : NodeCode) (v : Bool) : (x.setAttr v).code = x.code := by
  apply BitVec.eq_of_getLsbD_eq
  intro i _
  rw [code_bit, code_bit, setAttr_bit]
  by_cases h : i = 43 <;> simp [h]

theorem getAttr_setAttr (x : NodeCode) (v : Bool) : (x.setAttr v).getAttr = v := by
  rw [getAttr_eq, setAttr_bit, if_pos rfl]

theorem row_toNat (x : NodeCode) : x.row.toNat = x.toNat / 2 ^ 44 := by
  unfold row
  rw [BitVec.toNat_ushiftRight, Nat.shiftRight_eq_div_pow]
  rfl

theorem col_toNat (x : NodeCode) : x.col.toNat = x.toNat % 2 ^ 43 := by
  unfold col
  rw [BitVec.toNat_and, colMax_toNat, Nat.and_two_pow_sub_one_eq_mod]

theorem row_lt (x : NodeCode) : x.row.toNat < 2 ^ 20 := by
  rw [row_toNat]
  have := x.isLt
  omega

theorem col_lt (x : NodeCode) : x.col.toNat < 2 ^ 43 := by
  rw [col_toNat]
  exact Nat.mod_lt _ (by decide)

theorem row_pack {r c : BitVec 64} (hr : r.toNat < 2 ^ 20) (hc : c.toNat < 2 ^ 43) : (pack r c).row = r := by
  apply BitVec.eq_of_getLsbD_eq
  intro i hi
  rw [row_bit, pack_bit hc, if_neg (by omega), show 44 + i - 44 = i by omega]
  by_cases h : 44 + i < 64
  · simp [h]
  · have : r.getLsbD i = false := by
      rw [BitVec.getLsbD, Nat.testBit_lt_two_pow]
      exact Nat.lt_of_lt_of_le hr (Nat.pow_le_pow_right (by omega) (by omega))
    rw [this, Bool.and_false]

theorem col_pack {r c : BitVec 64} (hc : c.toNat < 2 ^ 43) : (pack r c).col = c := by
  apply BitVec.eq_of_getLsbD_eq
  intro i hi
  rw [col_bit, pack_bit hc]
  by_cases h : i < 43
  · simp [h]
  · have : c.getLsbD i = false := by
      rw [BitVec.getLsbD, Nat.testBit_lt_two_pow]
      exact Nat.lt_of_lt_of_le hc (Nat.pow_le_pow_right (by omega) (by omega))
    simp [h, this]

theorem code_eq_pack (x : NodeCode) : x.code = pack x.row x.col := by
  apply BitVec.eq_of_getLsbD_eq
  intro i hi
  rw [code_bit, pack_bit (col_lt x), col_bit, row_bit]
  by_cases h : i < 43
  · simp [h]; omega
  · by_cases h1 : i = 43
    · simp [h1]
    · simp [h, h1, show 44 ≤ i by omega, hi, show 44 + (i - 44) = i by omega]

theorem pack_toNat {r c : BitVec 64} (hr : r.toNat < 2 ^ 20) (hc : c.toNat < 2 ^ 43) :
    (pack r c).toNat = r.toNat * 2 ^ 44 + c.toNat := by
  unfold pack
  rw [BitVec.toNat_or, BitVec.toNat_shiftLeft]
  show (r.toNat <<< 44 % 2 ^ 64 ||| c.toNat) = _
  rw [Nat.mod_eq_of_lt (by rw [Nat.shiftLeft_eq]; omega),
    ← Nat.shiftLeft_add_eq_or_of_lt (by omega), Nat.shiftLeft_eq]

theorem code_toNat (x : NodeCode) : x.code.toNat = x.row.toNat * 2 ^ 44 + x.col.toNat := by
  rw [code_eq_pack, pack_toNat (row_lt x) (col_lt x)]

theorem code_eq_iff (x y : NodeCode) : x.code = y.code ↔ x.row = y.row ∧ x.col = y.col := by
  constructor
  · intro h
    have h' := congrArg BitVec.toNat h
    rw [code_toNat, code_toNat] at h'
    have := col_lt x
    have := col_lt y
    exact ⟨BitVec.eq_of_toNat_eq (by omega), BitVec.eq_of_toNat_eq (by omega)⟩
  · rintro ⟨h1, h2⟩
    rw [code_eq_pack, code_eq_pack, h1, h2]

theorem nodeEq_iff : ∀ (fs gs : List NodeCode), fs.length = gs.length →
    (nodeEq fs gs = true ↔ fs.map code = gs.map code) := by
  intro fs
  induction fs with
  | nil => intro gs h; cases gs with
    | nil => simp [nodeEq]
    | cons g gs => cases h
  | cons f fs ih =>
    intro gs h
    cases gs with
    | nil => cases h
    | cons g gs =>
      have := ih gs (by simpa using h)
      simp only [nodeEq, ne, eq, List.map_cons, List.cons.injEq]
      by_cases e : f.code = g.code
      · simp [e, this]
      · simp [e]

theorem nodeHash_congr {fs gs : List NodeCode} (h : fs.map code = gs.map code) : nodeHash fs = nodeHash gs := by
  have gen : ∀ (fs gs : List NodeCode), fs.map code = gs.map code → ∀ h0,
      fs.foldl (fun h g => h * 314159257#64 + g.code * 271828171#64) h0 =
      gs.foldl (fun h g => h * 314159257#64 + g.code * 271828171#64) h0 := by
    intro fs
    induction fs with
    | nil => intro gs h; cases gs with
      | nil => intro _; rfl
      | cons g gs => simp at h
    | cons f fs ih =>
      intro gs h h0
      cases gs with
      | nil => simp at h
      | cons g gs =>
        simp only [List.map_cons, List.cons.injEq] at h
        simp only [List.foldl_cons, h.1]
        exact ih gs h.2 _
  cases fs with
  | nil => cases gs with
    | nil => rfl
    | cons g gs => simp at h
  | cons f fs =>
    cases gs with
    | nil => simp at h
    | cons g gs =>
      simp only [List.map_cons, List.cons.injEq] at h
      simp only [nodeHash, h.1, gen fs gs h.2]

end TdZdd.NodeCode
