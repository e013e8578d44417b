import Verif.MyBitSetProofs

/-! Proofs about `MyBitSet::pullout`. -/

namespace TdZdd

/-- the loop of `pullout`: every word is shifted, with the uppermost bit moved to the lowermost bit of the word before -/
def shiftWords (v : BitVec 64) : List (BitVec 64) → List (BitVec 64)
  | [] => [v]
  | w :: ws => (v ||| (w >>> 63)) :: shiftWords (w <<< 1) ws

theorem bPulloutLoop_spec : ∀ (ws pre : List (BitVec 64)) (v : BitVec 64), bPulloutLoop ws.length (pre.length + 1) (pre ++ v :: ws) = some (pre ++ shiftWords v ws)
  | [], pre, v => rfl
  | w :: ws, pre, v => by
    rw [List.length_cons]
    unfold bPulloutLoop
    have h1 : (pre ++ v :: w :: ws)[pre.length + 1]? = some w := by
      rw [List.getElem?_append_right (by omega)]
      simp
    have h2 : (pre ++ v :: w :: ws)[pre.length + 1 - 1]? = some v := by
      rw [List.getElem?_append_right (by omega)]
      simp
    rw [h1, Option.bind_some, h2, Option.bind_some]
    have h3 : ((pre ++ v :: w :: ws).set (pre.length + 1 - 1) (v ||| (w >>> 63))).set (pre.length + 1) (w <<< 1) = (pre ++ [v ||| (w >>> 63)]) ++ (w <<< 1) :: ws := by
      simp
    rw [h3]
    have := bPulloutLoop_spec ws (pre ++ [v ||| (w >>> 63)]) (w <<< 1)
    rw [List.length_append, List.length_singleton] at this
    rw [this, List.append_assoc]
    rfl

theorem shiftWords_length : ∀ (ws : List (BitVec 64)) (v : BitVec 64), (shiftWords v ws).length = ws.length + 1
  | [], _ => rfl
  | w :: ws, v => by simp [shiftWords, shiftWords_length ws]

/-- the first word after the loop -/
theorem shiftWords_zero (ws : List (BitVec 64)) (v : BitVec 64) (j : Nat) (hv : v.getLsbD 0 = false) :
    ((shiftWords v ws)[0]?.getD 0).getLsbD j = if j = 0 then (ws[0]?.getD 0).getLsbD 63 else v.getLsbD j := by
  cases ws with
  | nil =>
    by_cases h : j = 0
    · subst h
      rw [if_pos rfl]
      exact hv.trans (by simp)
    · simp [shiftWords, h]
  | cons w ws =>
    simp only [shiftWords, List.getElem?_cons_zero, Option.getD_some, BitVec.getLsbD_or, BitVec.getLsbD_ushiftRight]
    by_cases h : j = 0
    · subst h
      rw [hv]
      simp
    · rw [if_neg h, BitVec.getLsbD_of_ge w (63 + j) (by omega)]
      simp

theorem shl_zero (w : BitVec 64) : (w <<< 1).getLsbD 0 = false := by simp

/-- the other words -/
theorem shiftWords_succ : ∀ (ws : List (BitVec 64)) (v : BitVec 64) (a j : Nat), j < 64 →
    ((shiftWords v ws)[a + 1]?.getD 0).getLsbD j = if j = 0 then (ws[a + 1]?.getD 0).getLsbD 63 else (ws[a]?.getD 0).getLsbD (j - 1)
  | [], v, a, j, hj => by simp [shiftWords]
  | w :: ws, v, 0, j, hj => by
    simp only [shiftWords, List.getElem?_cons_succ]
    rw [shiftWords_zero ws _ j (shl_zero w)]
    by_cases h : j = 0
    · rw [if_pos h, if_pos h]
    · rw [if_neg h, if_neg h, BitVec.getLsbD_shiftLeft]
      have : ¬j < 1 := by omega
      simp [hj, this]
  | w :: ws, v, a + 1, j, hj => by
    simp only [shiftWords, List.getElem?_cons_succ]
    exact shiftWords_succ ws _ a j hj

theorem pullout_word (w : BitVec 64) {i j : Nat} (hi : i < 63) (hj : j < 64) :
    ((w &&& ~~~(1#64 <<< (i + 1) - 1)) ||| ((w <<< 1) &&& (1#64 <<< (i + 1) - 1))).getLsbD j = if i < j then w.getLsbD j else if j = 0 then false else w.getLsbD (j - 1) := by
  have hm : (1#64 <<< (i + 1) - 1#64).getLsbD j = decide (j ≤ i) := by
    have e : 1#64 <<< (i + 1) - 1#64 = BitVec.ofNat 64 (2 ^ (i + 1) - 1) := by
      apply BitVec.eq_of_toNat_eq
      have h1 : 2 ^ (i + 1) < 2 ^ 64 := Nat.pow_lt_pow_right (by omega) (by omega)
      have h0 : 0 < 2 ^ (i + 1) := Nat.two_pow_pos _
      rw [BitVec.toNat_sub, BitVec.toNat_shiftLeft, BitVec.toNat_ofNat, BitVec.toNat_ofNat, Nat.shiftLeft_eq]
      simp only [Nat.one_mod_eq_one.2 (show 2 ^ 64 ≠ 1 by decide), Nat.one_mul]
      rw [Nat.mod_eq_of_lt h1, Nat.mod_eq_of_lt (show 2 ^ (i + 1) - 1 < 2 ^ 64 by omega)]
      omega
    rw [e, BitVec.getLsbD_ofNat, Nat.testBit_two_pow_sub_one]
    simp only [hj, decide_true, Bool.true_and]
    rw [Bool.eq_iff_iff, decide_eq_true_eq, decide_eq_true_eq]
    omega
  rw [BitVec.getLsbD_or, BitVec.getLsbD_and, BitVec.getLsbD_and, BitVec.getLsbD_not, BitVec.getLsbD_shiftLeft]
  rw [show (1#64 <<< (i + 1) - 1) = 1#64 <<< (i + 1) - 1#64 from rfl, hm]
  by_cases h : i < j
  · have h' : ¬j ≤ i := by omega
    simp [h, h', hj]
  · have h' : j ≤ i := by omega
    by_cases h0 : j = 0
    · simp [h0]
    · have h1 : ¬j < 1 := by omega
      simp [h, h', hj, h0]

/-- the set after `pullout(i)` for `i < 63` -/
def pulloutMem (words i : Nat) (mem : Nat → Bool) (j : Nat) : Bool :=
  if i < j ∧ j < 64 then mem j
  else if j % 64 = 0 then decide (j + 127 < 64 * words) && mem (j + 127)
  else mem (j - 1)

theorem bPullout_spec {s : BSet} {r : ISet} (k : BOk s r) {i : Nat} (hi : i < 63) (hw : 0 < r.words) :
    ∃ s', bPullout s i = some s' ∧ BOk s' { r with mem := pulloutMem r.words i r.mem } := by
  obtain ⟨ws, k1, k2, k3⟩ := k.rep
  cases ws with
  | nil => simp at k2; omega
  | cons w ws =>
  have hlt : i / 64 < (w :: ws).length := by simp; omega
  unfold bPullout
  dsimp only
  have h0 : i / 64 = 0 := by omega
  have h1 : i % 64 = i := by omega
  rw [h0, h1, k1.get, List.getElem?_cons_zero, Option.bind_some, bMask_lt (by omega), Option.bind_some]
  obtain ⟨s1, e1, q1, n1⟩ := k1.set (i := 0) (by simp) ((w &&& ~~~(1#64 <<< (i + 1) - 1)) ||| ((w <<< 1) &&& (1#64 <<< (i + 1) - 1)))
  have hv := fun j hj => pullout_word w (i := i) (j := j) hi hj
  revert e1 q1 hv
  generalize (w &&& ~~~(1#64 <<< (i + 1) - 1)) ||| ((w <<< 1) &&& (1#64 <<< (i + 1) - 1)) = v
  intro e1 q1 hv
  rw [e1, Option.bind_some, q1.num]
  rw [List.set_cons_zero] at q1 ⊢
  have loop : ∃ s2, (bPulloutLoop (v :: ws).length.pred (0 + s1.offset + 1) s1.arr).map (fun a => { s1 with arr := a }) = some s2 ∧ BRep s2 (shiftWords v ws) ∧ s2.N = s1.N := by
    rw [List.length_cons, Nat.pred_succ]
    by_cases hN : s1.N = 0
    · obtain ⟨a1, a2⟩ := q1.pool hN
      have ho : s1.offset = 1 := by unfold BSet.offset; rw [if_pos hN]
      have := bPulloutLoop_spec ws [BitVec.ofNat 64 (v :: ws).length] v
      rw [a1, ho]
      rw [List.length_singleton] at this
      rw [show 0 + 1 + 1 = 1 + 1 from rfl]
      refine ⟨{ s1 with arr := BitVec.ofNat 64 (v :: ws).length :: shiftWords v ws }, by rw [show BitVec.ofNat 64 (v :: ws).length :: v :: ws = [BitVec.ofNat 64 (v :: ws).length] ++ v :: ws from rfl, this]; rfl, ⟨fun h => absurd hN h, fun _ => ⟨?_, ?_⟩⟩, rfl⟩
      · rw [shiftWords_length]
        rfl
      · rw [shiftWords_length]
        exact a2
    · obtain ⟨a1, a2⟩ := q1.fixed hN
      have ho : s1.offset = 0 := by unfold BSet.offset; rw [if_neg hN]
      have := bPulloutLoop_spec ws [] v
      rw [a1, ho]
      refine ⟨{ s1 with arr := shiftWords v ws }, by rw [show 0 + 0 + 1 = ([] : List (BitVec 64)).length + 1 from rfl, show v :: ws = [] ++ v :: ws from rfl, this]; rfl, ⟨fun _ => ⟨rfl, ?_⟩, fun h => absurd h hN⟩, rfl⟩
      rw [shiftWords_length]
      exact a2
  obtain ⟨s2, e2, q2, n2⟩ := loop
  refine ⟨s2, e2, n2.trans (n1.trans k.N), _, q2, by rw [shiftWords_length]; exact k2, fun a ha => ?_⟩
  dsimp only at ha ⊢
  rw [List.length_cons] at k2
  have v0 : v.getLsbD 0 = false := by rw [hv 0 (by omega)]; simp
  unfold pulloutMem
  by_cases hd : a < 64
  · rw [show a / 64 = 0 by omega, show a % 64 = a by omega, shiftWords_zero _ _ _ v0]
    by_cases ha0 : a = 0
    · subst ha0
      rw [if_neg (by omega), if_pos rfl, if_pos rfl]
      by_cases hl : 0 + 127 < 64 * r.words
      · rw [k3 _ hl]
        simp [show 127 < 64 * r.words by omega]
      · rw [List.getElem?_eq_none (by omega)]
        simp; omega
    · rw [if_neg ha0, if_neg ha0, hv a hd]
      by_cases h : i < a
      · rw [if_pos ⟨h, hd⟩, if_pos h, k3 _ ha, show a / 64 = 0 by omega, show a % 64 = a by omega]
        rfl
      · rw [if_neg (by omega), if_neg h, if_neg ha0, k3 _ (by omega), show (a - 1) / 64 = 0 by omega, show (a - 1) % 64 = a - 1 by omega]
        rfl
  · obtain ⟨b, hb⟩ : ∃ b, a / 64 = b + 1 := ⟨a / 64 - 1, by omega⟩
    rw [if_neg (by omega), hb, shiftWords_succ _ _ _ _ (by omega)]
    by_cases hm : a % 64 = 0
    · rw [if_pos hm, if_pos hm]
      by_cases hl : a + 127 < 64 * r.words
      · rw [k3 _ hl, show (a + 127) / 64 = b + 1 + 1 by omega, show (a + 127) % 64 = 63 by omega, List.getElem?_cons_succ]
        simp [hl]
      · rw [List.getElem?_eq_none (by omega)]
        simp [hl]
    · rw [if_neg hm, if_neg hm, k3 _ (by omega), show (a - 1) / 64 = b + 1 by omega, show (a - 1) % 64 = a % 64 - 1 by omega, List.getElem?_cons_succ]

theorem bPulloutLoop_over : ∀ (n i : Nat) (a : List (BitVec 64)), a.length < i + n → 0 < n → bPulloutLoop n i a = none
  | 0, i, a, _, h => absurd h (by omega)
  | n + 1, i, a, h, _ => by
    unfold bPulloutLoop
    cases e : a[i]? with
    | none => rfl
    | some w =>
      have hl := (List.getElem?_eq_some_iff.1 e).1
      rw [Option.bind_some]
      cases e2 : a[i - 1]? with
      | none => rfl
      | some v =>
        rw [Option.bind_some]
        exact bPulloutLoop_over n (i + 1) _ (by simp; omega) (by omega)

theorem bPullout_over {s : BSet} {r : ISet} (k : BOk s r) {i : Nat} (hi : 64 ≤ i) : bPullout s i = none := by
  obtain ⟨ws, k1, k2, k3⟩ := k.rep
  unfold bPullout
  dsimp only
  by_cases hlt : i / 64 < ws.length
  · rw [k1.get, List.getElem?_eq_getElem hlt, Option.bind_some]
    cases e : bMask (i % 64 + 1) with
    | none => rfl
    | some m =>
      rw [Option.bind_some]
      obtain ⟨s1, e1, q1, n1⟩ := k1.set hlt ((ws[i / 64] &&& ~~~(m - 1)) ||| ((ws[i / 64] <<< 1) &&& (m - 1)))
      rw [e1, Option.bind_some, q1.num, bPulloutLoop_over]
      · rfl
      · by_cases hN : s1.N = 0
        · rw [(q1.pool hN).1]
          unfold BSet.offset
          rw [if_pos hN]
          simp only [List.length_cons, List.length_set]
          omega
        · rw [(q1.fixed hN).1]
          simp only [List.length_set]
          omega
      · simp only [List.length_set]
        omega
  · rw [k1.get, List.getElem?_eq_none (by omega)]
    rfl

end TdZdd
