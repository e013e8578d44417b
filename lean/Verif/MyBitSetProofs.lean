import Verif.MyBitSet
import Verif.BuilderProofs2

/-! Proofs about `MyBitSet`: one set. -/

namespace TdZdd

/-- the words of a set -/
structure BRep (s : BSet) (ws : List (BitVec 64)) : Prop where
  fixed : s.N ≠ 0 → s.arr = ws ∧ s.N = ws.length
  pool : s.N = 0 → s.arr = BitVec.ofNat 64 ws.length :: ws ∧ ws.length < 2 ^ 64

theorem BRep.num {s : BSet} {ws : List (BitVec 64)} (k : BRep s ws) : s.numWords = ws.length := by
  unfold BSet.numWords
  by_cases h : s.N = 0
  · obtain ⟨h1, h2⟩ := k.pool h
    rw [if_pos h, h1]
    simp
    omega
  · rw [if_neg h, (k.fixed h).2]

theorem BRep.get {s : BSet} {ws : List (BitVec 64)} (k : BRep s ws) (i : Nat) : bGet s i = ws[i]? := by
  unfold bGet
  rw [k.num]
  by_cases hi : i < ws.length
  · rw [if_pos hi]
    by_cases h : s.N = 0
    · simp [(k.pool h).1, BSet.offset, h]
    · simp [(k.fixed h).1, BSet.offset, h]
  · rw [if_neg hi, List.getElem?_eq_none (by omega)]

theorem BRep.set {s : BSet} {ws : List (BitVec 64)} (k : BRep s ws) {i : Nat} (hi : i < ws.length) (w : BitVec 64) :
    ∃ s', bSet s i w = some s' ∧ BRep s' (ws.set i w) ∧ s'.N = s.N := by
  unfold bSet
  rw [k.num]
  by_cases h : s.N = 0
  · obtain ⟨h1, h2⟩ := k.pool h
    rw [if_pos ⟨hi, by rw [h1]; simp [BSet.offset, h]; omega⟩]
    refine ⟨_, rfl, ⟨fun h' => absurd h h', fun _ => ⟨?_, by simpa using h2⟩⟩, rfl⟩
    simp [h1, BSet.offset, h]
  · obtain ⟨h1, h2⟩ := k.fixed h
    rw [if_pos ⟨hi, by rw [h1]; simp [BSet.offset, h]; omega⟩]
    refine ⟨_, rfl, ⟨fun _ => ⟨?_, by simpa using h2⟩, fun h' => absurd h' h⟩, rfl⟩
    simp [h1, BSet.offset, h]

theorem bMask_lt {i : Nat} (h : i < 64) : bMask i = some (1#64 <<< i) := if_pos h

theorem getLsbD_mask {i j : Nat} (hi : i < 64) : (1#64 <<< i).getLsbD j = decide (j = i) := by
  rw [BitVec.getLsbD_shiftLeft]
  by_cases h : j = i
  · subst h; simp [hi]
  · simp only [h, decide_false]
    by_cases h2 : j < i
    · simp [h2]
    · have : j - i ≠ 0 := by omega
      simp [BitVec.getLsbD_one, this]

theorem bZero_spec : ∀ (n i : Nat) {s : BSet} {ws : List (BitVec 64)}, BRep s ws → n + i = ws.length → ∃ s', bZero n i s = some s' ∧ BRep s' (ws.take i ++ List.replicate n 0) ∧ s'.N = s.N
  | 0, i, s, ws, k, h => ⟨s, rfl, by rw [List.take_of_length_le (by omega)]; simpa using k, rfl⟩
  | n + 1, i, s, ws, k, h => by
    obtain ⟨s1, e1, k1, n1⟩ := k.set (i := i) (by omega) 0
    obtain ⟨s2, e2, k2, n2⟩ := bZero_spec n (i + 1) k1 (by simp; omega)
    refine ⟨s2, by unfold bZero; rw [e1]; exact e2, ?_, n2.trans n1⟩
    have : (ws.set i 0).take (i + 1) ++ List.replicate n 0 = ws.take i ++ List.replicate (n + 1) 0 := by
      rw [List.replicate_succ, List.take_succ_eq_append_getElem (by simp; omega), List.take_set_of_le (by omega)]
      simp
    rw [this] at k2
    exact k2

/-- the set `s` stands for `r` -/
structure BOk (s : BSet) (r : ISet) : Prop where
  N : s.N = r.N
  rep : ∃ ws, BRep s ws ∧ ws.length = r.words ∧ ∀ i, i < 64 * r.words → r.mem i = (ws[i / 64]?.getD 0).getLsbD (i % 64)

theorem bZero_ok {s : BSet} {ws : List (BitVec 64)} (k : BRep s ws) {r : ISet} (hN : s.N = r.N) (hl : ws.length = r.words) (hm : ∀ i, r.mem i = false) :
    ∃ s', bZero ws.length 0 s = some s' ∧ BOk s' r := by
  obtain ⟨s', e, k', n⟩ := bZero_spec ws.length 0 k rfl
  rw [List.take_zero, List.nil_append] at k'
  refine ⟨s', e, n.trans hN, _, k', by simp [hl], fun i hi => ?_⟩
  rw [hm, List.getElem?_replicate, if_pos (by omega)]
  simp

theorem bClear_spec {s : BSet} {r : ISet} (k : BOk s r) : ∃ s', bClear s = some s' ∧ BOk s' { r with mem := fun _ => false } := by
  obtain ⟨ws, k1, k2, k3⟩ := k.rep
  unfold bClear
  rw [k1.num]
  exact bZero_ok (r := { r with mem := fun _ => false }) k1 k.N k2 fun _ => rfl

theorem bNew_spec {N : Nat} (hN : N ≠ 0) (n junk : BitVec 64) : ∃ s, bNew N n junk = some s ∧ BOk s ⟨N, N, fun i => n.getLsbD i⟩ := by
  obtain ⟨N, rfl⟩ : ∃ M, N = M + 1 := ⟨N - 1, by omega⟩
  have k : BRep ⟨N + 1, (List.replicate (N + 1) junk).set 0 n⟩ (n :: List.replicate N junk) :=
    ⟨fun _ => ⟨by simp [List.replicate_succ], by simp⟩, fun h => by simp at h⟩
  obtain ⟨s', e, k', n'⟩ := bZero_spec N 1 k (by simp)
  refine ⟨s', e, n', _, k', (by simp), fun i hi => ?_⟩
  dsimp only at hi ⊢
  rw [List.take_succ_cons, List.take_zero]
  by_cases h : i < 64
  · rw [show i / 64 = 0 by omega, show i % 64 = i by omega]
    rfl
  · rw [BitVec.getLsbD_of_ge _ _ (by omega), List.getElem?_append_right (by simp; omega), List.getElem?_replicate, if_pos (by simp; omega)]
    simp

theorem bNewPool_spec {bits : Nat} (hb : bits + 63 < 2 ^ 64) (junk : BitVec 64) : ∃ s, bNewPool bits junk = some s ∧ BOk s ⟨0, (bits + 63) / 64, fun _ => false⟩ := by
  have h1 : (bits + 63) % 2 ^ 64 / 64 = (bits + 63) / 64 := by rw [Nat.mod_eq_of_lt hb]
  unfold bNewPool
  dsimp only
  rw [h1]
  generalize hn : (bits + 63) / 64 = n
  have hlt : n < 2 ^ 64 := by omega
  have k : BRep ⟨0, (List.replicate (1 + n) junk).set 0 (BitVec.ofNat 64 n)⟩ (List.replicate n junk) :=
    ⟨fun h => absurd rfl h, fun _ => ⟨by rw [Nat.add_comm]; simp [List.replicate_succ], by simpa using hlt⟩⟩
  have := bZero_ok (r := ⟨0, n, fun _ => false⟩) k rfl (by simp) fun _ => rfl
  rw [List.length_replicate] at this
  exact this

theorem bit_set {ws : List (BitVec 64)} {a i : Nat} {v : Bool} {w w' : BitVec 64} (hi : i < 64 * ws.length) (hw : ws[i / 64]? = some w)
    (hb : ∀ j, j < 64 → w'.getLsbD j = if j = i % 64 then v else w.getLsbD j) :
    ((ws.set (i / 64) w')[a / 64]?.getD 0).getLsbD (a % 64) = if a = i then v else (ws[a / 64]?.getD 0).getLsbD (a % 64) := by
  rw [List.getElem?_set]
  by_cases h : i / 64 = a / 64
  · rw [if_pos h, if_pos (by omega), ← h, hw, Option.getD_some, Option.getD_some, hb _ (by omega)]
    by_cases h2 : a = i
    · rw [if_pos h2, if_pos (by rw [h2])]
    · rw [if_neg h2, if_neg (by omega)]
  · rw [if_neg h, if_neg (by intro h2; rw [h2] at h; exact h rfl)]

theorem bAdd_spec {s : BSet} {r : ISet} (k : BOk s r) {i : Nat} (hi : i < 64 * r.words) : ∃ s', bAdd s i = some s' ∧ BOk s' { r with mem := upd r.mem i true } := by
  obtain ⟨ws, k1, k2, k3⟩ := k.rep
  have hlt : i / 64 < ws.length := by omega
  obtain ⟨s', e, k', n'⟩ := k1.set hlt (ws[i / 64] ||| 1#64 <<< (i % 64))
  unfold bAdd
  rw [k1.get, List.getElem?_eq_getElem hlt, Option.bind_some, bMask_lt (by omega), Option.bind_some]
  refine ⟨s', e, n'.trans k.N, _, k', by simpa using k2, fun a ha => ?_⟩
  rw [bit_set (v := true) (by omega) (List.getElem?_eq_getElem hlt) fun j hj => ?_]
  · dsimp only
    by_cases h : a = i
    · rw [h, upd_same, if_pos rfl]
    · rw [upd_ne _ _ h, if_neg h]
      exact k3 a ha
  · rw [BitVec.getLsbD_or, getLsbD_mask (by omega)]
    by_cases h : j = i % 64 <;> simp [h]

theorem bRemove_spec {s : BSet} {r : ISet} (k : BOk s r) {i : Nat} (hi : i < 64 * r.words) : ∃ s', bRemove s i = some s' ∧ BOk s' { r with mem := upd r.mem i false } := by
  obtain ⟨ws, k1, k2, k3⟩ := k.rep
  have hlt : i / 64 < ws.length := by omega
  obtain ⟨s', e, k', n'⟩ := k1.set hlt (ws[i / 64] &&& ~~~(1#64 <<< (i % 64)))
  unfold bRemove
  rw [k1.get, List.getElem?_eq_getElem hlt, Option.bind_some, bMask_lt (by omega), Option.bind_some]
  refine ⟨s', e, n'.trans k.N, _, k', by simpa using k2, fun a ha => ?_⟩
  rw [bit_set (v := false) (by omega) (List.getElem?_eq_getElem hlt) fun j hj => ?_]
  · dsimp only
    by_cases h : a = i
    · rw [h, upd_same, if_pos rfl]
    · rw [upd_ne _ _ h, if_neg h]
      exact k3 a ha
  · rw [BitVec.getLsbD_and, BitVec.getLsbD_not, getLsbD_mask (by omega)]
    by_cases h : j = i % 64 <;> simp [h, hj]

theorem bv_ne_zero {w : BitVec 64} : w ≠ 0 ↔ ∃ j, j < 64 ∧ w.getLsbD j = true := by
  constructor
  · intro h
    refine Classical.byContradiction fun hn => h (BitVec.eq_of_getLsbD_eq fun j hj => ?_)
    cases hb : w.getLsbD j with
    | false => simp
    | true => exact absurd ⟨j, hj, hb⟩ hn
  · rintro ⟨j, _, h⟩ rfl
    simp at h

theorem bIncludes_spec {s : BSet} {r : ISet} (k : BOk s r) {i : Nat} (hi : i < 64 * r.words) : bIncludes s i = some (r.mem i) := by
  obtain ⟨ws, k1, k2, k3⟩ := k.rep
  have hlt : i / 64 < ws.length := by omega
  unfold bIncludes
  rw [k1.get, List.getElem?_eq_getElem hlt, Option.bind_some, bMask_lt (by omega), Option.map_some, k3 i hi, List.getElem?_eq_getElem hlt, Option.getD_some]
  congr 1
  rw [Bool.eq_iff_iff, decide_eq_true_eq, bv_ne_zero]
  constructor
  · rintro ⟨j, hj, h⟩
    rw [BitVec.getLsbD_and, getLsbD_mask (by omega), Bool.and_eq_true, decide_eq_true_eq] at h
    rw [← h.2]
    exact h.1
  · intro h
    exact ⟨i % 64, by omega, by rw [BitVec.getLsbD_and, getLsbD_mask (by omega), h]; simp⟩

/-- quantification over bits by words -/
theorem range_words {n : Nat} {P : Nat → Prop} : (∃ i, i < 64 * n ∧ P i) ↔ ∃ w, w < n ∧ ∃ j, j < 64 ∧ P (64 * w + j) := by
  constructor
  · rintro ⟨i, hi, h⟩
    exact ⟨i / 64, by omega, i % 64, by omega, by rw [Nat.div_add_mod]; exact h⟩
  · rintro ⟨w, hw, j, hj, h⟩
    exact ⟨_, by omega, h⟩

theorem word_bit {ws : List (BitVec 64)} {w j : Nat} (hj : j < 64) (hw : w < ws.length) : (ws[(64 * w + j) / 64]?.getD 0).getLsbD ((64 * w + j) % 64) = ws[w].getLsbD j := by
  rw [show (64 * w + j) / 64 = w by omega, show (64 * w + j) % 64 = j by omega, List.getElem?_eq_getElem hw, Option.getD_some]

theorem bEmpty_loop {s : BSet} {ws : List (BitVec 64)} (k : BRep s ws) : ∀ (n i : Nat), n + i = ws.length →
    ∃ b, bEmpty s n i = some b ∧ (b = true ↔ ∀ w (h : w < ws.length), i ≤ w → ws[w] = 0)
  | 0, i, h => ⟨true, rfl, fun _ w hw hi => by omega, fun _ => rfl⟩
  | n + 1, i, h => by
    have hlt : i < ws.length := by omega
    unfold bEmpty
    rw [k.get, List.getElem?_eq_getElem hlt]
    dsimp only [Option.bind_some]
    by_cases hz : ws[i] = 0
    · rw [if_neg (by simpa using hz)]
      obtain ⟨b, e, hb⟩ := bEmpty_loop k n (i + 1) (by omega)
      refine ⟨b, e, hb.trans ⟨fun g w hw hi => ?_, fun g w hw hi => g w hw (by omega)⟩⟩
      by_cases he : w = i
      · subst he; exact hz
      · exact g w hw (by omega)
    · rw [if_pos hz]
      exact ⟨false, rfl, ⟨fun h => (by cases h), fun g => absurd (g i hlt (Nat.le_refl _)) hz⟩⟩

theorem bEmpty_spec {s : BSet} {r : ISet} (k : BOk s r) : bEmpty s s.numWords 0 = some ((List.range (64 * r.words)).all fun i => !r.mem i) := by
  obtain ⟨ws, k1, k2, k3⟩ := k.rep
  obtain ⟨b, e, hb⟩ := bEmpty_loop k1 ws.length 0 rfl
  rw [k1.num, e]
  congr 1
  rw [Bool.eq_iff_iff, hb, List.all_eq_true]
  constructor
  · intro h i hi
    rw [List.mem_range] at hi
    rw [k3 i hi, List.getElem?_eq_getElem (by omega), Option.getD_some, h _ (by omega) (Nat.zero_le _)]
    simp
  · intro h w hw _
    refine Classical.byContradiction fun hne => ?_
    obtain ⟨j, hj, hb⟩ := bv_ne_zero.1 hne
    have h1 := h (64 * w + j) (List.mem_range.2 (by omega))
    rw [k3 _ (by omega), word_bit hj hw, hb] at h1
    cases h1

theorem bIntersects_loop {s o : BSet} {ws vs : List (BitVec 64)} (k : BRep s ws) (k' : BRep o vs) (m : Nat) (h1 : m ≤ ws.length) (h2 : m ≤ vs.length) : ∀ (n i : Nat), n + i = m →
    ∃ b, bIntersects s o n i = some b ∧ (b = true ↔ ∃ w, ∃ h : w < m, i ≤ w ∧ ws[w] &&& vs[w] ≠ 0)
  | 0, i, h => ⟨false, rfl, fun h => (by cases h), fun ⟨w, hw, hi, _⟩ => by omega⟩
  | n + 1, i, h => by
    have hlt : i < ws.length := by omega
    have hlt' : i < vs.length := by omega
    unfold bIntersects
    rw [k.get, List.getElem?_eq_getElem hlt, k'.get, List.getElem?_eq_getElem hlt']
    dsimp only [Option.bind_some]
    by_cases hz : ws[i] &&& vs[i] ≠ 0
    · rw [if_pos hz]
      exact ⟨true, rfl, fun _ => ⟨i, by omega, Nat.le_refl _, hz⟩, fun _ => rfl⟩
    · rw [if_neg hz]
      obtain ⟨b, e, hb⟩ := bIntersects_loop k k' m h1 h2 n (i + 1) (by omega)
      refine ⟨b, e, hb.trans ⟨fun ⟨w, hw, hi, g⟩ => ⟨w, hw, by omega, g⟩, fun ⟨w, hw, hi, g⟩ => ⟨w, hw, ?_, g⟩⟩⟩
      by_cases he : w = i
      · subst he; exact absurd g hz
      · omega

theorem bIntersects_spec {s o : BSet} {r q : ISet} (k : BOk s r) (k' : BOk o q) :
    bIntersects s o (min s.numWords o.numWords) 0 = some ((List.range (64 * min r.words q.words)).any fun i => r.mem i && q.mem i) := by
  obtain ⟨ws, k1, k2, k3⟩ := k.rep
  obtain ⟨vs, l1, l2, l3⟩ := k'.rep
  obtain ⟨b, e, hb⟩ := bIntersects_loop k1 l1 (min ws.length vs.length) (Nat.min_le_left ..) (Nat.min_le_right ..) (min ws.length vs.length) 0 rfl
  rw [k1.num, l1.num, e]
  congr 1
  rw [Bool.eq_iff_iff, hb, List.any_eq_true]
  constructor
  · rintro ⟨w, hw, _, g⟩
    obtain ⟨j, hj, hb⟩ := bv_ne_zero.1 g
    rw [BitVec.getLsbD_and, Bool.and_eq_true] at hb
    refine ⟨64 * w + j, List.mem_range.2 (by omega), ?_⟩
    rw [k3 _ (by omega), l3 _ (by omega), word_bit hj (by omega), word_bit hj (by omega), hb.1, hb.2]
    rfl
  · rintro ⟨i, hi, g⟩
    rw [List.mem_range] at hi
    rw [k3 _ (by omega), l3 _ (by omega), List.getElem?_eq_getElem (by omega), List.getElem?_eq_getElem (by omega), Option.getD_some, Option.getD_some] at g
    refine ⟨i / 64, by omega, Nat.zero_le _, bv_ne_zero.2 ⟨i % 64, by omega, by rw [BitVec.getLsbD_and]; exact g⟩⟩

theorem bEqLoop_spec {s o : BSet} {ws vs : List (BitVec 64)} (k : BRep s ws) (k' : BRep o vs) (hl : ws.length = vs.length) : ∀ (n i : Nat), n + i = ws.length →
    ∃ b, bEqLoop s o n i = some b ∧ (b = true ↔ ∀ w (h : w < ws.length), i ≤ w → ws[w] = vs[w])
  | 0, i, h => ⟨true, rfl, fun _ w hw hi => by omega, fun _ => rfl⟩
  | n + 1, i, h => by
    have hlt : i < ws.length := by omega
    have hlt' : i < vs.length := by omega
    unfold bEqLoop
    rw [k.get, List.getElem?_eq_getElem hlt, k'.get, List.getElem?_eq_getElem hlt']
    dsimp only [Option.bind_some]
    by_cases hz : ws[i] = vs[i]
    · rw [if_neg (by simpa using hz)]
      obtain ⟨b, e, hb⟩ := bEqLoop_spec k k' hl n (i + 1) (by omega)
      refine ⟨b, e, hb.trans ⟨fun g w hw hi => ?_, fun g w hw hi => g w hw (by omega)⟩⟩
      by_cases he : w = i
      · subst he; exact hz
      · exact g w hw (by omega)
    · rw [if_pos hz]
      exact ⟨false, rfl, ⟨fun h => (by cases h), fun g => absurd (g i hlt (Nat.le_refl _)) hz⟩⟩

theorem bEq_spec {s o : BSet} {r q : ISet} (k : BOk s r) (k' : BOk o q) :
    bEq s o = some (decide (r.words = q.words) && (List.range (64 * r.words)).all fun i => r.mem i == q.mem i) := by
  obtain ⟨ws, k1, k2, k3⟩ := k.rep
  obtain ⟨vs, l1, l2, l3⟩ := k'.rep
  unfold bEq
  rw [k1.num, l1.num]
  by_cases h : r.words = q.words
  · obtain ⟨b, e, hb⟩ := bEqLoop_spec k1 l1 (by omega) ws.length 0 rfl
    rw [if_neg (by simp; omega), e]
    congr 1
    rw [Bool.eq_iff_iff, hb, Bool.and_eq_true, List.all_eq_true]
    constructor
    · intro g
      refine ⟨by simpa using h, fun i hi => ?_⟩
      rw [List.mem_range] at hi
      rw [k3 _ hi, l3 _ (by omega), List.getElem?_eq_getElem (by omega), List.getElem?_eq_getElem (by omega), Option.getD_some, Option.getD_some, g _ (by omega) (Nat.zero_le _)]
      simp
    · rintro ⟨_, g⟩ w hw _
      refine BitVec.eq_of_getLsbD_eq fun j hj => ?_
      have h1 := g (64 * w + j) (List.mem_range.2 (by omega))
      rw [k3 _ (by omega), l3 _ (by omega), word_bit hj hw, word_bit hj (by omega)] at h1
      simpa using h1
  · rw [if_pos (by omega)]
    simp [h]

/-! ## Iteration -/

theorem ffs_spec {w : BitVec 64} (h : w ≠ 0) : ∃ j, j < 64 ∧ ffs w = j + 1 ∧ w.getLsbD j = true ∧ ∀ i, i < j → w.getLsbD i = false := by
  unfold ffs
  cases e : (List.range 64).find? fun i => w.getLsbD i with
  | none =>
    rw [List.find?_eq_none] at e
    obtain ⟨j, hj, hb⟩ := bv_ne_zero.1 h
    exact absurd hb (e j (List.mem_range.2 hj))
  | some j =>
    rw [List.find?_range_eq_some] at e
    refine ⟨j, List.mem_range.1 e.2.1, rfl, e.1, fun i hi => ?_⟩
    have := e.2.2 i hi
    simpa using this

/-- the iterator has the bits from `bit` on of the word `wordPos` -/
structure ItOk (ws : List (BitVec 64)) (t : BIt) : Prop where
  pos : t.wordPos < ws.length
  bit : t.bit ≤ 64
  word : ∀ h : t.wordPos < ws.length, ∀ j, t.word.getLsbD j = ws[t.wordPos].getLsbD (t.bit + j)

def bitOf (ws : List (BitVec 64)) (i : Nat) : Bool := (ws[i / 64]?.getD 0).getLsbD (i % 64)

theorem ItOk.at {ws : List (BitVec 64)} {t : BIt} (k : ItOk ws t) {j : Nat} (h : t.bit + j < 64) : bitOf ws (64 * t.wordPos + (t.bit + j)) = t.word.getLsbD j := by
  unfold bitOf
  rw [word_bit h k.pos, k.word k.pos]

/-- `operator++` moves to the next element -/
theorem bNext_spec {s : BSet} {ws : List (BitVec 64)} (r : BRep s ws) : ∀ (k : Nat) (t : BIt), ItOk ws t → ws.length ≤ k + t.wordPos + 1 →
    ∃ t', bNext s k t = some t' ∧
      ((t'.wordPos = ws.length ∧ t'.bit = 0 ∧ ∀ i, 64 * t.wordPos + t.bit ≤ i → i < 64 * ws.length → bitOf ws i = false) ∨
       (ItOk ws t' ∧ 0 < t'.bit ∧ 64 * t.wordPos + t.bit ≤ 64 * t'.wordPos + t'.bit - 1 ∧ bitOf ws (64 * t'.wordPos + t'.bit - 1) = true ∧
        ∀ i, 64 * t.wordPos + t.bit ≤ i → i < 64 * t'.wordPos + t'.bit - 1 → bitOf ws i = false)) := by
  intro k t ok hk
  have hp := ok.pos
  have hb := ok.bit
  unfold bNext
  by_cases hz : t.word = 0
  · have zero : ∀ i, 64 * t.wordPos + t.bit ≤ i → i < 64 * (t.wordPos + 1) → bitOf ws i = false := fun i h1 h2 => by
      have := ok.at (j := i - (64 * t.wordPos + t.bit)) (by omega)
      rw [show 64 * t.wordPos + (t.bit + (i - (64 * t.wordPos + t.bit))) = i by omega, hz] at this
      rw [this]
      simp
    rw [if_pos hz]
    by_cases hl : ws.length ≤ t.wordPos + 1
    · rw [if_pos (by rw [r.num]; exact hl)]
      exact ⟨_, rfl, .inl ⟨r.num, rfl, fun i h1 h2 => zero i h1 (by omega)⟩⟩
    · rw [if_neg (by rw [r.num]; exact hl)]
      cases k with
      | zero => omega
      | succ k =>
        have hlt : t.wordPos + 1 < ws.length := by omega
        have ok' : ItOk ws ⟨t.wordPos + 1, 0, ws[t.wordPos + 1]⟩ := ⟨hlt, by simp, fun _ j => by simp⟩
        dsimp only
        rw [r.get, List.getElem?_eq_getElem hlt, Option.bind_some]
        obtain ⟨t', e, h⟩ := bNext_spec r k _ ok' (by dsimp only; omega)
        refine ⟨t', e, ?_⟩
        dsimp only at h
        rcases h with ⟨h1, h2, h3⟩ | ⟨h1, h2, h3, h4, h5⟩
        · refine .inl ⟨h1, h2, fun i g1 g2 => ?_⟩
          by_cases g : i < 64 * (t.wordPos + 1)
          · exact zero i g1 g
          · exact h3 i (by omega) g2
        · refine .inr ⟨h1, h2, by omega, h4, fun i g1 g2 => ?_⟩
          by_cases g : i < 64 * (t.wordPos + 1)
          · exact zero i g1 g
          · exact h5 i (by omega) g2
  · rw [if_neg hz]
    obtain ⟨j, hj, ef, hj1, hj2⟩ := ffs_spec hz
    have hbj : t.bit + j < 64 := by
      refine Nat.lt_of_not_le fun h => ?_
      rw [ok.word ok.pos, BitVec.getLsbD_of_ge _ _ h] at hj1
      cases hj1
    have skip : ∀ i, 64 * t.wordPos + t.bit ≤ i → i < 64 * t.wordPos + (t.bit + j) → bitOf ws i = false := fun i h1 h2 => by
      have := ok.at (j := i - (64 * t.wordPos + t.bit)) (by omega)
      rw [show 64 * t.wordPos + (t.bit + (i - (64 * t.wordPos + t.bit))) = i by omega, hj2 _ (by omega)] at this
      exact this
    have hit : bitOf ws (64 * t.wordPos + (t.bit + j)) = true := (ok.at hbj).trans hj1
    by_cases h63 : t.word = 1#64 <<< 63
    · have ej : j = 63 := by
        rw [h63, getLsbD_mask (by omega)] at hj1
        simpa using hj1
      rw [if_pos h63]
      refine ⟨_, rfl, .inr ⟨⟨hp, by simp, fun _ i => ?_⟩, by simp, by dsimp only; omega, ?_, fun i g1 g2 => skip i g1 (by dsimp only at g2; omega)⟩⟩
      · dsimp only
        rw [BitVec.getLsbD_of_ge _ (64 + i) (by omega)]
        simp
      · dsimp only
        rw [show 64 * t.wordPos + 64 - 1 = 64 * t.wordPos + (t.bit + j) by omega]
        exact hit
    · rw [if_neg h63, ef]
      have j63 : j ≠ 63 := fun h => h63 <| BitVec.eq_of_getLsbD_eq fun i hi => by
        rw [getLsbD_mask (by omega)]
        by_cases hi' : i = 63
        · rw [hi', ← h, hj1]; simp [h]
        · rw [hj2 i (by omega)]; simp [hi']
      rw [if_pos (by omega)]
      refine ⟨_, rfl, .inr ⟨⟨hp, by dsimp only; omega, fun h i => ?_⟩, by dsimp only; omega, by dsimp only; omega, ?_, fun i g1 g2 => skip i g1 (by dsimp only at g2; omega)⟩⟩
      · dsimp only
        rw [BitVec.getLsbD_ushiftRight, ok.word h]
        congr 1
        omega
      · dsimp only
        rw [show 64 * t.wordPos + (t.bit + (j + 1)) - 1 = 64 * t.wordPos + (t.bit + j) by omega]
        exact hit

/-- the elements from `pos` on -/
def elemsFrom (ws : List (BitVec 64)) (pos : Nat) : List Nat := (List.range' pos (64 * ws.length - pos)).filter (bitOf ws)

theorem elemsFrom_end {ws : List (BitVec 64)} {pos : Nat} (h : ∀ i, pos ≤ i → i < 64 * ws.length → bitOf ws i = false) : elemsFrom ws pos = [] := by
  unfold elemsFrom
  rw [List.filter_eq_nil_iff]
  intro a ha
  rw [List.mem_range'_1] at ha
  rw [h a ha.1 (by omega)]
  simp

theorem elemsFrom_skip {ws : List (BitVec 64)} {pos q : Nat} (hq : pos ≤ q) (hq' : q < 64 * ws.length) (h : ∀ i, pos ≤ i → i < q → bitOf ws i = false) (hb : bitOf ws q = true) :
    elemsFrom ws pos = q :: elemsFrom ws (q + 1) := by
  unfold elemsFrom
  rw [show 64 * ws.length - pos = (q - pos) + (64 * ws.length - q) by omega, ← List.range'_append_1, List.filter_append, show pos + (q - pos) = q by omega]
  rw [List.filter_eq_nil_iff.2 fun a ha => ?_]
  · rw [List.nil_append, show 64 * ws.length - q = (64 * ws.length - (q + 1)) + 1 by omega, List.range'_succ, List.filter_cons_of_pos hb]
  · rw [List.mem_range'_1] at ha
    rw [h a ha.1 (by omega)]
    simp

theorem bIter_spec {s : BSet} {ws : List (BitVec 64)} (r : BRep s ws) : ∀ (k : Nat) (t : BIt), ItOk ws t → 0 < t.bit → 64 * ws.length ≤ k + (64 * t.wordPos + t.bit - 1) →
    bIter s k t = some ((64 * t.wordPos + t.bit - 1) :: elemsFrom ws (64 * t.wordPos + t.bit))
  | 0, t, ok, hb, hk => by
    have := ok.pos
    have := ok.bit
    omega
  | k + 1, t, ok, hb, hk => by
    have := ok.pos
    unfold bIter
    rw [if_neg (by omega)]
    obtain ⟨t', e, h⟩ := bNext_spec r s.numWords t ok (by rw [r.num]; omega)
    dsimp only
    rw [e, Option.bind_some]
    have fin : ∀ l, bIter s k t' = some l → l = elemsFrom ws (64 * t.wordPos + t.bit) →
        (bIter s k t').map (fun l => (t.wordPos * 64 + t.bit - 1) :: l) = some ((64 * t.wordPos + t.bit - 1) :: elemsFrom ws (64 * t.wordPos + t.bit)) := by
      intro l h1 h2
      rw [h1, h2, Option.map_some, Nat.mul_comm]
    rcases h with ⟨h1, h2, h3⟩ | ⟨h1, h2, h3, h4, h5⟩
    · refine fin [] ?_ (elemsFrom_end h3).symm
      unfold bIter
      rw [if_pos ⟨by rw [r.num]; exact h1, h2⟩]
    · have g1 := h1.pos
      have g2 := h1.bit
      refine fin _ (bIter_spec r k t' h1 h2 (by omega)) ?_
      rw [elemsFrom_skip h3 (by omega) h5 h4]
      congr 2
      omega

theorem bElems_spec {s : BSet} {r : ISet} (k : BOk s r) : bElems s = some ((List.range (64 * r.words)).filter r.mem) := by
  obtain ⟨ws, k1, k2, k3⟩ := k.rep
  have all : (List.range (64 * r.words)).filter r.mem = elemsFrom ws 0 := by
    unfold elemsFrom
    rw [Nat.sub_zero, ← List.range_eq_range', k2]
    exact List.filter_congr fun a ha => k3 a (List.mem_range.1 ha)
  rw [all]
  unfold bElems bBegin
  rw [k1.num]
  by_cases h0 : ws.length = 0
  · rw [if_pos h0, Option.bind_some]
    unfold bIter
    rw [if_pos ⟨by rw [k1.num], rfl⟩]
    unfold elemsFrom
    rw [h0]
    rfl
  · have hlt : 0 < ws.length := by omega
    have ok : ItOk ws ⟨0, 0, ws[0]⟩ := ⟨hlt, by simp, fun _ j => by simp⟩
    rw [if_neg h0, k1.get, List.getElem?_eq_getElem hlt, Option.bind_some]
    obtain ⟨t', e, h⟩ := bNext_spec k1 ws.length _ ok (by omega)
    rw [e, Option.bind_some]
    dsimp only at h
    rcases h with ⟨h1, h2, h3⟩ | ⟨h1, h2, h3, h4, h5⟩
    · rw [elemsFrom_end h3]
      unfold bIter
      rw [if_pos ⟨by rw [k1.num]; exact h1, h2⟩]
    · have g1 := h1.pos
      have g2 := h1.bit
      rw [bIter_spec k1 _ t' h1 h2 (by omega), elemsFrom_skip h3 (by omega) h5 h4]
      congr 3
      omega

/-! ## Programs -/

def BInv (st : Nat → Option BSet) (r : Nat → Option ISet) : Prop := ∀ x, match st x, r x with
  | none, none => True
  | some s, some q => BOk s q
  | _, _ => False

theorem BInv.put {st : Nat → Option BSet} {r : Nat → Option ISet} (k : BInv st r) (x : Nat) {s : BSet} {q : ISet} (h : BOk s q) : BInv (upd st x (some s)) (upd r x (some q)) := by
  intro y
  by_cases hy : y = x
  · subst hy
    rw [upd_same, upd_same]
    exact h
  · rw [upd_ne _ _ hy, upd_ne _ _ hy]
    exact k y

theorem BInv.del {st : Nat → Option BSet} {r : Nat → Option ISet} (k : BInv st r) (x : Nat) : BInv (upd st x none) (upd r x none) := by
  intro y
  by_cases hy : y = x
  · subst hy
    rw [upd_same, upd_same]
    trivial
  · rw [upd_ne _ _ hy, upd_ne _ _ hy]
    exact k y

theorem BInv.get {st : Nat → Option BSet} {r : Nat → Option ISet} (k : BInv st r) {x : Nat} {q : ISet} (h : r x = some q) : ∃ s, st x = some s ∧ BOk s q := by
  have := k x
  rw [h] at this
  cases e : st x with
  | none => rw [e] at this; exact this.elim
  | some s => rw [e] at this; exact ⟨s, rfl, this⟩

theorem BInv.none {st : Nat → Option BSet} {r : Nat → Option ISet} (k : BInv st r) {x : Nat} (h : ¬(r x).isSome = true) : ¬(st x).isSome = true := by
  have := k x
  cases e : r x with
  | some q => rw [e] at h; exact absurd rfl h
  | none =>
    cases e' : st x with
    | none => simp
    | some s => rw [e, e'] at this; exact this.elim

theorem bsStep_spec {st : Nat → Option BSet} {r r' : Nat → Option ISet} (k : BInv st r) {op : BsOp} {res : BsRes} (h : isStep r op = some (r', res)) :
    ∃ st', bsStep st op = some (st', res) ∧ BInv st' r' := by
  cases op with
  | new x N n junk =>
    dsimp only [isStep] at h
    split at h
    · cases h
    · rename_i hc
      cases h
      obtain ⟨s, e, ok⟩ := bNew_spec (N := N) (fun h => hc (.inr h)) n junk
      refine ⟨_, ?_, k.put x ok⟩
      dsimp only [bsStep]
      rw [if_neg fun h => h.elim (k.none fun g => hc (.inl g)) fun g => hc (.inr g), e]
      rfl
  | newPool x bits junk =>
    dsimp only [isStep] at h
    split at h
    · cases h
    · rename_i hc
      cases h
      obtain ⟨s, e, ok⟩ := bNewPool_spec (bits := bits) (Nat.lt_of_not_le fun h => hc (.inr h)) junk
      refine ⟨_, ?_, k.put x ok⟩
      dsimp only [bsStep]
      rw [if_neg (k.none fun g => hc (.inl g)), e]
      rfl
  | copy x y =>
    dsimp only [isStep] at h
    cases hy : r y with
    | none => rw [hy] at h; cases h
    | some q =>
      rw [hy, Option.bind_some] at h
      split at h
      · cases h
      · rename_i hc
        cases h
        obtain ⟨s, e, ok⟩ := k.get hy
        refine ⟨_, ?_, k.put x ok⟩
        dsimp only [bsStep]
        rw [e, Option.bind_some, if_neg fun h => h.elim (k.none fun g => hc (.inl g)) fun g => hc (.inr (ok.N ▸ g))]
  | destroy x =>
    dsimp only [isStep] at h
    cases hy : r x with
    | none => rw [hy] at h; cases h
    | some q =>
      rw [hy] at h
      cases h
      obtain ⟨s, e, ok⟩ := k.get hy
      exact ⟨_, by dsimp only [bsStep]; rw [e]; rfl, k.del x⟩
  | clear x =>
    dsimp only [isStep] at h
    cases hy : r x with
    | none => rw [hy] at h; cases h
    | some q =>
      rw [hy] at h
      cases h
      obtain ⟨s, e, ok⟩ := k.get hy
      obtain ⟨s', e', ok'⟩ := bClear_spec ok
      exact ⟨_, by dsimp only [bsStep]; rw [e, Option.bind_some, e']; rfl, k.put x ok'⟩
  | add x i =>
    dsimp only [isStep] at h
    cases hy : r x with
    | none => rw [hy] at h; cases h
    | some q =>
      rw [hy, Option.bind_some] at h
      split at h
      · rename_i hc
        cases h
        obtain ⟨s, e, ok⟩ := k.get hy
        obtain ⟨s', e', ok'⟩ := bAdd_spec ok hc
        exact ⟨_, by dsimp only [bsStep]; rw [e, Option.bind_some, e']; rfl, k.put x ok'⟩
      · cases h
  | remove x i =>
    dsimp only [isStep] at h
    cases hy : r x with
    | none => rw [hy] at h; cases h
    | some q =>
      rw [hy, Option.bind_some] at h
      split at h
      · rename_i hc
        cases h
        obtain ⟨s, e, ok⟩ := k.get hy
        obtain ⟨s', e', ok'⟩ := bRemove_spec ok hc
        exact ⟨_, by dsimp only [bsStep]; rw [e, Option.bind_some, e']; rfl, k.put x ok'⟩
      · cases h
  | includes x i =>
    dsimp only [isStep] at h
    cases hy : r x with
    | none => rw [hy] at h; cases h
    | some q =>
      rw [hy, Option.bind_some] at h
      split at h
      · rename_i hc
        cases h
        obtain ⟨s, e, ok⟩ := k.get hy
        exact ⟨_, by dsimp only [bsStep]; rw [e, Option.bind_some, bIncludes_spec ok hc]; rfl, k⟩
      · cases h
  | isEmpty x =>
    dsimp only [isStep] at h
    cases hy : r x with
    | none => rw [hy] at h; cases h
    | some q =>
      rw [hy] at h
      cases h
      obtain ⟨s, e, ok⟩ := k.get hy
      exact ⟨_, by dsimp only [bsStep]; rw [e, Option.bind_some, bEmpty_spec ok]; rfl, k⟩
  | numWords x =>
    dsimp only [isStep] at h
    cases hy : r x with
    | none => rw [hy] at h; cases h
    | some q =>
      rw [hy] at h
      cases h
      obtain ⟨s, e, ok⟩ := k.get hy
      obtain ⟨ws, k1, k2, _⟩ := ok.rep
      exact ⟨_, by dsimp only [bsStep]; rw [e, Option.map_some, k1.num, k2], k⟩
  | intersects x y =>
    dsimp only [isStep] at h
    cases hx : r x with
    | none => rw [hx] at h; cases h
    | some p =>
      cases hy : r y with
      | none => rw [hx, hy] at h; cases h
      | some q =>
        rw [hx, hy, Option.bind_some, Option.bind_some] at h
        split at h
        · rename_i hc
          cases h
          obtain ⟨s, e, ok⟩ := k.get hx
          obtain ⟨o, e', ok'⟩ := k.get hy
          refine ⟨_, ?_, k⟩
          dsimp only [bsStep]
          rw [e, Option.bind_some, e', Option.bind_some, if_pos (by rw [ok.N, ok'.N, hc]), bIntersects_spec ok ok']
          rfl
        · cases h
  | elems x =>
    dsimp only [isStep] at h
    cases hy : r x with
    | none => rw [hy] at h; cases h
    | some q =>
      rw [hy] at h
      cases h
      obtain ⟨s, e, ok⟩ := k.get hy
      exact ⟨_, by dsimp only [bsStep]; rw [e, Option.bind_some, bElems_spec ok]; rfl, k⟩
  | eq x y =>
    dsimp only [isStep] at h
    cases hx : r x with
    | none => rw [hx] at h; cases h
    | some p =>
      cases hy : r y with
      | none => rw [hx, hy] at h; cases h
      | some q =>
        rw [hx, hy, Option.bind_some, Option.bind_some] at h
        split at h
        · rename_i hc
          cases h
          obtain ⟨s, e, ok⟩ := k.get hx
          obtain ⟨o, e', ok'⟩ := k.get hy
          refine ⟨_, ?_, k⟩
          dsimp only [bsStep]
          rw [e, Option.bind_some, e', Option.bind_some, if_pos (by rw [ok.N, ok'.N, hc]), bEq_spec ok ok']
          rfl
        · cases h

theorem bsRun_spec : ∀ {ops : List BsOp} {st : Nat → Option BSet} {r r' : Nat → Option ISet} {res : List BsRes}, BInv st r → isRun r ops = some (r', res) →
    ∃ st', bsRun st ops = some (st', res) ∧ BInv st' r'
  | [], st, r, r', res, k, h => by
    cases h
    exact ⟨st, rfl, k⟩
  | op :: ops, st, r, r', res, k, h => by
    unfold isRun at h
    cases e1 : isStep r op with
    | none => rw [e1] at h; cases h
    | some p =>
      obtain ⟨r1, x⟩ := p
      rw [e1, Option.bind_some] at h
      cases e2 : isRun r1 ops with
      | none => rw [e2] at h; cases h
      | some q =>
        obtain ⟨r2, l⟩ := q
        rw [e2] at h
        cases h
        obtain ⟨st1, g1, k1⟩ := bsStep_spec k e1
        obtain ⟨st2, g2, k2⟩ := bsRun_spec k1 e2
        exact ⟨st2, by unfold bsRun; rw [g1, Option.bind_some, g2]; rfl, k2⟩

end TdZdd
