import Verif.MyBitSetProofs2

/-!
# Property C52: `MyBitSet`
-/

namespace TdZdd

/-- C52: every program that is allowed for sets of integers below `64 * words` runs on `MyBitSet` without undefined behaviour and with the same results;
iteration is in ascending order. -/
theorem C52_set (ops : List BsOp) (r : Nat → Option ISet) (rs : List BsRes) (h : isRun (fun _ => none) ops = some (r, rs)) :
    ∃ st, bsRun (fun _ => none) ops = some (st, rs) := by
  obtain ⟨st, e, _⟩ := bsRun_spec (st := fun _ => none) (fun _ => trivial) h
  exact ⟨st, e⟩

/-- C52, representation: bit `j` of word `w` tells whether `64 * w + j` is in the set, and the header word of a set on a pool is kept. -/
theorem C52_bits (ops : List BsOp) (r : Nat → Option ISet) (rs : List BsRes) (h : isRun (fun _ => none) ops = some (r, rs)) (x : Nat) (q : ISet) (hx : r x = some q) :
    ∃ (st : Nat → Option BSet) (s : BSet), bsRun (fun _ => none) ops = some (st, rs) ∧ st x = some s ∧ s.N = q.N ∧ s.arr.length = q.words + (if q.N = 0 then 1 else 0) ∧
      (q.N = 0 → s.arr[0]? = some (BitVec.ofNat 64 q.words)) ∧
      ∀ w j, w < q.words → j < 64 → ∃ v, s.arr[w + (if q.N = 0 then 1 else 0)]? = some v ∧ v.getLsbD j = q.mem (64 * w + j) := by
  obtain ⟨st, e, k⟩ := bsRun_spec (st := fun _ => none) (fun _ => trivial) h
  obtain ⟨s, hs, ok⟩ := k.get hx
  obtain ⟨ws, k1, k2, k3⟩ := ok.rep
  have hN := ok.N
  refine ⟨st, s, e, hs, hN, ?_⟩
  rw [← hN]
  by_cases h0 : s.N = 0
  · have ha := (k1.pool h0).1
    refine ⟨by rw [if_pos h0, ha, List.length_cons, k2], fun _ => by rw [ha, k2]; rfl, fun w j hw hj => ⟨ws[w], ?_, ?_⟩⟩
    · rw [if_pos h0, ha, List.getElem?_cons_succ, List.getElem?_eq_getElem (by omega)]
    · rw [k3 _ (by omega), word_bit hj]
  · have ha := (k1.fixed h0).1
    refine ⟨by rw [if_neg h0, ha]; exact k2, fun h => absurd h h0, fun w j hw hj => ⟨ws[w], ?_, ?_⟩⟩
    · rw [if_neg h0, ha, Nat.add_zero, List.getElem?_eq_getElem (by omega)]
    · rw [k3 _ (by omega), word_bit hj]

/-- Example: a program with four sets. -/
def bitSetProg : List BsOp :=
  [.new 0 2 (BitVec.ofNat 64 5) (BitVec.ofNat 64 99), .add 0 127, .add 0 64, .add 0 63, .remove 0 2, .remove 0 3, .elems 0, .includes 0 64, .includes 0 65, .isEmpty 0,
    .newPool 1 65 (BitVec.ofNat 64 7), .elems 1, .isEmpty 1, .numWords 1, .add 1 100, .copy 2 0, .eq 0 2, .remove 2 127, .eq 0 2, .intersects 0 2, .elems 2, .newPool 3 64 0, .add 3 36, .intersects 1 3,
    .eq 1 3, .clear 0, .elems 0, .destroy 0]

example : (isRun (fun _ => none) bitSetProg).map (·.2) =
      some [.unit, .unit, .unit, .unit, .unit, .unit, .list [0, 63, 64, 127], .bool true, .bool false, .bool false, .unit, .list [], .bool true, .num 2, .unit, .unit, .bool true, .unit,
        .bool false, .bool true, .list [0, 63, 64], .unit, .unit, .bool false, .bool false, .unit, .list [], .unit] ∧
    (bsRun (fun _ => none) bitSetProg).map (·.2) = (isRun (fun _ => none) bitSetProg).map (·.2) := by
  refine ⟨?_, ?_⟩ <;> decide +kernel

/-! ## `pullout`

The documentation (114-118) says that `pullout(i)` removes the `i`-th entry and shifts all behind it front by one, that is `{j ∈ S | j < i} ∪ {j - 1 | j ∈ S, i < j}`. -/

/-- `pullout(i)` according to its documentation -/
def pulloutDoc (i : Nat) (l : List Nat) : List Nat := l.filter (fun j => decide (j < i)) ++ (l.filter fun j => decide (i < j)).map (· - 1)

/-- For `i < 63` the elements above `i` in the first word stay, and those below `i` move up by one; the other words are rotated through: the uppermost bit of each
word moves to the lowermost bit of the word before. -/
theorem C52_pullout (ops : List BsOp) (r : Nat → Option ISet) (rs : List BsRes) (h : isRun (fun _ => none) ops = some (r, rs)) (x : Nat) (q : ISet) (hx : r x = some q)
    (hw : 0 < q.words) (i : Nat) (hi : i < 63) :
    ∃ (st : Nat → Option BSet) (s s' : BSet), bsRun (fun _ => none) ops = some (st, rs) ∧ st x = some s ∧ bPullout s i = some s' ∧ ∀ j, j < 64 * q.words →
      bIncludes s' j = some (if i < j ∧ j < 64 then q.mem j else if j % 64 = 0 then decide (j + 127 < 64 * q.words) && q.mem (j + 127) else q.mem (j - 1)) := by
  obtain ⟨st, e, k⟩ := bsRun_spec (st := fun _ => none) (fun _ => trivial) h
  obtain ⟨s, hs, ok⟩ := k.get hx
  obtain ⟨s', e', ok'⟩ := bPullout_spec ok hi hw
  exact ⟨st, s, s', e, hs, e', fun j hj => bIncludes_spec ok' hj⟩

/-- This is not what the documentation says: `pullout(3)` on `{1, 5}` gives `{2, 5}` instead of `{1, 4}`. -/
theorem C52_pullout_wrong : ∃ (s s' : BSet), (bsRun (fun _ => none) [.new 0 1 0 0, .add 0 1, .add 0 5]).bind (fun r => r.1 0) = some s ∧ bPullout s 3 = some s' ∧
    bElems s = some [1, 5] ∧ bElems s' = some [2, 5] ∧ pulloutDoc 3 [1, 5] = [1, 4] :=
  ⟨⟨1, [34#64]⟩, ⟨1, [36#64]⟩, by decide +kernel⟩

/-- `pullout(63)` shifts by 64, which is undefined, for every set. -/
theorem C52_pullout_63 (s : BSet) (i : Nat) (hi : i % 64 = 63) : bPullout s i = none := by
  unfold bPullout bMask
  dsimp only
  rw [if_neg (by omega)]
  cases bGet s (i / 64) <;> rfl

/-- `pullout(i)` for an element that is not in the first word accesses words behind the array, for every set that was made by a program. -/
theorem C52_pullout_overrun (ops : List BsOp) (r : Nat → Option ISet) (rs : List BsRes) (h : isRun (fun _ => none) ops = some (r, rs)) (x : Nat) (q : ISet) (hx : r x = some q)
    (i : Nat) (hi : 64 ≤ i) :
    ∃ (st : Nat → Option BSet) (s : BSet), bsRun (fun _ => none) ops = some (st, rs) ∧ st x = some s ∧ bPullout s i = none := by
  obtain ⟨st, e, k⟩ := bsRun_spec (st := fun _ => none) (fun _ => trivial) h
  obtain ⟨s, hs, ok⟩ := k.get hx
  exact ⟨st, s, e, hs, bPullout_over ok hi⟩

/-- Example: a set of two words; `pullout(0)` moves 127 to 0 and 64 to 65; `pullout(64)` is undefined. -/
example : ((isRun (fun _ => none) [.new 0 2 1 0, .add 0 127, .add 0 64]).bind fun r => (r.1 0).map (·.words)) = some 2 ∧
    ((bsRun (fun _ => none) [.new 0 2 1 0, .add 0 127, .add 0 64]).bind fun r => (r.1 0).bind fun s => (bPullout s 0).bind bElems) = some [0, 65] ∧
    ((bsRun (fun _ => none) [.new 0 2 1 0, .add 0 127, .add 0 64]).bind fun r => (r.1 0).bind fun s => (bPullout s 64).bind bElems) = none := by
  refine ⟨?_, ?_, ?_⟩ <;> decide +kernel

end TdZdd
