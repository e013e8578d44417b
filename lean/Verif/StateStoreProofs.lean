import Verif.StateStore

/-! Proofs about the storage of states -/

namespace TdZdd.Raw

variable {N : Nat} {α σ : Type}

/-- `k` bytes from byte `o` on -/
def slice (o k : Nat) (m : Mem) : Mem := (m.drop o).take k

theorem slice_len {o k : Nat} {m : Mem} (h : o + k ≤ m.length) : (slice o k m).length = k := by
  unfold slice
  rw [List.length_take, List.length_drop]
  omega

theorem slice_add (o a b : Nat) (m : Mem) : slice o (a + b) m = slice o a m ++ slice (o + a) b m := by
  unfold slice
  rw [List.take_add, List.drop_drop]

theorem slice_zero (k : Nat) (m : Mem) : slice 0 k m = m.take k := by rw [slice, List.drop_zero]

theorem slice_nil (o : Nat) (m : Mem) : slice o 0 m = [] := by rw [slice, List.take_zero]

theorem slice_take {o k n : Nat} (m : Mem) (h : o + k ≤ n) : slice o k (m.take n) = slice o k m := by
  unfold slice
  rw [List.drop_take, List.take_take, Nat.min_eq_left (by omega)]

theorem slice_append {o k : Nat} (a b : Mem) (h : a.length = o) : slice o k (a ++ b) = b.take k := by
  unfold slice
  rw [← h, List.drop_left]

theorem slice_append_right {o k : Nat} (a b : Mem) (h : a.length ≤ o) : slice o k (a ++ b) = slice (o - a.length) k b := by
  unfold slice
  rw [List.drop_append, List.drop_eq_nil_of_le h, List.nil_append]

theorem slice_append_left {o k : Nat} (a b : Mem) (h : o + k ≤ a.length) : slice o k (a ++ b) = slice o k a := by
  rw [← slice_take (n := a.length) (a ++ b) h, List.take_left]

/-- parts -/
theorem mem_split {m : Mem} (o k : Nat) : m = m.take o ++ slice o k m ++ m.drop (o + k) := by
  rw [List.append_assoc]
  have : slice o k m ++ m.drop (o + k) = m.drop o := by
    rw [← List.drop_drop]
    exact List.take_append_drop _ _
  rw [this, List.take_append_drop]

theorem le_inj : ∀ {a b : List Byte}, a.length = b.length → le a = le b → a = b
  | [], [], _, _ => rfl
  | x :: a, y :: b, h, e => by
    unfold le at e
    have h1 := x.isLt
    have h2 := y.isLt
    have e1 : x = y := Fin.ext (by omega)
    have e2 : le a = le b := by omega
    rw [e1, le_inj (Nat.succ.inj h) e2]

theorem load_eq {k i : Nat} {m : Mem} (h : (i + 1) * k ≤ m.length) : load k i m = some (le (slice (i * k) k m)) := if_pos h

theorem load_none {k i : Nat} {m : Mem} (h : m.length < (i + 1) * k) : load k i m = none := if_neg (Nat.not_le.2 h)

theorem eqLoop_eq {k : Nat} {p q : Mem} : ∀ (cnt i : Nat), (i + cnt) * k ≤ p.length → (i + cnt) * k ≤ q.length →
    eqLoop k p q cnt i = some (decide (slice (i * k) (cnt * k) p = slice (i * k) (cnt * k) q))
  | 0, i, _, _ => by simp [eqLoop, slice_nil]
  | cnt + 1, i, hp, hq => by
    have e1 : (i + (cnt + 1)) * k = (i + 1 + cnt) * k := by rw [Nat.add_comm cnt 1, ← Nat.add_assoc]
    have e2 : (i + 1 + cnt) * k = (i + 1) * k + cnt * k := Nat.add_mul _ _ _
    have e3 : (cnt + 1) * k = k + cnt * k := by rw [Nat.add_mul, Nat.one_mul, Nat.add_comm]
    have e4 : (i + 1) * k = i * k + k := by rw [Nat.add_mul, Nat.one_mul]
    have lp : (slice (i * k) k p).length = k := slice_len (by omega)
    have lq : (slice (i * k) k q).length = k := slice_len (by omega)
    rw [eqLoop, load_eq (by omega), load_eq (by omega), e3, slice_add, slice_add, ← e4]
    dsimp only [Option.bind]
    by_cases h : slice (i * k) k p = slice (i * k) k q
    · rw [if_neg (by rw [h]; exact fun h => h rfl), eqLoop_eq cnt (i + 1) (by omega) (by omega), h]
      simp only [List.append_right_inj]
    · rw [if_pos fun e => h (le_inj (by rw [lp, lq]) e)]
      congr 1
      refine (decide_eq_false fun e => h ?_).symm
      exact (List.append_inj e (by rw [lp, lq])).1

/-- A number made of a list of bytes -/
def foldBytes (F : Nat → Nat → Nat) (k : Nat) : Nat → Mem → Nat → Nat
  | 0, _, h => h
  | cnt + 1, m, h => foldBytes F k cnt (m.drop k) (F h (le (m.take k)))

/-- The hash code of a list of bytes -/
def hashOf (k cnt : Nat) (m : Mem) (h : Nat) : Nat := foldBytes mix k cnt m h

theorem foldBytes_succ (F : Nat → Nat → Nat) (k cnt : Nat) (m : Mem) (h : Nat) : foldBytes F k (cnt + 1) m h = foldBytes F k cnt (m.drop k) (F h (le (m.take k))) := rfl

theorem hashLoop_eq {k : Nat} {m : Mem} : ∀ (cnt i h : Nat), (i + cnt) * k ≤ m.length → hashLoop k m cnt i h = some (hashOf k cnt (slice (i * k) (cnt * k) m) h)
  | 0, i, h, _ => rfl
  | cnt + 1, i, h, hm => by
    have e1 : (i + (cnt + 1)) * k = (i + 1 + cnt) * k := by rw [Nat.add_comm cnt 1, ← Nat.add_assoc]
    have e2 : (i + 1 + cnt) * k = (i + 1) * k + cnt * k := Nat.add_mul _ _ _
    have e3 : (cnt + 1) * k = k + cnt * k := by rw [Nat.add_mul, Nat.one_mul, Nat.add_comm]
    have e4 : (i + 1) * k = i * k + k := by rw [Nat.add_mul, Nat.one_mul]
    have lp : (slice (i * k) k m).length = k := slice_len (by omega)
    rw [hashLoop, load_eq (by omega), e3, slice_add, ← e4]
    dsimp only [Option.bind]
    rw [hashLoop_eq cnt (i + 1) _ (by omega), hashOf, hashOf, foldBytes_succ, List.take_left' lp, List.drop_left' lp]

theorem copyWord_eq {i : Nat} {src dst : Mem} (hs : (i + 1) * 8 ≤ src.length) (hd : (i + 1) * 8 ≤ dst.length) :
    copyWord i src dst = some (dst.take (i * 8) ++ slice (i * 8) 8 src ++ dst.drop (i * 8 + 8)) := if_pos ⟨hs, hd⟩

theorem copyLoop_eq {src : Mem} : ∀ (cnt i : Nat) (dst : Mem), (i + cnt) * 8 ≤ src.length → (i + cnt) * 8 ≤ dst.length →
    copyLoop src cnt i dst = some (dst.take (i * 8) ++ slice (i * 8) (cnt * 8) src ++ dst.drop (i * 8 + cnt * 8))
  | 0, i, dst, _, _ => by
    rw [copyLoop, Nat.zero_mul, slice_nil, List.append_nil, Nat.add_zero, List.take_append_drop]
  | cnt + 1, i, dst, hs, hd => by
    have l1 : (dst.take (i * 8)).length = i * 8 := by rw [List.length_take]; omega
    have l2 : (slice (i * 8) 8 src).length = 8 := slice_len (by omega)
    rw [copyLoop, copyWord_eq (by omega) (by omega)]
    dsimp only [Option.bind]
    have l3 : (dst.take (i * 8) ++ slice (i * 8) 8 src).length = (i + 1) * 8 := by rw [List.length_append, l1, l2]; omega
    rw [copyLoop_eq cnt (i + 1) _ (by omega) (by rw [List.length_append, l3, List.length_drop]; omega)]
    rw [List.take_left' l3, List.drop_append, List.drop_eq_nil_of_le (by omega), l3, List.nil_append, List.drop_drop,
      show (cnt + 1) * 8 = 8 + cnt * 8 by omega, slice_add, show i * 8 + 8 = (i + 1) * 8 by omega]
    rw [List.append_assoc, List.append_assoc, List.append_assoc, List.append_assoc]
    rw [show (i + 1) * 8 + ((i + 1) * 8 + cnt * 8 - (i + 1) * 8) = i * 8 + (8 + cnt * 8) by omega]

/-! ### Raw functions -/

theorem width_pos (size : Nat) : 0 < width size := by unfold width; (repeat' split) <;> omega

theorem width_mul (size : Nat) : size / width size * width size = size := by
  unfold width
  split
  · omega
  · split
    · omega
    · split <;> omega

theorem rawEq_eq {size : Nat} {p q : Mem} (hp : size ≤ p.length) (hq : size ≤ q.length) :
    rawEq size p q = some (decide (p.take size = q.take size)) := by
  have h := width_mul size
  rw [rawEq, eqLoop_eq _ _ (by rw [Nat.zero_add, h]; exact hp) (by rw [Nat.zero_add, h]; exact hq), h, Nat.zero_mul, slice_zero, slice_zero]

theorem rawHash_eq {size : Nat} {p : Mem} (hp : size ≤ p.length) : rawHash size p = some (hashOf (width size) (size / width size) (p.take size) 0) := by
  have h := width_mul size
  rw [rawHash, hashLoop_eq _ _ _ (by rw [Nat.zero_add, h]; exact hp), h, Nat.zero_mul, slice_zero]

theorem wordsOf_ge (n : Nat) : n ≤ wordsOf n * 8 := by unfold wordsOf; omega

theorem wordsOf_lt (n : Nat) : wordsOf n * 8 < n + 8 := by unfold wordsOf; omega

/-! ### Arrays -/

variable {P : Pod α}

theorem encs_len (xs : List α) : ((xs.map P.enc).flatten).length = xs.length * P.size := by
  induction xs with
  | nil => simp
  | cons x xs ih => rw [List.map_cons, List.flatten_cons, List.length_append, ih, P.len, List.length_cons, Nat.add_mul, Nat.one_mul, Nat.add_comm]

theorem encs_inj : ∀ {xs ys : List α}, xs.length = ys.length → (xs.map P.enc).flatten = (ys.map P.enc).flatten → xs = ys
  | [], [], _, _ => rfl
  | x :: xs, y :: ys, h, e => by
    rw [List.map_cons, List.map_cons, List.flatten_cons, List.flatten_cons] at e
    obtain ⟨e1, e2⟩ := List.append_inj e (by rw [P.len, P.len])
    rw [encs_inj (Nat.succ.inj h) e2, ← P.dec_enc x, e1, P.dec_enc]

theorem elems_len (off n : Nat) (m : Mem) : (elems P off n m).length = n := by rw [elems, List.length_map, List.length_range]

theorem elems_succ (off n : Nat) (m : Mem) : elems P off (n + 1) m = elems P off n m ++ [P.dec (slice (off + n * P.size) P.size m)] := by
  rw [elems, List.range_succ, List.map_append]; rfl

theorem encs_elems {off : Nat} {m : Mem} : ∀ {n : Nat}, off + n * P.size ≤ m.length → ((elems P off n m).map P.enc).flatten = slice off (n * P.size) m
  | 0, _ => by simp [elems, slice_nil]
  | n + 1, h => by
    have e : (n + 1) * P.size = n * P.size + P.size := by rw [Nat.add_mul, Nat.one_mul]
    rw [elems_succ, List.map_append, List.flatten_append, encs_elems (by omega), e, slice_add, List.map_singleton, List.flatten_singleton, P.enc_dec]
    exact slice_len (by omega)

/-- Storages with the same elements have the same bytes there. -/
theorem slice_of_elems {off n : Nat} {m m' : Mem} (h : off + n * P.size ≤ m.length) (h' : off + n * P.size ≤ m'.length) :
    elems P off n m = elems P off n m' ↔ slice off (n * P.size) m = slice off (n * P.size) m' := by
  constructor
  · intro e
    rw [← encs_elems h, e, encs_elems h']
  · intro e
    refine encs_inj (P := P) (by rw [elems_len, elems_len]) ?_
    rw [encs_elems h, encs_elems h', e]

theorem putElems_len {off n : Nat} {m : Mem} {xs : List α} (hx : xs.length = n) (h : off + n * P.size ≤ m.length) : (putElems P off xs m).length = m.length := by
  rw [putElems, List.length_append, List.length_append, encs_len, List.length_take, List.length_drop, hx]
  omega

theorem putElems_take {off n : Nat} {m : Mem} {xs : List α} (_ : xs.length = n) (h : off + n * P.size ≤ m.length) : (putElems P off xs m).take off = m.take off := by
  have : (m.take off).length = off := by rw [List.length_take]; omega
  rw [putElems, List.append_assoc, List.take_left' this]

theorem putElems_drop {off n : Nat} {m : Mem} {xs : List α} (hx : xs.length = n) (h : off + n * P.size ≤ m.length) :
    (putElems P off xs m).drop (off + n * P.size) = m.drop (off + n * P.size) := by
  have : (m.take off ++ (xs.map P.enc).flatten).length = off + n * P.size := by rw [List.length_append, encs_len, List.length_take, hx]; omega
  rw [putElems, List.drop_left' this, hx]

theorem putElems_slice {off n : Nat} {m : Mem} {xs : List α} (hx : xs.length = n) (h : off + n * P.size ≤ m.length) :
    slice off (n * P.size) (putElems P off xs m) = (xs.map P.enc).flatten := by
  have h1 : (m.take off).length = off := by rw [List.length_take]; omega
  rw [putElems, List.append_assoc, slice_append _ _ h1, List.take_left' (by rw [encs_len, hx])]

theorem elems_putElems {off n : Nat} {m : Mem} {xs : List α} (hx : xs.length = n) (h : off + n * P.size ≤ m.length) : elems P off n (putElems P off xs m) = xs := by
  refine encs_inj (P := P) (by rw [elems_len, hx]) ?_
  rw [encs_elems (by rw [putElems_len hx h]; exact h), putElems_slice hx h]

/-! ### `PodArrayDdSpec` -/

/-- `setArraySize(n)` has been called. -/
structure PodSized (P : Pod α) (st : Size) (n : Nat) : Prop where
  arr : st.arraySize = n
  words : st.dataWords = wordsOf (n * P.size)

theorem podCopy_eq {st : Size} {w : Nat} (h : st.dataWords = w) {dst src : Mem} (hs : src.length = w * 8) (hd : dst.length = w * 8) : podCopy st dst src = some src := by
  rw [podCopy, if_neg (by omega), h, Int.toNat_natCast, copyLoop_eq _ _ _ (by omega) (by omega), Nat.zero_mul, List.take_zero, List.nil_append, slice_zero,
    List.take_of_length_le (by omega), List.drop_eq_nil_of_le (by omega), List.append_nil]

theorem podEq_eq {st : Size} {w : Nat} (h : st.dataWords = w) {p q : Mem} (hp : p.length = w * 8) (hq : q.length = w * 8) : podEq st p q = some (decide (p = q)) := by
  rw [podEq, if_neg (by omega), h, Int.toNat_natCast, eqLoop_eq _ _ (by omega) (by omega), Nat.zero_mul, slice_zero, slice_zero,
    List.take_of_length_le (by omega), List.take_of_length_le (by omega)]

theorem podHash_eq {st : Size} {w : Nat} (h : st.dataWords = w) {p : Mem} (hp : p.length = w * 8) : podHash st p = some (hashOf 8 w p 0) := by
  rw [podHash, if_neg (by omega), h, Int.toNat_natCast, hashLoop_eq _ _ _ (by omega), Nat.zero_mul, slice_zero, List.take_of_length_le (by omega)]

/-- The storage contains the array and the padding. -/
structure Holds (P : Pod α) (n w : Nat) (pad : Mem) (a : List α) (m : Mem) : Prop where
  len : m.length = w * 8
  arr : elems P 0 n m = a
  pad : m.drop (n * P.size) = pad

theorem Holds.inj {n w : Nat} (hw : n * P.size ≤ w * 8) {pad : Mem} {a b : List α} {p q : Mem} (hp : Holds P n w pad a p) (hq : Holds P n w pad b q) : p = q ↔ a = b := by
  constructor
  · intro e; rw [← hp.arr, ← hq.arr, e]
  · intro e
    have h := (slice_of_elems (P := P) (off := 0) (n := n) (m := p) (m' := q) (by rw [hp.len]; omega) (by rw [hq.len]; omega)).1 (by rw [hp.arr, hq.arr, e])
    rw [slice_zero, slice_zero] at h
    rw [← List.take_append_drop (n * P.size) p, ← List.take_append_drop (n * P.size) q, h, hp.pad, hq.pad]

theorem callArray_holds {n w : Nat} (hw : n * P.size ≤ w * 8) {pad : Mem} {a : List α} {m : Mem} (h : Holds P n w pad a m) (f : List α → Option (Int × List α)) :
    (f a = none ∨ (∃ r, f a = some r ∧ r.2.length ≠ n)) ∧ callArray P n f m = none ∨
    ∃ r m', f a = some r ∧ r.2.length = n ∧ callArray P n f m = some (r.1, m') ∧ Holds P n w pad r.2 m' := by
  rw [callArray, h.arr]
  cases hf : f a with
  | none => exact .inl ⟨.inl rfl, rfl⟩
  | some r =>
    dsimp only [Option.bind]
    by_cases hr : r.2.length = n
    · rw [if_pos hr]
      have hl : 0 + n * P.size ≤ m.length := by rw [h.len]; omega
      refine .inr ⟨r, _, rfl, hr, rfl, ?_, elems_putElems hr hl, ?_⟩
      · rw [putElems_len hr hl, h.len]
      · have := putElems_drop (P := P) hr hl
        rw [Nat.zero_add] at this
        rw [this, h.pad]
    · rw [if_neg hr]
      exact .inl ⟨.inr ⟨r, rfl, hr⟩, rfl⟩

theorem podSpec_rel [DecidableEq α] {U : ArrayUser N α} {st : Size} {n : Nat} (hs : PodSized P st n) {J : Junk N} (hJ : J.Sized (wordsOf (n * P.size) * 8)) :
    SpecRel (arraySpec U n (elems P 0 n J.root)) (podSpec P U st J) (Holds P n (wordsOf (n * P.size)) (J.root.drop (n * P.size))) := by
  obtain ⟨ha, hw⟩ := hs
  obtain ⟨j1, j2, j3⟩ := hJ
  have hge := wordsOf_ge (n * P.size)
  have hn : st.arraySize.toNat = n := by rw [ha]; rfl
  have h0 : Holds P n (wordsOf (n * P.size)) (J.root.drop (n * P.size)) (elems P 0 n J.root) J.root := ⟨j1, rfl, rfl⟩
  refine ⟨?_, ?_, ?_, ?_⟩
  · simp only [arraySpec, podSpec, hn]
    rcases callArray_holds hge h0 U.root with ⟨h1, h2⟩ | ⟨r, m', h1, h2, h3, h4⟩
    · rw [h2]
      have : ((U.root (elems P 0 n J.root)).bind fun r => if r.2.length = n then some r else none) = none := by
        rcases h1 with h1 | ⟨r, h1, h1'⟩
        · rw [h1]; rfl
        · rw [h1]; exact if_neg h1'
      rw [this]
      exact ⟨rfl, h0⟩
    · rw [h3, h1]
      dsimp only [Option.bind]
      rw [if_pos h2, podCopy_eq hw h4.len j2]
      exact ⟨rfl, h4⟩
  · intro s t l b _ hr
    simp only [arraySpec, podSpec, hn]
    rw [podCopy_eq hw hr.len (j3 t l b)]
    dsimp only [Option.bind]
    rcases callArray_holds hge hr (fun a => U.child a l b) with ⟨h1, h2⟩ | ⟨r, m', h1, h2, h3, h4⟩
    · rw [h2]
      rcases h1 with h1 | ⟨r, h1, h1'⟩
      · rw [h1]; exact ⟨rfl, hr⟩
      · rw [h1]; dsimp only; rw [if_neg h1']; exact ⟨rfl, hr⟩
    · rw [h3, h1]
      dsimp only
      rw [if_pos h2]
      exact ⟨rfl, h4⟩
  · intro l s t s' t' _ hr hr'
    simp only [arraySpec, podSpec]
    rw [podEq_eq hw hr.len hr'.len, Option.getD_some]
    exact decide_eq_decide.2 (hr.inj hge hr').symm
  · intro s t s' t' hr hr'
    simp only [arraySpec, podSpec, hn]
    rw [hr.arr, hr'.arr]

/-! ### Scalars -/

variable {Q : Scalar σ}

/-- The storage contains the value. -/
structure HoldsS (Q : Scalar σ) (sz : Nat) (x : σ) (m : Mem) : Prop where
  len : m.length = sz
  val : Q.val (m.take Q.size) = x

theorem copyScalar_eq {sz : Nat} (hsz : Q.size ≤ sz) {dst src : Mem} {x : σ} (hd : dst.length = sz) (hs : HoldsS Q sz x src) :
    ∃ m, copyScalar Q dst src = some m ∧ HoldsS Q sz x m ∧ m.drop Q.size = dst.drop Q.size := by
  refine ⟨_, if_pos ⟨by omega, by rw [hs.len]; exact hsz⟩, ⟨?_, ?_⟩, ?_⟩
  · rw [List.length_append, Q.cp_len, List.length_drop]; omega
  · rw [List.take_left' (Q.cp_len ..), Q.cp_val _ _ (by rw [List.length_take, hs.len]; omega), hs.val]
  · rw [List.drop_left' (Q.cp_len ..)]

theorem construct_holds {sz : Nat} (hsz : Q.size ≤ sz) {m : Mem} (h : m.length = sz) : HoldsS Q sz (Q.val (Q.init [])) (construct₀ Q m) := by
  refine ⟨?_, ?_⟩
  · rw [construct₀, List.length_append, Q.init_len, List.length_drop]; omega
  · rw [construct₀, List.take_left' (Q.init_len ..)]
    exact Q.init_val ..

theorem callScalar_holds {sz : Nat} (hsz : Q.size ≤ sz) {x : σ} {m : Mem} (h : HoldsS Q sz x m) (f : σ → Option (Int × σ)) :
    f x = none ∧ callScalar Q f m = none ∨ ∃ r m', f x = some r ∧ callScalar Q f m = some (r.1, m') ∧ HoldsS Q sz r.2 m' := by
  rw [callScalar, if_pos (by rw [h.len]; exact hsz), h.val]
  cases hf : f x with
  | none => exact .inl ⟨rfl, rfl⟩
  | some r =>
    refine .inr ⟨r, _, rfl, rfl, ?_, ?_⟩
    · rw [List.length_append, Q.put_len, List.length_drop, h.len]; omega
    · rw [List.take_left' (Q.put_len ..), Q.put_val]

theorem scalarSpec_rel {U : ScalarUser N σ} {sz : Nat} (hsz : Q.size ≤ sz) {J : Junk N} (hJ : J.Sized sz) :
    SpecRel (valueSpec U (Q.val (Q.init []))) (scalarSpec Q U J) (HoldsS Q sz) := by
  obtain ⟨j1, j2, j3⟩ := hJ
  have h0 := construct_holds hsz j1
  refine ⟨?_, ?_, ?_, ?_⟩
  · simp only [valueSpec, scalarSpec]
    rcases callScalar_holds hsz h0 U.root with ⟨h1, h2⟩ | ⟨r, m', h1, h2, h3⟩
    · rw [h1, h2]; exact ⟨rfl, h0⟩
    · rw [h1, h2]
      obtain ⟨m, e, hm, _⟩ := copyScalar_eq hsz j2 h3
      dsimp only [Option.bind]
      rw [e]
      exact ⟨rfl, hm⟩
  · intro s t l b _ hr
    simp only [valueSpec, scalarSpec]
    obtain ⟨m, e, hm, _⟩ := copyScalar_eq hsz (j3 t l b) hr
    rw [e]
    dsimp only [Option.bind]
    rcases callScalar_holds hsz hm (fun x => U.child x l b) with ⟨h1, h2⟩ | ⟨r, m', h1, h2, h3⟩
    · rw [h1, h2]; exact ⟨rfl, hr⟩
    · rw [h1, h2]; exact ⟨rfl, h3⟩
  · intro l s t s' t' _ hr hr'
    simp only [valueSpec, scalarSpec]
    rw [hr.val, hr'.val]
  · intro s t s' t' hr hr'
    simp only [valueSpec, scalarSpec]
    rw [hr.val, hr'.val]

/-! ### `HybridDdSpec` -/

/-- `setArraySize(n)` has been called. -/
structure HybSized (Q : Scalar σ) (P : Pod α) (st : Size) (n : Nat) : Prop where
  arr : st.arraySize = n
  words : st.dataWords = (wordsOf Q.size + wordsOf (n * P.size) : Nat)

/-- The storage contains the value, the array and the padding behind the array. -/
structure HoldsH (Q : Scalar σ) (P : Pod α) (n : Nat) (pad : Mem) (x : σ × List α) (m : Mem) : Prop where
  len : m.length = (wordsOf Q.size + wordsOf (n * P.size)) * 8
  val : Q.val (m.take Q.size) = x.1
  arr : elems P (wordsOf Q.size * 8) n m = x.2
  pad : m.drop (wordsOf Q.size * 8 + n * P.size) = pad

theorem hyb_len {n : Nat} {m : Mem} (h : m.length = (wordsOf Q.size + wordsOf (n * P.size)) * 8) :
    Q.size ≤ wordsOf Q.size * 8 ∧ Q.size ≤ m.length ∧ wordsOf Q.size * 8 + n * P.size ≤ m.length := by
  have h1 := wordsOf_ge Q.size
  have h2 := wordsOf_ge (n * P.size)
  omega

theorem drop_take_eq {o : Nat} {m m' : Mem} (h : m.drop o = m'.drop o) (k l : Nat) (hk : o ≤ k) : slice k l m = slice k l m' := by
  unfold slice
  rw [show k = o + (k - o) by omega, ← List.drop_drop, ← List.drop_drop, h]

theorem elems_congr {off n : Nat} {m m' : Mem} (h : m.drop off = m'.drop off) : elems P off n m = elems P off n m' := by
  unfold elems
  refine List.map_congr_left fun i _ => ?_
  have := drop_take_eq h (off + i * P.size) P.size (by omega)
  unfold slice at this
  rw [this]

theorem hybCopy_eq {st : Size} {n : Nat} (hs : HybSized Q P st n) {pad : Mem} {x : σ × List α} {dst src : Mem}
    (hd : dst.length = (wordsOf Q.size + wordsOf (n * P.size)) * 8) (hx : HoldsH Q P n pad x src) :
    ∃ m, hybCopy Q st dst src = some m ∧ HoldsH Q P n pad x m := by
  obtain ⟨l1, l2, l3⟩ := hyb_len hx.len
  obtain ⟨_, l2', _⟩ := hyb_len (Q := Q) (P := P) hd
  have hl := hx.len
  rw [hybCopy, hs.words, if_neg (by omega), Int.toNat_natCast, Nat.add_sub_cancel_left]
  obtain ⟨d, e, hm, hdr⟩ := copyScalar_eq (Q := Q) (sz := (wordsOf Q.size + wordsOf (n * P.size)) * 8) (x := x.1) (by rw [hx.len] at l2; exact l2) hd ⟨hx.len, hx.val⟩
  rw [e]
  dsimp only [Option.bind]
  have ld := hm.len
  rw [copyLoop_eq _ _ _ (by omega) (by omega)]
  have t1 : (d.take (wordsOf Q.size * 8)).length = wordsOf Q.size * 8 := by rw [List.length_take]; omega
  have t2 : slice (wordsOf Q.size * 8) (wordsOf (n * P.size) * 8) src = src.drop (wordsOf Q.size * 8) := by
    unfold slice
    rw [List.take_of_length_le (by rw [List.length_drop]; omega)]
  rw [t2, List.drop_eq_nil_of_le (as := d) (by omega), List.append_nil]
  have t3 : (d.take (wordsOf Q.size * 8) ++ src.drop (wordsOf Q.size * 8)).drop (wordsOf Q.size * 8) = src.drop (wordsOf Q.size * 8) := List.drop_left' t1
  refine ⟨_, rfl, ?_, ?_, ?_, ?_⟩
  · rw [List.length_append, t1, List.length_drop]; omega
  · rw [List.take_append_of_le_length (by omega), List.take_take, Nat.min_eq_left l1, hm.val]
  · rw [elems_congr t3, hx.arr]
  · rw [← hx.pad, ← List.drop_drop, ← List.drop_drop, t3]

theorem hybEq_eq [DecidableEq α] {st : Size} {n : Nat} (hs : HybSized Q P st n) {pad : Mem} {x y : σ × List α} {p q : Mem} (hp : HoldsH Q P n pad x p) (hq : HoldsH Q P n pad y q) :
    hybEq Q.size st p q = some (decide (p.take Q.size = q.take Q.size ∧ x.2 = y.2)) := by
  obtain ⟨l1, l2, l3⟩ := hyb_len hp.len
  obtain ⟨_, l2', l3'⟩ := hyb_len hq.len
  have lp := hp.len
  have lq := hq.len
  rw [hybEq, hs.words, if_neg (by omega), Int.toNat_natCast, Nat.add_sub_cancel_left, rawEq_eq l2 l2']
  dsimp only [Option.bind]
  by_cases h : p.take Q.size = q.take Q.size
  · rw [if_neg (by simp [h]), eqLoop_eq _ _ (by omega) (by omega)]
    congr 1
    refine decide_eq_decide.2 ⟨fun e => ⟨h, ?_⟩, fun e => ?_⟩
    · rw [← hp.arr, ← hq.arr, slice_of_elems l3 l3']
      have := congrArg (fun m => slice 0 (n * P.size) m) e
      simp only [slice_zero] at this
      unfold slice at this ⊢
      rw [List.take_take, List.take_take, Nat.min_eq_left (wordsOf_ge _)] at this
      exact this
    · have e1 : elems P (wordsOf Q.size * 8) n p = elems P (wordsOf Q.size * 8) n q := by rw [hp.arr, hq.arr, e.2]
      rw [slice_of_elems l3 l3'] at e1
      have hge := wordsOf_ge (n * P.size)
      rw [show wordsOf (n * P.size) * 8 = n * P.size + (wordsOf (n * P.size) * 8 - n * P.size) by omega, slice_add, slice_add, e1]
      unfold slice
      rw [hp.pad, hq.pad]
  · rw [if_pos (by simp [h])]
    congr 1
    exact (decide_eq_false fun e => h e.1).symm

theorem hybHash_eq {st : Size} {n : Nat} (hs : HybSized Q P st n) {pad : Mem} {x y : σ × List α} {p q : Mem} (hp : HoldsH Q P n pad x p) (hq : HoldsH Q P n pad y q)
    (h : p.take Q.size = q.take Q.size ∧ x.2 = y.2) : hybHash Q.size st p = hybHash Q.size st q ∧ (hybHash Q.size st p).isSome := by
  obtain ⟨l1, l2, l3⟩ := hyb_len hp.len
  obtain ⟨_, l2', l3'⟩ := hyb_len hq.len
  have lp := hp.len
  have lq := hq.len
  have e1 : elems P (wordsOf Q.size * 8) n p = elems P (wordsOf Q.size * 8) n q := by rw [hp.arr, hq.arr, h.2]
  rw [slice_of_elems l3 l3'] at e1
  have hge := wordsOf_ge (n * P.size)
  have e2 : slice (wordsOf Q.size * 8) (wordsOf (n * P.size) * 8) p = slice (wordsOf Q.size * 8) (wordsOf (n * P.size) * 8) q := by
    rw [show wordsOf (n * P.size) * 8 = n * P.size + (wordsOf (n * P.size) * 8 - n * P.size) by omega, slice_add, slice_add, e1]
    unfold slice
    rw [hp.pad, hq.pad]
  simp only [hybHash, hs.words]
  rw [if_neg (by omega), if_neg (by omega), Int.toNat_natCast, Nat.add_sub_cancel_left, rawHash_eq l2, rawHash_eq l2']
  dsimp only [Option.bind]
  rw [hashLoop_eq _ _ _ (by omega), hashLoop_eq _ _ _ (by omega), e2, h.1]
  exact ⟨rfl, rfl⟩

theorem callHybrid_holds {n : Nat} {pad : Mem} {x : σ × List α} {m : Mem} (h : HoldsH Q P n pad x m) (f : σ → List α → Option (Int × σ × List α)) :
    (f x.1 x.2 = none ∨ (∃ r, f x.1 x.2 = some r ∧ r.2.2.length ≠ n)) ∧ callHybrid Q P n f m = none ∨
    ∃ r m', f x.1 x.2 = some r ∧ r.2.2.length = n ∧ callHybrid Q P n f m = some (r.1, m') ∧ HoldsH Q P n pad r.2 m' := by
  obtain ⟨l1, l2, l3⟩ := hyb_len h.len
  rw [callHybrid, if_pos l2, h.val, h.arr]
  cases hf : f x.1 x.2 with
  | none => exact .inl ⟨.inl rfl, rfl⟩
  | some r =>
    dsimp only [Option.bind]
    by_cases hr : r.2.2.length = n
    · rw [if_pos hr]
      have q1 := Q.put_len r.2.1 (m.take Q.size)
      have hl : (Q.put r.2.1 (m.take Q.size) ++ m.drop Q.size).length = m.length := by rw [List.length_append, q1, List.length_drop]; omega
      have hl' : wordsOf Q.size * 8 + n * P.size ≤ (Q.put r.2.1 (m.take Q.size) ++ m.drop Q.size).length := by rw [hl]; exact l3
      refine .inr ⟨r, _, rfl, hr, rfl, ?_, ?_, elems_putElems hr hl', ?_⟩
      · rw [putElems_len hr hl', hl, h.len]
      · have := congrArg (List.take Q.size) (putElems_take (P := P) hr hl')
        rw [List.take_take, List.take_take, Nat.min_eq_left l1] at this
        rw [this, List.take_left' q1, Q.put_val]
      · rw [putElems_drop hr hl', ← h.pad, List.drop_append, List.drop_eq_nil_of_le (by omega), List.nil_append, q1, List.drop_drop]
        congr 1
        omega
    · rw [if_neg hr]
      exact .inl ⟨.inr ⟨r, rfl, hr⟩, rfl⟩

/-- What holds for the values and the array behind every class derived from `HybridDdSpec`, with or without padding in the scalar -/
theorem hybridSpec_rel [DecidableEq σ] [DecidableEq α] {U : HybridUser N σ α} {st : Size} {n : Nat} (hs : HybSized Q P st n) {J : Junk N}
    (hJ : J.Sized ((wordsOf Q.size + wordsOf (n * P.size)) * 8)) :
    let A := pairsSpec U n (Q.val (Q.init [])) (elems P (wordsOf Q.size * 8) n J.root)
    let C := hybridSpec Q P U st J
    let R := HoldsH Q P n (J.root.drop (wordsOf Q.size * 8 + n * P.size))
    (A.root.1 = C.root.1 ∧ R A.root.2 C.root.2) ∧
    (∀ s t l b, 0 < l → R s t → (A.child s l b).1 = (C.child t l b).1 ∧ R (A.child s l b).2 (C.child t l b).2) ∧
    (∀ s t s' t', R s t → R s' t' → A.merge s s' = C.merge t t') := by
  dsimp only
  obtain ⟨j1, j2, j3⟩ := hJ
  have hn : st.arraySize.toNat = n := by rw [hs.arr]; rfl
  obtain ⟨l1, l2, l3⟩ := hyb_len (Q := Q) (P := P) j1
  have hc := construct_holds (Q := Q) (by rw [j1] at l2; exact l2) j1
  have hdr : (construct₀ Q J.root).drop (wordsOf Q.size * 8) = J.root.drop (wordsOf Q.size * 8) := by
    rw [construct₀, List.drop_append, List.drop_eq_nil_of_le (by rw [Q.init_len]; exact l1), List.nil_append, Q.init_len, List.drop_drop]
    congr 1
    omega
  have h0 : HoldsH Q P n (J.root.drop (wordsOf Q.size * 8 + n * P.size)) (Q.val (Q.init []), elems P (wordsOf Q.size * 8) n J.root) (construct₀ Q J.root) :=
    ⟨hc.len, hc.val, elems_congr hdr, by rw [← List.drop_drop, hdr, List.drop_drop]⟩
  refine ⟨?_, ?_, ?_⟩
  · simp only [pairsSpec, hybridSpec, hn]
    rcases callHybrid_holds h0 U.root with ⟨h1, h2⟩ | ⟨r, m', h1, h2, h3, h4⟩
    · rw [h2]
      have : ((U.root (Q.val (Q.init [])) (elems P (wordsOf Q.size * 8) n J.root)).bind fun r => if r.2.2.length = n then some r else none) = none := by
        rcases h1 with h1 | ⟨r, h1, h1'⟩
        · rw [h1]; rfl
        · rw [h1]; exact if_neg h1'
      rw [this]
      exact ⟨rfl, h0⟩
    · rw [h3, h1]
      dsimp only [Option.bind]
      obtain ⟨m, e, hm⟩ := hybCopy_eq hs j2 h4
      rw [if_pos h2, e]
      exact ⟨rfl, hm⟩
  · intro s t l b _ hr
    simp only [pairsSpec, hybridSpec, hn]
    obtain ⟨m, e, hm⟩ := hybCopy_eq hs (j3 t l b) hr
    rw [e]
    dsimp only [Option.bind]
    rcases callHybrid_holds hm (fun x a => U.child x a l b) with ⟨h1, h2⟩ | ⟨r, m', h1, h2, h3, h4⟩
    · rw [h2]
      rcases h1 with h1 | ⟨r, h1, h1'⟩
      · rw [h1]; exact ⟨rfl, hr⟩
      · rw [h1]; dsimp only; rw [if_neg h1']; exact ⟨rfl, hr⟩
    · rw [h3, h1]
      dsimp only
      rw [if_pos h2]
      exact ⟨rfl, h4⟩
  · intro s t s' t' hr hr'
    simp only [pairsSpec, hybridSpec, hn]
    rw [hr.val, hr'.val, hr.arr, hr'.arr]

/-! ### The contract of the builder -/

section
variable {S T : Type} {A : DdSpec N S} {C : DdSpec N T} {R : S → T → Prop}

theorem desc_rel (h0 : A.root.1 = C.root.1 ∧ R A.root.2 C.root.2)
    (hc : ∀ s t n b, 0 < n → R s t → (A.child s n b).1 = (C.child t n b).1 ∧ R (A.child s n b).2 (C.child t n b).2) (hd : Desc A) : Desc C where
  root_ge := by rw [← h0.1]; exact hd.root_ge
  child_lt := fun {n t} b hn hr => by
    obtain ⟨s, hs, hst⟩ := reach_rel h0 hc hr
    rw [← (hc s t n b hn hst).1]
    exact hd.child_lt b hn hs
  child_ge := fun {n t} b hn hr => by
    obtain ⟨s, hs, hst⟩ := reach_rel h0 hc hr
    rw [← (hc s t n b hn hst).1]
    exact hd.child_ge b hn hs

/-- If `equal_to` is an equivalence relation that implies equal values, and equal states have equal hash codes, the contract of the builder holds. -/
theorem lawful_rel (h0 : A.root.1 = C.root.1 ∧ R A.root.2 C.root.2)
    (hc : ∀ s t n b, 0 < n → R s t → (A.child s n b).1 = (C.child t n b).1 ∧ R (A.child s n b).2 (C.child t n b).2) (hd : Desc A)
    (E : S → T → S → T → Prop) (he : ∀ n s t s' t', 0 < n → R s t → R s' t' → (C.eqv n t t' = true ↔ E s t s' t'))
    (h1 : ∀ s t, R s t → E s t s t) (h2 : ∀ s t s' t', E s t s' t' → E s' t' s t)
    (h3 : ∀ s t s' t' s'' t'', E s t s' t' → E s' t' s'' t'' → E s t s'' t'')
    (h4 : ∀ n s t s' t', 0 < n → R s t → R s' t' → E s t s' t' → C.hash n t = C.hash n t')
    (h5 : ∀ (n : Nat) s t s' t', 0 < n → Reach A (n : Int) s → Reach A (n : Int) s' → R s t → R s' t' → E s t s' t' → ∀ p, Accepts A (n : Int) s p ↔ Accepts A (n : Int) s' p) :
    Lawful C where
  toDesc := desc_rel h0 hc hd
  refl := fun {n t} hn hr => by
    obtain ⟨s, hs, hst⟩ := reach_rel h0 hc hr
    exact (he n s t s t hn hst hst).2 (h1 s t hst)
  symm := fun {n t t'} hn hr hr' e => by
    obtain ⟨s, hs, hst⟩ := reach_rel h0 hc hr
    obtain ⟨s', hs', hst'⟩ := reach_rel h0 hc hr'
    exact (he n s' t' s t hn hst' hst).2 (h2 _ _ _ _ ((he n s t s' t' hn hst hst').1 e))
  trans := fun {n t t' t''} hn hr hr' hr'' e e' => by
    obtain ⟨s, hs, hst⟩ := reach_rel h0 hc hr
    obtain ⟨s', hs', hst'⟩ := reach_rel h0 hc hr'
    obtain ⟨s'', hs'', hst''⟩ := reach_rel h0 hc hr''
    exact (he n s t s'' t'' hn hst hst'').2 (h3 _ _ _ _ _ _ ((he n s t s' t' hn hst hst').1 e) ((he n s' t' s'' t'' hn hst' hst'').1 e'))
  hash_eq := fun {n t t'} hn hr hr' e => by
    obtain ⟨s, hs, hst⟩ := reach_rel h0 hc hr
    obtain ⟨s', hs', hst'⟩ := reach_rel h0 hc hr'
    exact h4 n s t s' t' hn hst hst' ((he n s t s' t' hn hst hst').1 e)
  sound := fun {n t t'} hn hr hr' e p => by
    obtain ⟨s, hs, hst⟩ := reach_rel h0 hc hr
    obtain ⟨s', hs', hst'⟩ := reach_rel h0 hc hr'
    have := h5 n s t s' t' hn hs hs' hst hst' ((he n s t s' t' hn hst hst').1 e) p
    rw [← accepts_rel hc hst, this, accepts_rel hc hst']

end

theorem podSpec_lawful [DecidableEq α] {U : ArrayUser N α} {st : Size} {n : Nat} (hs : PodSized P st n) {J : Junk N} (hJ : J.Sized (wordsOf (n * P.size) * 8))
    (hd : Desc (arraySpec U n (elems P 0 n J.root))) : Lawful (podSpec P U st J) := by
  have hr := podSpec_rel (U := U) hs hJ
  refine lawful_rel hr.root hr.child hd (fun s _ s' _ => s = s') ?_ (fun _ _ _ => rfl) (fun _ _ _ _ e => e.symm) (fun _ _ _ _ _ _ e e' => e.trans e') ?_ ?_
  · intro l s t s' t' hl h h'
    rw [← hr.eqv l s t s' t' hl h h']
    exact decide_eq_true_iff
  · intro l s t s' t' hl h h' e
    have := (h.inj (wordsOf_ge _) h').2 e
    rw [this]
  · intro l s t s' t' _ _ _ _ _ e p
    rw [e]

theorem scalarSpec_lawful {U : ScalarUser N σ} {sz : Nat} (hsz : Q.size ≤ sz) {J : Junk N} (hJ : J.Sized sz) (hq : Q.Dense)
    (hb : ∀ x y, U.beq x y = true ↔ x = y) (hd : Desc (valueSpec U (Q.val (Q.init [])))) : Lawful (scalarSpec Q U J) := by
  have hr := scalarSpec_rel (U := U) hsz hJ
  refine lawful_rel hr.root hr.child hd (fun s _ s' _ => s = s') ?_ (fun _ _ _ => rfl) (fun _ _ _ _ e => e.symm) (fun _ _ _ _ _ _ e e' => e.trans e') ?_ ?_
  · intro l s t s' t' hl h h'
    rw [← hr.eqv l s t s' t' hl h h']
    exact hb s s'
  · intro l s t s' t' hl h h' e
    have e' : t.take Q.size = t'.take Q.size :=
      hq _ _ (by rw [List.length_take, h.len]; omega) (by rw [List.length_take, h'.len]; omega) (by rw [h.val, h'.val, e])
    simp only [scalarSpec]
    rw [rawHash_eq (by rw [h.len]; exact hsz), rawHash_eq (by rw [h'.len]; exact hsz), e']
  · intro l s t s' t' _ _ _ _ _ e p
    rw [e]

/-- Also with padding in the scalar -/
theorem hybridSpec_lawful [DecidableEq σ] [DecidableEq α] {U : HybridUser N σ α} {st : Size} {n : Nat} (hs : HybSized Q P st n) {J : Junk N}
    (hJ : J.Sized ((wordsOf Q.size + wordsOf (n * P.size)) * 8))
    (hd : Desc (pairsSpec U n (Q.val (Q.init [])) (elems P (wordsOf Q.size * 8) n J.root))) : Lawful (hybridSpec Q P U st J) := by
  obtain ⟨r1, r2, r3⟩ := hybridSpec_rel (U := U) hs hJ
  refine lawful_rel r1 r2 hd (fun s t s' t' => t.take Q.size = t'.take Q.size ∧ s.2 = s'.2) ?_ (fun _ _ _ => ⟨rfl, rfl⟩) (fun _ _ _ _ e => ⟨e.1.symm, e.2.symm⟩)
    (fun _ _ _ _ _ _ e e' => ⟨e.1.trans e'.1, e.2.trans e'.2⟩) ?_ ?_
  · intro l s t s' t' hl h h'
    simp only [hybridSpec]
    rw [hybEq_eq hs h h', Option.getD_some]
    exact decide_eq_true_iff
  · intro l s t s' t' hl h h' e
    simp only [hybridSpec]
    rw [(hybHash_eq hs h h' e).1]
  · intro l s t s' t' _ _ _ h h' e p
    have : s = s' := Prod.ext (by rw [← h.val, ← h'.val, e.1]) e.2
    rw [this]

/-- Without padding in the scalar the diagram is that of the values. -/
theorem hybridSpec_dense [DecidableEq σ] [DecidableEq α] {U : HybridUser N σ α} {st : Size} {n : Nat} (hs : HybSized Q P st n) {J : Junk N}
    (hJ : J.Sized ((wordsOf Q.size + wordsOf (n * P.size)) * 8)) (hq : Q.Dense) :
    SpecRel (pairsSpec U n (Q.val (Q.init [])) (elems P (wordsOf Q.size * 8) n J.root)) (hybridSpec Q P U st J)
      (HoldsH Q P n (J.root.drop (wordsOf Q.size * 8 + n * P.size))) := by
  obtain ⟨r1, r2, r3⟩ := hybridSpec_rel (U := U) hs hJ
  refine ⟨r1, r2, ?_, r3⟩
  intro l s t s' t' hl h h'
  simp only [pairsSpec, hybridSpec]
  rw [hybEq_eq hs h h', Option.getD_some]
  obtain ⟨_, l2, _⟩ := hyb_len h.len
  obtain ⟨_, l2', _⟩ := hyb_len h'.len
  refine decide_eq_decide.2 ⟨fun e => ?_, fun e => Prod.ext ?_ e.2⟩
  · exact ⟨hq _ _ (by rw [List.length_take]; omega) (by rw [List.length_take]; omega) (by rw [h.val, h'.val, e]), by rw [e]⟩
  · rw [← h.val, ← h'.val, e.1]

end TdZdd.Raw
