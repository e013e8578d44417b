import Verif.StateStoreProofs
import Verif.Props.Builder

/-!
# Property C86: the storage of states

Storages are lists of bytes with arbitrary contents before they are written. The specifications `podSpec`, `scalarSpec` and `hybridSpec` work on the storages like the
classes `PodArrayDdSpec`, `DdSpec` and `HybridDdSpec`; `arraySpec`, `valueSpec` and `pairsSpec` work on the values.
-/

namespace TdZdd.Raw

variable {N : Nat} {α σ : Type}

/-! ## Raw comparison and hash code -/

/-- C86: `rawEqualTo` compares exactly the bytes of the two objects, whatever the size of the numbers it uses, and never reads behind them; equal objects have equal
raw hash codes. -/
theorem _root_.TdZdd.C86_raw (size : Nat) (p q : Mem) (hp : size ≤ p.length) (hq : size ≤ q.length) :
    ∃ e, rawEq size p q = some e ∧ (e = true ↔ ∀ i, i < size → p[i]? = q[i]?) ∧
    (∃ h, rawHash size p = some h) ∧ (e = true → rawHash size p = rawHash size q) := by
  refine ⟨_, rawEq_eq hp hq, ?_, ⟨_, rawHash_eq hp⟩, ?_⟩
  · rw [decide_eq_true_iff]
    constructor
    · intro e i hi
      have := congrArg (fun l => l[i]?) e
      simpa [List.getElem?_take, hi] using this
    · intro h
      apply List.ext_getElem?
      intro i
      rw [List.getElem?_take, List.getElem?_take]
      by_cases hi : i < size
      · rw [if_pos hi, if_pos hi, h i hi]
      · rw [if_neg hi, if_neg hi]
  · intro e
    rw [decide_eq_true_iff] at e
    rw [rawHash_eq hp, rawHash_eq hq, e]

example : rawEq 6 [1, 2, 3, 4, 5, 6, 7] [1, 2, 3, 4, 5, 6, 9] = some true ∧ rawEq 6 [1, 2, 3, 4, 5, 6] [1, 2, 3, 4, 5, 7] = some false ∧
    rawHash 3 [1, 2, 3] = rawHash 3 [1, 2, 3, 9] ∧ rawEq 4 [1, 2, 3] [1, 2, 3, 4] = none := by decide +kernel

/-! ## Sizes -/

/-- C86: after `setArraySize(n)` the storage of a `PodArrayDdSpec` is the smallest whole number of words that holds the array; a second call and a missing call are
reported; the node of the builder has room for its header and the storage. -/
theorem _root_.TdZdd.C86_size (P : Pod α) (n : Nat) :
    (∃ st, podSetArraySize P.size n .unset = .ok st ∧ PodSized P st n ∧ (∀ k, podSetArraySize P.size (k : Nat) st = .thrown) ∧
      ∃ w : Nat, podDatasize st = .ok (w * 8 : Nat) ∧ n * P.size ≤ w * 8 ∧ w * 8 < n * P.size + 8 ∧
        ∀ header, specNodeSize header (w * 8 : Nat) = .ok (header + w)) ∧
    podDatasize .unset = .thrown ∧ ∀ k : Int, k < 0 → ∀ st, podSetArraySize P.size k st = .ub := by
  have h1 := wordsOf_ge (n * P.size)
  have h2 := wordsOf_lt (n * P.size)
  refine ⟨⟨⟨n, wordsOf (n * P.size)⟩, ?_, ⟨rfl, rfl⟩, ?_, wordsOf (n * P.size), ?_, h1, h2, ?_⟩, rfl, fun k hk st => if_pos hk⟩
  · rw [podSetArraySize, if_neg (by omega), if_neg (by decide), Int.toNat_natCast]
  · intro k
    rw [podSetArraySize, if_neg (by omega), if_pos (by show (0 : Int) ≤ n; omega)]
  · rw [podDatasize, if_neg (by show ¬ ((wordsOf (n * P.size) : Nat) : Int) < 0; omega)]
    congr 1
  · intro header
    rw [specNodeSize, if_neg (by omega), Int.toNat_natCast]
    congr 2
    unfold wordsOf
    omega

/-- C86: after `setArraySize(n)` the storage of a `HybridDdSpec` is a whole number of words that holds the scalar and, behind the words of the scalar, the array. Without
`setArraySize` its size is negative, which the builder reports, and copying, comparing and hashing are undefined. -/
theorem _root_.TdZdd.C86_hybrid_size (Q : Scalar σ) (P : Pod α) (n : Nat) (st : Size) :
    (∃ st', hybSetArraySize Q.size P.size n st = .ok st' ∧ HybSized Q P st' n ∧
      ∃ w : Nat, hybDatasize st' = .ok (w * 8 : Nat) ∧ Q.size ≤ wordsOf Q.size * 8 ∧ wordsOf Q.size * 8 + n * P.size ≤ w * 8 ∧
        ∀ header, specNodeSize header (w * 8 : Nat) = .ok (header + w)) ∧
    (∀ header, (hybDatasize .unset).bind (specNodeSize header) = .thrown) ∧
    ∀ p q, hybCopy Q .unset p q = none ∧ hybEq Q.size .unset p q = none ∧ hybHash Q.size .unset p = none := by
  have h1 := wordsOf_ge (n * P.size)
  refine ⟨⟨⟨n, (wordsOf Q.size + wordsOf (n * P.size) : Nat)⟩, ?_, ⟨rfl, rfl⟩, wordsOf Q.size + wordsOf (n * P.size), ?_, wordsOf_ge _, by omega, ?_⟩, fun _ => rfl, fun p q => ?_⟩
  · rw [hybSetArraySize, if_neg (by omega), Int.toNat_natCast]
  · rw [hybDatasize]
    congr 1
  · intro header
    rw [specNodeSize, if_neg (by omega), Int.toNat_natCast]
    congr 2
    show (_ + 7) / 8 = _
    omega
  · have : (Size.unset.dataWords) < (wordsOf Q.size : Nat) := by show (-1 : Int) < _; omega
    exact ⟨if_pos this, if_pos this, if_pos this⟩

/-! ## Elements of arrays -/

/-- Unsigned numbers of one byte -/
def u8 : Pod (Fin 256) where
  size := 1
  dec bs := bs.headD 0
  enc x := [x]
  len _ := rfl
  dec_enc _ := rfl
  enc_dec bs h := by
    obtain ⟨x, rfl⟩ := List.length_eq_one_iff.1 h
    rfl

/-- The bytes of a number -/
def bytesOf : Nat → Nat → List Byte
  | 0, _ => []
  | k + 1, x => ⟨x % 256, Nat.mod_lt _ (by decide)⟩ :: bytesOf k (x / 256)

theorem bytesOf_len : ∀ k x, (bytesOf k x).length = k
  | 0, _ => rfl
  | k + 1, x => by rw [bytesOf, List.length_cons, bytesOf_len]

theorem le_bytesOf : ∀ k x, le (bytesOf k x) = x % 256 ^ k
  | 0, x => by rw [bytesOf, le, Nat.pow_zero, Nat.mod_one]
  | k + 1, x => by
    rw [bytesOf, le, le_bytesOf k, Nat.pow_succ, Nat.mul_comm (256 ^ k), Nat.mod_mul]

theorem le_lt : ∀ bs : List Byte, le bs < 256 ^ bs.length
  | [] => by decide
  | b :: bs => by
    have := le_lt bs
    have := b.isLt
    rw [le, List.length_cons, Nat.pow_succ]
    omega

/-- Unsigned numbers of `k` bytes -/
def unsigned (k : Nat) : Pod (Fin (256 ^ k)) where
  size := k
  dec bs := ⟨le bs % 256 ^ k, Nat.mod_lt _ (Nat.pow_pos (by decide))⟩
  enc x := bytesOf k x
  len x := bytesOf_len k x
  dec_enc x := Fin.ext (by show le (bytesOf k x) % 256 ^ k = x; rw [le_bytesOf, Nat.mod_mod, Nat.mod_eq_of_lt x.isLt])
  enc_dec bs h := by
    refine le_inj (by rw [bytesOf_len, h]) ?_
    show le (bytesOf k (le bs % 256 ^ k)) = le bs
    have := le_lt bs
    rw [h] at this
    rw [le_bytesOf, Nat.mod_mod, Nat.mod_eq_of_lt this]

/-- C86: elements that have been assigned can be read back, and the bytes before and behind the array keep their contents. -/
theorem _root_.TdZdd.C86_elements (P : Pod α) (off : Nat) (xs : List α) (m : Mem) (h : off + xs.length * P.size ≤ m.length) :
    elems P off xs.length (putElems P off xs m) = xs ∧ (putElems P off xs m).length = m.length ∧
    (putElems P off xs m).take off = m.take off ∧ (putElems P off xs m).drop (off + xs.length * P.size) = m.drop (off + xs.length * P.size) :=
  ⟨elems_putElems rfl h, putElems_len rfl h, putElems_take rfl h, putElems_drop rfl h⟩

example : putElems (unsigned 2) 1 [⟨515, by decide⟩, ⟨7, by decide⟩] [9, 9, 9, 9, 9, 8] = [9, 3, 2, 7, 0, 8] := by decide +kernel

/-- C86: `get_copy` of a `PodArrayDdSpec` makes an exact copy, whatever the destination contained; `equal_to` holds exactly if the elements and the padding are equal; then
the hash codes are equal. -/
theorem _root_.TdZdd.C86_array_functions (P : Pod α) (st : Size) (n : Nat) (hs : PodSized P st n) (p q : Mem) (sz : Nat) (hsz : podDatasize st = .ok (sz : Nat))
    (hp : p.length = sz) (hq : q.length = sz) :
    podCopy st p q = some q ∧
    (∃ e, podEq st p q = some e ∧ (e = true ↔ elems P 0 n p = elems P 0 n q ∧ p.drop (n * P.size) = q.drop (n * P.size))) ∧
    (∃ h, podHash st p = some h) ∧ (podEq st p q = some true → podHash st p = podHash st q) := by
  have hw := hs.words
  have hd : sz = wordsOf (n * P.size) * 8 := by
    rw [podDatasize, hw, if_neg (by omega)] at hsz
    have := Res.ok.inj hsz
    omega
  rw [hd] at hp hq
  have h1 := wordsOf_ge (n * P.size)
  have key : p = q ↔ elems P 0 n p = elems P 0 n q ∧ p.drop (n * P.size) = q.drop (n * P.size) := by
    constructor
    · intro e; rw [e]; exact ⟨rfl, rfl⟩
    · intro ⟨e1, e2⟩
      exact (Holds.inj h1 (⟨hp, rfl, rfl⟩ : Holds P n _ _ _ p) (⟨hq, rfl, e2.symm⟩ : Holds P n _ _ _ q)).2 e1
  refine ⟨podCopy_eq hw hq hp, ⟨_, podEq_eq hw hp hq, ?_⟩, ⟨_, podHash_eq hw hp⟩, ?_⟩
  · rw [decide_eq_true_iff, key]
  · intro e
    rw [podEq_eq hw hp hq] at e
    have := decide_eq_true_iff.1 (Option.some.inj e)
    rw [this]

/-- C86 (negation of "`equal_to` compares the elements"): an array of 3 numbers of 2 bytes has 2 bytes of padding that nobody initialises; storages with the same elements
can compare unequal and have different hash codes. -/
theorem _root_.TdZdd.C86_padding_false : ∃ (st : Size) (p q : Mem), podSetArraySize 2 3 .unset = .ok st ∧ podDatasize st = .ok 8 ∧ p.length = 8 ∧ q.length = 8 ∧
    elems (unsigned 2) 0 3 p = elems (unsigned 2) 0 3 q ∧ podEq st p q = some false ∧ podHash st p ≠ podHash st q :=
  ⟨⟨3, 1⟩, [1, 0, 2, 0, 3, 0, 0, 0], [1, 0, 2, 0, 3, 0, 7, 0], by decide +kernel⟩

/-! ## Classes derived from `PodArrayDdSpec` -/

/-- C86: whatever the storages contained, a class derived from `PodArrayDdSpec` gives the diagram of the specification whose states are the arrays, compared element by
element: the padding does not disturb, because it is copied with the states from the root. On the states of the construction `equal_to` is equality of the elements. -/
theorem _root_.TdZdd.C86_array [DecidableEq α] (P : Pod α) (U : ArrayUser N α) (st : Size) (n : Nat) (hs : PodSized P st n) (J : Junk N) (sz : Nat)
    (hsz : podDatasize st = .ok (sz : Nat)) (hJ : J.Sized sz) :
    build (podSpec P U st J) = build (arraySpec U n (elems P 0 n J.root)) ∧
    (∀ (l : Int) p q, Reach (podSpec P U st J) l p → Reach (podSpec P U st J) l q → (podEq st p q = some true ↔ elems P 0 n p = elems P 0 n q)) ∧
    (Desc (arraySpec U n (elems P 0 n J.root)) → Lawful (podSpec P U st J) ∧ buildH (podSpec P U st J) = build (arraySpec U n (elems P 0 n J.root))) := by
  have hw := hs.words
  have hd : sz = wordsOf (n * P.size) * 8 := by
    rw [podDatasize, hw, if_neg (by omega)] at hsz
    have := Res.ok.inj hsz
    omega
  subst hd
  have hr := podSpec_rel (U := U) hs hJ
  refine ⟨build_rel hr, fun l p q h h' => ?_, fun hd => ⟨podSpec_lawful hs hJ hd, ?_⟩⟩
  · obtain ⟨a, _, h1⟩ := reach_rel hr.root hr.child h
    obtain ⟨b, _, h2⟩ := reach_rel hr.root hr.child h'
    rw [podEq_eq hw h1.len h2.len, h1.arr, h2.arr, Option.some.injEq, decide_eq_true_iff, h1.inj (wordsOf_ge _) h2]
  · rw [buildH_eq (podSpec_lawful hs hJ hd), build_rel hr]

/-- C86: if `getRoot` does not read the uninitialised array, the diagram does not depend on what the storages contained. -/
theorem _root_.TdZdd.C86_array_independent [DecidableEq α] (P : Pod α) (U : ArrayUser N α) (st : Size) (n : Nat) (hs : PodSized P st n) (J J' : Junk N) (sz : Nat)
    (hsz : podDatasize st = .ok (sz : Nat)) (hJ : J.Sized sz) (hJ' : J'.Sized sz)
    (hu : ∀ g g' : List α, g.length = n → g'.length = n → U.root g = U.root g') (r : Int × List α) (hr : U.root (elems P 0 n J.root) = some r) (hl : r.2.length = n)
    (hd : Desc (arraySpec U n (elems P 0 n J.root))) :
    ∃ D, buildH (podSpec P U st J) = some D ∧ buildH (podSpec P U st J') = some D := by
  have e : arraySpec U n (elems P 0 n J'.root) = arraySpec U n (elems P 0 n J.root) := by
    unfold arraySpec
    have h := hu (elems P 0 n J'.root) (elems P 0 n J.root) (elems_len ..) (elems_len ..)
    rw [h, hr]
    simp [hl]
  obtain ⟨_, _, h1⟩ := C86_array P U st n hs J sz hsz hJ
  obtain ⟨_, _, h2⟩ := C86_array P U st n hs J' sz hsz hJ'
  obtain ⟨l1, b1⟩ := h1 hd
  obtain ⟨D, hD, _⟩ := C03_build_safe _ l1
  refine ⟨D, by rw [buildH_eq l1, hD], ?_⟩
  rw [(h2 (e ▸ hd)).2, e, ← b1, buildH_eq l1, hD]

/-- Combinations of two out of four items: the array has three numbers of two bytes, the first one counts. -/
def twoOfFour : ArrayUser 2 (Fin (256 ^ 2)) where
  root a := some (4, a.map fun _ => 0)
  child a l b :=
    let k : Nat := (a.headD 0).val + b.val
    if 2 < k then some (0, a)
    else if l = 1 then some (if k = 2 then -1 else 0, a)
    else some ((l : Int) - 1, ⟨k % 65536, Nat.mod_lt _ (by decide)⟩ :: a.drop 1)
  merge _ _ := 0

/-- Storages with garbage -/
def junk (sz x : Nat) : Junk N where
  root := List.replicate sz ⟨x % 256, Nat.mod_lt _ (by decide)⟩
  root' := List.replicate sz ⟨(x + 1) % 256, Nat.mod_lt _ (by decide)⟩
  copy s l b := List.replicate sz ⟨(le s + 3 * l + b.val + x) % 256, Nat.mod_lt _ (by decide)⟩

theorem junk_sized (sz x : Nat) : (junk sz x : Junk N).Sized sz := ⟨List.length_replicate .., List.length_replicate .., fun _ _ _ => List.length_replicate ..⟩

theorem twoOfFour_desc (g : List (Fin (256 ^ 2))) (hg : g.length = 3) : Desc (arraySpec twoOfFour 3 g) := by
  have key : ∀ (s : List (Fin (256 ^ 2))) (l : Nat) (b : Fin 2), 0 < l → ∃ r, twoOfFour.child s l b = some r ∧ (s.length = 3 → r.2.length = 3) ∧ -1 ≤ r.1 ∧ r.1 < l := by
    intro s l b hl
    unfold twoOfFour
    dsimp only
    split
    · exact ⟨_, rfl, fun h => h, by show (-1 : Int) ≤ 0; omega, by show (0 : Int) < l; omega⟩
    · split
      · split
        · exact ⟨_, rfl, fun h => h, by show (-1 : Int) ≤ -1; omega, by show (-1 : Int) < l; omega⟩
        · exact ⟨_, rfl, fun h => h, by show (-1 : Int) ≤ 0; omega, by show (0 : Int) < l; omega⟩
      · exact ⟨_, rfl, fun h => by show ((s.drop 1).length + 1) = 3; rw [List.length_drop, h], by show (-1 : Int) ≤ (l : Int) - 1; omega, by show ((l : Int) - 1) < l; omega⟩
  have hroot : (arraySpec twoOfFour 3 g).root = (4, g.map fun _ => 0) := by
    simp [arraySpec, twoOfFour, hg]
  have hlen : ∀ {l : Int} {s}, Reach (arraySpec twoOfFour 3 g) l s → s.length = 3 := by
    intro l s h
    induction h with
    | root => rw [hroot]; simp [hg]
    | step b hn _ ih =>
      rename_i n s _
      obtain ⟨r, e, h1, _⟩ := key s n b hn
      simp only [arraySpec, e, Option.bind]
      rw [if_pos (h1 ih)]
      exact h1 ih
  refine ⟨by rw [hroot]; show (-1 : Int) ≤ 4; omega, fun {n s} b hn hr => ?_, fun {n s} b hn hr => ?_⟩
  · obtain ⟨r, e, h1, h2, h3⟩ := key s n b hn
    simp only [arraySpec, e, Option.bind]
    rw [if_pos (h1 (hlen hr))]
    exact h3
  · obtain ⟨r, e, h1, h2, h3⟩ := key s n b hn
    simp only [arraySpec, e, Option.bind]
    rw [if_pos (h1 (hlen hr))]
    exact h2

example : ∃ D, buildH (podSpec (unsigned 2) twoOfFour ⟨3, 1⟩ (junk 8 5)) = some D ∧ buildH (podSpec (unsigned 2) twoOfFour ⟨3, 1⟩ (junk 8 77)) = some D :=
  C86_array_independent (unsigned 2) twoOfFour ⟨3, 1⟩ 3 ⟨rfl, rfl⟩ (junk 8 5) (junk 8 77) 8 rfl (junk_sized 8 5) (junk_sized 8 77)
    (fun g g' h h' => by
      have : ∀ g : List (Fin (256 ^ 2)), g.length = 3 → twoOfFour.root g = some (4, [0, 0, 0]) := by
        intro g hg
        match g, hg with
        | [_, _, _], _ => rfl
      rw [this g h, this g' h'])
    (4, [0, 0, 0]) rfl rfl (twoOfFour_desc _ rfl)

/-- one node for each number of items taken so far -/
example : (buildH (podSpec (unsigned 2) twoOfFour ⟨3, 1⟩ (junk 8 5))).map (fun D => [4, 3, 2, 1].map fun i => (D.table.row i).length) = some [1, 2, 3, 3] := by decide +kernel

/-! ## Classes derived from `DdSpec` -/

/-- C86: whatever the storages contained, a class derived from `DdSpec` gives the diagram of the specification whose states are the values, if the type of the states
has no padding and `==` is equality. -/
theorem _root_.TdZdd.C86_scalar (Q : Scalar σ) (U : ScalarUser N σ) (J : Junk N) (sz : Nat) (hsz : Q.size ≤ sz) (hJ : J.Sized sz) (hq : Q.Dense)
    (hb : ∀ x y, U.beq x y = true ↔ x = y) (hd : Desc (valueSpec U (Q.val (Q.init [])))) :
    Lawful (scalarSpec Q U J) ∧ ∃ D, buildH (scalarSpec Q U J) = some D ∧ build (valueSpec U (Q.val (Q.init []))) = some D := by
  have hl := scalarSpec_lawful hsz hJ hq hb hd
  obtain ⟨D, hD, _⟩ := C03_build_safe _ hl
  exact ⟨hl, D, by rw [buildH_eq hl, hD], by rw [← build_rel (scalarSpec_rel hsz hJ), hD]⟩

/-- A number of one byte without padding -/
def plain : Scalar (Fin 256) where
  size := 1
  val bs := bs.headD 0
  put x _ := [x]
  init _ := [0]
  cp _ src := [src.headD 0]
  put_len _ _ := rfl
  put_val _ _ := rfl
  init_len _ := rfl
  init_val _ _ := rfl
  cp_len _ _ := rfl
  cp_val _ _ _ := rfl

theorem plain_dense : plain.Dense := by
  intro x y hx hy h
  obtain ⟨a, rfl⟩ := List.length_eq_one_iff.1 hx
  obtain ⟨b, rfl⟩ := List.length_eq_one_iff.1 hy
  exact congrArg (fun z => [z]) h

/-- A structure of a number of one byte and one byte of padding; copy and assignment leave the padding of the destination as it is. -/
def padded : Scalar (Fin 256) where
  size := 2
  val bs := bs.headD 0
  put x old := [x, old.getD 1 0]
  init old := [0, old.getD 1 0]
  cp old src := [src.headD 0, old.getD 1 0]
  put_len _ _ := rfl
  put_val _ _ := rfl
  init_len _ := rfl
  init_val _ _ := rfl
  cp_len _ _ := rfl
  cp_val _ _ _ := rfl

/-- All subsets of three items, with a state that never changes -/
def powerset : ScalarUser 2 (Fin 256) where
  root x := some (3, x)
  child x l _ := some (if l = 1 then -1 else (l : Int) - 1, x)
  merge _ _ := 0
  beq x y := decide (x = y)

theorem powerset_desc (x : Fin 256) : Desc (valueSpec powerset x) := by
  refine ⟨by show (-1 : Int) ≤ 3; omega, fun {n s} b hn _ => ?_, fun {n s} b hn _ => ?_⟩
  · show (if n = 1 then (-1 : Int) else n - 1) < n
    split <;> omega
  · show -1 ≤ (if n = 1 then (-1 : Int) else n - 1)
    split <;> omega

example : Lawful (scalarSpec plain powerset (junk 8 5)) ∧ ∃ D, buildH (scalarSpec plain powerset (junk 8 5)) = some D ∧ build (valueSpec powerset 0) = some D :=
  C86_scalar plain powerset (junk 8 5) 8 (by decide) (junk_sized 8 5) plain_dense (fun _ _ => decide_eq_true_iff) (powerset_desc 0)

/-- C86 (negation of "equal states share a node" for `DdSpec`): with padding in the type of the states `==` ignores the padding, but the hash code does not. The level 1 of the
diagram of all subsets gets two nodes with equal states. -/
theorem _root_.TdZdd.C86_scalar_padding_false : ∃ J : Junk 2, J.Sized 8 ∧ padded.size ≤ 8 ∧ ∃ D D', buildH (scalarSpec padded powerset J) = some D ∧ build (valueSpec powerset 0) = some D' ∧
    (D.table.row 1).length = 2 ∧ (D'.table.row 1).length = 1 := by
  refine ⟨junk 8 5, junk_sized 8 5, by decide, ?_⟩
  have h1 : (buildH (scalarSpec padded powerset (junk 8 5))).map (fun D => (D.table.row 1).length) = some 2 := by decide +kernel
  have h2 : (build (valueSpec powerset 0)).map (fun D => (D.table.row 1).length) = some 1 := by decide +kernel
  obtain ⟨D, e1, e1'⟩ := Option.map_eq_some_iff.1 h1
  obtain ⟨D', e2, e2'⟩ := Option.map_eq_some_iff.1 h2
  exact ⟨D, D', e1, e2, e1', e2'⟩

/-! ## Classes derived from `HybridDdSpec` -/

/-- C86: whatever the storages contained, a class derived from `HybridDdSpec` meets the contract of the builder and its diagram has the meaning of the specification whose states
are the values of the scalar and of the elements, even if there is padding in the scalar. -/
theorem _root_.TdZdd.C86_hybrid_meaning [DecidableEq σ] [DecidableEq α] (Q : Scalar σ) (P : Pod α) (U : HybridUser N σ α) (st : Size) (n : Nat) (hs : HybSized Q P st n) (J : Junk N)
    (sz : Nat) (hsz : hybDatasize st = .ok (sz : Nat)) (hJ : J.Sized sz) (hm : ∀ x a y b, U.merge x a y b = 0)
    (hd : Desc (pairsSpec U n (Q.val (Q.init [])) (elems P (wordsOf Q.size * 8) n J.root))) :
    Lawful (hybridSpec Q P U st J) ∧ ∃ D, buildH (hybridSpec Q P U st J) = some D ∧
    (∀ k a, ZddMem D.spec k a ↔ ZddMem (pairsSpec U n (Q.val (Q.init [])) (elems P (wordsOf Q.size * 8) n J.root)) k a) ∧
    (∀ a, BddSat D.spec a ↔ BddSat (pairsSpec U n (Q.val (Q.init [])) (elems P (wordsOf Q.size * 8) n J.root)) a) := by
  have hd' : sz = (wordsOf Q.size + wordsOf (n * P.size)) * 8 := by
    rw [hybDatasize, hs.words] at hsz
    have := Res.ok.inj hsz
    omega
  subst hd'
  have hl := hybridSpec_lawful hs hJ hd
  obtain ⟨r1, r2, _⟩ := hybridSpec_rel (U := U) hs hJ
  obtain ⟨D, hD, h1⟩ := C02_build_zdd _ hl (fun _ _ => hm ..)
  obtain ⟨D', hD', h2⟩ := C01_build_bdd _ hl (fun _ _ => hm ..)
  have e : D' = D := Option.some.inj (hD'.symm.trans hD)
  subst e
  refine ⟨hl, D', by rw [buildH_eq hl, hD], fun k a => ?_, fun a => ?_⟩
  · rw [h1, zddMem_rel r1 r2]
  · rw [h2, bddSat_rel r1 r2]

/-- C86: without padding in the scalar it is the same diagram. -/
theorem _root_.TdZdd.C86_hybrid [DecidableEq σ] [DecidableEq α] (Q : Scalar σ) (P : Pod α) (U : HybridUser N σ α) (st : Size) (n : Nat) (hs : HybSized Q P st n) (J : Junk N)
    (sz : Nat) (hsz : hybDatasize st = .ok (sz : Nat)) (hJ : J.Sized sz) (hq : Q.Dense)
    (hd : Desc (pairsSpec U n (Q.val (Q.init [])) (elems P (wordsOf Q.size * 8) n J.root))) :
    Lawful (hybridSpec Q P U st J) ∧ ∃ D, buildH (hybridSpec Q P U st J) = some D ∧
    build (pairsSpec U n (Q.val (Q.init [])) (elems P (wordsOf Q.size * 8) n J.root)) = some D := by
  have hd' : sz = (wordsOf Q.size + wordsOf (n * P.size)) * 8 := by
    rw [hybDatasize, hs.words] at hsz
    have := Res.ok.inj hsz
    omega
  subst hd'
  have hl := hybridSpec_lawful hs hJ hd
  obtain ⟨D, hD, _⟩ := C03_build_safe _ hl
  exact ⟨hl, D, by rw [buildH_eq hl, hD], by rw [← build_rel (hybridSpec_dense hs hJ hq), hD]⟩

/-- All subsets of three items; the array of three numbers of two bytes records which items have been taken, the scalar does not change. -/
def taken : HybridUser 2 (Fin 256) (Fin (256 ^ 2)) where
  root x a := some (3, x, a.map fun _ => 0)
  child x a l b := some (if l = 1 then -1 else (l : Int) - 1, x, if l = 3 then a.set 0 ⟨b.val, by have := b.isLt; omega⟩ else a)
  merge _ _ _ _ := 0

theorem taken_desc (x : Fin 256) (g : List (Fin (256 ^ 2))) (hg : g.length = 3) : Desc (pairsSpec taken 3 x g) := by
  have hlen : ∀ {l : Int} {s}, Reach (pairsSpec taken 3 x g) l s → s.2.length = 3 := by
    intro l s h
    induction h with
    | root => simp [pairsSpec, taken, hg]
    | step b hn _ ih =>
      rename_i n s _
      have : (if n = 3 then s.2.set 0 ⟨b.val, by have := b.isLt; omega⟩ else s.2).length = 3 := by split <;> simp [ih]
      simp only [pairsSpec, taken, Option.bind]
      rw [if_pos this]
      exact this
  have key : ∀ (n : Nat) s (b : Fin 2), s.2.length = 3 → ((pairsSpec taken 3 x g).child s n b).1 = if n = 1 then -1 else (n : Int) - 1 := by
    intro n s b hs
    have : (if n = 3 then s.2.set 0 ⟨b.val, by have := b.isLt; omega⟩ else s.2).length = 3 := by split <;> simp [hs]
    simp only [pairsSpec, taken, Option.bind]
    rw [if_pos this]
    rfl
  refine ⟨by simp [pairsSpec, taken, hg], fun {n s} b hn hr => ?_, fun {n s} b hn hr => ?_⟩
  · rw [key n s b (hlen hr)]
    split <;> omega
  · rw [key n s b (hlen hr)]
    split <;> omega

example : Lawful (hybridSpec plain (unsigned 2) taken ⟨3, 2⟩ (junk 16 5)) ∧ ∃ D, buildH (hybridSpec plain (unsigned 2) taken ⟨3, 2⟩ (junk 16 5)) = some D ∧
    build (pairsSpec taken 3 0 (elems (unsigned 2) 8 3 (junk 16 5 : Junk 2).root)) = some D :=
  C86_hybrid plain (unsigned 2) taken ⟨3, 2⟩ 3 ⟨rfl, rfl⟩ (junk 16 5) 16 rfl (junk_sized 16 5) plain_dense (taken_desc _ _ rfl)

example : (buildH (hybridSpec plain (unsigned 2) taken ⟨3, 2⟩ (junk 16 5))).map (fun D => [3, 2, 1].map fun i => (D.table.row i).length) = some [1, 2, 2] := by decide +kernel

/-- C86 (negation of "equal states share a node" for `HybridDdSpec`): with padding in the scalar, states with the same values are not recognised as equal; the level 1 of the diagram
has four nodes for two states. -/
theorem _root_.TdZdd.C86_hybrid_padding_false : ∃ J : Junk 2, J.Sized 16 ∧ HybSized padded (unsigned 2) ⟨3, 2⟩ 3 ∧ ∃ D D', buildH (hybridSpec padded (unsigned 2) taken ⟨3, 2⟩ J) = some D ∧
    build (pairsSpec taken 3 0 (elems (unsigned 2) 8 3 J.root)) = some D' ∧ (D.table.row 1).length = 4 ∧ (D'.table.row 1).length = 2 := by
  refine ⟨junk 16 5, junk_sized 16 5, ⟨rfl, rfl⟩, ?_⟩
  have h1 : (buildH (hybridSpec padded (unsigned 2) taken ⟨3, 2⟩ (junk 16 5))).map (fun D => (D.table.row 1).length) = some 4 := by decide +kernel
  have h2 : (build (pairsSpec taken 3 0 (elems (unsigned 2) 8 3 (junk 16 5 : Junk 2).root))).map (fun D => (D.table.row 1).length) = some 2 := by decide +kernel
  obtain ⟨D, e1, e1'⟩ := Option.map_eq_some_iff.1 h1
  obtain ⟨D', e2, e2'⟩ := Option.map_eq_some_iff.1 h2
  exact ⟨D, D', e1, e2, e1', e2'⟩

/-! ## Classes derived from `StatelessDdSpec` -/

/-- C86: the diagram of a class derived from `StatelessDdSpec` has at most one node at every level, and it has the meaning of the functions of the class. -/
theorem _root_.TdZdd.C86_stateless (root : Int) (child : Nat → Fin N → Int) (hr : -1 ≤ root) (hc : ∀ l b, 0 < l → -1 ≤ child l b ∧ child l b < l) :
    ∃ D, buildH (statelessSpec root child) = some D ∧ (∀ i, 0 < i → i < D.table.numRows → (D.table.row i).length ≤ 1) ∧ (∀ n a, ZddMem D.spec n a ↔ ZddMem (statelessSpec root child) n a) := by
  have hd : Desc (statelessSpec root child) := ⟨hr, fun b hn _ => (hc _ b hn).2, fun b hn _ => (hc _ b hn).1⟩
  have hl : LawfulC (statelessSpec root child) := lawfulC_of_eq hd (fun _ _ _ => by simp [statelessSpec])
  obtain ⟨D, hD, lab, h1, h2, _⟩ := C04_sharing _ hl (fun _ _ => rfl)
  obtain ⟨D', hD', h3⟩ := C02_build_zdd _ hl.lawful (fun _ _ => rfl)
  have e : D' = D := Option.some.inj (hD'.symm.trans hD)
  subst e
  refine ⟨D', by rw [buildH_eq hl.lawful, hD], fun i hi hi' => ?_, h3⟩
  refine Nat.not_lt.1 fun h => ?_
  have g0 : D'.table.node? ⟨i, 0⟩ = some ((D'.table.row i)[0]'(by omega)) := by
    rw [Table.node?, if_pos hi']
    exact List.getElem?_eq_getElem _
  have g1 : D'.table.node? ⟨i, 1⟩ = some ((D'.table.row i)[1]'(by omega)) := by
    rw [Table.node?, if_pos hi']
    exact List.getElem?_eq_getElem _
  obtain ⟨s, hs, _⟩ := h1 ⟨i, 0⟩ _ hi g0
  obtain ⟨t, ht, _⟩ := h1 ⟨i, 1⟩ _ hi g1
  have := h2 _ _ s t hs ht rfl rfl
  exact absurd (congrArg NodeId.col this) (by show (0 : Nat) ≠ 1; omega)

example : ∃ D, buildH (statelessSpec (N := 2) 5 fun l b => if b = 1 then (l : Int) - 1 else if l < 3 then -1 else (l : Int) - 2) = some D ∧ (∀ i, 0 < i → i < D.table.numRows → (D.table.row i).length ≤ 1) ∧
    (∀ n a, ZddMem D.spec n a ↔ ZddMem (statelessSpec (N := 2) 5 fun l b => if b = 1 then (l : Int) - 1 else if l < 3 then -1 else (l : Int) - 2) n a) :=
  C86_stateless 5 _ (by decide) fun l b hl => by
    split
    · omega
    · split <;> omega

end TdZdd.Raw
