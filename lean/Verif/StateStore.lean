import Verif.Graph
import Verif.BuilderMap
import Verif.BuilderHash

/-!
# The storage of states

Model of the classes of `include/tdzdd/DdSpec.hpp` that keep the states of a specification in raw memory: `DdSpecBase` (raw hash and raw comparison), `StatelessDdSpec`,
`DdSpec`, `PodArrayDdSpec` and `HybridDdSpec`. A storage is a list of bytes; what it contains before it is written (`MyVector<char>`, `MyList::alloc_front`) is arbitrary.
A `size_t` has 8 bytes, an `unsigned int` 4 and an `unsigned short` 2, least significant byte first. Reading or writing outside of the storage is undefined behaviour (`none`).

Simplifications: sizes are unbounded (`dataWords` is an `int`), alignment is not modelled, `destruct` does nothing, and the functions `printState` are left out.
The functions of the user (`getRoot`, `getChild`, `mergeStates`) see the values, not the bytes; they are arbitrary partial functions (`none` is undefined behaviour).
-/

namespace TdZdd.Raw

abbrev Byte := Fin 256
abbrev Mem := List Byte

/-- The number made of bytes, least significant first -/
def le : List Byte → Nat
  | [] => 0
  | b :: bs => b.val + 256 * le bs

/-- `a[i]` for an array of unsigned numbers of `k` bytes at the beginning of the storage -/
def load (k i : Nat) (m : Mem) : Option Nat := if (i + 1) * k ≤ m.length then some (le ((m.drop (i * k)).take k)) else none

/-- `h += x; h *= 314159257` -/
def mix (h x : Nat) : Nat := (h + x) * 314159257 % 2 ^ 64

/-- The loop of `rawHashCode_` (`DdSpec.hpp` 131-139) and of the functions `hashCode` (449-458, 630-641): `cnt` numbers of `k` bytes from number `i` on -/
def hashLoop (k : Nat) (m : Mem) : Nat → Nat → Nat → Option Nat
  | 0, _, h => some h
  | cnt + 1, i, h => (load k i m).bind fun x => hashLoop k m cnt (i + 1) (mix h x)

/-- The loop of `rawEqualTo_` (142-149) and of the functions `equalTo` (472-474, 659-661) -/
def eqLoop (k : Nat) (p q : Mem) : Nat → Nat → Option Bool
  | 0, _ => some true
  | cnt + 1, i => (load k i p).bind fun x => (load k i q).bind fun y => if x ≠ y then some false else eqLoop k p q cnt (i + 1)

/-- The size of the numbers that the raw functions use for an object of `size` bytes (154-163, 168-177) -/
def width (size : Nat) : Nat := if size % 8 = 0 then 8 else if size % 4 = 0 then 4 else if size % 2 = 0 then 2 else 1

/-- `rawHashCode` (153-164) of the object of `size` bytes at the beginning of the storage -/
def rawHash (size : Nat) (p : Mem) : Option Nat := hashLoop (width size) p (size / width size) 0 0

/-- `rawEqualTo` (167-178) -/
def rawEq (size : Nat) (p q : Mem) : Option Bool := eqLoop (width size) p q (size / width size) 0

/-- `to[i] = from[i]` for words -/
def copyWord (i : Nat) (src dst : Mem) : Option Mem :=
  if (i + 1) * 8 ≤ src.length ∧ (i + 1) * 8 ≤ dst.length then some (dst.take (i * 8) ++ (src.drop (i * 8)).take 8 ++ dst.drop (i * 8 + 8)) else none

/-- The loop of the functions `get_copy` (430-432, 602-604): `cnt` words from word `i` on -/
def copyLoop (src : Mem) : Nat → Nat → Mem → Option Mem
  | 0, _, dst => some dst
  | cnt + 1, i, dst => (copyWord i src dst).bind fun d => copyLoop src cnt (i + 1) d

/-! ### Sizes -/

/-- The members `arraySize` and `dataWords` (`DdSpec.hpp` 380-381, 536-537) -/
structure Size where
  arraySize : Int
  dataWords : Int
deriving DecidableEq

/-- The constructors of `PodArrayDdSpec` and `HybridDdSpec` (406-408, 569-571) -/
def Size.unset : Size := ⟨-1, -1⟩

/-- `(n + sizeof(Word) - 1) / sizeof(Word)` -/
def wordsOf (n : Nat) : Nat := (n + 7) / 8

/-- `PodArrayDdSpec::setArraySize` (392-399) for elements of `size` bytes; a second call throws. -/
def podSetArraySize (size : Nat) (n : Int) (st : Size) : Res Size :=
  if n < 0 then .ub else if 0 ≤ st.arraySize then .thrown else .ok ⟨n, wordsOf (n.toNat * size)⟩

/-- `PodArrayDdSpec::datasize` (410-415) -/
def podDatasize (st : Size) : Res Int := if st.dataWords < 0 then .thrown else .ok (st.dataWords * 8)

/-- `HybridDdSpec::setArraySize` (557-562) for a scalar of `ss` bytes and elements of `size` bytes -/
def hybSetArraySize (ss size : Nat) (n : Int) (_st : Size) : Res Size :=
  if n < 0 then .ub else .ok ⟨n, (wordsOf ss + wordsOf (n.toNat * size) : Nat)⟩

/-- `HybridDdSpec::datasize` (573-575) -/
def hybDatasize (st : Size) : Res Int := .ok (st.dataWords * 8)

/-- `getSpecNodeSize` (`DdBuilder.hpp` 83-87, 146-150, 1298-1302) with a header of `header` words: the words of a node of the builder -/
def specNodeSize (header : Nat) (n : Int) : Res Nat := if n < 0 then .thrown else .ok (header + wordsOf n.toNat)

/-! ### Arrays -/

/-- An element type without padding: every value is represented by exactly one list of `size` bytes. -/
structure Pod (α : Type) where
  size : Nat
  dec : List Byte → α
  enc : α → List Byte
  len : ∀ x, (enc x).length = size
  dec_enc : ∀ x, dec (enc x) = x
  enc_dec : ∀ bs, bs.length = size → enc (dec bs) = bs

variable {N : Nat} {α σ : Type}

/-- `a[0] .. a[n-1]` for the array at byte `off` of the storage -/
def elems (P : Pod α) (off n : Nat) (m : Mem) : List α := (List.range n).map fun i => P.dec ((m.drop (off + i * P.size)).take P.size)

/-- The storage after the elements have been assigned -/
def putElems (P : Pod α) (off : Nat) (xs : List α) (m : Mem) : Mem := m.take off ++ (xs.map P.enc).flatten ++ m.drop (off + xs.length * P.size)

/-- The functions of a class derived from `PodArrayDdSpec` (`DdSpec.hpp` 355-364): `getRoot(array)`, `getChild(array, level, value)`, `mergeStates`. They get the values of
the elements and give the new values. -/
structure ArrayUser (N : Nat) (α : Type) where
  root : List α → Option (Int × List α)
  child : List α → Nat → Fin N → Option (Int × List α)
  merge : List α → List α → Nat

/-- A call of a function of the user: it must not change the number of elements (there are `n` of them). -/
def callArray (P : Pod α) (n : Nat) (f : List α → Option (Int × List α)) (m : Mem) : Option (Int × Mem) :=
  (f (elems P 0 n m)).bind fun r => if r.2.length = n then some (r.1, putElems P 0 r.2 m) else none

/-- `PodArrayDdSpec::get_copy` (426-433) -/
def podCopy (st : Size) (dst src : Mem) : Option Mem := if st.dataWords < 0 then none else copyLoop src st.dataWords.toNat 0 dst

/-- `PodArrayDdSpec::hashCode` (449-458) -/
def podHash (st : Size) (p : Mem) : Option Nat := if st.dataWords < 0 then none else hashLoop 8 p st.dataWords.toNat 0 0

/-- `PodArrayDdSpec::equalTo` (468-476) -/
def podEq (st : Size) (p q : Mem) : Option Bool := if st.dataWords < 0 then none else eqLoop 8 p q st.dataWords.toNat 0

/-- What the storages contain before they are written: the storage of `get_root`, the storage that the root is copied to, and the storage that a state is copied to
before `get_child(p, level, value)` (`DdBuilder.hpp` 227-252, 330-341) -/
structure Junk (N : Nat) where
  root : Mem
  root' : Mem
  copy : Mem → Nat → Fin N → Mem

/-- All storages have the given size. -/
def Junk.Sized (J : Junk N) (sz : Nat) : Prop := J.root.length = sz ∧ J.root'.length = sz ∧ ∀ s l b, (J.copy s l b).length = sz

/-- The specification of a class derived from `PodArrayDdSpec` as the builder sees it (`DdSpec.hpp` 372-502; calls in `DdBuilder.hpp` 214-252, 267-301, 335-341): the root is
computed in one storage and copied, every child is computed in a copy. Undefined behaviour gives a level that the builder does not accept. -/
def podSpec (P : Pod α) (U : ArrayUser N α) (st : Size) (J : Junk N) : DdSpec N Mem where
  root := ((callArray P st.arraySize.toNat U.root J.root).bind fun r => (podCopy st J.root' r.2).map fun m => (r.1, m)).getD (-2, J.root)
  child s l b := ((podCopy st (J.copy s l b) s).bind fun m => callArray P st.arraySize.toNat (fun a => U.child a l b) m).getD (l, s)
  eqv _ p q := (podEq st p q).getD false
  hash _ p := (podHash st p).getD 0
  merge p q := U.merge (elems P 0 st.arraySize.toNat p) (elems P 0 st.arraySize.toNat q)

/-- The specification whose states are the arrays themselves, compared element by element, when the array of `n` elements has the values `g` before `getRoot` -/
def arraySpec [DecidableEq α] (U : ArrayUser N α) (n : Nat) (g : List α) : DdSpec N (List α) where
  root := ((U.root g).bind fun r => if r.2.length = n then some r else none).getD (-2, g)
  child s l b := ((U.child s l b).bind fun r => if r.2.length = n then some r else none).getD (l, s)
  eqv _ s t := decide (s = t)
  hash _ _ := 0
  merge s t := U.merge s t

/-! ### Scalars -/

/-- A scalar type of `size` bytes that may contain padding: `val` is the value that the bytes represent, `put x old` the bytes after the assignment of `x`, `init` the bytes
after `new (p) T()`, `cp old src` the bytes after `new (p) T(s)` for an object with the bytes `src`. Nothing is known about the bytes of the padding after that. -/
structure Scalar (σ : Type) where
  size : Nat
  val : List Byte → σ
  put : σ → List Byte → List Byte
  init : List Byte → List Byte
  cp : List Byte → List Byte → List Byte
  put_len : ∀ x old, (put x old).length = size
  put_val : ∀ x old, val (put x old) = x
  init_len : ∀ old, (init old).length = size
  init_val : ∀ old old', val (init old) = val (init old')
  cp_len : ∀ old src, (cp old src).length = size
  cp_val : ∀ old src, src.length = size → val (cp old src) = val src

/-- No padding: the bytes are determined by the value. -/
def Scalar.Dense (Q : Scalar σ) : Prop := ∀ x y, x.length = Q.size → y.length = Q.size → Q.val x = Q.val y → x = y

/-- `construct`: the object at the beginning of the storage is value-initialised (`DdSpec.hpp` 275-277, 577-579). -/
def construct₀ (Q : Scalar σ) (m : Mem) : Mem := Q.init (m.take Q.size) ++ m.drop Q.size

/-- `getCopy`: the object at the beginning of the storage is copy-constructed (289-291, 591-593). -/
def copyScalar (Q : Scalar σ) (dst src : Mem) : Option Mem :=
  if Q.size ≤ dst.length ∧ Q.size ≤ src.length then some (Q.cp (dst.take Q.size) (src.take Q.size) ++ dst.drop Q.size) else none

/-- The functions of a class derived from `DdSpec` (`DdSpec.hpp` 240-251): `getRoot(state)`, `getChild(state, level, value)`, `mergeStates`, and `operator==` of the state -/
structure ScalarUser (N : Nat) (σ : Type) where
  root : σ → Option (Int × σ)
  child : σ → Nat → Fin N → Option (Int × σ)
  merge : σ → σ → Nat
  beq : σ → σ → Bool

/-- A call of a function of the user -/
def callScalar (Q : Scalar σ) (f : σ → Option (Int × σ)) (m : Mem) : Option (Int × Mem) :=
  if Q.size ≤ m.length then (f (Q.val (m.take Q.size))).map fun r => (r.1, Q.put r.2 (m.take Q.size) ++ m.drop Q.size) else none

/-- The specification of a class derived from `DdSpec` (`DdSpec.hpp` 256-345): copies by the copy constructor, comparison by `operator==`, hash code of the bytes -/
def scalarSpec (Q : Scalar σ) (U : ScalarUser N σ) (J : Junk N) : DdSpec N Mem where
  root := ((callScalar Q U.root (construct₀ Q J.root)).bind fun r => (copyScalar Q J.root' r.2).map fun m => (r.1, m)).getD (-2, construct₀ Q J.root)
  child s l b := ((copyScalar Q (J.copy s l b) s).bind fun m => callScalar Q (fun x => U.child x l b) m).getD (l, s)
  eqv _ p q := U.beq (Q.val (p.take Q.size)) (Q.val (q.take Q.size))
  hash _ p := (rawHash Q.size p).getD 0
  merge p q := U.merge (Q.val (p.take Q.size)) (Q.val (q.take Q.size))

/-- The specification whose states are the values -/
def valueSpec (U : ScalarUser N σ) (x₀ : σ) : DdSpec N σ where
  root := (U.root x₀).getD (-2, x₀)
  child s l b := (U.child s l b).getD (l, s)
  eqv _ s t := U.beq s t
  hash _ _ := 0
  merge s t := U.merge s t

/-! ### Scalar and array -/

/-- The functions of a class derived from `HybridDdSpec` (`DdSpec.hpp` 505-517) -/
structure HybridUser (N : Nat) (σ α : Type) where
  root : σ → List α → Option (Int × σ × List α)
  child : σ → List α → Nat → Fin N → Option (Int × σ × List α)
  merge : σ → List α → σ → List α → Nat

/-- A call of a function of the user: the scalar is at the beginning of the storage, the array behind its `S_WORDS` words (533-554). -/
def callHybrid (Q : Scalar σ) (P : Pod α) (n : Nat) (f : σ → List α → Option (Int × σ × List α)) (m : Mem) : Option (Int × Mem) :=
  if Q.size ≤ m.length then
    (f (Q.val (m.take Q.size)) (elems P (wordsOf Q.size * 8) n m)).bind fun r =>
      if r.2.2.length = n then some (r.1, putElems P (wordsOf Q.size * 8) r.2.2 (Q.put r.2.1 (m.take Q.size) ++ m.drop Q.size)) else none
  else none

/-- `HybridDdSpec::get_copy` (595-605): the scalar by `getCopy`, the words of the array one by one. If `dataWords` is smaller than `S_WORDS` the loop runs out of the storage. -/
def hybCopy (Q : Scalar σ) (st : Size) (dst src : Mem) : Option Mem :=
  if st.dataWords < wordsOf Q.size then none
  else (copyScalar Q dst src).bind fun d => copyLoop src (st.dataWords.toNat - wordsOf Q.size) (wordsOf Q.size) d

/-- `HybridDdSpec::hash_code` (630-641) -/
def hybHash (size : Nat) (st : Size) (p : Mem) : Option Nat :=
  if st.dataWords < wordsOf size then none
  else (rawHash size p).bind fun h => hashLoop 8 p (st.dataWords.toNat - wordsOf size) (wordsOf size) (h * 271828171 % 2 ^ 64)

/-- `HybridDdSpec::equal_to` (651-663) -/
def hybEq (size : Nat) (st : Size) (p q : Mem) : Option Bool :=
  if st.dataWords < wordsOf size then none
  else (rawEq size p q).bind fun e => if e = false then some false else eqLoop 8 p q (st.dataWords.toNat - wordsOf size) (wordsOf size)

/-- The specification of a class derived from `HybridDdSpec` (525-686) -/
def hybridSpec (Q : Scalar σ) (P : Pod α) (U : HybridUser N σ α) (st : Size) (J : Junk N) : DdSpec N Mem where
  root := ((callHybrid Q P st.arraySize.toNat U.root (construct₀ Q J.root)).bind fun r => (hybCopy Q st J.root' r.2).map fun m => (r.1, m)).getD (-2, construct₀ Q J.root)
  child s l b := ((hybCopy Q st (J.copy s l b) s).bind fun m => callHybrid Q P st.arraySize.toNat (fun x a => U.child x a l b) m).getD (l, s)
  eqv _ p q := (hybEq Q.size st p q).getD false
  hash _ p := (hybHash Q.size st p).getD 0
  merge p q := U.merge (Q.val (p.take Q.size)) (elems P (wordsOf Q.size * 8) st.arraySize.toNat p) (Q.val (q.take Q.size)) (elems P (wordsOf Q.size * 8) st.arraySize.toNat q)

/-- The specification whose states are the value of the scalar and the array -/
def pairsSpec [DecidableEq σ] [DecidableEq α] (U : HybridUser N σ α) (n : Nat) (x₀ : σ) (g : List α) : DdSpec N (σ × List α) where
  root := ((U.root x₀ g).bind fun r => if r.2.2.length = n then some r else none).getD (-2, x₀, g)
  child s l b := ((U.child s.1 s.2 l b).bind fun r => if r.2.2.length = n then some r else none).getD (l, s)
  eqv _ s t := decide (s = t)
  hash _ _ := 0
  merge s t := U.merge s.1 s.2 t.1 t.2

/-! ### No state -/

/-- The specification of a class derived from `StatelessDdSpec` (`DdSpec.hpp` 195-234) with `getRoot()` and `getChild(level, value)` -/
def statelessSpec (root : Int) (child : Nat → Fin N → Int) : DdSpec N Unit where
  root := (root, ())
  child _ l b := (child l b, ())
  eqv _ _ _ := true
  hash _ _ := 0
  merge _ _ := 0

end TdZdd.Raw
