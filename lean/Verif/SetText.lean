import Verif.MyBitSet
import Verif.MySmallSet

/-!
# Model of `hash()` and `operator<<` of `MyBitSet` and `MySmallSet` (`util/MySet.hpp` 238-245, 267-276, 515-521, 542-551)

The sets are those of `MyBitSet.lean` and `MySmallSet.lean`; access outside of the array or to an entry that has not been written is undefined behaviour.
Hash codes are `BitVec 64`. Elements of `MySmallSet` are printed as numbers (a character type would be printed as characters).
-/

namespace TdZdd

/-- `MyBitSet::hash()` (238-245): `n` words from `i` on -/
def bHashLoop (s : BSet) : Nat → Nat → BitVec 64 → Option (BitVec 64)
  | 0, _, h => some h
  | n + 1, i, h => (bGet s i).bind fun w => bHashLoop s n (i + 1) ((h + w) * 314159257#64)

def bHash (s : BSet) : Option (BitVec 64) := bHashLoop s s.numWords 0 0

/-- the loop of `operator<<` of `MyBitSet` (270-275); the first argument bounds the number of elements, the last one is `comma` -/
def bPrintLoop (s : BSet) : Nat → BIt → Bool → Option (List Char)
  | k, t, comma =>
    if t.wordPos = s.numWords ∧ t.bit = 0 then some ['}']
    else match k with
      | 0 => none
      | k + 1 => (bNext s s.numWords t).bind fun t' =>
          (bPrintLoop s k t' true).map fun r => (if comma then [','] else []) ++ (toString (t.wordPos * 64 + t.bit - 1)).toList ++ r

/-- `operator<<` of `MyBitSet` (267-276) -/
def bPrint (s : BSet) : Option (List Char) := (bBegin s).bind fun t => (bPrintLoop s (64 * s.numWords) t false).map fun r => '{' :: r

/-- `MyHashDefaultForInt` (`MyHashTable.hpp` 98-101): the element is converted to 64 bits without sign -/
def intHash (e : Int) : BitVec 64 := BitVec.ofInt 64 e * 314159257#64

/-- `MySmallSet::hash()` (515-521): `n` elements from `k` on -/
def ssHashLoop (s : SSet) : Nat → Nat → BitVec 64 → Option (BitVec 64)
  | 0, _, h => some h
  | n + 1, k, h => (aGet s.arr k).bind fun v => ssHashLoop s n (k + 1) (h * 271828171#64 + intHash v)

def ssHash (s : SSet) : Option (BitVec 64) := ssHashLoop s s.size 0 0

/-- the loop of `operator<<` of `MySmallSet` (545-549): `n` elements from `k` on -/
def ssPrintLoop (s : SSet) : Nat → Nat → Bool → Option (List Char)
  | 0, _, _ => some ['}']
  | n + 1, k, comma => (aGet s.arr k).bind fun v =>
      (ssPrintLoop s n (k + 1) true).map fun r => (if comma then [','] else []) ++ (toString v).toList ++ r

/-- `operator<<` of `MySmallSet` (542-551) -/
def ssPrint (s : SSet) : Option (List Char) := (ssPrintLoop s s.size 0 false).map fun r => '{' :: r

end TdZdd
