import Verif.Structure

/-! The 64-bit packing of `NodeId` and the comparison of nodes (`dd/Node.hpp`). -/

namespace TdZdd

/-- `NodeId::code_` (`Node.hpp` 46-47). -/
abbrev NodeCode := BitVec 64

namespace NodeCode

/-- `NODE_ROW_BITS` (`Node.hpp` 33). -/
def rowBits : Nat := 20
/-- `NODE_ATTR_BITS` (`Node.hpp` 34). -/
def attrBits : Nat := 1
/-- `NODE_COL_BITS` (`Node.hpp` 35). -/
def colBits : Nat := 64 - rowBits - attrBits
/-- `NODE_ROW_OFFSET` (`Node.hpp` 37). -/
def rowOffset : Nat := colBits + attrBits
/-- `NODE_ATTR_OFFSET` (`Node.hpp` 38). -/
def attrOffset : Nat := colBits
/-- `NODE_ROW_MAX` (`Node.hpp` 40). -/
def rowMax : NodeCode := (1#64 <<< rowBits) - 1#64
/-- `NODE_COL_MAX` (`Node.hpp` 41). -/
def colMax : NodeCode := (1#64 <<< colBits) - 1#64
/-- `NODE_ATTR_MASK` (`Node.hpp` 44). -/
def attrMask : NodeCode := 1#64 <<< attrOffset

/-- `NodeId(row, col)` without its assertions, as compiled with `NDEBUG` (`Node.hpp` 57-61). -/
def pack (row col : BitVec 64) : NodeCode := (row <<< rowOffset) ||| col

/-- `setAttr` (`Node.hpp` 78-85). -/
def setAttr (x : NodeCode) (val : Bool) : NodeCode := if val then x ||| attrMask else x &&& ~~~attrMask

/-- `NodeId(row, col)` (`Node.hpp` 57-61); a failing assertion is `none`. -/
def make? (row col : BitVec 64) : Option NodeCode :=
  if row ≤ rowMax ∧ col ≤ colMax then some (pack row col) else none

/-- `NodeId(row, col, attr)` (`Node.hpp` 63-68); a failing assertion is `none`. -/
def makeAttr? (row col : BitVec 64) (attr : Bool) : Option NodeCode :=
  if row ≤ rowMax ∧ col ≤ colMax then some (setAttr (pack row col) attr) else none

/-- `row` (`Node.hpp` 70-72). The result type is `int`; the value is below `2^20`. -/
def row (x : NodeCode) : BitVec 64 := x >>> rowOffset

/-- `col` (`Node.hpp` 74-76). -/
def col (x : NodeCode) : BitVec 64 := x &&& colMax

/-- `getAttr` (`Node.hpp` 87-89). -/
def getAttr (x : NodeCode) : Bool := x &&& attrMask != 0#64

/-- `withoutAttr` (`Node.hpp` 91-93). -/
def withoutAttr (x : NodeCode) : NodeCode := x &&& ~~~attrMask

/-- `hasEmpty` (`Node.hpp` 95-97). -/
def hasEmpty (x : NodeCode) : Bool := x == 1#64 || x.getAttr

/-- `code` (`Node.hpp` 99-101). -/
def code (x : NodeCode) : BitVec 64 := x &&& ~~~attrMask

/-- `hash` (`Node.hpp` 103-105), arithmetic modulo `2^64`. -/
def hash (x : NodeCode) : BitVec 64 := x.code * 314159257#64

/-- `operator==` (`Node.hpp` 107-109). -/
def eq (x y : NodeCode) : Bool := x.code == y.code
/-- `operator!=` (`Node.hpp` 111-113). -/
def ne (x y : NodeCode) : Bool := !(x.eq y)
/-- `operator<` (`Node.hpp` 115-117). -/
def lt (x y : NodeCode) : Bool := decide (x.code < y.code)
/-- `operator>=` (`Node.hpp` 119-121). -/
def ge (x y : NodeCode) : Bool := !(x.lt y)
/-- `operator>` (`Node.hpp` 123-125). -/
def gt (x y : NodeCode) : Bool := y.lt x
/-- `operator<=` (`Node.hpp` 127-129). -/
def le (x y : NodeCode) : Bool := !(y.lt x)

/-- `Node::hash` (`Node.hpp` 171-177) for the branches `fs`; `none` for arity 0. -/
def nodeHash : List NodeCode → Option (BitVec 64)
  | [] => none
  | f :: fs => some (fs.foldl (fun h g => h * 314159257#64 + g.code * 271828171#64) f.code)

/-- `Node::operator==` (`Node.hpp` 179-184) for two nodes of the same arity. -/
def nodeEq : List NodeCode → List NodeCode → Bool
  | f :: fs, g :: gs => if f.ne g then false else nodeEq fs gs
  | _, _ => true

end NodeCode

end TdZdd
