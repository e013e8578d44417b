import Verif.BinaryOperation

/-!
# The texts of states

The functions `print_state` with which `dumpDot` labels the nodes (`DdBuilder.hpp` 1415). A text is a list of characters; the signs of the operations are single characters here and
sequences of three bytes in the source. The level that is passed along is used by none of the functions and left out. Numbers are integers of any size; the `operator<<` of the standard library
is taken as `toString`. Types of states whose `operator<<` prints no number (such as `char`) are not modelled; for the applications see `NumlinLabel.lean`.
-/

namespace TdZdd.Lab

variable {S S1 S2 A : Type}

/-- `StatelessDdSpec::print_state` (`DdSpec.hpp` 231-233) -/
def star (_ : Unit) : List Char := ['*']

/-- `DdSpec::printState` (`DdSpec.hpp` 337-339) with a number as the state; `operator<<` of `FrontierBasedSearchCount` (`FrontierBasedSearch.hpp` 58-61) -/
def number (x : Int) : List Char := (toString x).toList

/-- the loop over the elements of an array (`DdSpec.hpp` 488-491, 669-672); `i` is the number of elements before -/
def elems (t : A → List Char) : Nat → List A → List Char
  | _, [] => []
  | i, a :: l => (if i > 0 then [','] else []) ++ t a ++ elems t (i + 1) l

/-- `PodArrayDdSpec::printState` (`DdSpec.hpp` 486-493); the list holds the `arraySize` elements -/
def array (t : A → List Char) (l : List A) : List Char := ['['] ++ elems t 0 l ++ [']']

/-- `HybridDdSpec::printState` (`DdSpec.hpp` 665-674) -/
def hybrid (u : S → List Char) (t : A → List Char) (p : S × List A) : List Char := ['['] ++ u p.1 ++ [':'] ++ elems t 0 p.2 ++ [']']

/-- `operator<<` of `FrontierBasedSearchMate` (`FrontierBasedSearch.hpp` 260-263): `hoc` and `nxt` -/
def mate (p : Int × Int) : List Char := ['<'] ++ number p.1 ++ [','] ++ number p.2 ++ ['>']

/-- `print_state` of `BddAnd_`, `BddOr_` and `ZddUnion_` with two operands (`BinaryOperation.hpp` 197-204, 270-277, 495-502); `c` is the sign of the operation -/
def binary (c : Char) (t1 : S1 → List Char) (t2 : S2 → List Char) (p : BinState S1 S2) : List Char :=
  ['<'] ++ number p.1.1 ++ [','] ++ t1 p.1.2 ++ ['>', c, '<'] ++ number p.2.1 ++ [','] ++ t2 p.2.2 ++ ['>']

/-- `print_state` of `BddAnd_`, `BddOr_` and `ZddUnion_` with three or more operands (`BinaryOperation.hpp` 149-155, 219-225, 438-444): the second operand is the operation on the rest -/
def variadic (c : Char) (t1 : S1 → List Char) (t2 : S2 → List Char) (p : BinState S1 S2) : List Char :=
  ['<'] ++ number p.1.1 ++ [','] ++ t1 p.1.2 ++ ['>', c] ++ t2 p.2.2

/-- `ZddIntersection_::print_state` (`BinaryOperation.hpp` 416-423). The form for three or more operands (292-298) calls a function `level1`, which the class does not have. -/
def inter (t1 : S1 → List Char) (t2 : S2 → List Char) (p : S1 × S2) : List Char := ['<'] ++ t1 p.1 ++ ['>', '∩', '<'] ++ t2 p.2 ++ ['>']

/-- `print_state` of the unreductions (`Unreduction.hpp` 123-128) -/
def unred (t : S → List Char) (p : Int × S) : List Char := ['<'] ++ number p.1 ++ [','] ++ t p.2 ++ ['>']

end TdZdd.Lab
