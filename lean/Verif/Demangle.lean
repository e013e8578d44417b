import Verif.ListLemmas

/-!
# Model of `util/demangle.hpp`

Names of types. The result of `abi::__cxa_demangle` is a parameter. Characters are those of the C locale (codes below 128; `isalnum` of others is
not defined for a signed `char`).
-/

namespace TdZdd

namespace Demangle

/-- `isalnum` in the C locale -/
def isAlnum (c : Char) : Bool := ('0' ≤ c && c ≤ '9') || ('A' ≤ c && c ≤ 'Z') || ('a' ≤ c && c ≤ 'z')

/-- `isspace` in the C locale -/
def isBlank (c : Char) : Bool := c = ' ' || c = '\t' || c = '\n' || c = '\x0b' || c = '\x0c' || c = '\r'

/-- the loop of `demangle` (48-55); `skip`: the inner loop (51-53) is running -/
def strip : Bool → List Char → List Char
  | _, [] => []
  | skip, c :: s => if skip = true ∧ isBlank c = true then strip true s else c :: strip (!isAlnum c) s

/-- `demangle` (37-61): `d` is the result of `__cxa_demangle` (`none`: the null pointer) -/
def demangle (d : Option (List Char)) (name : List Char) : List Char :=
  match d with
  | none => name
  | some p => strip false p

/-- the loop `while (k < s.size() && s[k++] != ')')` (78): what is left behind the parenthesis -/
def afterParen : List Char → List Char
  | [] => []
  | c :: s => if c = ')' then s else afterParen s

theorem afterParen_length : ∀ s : List Char, (afterParen s).length ≤ s.length
  | [] => Nat.le_refl _
  | c :: s => by
    unfold afterParen
    split
    · exact Nat.le_succ _
    · exact Nat.le_succ_of_le (afterParen_length s)

/-- the loop of `demangleTypename` (68-84). The string is `pre ++ cur ++ rest`, `i` is the end of `pre` and `j` the end of `cur`.
It ends when at most one character is left; this one is not looked at. -/
def names (pre cur : List Char) : List Char → List Char
  | [] => pre ++ cur
  | [c] => pre ++ cur ++ [c]
  | c :: d :: s =>
    if isAlnum c = true then names pre (cur ++ [c]) (d :: s)
    else if c = ':' ∧ d = ':' then names pre [] s
    else if c = '(' then names pre cur (afterParen (d :: s))
    else names (pre ++ cur ++ [c]) [] (d :: s)
termination_by s => s.length
decreasing_by
  · simp
  · simp; omega
  · have := afterParen_length (d :: s)
    simp at this ⊢
    omega
  · simp

/-- `demangleTypename` (63-87) -/
def typeName (d : Option (List Char)) (name : List Char) : List Char := names [] [] (demangle d name)

end Demangle

end TdZdd
