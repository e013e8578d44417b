import Verif.CnfApp
import Verif.IStream

/-!
# Model of `CnfToZtdd::readDimacs` (`apps/cnf2ztdd2bdd/CnfToZtdd.cpp` 53-107)

`int` has 32 bits where numbers are read; there is enough memory. The variable `x` of the second loop is not initialised, and at the end of the text nothing is assigned to it. What its storage holds then is a parameter of the model: `gar last` for the value
`last` that had been stored in the same variable in the round before (`none` in the first round); `gar last = none` means that reading it is undefined.
-/

namespace TdZdd

namespace Cnf

open IStr

/-- the messages of the exceptions -/
inductive Err where
  | header
  | range
  | many
  | few
  deriving DecidableEq

/-- the outcome of a function: a result, an exception, or undefined behaviour -/
inductive Out (α : Type) where
  | ok (a : α)
  | thrown (e : Err)
  | ub
  deriving DecidableEq

/-- sequencing -/
def Out.bind {α β : Type} (x : Out α) (f : α → Out β) : Out β :=
  match x with
  | .ok a => f a
  | .thrown e => .thrown e
  | .ub => .ub

/-- `std::getline(is, line)` -/
def getline (line : List Char) (s : IStr) : List Char × IStr :=
  if s.eof || s.fail then (line, { s with fail := true })
  else
    let l := s.rest.takeWhile (· ≠ '\n')
    match s.rest.dropWhile (· ≠ '\n') with
    | [] => (l, ⟨l.reverse ++ s.back, [], true, l.isEmpty⟩)
    | c :: r => (l, ⟨c :: (l.reverse ++ s.back), r, false, false⟩)

/-- `line.c_str()` up to the first zero -/
def cstr (l : List Char) : List Char := l.takeWhile (· ≠ '\x00')

/-- the characters `w` of a format of `sscanf` -/
def scanWord (w t : List Char) : Option (List Char) := if w.isPrefixOf t then some (t.drop w.length) else none

/-- `%d` in a format of `sscanf`: the number, of any size, and the rest -/
def scanNum (t : List Char) : Option (Int × List Char) :=
  let t := t.dropWhile space
  let neg := t.head? = some '-'
  let body := if neg ∨ t.head? = some '+' then t.tail else t
  let ds := body.takeWhile digit
  if ds = [] then none else some (if neg then -(digitsVal ds : Int) else digitsVal ds, body.dropWhile digit)

/-- `sscanf(line.c_str(), "p cnf %d %d", &nv, &nc)` (63): the numbers that are read. A blank in the format stands for any white space, also for none. -/
def scanHeader (t : List Char) : List Int :=
  ((scanWord ['p'] t).bind fun t => (scanWord ['c', 'n', 'f'] (t.dropWhile space)).bind scanNum).elim [] fun p => (scanNum p.2).elim [p.1] fun q => [p.1, q.1]

/-- The value can be stored in an `int`; otherwise `sscanf` is undefined. -/
def isInt (v : Int) : Prop := -2147483648 ≤ v ∧ v ≤ 2147483647

instance (v : Int) : Decidable (isInt v) := inferInstanceAs (Decidable (_ ∧ _))

/-- the first loop (61-64); the first argument bounds the number of rounds -/
def readHeader : Nat → List Char → Int → Int → IStr → Out (Int × Int × IStr)
  | 0, _, _, _, _ => .ub
  | fuel + 1, line, nv, nc, s =>
    if s.fail then .ok (nv, nc, s)
    else
      let p := getline line s
      match scanHeader (cstr p.1) with
      | [] => readHeader fuel p.1 nv nc p.2
      | [a] => if isInt a then readHeader fuel p.1 a nc p.2 else .ub
      | a :: b :: _ => if isInt a ∧ isInt b then .ok (a, b, p.2) else .ub

/-- the second loop (71-95); the first argument bounds the number of rounds. `std::abs(x)` is undefined for the smallest `int`. -/
def readClauses (gar : Option Int → Option Int) (nv nc : Int) : Nat → Option Int → Clause → List Clause → Nat → IStr → Out (List Clause × Nat)
  | 0, _, _, _, _, _ => .ub
  | fuel + 1, last, c, cnf, mm, s =>
    if s.fail then .ok (cnf, mm)
    else
      let p := s.num (-2147483648) 2147483647
      (p.1.elim (gar last) some).elim .ub fun x =>
        if x = 0 then
          if c = [] then readClauses gar nv nc fuel (some x) [] cnf mm p.2
          else readClauses gar nv nc fuel (some x) [] (cnf ++ (tidy c).toList) (mm + 1) p.2
        else if x = -2147483648 then .ub
        else if (x.natAbs : Int) > nv then .thrown .range
        else if (mm : Int) ≥ nc then .thrown .many
        else readClauses gar nv nc fuel (some x) (c ++ [x]) cnf mm p.2

/-- `readDimacs(is)` (53-107) for a new object: `nv` and `cnf` -/
def readDimacs (gar : Option Int → Option Int) (text : List Char) : Out (Nat × List Clause) :=
  (readHeader (text.length + 3) [] 0 0 (ofText text)).bind fun h =>
  if h.1 < 1 ∨ h.2.1 < 1 then .thrown .header
  else (readClauses gar h.1 h.2.1 (h.2.2.rest.length + 3) none [] [] 0 h.2.2).bind fun r =>
    if (r.2 : Int) < h.2.1 then .thrown .few else .ok (h.1.toNat, r.1)

/-- `load(is)` (`CnfToZtdd.hpp` 91-94) -/
def load (gar : Option Int → Option Int) (text : List Char) : Out (Nat × List Clause) := (readDimacs gar text).bind fun r => .ok (r.1, sortClauses r.2)

/-- `run` of `cnf2ztdd2bdd` (`cnf2ztdd2bdd.cpp` 75-121) for the text of the input file -/
def cnf2ztdd2bdd (gar : Option Int → Option Int) (hash : Cudd → Nat) (text : List Char) (fuel steps : Nat) : Out (String × Cudd × List Char) :=
  (load gar text).bind fun r => (runSorted hash r.1 r.2 fuel steps).elim .ub .ok

end Cnf

end TdZdd
