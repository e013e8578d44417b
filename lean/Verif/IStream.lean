/-!
# Model of the input streams used by the readers

The operations of `std::istream` that `Graph.hpp` and `GraphillionZdd.hpp` call: `get`, `unget`, `>>` for integers, and the conversion to `bool`, as described in the C++11 standard ([istream.unformatted],
[istream.formatted.arithmetic], [facet.num.get.virtuals]) for the "C" locale. A text is a list of characters, each of them standing for one byte. There are no read errors (`badbit`).
-/

namespace TdZdd

/-- An input stream: the characters that have been read (the last one first), those that have not, and the flags `eofbit` and `failbit` -/
structure IStr where
  back : List Char
  rest : List Char
  eof : Bool
  fail : Bool
  deriving DecidableEq

namespace IStr

/-- a new stream -/
def ofText (t : List Char) : IStr := ⟨[], t, false, false⟩

/-- `isspace(c)` in the "C" locale -/
def space (c : Char) : Bool := c = ' ' || (9 ≤ c.toNat && c.toNat ≤ 13)

/-- `isdigit(c)` -/
def digit (c : Char) : Bool := 48 ≤ c.toNat && c.toNat ≤ 57

/-- `is.get()`; `none` is `EOF` -/
def get (s : IStr) : Option Char × IStr :=
  if s.eof || s.fail then (none, { s with fail := true })
  else
    match s.rest with
    | [] => (none, { s with eof := true, fail := true })
    | c :: r => (some c, { s with back := c :: s.back, rest := r })

/-- `is.unget()` -/
def unget (s : IStr) : IStr :=
  if s.fail then { s with eof := false }
  else
    match s.back with
    | [] => { s with eof := false, fail := true }
    | c :: b => { s with back := b, rest := c :: s.rest, eof := false }

/-- the characters before and after the white space that follows -/
def spaces : List Char → List Char → List Char × List Char
  | back, [] => (back, [])
  | back, c :: r => if space c then spaces (c :: back) r else (back, c :: r)

/-- `while (isspace(c = is.get())) ;` with the final `c` -/
def getSkip (s : IStr) : Option Char × IStr :=
  if s.eof || s.fail then (none, { s with fail := true })
  else get ⟨(spaces s.back s.rest).1, (spaces s.back s.rest).2, false, false⟩

/-- value of a sequence of digits -/
def digitsVal (ds : List Char) : Nat := ds.foldl (fun v c => 10 * v + (c.toNat - 48)) 0

/-- `is >> x` for an integer type with the values from `lo` to `hi`. The result is `none` if nothing is assigned to `x`. (For an unsigned type, a number with a minus sign is read modulo 2^64 in C++; here it is out of range. The code
reads unsigned numbers only if a digit comes next.) -/
def num (lo hi : Int) (s : IStr) : Option Int × IStr :=
  if s.eof || s.fail then (none, { s with fail := true })
  else
    let p := spaces s.back s.rest
    match p.2 with
    | [] => (none, ⟨p.1, [], true, true⟩)
    | c :: r =>
      let signed := c = '-' || c = '+'
      let body := if signed then r else c :: r
      let ds := body.takeWhile digit
      let rest := body.dropWhile digit
      let v : Int := if c = '-' then -(digitsVal ds : Int) else digitsVal ds
      (some (if ds = [] then 0 else if v < lo then lo else if hi < v then hi else v),
        ⟨ds.reverse ++ (if signed then c :: p.1 else p.1), rest, rest.isEmpty, ds.isEmpty || decide (v < lo) || decide (hi < v)⟩)

end IStr

end TdZdd
