import Verif.Semantics
import Verif.IStream
import Verif.Graph

/-!
# Model of `GraphillionZdd` (`spec/GraphillionZdd.hpp`)

The text is read character by character. `std::vector::at` and `resize` throw; memory exhaustion is not modelled, but the maximal size of a vector (`PTRDIFF_MAX` bytes) is. Reading a variable without a value and
overflow of `int` are undefined behaviour. Not modelled: messages and opening of the file.
-/

namespace TdZdd

/-- `GraphillionZdd::Node` (`GraphillionZdd.hpp` 40-43) -/
structure GzNode where
  index : Int
  lo : Nat
  hi : Nat
  deriving DecidableEq

/-- The members of `GraphillionZdd` (`GraphillionZdd.hpp` 45-48) -/
structure Gz where
  table : List GzNode
  root : Nat
  minIndex : Int
  maxIndex : Int
  deriving DecidableEq

/-- `GraphillionZdd()` (`GraphillionZdd.hpp` 51-53) -/
def gzNew : Gz := ⟨[], 0, 2147483647, -2147483648⟩

/-- `table.resize(n)` -/
def gzResize (t : List GzNode) (n : Nat) : List GzNode := if n ≤ t.length then t.take n else t ++ List.replicate (n - t.length) ⟨0, 0, 0⟩

/-- the number of elements asked for, `n` (`GraphillionZdd.hpp` 77-80); `id + 1` is a `uint64_t` -/
def gzNeed (size id : Nat) (x : GzNode) : Nat :=
  let n := if size ≤ id then (id + 1) % 2 ^ 64 else size
  let n := if n ≤ x.lo then (x.lo + 1) % 2 ^ 64 else n
  if n ≤ x.hi then (x.hi + 1) % 2 ^ 64 else n

/-- `addNode(id, node)` (`GraphillionZdd.hpp` 73-84); an element has 24 bytes -/
def gzAdd (g : Gz) (id : Nat) (x : GzNode) : Res Gz :=
  let root := if x.index < g.minIndex then id else g.root
  let mn := if x.index < g.minIndex then x.index else g.minIndex
  let mx := if g.maxIndex < x.index then x.index else g.maxIndex
  let n := gzNeed g.table.length id x
  if g.table.length < n ∧ 2 ^ 63 ≤ 24 * (n * 2 % 2 ^ 64) then .thrown
  else
    let t := if g.table.length < n then gzResize g.table (n * 2 % 2 ^ 64) else g.table
    if id < t.length then .ok ⟨t.set id x, root, mn, mx⟩ else .thrown

/-- `readID(is)` (`GraphillionZdd.hpp` 104-118) -/
def gzReadId (s : IStr) : Option Nat × IStr :=
  match s.getSkip with
  | (some c, s) =>
    if IStr.digit c then
      match s.unget.num 0 (2 ^ 64 - 1) with
      | (some v, s) => (some ((v.toNat + 2) % 2 ^ 64), s)
      | (none, s) => (none, s)
    else (some (if c = 'T' ∨ c = 't' then 1 else 0), s)
  | (none, s) => (some 0, s)

/-- `skipSpace(is)` (`GraphillionZdd.hpp` 120-126) -/
def gzSkipSpace (s : IStr) : Option Char × IStr := (s.getSkip.1, s.getSkip.2.unget)

/-- the characters before and after the end of the line -/
def gzLine : List Char → List Char → List Char × Option (List Char)
  | back, [] => (back, none)
  | back, c :: r => if c = '\n' then (c :: back, some r) else gzLine (c :: back) r

/-- `skipLine(is)` (`GraphillionZdd.hpp` 128-131) -/
def gzSkipLine (s : IStr) : IStr :=
  if s.fail then s
  else if s.eof then { s with fail := true }
  else
    match gzLine s.back s.rest with
    | (b, some r) => ⟨b, r, false, false⟩
    | (b, none) => ⟨b, [], true, true⟩

/-- Body of the loop of `read` (`GraphillionZdd.hpp` 89-100) -/
def gzStep (g : Gz) (s : IStr) : Res (Gz × IStr) :=
  match gzSkipSpace s with
  | (c, s) =>
    if (c.map IStr.digit).getD false then
      match gzReadId s with
      | (id, s) =>
        match s.num (-2147483648) 2147483647 with
        | (index, s) =>
          match gzReadId s with
          | (lo, s) =>
            match gzReadId s with
            | (hi, s) =>
              match id, index, lo, hi with
              | some id, some index, some lo, some hi => (gzAdd g id ⟨index, lo, hi⟩).bind fun g => .ok (g, gzSkipLine s)
              | _, _, _, _ => .ub
    else .ok (g, gzSkipLine s)

/-- `read(is)` (`GraphillionZdd.hpp` 87-102); `fuel` bounds the number of lines -/
def gzRead : Nat → Gz → IStr → Res Gz
  | 0, _, _ => .ub
  | fuel + 1, g, s => if s.fail then .ok g else (gzStep g s).bind fun r => gzRead fuel r.1 r.2

/-- `read` for a new object and a text -/
def gzParse (text : List Char) : Res Gz := gzRead (text.length + 2) gzNew (IStr.ofText text)

/-- The level of the node with number `f`: `maxIndex - table.at(f).index + 1` (`GraphillionZdd.hpp` 138, 145). An exception and overflow have the level code -2. -/
def gzLevel (g : Gz) (f : Nat) : Int :=
  if f = 0 then 0 else if f = 1 then -1
  else
    match g.table[f]? with
    | some x =>
      let d := g.maxIndex - x.index
      if -2147483648 ≤ d ∧ d + 1 ≤ 2147483647 then d + 1 else -2
    | none => -2

/-- `getRoot` and `getChild` (`GraphillionZdd.hpp` 134-146), with `==` and the hash function of `DdSpec` (`DdSpec.hpp` 130-139, 312-327) -/
def graphillion (g : Gz) : DdSpec 2 Nat where
  root := (gzLevel g g.root, g.root)
  child f level take :=
    match g.table[f]? with
    | some x => (gzLevel g (if take = 0 then x.lo else x.hi), if take = 0 then x.lo else x.hi)
    | none => (level, f)
  eqv _ s t := decide (s = t)
  hash _ s := s * 314159257 % 2 ^ 64
  merge _ _ := 0

end TdZdd
