/-!
# What a file with a ZDD means

The text format of Graphillion: a line for each node with its identifier, the index of its variable, and its two children, which are identifiers or the letters `B` (bottom) and `T` (top).
Nothing here refers to the code.
-/

namespace TdZdd

namespace Gz

/-- a child of a node -/
inductive Ref where
  | bot
  | top
  | node (id : Nat)
  deriving DecidableEq

/-- a line of the file -/
structure Line where
  id : Nat
  index : Int
  lo : Ref
  hi : Ref
  deriving DecidableEq

/-- The family of sets of variables represented by a node of the diagram `ns`; the sets are given as lists. -/
inductive Mem (ns : List Line) : Ref → List Int → Prop
  | top : Mem ns .top []
  | lo {x : Line} {s : List Int} : x ∈ ns → Mem ns x.lo s → Mem ns (.node x.id) s
  | hi {x : Line} {s : List Int} : x ∈ ns → Mem ns x.hi s → Mem ns (.node x.id) (x.index :: s)

/-- white space -/
def Blank (s : List Char) : Prop := ∀ c ∈ s, c ∈ [' ', '\t', '\n', '\x0b', '\x0c', '\r']

/-- a decimal numeral -/
inductive Numeral : List Char → Nat → Prop
  | single {c : Char} : '0' ≤ c → c ≤ '9' → Numeral [c] (c.toNat - '0'.toNat)
  | snoc {ds : List Char} {v : Nat} {c : Char} : Numeral ds v → '0' ≤ c → c ≤ '9' → Numeral (ds ++ [c]) (10 * v + (c.toNat - '0'.toNat))

/-- an integer -/
inductive Integer : List Char → Int → Prop
  | pos {ds : List Char} {v : Nat} : Numeral ds v → Integer ds v
  | neg {ds : List Char} {v : Nat} : Numeral ds v → Integer ('-' :: ds) (-v)

/-- a child of a node -/
inductive RefText : List Char → Ref → Prop
  | bot : RefText ['B'] .bot
  | top : RefText ['T'] .top
  | node {ds : List Char} {v : Nat} : Numeral ds v → RefText ds (.node v)

/-- Texts of diagrams: every line ends with a new-line character; blank lines and lines that do not begin with a digit are ignored, and so is the end of a line after white space. -/
inductive Dump : List Char → List Line → Prop
  | done {s : List Char} : Blank s → Dump s []
  | other {s r t : List Char} {c : Char} {ns : List Line} : Blank s → ¬ Blank [c] → ¬ ('0' ≤ c ∧ c ≤ '9') → '\n' ∉ r → Dump t ns → Dump (s ++ c :: (r ++ '\n' :: t)) ns
  | line {s i s1 x s2 l s3 h r t : List Char} {ns : List Line} {y : Line} :
      Blank s → Numeral i y.id → Blank s1 → s1 ≠ [] → Integer x y.index → Blank s2 → s2 ≠ [] → RefText l y.lo → Blank s3 → s3 ≠ [] → RefText h y.hi →
      '\n' ∉ r → (∀ c r', r = c :: r' → Blank [c]) → Dump t ns →
      Dump (s ++ (i ++ (s1 ++ (x ++ (s2 ++ (l ++ (s3 ++ (h ++ (r ++ '\n' :: t))))))))) (y :: ns)

/-- A ZDD: no two nodes with the same identifier, and the children of a node are terminals or nodes of the diagram with a larger index. -/
structure Diagram (ns : List Line) : Prop where
  ids : ns.Pairwise fun x y => x.id ≠ y.id
  child : ∀ x ∈ ns, ∀ i, x.lo = .node i ∨ x.hi = .node i → ∃ y ∈ ns, y.id = i ∧ x.index < y.index

end Gz

end TdZdd
