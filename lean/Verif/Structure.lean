import Verif.SemanticsLemmas
import Verif.BinaryOperation

/-!
# Model of node ids, node tables and `DdStructure` as a specification

`dd/Node.hpp`, `dd/DataTable.hpp`, `dd/NodeTable.hpp`, `DdStructure.hpp`.
-/

namespace TdZdd

/-- `NodeId` (`dd/Node.hpp` 44-133) as a row/column pair. Simplifications: fields are unbounded
(the bit packing is modelled separately in `NodeIdBits.lean`), and the attribute bit is not part of it: `row()`,
`col()`, comparison and hashing ignore it. The bit and its readers are modelled in `Attr.lean`. -/
structure NodeId where
  row : Nat
  col : Nat
deriving DecidableEq, Repr

/-- The 0-terminal `NodeId(0)`. -/
def NodeId.zero : NodeId := ⟨0, 0⟩
/-- The 1-terminal `NodeId(1)`. -/
def NodeId.one : NodeId := ⟨0, 1⟩

/-- `Node<ARITY>` (`dd/Node.hpp` 147-197): the branches. -/
abbrev Node (N : Nat) := Fin N → NodeId

/-- Contents of a finished `NodeTableEntity` (`dd/NodeTable.hpp` 38-233, `dd/DataTable.hpp` 34-193):
`numRows` rows of nodes; row 0 holds the two terminals. Simplification: rows are a function, so
rows at or above `numRows` exist but are never read (`node?` checks the bound). -/
structure Table (N : Nat) where
  numRows : Nat
  row : Nat → List (Node N)

/-- `NodeTableEntity::node` (`NodeTable.hpp` 167-178) with bounds check: `none` is out of bounds. -/
def Table.node? {N : Nat} (T : Table N) (f : NodeId) : Option (Node N) :=
  if f.row < T.numRows then (T.row f.row)[f.col]? else none

/-- `NodeTableEntity::size` (`NodeTable.hpp` 99-101): number of non-terminal nodes. -/
def Table.size {N : Nat} (T : Table N) : Nat :=
  ((List.range T.numRows).map fun i => (T.row i).length).sum - (T.row 0).length

/-- A `DdStructure` (`DdStructure.hpp` 55-58): node table and root. -/
structure Dd (N : Nat) where
  table : Table N
  root : NodeId

/-- `NodeTableEntity::initTerminals` (`NodeTable.hpp` 68-74). -/
def terminalRow (N : Nat) : List (Node N) := [fun _ => ⟨0, 0⟩, fun _ => ⟨0, 1⟩]

variable {N : Nat}

/-- Level code of a node id as computed by `DdStructure::getRoot` (677-680): only the 1-terminal
is special. -/
def rootCode (f : NodeId) : Int := if f = .one then -1 else f.row

/-- Level code of a child as computed by `DdStructure::getChild` (689). -/
def childCode (f : NodeId) : Int := if f.row > 0 then f.row else -(f.col : Int)

/-- A `DdStructure` used as a specification (`DdStructure.hpp` 674-697; `DdSpec.hpp` `DdSpec<S,T,AR>`:
states are compared with `==`, `hash_code` is `NodeId::hash`, `merge_states` returns 0).
A failed `assert` or an out-of-bounds access gives an illegal level code. -/
def Dd.spec (D : Dd N) : DdSpec N NodeId where
  root := (rootCode D.root, D.root)
  child f level b :=
    if ¬ (0 < level ∧ level = f.row) then (ubCode level, f)
    else match D.table.node? f with
      | none => (ubCode level, f)
      | some nd => (childCode (nd b), nd b)
  eqv _ f g := decide (f = g)
  hash _ f := ((f.row * 2 ^ 44 + f.col) * 314159257) % 2 ^ 64
  merge _ _ := 0

/-- A node id is a terminal or points to an existing node. -/
def Table.Valid (T : Table N) (f : NodeId) : Prop :=
  f = .zero ∨ f = .one ∨ (0 < f.row ∧ ∃ nd, T.node? f = some nd)

/-- Well-formed tables: every branch of every non-terminal node is a valid id in a lower row. -/
def Table.Wf (T : Table N) : Prop :=
  ∀ r c nd, 0 < r → T.node? ⟨r, c⟩ = some nd → ∀ b, T.Valid (nd b) ∧ (nd b).row < r

/-- Well-formed structures. -/
structure Dd.Wf (D : Dd N) : Prop where
  table : D.table.Wf
  root : D.table.Valid D.root

/-- Every non-terminal node can be reached from the root. -/
inductive Dd.Live (D : Dd N) : NodeId → Prop
  | root : Live D D.root
  | child {f : NodeId} {nd : Node N} (b : Fin N) : Live D f → 0 < f.row →
      D.table.node? f = some nd → Live D (nd b)

end TdZdd
