import Verif.Reducer

/-!
# Model of `DdStructure::dumpSapporo` (`DdStructure.hpp` 704-749)

The output is a list of lines, a line is a list of words; `render` is the text. `none` is an access outside a vector, or a failed assertion.
Simplification: `nodeId[i].resize(m)` gives `m` entries at once; here the row grows when an entry is written, so that a read of an entry that was
not written is an error too.
-/

namespace TdZdd

/-- a word of the output -/
inductive Tok where
  | num (n : Nat)
  | str (s : String)
  deriving DecidableEq, Repr

def Tok.render : Tok → String
  | .num n => toString n
  | .str s => s

/-- the text: words separated by single blanks, lines ended by newlines -/
def render (ls : List (List Tok)) : String :=
  String.join (ls.map fun l => " ".intercalate (l.map Tok.render) ++ "\n")

/-- local variables: `k`, the table `nodeId`, what has been written to the stream -/
structure SapSt where
  k : Nat
  ids : Nat → List Nat
  out : List (List Tok)

/-- one branch (728-737); the table `nodeId` has `nr` rows -/
def sapRef (nr : Nat) (ids : Nat → List Nat) (f : NodeId) : Option Tok :=
  if f = .zero then some (.str "F")
  else if f = .one then some (.str "T")
  else if f.row < nr then ((ids f.row)[f.col]?).map .num
  else none

/-- one node (721-740) -/
def sapNode (nr i : Nat) (st : SapSt) (nd : Node 2) : Option SapSt :=
  let k := st.k + 2
  let ids := upd st.ids i (st.ids i ++ [k])
  match sapRef nr ids (nd 0), sapRef nr ids (nd 1) with
  | some x, some y => some ⟨k, ids, st.out ++ [[.num k, .num i, x, y]]⟩
  | _, _ => none

/-- one level (716-746); `lower` is the index of lower levels -/
def sapLevel (T : Table 2) (lower : Nat → List Nat) (st : SapSt) (i : Nat) : Option SapSt :=
  ((T.row i).foldlM (sapNode T.numRows i) st).map fun st => { st with ids := (lower i).foldl (fun w r => upd w r []) st.ids }

/-- `dumpSapporo(os)` (704-749) -/
def dumpSapporo (D : Dd 2) : Option (List (List Tok)) :=
  let n := D.table.numRows - 1
  let l := D.table.size
  (makeIndex n D.table.row).bind fun idx =>
  ((levelsUp n).foldlM (sapLevel D.table idx.2) ⟨0, fun _ => [], [[.str "_i", .num n], [.str "_o", .num 1], [.str "_n", .num l]]⟩).bind fun st =>
  if D.root.row < D.table.numRows then
    ((st.ids D.root.row)[D.root.col]?).bind fun r =>
    if st.k = l * 2 then some (st.out ++ [[.num r]]) else none
  else none

end TdZdd
