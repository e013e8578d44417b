import Verif.Reducer

/-!
# Model of `DdStructure::operator==` (`DdStructure.hpp` 308-350) and of the dispatch in `reduce`

The hash map is `MyHashMap<InitializedNode<ARITY>,size_t>` (`MyHashTable.hpp` 471-615). Its default key has branches
`NodeId(0, NODE_COL_MAX)` (`Node.hpp` 199-212), which no well-formed node has, so the `assert` of `add` and
`get` is not modelled. `none` is an out-of-bounds access.
-/

namespace TdZdd

variable {N : Nat}

/-- Hash and equality of map entries look at the key (`MyHashMapHashWrapper`, 526-544). -/
def keyHash (e : Node (N + 1) × Nat) : Nat := nodeHash (e.2, e.1)
def keyEq (e e' : Node (N + 1) × Nat) : Bool := nodeEq (e.2, e.1) (e'.2, e'.1)

/-- `uniq[key] = j` (`MyHashTable.hpp` 602-604). -/
def mapSet (u : HT (Node (N + 1) × Nat)) (key : Node (N + 1)) (j : Nat) : Option (HT (Node (N + 1) × Nat)) :=
  (HT.add keyHash keyEq u (key, 0)).bind fun p =>
    (p.1.mem p.2).map fun e => { p.1 with mem := upd p.1.mem p.2 (some (e.1, j)) }

/-- `uniq.getValue(key)` (`MyHashTable.hpp` 611-614). -/
def mapGet (u : HT (Node (N + 1) × Nat)) (key : Node (N + 1)) : Option (Option Nat) :=
  (HT.get keyHash keyEq u (key, 0)).map fun p => p.map fun e => e.2.2

/-- Loop state of `operator==`: `uniq` and `equiv`. -/
structure EqSt (N : Nat) where
  uniq : HT (Node (N + 1) × Nat)
  equiv : Nat → List NodeId

/-- The equivalent of node `nd` of the other diagram at level `i` (337-345). -/
def eqNode (i m : Nat) (s : EqSt N) (nd : Node (N + 1)) : Option NodeId :=
  (mapNode (fun f => (s.equiv f.row)[f.col]?) nd).bind fun node =>
    (mapGet s.uniq node).map fun p => ⟨i, p.getD m⟩

/-- One level (325-347). -/
def eqLevel (A O : Table (N + 1)) (s : EqSt N) (i : Nat) : Option (EqSt N) :=
  if i < A.numRows ∧ i < O.numRows then do
    let row := A.row i
    let u ← HT.init (row.length * 2) s.uniq
    let u ← (List.range row.length).foldlM (fun u j => row[j]?.bind fun nd => mapSet u nd j) u
    let ids ← (O.row i).mapM (eqNode i row.length { s with uniq := u })
    some { uniq := u, equiv := upd s.equiv i ids }
  else none

/-- The comparison proper (315-349). -/
def eqMain (A O : Dd (N + 1)) : Option Bool := do
  let s ← (levelsUp A.root.row).foldlM (eqLevel A.table O.table)
    { uniq := HT.empty, equiv := fun r => if r = 0 then (List.range (O.table.row 0).length).map fun j => ⟨0, j⟩ else [] }
  let e ← (s.equiv O.root.row)[O.root.col]?
  some (decide (A.root = e))

/-- `a == b` (308-350). `same` tells whether both refer to the same node table object. -/
def ddEq (same : Bool) (A O : Dd (N + 1)) : Option Bool :=
  if A.root.row ≠ O.root.row then some false
  else if A.root.row = 0 then some (decide (A.root = O.root))
  else if A.root = O.root ∧ same = true then some true
  else if A.table.size > O.table.size then eqMain O A
  else eqMain A O

/-- `DdStructure<ARITY>::reduce<BDD,ZDD>()`, sequential: `DdReducer::reduce` (208-218) uses `algorithmR` for
arity 2 and `reduce_` for other arities. -/
def Dd.reduce (bdd zdd : Bool) : {N : Nat} → Dd (N + 1) → Option (Dd (N + 1))
  | 1, D => reduce2 bdd zdd D
  | _, D => reduceN bdd zdd D

/-- `bddReduce()` (372-374). -/
def Dd.bddReduce (D : Dd (N + 1)) : Option (Dd (N + 1)) := D.reduce true false
/-- `zddReduce()` (380-382). -/
def Dd.zddReduce (D : Dd (N + 1)) : Option (Dd (N + 1)) := D.reduce false true
/-- `qddReduce()` (364-366). -/
def Dd.qddReduce (D : Dd (N + 1)) : Option (Dd (N + 1)) := D.reduce false false

end TdZdd
