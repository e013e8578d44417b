import Verif.StructureProofs

/-!
# Model of `ZddInterleave` and `ColoredZdd` (`apps/ddqueens/ZddInterleave.hpp`, `apps/ddqueens/ColoredZdd.hpp`)

The state is the array of node ids. The diagrams are referred to by pointers; they are taken as values here, so they must not be changed or destroyed while the specification is in use
(the copy of a `ZddInterleave` made with the third constructor points into the original).
An access outside of an array or of a node table is `none`. The attribute bit of node ids, which is part of the words compared by `PodArrayDdSpec`, is left out as in `Structure.lean`.
-/

namespace TdZdd.Interleave

/-- `getLevel(f, k)` (`ZddInterleave.hpp` 38-41, `ColoredZdd.hpp` 37-40); `n` is the number of diagrams -/
def lev (n : Nat) (f : NodeId) (k : Nat) : Int := if f.row = 0 then -(f.col : Int) else (((f.row - 1) * n + k + 1 : Nat) : Int)

/-- loop of `getLevel(a)` (`ZddInterleave.hpp` 43-51, `ColoredZdd.hpp` 42-50) over the remaining entries -/
def levLoop (n : Nat) : (k : Nat) → (level : Int) → List NodeId → Int
  | _, level, [] => if level = 0 then -1 else level
  | k, level, f :: fs => if lev n f k = 0 then 0 else levLoop n (k + 1) (max level (lev n f k)) fs

/-- `getLevel(a)` -/
def getLevel (n : Nat) (a : List NodeId) : Int := levLoop n 0 0 a

/-- `dds[k]->child(a[k], b)` (`DdStructure.hpp` 260-262, `NodeTable.hpp` 186-210) -/
def childOf (dds : List (Dd 2)) (k : Nat) (f : NodeId) (b : Fin 2) : Option NodeId :=
  dds[k]?.bind fun D => (D.table.node? f).map fun nd => nd b

/-- `ZddInterleave::getChild` (`ZddInterleave.hpp` 87-97) -/
def child (dds : List (Dd 2)) (a : List NodeId) (level : Nat) (b : Fin 2) : Option (Int × List NodeId) :=
  let n := dds.length
  let i := (level - 1) / n + 1
  let k := (level - 1) % n
  a[k]?.bind fun f =>
  (if f.row = i then childOf dds k f b else some (if b ≠ 0 then .zero else f)).map fun g =>
  let a := a.set k g
  (getLevel n a, a)

/-- `hashCode` of `PodArrayDdSpec` (`DdSpec.hpp` 449-456) on the words of the node ids -/
def hash (a : List NodeId) : Nat := a.foldl (fun h f => (h + (f.row * 2 ^ 44 + f.col)) * 314159257 % 2 ^ 64) 0

/-- `ZddInterleave(c)` for a container of diagrams (`ZddInterleave.hpp` 62-70, 80-85) -/
def interleave (dds : List (Dd 2)) : DdSpec 2 (List NodeId) where
  root := (getLevel dds.length (dds.map Dd.root), dds.map Dd.root)
  child a level b := (child dds a level b).getD (level, a)
  eqv _ s t := decide (s = t)
  hash _ s := hash s
  merge _ _ := 0

/-- `ZddInterleave(dd, n)` (54-60) -/
def interleaveAll (D : Dd 2) (n : Nat) : DdSpec 2 (List NodeId) := interleave (List.replicate n D)

/-- `ZddInterleave(dd, n, pos)` (72-78); `universal` is the constructor `DdStructure(int n)` -/
def interleavePos (D : Dd 2) (n pos : Nat) : DdSpec 2 (List NodeId) :=
  interleave ((List.range n).map fun k => if k = pos then D else universal 2 D.root.row)

/-- Loop of `ColoredZdd::getChild` (`ColoredZdd.hpp` 90-94): the 0-branch for the lower colours with a node for this field -/
def dropLoop (dds : List (Dd 2)) (i : Nat) : (kk : Nat) → (a : List NodeId) → Option (List NodeId)
  | 0, a => some a
  | kk + 1, a => a[kk]?.bind fun f => (if f.row = i then (childOf dds kk f 0).map fun g => a.set kk g else some a).bind fun a => dropLoop dds i kk a

/-- `lastOne` (97-103) -/
def lastLoop (i : Nat) : (kk : Nat) → (a : List NodeId) → Option Bool
  | 0, _ => some true
  | kk + 1, a => a[kk]?.bind fun f => if f.row = i then some false else lastLoop i kk a

/-- `ColoredZdd::getChild` (`ColoredZdd.hpp` 78-112) -/
def cchild (dds : List (Dd 2)) (a : List NodeId) (level : Nat) (b : Fin 2) : Option (Int × List NodeId) :=
  let n := dds.length
  let i := (level - 1) / n + 1
  let k := (level - 1) % n
  a[k]?.bind fun f =>
  if b ≠ 0 then
    (if f.row = i then childOf dds k f 1 else some .zero).bind fun g =>
    (dropLoop dds i k (a.set k g)).map fun a => (getLevel n a, a)
  else
    (lastLoop i k a).bind fun last =>
    if last then some (0, a)
    else (if f.row = i then childOf dds k f 0 else some f).map fun g =>
      let a := a.set k g
      (getLevel n a, a)

/-- `ColoredZdd(c)` for a container of diagrams (`ColoredZdd.hpp` 61-76) -/
def colored (dds : List (Dd 2)) : DdSpec 2 (List NodeId) where
  root := (getLevel dds.length (dds.map Dd.root), dds.map Dd.root)
  child a level b := (cchild dds a level b).getD (level, a)
  eqv _ s t := decide (s = t)
  hash _ s := hash s
  merge _ _ := 0

/-- `ColoredZdd(dd, colors)` (53-59) -/
def coloredAll (D : Dd 2) (colors : Nat) : DdSpec 2 (List NodeId) := colored (List.replicate colors D)

end TdZdd.Interleave
