import Verif.Semantics
import Verif.BigNumber
import Verif.Builder

/-!
# Model of `PathCounter` (`dd/PathCounter.hpp`)

`count` (102-219), `countFast` (221-324) and `count64` (326-432). The nodes of a level form a list, newest first (`MyList`,
see C49); a node is its state and its number. The three functions differ in the number type and in when equal states are
merged, so they share the loop over levels, nodes and branches. `ub` is undefined behaviour (writing outside of the storage of
a number, failed assertion), `throw` is an exception: allocation may fail as soon as a level has `lim` nodes.

Simplifications: the hash tables are replaced by a search for an equal entry (justified by C46 for lawful specifications);
the scratch block `pp` is not part of the list of the next level; the loop over branches runs over
`0..ARITY-1`; messages and destructors are left out.
-/

namespace TdZdd

variable {N : Nat} {S α : Type}

namespace Big

/-- sequencing -/
def Out.bind {α β : Type} (x : Out α) (f : α → Out β) : Out β :=
  match x with
  | .ub => .ub
  | .throw => .throw
  | .ok a => f a

/-- a loop over the elements of a list -/
def Out.fold {α β : Type} (f : β → α → Out β) : List α → β → Out β
  | [], b => .ok b
  | a :: as, b => (f b a).bind (Out.fold f as)

end Big

open Big

/-- Operations on numbers. -/
structure CountOps (α : Type) where
  /-- `number(q).store(number(p))` into a fresh block with the given number of words -/
  store : Nat → α → Out α
  /-- `number(p).add(number(q))`, the updated number and the result of `add` -/
  add : α → α → Out (α × Nat)
  /-- `number(p) == 0` -/
  isZero : α → Out Bool
  /-- `number(p).store(0)` -/
  clear : α → Out α

/-- `BigNumber` operations of `count` and `countFast`. The initial contents of a block do not matter. -/
def bigOps : CountOps (List Nat) where
  store cap x := .of ((Big.store (List.replicate cap 0) x).map (·.1))
  add x y := .of (Big.add x y)
  isZero x := .of (eqWord x 0)
  clear x := .of ((storeWord x 0).map (·.1))

/-- `uint64_t` operations of `count64`. -/
def ops64 : CountOps Nat where
  store _ x := .ok x
  add x y := .ok (add64 x y, 1)
  isZero x := .ok (decide (x = 0))
  clear _ := .ok 0

/-- `vnodeTable`, `total`, `numberWords`. -/
structure PcSt (S α : Type) where
  rows : Nat → List (S × α)
  total : α
  words : Nat

/-- A child at a level `ii > 0` is inserted with `uniqTable[ii].add` (`count` 169-206, `count64` 389-419).
`cap` is the number of words of a new number: `numberWords + 1`, plus `(i - ii) / 63` for `ii < i - 1`. -/
def insUniq (ops : CountOps α) (sp : DdSpec N S) (lim cap ii : Nat) (s : S) (v : α) (st : PcSt S α) : Out (PcSt S α) :=
  match (st.rows ii).findIdx? (fun e => sp.eqv ii e.1 s) with
  | some k =>
    match (st.rows ii)[k]? with
    | none => .ub
    | some e => (ops.add e.2 v).bind fun r =>
      .ok ⟨upd st.rows ii ((st.rows ii).set k (e.1, r.1)), st.total, max st.words r.2⟩
  | none =>
    if lim ≤ (st.rows ii).length then .throw
    else (ops.store cap v).bind fun y => .ok ⟨upd st.rows ii ((s, y) :: st.rows ii), st.total, st.words⟩

/-- A child at a level `ii > 0` is appended (`countFast` 299-311). -/
def insList (ops : CountOps α) (lim cap ii : Nat) (s : S) (v : α) (st : PcSt S α) : Out (PcSt S α) :=
  if lim ≤ (st.rows ii).length then .throw
  else (ops.store cap v).bind fun y => .ok ⟨upd st.rows ii ((s, y) :: st.rows ii), st.total, st.words⟩

/-- One branch of a node with number `v` at level `i` (160-206, 290-311, 380-419). -/
def pcChild (ops : CountOps α) (ins : Nat → S → α → PcSt S α → Out (PcSt S α)) (i : Nat) (v : α) (st : PcSt S α)
    (c : Int × S) : Out (PcSt S α) :=
  if c.1 ≤ 0 then
    if c.1 ≠ 0 then (ops.add st.total v).bind fun r => .ok { st with total := r.1 } else .ok st
  else if c.1 < i then ins c.1.toNat c.2 v st
  else .ub

/-- One node of level `i` (153-209, 283-314, 373-422). -/
def pcNode (ops : CountOps α) (sp : DdSpec N S) (ins : Nat → S → α → PcSt S α → Out (PcSt S α)) (i : Nat) (st : PcSt S α)
    (e : S × α) : Out (PcSt S α) :=
  (ops.isZero e.2).bind fun z =>
  if z then .ok st
  else Out.fold (fun st b => pcChild ops ins i e.2 st (sp.child e.1 i b)) (List.finRange N) st

/-- The nodes of level `i` (`count` 141-215, `count64` 362-428; `countFast` 276-320): the nodes are removed from the
list one by one, front first. -/
def pcLevel (ops : CountOps α) (sp : DdSpec N S) (ins : Nat → Nat → S → α → PcSt S α → Out (PcSt S α)) (i : Nat)
    (st : PcSt S α) : Out (PcSt S α) :=
  (Out.fold (pcNode ops sp (fun ii => ins (st.words + 1 + (i - ii) / 63) ii) i) (st.rows i) st).bind fun st =>
    .ok { st with rows := upd st.rows i [] }

/-- One node in the merging loop of `countFast` (259-272): `uniq.add(p)` finds the first equal node of the nodes `done` so
far. -/
def pcMerge (ops : CountOps α) (sp : DdSpec N S) (i : Nat) (a : List (S × α) × Nat) (e : S × α) : Out (List (S × α) × Nat) :=
  match a.1.findIdx? (fun e' => sp.eqv i e'.1 e.1) with
  | none => .ok (a.1 ++ [e], a.2)
  | some k =>
    match a.1[k]? with
    | none => .ub
    | some e' => (ops.add e'.2 e.2).bind fun r => (ops.clear e.2).bind fun z =>
      .ok (a.1.set k (e'.1, r.1) ++ [(e.1, z)], max a.2 r.2)

/-- One level of `countFast` (251-320). -/
def pcLevelFast (ops : CountOps α) (sp : DdSpec N S) (lim i : Nat) (st : PcSt S α) : Out (PcSt S α) :=
  (Out.fold (pcMerge ops sp i) (st.rows i) ([], st.words)).bind fun a =>
    pcLevel ops sp (insList ops lim) i ⟨upd st.rows i a.1, st.total, a.2⟩

/-- The loop over the levels `n..1` for a root at level `n > 0`. -/
def pcRun (level : Nat → PcSt S α → Out (PcSt S α)) (s : S) (n : Nat) (one zero : α) : Out α :=
  (Out.fold (fun st i => level i st) ((List.range n).map fun k => n - k)
    ⟨upd (fun _ => []) n [(s, one)], zero, 1⟩).bind fun st => .ok st.total

/-- `count()` (102-219). -/
def pcCount (sp : DdSpec N S) (lim : Nat) : Out String :=
  let n := sp.root.1
  if n ≤ 0 then .ok (if n = 0 then "0" else "1")
  else (pcRun (pcLevel bigOps sp (insUniq bigOps sp lim)) sp.root.2 n.toNat [1]
    (List.replicate (n.toNat / 63 + 1) 0)).bind fun t => .of (print t)

/-- `countFast()` (221-324). -/
def pcCountFast (sp : DdSpec N S) (lim : Nat) : Out String :=
  let n := sp.root.1
  if n ≤ 0 then .ok (if n = 0 then "0" else "1")
  else (pcRun (pcLevelFast bigOps sp lim) sp.root.2 n.toNat [1]
    (List.replicate (n.toNat / 63 + 1) 0)).bind fun t => .of (print t)

/-- `count64()` (326-432). -/
def pcCount64 (sp : DdSpec N S) (lim : Nat) : Out Nat :=
  let n := sp.root.1
  if n ≤ 0 then .ok (if n = 0 then 0 else 1)
  else pcRun (pcLevel ops64 sp (insUniq ops64 sp lim)) sp.root.2 n.toNat 1 0

end TdZdd
