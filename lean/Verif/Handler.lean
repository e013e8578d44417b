import Verif.Structure

/-!
# Model of `NodeTableHandler` (`dd/NodeTable.hpp` 402-493)

A heap of objects with reference counts, handle variables pointing to them. Any access to an object that has been deleted, or through a
handle variable that is not alive, is undefined behaviour. An exception thrown by `ref` ends the execution. Allocation
never fails; deleted addresses are not used again (so that an address identifies one object).
-/

namespace TdZdd

variable {N : Nat}

/-- `NodeTableEntity` (`NodeTable.hpp` 38-58): the table and the two index tables made by `makeIndex`, `none` while they are empty. -/
structure Ent (N : Nat) where
  tab : Table N
  index : Option (List (List Nat) × List (List Nat))

/-- `NodeTableEntity(n)` (49-53): `n` rows, row 0 holds the terminals, no index. -/
def Ent.new (N n : Nat) : Ent N := ⟨⟨n, fun r => if r = 0 then terminalRow N else []⟩, none⟩

/-- `NodeTableEntity::init(n)` (59-63). The index tables are left alone. -/
def Ent.init (e : Ent N) (n : Nat) : Ent N := ⟨(Ent.new N n).tab, e.index⟩

/-- `entity[i].clear()` -/
def Ent.clearRow (e : Ent N) (i : Nat) : Ent N := { e with tab := ⟨e.tab.numRows, fun r => if r = i then [] else e.tab.row r⟩ }

/-- `NodeTableHandler::Object` (404-425); `refCount` is a 32 bit unsigned number. -/
structure HObj (N : Nat) where
  refCount : Nat
  entity : Ent N

/-- The heap, the handle variables that are alive with their pointers, and the addresses deleted so far. -/
structure HSt (N : Nat) where
  heap : Nat → Option (HObj N)
  next : Nat
  freed : List Nat
  hdl : List (Nat × Nat)

inductive HRes (N : Nat)
  | ok (st : HSt N)
  | threw
  | ub

def HRes.bind (r : HRes N) (f : HSt N → HRes N) : HRes N :=
  match r with
  | .ok st => f st
  | .threw => .threw
  | .ub => .ub

def HSt.empty : HSt N := ⟨fun _ => none, 0, [], []⟩

/-- pointer of a handle variable -/
def HSt.ptr (st : HSt N) (h : Nat) : Option Nat := st.hdl.lookup h

def HSt.setObj (st : HSt N) (p : Nat) (o : Option (HObj N)) : HSt N :=
  { st with heap := fun q => if q = p then o else st.heap q }

/-- assignment to the member `pointer` of a handle -/
def HSt.setPtr (st : HSt N) (h p : Nat) : HSt N :=
  { st with hdl := st.hdl.map fun e => if e.1 = h then (h, p) else e }

/-- `Object::ref` (416-419) -/
def HSt.ref (st : HSt N) (p : Nat) : HRes N :=
  match st.heap p with
  | none => .ub
  | some o => if (o.refCount + 1) % 2 ^ 32 = 0 then .threw else .ok (st.setObj p (some ⟨(o.refCount + 1) % 2 ^ 32, o.entity⟩))

/-- `Object::deref` (420-423) -/
def HSt.deref (st : HSt N) (p : Nat) : HRes N :=
  match st.heap p with
  | none => .ub
  | some o =>
    if (o.refCount + (2 ^ 32 - 1)) % 2 ^ 32 = 0 then .ok { st.setObj p none with freed := p :: st.freed }
    else .ok (st.setObj p (some ⟨(o.refCount + (2 ^ 32 - 1)) % 2 ^ 32, o.entity⟩))

/-- `new Object(entity)`; the address is the old value of `next` -/
def HSt.alloc (st : HSt N) (e : Ent N) : HSt N :=
  { st.setObj st.next (some ⟨1, e⟩) with next := st.next + 1 }

/-- Operations on handles. `modify h f` is `f` applied to the result of `h.privateEntity()`. -/
inductive NhOp (N : Nat)
  | new (h n : Nat)
  | copy (h src : Nat)
  | assign (h src : Nat)
  | destroy (h : Nat)
  | modify (h : Nat) (f : Ent N → Ent N)
  | init (h n : Nat)
  | derefLevel (h i : Nat)

/-- `NodeTableHandler(int)` (429-431) -/
def hNew (st : HSt N) (h n : Nat) : HRes N :=
  if n = 0 then .ub else .ok { st.alloc (Ent.new N n) with hdl := (h, st.next) :: st.hdl }

/-- `NodeTableHandler(NodeTableHandler const&)` (433-436) -/
def hCopy (st : HSt N) (h src : Nat) : HRes N :=
  match st.ptr src with
  | none => .ub
  | some p => HSt.ref { st with hdl := (h, p) :: st.hdl } p

/-- `operator=` (438-443) -/
def hAssign (st : HSt N) (h src : Nat) : HRes N :=
  match st.ptr h with
  | none => .ub
  | some p => (st.deref p).bind fun st1 =>
    match st1.ptr src with
    | none => .ub
    | some q => (st1.setPtr h q).ref q

/-- `~NodeTableHandler` (445-447) -/
def hDestroy (st : HSt N) (h : Nat) : HRes N :=
  match st.ptr h with
  | none => .ub
  | some p => (st.deref p).bind fun st1 => .ok { st1 with hdl := st1.hdl.filter fun e => e.1 ≠ h }

/-- `privateEntity` (461-467) -/
def hPrivate (st : HSt N) (h : Nat) : HRes N :=
  match st.ptr h with
  | none => .ub
  | some p =>
    match st.heap p with
    | none => .ub
    | some o =>
      if 2 ≤ o.refCount then
        (st.deref p).bind fun st1 =>
          -- the copy reads pointer->entity after deref
          match st1.heap p with
          | none => .ub
          | some o1 => .ok ((st1.alloc o1.entity).setPtr h st1.next)
      else .ok st

/-- a write through the reference `pointer->entity` of a handle -/
def hWrite (st : HSt N) (h : Nat) (f : Ent N → Ent N) : HRes N :=
  match st.ptr h with
  | none => .ub
  | some p =>
    match st.heap p with
    | none => .ub
    | some o => .ok (st.setObj p (some ⟨o.refCount, f o.entity⟩))

/-- `init` (475-484) -/
def hInit (st : HSt N) (h n : Nat) : HRes N :=
  if n = 0 then .ub else
  match st.ptr h with
  | none => .ub
  | some p =>
    match st.heap p with
    | none => .ub
    | some o =>
      if o.refCount = 1 then .ok (st.setObj p (some ⟨o.refCount, o.entity.init n⟩))
      else (st.deref p).bind fun st1 => .ok ((st1.alloc (Ent.new N n)).setPtr h st1.next)

/-- `derefLevel` (489-491) -/
def hDerefLevel (st : HSt N) (h i : Nat) : HRes N :=
  match st.ptr h with
  | none => .ub
  | some p =>
    match st.heap p with
    | none => .ub
    | some o =>
      if o.refCount = 1 then
        if i < o.entity.tab.numRows then .ok (st.setObj p (some ⟨o.refCount, o.entity.clearRow i⟩)) else .ub
      else .ok st

def hStep (st : HSt N) : NhOp N → HRes N
  | .new h n => hNew st h n
  | .copy h src => hCopy st h src
  | .assign h src => hAssign st h src
  | .destroy h => hDestroy st h
  | .modify h f => (hPrivate st h).bind fun st1 => hWrite st1 h f
  | .init h n => hInit st h n
  | .derefLevel h i => hDerefLevel st h i

/-- What the program sees through the handle variable `h`: `*h`. -/
def HSt.val (st : HSt N) (h : Nat) : Option (Ent N) :=
  match st.ptr h with
  | none => none
  | some p => (st.heap p).map HObj.entity

/-! ### Contract of the operations, in terms of what the program sees -/

/-- Preconditions: variables are constructed once before use and destroyed at most once, tables have a row, rows exist, and no
variable is assigned to itself. -/
def HLegal (v : Nat → Option (Ent N)) : NhOp N → Prop
  | .new h n => v h = none ∧ 0 < n
  | .copy h src => v h = none ∧ v src ≠ none
  | .assign h src => v h ≠ none ∧ v src ≠ none ∧ h ≠ src
  | .destroy h => v h ≠ none
  | .modify h _ => v h ≠ none
  | .init h n => v h ≠ none ∧ 0 < n
  | .derefLevel h i => ∃ e, v h = some e ∧ i < e.tab.numRows

/-- Value semantics: what an operation does to the values of the variables. -/
def HAbs (v v' : Nat → Option (Ent N)) : NhOp N → Prop
  | .new h n => v' h = some (Ent.new N n) ∧ ∀ k, k ≠ h → v' k = v k
  | .copy h src => v' h = v src ∧ ∀ k, k ≠ h → v' k = v k
  | .assign h src => v' h = v src ∧ ∀ k, k ≠ h → v' k = v k
  | .destroy h => v' h = none ∧ ∀ k, k ≠ h → v' k = v k
  | .modify h f => v' h = (v h).map f ∧ ∀ k, k ≠ h → v' k = v k
  | .init h n => (∃ e, v' h = some e ∧ e.tab = (Ent.new N n).tab) ∧ ∀ k, k ≠ h → v' k = v k
  | .derefLevel h i => (v' h = v h ∨ v' h = (v h).map fun e => e.clearRow i) ∧ ∀ k, k ≠ h → v' k = v k

/-- States reached by executions that respect the preconditions. -/
inductive HReach : HSt N → Prop
  | empty : HReach HSt.empty
  | step {st st'} {op : NhOp N} : HReach st → HLegal st.val op → hStep st op = .ok st' → HReach st'

end TdZdd
