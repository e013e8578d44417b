import Verif.Conc
import Verif.Evaluate

/-!
# The parallel `evaluate` at single memory accesses

`DdStructure::evaluate` (`DdStructure.hpp` 455-551) with `useMP` once more. Here the iterations of the work-shared loop (507-516) are not atomic: every thread runs a program
of single reads and writes (`Conc.lean`), which interleave arbitrarily until the barrier at the end of the loop. Locations are the values `work[r][c]` and
the evaluators `evals[k]`; the diagram is not written and read as a constant. The references that `setReference` (512) stores are followed in the order of the branches before
the callback works. Simplifications: a value is one location; the callback reads the state of the evaluator once and writes it and the value of the node once.
-/

namespace TdZdd

namespace EvFine

open Conc

variable {N : Nat} {σ T R : Type}

/-- shared locations: `work[r][c]` and the evaluators (0 is `eval`, `k + 1` is `evals[k]`) -/
inductive Loc where
  | cell (r c : Nat)
  | obj (k : Nat)

/-- their contents -/
inductive Val (σ T : Type) where
  | val (t : T)
  | st (s : σ)

/-- value of a location -/
def get (a : EvSt σ T) : Loc → Option (Val σ T)
  | .cell r c => (a.look ⟨r, c⟩).map .val
  | .obj k => some (.st (a.obj k))

/-- the location exists -/
def can (a : EvSt σ T) : Loc → Bool
  | .cell r c => decide (c < (a.work r).length)
  | .obj _ => true

/-- overwrite a location -/
def put (a : EvSt σ T) : Loc → Val σ T → EvSt σ T
  | .cell r c, .val t => { a with work := upd a.work r ((a.work r).set c (some t)) }
  | .obj k, .st s => { a with obj := upd a.obj k s }
  | _, _ => a

def mem : Mem (EvSt σ T) Loc (Val σ T) := ⟨get, can, put⟩

/-- the programs of the threads -/
abbrev P (σ T : Type) := Prog Loc (Val σ T)

/-- read a value, the state of an evaluator -/
def rdVal (l : Loc) (k : T → P σ T) : P σ T := .rd l fun | .val t => k t | _ => .ub
def rdSt (l : Loc) (k : σ → P σ T) : P σ T := .rd l fun | .st s => k s | _ => .ub

/-- the values of the children (510-514) -/
def gather (nd : Node N) : List (Fin N) → (Fin N → Option T) → ((Fin N → Option T) → P σ T) → P σ T
  | [], v, k => k v
  | b :: bs, v, k => rdVal (.cell (nd b).row (nd b).col) fun t => gather nd bs (fun b' => if b' = b then some t else v b') k

/-- Column `j` in thread `y` (509-515). -/
def node (ev : Evaluator N σ T R) (row : List (Node N)) (i y j : Nat) (k : P σ T) : P σ T :=
  match row[j]? with
  | none => .ub
  | some nd =>
    gather nd (List.finRange N) (fun _ => none) fun v =>
      match allSome' fun b => (v b).map fun t => (t, (nd b).row) with
      | none => .ub
      | some vals => rdSt (.obj (y + 1)) fun s =>
        match ev.node s i vals with
        | none => .ub
        | some r => .wr (.obj (y + 1)) (.st r.1) (.wr (.cell i j) (.val r.2) k)

/-- all columns of a thread -/
def nodes (ev : Evaluator N σ T R) (row : List (Node N)) (i y : Nat) (js : List Nat) : P σ T := js.foldr (node ev row i y) .ret

/-- schedule of a level: columns of each thread and interleaving of the accesses -/
structure ESched where
  cols : Nat → List Nat
  w : List Nat

/-- every column is evaluated exactly once -/
def ESched.Ok (s : ESched) (ths m : Nat) : Prop := ((List.range ths).flatMap s.cols).Perm (List.range m)

/-- the memory before the loop (499) -/
def start (D : Dd N) (a : EvSt σ T) (i : Nat) : EvSt σ T := { a with work := upd a.work i (List.replicate (D.table.row i).length none) }

/-- the program of thread `y` -/
def prog (ev : Evaluator N σ T R) (D : Dd N) (s : ESched) (i y : Nat) : P σ T := nodes ev (D.table.row i) i y (s.cols y)

/-- One level (496-546). -/
def level (ev : Evaluator N σ T R) (D : Dd N) (lower : Nat → List Nat) (ths : Nat) (sched : Nat → ESched) (a : EvSt σ T) (i : Nat) : Option (EvSt σ T) :=
  (par mem ths (sched i).w (prog ev D (sched i) i) (start D a i)).map fun a =>
    { obj := fun k => (lower i).foldl ev.clean (a.obj k), work := (lower i).foldl (fun w r => upd w r []) a.work }

/-- the terminals (487-494) -/
def terms (ev : Evaluator N σ T R) (D : Dd N) : Option (EvSt σ T) :=
  (List.range (D.table.row 0).length).foldlM (evTerm ev)
    { obj := fun _ => ev.start D.root.row, work := fun r => if r = 0 then List.replicate (D.table.row 0).length none else [] }

/-- `evaluate(evaluator)` with `useMP` (455-551) -/
def evaluate (D : Dd N) (ev : Evaluator N σ T R) (ths : Nat) (sched : Nat → ESched) : Option R := do
  if D.table.numRows ≤ D.root.row then none else
  let a ← terms ev D
  let idx ← makeIndex (D.table.numRows - 1) D.table.row
  let a ← (levelsUp D.root.row).foldlM (level ev D idx.2 ths sched) a
  let t ← a.look D.root
  ev.value (a.obj 0) t

end EvFine

end TdZdd
