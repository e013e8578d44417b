import Verif.Builder

/-!
# Threads that interleave at single memory accesses

Model of an OpenMP loop between two barriers: every thread runs a program that consists of reads and writes of shared locations; its local variables
are in the continuations. An execution is any interleaving of single accesses. Undefined behaviour (`ub`, a read of a location without value, a write outside
of an array) makes the whole execution undefined.
-/

namespace TdZdd.Conc

/-- shared memory: `get` is the value of a location, if it has one, `can` says whether it can be written -/
structure Mem (M L V : Type) where
  get : M → L → Option V
  can : M → L → Bool
  put : M → L → V → M

/-- locations are independent -/
structure Mem.Laws {M L V : Type} (μ : Mem M L V) : Prop where
  get_put : ∀ m l v l', l ≠ l' → μ.get (μ.put m l v) l' = μ.get m l'
  can_put : ∀ m l v l', μ.can (μ.put m l v) l' = μ.can m l'
  comm : ∀ m l v l' v', l ≠ l' → μ.put (μ.put m l v) l' v' = μ.put (μ.put m l' v') l v
  idem : ∀ m l v, μ.put (μ.put m l v) l v = μ.put m l v

/-- the remaining program of a thread -/
inductive Prog (L V : Type) where
  | ret
  | ub
  | rd (l : L) (k : V → Prog L V)
  | wr (l : L) (v : V) (p : Prog L V)

/-- an access -/
inductive Ev (L V : Type) where
  | rd (l : L)
  | wr (l : L) (v : V)

variable {M L V : Type}

/-- the program runs alone to its end -/
def Prog.run (μ : Mem M L V) : Prog L V → M → Option M
  | .ret, m => some m
  | .ub, _ => none
  | .rd l k, m => (μ.get m l).bind fun v => (k v).run μ m
  | .wr l v p, m => if μ.can m l then p.run μ (μ.put m l v) else none

/-- the accesses of a program that runs alone -/
def Prog.trace (μ : Mem M L V) : Prog L V → M → Option (List (Ev L V))
  | .ret, _ => some []
  | .ub, _ => none
  | .rd l k, m => (μ.get m l).bind fun v => ((k v).trace μ m).map (.rd l :: ·)
  | .wr l v p, m => if μ.can m l then (p.trace μ (μ.put m l v)).map (.wr l v :: ·) else none

/-- one access; a thread that has ended does nothing -/
def Prog.step (μ : Mem M L V) : Prog L V → M → Option (Prog L V × M)
  | .ret, m => some (.ret, m)
  | .ub, _ => none
  | .rd l k, m => (μ.get m l).map fun v => (k v, m)
  | .wr l v p, m => if μ.can m l then some (p, μ.put m l v) else none

/-- `T` threads make steps in the order of the list -/
def exec (μ : Mem M L V) (T : Nat) : List Nat → (Nat → Prog L V) × M → Option ((Nat → Prog L V) × M)
  | [], s => some s
  | k :: w, s => if k < T then ((s.1 k).step μ s.2).bind fun r => exec μ T w (upd s.1 k r.1, r.2) else exec μ T w s

/-- threads one after the other -/
def seqL (μ : Mem M L V) (ys : List Nat) (P : Nat → Prog L V) (m : M) : Option M := ys.foldlM (fun m y => (P y).run μ m) m

/-- the loop with `T` threads: the interleaving `w`, then whatever is left, so that each complete interleaving is one of these executions -/
def par (μ : Mem M L V) (T : Nat) (w : List Nat) (P : Nat → Prog L V) (m : M) : Option M :=
  (exec μ T w (P, m)).bind fun s => seqL μ (List.range T) s.1 s.2

/-- the next access -/
def Prog.next : Prog L V → Option (Ev L V)
  | .rd l _ => some (.rd l)
  | .wr l v _ => some (.wr l v)
  | _ => none

/-- different locations, or two reads -/
def Ev.Free : Ev L V → Ev L V → Prop
  | .rd _, .rd _ => True
  | .rd l, .wr l' _ => l ≠ l'
  | .wr l _, .rd l' => l ≠ l'
  | .wr l _, .wr l' _ => l ≠ l'

/-- the same, or two writes of the same value -/
def Ev.Compat : Ev L V → Ev L V → Prop
  | .wr l v, .wr l' v' => l = l' → v = v'
  | e, e' => e.Free e'

/-- two threads are about to access one location, one of them by a write -/
def Race (T : Nat) (P : Nat → Prog L V) : Prop := ∃ y y' e e', y < T ∧ y' < T ∧ y ≠ y' ∧ (P y).next = some e ∧ (P y').next = some e' ∧ ¬ e.Free e'

/-- however the threads interleave, none meets undefined behaviour, and no two are ever about to make conflicting accesses -/
def Clean (μ : Mem M L V) (T : Nat) (P : Nat → Prog L V) (m : M) : Prop := ∀ w, ∃ s, exec μ T w (P, m) = some s ∧ ¬ Race T s.1

end TdZdd.Conc
