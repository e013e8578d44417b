import Verif.BuilderMP
import Verif.ReducerMP
import Verif.Equality
import Verif.StructureProofs

/-!
# Sequences of operations on `DdStructure<2>` as in the applications

A structure remembers whether the parallel algorithms are to be used (`useMP`). The schedules of the parallel algorithms are taken from an environment; the operations of a program are numbered, so that each of them may have its own schedule.
-/

namespace TdZdd

/-- `DdStructure<2>` with the member `useMP` (`DdStructure.hpp` 56-59) -/
structure DdS where
  dd : Dd 2
  mp : Bool

/-- number of threads, numbers of tasks, and schedules of the parallel builders and of the parallel reducer, for the operation with a given number -/
structure Par where
  threads : Nat
  buildTasks : Nat
  redTasks : Nat
  build : Nat → (S : Type) → Nat → BmSched 2 S
  edges : Nat → Dd 2 → Nat → List NodeId
  red : Nat → Dd 2 → Nat → MpSched

/-- what the schedules have to meet; `n` bounds the levels of the structures -/
structure Par.Ok (e : Par) (n : Nat) : Prop where
  threads : 0 < e.threads
  buildTasks : 0 < e.buildTasks
  redTasks : 0 < e.redTasks
  bits : n + e.redTasks ≤ 2 ^ 20
  build : ∀ k S i, (e.build k S i).Ok e.threads
  edges : ∀ k D i, 1 ≤ i → (e.edges k D i).Perm (rowEdges (D.table.row i))
  red : ∀ k D i, 1 ≤ i → i ≤ D.root.row → (e.red k D i).Ok e.threads e.redTasks (D.table.row i).length

/-- `DdStructure<2>(n)` (`DdStructure.hpp` 82-97) -/
def DdS.all (n : Nat) : DdS := ⟨universal 2 n, false⟩

/-- `DdStructure<2>(spec, useMP)` (`DdStructure.hpp` 105-158), with OpenMP -/
def Par.make {S : Type} (e : Par) (k : Nat) (sp : DdSpec 2 S) (mp : Bool) : Option DdS :=
  (if mp then buildMP sp e.threads e.buildTasks (e.build k S) else TdZdd.build sp).map fun D => ⟨D, mp⟩

/-- `f.zddSubset(spec)` (`DdStructure.hpp` 166-224), with OpenMP, for a structure that does not share its table -/
def Par.subset {S : Type} (e : Par) (k : Nat) (f : DdS) (sp : DdSpec 2 S) : Option DdS :=
  (if f.mp then zddSubsetMP f.dd sp false e.threads (e.build k (NodeId × S)) else zddSubset f.dd sp false).map fun D => ⟨D, f.mp⟩

/-- `f.zddReduce()` (`DdStructure.hpp` 380-409), with OpenMP -/
def Par.reduce (e : Par) (k : Nat) (f : DdS) : Option DdS :=
  (if f.mp then f.dd.reduceMP false true e.threads e.redTasks (e.edges k f.dd) (e.red k f.dd) else f.dd.zddReduce).map fun D => ⟨D, f.mp⟩

end TdZdd
