/-!
# Specifications and their meaning

The interface of a DD specification (`DdSpec.hpp` 38-67: `get_root`, `get_child`,
`equal_to`, `hash_code`, `merge_states`) and the meaning of a specification as a
Boolean function (BDD reading) and as a family of value vectors (ZDD reading).
Nothing in this file refers to any algorithm of the library.
-/

namespace TdZdd

/-- A path through a diagram: the list of (level, value) choices made on the way. -/
abbrev Path (N : Nat) := List (Nat × Fin N)

/-- An assignment of a value `0..N-1` to every level. -/
abbrev Asg (N : Nat) := Nat → Fin N

/-- A DD specification of arity `N` whose state storage has contents of type `S`, `include/tdzdd/DdSpec.hpp` 38-67.
Level codes are C++ `int`s: `0` is the 0-terminal, negative is the 1-terminal
(documented value `-1`), positive is the level of a non-terminal node.
Simplifications: specifications are pure functions (no hidden mutable members, `get_copy`
makes an exact copy, `destruct` has no effect) and `merge_states` does not change the two states;
`int` is unbounded. -/
structure DdSpec (N : Nat) (S : Type) where
  /-- `get_root`: level code and state of the root -/
  root : Int × S
  /-- `get_child(p, level, value)` -/
  child : S → Nat → Fin N → Int × S
  /-- `equal_to(p, q, level)` -/
  eqv : Nat → S → S → Bool
  /-- `hash_code(p, level)` -/
  hash : Nat → S → Nat
  /-- `merge_states(p1, p2)`: 1 forwards the first, 2 the second one to the 0-terminal,
  anything else merges them -/
  merge : S → S → Nat

variable {N : Nat} {S : Type}

/-- `Accepts sp l s p`: starting at level code `l` in state `s`, the choices `p` lead the
specification to the 1-terminal. -/
inductive Accepts (sp : DdSpec N S) : Int → S → Path N → Prop
  | one {l : Int} {s : S} : l < 0 → Accepts sp l s []
  | step {n : Nat} {s : S} {b : Fin N} {p : Path N} : 0 < n →
      Accepts sp (sp.child s n b).1 (sp.child s n b).2 p →
      Accepts sp (n : Int) s ((n, b) :: p)

/-- The path makes the same choices as the assignment. -/
def Agrees (p : Path N) (a : Asg N) : Prop := ∀ x ∈ p, a x.1 = x.2

/-- BDD reading from an intermediate state: the assignment is accepted; levels that do not occur
on the path do not matter. -/
def BddSatAt (sp : DdSpec N S) (l : Int) (s : S) (a : Asg N) : Prop :=
  ∃ p, Accepts sp l s p ∧ Agrees p a

/-- ZDD reading from an intermediate state over the levels `1..n`: levels that do not occur on the
path must have value 0. -/
def ZddMemAt (sp : DdSpec N S) (n : Nat) (l : Int) (s : S) (a : Asg N) : Prop :=
  ∃ p, Accepts sp l s p ∧ Agrees p a ∧
    ∀ j, 1 ≤ j → j ≤ n → (∀ b, (j, b) ∉ p) → (a j).val = 0

/-- The Boolean function of a specification (BDD reading). -/
def BddSat (sp : DdSpec N S) (a : Asg N) : Prop := BddSatAt sp sp.root.1 sp.root.2 a

/-- The family of value vectors over levels `1..n` of a specification (ZDD reading). -/
def ZddMem (sp : DdSpec N S) (n : Nat) (a : Asg N) : Prop := ZddMemAt sp n sp.root.1 sp.root.2 a

/-- Level code / state pairs that can be reached from the root. -/
inductive Reach (sp : DdSpec N S) : Int → S → Prop
  | root : Reach sp sp.root.1 sp.root.2
  | step {n : Nat} {s : S} (b : Fin N) : 0 < n → Reach sp (n : Int) s →
      Reach sp (sp.child s n b).1 (sp.child s n b).2

/-- Descending levels: the part of the contract that concerns level codes
(`DdBuilder.hpp` 370 `assert(ii < i - 1)`; `DdSpec.hpp` 56-58). -/
structure Desc (sp : DdSpec N S) : Prop where
  root_ge : -1 ≤ sp.root.1
  child_lt : ∀ {n : Nat} {s : S} (b : Fin N), 0 < n → Reach sp (n : Int) s →
    (sp.child s n b).1 < n
  child_ge : ∀ {n : Nat} {s : S} (b : Fin N), 0 < n → Reach sp (n : Int) s →
    -1 ≤ (sp.child s n b).1

/-- The contract of a specification used by the builder: levels descend, and on reachable states
`equal_to` is an equivalence relation that identifies only states accepting the same paths, and
`hash_code` respects it. -/
structure Lawful (sp : DdSpec N S) : Prop extends Desc sp where
  refl : ∀ {n : Nat} {s : S}, 0 < n → Reach sp (n : Int) s → sp.eqv n s s = true
  symm : ∀ {n : Nat} {s t : S}, 0 < n → Reach sp (n : Int) s → Reach sp (n : Int) t →
    sp.eqv n s t = true → sp.eqv n t s = true
  trans : ∀ {n : Nat} {s t u : S}, 0 < n → Reach sp (n : Int) s → Reach sp (n : Int) t →
    Reach sp (n : Int) u → sp.eqv n s t = true → sp.eqv n t u = true → sp.eqv n s u = true
  hash_eq : ∀ {n : Nat} {s t : S}, 0 < n → Reach sp (n : Int) s → Reach sp (n : Int) t →
    sp.eqv n s t = true → sp.hash n s = sp.hash n t
  sound : ∀ {n : Nat} {s t : S}, 0 < n → Reach sp (n : Int) s → Reach sp (n : Int) t →
    sp.eqv n s t = true → ∀ p, Accepts sp (n : Int) s p ↔ Accepts sp (n : Int) t p

/-- The step-by-step form of the contract: equal states have equal children. It implies
`Lawful` and is preserved by the specification operators. -/
structure LawfulC (sp : DdSpec N S) : Prop extends Desc sp where
  refl : ∀ {n : Nat} {s : S}, 0 < n → Reach sp (n : Int) s → sp.eqv n s s = true
  symm : ∀ {n : Nat} {s t : S}, 0 < n → Reach sp (n : Int) s → Reach sp (n : Int) t →
    sp.eqv n s t = true → sp.eqv n t s = true
  trans : ∀ {n : Nat} {s t u : S}, 0 < n → Reach sp (n : Int) s → Reach sp (n : Int) t →
    Reach sp (n : Int) u → sp.eqv n s t = true → sp.eqv n t u = true → sp.eqv n s u = true
  hash_eq : ∀ {n : Nat} {s t : S}, 0 < n → Reach sp (n : Int) s → Reach sp (n : Int) t →
    sp.eqv n s t = true → sp.hash n s = sp.hash n t
  congr : ∀ {n : Nat} {s t : S} (b : Fin N), 0 < n → Reach sp (n : Int) s →
    Reach sp (n : Int) t → sp.eqv n s t = true →
    (sp.child s n b).1 = (sp.child t n b).1 ∧
    ∀ k : Nat, 0 < k → (sp.child s n b).1 = (k : Int) →
      sp.eqv k (sp.child s n b).2 (sp.child t n b).2 = true

/-- The specification never asks for pruning (`merge_states` returns 0, the default). -/
def NoMerge (sp : DdSpec N S) : Prop := ∀ s t, sp.merge s t = 0

end TdZdd
