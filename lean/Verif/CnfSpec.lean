import Verif.Semantics

/-!
# Clauses

What lists of literals and assignments mean. Nothing here refers to the code.
-/

namespace TdZdd

namespace Cnf

/-- a list of literals, `v` for a variable and `-v` for its negation (`CnfToZtdd.hpp` 37) -/
abbrev Clause := List Int

/-- the literals of the clauses are those of the variables `1..nv` -/
def Over (nv : Nat) (cs : List Clause) : Prop := ∀ c ∈ cs, ∀ x ∈ c, 1 ≤ x.natAbs ∧ x.natAbs ≤ nv

/-- The values of an assignment say which literals are in the clause: the level of the variable `v` is `nv + 1 - v`, and the value is 2 for the literal `v`, 1 for the literal `-v`, and 0 for none of them. -/
def Codes (nv : Nat) (a : Asg 3) (c : Clause) : Prop :=
  ∀ v : Nat, 1 ≤ v → v ≤ nv → ((a (nv + 1 - v)).val = 2 ↔ (v : Int) ∈ c) ∧ ((a (nv + 1 - v)).val = 1 ↔ -(v : Int) ∈ c)

/-- a truth assignment satisfies a literal -/
def Lit (u : Nat → Bool) (x : Int) : Prop := if 0 < x then u x.natAbs = true else u x.natAbs = false

/-- a truth assignment satisfies all clauses -/
def Sat (u : Nat → Bool) (cs : List Clause) : Prop := ∀ c ∈ cs, ∃ x ∈ c, Lit u x

/-- `ds` has one clause for each set of literals of a clause in `cs` that is no tautology -/
structure Kinds (cs ds : List Clause) : Prop where
  from' : ∀ d ∈ ds, ∃ c ∈ cs, (∀ x ∈ c, -x ∉ c) ∧ ∀ x, x ∈ d ↔ x ∈ c
  differ : ds.Pairwise fun d e => ¬ ∀ x, x ∈ d ↔ x ∈ e
  all : ∀ c ∈ cs, (∀ x ∈ c, -x ∉ c) → ∃ d ∈ ds, ∀ x, x ∈ d ↔ x ∈ c

/-- the truth assignment of a vector -/
def truth (x : List Bool) (v : Nat) : Bool := x.getD (v - 1) false

/-- the text of a truth assignment: for each variable its sign and its number -/
def modelText (x : List Bool) : List Char :=
  List.intercalate [' '] ((List.range x.length).map fun i => (if truth x (i + 1) then '+' else '-') :: (toString (i + 1)).toList) ++ ['\n']

instance (nv : Nat) (cs : List Clause) : Decidable (Over nv cs) := inferInstanceAs (Decidable (∀ c ∈ cs, ∀ x ∈ c, _))

instance (u : Nat → Bool) (x : Int) : Decidable (Lit u x) := inferInstanceAs (Decidable (if 0 < x then u x.natAbs = true else u x.natAbs = false))

instance (u : Nat → Bool) (cs : List Clause) : Decidable (Sat u cs) := inferInstanceAs (Decidable (∀ c ∈ cs, ∃ x ∈ c, _))

end Cnf

end TdZdd
