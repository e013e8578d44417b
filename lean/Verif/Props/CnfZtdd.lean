import Verif.CnfZtddProofs3
import Verif.Pipeline
import Verif.RunDec

/-!
# Property C75: the ternary diagrams of sets of clauses (`CnfToZtdd`)

`Over nv cs` says that the literals of the clauses `cs` are those of the variables `1..nv`. `Codes nv a c` says that the values of the assignment `a` are those of the literals in `c`.
-/

namespace TdZdd

namespace Cnf

/-- C75: for every list of clauses, `CnfToZtdd` obeys the rules for specifications (in particular none of its assertions fails), and its members are exactly the clauses of the list. Repeated literals, the order of the literals, and repeated clauses do
not matter. A tautology is no member, since no assignment has the values of its literals. -/
theorem _root_.TdZdd.C75_clauses (nv : Nat) (cs : List Clause) (h : Over nv cs) :
    LawfulC (zSpec nv (prepare cs)) ∧ (zSpec nv (prepare cs)).root.1 ≤ nv ∧ ∀ a, ZddMem (zSpec nv (prepare cs)) nv a ↔ ∃ c ∈ cs, Codes nv a c := by
  obtain ⟨h1, h2, h3⟩ := zSpec_main (prepare_spec h).1
  exact ⟨h1, h2, fun a => (h3 a).trans (prepare_codes h a)⟩

/-- C75: the diagram made of it and the reduced diagram represent the clauses. -/
theorem _root_.TdZdd.C75_diagram (nv : Nat) (cs : List Clause) (h : Over nv cs) :
    ∃ D D', build (zSpec nv (prepare cs)) = some D ∧ D.zddReduce = some D' ∧ Has nv (fun a => ∃ c ∈ cs, Codes nv a c) D ∧ Has nv (fun a => ∃ c ∈ cs, Codes nv a c) D' := by
  obtain ⟨h1, h2, h3⟩ := C75_clauses nv cs h
  obtain ⟨D, e, hD⟩ := has_build h1.lawful (fun _ _ => rfl) h2 h3
  obtain ⟨D', e', hD'⟩ := hD.reduce
  exact ⟨D, D', e, e', hD, hD'⟩

/-- C75: of the clauses that are no tautologies, each one has exactly one assignment; so different members are different clauses. -/
theorem _root_.TdZdd.C75_one (nv : Nat) (c : Clause) (ht : ∀ x ∈ c, -x ∉ c) :
    (∃ a, Codes nv a c) ∧ ∀ a a', Codes nv a c → Codes nv a' c → ∀ j, 1 ≤ j → j ≤ nv → a j = a' j := by
  constructor
  · refine ⟨fun j => if ((nv + 1 - j : Nat) : Int) ∈ c then 2 else if -((nv + 1 - j : Nat) : Int) ∈ c then 1 else 0, fun v h1 h2 => ?_⟩
    dsimp only
    rw [show nv + 1 - (nv + 1 - v) = v by omega]
    by_cases p : (v : Int) ∈ c
    · have := ht _ p
      rw [if_pos p]
      exact ⟨⟨fun _ => p, fun _ => rfl⟩, ⟨fun e => absurd e (by decide), fun e => absurd e this⟩⟩
    · rw [if_neg p]
      by_cases q : -(v : Int) ∈ c
      · rw [if_pos q]
        exact ⟨⟨fun e => absurd e (by decide), fun e => absurd e p⟩, ⟨fun _ => q, fun _ => rfl⟩⟩
      · rw [if_neg q]
        exact ⟨⟨fun e => absurd e (by decide), fun e => absurd e p⟩, ⟨fun e => absurd e (by decide), fun e => absurd e q⟩⟩
  · intro a a' h1 h2 j j1 j2
    obtain ⟨p, q⟩ := h1 (nv + 1 - j) (by omega) (by omega)
    obtain ⟨p', q'⟩ := h2 (nv + 1 - j) (by omega) (by omega)
    rw [show nv + 1 - (nv + 1 - j) = j by omega] at p q p' q'
    have e2 : (a j).val = 2 ↔ (a' j).val = 2 := p.trans p'.symm
    have e1 : (a j).val = 1 ↔ (a' j).val = 1 := q.trans q'.symm
    have l1 := (a j).isLt
    have l2 := (a' j).isLt
    exact Fin.ext (by omega)

/-- four clauses over four variables: one of them is given twice, and one is a tautology -/
def four : List Clause := [[3, -1], [2, 4], [-1, 3, 3], [2, -4, -2], [-1], [1, 2, -4]]

example : Over 4 four := by decide

example : prepare four = [[2, 4], [-1], [-1, 3], [1, 2, -4]] := by decide +kernel

example : let m := fun l : List (Fin 3) => zddRun (zSpec 4 (prepare four)) (fun j => l.getD (4 - j) 0) 4 (zSpec 4 (prepare four)).root.1 (zSpec 4 (prepare four)).root.2
    m [1, 0, 2, 0] = true ∧ m [0, 2, 0, 2] = true ∧ m [1, 0, 0, 0] = true ∧ m [2, 2, 0, 1] = true ∧ m [2, 0, 2, 0] = false ∧ m [0, 0, 0, 0] = false ∧ m [0, 2, 0, 1] = false := by decide +kernel

end Cnf

end TdZdd
