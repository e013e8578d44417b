import Verif.Semantics

/-!
# Model of `DepthFirstSearcher` (`dd/DepthFirstSearcher.hpp`)

`std::rand()` is an arbitrary sequence. The state blocks form a stack (`statePool`), so a state is an argument of the
recursion. `none` is undefined behaviour (failed assertion), a thrown exception is `some none`. Destructors of
states are not modelled.
-/

namespace TdZdd

variable {N : Nat} {S : Type}

/-- Number of calls of `std::rand()` so far, and `valueList` (42-43). -/
abbrev SearchSt (N : Nat) := Nat × List (Nat × Fin N)

/-- The loop over the branches in `findOneInstanceStep` (88-107); `recur` is the recursive call. -/
def searchLoop (sp : DdSpec (N + 1) S) (recur : S → Nat → SearchSt (N + 1) → Option (Bool × SearchSt (N + 1)))
    (p : S) (i b0 : Nat) : List Nat → SearchSt (N + 1) → Option (Bool × SearchSt (N + 1))
  | [], st => some (false, st)
  | bb :: bs, st =>
    let b : Fin (N + 1) := ⟨(b0 + bb) % (N + 1), Nat.mod_lt _ (Nat.succ_pos N)⟩
    let c := sp.child p i b
    (if c.1 ≤ 0 then some (decide (c.1 ≠ 0), st)
      else if c.1 < i then recur c.2 c.1.toNat st
      else none).bind fun r =>
    if r.1 then some (true, (r.2.1, r.2.2 ++ [(i, b)])) else searchLoop sp recur p i b0 bs r.2

/-- `findOneInstanceStep(p, i)` (83-111). `fuel` bounds the recursion depth; `i` suffices as levels decrease. -/
def searchStep (sp : DdSpec (N + 1) S) (rnd : Nat → Nat) : (fuel : Nat) → S → (i : Nat) → SearchSt (N + 1) →
    Option (Bool × SearchSt (N + 1))
  | 0, _, _, _ => none
  | fuel + 1, p, i, st =>
    searchLoop sp (searchStep sp rnd fuel) p i (rnd st.1 % (N + 1)) (List.range (N + 1)) (st.1 + 1, st.2)

/-- `findOneInstance()` (58-80). -/
def findOneInstance (sp : DdSpec (N + 1) S) (rnd : Nat → Nat) : Option (Option (List (Nat × Fin (N + 1)))) :=
  let n := sp.root.1
  (if n ≤ 0 then some (decide (n ≠ 0), ((0, []) : SearchSt (N + 1)))
    else searchStep sp rnd n.toNat sp.root.2 n.toNat (0, [])).map fun r => if r.1 then some r.2.2 else none

end TdZdd
