import Verif.SemanticsLemmas

/-! Small concrete specifications used by the examples next to the property theorems. -/

namespace TdZdd

/-- Sets over the levels 3, 2, 1 with at most one element; the state counts elements. -/
def atMostOne : DdSpec 2 Nat where
  root := (3, 0)
  child s l b :=
    if s + b.val > 1 then (0, s)
    else if l ≤ 1 then (-1, s + b.val) else ((l : Int) - 1, s + b.val)
  eqv _ s t := decide (s = t)
  hash _ s := s
  merge _ _ := 0

/-- Over the levels 3 and 1 (level 2 is skipped): the element 3 forces the element 1.
The state remembers whether 3 was taken. -/
def imply31 : DdSpec 2 Bool where
  root := (3, false)
  child s l b :=
    if l = 3 then (1, b = 1)
    else if s ∧ b = 0 then (0, s) else (-1, s)
  eqv _ s t := decide (s = t)
  hash _ s := if s then 1 else 0
  merge _ _ := 0

theorem atMostOne_lawful : LawfulC atMostOne := by
  refine lawfulC_of_eq ⟨by decide, ?_, ?_⟩ (fun n s t => by simp [atMostOne])
  · intro n s b hn _
    simp only [atMostOne]
    repeat' split
    all_goals simp only; omega
  · intro n s b hn _
    simp only [atMostOne]
    repeat' split
    all_goals simp only; omega

theorem imply31_lawful : LawfulC imply31 := by
  refine lawfulC_of_eq ⟨by decide, ?_, ?_⟩ (fun n s t => by simp [imply31])
  · intro n s b hn _
    simp only [imply31]
    repeat' split
    all_goals simp only; omega
  · intro n s b hn _
    simp only [imply31]
    repeat' split
    all_goals simp only; omega

/-- the assignment that is 1 exactly on the given levels -/
def asgOf (ls : List Nat) : Asg 2 := fun i => if i ∈ ls then 1 else 0

end TdZdd
