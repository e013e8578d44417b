import Verif.GraphillionSpec

/-!
# What the files of the readers of `Graph` mean

Nothing here refers to the code. White space and integers are those of `GraphillionSpec.lean`.
-/

namespace TdZdd

namespace Rd

open Gz

/-- a word: without white space, ASCII characters only -/
structure Word (w : List Char) : Prop where
  ne : w ≠ []
  ink : ∀ c ∈ w, ¬ Blank [c]
  ascii : ∀ c ∈ w, c.toNat < 128

/-- The text `r` is empty or begins with white space. -/
def Cut (r : List Char) : Prop := ∀ c r', r = c :: r' → Blank [c]

/-- the words of a text -/
inductive Words : List Char → List (List Char) → Prop
  | done {s : List Char} : Blank s → Words s []
  | cons {s w r : List Char} {ws : List (List Char)} : Blank s → Word w → Cut r → Words r ws → Words (s ++ (w ++ r)) (w :: ws)

/-- the numbers of a text -/
inductive Ints : List Char → List Int → Prop
  | done {s : List Char} : Blank s → Ints s []
  | cons {s x r : List Char} {v : Int} {vs : List Int} : Blank s → Integer x v → Cut r → Ints r vs → Ints (s ++ (x ++ r)) (v :: vs)

/-- the text with these lines -/
def unlines (ls : List (List Char)) : List Char := ls.flatMap fun l => l ++ ['\n']

end Rd

end TdZdd
