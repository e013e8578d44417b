import Verif.Queens
import Verif.NAry
import Verif.Interleave
import Verif.Builder
import Verif.Equality
import Verif.Subsetter

/-!
# Model of the diagrams made by the application `ddqueens` (`apps/ddqueens/ddqueens.cpp` 130-186)

Without the option `-p` (parallel algorithms). `none` is undefined behaviour.
-/

namespace TdZdd.Queens

/-- a structure from a specification, then `zddReduce()` -/
def made {S : Type} (sp : DdSpec 2 S) : Option (Dd 2) := (build sp).bind fun D => D.zddReduce

/-- `zddSubset(spec)`, then `zddReduce()` -/
def cutBy {S : Type} (D : Dd 2) (sp : DdSpec 2 S) (shared : Bool) : Option (Dd 2) := (zddSubset D sp shared).bind fun D => D.zddReduce

/-- no option (183-184) -/
def plain (n : Nat) : Option (Dd 2) := made (spec false n none)

/-- option `-rook` (173-181) -/
def viaRooks (n : Nat) : Option (Dd 2) := (made (spec true n none)).bind fun D => cutBy D (spec false n none) false

/-- option `-colored1` (133-137) -/
def colored1 (n : Nat) : Option (Dd 2) := made (cspec false n)

/-- `ddk` (151-161): the node table of `oh` is shared by the copy -/
def colourK (n : Nat) (nqs : List (Dd 2)) (oh : Dd 2) (k : Nat) : Option (Dd 2) :=
  nqs[k]?.bind fun D => cutBy oh (Interleave.colored ((List.replicate n (universal 2 (n * n))).set k D)) true

/-- loop over the colours below the highest one (150-170) -/
def colourLoop (n : Nat) (nqs : List (Dd 2)) (oh : Dd 2) : (k : Nat) → (dd : Dd 2) → Option (Dd 2)
  | 0, dd => some dd
  | k + 1, dd => (colourK n nqs oh k).bind fun Dk => (cutBy dd Dk.spec false).bind fun dd => colourLoop n nqs oh k dd

/-- option `-colored` (138-171) -/
def colouredApp (n : Nat) : Option (Dd 2) :=
  ((List.range n).mapM fun k => made (spec false n (some k))).bind fun nqs =>
  (build (NAry.oneHotNary n (n * n))).bind fun oh =>
  (colourK n nqs oh (n - 1)).bind fun dd => colourLoop n nqs oh (n - 1) dd

end TdZdd.Queens
