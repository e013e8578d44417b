import Verif.DataTable

/-!
# Reference semantics of the operations on `DataTable`

Tables are lists of lists; there is no memory. An operation that is undefined here is one the caller must not perform; assigning a table to itself is one that the code gets wrong.
-/

namespace TdZdd

namespace DTab

variable {T : Type}

/-- table `x` becomes `L` -/
def become (env : Nat → Option (List (List T))) (x : Nat) (L : List (List T)) (r : Out T) : Option ((Nat → Option (List (List T))) × Out T) :=
  some (upd env x (some L), r)

/-- meaning of an operation on variables that hold lists of lists; `none` if the operation is not allowed -/
def seqOp (d : T) (env : Nat → Option (List (List T))) : Op T → Option ((Nat → Option (List (List T))) × Out T)
  | .new x n => if (env x).isSome then none else become env x (List.replicate n []) .unit
  | .copy x y => (env y).bind fun L => if (env x).isSome then none else become env x L .unit
  | .assign x y => if x = y then none else (env x).bind fun _ => (env y).bind fun L => become env x L .unit
  | .destroy x => (env x).map fun _ => (upd env x none, .unit)
  | .init x n => (env x).bind fun _ => become env x (List.replicate n []) .unit
  | .setNumRows x n => (env x).bind fun L => become env x (L.take n ++ List.replicate (n - L.length) []) .unit
  | .initRow x i n => (env x).bind fun L => if i < L.length then become env x (L.set i (List.replicate n d)) .unit else none
  | .addColumn x i => (env x).bind fun L => (L[i]?).bind fun l => become env x (L.set i (l ++ [d])) (.num l.length)
  | .numRows x => (env x).map fun L => (env, .num L.length)
  | .rowSize x i => (env x).bind fun L => (L[i]?).map fun l => (env, .num l.length)
  | .totalSize x => (env x).map fun L => (env, .num (L.map List.length).sum)
  | .get x i j => (env x).bind fun L => (L[i]?).bind fun l => (l[j]?).map fun t => (env, .val t)
  | .set x i j t => (env x).bind fun L => (L[i]?).bind fun l => if j < l.length then become env x (L.set i (l.set j t)) .unit else none
  | .rows x => (env x).map fun L => (env, .rows L)

def seqOps (d : T) : (Nat → Option (List (List T))) → List (Op T) → Option ((Nat → Option (List (List T))) × List (Out T))
  | env, [] => some (env, [])
  | env, op :: ops => (seqOp d env op).bind fun r => (seqOps d r.1 ops).map fun q => (q.1, r.2 :: q.2)

end DTab

end TdZdd
