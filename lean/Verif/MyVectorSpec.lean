import Verif.MyVector

/-!
# Reference semantics of the operations on `MyVector`

`seqStep` works on lists; there is no memory. An operation that is undefined here is one the caller must not
perform, or one that the code gets wrong (see `Props/MyVector.lean`).
-/

namespace TdZdd

variable {T : Type}

/-- Meaning of an operation on variables that hold lists; `none` if the operation is not allowed. -/
def seqStep (d : T) (eq : T → T → Bool) (env : Nat → Option (List T)) : VOp T → Option ((Nat → Option (List T)) × VRes T)
  | .new x n => if (env x).isSome then none else some (upd env x (some (List.replicate n d)), .unit)
  | .fill x n t => if (env x).isSome then none else some (upd env x (some (List.replicate n t)), .unit)
  | .copy x y => (env y).bind fun l => if (env x).isSome then none else some (upd env x (some l), .unit)
  | .assign x y => if x = y then none else (env x).bind fun _ => (env y).map fun l => (upd env x (some l), .unit)
  | .swap x y => (env x).bind fun l => (env y).map fun l' => (upd (upd env x (some l')) y (some l), .unit)
  | .destroy x => (env x).map fun _ => (upd env x none, .unit)
  | .reserve x _ => (env x).map fun _ => (env, .unit)
  | .init x n => (env x).map fun _ => (upd env x (some (List.replicate n d)), .unit)
  | .resize x n => (env x).map fun l => (upd env x (some (l.take n ++ List.replicate (n - l.length) d)), .unit)
  | .clear x => (env x).map fun _ => (upd env x (some []), .unit)
  | .push x t => (env x).map fun l => (upd env x (some (l ++ [t])), .unit)
  | .pushRef x y i => if x = y then none else (env y).bind fun l' => l'[i]?.bind fun t => (env x).map fun l => (upd env x (some (l ++ [t])), .unit)
  | .pop x => (env x).map fun l => (upd env x (some l.dropLast), .unit)
  | .set x i t => (env x).bind fun l => if i < l.length then some (upd env x (some (l.set i t)), .unit) else none
  | .erase x s e => (env x).bind fun l =>
      if s ≤ e ∧ e ≤ l.length ∧ (s = 0 ∨ e = l.length) then some (upd env x (some (l.take s ++ l.drop e)), .unit) else none
  | .get x i => (env x).bind fun l => l[i]?.map fun t => (env, .val t)
  | .back x => (env x).bind fun l => l.getLast?.map fun t => (env, .val t)
  | .size x => (env x).map fun l => (env, .num l.length)
  | .eq x y => (env x).bind fun l => (env y).map fun l' =>
      (env, .bool (decide (l.length = l'.length) && (l.zip l').all fun p => eq p.1 p.2))
  | .elems x => (env x).map fun l => (env, .list l)
  | .elemsRev x => (env x).map fun l => (env, .list l.reverse)

def seqRun (d : T) (eq : T → T → Bool) : (Nat → Option (List T)) → List (VOp T) → Option ((Nat → Option (List T)) × List (VRes T))
  | env, [] => some (env, [])
  | env, op :: ops => (seqStep d eq env op).bind fun r => (seqRun d eq r.1 ops).map fun q => (q.1, r.2 :: q.2)

end TdZdd
