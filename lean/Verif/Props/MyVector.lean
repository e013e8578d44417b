import Verif.MyVectorProofs3

/-!
# Property C50: `MyVector`
-/

namespace TdZdd

variable {T : Type}

/-- C50: every program that is allowed on lists runs without undefined behaviour on vectors and gives the same results; in particular every object is
constructed and destructed exactly once. At the end each vector holds its list at the beginning of an array of `capacity` cells. -/
theorem C50_sequence (d : T) (eq : T → T → Bool) (ops : List (VOp T)) (env : Nat → Option (List T)) (rs : List (VRes T))
    (h : seqRun d eq (fun _ => none) ops = some (env, rs)) :
    ∃ st, vRun d eq VSt.empty ops = some (st, rs) ∧ ∀ x,
      (st.vec x = none ↔ env x = none) ∧ ∀ v, st.vec x = some v → ∃ l, env x = some l ∧ v.size = l.length ∧ v.size ≤ v.cap ∧
        (∀ i, i < v.size → st.ram.read v.arr i = l[i]?) ∧ (v.arr ≠ 0 → ∃ cells, st.ram.blk v.arr = some cells ∧ cells.length = v.cap) ∧
        (v.arr = 0 → v.cap = 0) := by
  obtain ⟨st, e, hi⟩ := vRun_spec d eq ops vecInv_empty h
  refine ⟨st, e, fun x => ⟨⟨fun hv => ?_, hi.dead x⟩, fun v hv => ?_⟩⟩
  · cases he : env x with
    | none => rfl
    | some l => obtain ⟨v, g, _⟩ := hi.alive x l he; rw [hv] at g; cases g
  · obtain ⟨l, g1, g2⟩ := hi.of_vec hv
    refine ⟨l, g1, g2.size, ?_, fun i hi' => ?_, fun h0 => ?_, fun h0 => ?_⟩
    · cases g2 with
      | null a b c => omega
      | arr a b c d e => omega
    · have hlt : i < l.length := by rw [← g2.size]; exact hi'
      rw [g2.read hlt]
      simp [hlt]
    · cases g2 with
      | null a => exact absurd a h0
      | arr a b c d e => exact ⟨_, e, cellsOf_length d⟩
    · cases g2 with
      | null a b => exact b
      | arr a => exact absurd h0 a

/-- C50, memory: different vectors have different arrays and there are no other arrays; when no vector is alive all memory has been released. -/
theorem C50_memory (d : T) (eq : T → T → Bool) (ops : List (VOp T)) (env : Nat → Option (List T)) (rs : List (VRes T))
    (h : seqRun d eq (fun _ => none) ops = some (env, rs)) :
    ∃ st, vRun d eq VSt.empty ops = some (st, rs) ∧
      (∀ x y v w, x ≠ y → st.vec x = some v → st.vec y = some w → v.arr ≠ 0 → v.arr ≠ w.arr) ∧
      (∀ a, st.ram.blk a ≠ none → ∃ x v, st.vec x = some v ∧ v.arr = a) ∧
      ((∀ x, env x = none) → ∀ a, st.ram.blk a = none) := by
  obtain ⟨st, e, hi⟩ := vRun_spec d eq ops vecInv_empty h
  refine ⟨st, e, hi.sep, hi.own, fun h a => ?_⟩
  cases hb : st.ram.blk a with
  | none => rfl
  | some l =>
    obtain ⟨x, v, g, _⟩ := hi.own a (by rw [hb]; simp)
    rw [hi.dead x (h x)] at g
    cases g

/-! ## Operations that the code gets wrong -/

/-- `erase(first, last)` reads behind the last element unless `first` is the beginning or `last` is the end. -/
theorem C50_erase_middle (d : T) (eq : T → T → Bool) (ops : List (VOp T)) (env : Nat → Option (List T)) (rs : List (VRes T))
    (h : seqRun d eq (fun _ => none) ops = some (env, rs)) (x : Nat) (l : List T) (hx : env x = some l) (s e : Nat) (hs : 0 < s) (hse : s ≤ e)
    (he : e < l.length) : ∃ st, vRun d eq VSt.empty ops = some (st, rs) ∧ vStep d eq st (.erase x s e) = none := by
  obtain ⟨st, e1, hi⟩ := vRun_spec d eq ops vecInv_empty h
  obtain ⟨v, hv, hr⟩ := hi.alive x l hx
  refine ⟨st, e1, ?_⟩
  dsimp only [vStep, VSt.modify]
  rw [hv, Option.bind_some, vErase_none hr hs hse he]
  rfl

/-- `erase(pos)` does not change the number of elements, even when the elements are single bytes: the last element is then there twice. -/
theorem C50_erase_pos (d : T) (eq : T → T → Bool) (ops : List (VOp T)) (env : Nat → Option (List T)) (rs : List (VRes T))
    (h : seqRun d eq (fun _ => none) ops = some (env, rs)) (x : Nat) (l : List T) (hx : env x = some l) (p : Nat) (hp : p < l.length) :
    ∃ st v m', vRun d eq VSt.empty ops = some (st, rs) ∧ st.vec x = some v ∧ vErasePos st.ram v p = some (m', v) ∧
      vElems m' v = some (l.eraseIdx p ++ l.drop (l.length - 1)) := by
  obtain ⟨st, e1, hi⟩ := vRun_spec d eq ops vecInv_empty h
  obtain ⟨v, hv, hr⟩ := hi.alive x l hx
  obtain ⟨m', e2, _, h2⟩ := vErasePos_spec hi.ok hr hp
  refine ⟨st, v, m', e1, hv, e2, ?_⟩
  rw [vElems_spec h2, List.eraseIdx_eq_take_drop_succ]

/-- Self-assignment empties the vector. -/
theorem C50_self_assign : (vRun 0 (· == ·) VSt.empty [.fill 0 3 (7 : Nat), .assign 0 0, .elems 0]).map (·.2) = some [.unit, .unit, .list []] := by
  decide +kernel

/-- `push_back` of a reference to an own element is a use after free when the array is full. -/
theorem C50_push_own : (vRun 0 (· == ·) VSt.empty [.fill 0 3 (7 : Nat), .pushRef 0 0 1]).map (·.2) = none ∧
    (vRun 0 (· == ·) VSt.empty [.fill 0 3 (7 : Nat), .reserve 0 4, .pushRef 0 0 1, .elems 0]).map (·.2) = some [.unit, .unit, .unit, .list [7, 7, 7, 7]] := by
  refine ⟨?_, ?_⟩ <;> decide +kernel

/-! ## Example -/

def vecProg : List (VOp Nat) :=
  [.new 0 2, .push 0 5, .push 0 6, .push 0 7, .copy 1 0, .resize 0 4, .eq 0 1, .pushRef 1 0 2, .swap 0 1, .elems 0, .elemsRev 1, .fill 2 3 9, .assign 2 0,
    .erase 2 0 3, .elems 2, .back 2, .pop 2, .size 2, .set 0 0 8, .get 0 0, .init 0 1, .eq 0 0, .reserve 0 10, .destroy 0, .clear 1, .destroy 1, .destroy 2]

/-- a program that is allowed on lists, and its results on vectors -/
example : (seqRun 0 (· == ·) (fun _ => none) vecProg).map (·.2) = (vRun 0 (· == ·) VSt.empty vecProg).map (·.2) ∧
    ((seqRun 0 (· == ·) (fun _ => none) vecProg).map (·.2)).map (fun r => (r.drop 9).take 2) = some [.list [0, 0, 5, 6, 7, 5], .list [6, 5, 0, 0]] := by
  refine ⟨?_, ?_⟩ <;> decide +kernel

end TdZdd
