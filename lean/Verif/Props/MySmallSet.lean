import Verif.MySmallSetProofs2

/-!
# Property C51: `MySmallSet`
-/

namespace TdZdd

/-- C51: every program that is allowed for finite sets runs on `MySmallSet` without undefined behaviour and with the same results; iteration is in
ascending order. -/
theorem C51_set (ops : List SsOp) (ft : Nat → Option FSet) (rs : List SsRes) (h : fsRun (fun _ => none) ops = some (ft, rs)) :
    ∃ st, ssRun (fun _ => none) ops = some (st, rs) := by
  obtain ⟨st, e, _⟩ := ssRun_spec ops (st := fun _ => none) (fun _ => rfl) h
  exact ⟨st, e⟩

/-- C51, representation: the array holds exactly the elements of the set, in ascending order without duplicates. -/
theorem C51_sorted (ops : List SsOp) (ft : Nat → Option FSet) (rs : List SsRes) (h : fsRun (fun _ => none) ops = some (ft, rs)) :
    ∃ st, ssRun (fun _ => none) ops = some (st, rs) ∧ ∀ x f, ft x = some f → ∃ (s : SSet) (es : List Int), st x = some s ∧ s.size = es.length ∧ s.arr.take s.size = es.map some ∧
      (∀ i j (hi : i < es.length) (hj : j < es.length), i < j → es[i] < es[j]) ∧ ∀ e, e ∈ es ↔ e ∈ f.els := by
  obtain ⟨st, e, k⟩ := ssRun_spec ops (st := fun _ => none) (fun _ => rfl) h
  refine ⟨st, e, fun x f hx => ?_⟩
  obtain ⟨s, hs, ok⟩ := k.some hx
  obtain ⟨es, r, hp⟩ := ok.rep
  obtain ⟨rest, ha⟩ := r.arr
  refine ⟨s, es, hs, r.size, ?_, fun i j hi hj hij => List.pairwise_iff_getElem.1 r.sorted i j hi hj hij, fun _ => hp.mem_iff⟩
  rw [ha, r.size]
  simp

/-- C51, exceptions: `add` throws exactly if the set has `N - 1` elements. -/
theorem C51_throws (ops : List SsOp) (ft : Nat → Option FSet) (rs : List SsRes) (h : fsRun (fun _ => none) ops = some (ft, rs)) (x : Nat) (f : FSet) (hx : ft x = some f)
    (ht : f.throws = true) (e : Int) :
    ∃ st s st' r, ssRun (fun _ => none) ops = some (st, rs) ∧ st x = some s ∧ ssStep st (.add x e) = some (st', r) ∧ (r = .throws ↔ f.els.length = s.N - 1) ∧ f.els.length ≤ s.N - 1 := by
  obtain ⟨st, e1, k⟩ := ssRun_spec ops (st := fun _ => none) (fun _ => rfl) h
  obtain ⟨s, hs, ok⟩ := k.some hx
  have h1 := ok.fix ht
  have h2 := ok.len
  by_cases hc : f.els.length < f.cap
  · have : fsStep ft (.add x e) = some (upd ft x (some { f with els := FSet.insert f.els e }), .unit) := by
      dsimp only [fsStep]
      rw [hx, Option.bind_some, if_pos hc]
    obtain ⟨st', e2, _⟩ := ssStep_spec k this
    exact ⟨st, s, st', _, e1, hs, e2, ⟨fun h => (by cases h), fun h => by omega⟩, by omega⟩
  · have : fsStep ft (.add x e) = some (ft, .throws) := by
      dsimp only [fsStep]
      rw [hx, Option.bind_some, if_neg hc, if_pos ht]
    obtain ⟨st', e2, _⟩ := ssStep_spec k this
    exact ⟨st, s, st', _, e1, hs, e2, ⟨fun _ => by omega, fun _ => rfl⟩, by omega⟩

/-- Example: a program with three sets. -/
def smallSetProg : List SsOp :=
  [.new 0 5, .add 0 4, .add 0 (-2), .add 0 9, .add 0 4, .elems 0, .add 0 5, .add 0 6, .remove 0 4, .remove 0 7, .includes 0 4, .includes 0 9, .newCopy 1 [9, 5, 9, -2], .eq 0 1, .revElems 1,
    .copy 2 0, .remove 2 5, .eq 0 2, .containsAll 0 [-2, 9], .intersects 2 [5, 5, 9], .equals 2 [-2, 9], .get 2 1, .clear 2, .isEmpty 2, .size 0, .destroy 1]

example : (fsRun (fun _ => none) smallSetProg).map (·.2) =
      some [.unit, .unit, .unit, .unit, .unit, .list [-2, 4, 9], .unit, .throws, .unit, .unit, .bool false, .bool true, .unit, .bool true, .list [9, 5, -2], .unit, .unit, .bool false, .bool true,
        .bool true, .bool true, .elem 9, .unit, .bool true, .num 3, .unit] ∧
    (ssRun (fun _ => none) smallSetProg).map (·.2) = (fsRun (fun _ => none) smallSetProg).map (·.2) := by
  refine ⟨?_, ?_⟩ <;> decide +kernel

/-! ## Operations that the code gets wrong -/

/-- Adding an element that is in the set throws an exception when the set is full, though nothing would be added. -/
theorem C51_add_full (s : SSet) (e : Int) (hN : 0 < s.N) (hs : s.size = s.N - 1) : ssAdd s e = some (s, true) := by
  unfold ssAdd
  rw [if_pos ⟨hN, by omega⟩]

/-- such a set, with the element -/
example : ((ssRun (fun _ => none) [.new 0 2, .add 0 7]).bind fun r => (r.1 0).map fun s => (s.N, s.size, s.arr)) = some (2, 1, [some 7, none]) ∧
    (ssRun (fun _ => none) [.new 0 2, .add 0 7, .includes 0 7, .add 0 7]).map (·.2) = some [.unit, .unit, .bool true, .throws] := by
  refine ⟨?_, ?_⟩ <;> decide +kernel

/-- `MySmallSetOnPool` does not check its capacity: one element more is written behind the array, in the memory of another object. -/
theorem C51_pool_overflow (n : Nat) (es : List Int) (s : SSet) (hs : SsRep s es) (hn : s.arr.length = n) (hl : es.length = n) (h0 : s.N = 0) (e : Int) (he : ∀ a ∈ es, a < e) :
    ssAdd s e = none := by
  unfold ssAdd
  rw [if_neg (by omega), hs.size]
  have hout : ∀ k, k = s.arr.length → aSet s.arr k e = none := fun k hk => by unfold aSet; rw [if_neg (by omega)]
  cases hk : es.length with
  | zero =>
    unfold ssAddLoop
    rw [hout 0 (by omega)]
    rfl
  | succ k =>
    unfold ssAddLoop
    have hlt : k < es.length := by omega
    have := he es[k] (List.getElem_mem ..)
    rw [hs.get hlt]
    dsimp only [Option.bind_some]
    rw [if_neg (by omega), hout (k + 1) (by omega)]
    rfl

example : (ssRun (fun _ => none) [.newPool 0 1, .add 0 7, .add 0 8]).isNone = true ∧ (ssRun (fun _ => none) [.newPool 0 2, .add 0 7, .add 0 8]).isSome = true := by
  refine ⟨?_, ?_⟩ <;> decide +kernel

/-- For a sorted container with duplicates `containsAll` and `equals` give wrong answers. -/
theorem C51_duplicates : (ssRun (fun _ => none) [.new 0 5, .add 0 1, .add 0 2, .containsAll 0 [1, 1], .equals 0 [1, 2, 2]]).map (·.2.drop 3) = some [.bool false, .bool false] := by
  decide +kernel

end TdZdd
