import Verif.IndexFineProofs
import Verif.Props.ReducerFine

/-!
# Property C97: the parallel `makeIndex` with interleaved memory accesses

`IdxFine.makeIndex n T ths sched` models `makeIndex(true)` where `ths` threads share the columns of a row in any way and their accesses of `lowest`, `lowerMark` and
`myLower` interleave in any way.
-/

namespace TdZdd

namespace IdxFine

variable {N : Nat}

/-- C97: however the accesses interleave, the tables are those of the sequential `makeIndex`: `lowerLevels(i)` are, in increasing order, the levels below `i` to which a
node of level `i` but no node of a higher level refers; `higherLevels(r)` are, in decreasing order, the levels whose lowest referred level is `r`. -/
theorem _root_.TdZdd.C97_index (n : Nat) (T : Rows N) (hd : ∀ i, 1 ≤ i → i ≤ n → ∀ nd ∈ T i, ∀ b, (nd b).row < i) (ths : Nat) (sched : Nat → ISched)
    (hs : ∀ i, 1 ≤ i → i ≤ n → (sched i).Ok ths (T i).length) :
    ∃ hi lo, makeIndex n T ths sched = some (hi, lo) ∧ TdZdd.makeIndex n T = some (hi, lo) ∧
      (∀ i r, r ∈ lo i ↔ 1 ≤ i ∧ i ≤ n ∧ 0 < r ∧ r < i ∧ (∃ nd ∈ T i, ∃ b, (nd b).row = r) ∧ ∀ i', i < i' → i' ≤ n → ¬ ∃ nd ∈ T i', ∃ b, (nd b).row = r) ∧
      (∀ i, (lo i).Pairwise (· < ·)) ∧
      (∀ r i, i ∈ hi r ↔ 1 ≤ i ∧ i ≤ n ∧ (r = i ∨ 0 < r ∧ ∃ nd ∈ T i, ∃ b, (nd b).row = r) ∧ r ≤ i ∧ ∀ nd ∈ T i, ∀ b, 0 < (nd b).row → r ≤ (nd b).row) ∧
      ∀ r, (hi r).Pairwise (· > ·) := by
  obtain ⟨hi, lo, e, h⟩ := makeIndex_spec hd
  obtain ⟨h1, h2, h3⟩ := index_shape hd e
  refine ⟨hi, lo, (makeIndex_eq hd hs).trans e, e, h, h1, fun r i => (h2 r i).trans ?_, h3⟩
  refine and_congr_right fun _ => and_congr_right fun _ => and_congr_right fun _ => and_congr_right fun _ => ⟨?_, ?_⟩
  · intro k nd hnd b hp
    exact k _ hp ⟨nd, hnd, b, rfl⟩
  · rintro k r' hp ⟨nd, hnd, b, rfl⟩
    exact k nd hnd b hp

/-- C97: `reduce<BDD,ZDD>()` with `useMP`, also with the interleaved `makeIndex`, is the reduction of C96, so that C96 holds for it. -/
theorem _root_.TdZdd.C97_reduce (bdd zdd : Bool) (D : Dd (N + 1)) (hw : D.Wf) {ths tasks : Nat} {isched : Nat → ISched} {sched : Nat → Fine.Sched}
    (ht : 0 < tasks) (hr : D.root.row + tasks ≤ 2 ^ 20)
    (hi : ∀ i, 1 ≤ i → i ≤ D.table.numRows - 1 → (isched i).Ok ths (D.table.row i).length)
    (hs : ∀ i, 1 ≤ i → i ≤ D.root.row → (sched i).Ok ths tasks (D.table.row i).length) :
    Fine.Run D ths tasks (fun i => rowEdges (D.table.row i)) sched ∧
      reduce bdd zdd ths tasks isched sched D = Fine.reduce bdd zdd ths tasks (fun i => rowEdges (D.table.row i)) sched D :=
  ⟨⟨ht, hr, fun _ _ => .refl _, hs⟩, reduce_eq hw bdd zdd tasks sched hi⟩

/-- C97: for example `zddReduce()`. -/
theorem _root_.TdZdd.C97_zddReduce (D : Dd (N + 1)) (hw : D.Wf) {ths tasks : Nat} {isched : Nat → ISched} {sched : Nat → Fine.Sched}
    (ht : 0 < tasks) (hr : D.root.row + tasks ≤ 2 ^ 20)
    (hi : ∀ i, 1 ≤ i → i ≤ D.table.numRows - 1 → (isched i).Ok ths (D.table.row i).length)
    (hs : ∀ i, 1 ≤ i → i ≤ D.root.row → (sched i).Ok ths tasks (D.table.row i).length) :
    ∃ D' Ds, reduce false true ths tasks isched sched D = some D' ∧ D'.Wf ∧ (∀ n, D.root.row ≤ n → ∀ a, ZddMem D'.spec n a ↔ ZddMem D.spec n a) ∧
      D.zddReduce = some Ds ∧ ddEq false D' Ds = some true := by
  obtain ⟨h1, h2⟩ := C97_reduce false true D hw ht hr hi hs
  obtain ⟨D', Ds, e, k1, k2, _, _, _, k3, k4⟩ := C96_zddReduce D hw h1
  exact ⟨D', Ds, h2.trans e, k1, k2, k3, k4⟩

/-- two threads, even columns on thread 0, odd ones on thread 1, taking turns -/
def iturns (m : Nat) : ISched where
  cols y := if y = 0 then (List.range m).filter (· % 2 = 0) else if y = 1 then (List.range m).filter (· % 2 = 1) else []
  w := (List.range 100).map (· % 2)

theorem iturns_ok (m : Nat) : (iturns m).Ok 2 m := by
  show ((iturns m).cols 0 ++ ((iturns m).cols 1 ++ [])).Perm _
  rw [List.append_nil]
  exact Fine.halves_perm m

/-- a table whose row 3 refers to rows 2 and 1 several times -/
def deep : Rows 2 := fun i =>
  if i = 1 then [nd2 .zero .one]
  else if i = 2 then [nd2 ⟨1, 0⟩ .one, nd2 .zero ⟨1, 0⟩]
  else if i = 3 then [nd2 ⟨2, 0⟩ ⟨1, 0⟩, nd2 ⟨2, 1⟩ ⟨1, 0⟩, nd2 ⟨1, 0⟩ ⟨2, 0⟩]
  else if i = 4 then [nd2 ⟨3, 0⟩ ⟨3, 1⟩, nd2 ⟨3, 2⟩ ⟨2, 0⟩]
  else []

theorem deep_down : ∀ i, 1 ≤ i → i ≤ 4 → ∀ nd ∈ deep i, ∀ b, (nd b).row < i := by
  intro i h1 h2
  have : i = 1 ∨ i = 2 ∨ i = 3 ∨ i = 4 := by omega
  rcases this with rfl | rfl | rfl | rfl <;> decide +kernel

example : (makeIndex 4 deep 2 fun i => iturns (deep i).length).map (fun r => ((List.range 5).map r.1, (List.range 5).map r.2)) =
    some ([[], [3, 2, 1], [4], [], []], [[], [], [], [1], [2, 3]]) := by decide +kernel

example : ∃ hi lo, (makeIndex 4 deep 2 fun i => iturns (deep i).length) = some (hi, lo) ∧ (∀ i, (lo i).Pairwise (· < ·)) ∧ ∀ r, (hi r).Pairwise (· > ·) := by
  obtain ⟨hi, lo, h1, _, _, h2, _, h3⟩ := C97_index 4 deep deep_down 2 (fun i => iturns (deep i).length) fun _ _ _ => iturns_ok _
  exact ⟨hi, lo, h1, h2, h3⟩

example : ∃ D' Ds, reduce false true 2 3 (fun i => iturns (dupDd.table.row i).length) (fun i => Fine.turns (dupDd.table.row i).length) dupDd = some D' ∧ dupDd.zddReduce = some Ds ∧
    ddEq false D' Ds = some true := by
  obtain ⟨D', Ds, h1, _, _, h2, h3⟩ := C97_zddReduce dupDd dupDd_wf (ths := 2) (tasks := 3) (by decide) (by decide) (fun i _ _ => iturns_ok (dupDd.table.row i).length) (fun i _ _ => Fine.turns_ok (dupDd.table.row i).length)
  exact ⟨D', Ds, h1, h2, h3⟩

/-- what a thread that is about to access a shared variable outside of a critical section does: reads of `lowest`, reads and writes of the marks -/
inductive Acc where
  | readLow | readMark (r : Nat) | writeMy (r : Nat) | writeMark (r : Nat)
deriving DecidableEq

/-- the next access outside of the critical section -/
def next (row : List (Node N)) (th : Th N) : Option Acc :=
  match th.rest with
  | [] => none
  | e :: _ =>
    (row[e.1]?).bind fun nd =>
      if (nd e.2).row = 0 then none
      else
        match th.pc with
        | .test => some .readLow
        | .crit => none
        | .mark => some (.readMark (nd e.2).row)
        | .setMy => some (.writeMy (nd e.2).row)
        | .setMark => some (.writeMark (nd e.2).row)

/-- a thread is about to enter the critical section -/
def atCrit (th : Th N) : Bool :=
  match th.pc with
  | .crit => true
  | _ => false

/-- C97: there are executions where one thread is about to write `lowest` in the critical section while another one is about to read it outside, executions where one
thread is about to read the mark that another one is about to write, and executions where two threads are about to write the same mark. By the C++ standard these are data
races, although in this model they do no harm. -/
theorem _root_.TdZdd.C97_races : ∃ (n : Nat) (T : Rows 2) (i : Nat) (sched : ISched), (∀ i, 1 ≤ i → i ≤ n → ∀ nd ∈ T i, ∀ b, (nd b).row < i) ∧ 1 ≤ i ∧ i ≤ n ∧ sched.Ok 2 (T i).length ∧
    (∃ w s, exec n (T i) 2 w (threads sched.cols, { lowest := i, my := fun _ => false, mark := fun _ => false }) = some s ∧ atCrit (s.1 0) = true ∧ next (T i) (s.1 1) = some .readLow) ∧
    (∃ w s r, exec n (T i) 2 w (threads sched.cols, { lowest := i, my := fun _ => false, mark := fun _ => false }) = some s ∧ next (T i) (s.1 0) = some (.writeMark r) ∧ next (T i) (s.1 1) = some (.readMark r)) ∧
    ∃ w s r, exec n (T i) 2 w (threads sched.cols, { lowest := i, my := fun _ => false, mark := fun _ => false }) = some s ∧ next (T i) (s.1 0) = some (.writeMark r) ∧ next (T i) (s.1 1) = some (.writeMark r) := by
  refine ⟨4, deep, 3, iturns 3, deep_down, by decide, by decide, iturns_ok 3, ?_, ?_, ?_⟩
  · have h : (exec 4 (deep 3) 2 [0] (threads (iturns 3).cols, { lowest := 3, my := fun _ => false, mark := fun _ => false })).map (fun s => (atCrit (s.1 0), next (deep 3) (s.1 1))) =
        some (true, some .readLow) := by decide +kernel
    obtain ⟨s, h1, h2⟩ := Option.map_eq_some_iff.1 h
    exact ⟨_, s, h1, congrArg Prod.fst h2, congrArg Prod.snd h2⟩
  · have h : (exec 4 (deep 3) 2 [0, 0, 0, 0, 1] (threads (iturns 3).cols, { lowest := 3, my := fun _ => false, mark := fun _ => false })).map (fun s => (next (deep 3) (s.1 0), next (deep 3) (s.1 1))) =
        some (some (.writeMark 2), some (.readMark 2)) := by decide +kernel
    obtain ⟨s, h1, h2⟩ := Option.map_eq_some_iff.1 h
    exact ⟨_, s, 2, h1, congrArg Prod.fst h2, congrArg Prod.snd h2⟩
  · have h : (exec 4 (deep 3) 2 [0, 0, 0, 1, 1, 0, 1] (threads (iturns 3).cols, { lowest := 3, my := fun _ => false, mark := fun _ => false })).map (fun s => (next (deep 3) (s.1 0), next (deep 3) (s.1 1))) =
        some (some (.writeMark 2), some (.writeMark 2)) := by decide +kernel
    obtain ⟨s, h1, h2⟩ := Option.map_eq_some_iff.1 h
    exact ⟨_, s, 2, h1, congrArg Prod.fst h2, congrArg Prod.snd h2⟩

end IdxFine

end TdZdd
