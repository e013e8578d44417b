import Verif.BuilderProofs7
import Verif.UnreductionProofs

/-! Well-formed structures used as specifications; `DdStructure(n)`; conversions. -/

namespace TdZdd

variable {N : Nat}

/-- Body of the loop of `DdStructure(int n, bool)` (`DdStructure.hpp` 88-94) with `i = k + 1`: the
rows so far and the variable `f`. -/
def universalStep (a : (Nat → List (Node N)) × NodeId) (k : Nat) : (Nat → List (Node N)) × NodeId :=
  (upd a.1 (k + 1) [fun _ => a.2], ⟨k + 1, 0⟩)

/-- `DdStructure(int n, bool)` (`DdStructure.hpp` 82-97). -/
def universal (N n : Nat) : Dd N :=
  let p := (List.range n).foldl universalStep
    ((fun r => if r = 0 then terminalRow N else []), NodeId.one)
  { table := { numRows := n + 1, row := p.1 }, root := p.2 }

/-- `DdStructure::bdd2zdd` (`DdStructure.hpp` 416-420), sequential. -/
def bdd2zdd (D : Dd (N + 1)) (n : Int) : Option (Dd (N + 1)) :=
  build (zddLookahead (bddUnreduction D.spec n))

/-- `DdStructure::zdd2bdd` (`DdStructure.hpp` 426-430), sequential. -/
def zdd2bdd (D : Dd (N + 1)) (n : Int) : Option (Dd (N + 1)) :=
  build (bddLookahead (zddUnreduction D.spec n))

variable {D : Dd N}

theorem childCode_ge {T : Table N} {f : NodeId} (h : T.Valid f) : -1 ≤ childCode f := by
  rcases h with rfl | rfl | ⟨h, _⟩
  · decide
  · decide
  · rw [childCode_pos h]; omega

theorem childCode_le (f : NodeId) : childCode f ≤ f.row := by
  unfold childCode; split <;> omega

theorem childCode_eq_pos {f : NodeId} {n : Nat} (hn : 0 < n) (h : childCode f = n) : f.row = n := by
  unfold childCode at h; split at h <;> omega

/-- reachable states of a well-formed structure are valid node ids with their own level code -/
theorem Dd.Wf.reach (h : D.Wf) {l : Int} {f : NodeId} (hr : Reach D.spec l f) :
    D.table.Valid f ∧ l = childCode f := by
  induction hr with
  | root => exact ⟨h.root, rootCode_eq h.root⟩
  | @step n f b hn _ ih =>
    have hrow := childCode_eq_pos hn ih.2.symm
    subst hrow
    rcases ih.1 with rfl | rfl | ⟨_, nd, hnd⟩
    · exact absurd hn (by decide)
    · exact absurd hn (by decide)
    · rw [Dd.child_eq hn hnd]
      exact ⟨(h.table f.row f.col nd hn hnd b).1, rfl⟩

theorem Dd.Wf.desc (h : D.Wf) : Desc D.spec := by
  have key : ∀ {n : Nat} {s : NodeId} (b : Fin N), 0 < n → Reach D.spec (n : Int) s →
      -1 ≤ (D.spec.child s n b).1 ∧ (D.spec.child s n b).1 < n := by
    intro n f b hn hr
    obtain ⟨hv, hc⟩ := h.reach hr
    have hrow := childCode_eq_pos hn hc.symm
    subst hrow
    rcases hv with rfl | rfl | ⟨_, nd, hnd⟩
    · exact absurd hn (by decide)
    · exact absurd hn (by decide)
    · rw [Dd.child_eq hn hnd]
      obtain ⟨h1, h2⟩ := h.table f.row f.col nd hn hnd b
      have := childCode_le (nd b)
      exact ⟨childCode_ge h1, by simp only; omega⟩
  refine ⟨?_, fun b hn hr => (key b hn hr).2, fun b hn hr => (key b hn hr).1⟩
  show -1 ≤ rootCode D.root
  rw [rootCode_eq h.root]; exact childCode_ge h.root

theorem Dd.Wf.lawful (h : D.Wf) : LawfulC D.spec :=
  lawfulC_of_eq h.desc (fun _ s t => by simp [Dd.spec])

theorem Dd.noMerge : NoMerge D.spec := fun _ _ => rfl

theorem Dd.root_row {D : Dd N} (h : D.Wf) : D.spec.root.1 ≤ D.root.row := by
  show rootCode D.root ≤ _
  rw [rootCode_eq h.root]; exact childCode_le _

theorem Sim.root_row {S : Type} {sp : DdSpec N S} {lab : NodeId → Option S} (h : Sim sp D lab) :
    D.root.row ≤ sp.root.1.toNat := by
  rcases h.root with ⟨e, _⟩ | ⟨e, _⟩ | ⟨_, e, _⟩
  · rw [e]; exact Nat.zero_le _
  · rw [e]; exact Nat.zero_le _
  · omega

theorem zddLookahead_root_le {S : Type} {sp : DdSpec (N + 1) S} (h : Desc sp) :
    (zddLookahead sp).root.1 ≤ max 0 sp.root.1 := by
  have hE : zddLookahead sp = ahead (genAhead (allZeroBut0 sp) sp) sp := by
    simp only [zddLookahead, zddAhead_eq]
  obtain ⟨d, h1, _, h3, _⟩ := ahead_root (test := allZeroBut0 sp) h (fun _ _ => True)
      (fun _ => trivial) (fun _ _ _ _ _ _ _ => trivial)
  rw [hE, h1]; omega

theorem bddLookahead_root_le {S : Type} {sp : DdSpec (N + 1) S} (h : Lawful sp) :
    (bddLookahead sp).root.1 ≤ max 0 sp.root.1 := by
  have hE : bddLookahead sp = ahead (genAhead (allSame sp) sp) sp := by
    simp only [bddLookahead, bddAhead_eq]
  obtain ⟨d, h1, _, h3, _⟩ := ahead_root (test := allSame sp) h.toDesc (fun _ _ => True)
      (fun _ => trivial) (fun _ _ _ _ _ _ _ => trivial)
  rw [hE, h1]; omega

theorem universal_fold (N n : Nat) : (List.range n).foldl universalStep
    ((fun r => if r = 0 then terminalRow N else []), NodeId.one) =
    ((fun r => if r = 0 then terminalRow N
      else if r ≤ n then [fun _ => if r = 1 then NodeId.one else ⟨r - 1, 0⟩] else []),
     if n = 0 then NodeId.one else ⟨n, 0⟩) := by
  induction n with
  | zero =>
    simp only [List.range_zero, List.foldl_nil, if_true]
    congr 1
    funext r
    by_cases h : r = 0
    · simp only [h, if_true]
    · rw [if_neg h, if_neg h, if_neg (by omega)]
  | succ n ih =>
    rw [List.range_succ, List.foldl_append, ih]
    simp only [List.foldl_cons, List.foldl_nil, universalStep]
    rw [if_neg (show n + 1 ≠ 0 by omega)]
    congr 1
    funext r
    unfold upd
    dsimp only
    by_cases h : r = n + 1
    · subst h
      rw [if_pos rfl, if_neg (show n + 1 ≠ 0 by omega), if_pos (Nat.le_refl _)]
      by_cases hn : n = 0
      · subst hn; rfl
      · rw [if_neg hn, if_neg (show n + 1 ≠ 1 by omega)]; rfl
    · rw [if_neg h]
      by_cases h0 : r = 0
      · rw [if_pos h0, if_pos h0]
      · rw [if_neg h0, if_neg h0]
        by_cases hle : r ≤ n
        · rw [if_pos hle, if_pos (show r ≤ n + 1 by omega)]
        · rw [if_neg hle, if_neg (show ¬ r ≤ n + 1 by omega)]

theorem universal_node? (N n r c : Nat) : (universal N n).table.node? ⟨r, c⟩ =
    if r < n + 1 then (if r = 0 then terminalRow N
      else if r ≤ n then [fun _ => if r = 1 then NodeId.one else ⟨r - 1, 0⟩] else [])[c]? else none := by
  unfold Table.node? universal
  rw [universal_fold]

theorem universal_root (N n : Nat) : (universal N n).root = if n = 0 then NodeId.one else ⟨n, 0⟩ := by
  unfold universal
  rw [universal_fold]

theorem universal_node {n r : Nat} (h1 : 1 ≤ r) (h2 : r ≤ n) :
    (universal N n).table.node? ⟨r, 0⟩ = some fun _ => if r = 1 then .one else ⟨r - 1, 0⟩ := by
  rw [universal_node?, if_pos (by omega), if_neg (by omega), if_pos h2]; rfl

theorem universal_wf (N n : Nat) : (universal N n).Wf := by
  constructor
  · intro r c nd hr hnd b
    rw [universal_node?] at hnd
    have hle : r ≤ n := by
      split at hnd
      · omega
      · cases hnd
    have hc : c = 0 := by
      rw [if_pos (by omega), if_neg (by omega), if_pos hle] at hnd
      have := getElem?_lt hnd
      simpa using this
    rw [← universal_node?] at hnd
    subst hc
    rw [universal_node hr hle] at hnd
    cases hnd
    by_cases h1 : r = 1
    · subst h1; exact ⟨.inr (.inl rfl), Nat.zero_lt_one⟩
    · simp only [if_neg h1]
      exact ⟨.inr (.inr ⟨by simp only; omega, _, universal_node (by omega) (by omega)⟩), by omega⟩
  · rw [universal_root]
    by_cases hn : n = 0
    · rw [if_pos hn]; exact .inr (.inl rfl)
    · rw [if_neg hn]
      exact .inr (.inr ⟨by simp only; omega, _, universal_node (by omega) (Nat.le_refl n)⟩)

/-- the paths of the universal diagram -/
theorem universal_accepts (N n : Nat) (a : Asg N) : ∀ r, r ≤ n →
    Accepts (universal N n).spec (childCode (if r = 0 then .one else ⟨r, 0⟩))
      (if r = 0 then .one else ⟨r, 0⟩) ((downFrom r).map fun i => (i, a i))
  | 0, _ => .one (by decide)
  | r + 1, h => by
    rw [if_neg (by omega)]
    refine (dd_accepts_pos (f := ⟨r + 1, 0⟩) (by simp) (universal_node (by omega) h)).2
      ⟨a (r + 1), (downFrom r).map fun i => (i, a i), rfl, ?_⟩
    have := universal_accepts N n a r (by omega)
    simp only [Nat.add_eq_right, Nat.add_one_sub_one]
    simpa using this

end TdZdd
