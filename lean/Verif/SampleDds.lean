import Verif.Structure
import Verif.ListLemmas

/-! Hand-written small structures for the examples next to the property theorems, with a checker for `Dd.Wf`. -/

namespace TdZdd

/-- a binary node -/
def nd2 (x y : NodeId) : Node 2 := fun b => if b = 0 then x else y
/-- a ternary node -/
def nd3 (x y z : NodeId) : Node 3 := fun b => if b = 0 then x else if b = 1 then y else z

/-- a structure from the rows of levels 1, 2, … -/
def mkDd {N : Nat} (rows : List (List (Node N))) (root : NodeId) : Dd N where
  table := ⟨rows.length + 1, fun i => if i = 0 then terminalRow N else (rows[i - 1]?).getD []⟩
  root := root

def validCheck {N : Nat} (T : Table N) (f : NodeId) : Bool :=
  f == .zero || f == .one || (decide (0 < f.row) && (T.node? f).isSome)

def wfCheck {N : Nat} (D : Dd N) : Bool :=
  validCheck D.table D.root && (List.range D.table.numRows).all fun i => i == 0 ||
    (D.table.row i).all fun nd => (List.finRange N).all fun b => validCheck D.table (nd b) && decide ((nd b).row < i)

theorem valid_of_check {N : Nat} {T : Table N} {f : NodeId} (h : validCheck T f = true) : T.Valid f := by
  unfold validCheck at h
  simp only [Bool.or_eq_true, Bool.and_eq_true, beq_iff_eq, decide_eq_true_eq, Option.isSome_iff_exists] at h
  rcases h with (h | h) | h
  · exact .inl h
  · exact .inr (.inl h)
  · exact .inr (.inr h)

theorem wf_of_check {N : Nat} {D : Dd N} (h : wfCheck D = true) : D.Wf := by
  unfold wfCheck at h
  simp only [Bool.and_eq_true, List.all_eq_true, Bool.or_eq_true, beq_iff_eq, List.mem_range, List.mem_finRange,
    true_implies, decide_eq_true_eq] at h
  refine ⟨?_, valid_of_check h.1⟩
  intro r c nd h0 hn b
  unfold Table.node? at hn
  dsimp only at hn
  by_cases hr : r < D.table.numRows
  · rw [if_pos hr] at hn
    have := (h.2 r hr).resolve_left (by omega) nd (List.mem_iff_getElem?.2 ⟨c, hn⟩) b
    exact ⟨valid_of_check this.1, this.2⟩
  · rw [if_neg hr] at hn; cases hn

/-- no two columns of a row hold the same node -/
def uniqCheck {N : Nat} (T : Table N) : Bool :=
  (List.range T.numRows).all fun i => (List.range (T.row i).length).all fun j => (List.range (T.row i).length).all fun k =>
    j == k || match (T.row i)[j]?, (T.row i)[k]? with
      | some x, some y => !decide (∀ b, x b = y b)
      | _, _ => true

theorem unique_of_check {N : Nat} {T : Table N} (h : uniqCheck T = true) {f g : NodeId} {nd : Node N} (hr : f.row = g.row)
    (hf : T.node? f = some nd) (hg : T.node? g = some nd) : f = g := by
  unfold uniqCheck at h
  simp only [List.all_eq_true, List.mem_range, Bool.or_eq_true, beq_iff_eq] at h
  unfold Table.node? at hf hg
  rw [← hr] at hg
  by_cases hn : f.row < T.numRows
  · rw [if_pos hn] at hf hg
    have := h f.row hn f.col (getElem?_lt hf) g.col (getElem?_lt hg)
    rw [hf, hg] at this
    cases f; cases g
    simp only at hr this
    rw [hr]
    rcases this with e | e
    · rw [e]
    · simp at e
  · rw [if_neg hn] at hf; cases hf

/-- Levels 1: `(⊥,⊤) (⊤,⊥) (⊥,⊤)`; 2: `(1:0, 1:2) (1:1, ⊥)`; 3: `(2:0, 2:1)`: duplicate and redundant nodes. -/
def dupDd : Dd 2 := mkDd [[nd2 .zero .one, nd2 .one .zero, nd2 .zero .one],
  [nd2 ⟨1, 0⟩ ⟨1, 2⟩, nd2 ⟨1, 1⟩ .zero], [nd2 ⟨2, 0⟩ ⟨2, 1⟩]] ⟨3, 0⟩

theorem dupDd_wf : dupDd.Wf := wf_of_check (by decide +kernel)

/-- A ternary structure with duplicate and redundant nodes. -/
def triDd : Dd 3 := mkDd [[nd3 .zero .one .zero, nd3 .one .zero .zero, nd3 .zero .one .zero, nd3 .one .one .one],
  [nd3 ⟨1, 0⟩ ⟨1, 1⟩ ⟨1, 2⟩, nd3 ⟨1, 1⟩ ⟨1, 1⟩ ⟨1, 1⟩, nd3 ⟨1, 3⟩ .zero .zero],
  [nd3 ⟨2, 0⟩ ⟨2, 1⟩ ⟨2, 2⟩]] ⟨3, 0⟩

theorem triDd_wf : triDd.Wf := wf_of_check (by decide +kernel)

end TdZdd
