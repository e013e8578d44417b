import Verif.Stretch
import Verif.TableSem

/-! Proofs about `stretchBottom`. -/

namespace TdZdd

variable {N : Nat}

theorem stretchStep_row (g : NodeId → NodeId) {t i : Nat} (h : t ≠ i) (T : Table N) (r : Nat) :
    (stretchStep g t i T).row r = if r = i then [] else if r = t then (T.row i).map fun nd b => g (nd b) else T.row r := by
  unfold stretchStep Table.initRow
  dsimp only
  unfold upd
  by_cases h1 : r = i
  · simp [h1]
  · rw [if_neg h1, if_neg h1]
    by_cases h2 : r = t
    · rw [if_pos h2, if_pos h2, if_neg (fun e => h e.symm)]
    · rw [if_neg h2, if_neg h2, if_neg h2]

theorem stretchStep_numRows (g : NodeId → NodeId) (t i : Nat) (T : Table N) : (stretchStep g t i T).numRows = T.numRows := rfl

/-- the loop that moves levels up -/
theorem up_fold {d : Nat} (hd : 0 < d) (n0 : Nat) (T : Table N) : ∀ k, k ≤ n0 →
    ((List.range k).map fun j => n0 - j).foldl (fun T i => stretchStep (liftId d) (i + d) i T) T =
      ⟨T.numRows, fun r => if r ≤ n0 - k then T.row r else if r ≤ n0 then
        (if r ≤ n0 - k + d then [] else (T.row (r - d)).map fun nd b => liftId d (nd b)) else
        if r ≤ n0 - k + d then T.row r else if r ≤ n0 + d then (T.row (r - d)).map fun nd b => liftId d (nd b) else T.row r⟩ := by
  intro k
  induction k with
  | zero =>
    intro _
    simp only [List.range_zero, List.map_nil, List.foldl_nil]
    cases T with
    | mk nr row =>
      congr 1
      funext r
      dsimp only
      repeat' split
      all_goals first | rfl | omega
  | succ k ih =>
    intro hk
    rw [List.range_succ, List.map_append, List.foldl_append, ih (by omega)]
    simp only [List.map_cons, List.map_nil, List.foldl_cons, List.foldl_nil]
    have e : ∀ A B : Table N, A.numRows = B.numRows → (∀ r, A.row r = B.row r) → A = B := by
      intro A B h1 h2
      cases A; cases B
      simp only at h1 h2
      rw [h1, funext h2]
    apply e
    · rfl
    · intro r
      rw [stretchStep_row _ (by omega)]
      dsimp only
      by_cases h1 : r = n0 - k
      · rw [if_pos h1, if_neg (by omega), if_pos (by omega), if_pos (by omega)]
      · rw [if_neg h1]
        by_cases h2 : r = n0 - k + d
        · rw [if_pos h2, if_pos (Nat.le_refl _), if_neg (by omega)]
          have : r - d = n0 - k := by omega
          by_cases h3 : r ≤ n0
          · rw [if_pos h3, if_neg (by omega), this]
          · rw [if_neg h3, if_neg (by omega), if_pos (by omega), this]
        · rw [if_neg h2]
          repeat' split
          all_goals first | rfl | omega

theorem stretch_up {T : Table N} {n : Nat} (h : T.numRows - 1 < n) (h0 : 0 < T.numRows) :
    (stretchBottom T n).numRows = n + 1 ∧
    ∀ r, (stretchBottom T n).row r = if r = 0 then T.row 0 else if r ≤ n - (T.numRows - 1) then [] else if r ≤ n then
      (T.row (r - (n - (T.numRows - 1)))).map fun nd b => liftId (n - (T.numRows - 1)) (nd b) else [] := by
  unfold stretchBottom
  dsimp only
  rw [if_pos h, up_fold (by omega) _ _ _ (Nat.le_refl _)]
  refine ⟨rfl, fun r => ?_⟩
  unfold Table.setNumRows
  dsimp only
  repeat' split
  all_goals first | rfl | omega | (rename_i c; rw [c])

/-- the loop that moves levels down -/
theorem down_fold {k : Nat} (hk : 0 < k) (T : Table N) : ∀ m,
    let T' := ((List.range m).map fun j => k + 1 + j).foldl (fun T i => stretchStep (lowerId k) (i - k) i T) T
    T'.numRows = T.numRows ∧ ∀ r, (r = 0 ∨ k + m < r → T'.row r = T.row r) ∧
      (0 < r → r ≤ m → T'.row r = (T.row (r + k)).map fun nd b => lowerId k (nd b)) := by
  intro m
  induction m with
  | zero =>
    refine ⟨rfl, fun r => ⟨fun _ => rfl, fun h1 h2 => by omega⟩⟩
  | succ m ih =>
    dsimp only at ih ⊢
    rw [List.range_succ, List.map_append, List.foldl_append]
    simp only [List.map_cons, List.map_nil, List.foldl_cons, List.foldl_nil]
    generalize ((List.range m).map fun j => k + 1 + j).foldl (fun T i => stretchStep (lowerId k) (i - k) i T) T = T1 at ih ⊢
    obtain ⟨h1, h2⟩ := ih
    refine ⟨h1, fun r => ?_⟩
    rw [stretchStep_row _ (by omega)]
    constructor
    · intro h
      rw [if_neg (by omega), if_neg (by omega)]
      exact (h2 r).1 (by omega)
    · intro h3 h4
      rw [if_neg (by omega)]
      by_cases h5 : r = k + 1 + m - k
      · rw [if_pos h5, (h2 (k + 1 + m)).1 (by omega)]
        have : r + k = k + 1 + m := by omega
        rw [this]
      · rw [if_neg h5]
        exact (h2 r).2 h3 (by omega)

theorem stretch_down {T : Table N} {n : Nat} (h : n < T.numRows - 1) :
    (stretchBottom T n).numRows = n + 1 ∧ (stretchBottom T n).row 0 = T.row 0 ∧
    ∀ r, 0 < r → r ≤ n → (stretchBottom T n).row r =
      (T.row (r + (T.numRows - 1 - n))).map fun nd b => lowerId (T.numRows - 1 - n) (nd b) := by
  have hf := down_fold (k := T.numRows - 1 - n) (by omega) T n
  unfold stretchBottom
  dsimp only at hf ⊢
  rw [if_neg (by omega), if_pos h]
  generalize ((List.range n).map fun j => T.numRows - 1 - n + 1 + j).foldl
    (fun T' i => stretchStep (lowerId (T.numRows - 1 - n)) (i - (T.numRows - 1 - n)) i T') T = T1 at hf ⊢
  obtain ⟨h1, h2⟩ := hf
  refine ⟨rfl, ?_, fun r h3 h4 => ?_⟩
  · unfold Table.setNumRows
    dsimp only
    rw [if_pos (by omega)]
    exact (h2 0).1 (.inl rfl)
  · unfold Table.setNumRows
    dsimp only
    rw [if_pos (by omega)]
    exact (h2 r).2 h3 h4

/-! ### Meaning -/

section Up
variable {T : Table N} {n : Nat}

theorem up_node (h : T.numRows - 1 < n) (h0 : 0 < T.numRows) {f : NodeId} (hf : 0 < f.row) :
    (stretchBottom T n).node? (liftId (n - (T.numRows - 1)) f) =
      (T.node? f).map fun nd b => liftId (n - (T.numRows - 1)) (nd b) := by
  obtain ⟨h1, h2⟩ := stretch_up h h0
  unfold liftId
  rw [if_neg (by omega)]
  unfold Table.node?
  dsimp only
  rw [h1, h2]
  by_cases hr : f.row < T.numRows
  · rw [if_pos (by omega), if_pos hr, if_neg (by omega), if_neg (by omega), if_pos (by omega)]
    have : f.row + (n - (T.numRows - 1)) - (n - (T.numRows - 1)) = f.row := by omega
    rw [this, List.getElem?_map]
    rfl
  · rw [if_neg (by omega), if_neg hr]
    rfl

theorem liftId_valid (h : T.numRows - 1 < n) (h0 : 0 < T.numRows) {f : NodeId} (hv : T.Valid f) :
    (stretchBottom T n).Valid (liftId (n - (T.numRows - 1)) f) := by
  rcases hv with rfl | rfl | ⟨hf, nd, hnd⟩
  · exact .inl rfl
  · exact .inr (.inl rfl)
  · refine .inr (.inr ⟨?_, ?_⟩)
    · unfold liftId; rw [if_neg (by omega)]; dsimp only; omega
    · rw [up_node h h0 hf, hnd]
      exact ⟨_, rfl⟩

theorem liftId_row {d : Nat} {f g : NodeId} (hg : 0 < g.row) (h : f.row < g.row) : (liftId d f).row < (liftId d g).row := by
  unfold liftId
  rw [if_neg (by omega : ¬ g.row = 0)]
  split <;> (dsimp only; omega)

/-- nodes of the new table come from nodes of the old one -/
theorem up_node_inv (h : T.numRows - 1 < n) (h0 : 0 < T.numRows) {f : NodeId} {nd : Node N} (hf : 0 < f.row)
    (hnd : (stretchBottom T n).node? f = some nd) : ∃ f0 nd0, 0 < f0.row ∧ f = liftId (n - (T.numRows - 1)) f0 ∧
      T.node? f0 = some nd0 ∧ nd = fun b => liftId (n - (T.numRows - 1)) (nd0 b) := by
  obtain ⟨h1, h2⟩ := stretch_up h h0
  have hr : n - (T.numRows - 1) < f.row ∧ f.row ≤ n := by
    unfold Table.node? at hnd
    rw [h1, h2] at hnd
    split at hnd
    · rw [if_neg (by omega)] at hnd
      split at hnd
      · cases hnd
      · rename_i c1 c2; omega
    · cases hnd
  have e : f = liftId (n - (T.numRows - 1)) ⟨f.row - (n - (T.numRows - 1)), f.col⟩ := by
    unfold liftId
    dsimp only
    rw [if_neg (by omega)]
    cases f
    dsimp only at hr ⊢
    congr 1
    omega
  rw [e, up_node h h0 (by dsimp only; omega)] at hnd
  cases hnd0 : T.node? ⟨f.row - (n - (T.numRows - 1)), f.col⟩ with
  | none => rw [hnd0] at hnd; cases hnd
  | some nd0 =>
    rw [hnd0] at hnd
    cases hnd
    exact ⟨_, nd0, by dsimp only; omega, e, hnd0, rfl⟩

theorem up_wf (h : T.numRows - 1 < n) (h0 : 0 < T.numRows) (hw : T.Wf) : (stretchBottom T n).Wf := by
  intro r c nd hr hnd b
  obtain ⟨f0, nd0, g1, g2, g3, rfl⟩ := up_node_inv h h0 (f := ⟨r, c⟩) hr hnd
  have hc := hw f0.row f0.col nd0 g1 g3 b
  refine ⟨liftId_valid h h0 hc.1, ?_⟩
  have := liftId_row (d := n - (T.numRows - 1)) g1 hc.2
  rw [← g2] at this
  exact this

theorem up_acc (h : T.numRows - 1 < n) (h0 : 0 < T.numRows) (hw : T.Wf) {f : NodeId} (hv : T.Valid f) (p : Path N) :
    TAcc (stretchBottom T n) (liftId (n - (T.numRows - 1)) f) p ↔
      ∃ q, TAcc T f q ∧ p = q.map fun x => (x.1 + (n - (T.numRows - 1)), x.2) := by
  induction p generalizing f with
  | nil =>
    rcases hv with rfl | rfl | ⟨hf, nd, hnd⟩
    · exact ⟨fun c => absurd c not_tacc_zero, fun ⟨q, c, _⟩ => absurd c not_tacc_zero⟩
    · show TAcc _ NodeId.one [] ↔ _
      rw [tacc_one]
      exact ⟨fun _ => ⟨[], .one, rfl⟩, fun _ => rfl⟩
    · rw [tacc_node (by unfold liftId; rw [if_neg (by omega)]; dsimp only; omega) (by rw [up_node h h0 hf, hnd]; rfl)]
      constructor
      · rintro ⟨_, _, c, _⟩; cases c
      · rintro ⟨q, c, e⟩
        rw [tacc_node hf hnd] at c
        obtain ⟨b, q', rfl, _⟩ := c
        cases e
  | cons x p ih =>
    rcases hv with rfl | rfl | ⟨hf, nd, hnd⟩
    · exact ⟨fun c => absurd c not_tacc_zero, fun ⟨q, c, _⟩ => absurd c not_tacc_zero⟩
    · show TAcc _ NodeId.one (x :: p) ↔ _
      rw [tacc_one]
      constructor
      · intro c; cases c
      · rintro ⟨q, c, e⟩
        rw [tacc_one] at c
        subst c
        cases e
    · have hrow : (liftId (n - (T.numRows - 1)) f).row = f.row + (n - (T.numRows - 1)) := by
        unfold liftId; rw [if_neg (by omega)]
      rw [tacc_node (by rw [hrow]; omega) (by rw [up_node h h0 hf, hnd]; rfl)]
      constructor
      · rintro ⟨b, q, e, c⟩
        cases e
        obtain ⟨q', c', rfl⟩ := (ih (hw f.row f.col nd hf hnd b).1).1 c
        exact ⟨(f.row, b) :: q', .step hf hnd c', by rw [hrow]; rfl⟩
      · rintro ⟨q, c, e⟩
        rw [tacc_node hf hnd] at c
        obtain ⟨b, q', rfl, c⟩ := c
        rw [List.map_cons] at e
        injection e with e1 e2
        refine ⟨b, p, by rw [e1, hrow], ?_⟩
        exact (ih (hw f.row f.col nd hf hnd b).1).2 ⟨q', c, e2⟩

end Up

section Down
variable {T : Table N} {n : Nat}

theorem down_node (h : n < T.numRows - 1) {f : NodeId} (hf : T.numRows - 1 - n < f.row) :
    (stretchBottom T n).node? (lowerId (T.numRows - 1 - n) f) =
      (T.node? f).map fun nd b => lowerId (T.numRows - 1 - n) (nd b) := by
  obtain ⟨h1, _, h2⟩ := stretch_down h
  unfold lowerId
  rw [if_neg (by omega), if_neg (by omega)]
  unfold Table.node?
  dsimp only
  rw [h1]
  by_cases hr : f.row < T.numRows
  · rw [if_pos (by omega), if_pos hr, h2 _ (by omega) (by omega)]
    have : f.row - (T.numRows - 1 - n) + (T.numRows - 1 - n) = f.row := by omega
    rw [this, List.getElem?_map]
    rfl
  · rw [if_neg (by omega), if_neg hr]
    rfl

theorem lowerId_valid (h : n < T.numRows - 1) {f : NodeId} (hv : T.Valid f) :
    (stretchBottom T n).Valid (lowerId (T.numRows - 1 - n) f) := by
  rcases hv with rfl | rfl | ⟨hf, nd, hnd⟩
  · exact .inl rfl
  · exact .inr (.inl rfl)
  · by_cases hk : f.row ≤ T.numRows - 1 - n
    · refine .inr (.inl ?_)
      unfold lowerId; rw [if_neg (by omega), if_pos hk]
    · refine .inr (.inr ⟨?_, ?_⟩)
      · unfold lowerId; rw [if_neg (by omega), if_neg hk]; dsimp only; omega
      · rw [down_node h (by omega), hnd]
        exact ⟨_, rfl⟩

theorem lowerId_row {k : Nat} {f g : NodeId} (hg : k < g.row) (h : f.row < g.row) : (lowerId k f).row < (lowerId k g).row := by
  unfold lowerId
  rw [if_neg (by omega : ¬ g.row = 0), if_neg (by omega : ¬ g.row ≤ k)]
  split
  · dsimp only; omega
  · split
    · show 0 < _
      dsimp only; omega
    · dsimp only; omega

theorem down_node_inv (h : n < T.numRows - 1) {f : NodeId} {nd : Node N} (hf : 0 < f.row)
    (hnd : (stretchBottom T n).node? f = some nd) : ∃ f0 nd0, T.numRows - 1 - n < f0.row ∧ f = lowerId (T.numRows - 1 - n) f0 ∧
      T.node? f0 = some nd0 ∧ nd = fun b => lowerId (T.numRows - 1 - n) (nd0 b) := by
  have e : f = lowerId (T.numRows - 1 - n) ⟨f.row + (T.numRows - 1 - n), f.col⟩ := by
    unfold lowerId
    dsimp only
    rw [if_neg (by omega), if_neg (by omega)]
    cases f
    dsimp only at hf ⊢
    congr 1
    omega
  rw [e, down_node h (by dsimp only; omega)] at hnd
  cases hnd0 : T.node? ⟨f.row + (T.numRows - 1 - n), f.col⟩ with
  | none => rw [hnd0] at hnd; cases hnd
  | some nd0 =>
    rw [hnd0] at hnd
    cases hnd
    exact ⟨_, nd0, by dsimp only; omega, e, hnd0, rfl⟩

theorem down_wf (h : n < T.numRows - 1) (hw : T.Wf) : (stretchBottom T n).Wf := by
  intro r c nd hr hnd b
  obtain ⟨f0, nd0, g1, g2, g3, rfl⟩ := down_node_inv h (f := ⟨r, c⟩) hr hnd
  have hc := hw f0.row f0.col nd0 (by omega) g3 b
  refine ⟨lowerId_valid h hc.1, ?_⟩
  have := lowerId_row g1 hc.2
  rw [← g2] at this
  exact this

/-- Paths of the lowered diagram are the upper parts of paths of the original one, provided that the 1-terminal can be reached
from the nodes of the removed levels. -/
theorem down_acc (h : n < T.numRows - 1) (hw : T.Wf)
    (hl : ∀ f nd, 0 < f.row → f.row ≤ T.numRows - 1 - n → T.node? f = some nd → ∃ p, TAcc T f p)
    {f : NodeId} (hv : T.Valid f) (p : Path N) :
    TAcc (stretchBottom T n) (lowerId (T.numRows - 1 - n) f) p ↔
      ∃ q q', TAcc T f (q ++ q') ∧ (∀ x ∈ q, T.numRows - 1 - n < x.1) ∧ (∀ x ∈ q', x.1 ≤ T.numRows - 1 - n) ∧
        p = q.map fun x => (x.1 - (T.numRows - 1 - n), x.2) := by
  have hlow : ∀ {f : NodeId} {nd : Node N}, 0 < f.row → f.row ≤ T.numRows - 1 - n → T.node? f = some nd → ∀ p : Path N,
      TAcc (stretchBottom T n) (lowerId (T.numRows - 1 - n) f) p ↔
      ∃ q q', TAcc T f (q ++ q') ∧ (∀ x ∈ q, T.numRows - 1 - n < x.1) ∧ (∀ x ∈ q', x.1 ≤ T.numRows - 1 - n) ∧
        p = q.map fun x => (x.1 - (T.numRows - 1 - n), x.2) := by
    intro f nd hf hk hnd p
    have e : lowerId (T.numRows - 1 - n) f = .one := by unfold lowerId; rw [if_neg (by omega), if_pos hk]
    rw [e, tacc_one]
    constructor
    · rintro rfl
      obtain ⟨q', hq⟩ := hl f nd hf hk hnd
      refine ⟨[], q', hq, fun x hx => (by cases hx), fun x hx => ?_, rfl⟩
      have := (hq.levels hw x hx).2
      omega
    · rintro ⟨q, q', c, c1, _, rfl⟩
      cases q with
      | nil => rfl
      | cons x q =>
        have h1 := c1 x List.mem_cons_self
        have h2 := (c.levels hw x (by simp)).2
        omega
  have hone : ∀ p : Path N, TAcc (stretchBottom T n) .one p ↔
      ∃ q q', TAcc T .one (q ++ q') ∧ (∀ x ∈ q, T.numRows - 1 - n < x.1) ∧ (∀ x ∈ q', x.1 ≤ T.numRows - 1 - n) ∧
        p = q.map fun x => (x.1 - (T.numRows - 1 - n), x.2) := by
    intro p
    rw [tacc_one]
    constructor
    · rintro rfl
      exact ⟨[], [], .one, fun x hx => (by cases hx), fun x hx => (by cases hx), rfl⟩
    · rintro ⟨q, q', c, _, _, rfl⟩
      rw [tacc_one, List.append_eq_nil_iff] at c
      rw [c.1]; rfl
  induction p generalizing f with
  | nil =>
    rcases hv with rfl | rfl | ⟨hf, nd, hnd⟩
    · exact ⟨fun c => absurd c not_tacc_zero, fun ⟨q, q', c, _⟩ => absurd c not_tacc_zero⟩
    · exact hone _
    · by_cases hk : f.row ≤ T.numRows - 1 - n
      · exact hlow hf hk hnd _
      · rw [tacc_node (by unfold lowerId; rw [if_neg (by omega), if_neg hk]; dsimp only; omega)
          (by rw [down_node h (by omega), hnd]; rfl)]
        constructor
        · rintro ⟨_, _, c, _⟩; cases c
        · rintro ⟨q, q', c, c1, c2, e⟩
          have : q = [] := List.map_eq_nil_iff.1 e.symm
          subst this
          rw [List.nil_append, tacc_node hf hnd] at c
          obtain ⟨b, q'', rfl, _⟩ := c
          have := c2 _ List.mem_cons_self
          dsimp only at this
          omega
  | cons x p ih =>
    rcases hv with rfl | rfl | ⟨hf, nd, hnd⟩
    · exact ⟨fun c => absurd c not_tacc_zero, fun ⟨q, q', c, _⟩ => absurd c not_tacc_zero⟩
    · exact hone _
    · by_cases hk : f.row ≤ T.numRows - 1 - n
      · exact hlow hf hk hnd _
      · have hrow : (lowerId (T.numRows - 1 - n) f).row = f.row - (T.numRows - 1 - n) := by
          unfold lowerId; rw [if_neg (by omega), if_neg hk]
        rw [tacc_node (by rw [hrow]; omega) (by rw [down_node h (by omega), hnd]; rfl)]
        constructor
        · rintro ⟨b, q, e, c⟩
          cases e
          obtain ⟨q1, q', c1, c2, c3, rfl⟩ := (ih (hw f.row f.col nd hf hnd b).1).1 c
          refine ⟨(f.row, b) :: q1, q', .step hf hnd c1, ?_, c3, by rw [hrow]; rfl⟩
          intro y hy
          rcases List.mem_cons.1 hy with rfl | hy
          · dsimp only; omega
          · exact c2 y hy
        · rintro ⟨q, q', c, c1, c2, e⟩
          cases q with
          | nil => cases e
          | cons y q =>
            rw [List.cons_append, tacc_node hf hnd] at c
            obtain ⟨b, q'', ee, c⟩ := c
            cases ee
            rw [List.map_cons] at e
            injection e with e1 e2
            refine ⟨b, p, by rw [e1, hrow], ?_⟩
            exact (ih (hw f.row f.col nd hf hnd b).1).2 ⟨q, q', c, fun z hz => c1 z (List.mem_cons_of_mem _ hz), c2, e2⟩

end Down

end TdZdd
