import Verif.GridPathStep

/-! The edges of the grid. -/

namespace TdZdd.GridPath

theorem flatMap_grid {α : Type} (F : Nat → List α) (cols : Nat) : ∀ rows : Nat,
    ((List.range rows).flatMap fun i => (List.range cols).flatMap fun j => F (i * cols + j)) = (List.range (rows * cols)).flatMap F := by
  intro rows
  induction rows with
  | zero => rw [Nat.zero_mul]; rfl
  | succ rows ih =>
    rw [List.range_succ, List.flatMap_append, ih, Nat.succ_mul, List.range_add, List.flatMap_append]
    congr 1
    rw [List.flatMap_cons, List.flatMap_nil, List.append_nil, List.flatMap_map]

/-- the edges of vertex `k + 1` -/
def group' (rows cols k : Nat) : List (Nat × Nat) :=
  (if k % cols + 1 < cols then [(k + 1, k + 2)] else []) ++ (if k / cols + 1 < rows then [(k + 1, k + 1 + cols)] else [])

theorem edges_eq {rows cols : Nat} (hc : 1 ≤ cols) : edges rows cols = (List.range (rows * cols)).flatMap (group' rows cols) := by
  rw [← flatMap_grid]
  unfold edges
  congr 1
  funext i
  unfold List.flatMap
  congr 1
  apply List.map_congr_left
  intro j hj
  have hj := List.mem_range.1 hj
  unfold group group'
  have e1 : (i * cols + j) % cols = j := by rw [Nat.mul_comm, Nat.mul_add_mod, Nat.mod_eq_of_lt hj]
  have e2 : (i * cols + j) / cols = i := by rw [Nat.mul_comm, Nat.mul_add_div (by omega), Nat.div_eq_of_lt hj, Nat.add_zero]
  rw [e1, e2]

theorem mem_group' {rows cols k v w : Nat} : (v, w) ∈ group' rows cols k ↔ v = k + 1 ∧ ((w = v + 1 ∧ k % cols + 1 < cols) ∨ (w = v + cols ∧ k / cols + 1 < rows)) := by
  unfold group'
  rw [List.mem_append]
  constructor
  · rintro (h | h)
    · split at h
      · simp only [List.mem_singleton, Prod.mk.injEq] at h; exact ⟨h.1, .inl ⟨by omega, by assumption⟩⟩
      · cases h
    · split at h
      · simp only [List.mem_singleton, Prod.mk.injEq] at h; exact ⟨h.1, .inr ⟨by omega, by assumption⟩⟩
      · cases h
  · rintro ⟨rfl, ⟨rfl, h⟩ | ⟨rfl, h⟩⟩
    · rw [if_pos h]; exact .inl (by simp)
    · rw [if_pos h]; exact .inr (by simp)

theorem mem_edges {rows cols v w : Nat} (hc : 1 ≤ cols) : (v, w) ∈ edges rows cols ↔ ∃ k, k < rows * cols ∧ v = k + 1 ∧
    ((w = v + 1 ∧ k % cols + 1 < cols) ∨ (w = v + cols ∧ k / cols + 1 < rows)) := by
  rw [edges_eq hc, List.mem_flatMap]
  simp only [mem_group', List.mem_range]

/-- the edges are in ascending order -/
theorem edges_sorted {rows cols : Nat} (hc : 1 ≤ cols) : (edges rows cols).Pairwise fun p q => p.1 < q.1 ∨ (p.1 = q.1 ∧ p.2 < q.2) := by
  rw [edges_eq hc, List.pairwise_flatMap]
  constructor
  · intro k hk
    unfold group'
    by_cases h1 : k % cols + 1 < cols
    · by_cases h2 : k / cols + 1 < rows
      · rw [if_pos h1, if_pos h2]
        simp only [List.cons_append, List.nil_append, List.pairwise_cons, List.mem_singleton, List.Pairwise.nil, and_true]
        refine ⟨fun q hq => ?_, fun _ h => nomatch h⟩
        subst hq
        exact .inr ⟨rfl, by show k + 2 < k + 1 + cols; omega⟩
      · rw [if_pos h1, if_neg h2]; simp
    · rw [if_neg h1, List.nil_append]
      split <;> simp
  · apply List.Pairwise.imp_of_mem _ (List.pairwise_lt_range)
    intro a b ha hb hab x hx y hy
    obtain ⟨x1, x2⟩ := x
    obtain ⟨y1, y2⟩ := y
    rw [mem_group'] at hx hy
    left
    show x1 < y1
    omega

theorem edges_nodup {rows cols : Nat} (hc : 1 ≤ cols) : (edges rows cols).Nodup :=
  (edges_sorted hc).imp fun {p q} h e => by subst e; rcases h with h | ⟨_, h⟩ <;> omega

/-- the number of vertices `1..rows*cols` in terms of rows and columns -/
theorem vertex_bound {rows cols k : Nat} (hc : 1 ≤ cols) (h : k / cols + 1 < rows) : k + 1 + cols ≤ rows * cols := by
  have h1 := Nat.div_add_mod k cols
  have h2 := Nat.mod_lt k (by omega : cols > 0)
  have h3 : (k / cols + 2) * cols ≤ rows * cols := Nat.mul_le_mul_right _ (by omega)
  rw [Nat.add_mul, Nat.mul_comm (k / cols)] at h3
  omega

theorem vertex_bound' {rows cols k : Nat} (hk : k < rows * cols) (h : k % cols + 1 < cols) : k + 2 ≤ rows * cols := by
  have hq : k / cols < rows := Nat.div_lt_of_lt_mul (by rw [Nat.mul_comm]; exact hk)
  have h1 := Nat.div_add_mod k cols
  have h3 : (k / cols + 1) * cols ≤ rows * cols := Nat.mul_le_mul_right _ (by omega)
  rw [Nat.add_mul, Nat.mul_comm (k / cols)] at h3
  omega

/-- every vertex but the last has an edge to a later one -/
theorem group_some {rows cols k : Nat} (hc : 1 ≤ cols) (hk : k + 1 < rows * cols) : ∃ w, (k + 1, w) ∈ edges rows cols := by
  by_cases h : k % cols + 1 < cols
  · exact ⟨k + 2, (mem_edges hc).2 ⟨k, by omega, rfl, .inl ⟨rfl, h⟩⟩⟩
  · refine ⟨k + 1 + cols, (mem_edges hc).2 ⟨k, by omega, rfl, .inr ⟨rfl, ?_⟩⟩⟩
    apply Classical.byContradiction
    intro hn
    have h1 := Nat.div_add_mod k cols
    have h2 := Nat.mod_lt k (by omega : cols > 0)
    have h3 : rows * cols ≤ (k / cols + 1) * cols := Nat.mul_le_mul_right _ (by omega)
    rw [Nat.add_mul, Nat.mul_comm (k / cols)] at h3
    omega

theorem sorted_get {E : List (Nat × Nat)} (hs : E.Pairwise fun p q => p.1 < q.1 ∨ (p.1 = q.1 ∧ p.2 < q.2)) {i j v w v' w' : Nat} (hij : i < j) (h1 : E[i]? = some (v, w))
    (h2 : E[j]? = some (v', w')) : v ≤ v' := by
  obtain ⟨l1, e1⟩ := List.getElem?_eq_some_iff.1 h1
  obtain ⟨l2, e2⟩ := List.getElem?_eq_some_iff.1 h2
  have := List.pairwise_iff_getElem.1 hs i j l1 l2 hij
  rw [e1, e2] at this
  rcases this with h | ⟨h, _⟩
  · exact Nat.le_of_lt h
  · exact Nat.le_of_eq h

theorem edgeFacts {rows cols : Nat} (hc : 1 ≤ cols) (h2 : 1 < rows * cols) : EdgeFacts (edges rows cols) (rows * cols) (cols + 1) where
  pos := by omega
  two := h2
  nodup := edges_nodup hc
  edge {e v w} h := by
    obtain ⟨k, hk, e1, h'⟩ := (mem_edges hc).1 (List.mem_of_getElem? h)
    rcases h' with ⟨e2, h'⟩ | ⟨e2, h'⟩
    · have := vertex_bound' hk h'; omega
    · have := vertex_bound (rows := rows) hc h'; omega
  mono {e v w v' w'} h1 h2 := by
    have hs := edges_sorted (rows := rows) hc
    refine ⟨sorted_get hs (by omega) h1 h2, ?_⟩
    apply Classical.byContradiction
    intro hn
    obtain ⟨k', hk', e', _⟩ := (mem_edges hc).1 (List.mem_of_getElem? h2)
    obtain ⟨w'', hw⟩ := group_some (rows := rows) (cols := cols) (k := v) hc (by omega)
    obtain ⟨j, hj⟩ := List.mem_iff_getElem?.1 hw
    rcases Nat.lt_or_ge e j with g | g
    · rcases Nat.lt_or_ge (e + 1) j with g' | g'
      · have := sorted_get hs g' h2 hj; omega
      · have : j = e + 1 := by omega
        rw [this, h2] at hj
        have : v' = v + 1 := congrArg (fun o : Option (Nat × Nat) => (o.getD (0, 0)).1) hj
        omega
    · by_cases g' : j = e
      · rw [g', h1] at hj; cases hj
      · have := sorted_get hs (show j < e by omega) hj h1; omega

theorem edges_first {rows cols v w : Nat} (hc : 1 ≤ cols) (h : (edges rows cols)[0]? = some (v, w)) : v = 1 := by
  obtain ⟨k, hk, e, h'⟩ := (mem_edges hc).1 (List.mem_of_getElem? h)
  apply Classical.byContradiction
  intro hn
  obtain ⟨w', hw⟩ := group_some (rows := rows) (cols := cols) (k := 0) hc (by omega)
  obtain ⟨j, hj⟩ := List.mem_iff_getElem?.1 hw
  by_cases g : j = 0
  · rw [g, h] at hj; cases hj; omega
  · have := sorted_get (edges_sorted (rows := rows) hc) (show 0 < j by omega) h hj
    omega

/-- the assertion of the constructor -/
theorem edges_length {rows cols : Nat} (hr : 1 ≤ rows) (hc : 1 ≤ cols) : ((edges rows cols).length : Int) = numEdge rows cols := by
  have inner : ∀ (i m : Nat), m < cols → ((List.range m).flatMap fun j => group rows cols i j).length = m * (if i + 1 < rows then 2 else 1) := by
    intro i m
    induction m with
    | zero => intro _; rw [Nat.zero_mul]; rfl
    | succ m ih =>
      intro h
      rw [List.range_succ, List.flatMap_append, List.length_append, ih (by omega), List.flatMap_cons, List.flatMap_nil, List.append_nil, Nat.succ_mul]
      unfold group
      rw [if_pos h]
      split <;> rfl
  have row : ∀ i, ((List.range cols).flatMap fun j => group rows cols i j).length = if i + 1 < rows then 2 * cols - 1 else cols - 1 := by
    intro i
    obtain ⟨m, rfl⟩ : ∃ m, cols = m + 1 := ⟨cols - 1, by omega⟩
    rw [List.range_succ, List.flatMap_append, List.length_append, inner i m (by omega), List.flatMap_cons, List.flatMap_nil, List.append_nil]
    unfold group
    by_cases h : i + 1 < rows
    · rw [if_pos h, if_pos h, if_pos h, if_neg (by omega)]; show m * 2 + 1 = _; omega
    · rw [if_neg h, if_neg h, if_neg h, if_neg (by omega)]; show m * 1 + 0 = _; omega
  have all : ∀ m, m < rows → ((List.range m).flatMap fun i => (List.range cols).flatMap fun j => group rows cols i j).length = m * (2 * cols - 1) := by
    intro m
    induction m with
    | zero => intro _; rw [Nat.zero_mul]; rfl
    | succ m ih =>
      intro h
      rw [List.range_succ, List.flatMap_append, List.length_append, ih (by omega), List.flatMap_cons, List.flatMap_nil, List.append_nil, row, if_pos h, Nat.succ_mul m]
  unfold edges numEdge
  obtain ⟨m, rfl⟩ : ∃ m, rows = m + 1 := ⟨rows - 1, by omega⟩
  rw [List.range_succ, List.flatMap_append, List.length_append, all m (by omega), List.flatMap_cons, List.flatMap_nil, List.append_nil, row, if_neg (by omega)]
  obtain ⟨c, rfl⟩ : ∃ c, cols = c + 1 := ⟨cols - 1, by omega⟩
  rw [show 2 * (c + 1) - 1 = 2 * c + 1 by omega, show c + 1 - 1 = c by omega]
  simp only [Int.natCast_add, Int.natCast_mul, Int.add_mul, Int.mul_add]
  have : (m : Int) * ((2 : Nat) * (c : Int)) = 2 * ((m : Int) * c) := by rw [Int.mul_left_comm]; rfl
  rw [this]
  simp only [Int.natCast_one, Int.one_mul, Int.mul_one]
  omega

end TdZdd.GridPath
