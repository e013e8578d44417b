import Verif.Sapporo
import Verif.IndexProofs
import Verif.ReducerProofs4
import Verif.TableSem

/-! Proofs about `dumpSapporo`. -/

namespace TdZdd

/-- number of nodes in rows 1, …, i - 1 -/
def rowsBelow {N : Nat} (T : Table N) : Nat → Nat
  | 0 => 0
  | i + 1 => rowsBelow T i + if i = 0 then 0 else (T.row i).length

/-- number of a node -/
def sapId (T : Table 2) (f : NodeId) : Nat := 2 * (rowsBelow T f.row + f.col + 1)

def sapTok (T : Table 2) (f : NodeId) : Tok := if f = .zero then .str "F" else if f = .one then .str "T" else .num (sapId T f)

def sapLine (T : Table 2) (f : NodeId) (nd : Node 2) : List Tok :=
  [.num (sapId T f), .num f.row, sapTok T (nd 0), sapTok T (nd 1)]

/-- nodes in the order of the output -/
def sapNodes {N : Nat} (T : Table N) : Nat → List NodeId
  | 0 => []
  | i + 1 => sapNodes T i ++ if i = 0 then [] else (List.range (T.row i).length).map fun c => ⟨i, c⟩

def sapOut (T : Table 2) (f : NodeId) : List Tok := ((T.row f.row)[f.col]?).elim [] (sapLine T f)

theorem sapNodes_length {N : Nat} (T : Table N) : ∀ i, (sapNodes T i).length = rowsBelow T i
  | 0 => rfl
  | i + 1 => by
    unfold sapNodes rowsBelow
    rw [List.length_append, sapNodes_length T i]
    split <;> simp

theorem mem_sapNodes {N : Nat} {T : Table N} {f : NodeId} : ∀ {i}, f ∈ sapNodes T i ↔ 0 < f.row ∧ f.row < i ∧ f.col < (T.row f.row).length
  | 0 => by simp [sapNodes]
  | i + 1 => by
    unfold sapNodes
    rw [List.mem_append, mem_sapNodes]
    by_cases h0 : i = 0
    · rw [if_pos h0]; simp; omega
    · rw [if_neg h0, List.mem_map]
      constructor
      · rintro (h | ⟨c, hc, rfl⟩)
        · exact ⟨h.1, by omega, h.2.2⟩
        · exact ⟨by dsimp only; omega, by dsimp only; omega, List.mem_range.1 hc⟩
      · rintro ⟨h1, h2, h3⟩
        by_cases h : f.row < i
        · exact .inl ⟨h1, h, h3⟩
        · obtain rfl : f.row = i := by omega
          exact .inr ⟨f.col, List.mem_range.2 h3, rfl⟩

theorem sapNodes_nodup {N : Nat} {T : Table N} : ∀ i, (sapNodes T i).Nodup
  | 0 => List.nodup_nil
  | i + 1 => by
    unfold sapNodes
    rw [List.nodup_append]
    refine ⟨sapNodes_nodup i, ?_, fun a ha b hb e => ?_⟩
    · split
      · exact List.nodup_nil
      · refine List.pairwise_map.2 (List.nodup_range.imp fun h e => h ?_)
        exact congrArg NodeId.col e
    · subst e
      have := (mem_sapNodes.1 ha).2.1
      split at hb
      · cases hb
      · obtain ⟨c, _, rfl⟩ := List.mem_map.1 hb
        exact Nat.lt_irrefl _ this

theorem sapNodes_sorted {N : Nat} {T : Table N} : ∀ i, (sapNodes T i).Pairwise fun f g => f.row ≤ g.row
  | 0 => List.Pairwise.nil
  | i + 1 => by
    unfold sapNodes
    rw [List.pairwise_append]
    refine ⟨sapNodes_sorted i, ?_, fun a ha b hb => ?_⟩
    · split
      · exact List.Pairwise.nil
      · exact List.pairwise_map.2 (List.nodup_range.imp fun _ => Nat.le_refl _)
    · have := (mem_sapNodes.1 ha).2.1
      split at hb
      · cases hb
      · obtain ⟨c, _, rfl⟩ := List.mem_map.1 hb
        dsimp only; omega

/-- the number of a node tells its position -/
theorem sapNodes_get {T : Table 2} : ∀ (i : Nat) {k : Nat} {f : NodeId}, (sapNodes T i)[k]? = some f → sapId T f = 2 * (k + 1)
  | 0, k, f, h => by simp [sapNodes] at h
  | i + 1, k, f, h => by
    unfold sapNodes at h
    rw [List.getElem?_append] at h
    split at h
    · exact sapNodes_get i h
    · rename_i hk
      rw [sapNodes_length] at h hk
      split at h
      · simp at h
      · rw [List.getElem?_map] at h
        obtain ⟨c, hc, rfl⟩ := Option.map_eq_some_iff.1 h
        obtain ⟨_, hc⟩ := List.getElem?_eq_some_iff.1 hc
        rw [List.getElem_range] at hc
        unfold sapId
        dsimp only
        omega

theorem sum_map_rowsBelow {N : Nat} (T : Table N) : ∀ i, ((List.range (i + 1)).map fun r => (T.row r).length).sum = rowsBelow T (i + 1) + (T.row 0).length
  | 0 => by simp [rowsBelow]
  | i + 1 => by
    rw [List.range_succ, List.map_append, List.sum_append, sum_map_rowsBelow T i]
    conv => rhs; unfold rowsBelow
    rw [if_neg (by omega)]
    simp
    omega

theorem size_rowsBelow {N : Nat} {T : Table N} (h : 0 < T.numRows) : T.size = rowsBelow T T.numRows := by
  obtain ⟨i, e⟩ : ∃ i, T.numRows = i + 1 := ⟨T.numRows - 1, by omega⟩
  unfold Table.size
  rw [e, sum_map_rowsBelow]
  omega

theorem clear_rows : ∀ (l : List Nat) (w : Nat → List Nat) (r : Nat),
    (l.foldl (fun w r => upd w r []) w) r = if r ∈ l then [] else w r
  | [], w, r => by simp
  | x :: l, w, r => by
    rw [List.foldl_cons, clear_rows l]
    by_cases h : r ∈ l
    · simp [h]
    · by_cases hx : r = x
      · subst hx; simp [upd]
      · simp [h, hx, upd]

/-- One level. -/
theorem sapLevel_spec {T : Table 2} {lower : Nat → List Nat} {st : SapSt} {i : Nat} (hi : 1 ≤ i) (hT : T.Wf) (hn : i < T.numRows)
    (hk : st.k = 2 * rowsBelow T i) (hids : st.ids i = [])
    (hlow : ∀ nd ∈ T.row i, ∀ b, 0 < (nd b).row → (st.ids (nd b).row)[(nd b).col]? = some (sapId T (nd b))) :
    ∃ st', sapLevel T lower st i = some st' ∧ st'.k = 2 * rowsBelow T (i + 1) ∧
      st'.out = st.out ++ (List.range (T.row i).length).map (fun c => sapOut T ⟨i, c⟩) ∧
      ∀ r, st'.ids r = if r ∈ lower i then [] else if r = i then (List.range (T.row i).length).map (fun c => sapId T ⟨i, c⟩) else st.ids r := by
  have hnode : ∀ {c nd}, (T.row i)[c]? = some nd → T.node? ⟨i, c⟩ = some nd := by
    intro c nd hc; unfold Table.node?; dsimp only; rw [if_pos hn]; exact hc
  obtain ⟨s1, e1, g1, g2, g3⟩ := foldlM_inv (f := sapNode T.numRows i)
    (fun pre (s : SapSt) => s.k = 2 * (rowsBelow T i + pre.length) ∧
      s.out = st.out ++ (List.range pre.length).map (fun c => sapOut T ⟨i, c⟩) ∧
      ∀ r, s.ids r = if r = i then (List.range pre.length).map (fun c => sapId T ⟨i, c⟩) else st.ids r)
    (T.row i) st ⟨by simpa using hk, by simp, fun r => by
      by_cases h : r = i
      · subst h; simpa using hids
      · simp [h]⟩
    (by
      rintro pre nd post s hsplit ⟨g1, g2, g3⟩
      have hc : (T.row i)[pre.length]? = some nd := by rw [hsplit]; simp
      have hmem : nd ∈ T.row i := by rw [hsplit]; simp
      have hch := hT.child (f := ⟨i, pre.length⟩) (by exact hi) (hnode hc)
      have hkk : s.k + 2 = sapId T ⟨i, pre.length⟩ := by rw [g1]; unfold sapId; dsimp only; omega
      have href : ∀ b, sapRef T.numRows (upd s.ids i (s.ids i ++ [s.k + 2])) (nd b) = some (sapTok T (nd b)) := by
        intro b
        unfold sapRef sapTok
        obtain ⟨v, lt⟩ := hch b
        dsimp only at lt
        by_cases hz : nd b = .zero
        · rw [if_pos hz, if_pos hz]
        · by_cases ho : nd b = .one
          · rw [if_neg hz, if_neg hz, if_pos ho, if_pos ho]
          · rw [if_neg hz, if_neg hz, if_neg ho, if_neg ho, if_pos (by omega)]
            have hp : 0 < (nd b).row := by
              rcases v with v | v | v
              · exact absurd v hz
              · exact absurd v ho
              · exact v.1
            unfold upd
            rw [if_neg (by omega), g3, if_neg (by omega), hlow nd hmem b hp]
            rfl
      refine ⟨⟨s.k + 2, upd s.ids i (s.ids i ++ [s.k + 2]), s.out ++ [[.num (s.k + 2), .num i, sapTok T (nd 0), sapTok T (nd 1)]]⟩, ?_, ?_, ?_, ?_⟩
      · unfold sapNode
        dsimp only
        rw [href 0, href 1]
      · dsimp only; rw [g1, List.length_append]; simp; omega
      · dsimp only
        rw [g2, List.length_append, List.append_assoc]
        congr 1
        simp only [List.length_cons, List.length_nil, Nat.zero_add, List.range_succ, List.map_append, List.map_cons, List.map_nil]
        congr 2
        unfold sapOut
        dsimp only
        rw [hc, hkk]
        rfl
      · intro r
        dsimp only
        unfold upd
        by_cases h : r = i
        · subst h
          rw [if_pos rfl, if_pos rfl, g3, if_pos rfl, List.length_append, hkk]
          simp [List.range_succ]
        · rw [if_neg h, if_neg h, g3, if_neg h])
  refine ⟨{ s1 with ids := (lower i).foldl (fun w r => upd w r []) s1.ids }, by unfold sapLevel; rw [e1]; rfl, ?_, g2, fun r => ?_⟩
  · dsimp only; rw [g1]; conv => rhs; unfold rowsBelow
    rw [if_neg (by omega)]
  · dsimp only
    rw [clear_rows, g3]

theorem wf_down {N : Nat} {T : Table N} (hT : T.Wf) : Down T.row (T.numRows - 1) := by
  intro i h1 h2 nd hnd b
  obtain ⟨c, hc⟩ := List.mem_iff_getElem?.1 hnd
  refine (hT.child (f := ⟨i, c⟩) (nd := nd) (by exact h1) ?_ b).2
  unfold Table.node?
  dsimp only
  rw [if_pos (by omega)]
  exact hc

/-- The header. -/
def sapHead (T : Table 2) : List (List Tok) :=
  [[.str "_i", .num (T.numRows - 1)], [.str "_o", .num 1], [.str "_n", .num T.size]]

/-- All levels. -/
theorem sapLevels_spec {T : Table 2} (hT : T.Wf) {lo : Nat → List Nat}
    (hlo : ∀ i r, r ∈ lo i ↔ 1 ≤ i ∧ i ≤ T.numRows - 1 ∧ 0 < r ∧ r < i ∧ Refs T.row i r ∧ ∀ i', i < i' → i' ≤ T.numRows - 1 → ¬ Refs T.row i' r) :
    ∃ st, (levelsUp (T.numRows - 1)).foldlM (sapLevel T lo) ⟨0, fun _ => [], sapHead T⟩ = some st ∧ st.k = 2 * rowsBelow T (T.numRows - 1 + 1) ∧
      st.out = sapHead T ++ (sapNodes T (T.numRows - 1 + 1)).map (sapOut T) ∧
      (∀ r, 1 ≤ r → r ≤ T.numRows - 1 → (∀ i', i' ≤ T.numRows - 1 → 1 ≤ i' → ¬ Refs T.row i' r) →
        st.ids r = (List.range (T.row r).length).map (fun c => sapId T ⟨r, c⟩)) ∧
      (∀ r, (r = 0 ∨ 1 ≤ r ∧ ∃ i', 1 ≤ i' ∧ i' ≤ T.numRows - 1 ∧ Refs T.row i' r) → st.ids r = []) := by
  obtain ⟨st, e, h1, h2, h3, h4, h5⟩ := levelsUp_fold (f := sapLevel T lo)
    (fun t (st : SapSt) => st.k = 2 * rowsBelow T (t + 1) ∧ st.out = sapHead T ++ (sapNodes T (t + 1)).map (sapOut T) ∧
      (∀ r, t < r → st.ids r = []) ∧
      (∀ r, 1 ≤ r → r ≤ t → ((∀ i', i' ≤ T.numRows - 1 → 1 ≤ i' → ¬ Refs T.row i' r) ∨ ∃ i', t < i' ∧ i' ≤ T.numRows - 1 ∧ Refs T.row i' r) →
        st.ids r = (List.range (T.row r).length).map (fun c => sapId T ⟨r, c⟩)) ∧
      ∀ r, (r = 0 ∨ 1 ≤ r ∧ (∃ i', 1 ≤ i' ∧ i' ≤ t ∧ Refs T.row i' r) ∧ ∀ i', t < i' → i' ≤ T.numRows - 1 → ¬ Refs T.row i' r) → st.ids r = [])
    (T.numRows - 1) ⟨0, fun _ => [], sapHead T⟩
    ⟨rfl, by simp [sapNodes], fun _ _ => rfl, fun r h1 h2 => by omega, fun _ _ => rfl⟩
    (by
      rintro t st ht ⟨g1, g2, g3, g4, g5⟩
      obtain ⟨st', e, f1, f2, f3⟩ := sapLevel_spec (lower := lo) (i := t + 1) (by omega) hT (by omega) g1 (g3 (t + 1) (by omega)) (by
        intro nd hnd b hp
        have hd := wf_down hT (t + 1) (by omega) (by omega) nd hnd b
        rw [g4 (nd b).row (by omega) (by omega) (.inr ⟨t + 1, by omega, by omega, nd, hnd, b, rfl⟩)]
        obtain ⟨c, hc⟩ := List.mem_iff_getElem?.1 hnd
        have hv := (hT.child (f := ⟨t + 1, c⟩) (nd := nd) (by dsimp only; omega) (by
          unfold Table.node?; dsimp only; rw [if_pos (by omega)]; exact hc) b).1
        obtain ⟨nd', hn'⟩ := hv.pos hp
        unfold Table.node? at hn'
        rw [if_pos (by omega)] at hn'
        have hl := (List.getElem?_eq_some_iff.1 hn').1
        rw [List.getElem?_map, List.getElem?_range hl]
        rfl)
      refine ⟨st', e, f1, ?_, ?_, ?_, ?_⟩
      · rw [f2, g2, List.append_assoc]
        conv => rhs; unfold sapNodes
        rw [if_neg (by omega), List.map_append, List.map_map]
        rfl
      · intro r hr
        rw [f3, if_neg, if_neg (by omega), g3 r (by omega)]
        rw [hlo]
        omega
      · intro r h1 h2 h3
        have hnot : r ∉ lo (t + 1) := by
          rw [hlo]
          rintro ⟨_, _, _, _, hr, hno⟩
          rcases h3 with h3 | ⟨i', k1, k2, k3⟩
          · exact h3 _ (by omega) (by omega) hr
          · exact hno i' k1 k2 k3
        rw [f3, if_neg hnot]
        by_cases hr : r = t + 1
        · subst hr; rw [if_pos rfl]
        · rw [if_neg hr]
          refine g4 r h1 (by omega) (h3.imp id ?_)
          rintro ⟨i', k1, k2, k3⟩
          exact ⟨i', by omega, k2, k3⟩
      · intro r h
        rw [f3]
        by_cases hin : r ∈ lo (t + 1)
        · rw [if_pos hin]
        · rw [if_neg hin]
          rcases h with h | ⟨h1, ⟨i', k1, k2, k3⟩, hno⟩
          · rw [if_neg (by omega), g5 r (.inl h)]
          · obtain ⟨nd, hnd, b, hb⟩ := k3
            have hd := wf_down hT i' k1 (by omega) nd hnd b
            rw [if_neg (by omega)]
            refine g5 r (.inr ⟨h1, ?_, ?_⟩)
            · by_cases hi : i' ≤ t
              · exact ⟨i', k1, hi, nd, hnd, b, hb⟩
              · obtain rfl : i' = t + 1 := by omega
                exfalso
                exact hin ((hlo _ _).2 ⟨by omega, by omega, by omega, by omega, ⟨nd, hnd, b, hb⟩, hno⟩)
            · intro j hj hjn hR
              by_cases hi : j = t + 1
              · subst hi
                exact hin ((hlo _ _).2 ⟨by omega, by omega, by omega, by omega, hR, hno⟩)
              · exact hno j (by omega) hjn hR)
  refine ⟨st, e, h1, h2, fun r k1 k2 k3 => h4 r k1 k2 (.inl k3), fun r hr => h5 r (hr.imp id ?_)⟩
  rintro ⟨k1, i', k2, k3, k4⟩
  exact ⟨k1, ⟨i', k2, k3, k4⟩, fun j _ _ => by omega⟩

end TdZdd
