import Verif.BuilderProofs3

/-! Builder proof, part 4: the loops of the sweep. -/

namespace TdZdd

variable {N : Nat} {S : Type}

theorem allSome_of {f : Fin N → Option NodeId} {nv : Fin N → NodeId} (h : ∀ b, f b = some (nv b)) :
    allSome f = some nv := by
  unfold allSome
  rw [dif_pos (fun b => by rw [h b]; rfl)]
  congr 1
  funext b
  apply Option.some.inj
  rw [Option.some_get, h b]

/-- What the sweep does to one row: `old`, `gs` are the nodes and their states before, `new`, `gs'`
after, `ids` the new ids of the old nodes. -/
structure RowRel (k r : Nat) (nid : Nat → List NodeId) (old : List (Fin N → Option NodeId))
    (gs : List S) (ids : List NodeId) (new : List (Fin N → Option NodeId)) (gs' : List S) : Prop where
  idlen : ids.length = gs.length
  len : new.length = gs'.length
  fwd : ∀ (c : Nat) g, gs[c]? = some g → ∃ nd nv : Node N,
    old[c]? = some (fun b => some (nd b)) ∧ (∀ b, (nd b).row < r) ∧
    (∀ b, sweepEdge k nid (some (nd b)) = some (nv b)) ∧
    ((ids[c]? = some .zero ∧ ∀ b, nv b = .zero) ∨
     ∃ c' : Nat, ids[c]? = some ⟨r, c'⟩ ∧ gs'[c']? = some g ∧ new[c']? = some (fun b => some (nv b)))
  bwd : ∀ c', c' < gs'.length → ∃ (c : Nat) (g : S), gs[c]? = some g ∧ ids[c]? = some ⟨r, c'⟩
  sub : gs'.Sublist gs

theorem sweepEdge_congr {k r : Nat} {nid nid' : Nat → List NodeId} (h : ∀ j, j < r → nid j = nid' j)
    {f : NodeId} (hf : f.row < r) : sweepEdge k nid (some f) = sweepEdge k nid' (some f) := by
  simp only [sweepEdge, h _ hf]

theorem RowRel.congr {k r : Nat} {nid nid' : Nat → List NodeId} (h : ∀ j, j < r → nid j = nid' j)
    {old new : List (Fin N → Option NodeId)} {gs gs' : List S} {ids : List NodeId}
    (hr : RowRel k r nid old gs ids new gs') : RowRel k r nid' old gs ids new gs' := by
  refine ⟨hr.idlen, hr.len, ?_, hr.bwd, hr.sub⟩
  intro c g hg
  obtain ⟨nd, nv, h1, h2, h3, h4⟩ := hr.fwd c g hg
  exact ⟨nd, nv, h1, h2, fun b => by rw [← sweepEdge_congr h (h2 b)]; exact h3 b, h4⟩

/-- the nodes of one row -/
theorem sweepRow_loop {k r : Nat} (nid : Nat → List NodeId) (row : List (Fin N → Option NodeId))
    (gs : List S) (hlen : row.length = gs.length)
    (H : ∀ (c : Nat) g, gs[c]? = some g → ∃ nd nv : Node N, row[c]? = some (fun b => some (nd b)) ∧
      (∀ b, (nd b).row < r) ∧ ∀ b, sweepEdge k nid (some (nd b)) = some (nv b)) :
    ∃ q, row.foldlM (sweepNode k r nid) ([], []) = some q ∧
      ∃ gs', RowRel k r nid row gs q.1 q.2 gs' := by
  have key := foldlM_inv (f := sweepNode k r nid)
    (fun pre (q : List NodeId × List (Fin N → Option NodeId)) =>
      ∃ gs', RowRel k r nid pre (gs.take pre.length) q.1 q.2 gs') row ([], [])
    ⟨[], by simp, rfl, by simp, by simp, by simp⟩ ?_
  · obtain ⟨q, h1, gs', h2⟩ := key
    rw [hlen, List.take_length] at h2
    exact ⟨q, h1, gs', h2⟩
  · rintro pre x post ⟨ids, kept⟩ hsplit ⟨gs', hR⟩
    have hpl : pre.length < gs.length := by rw [← hlen, hsplit]; simp
    obtain ⟨g, hg⟩ := getElem?_of_lt hpl
    obtain ⟨nd, nv, h1, h2, h3⟩ := H _ _ hg
    have hx : x = fun b => some (nd b) := by
      rw [hsplit] at h1; simpa using h1
    have htake : gs.take (pre.length + 1) = gs.take pre.length ++ [g] := by
      rw [List.take_add_one, hg]; rfl
    have hidlen : ids.length = pre.length := by
      have := hR.idlen; simp at this; omega
    have hall : allSome (fun b => sweepEdge k (upd nid r ids) (x b)) = some nv := by
      apply allSome_of
      intro b
      rw [hx]
      simp only
      rw [← h3 b]
      exact sweepEdge_congr (fun j hj => upd_ne _ _ (by omega)) (h2 b)
    simp only [sweepNode, hall]
    -- positions before the new one keep their relation
    have fwdOld : ∀ (ids2 : List NodeId) (new2 : List (Fin N → Option NodeId)) (gs2 : List S)
        (c : Nat) g', (gs.take pre.length)[c]? = some g' →
        ∃ nd nv : Node N,
        (pre ++ [x])[c]? = some (fun b => some (nd b)) ∧ (∀ b, (nd b).row < r) ∧
        (∀ b, sweepEdge k nid (some (nd b)) = some (nv b)) ∧
        (((ids ++ ids2)[c]? = some .zero ∧ ∀ b, nv b = .zero) ∨
         ∃ c' : Nat, (ids ++ ids2)[c]? = some ⟨r, c'⟩ ∧ (gs' ++ gs2)[c']? = some g' ∧
          (kept ++ new2)[c']? = some (fun b => some (nv b))) := by
      intro ids2 new2 gs2 c g' hg'
      obtain ⟨nd', nv', a1, a2, a3, a4⟩ := hR.fwd c g' hg'
      refine ⟨nd', nv', getElem?_append_of_some a1, a2, a3, ?_⟩
      rcases a4 with ⟨a4, a5⟩ | ⟨c', a4, a5, a6⟩
      · exact .inl ⟨getElem?_append_of_some a4, a5⟩
      · exact .inr ⟨c', getElem?_append_of_some a4, getElem?_append_of_some a5,
          getElem?_append_of_some a6⟩
    have bwdOld : ∀ (ids2 : List NodeId) c', c' < gs'.length →
        ∃ (c : Nat) (g' : S), (gs.take pre.length ++ [g])[c]? = some g' ∧
          (ids ++ ids2)[c]? = some ⟨r, c'⟩ := by
      intro ids2 c' hc'
      obtain ⟨c, g', a1, a2⟩ := hR.bwd c' hc'
      exact ⟨c, g', getElem?_append_of_some a1, getElem?_append_of_some a2⟩
    have hcase : ∀ (c : Nat) g', (gs.take pre.length ++ [g])[c]? = some g' →
        (gs.take pre.length)[c]? = some g' ∨ (c = pre.length ∧ g' = g) := by
      intro c g' hc
      by_cases hcl : c < (gs.take pre.length).length
      · rw [List.getElem?_append_left hcl] at hc; exact .inl hc
      · have hlt := getElem?_lt hc
        simp at hcl hlt
        have : c = pre.length := by omega
        subst this
        rw [List.getElem?_append_right (by simp; omega)] at hc
        simp [Nat.min_eq_left (Nat.le_of_lt hpl)] at hc
        exact .inr ⟨rfl, hc.symm⟩
    have hkl : kept.length = gs'.length := hR.len
    split
    · rename_i hz
      refine ⟨_, rfl, gs', ?_⟩
      rw [List.length_append, List.length_singleton, htake]
      refine ⟨by simp [hR.idlen], hkl, ?_, bwdOld _, List.Sublist.trans hR.sub (List.sublist_append_left _ _)⟩
      intro c g' hc
      rcases hcase c g' hc with hc | ⟨rfl, rfl⟩
      · have := fwdOld [.zero] [] [] c g' hc
        simpa using this
      · exact ⟨nd, nv, by simp [hx], h2, h3, .inl ⟨by simp [← hidlen], hz⟩⟩
    · refine ⟨_, rfl, gs' ++ [g], ?_⟩
      rw [List.length_append, List.length_singleton, htake]
      refine ⟨by simp [hR.idlen], by simp [hkl], ?_, ?_,
        List.Sublist.append hR.sub (List.Sublist.refl _)⟩
      · intro c g' hc
        rcases hcase c g' hc with hc | ⟨rfl, rfl⟩
        · exact fwdOld _ _ _ c g' hc
        · exact ⟨nd, nv, by simp [hx], h2, h3, .inr ⟨kept.length, by simp [← hidlen], by simp [hkl],
            by simp⟩⟩
      · intro c' hc'
        by_cases hlt : c' < gs'.length
        · exact bwdOld _ c' hlt
        · have : c' = kept.length := by simp at hc'; omega
          subst this
          refine ⟨pre.length, g, ?_, by simp [← hidlen]⟩
          rw [List.getElem?_append_right (by simp; omega)]
          simp [Nat.min_eq_left (Nat.le_of_lt hpl)]

/-- Result of the row loop of the sweep. -/
structure SweepRel (k n : Nat) (st : BSt N S) (G : Nat → List S) (st' : BSt N S)
    (nid : Nat → List NodeId) (G' : Nat → List S) : Prop where
  numRows : st'.numRows = st.numRows
  root : st'.root = st.root
  pend : st'.pend = st.pend
  one : st'.one = st.one
  oneSrc : st'.oneSrc = st.oneSrc
  sw : st'.sw = st.sw
  low : ∀ r, r < k ∨ k + n ≤ r → st'.row r = st.row r ∧ G' r = G r
  gen : ∀ r, r < k → st'.gen r = st.gen r
  rel : ∀ r, k ≤ r → r < k + n → RowRel k r nid (st.row r) (G r) (nid r) (st'.row r) (G' r)

theorem range'_split {k n : Nat} {pre post : List Nat} {r : Nat}
    (h : List.range' k n = pre ++ r :: post) : r = k + pre.length ∧ pre.length < n := by
  have h1 : (List.range' k n)[pre.length]? = some r := by rw [h]; simp
  have h2 := getElem?_lt h1
  simp at h2
  rw [List.getElem?_range' h2] at h1
  simp at h1
  exact ⟨h1.symm, h2⟩

/-- all rows -/
theorem sweepRows {k n : Nat} (st : BSt N S) (G : Nat → List S)
    (hlen : ∀ r, k ≤ r → (st.row r).length = (G r).length)
    (H : ∀ r, k ≤ r → r < k + n → ∀ (c : Nat) g, (G r)[c]? = some g → ∃ nd : Node N,
      (st.row r)[c]? = some (fun b => some (nd b)) ∧
      ∀ b, (nd b).row < r ∧ (0 < (nd b).row → (nd b).col < (G (nd b).row).length)) (hk : 0 < k) :
    ∃ p, (List.range' k n).foldlM (sweepRow k) (st, fun _ => []) = some p ∧
      ∃ G', SweepRel k n st G p.1 p.2 G' := by
  have key := foldlM_inv (f := sweepRow k)
    (fun pre (p : BSt N S × (Nat → List NodeId)) => ∃ G', SweepRel k pre.length st G p.1 p.2 G')
    (List.range' k n) (st, fun _ => [])
    ⟨G, rfl, rfl, rfl, rfl, rfl, rfl, fun _ _ => ⟨rfl, rfl⟩, fun _ _ => rfl, fun r h1 h2 => by
      simp at h2; omega⟩ ?_
  · obtain ⟨p, h1, G', h2⟩ := key
    rw [List.length_range'] at h2
    exact ⟨p, h1, G', h2⟩
  · rintro pre r post ⟨st1, nid⟩ hsplit ⟨G', hS⟩
    obtain ⟨hr, hn⟩ := range'_split hsplit
    have hrow := hS.low r (.inr (by omega))
    simp only at hrow
    have hl := sweepRow_loop (k := k) (r := r) nid (st1.row r) (G r)
      (by rw [hrow.1]; exact hlen r (by omega)) (by
        intro c g hg
        obtain ⟨nd, h1, h2⟩ := H r (by omega) (by omega) c g hg
        have : ∀ b, ∃ v, sweepEdge k nid (some (nd b)) = some v := by
          intro b
          simp only [sweepEdge]
          split
          · rename_i hge
            have hrel := hS.rel (nd b).row hge (by have := (h2 b).1; omega)
            apply getElem?_of_lt
            rw [hrel.idlen]
            exact (h2 b).2 (by omega)
          · exact ⟨_, rfl⟩
        refine ⟨nd, fun b => (this b).choose, by rw [hrow.1]; exact h1, fun b => (h2 b).1,
          fun b => (this b).choose_spec⟩)
    obtain ⟨q, h1, gs', h2⟩ := hl
    refine ⟨({ st1 with row := upd st1.row r q.2, gen := upd st1.gen r (st1.gen r + 1) },
        upd nid r q.1), by simp only [sweepRow, h1, Option.map_some], upd G' r gs', ?_⟩
    refine ⟨hS.numRows, hS.root, hS.pend, hS.one, hS.oneSrc, hS.sw, ?_, ?_, ?_⟩
    · intro r' hr'
      have hne : r' ≠ r := by simp at hr'; omega
      simp only [upd_ne _ _ hne]
      exact hS.low r' (by simp at hr'; omega)
    · intro r' hr'
      have hne : r' ≠ r := by omega
      simp only [upd_ne _ _ hne]
      exact hS.gen r' hr'
    · intro r' h3 h4
      by_cases hrr : r' = r
      · subst hrr
        simp only [upd_same]
        rw [← hrow.1]
        exact h2.congr (fun j hj => (upd_ne _ _ (by omega)).symm)
      · simp only [upd_ne _ _ hrr]
        have : r' < r := by simp at h4; omega
        exact (hS.rel r' h3 (by omega)).congr (fun j hj => (upd_ne _ _ (by omega)).symm)

end TdZdd
