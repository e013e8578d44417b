import Verif.Equality
import Verif.ReducerProofs8

/-! Correctness of `operator==`. -/

namespace TdZdd

variable {N : Nat}

theorem keyLaw : HT.Law (keyHash (N := N)) keyEq fun _ => True := by
  refine ⟨fun _ => nodeEq_iff.2 rfl, ?_, ?_, ?_⟩
  · intro x y _ _ h; exact nodeEq_iff.2 (nodeEq_iff.1 h).symm
  · intro x y z _ _ _ h h'; exact nodeEq_iff.2 ((nodeEq_iff.1 h).trans (nodeEq_iff.1 h'))
  · intro x y _ _ h; unfold keyHash nodeHash; rw [nodeEq_iff.1 h]

theorem keyEq_iff {e e' : Node (N + 1) × Nat} : keyEq e e' = true ↔ e.1 = e'.1 := nodeEq_iff

/-- `v` is the last column below `t` that holds `nd` -/
def IsLast (row : List (Node (N + 1))) (t : Nat) (nd : Node (N + 1)) (v : Nat) : Prop :=
  v < t ∧ row[v]? = some nd ∧ ∀ v', v < v' → v' < t → row[v']? ≠ some nd

theorem fill_spec (row : List (Node (N + 1))) (u0 : HT (Node (N + 1) × Nat)) (m : Nat) :
    ∃ u1, HT.init m u0 = some u1 ∧ ∃ u l,
      (List.range row.length).foldlM (fun u j => row[j]?.bind fun nd => mapSet u nd j) u1 = some u ∧
      HSim keyHash keyEq (fun _ => True) u l ∧ ∀ nd v, (nd, v) ∈ l ↔ IsLast row row.length nd v := by
  obtain ⟨u1, e1, h1⟩ := HSim.step (keyLaw (N := N)) (t := HT.empty) (l := [])
    ⟨HT.empty_ok, fun e => by simp [HT.Has, HT.empty], rfl, .nil⟩ (.init m) trivial
  obtain ⟨u1, e1, hok, _, _, hsz, hemp⟩ := HT.init_spec (hash := keyHash (N := N)) (eq := keyEq)
    (P := fun _ => True) m u0
  refine ⟨u1, e1, ?_⟩
  obtain ⟨u, e2, l, h2, h3⟩ := foldlM_up (f := fun u j => row[j]?.bind fun nd => mapSet u nd j)
    (fun t u => ∃ l, HSim keyHash keyEq (fun _ => True) u l ∧ ∀ nd v, (nd, v) ∈ l ↔ IsLast row t nd v)
    row.length u1
    ⟨[], ⟨hok, fun e => by simp [hemp e], by simpa using hsz, .nil⟩, fun nd v => by simp [IsLast]⟩
    (by
      rintro t u ht ⟨l, hs, hl⟩
      obtain ⟨nd, hnd⟩ := getElem?_of_lt ht
      obtain ⟨u', e, hs'⟩ := hs.step keyLaw (.modify (nd, 0) fun e => (e.1, t))
        ⟨trivial, fun e _ => ⟨trivial, keyEq_iff.2 rfl⟩⟩
      refine ⟨u', by rw [hnd]; exact e, _, hs', ?_⟩
      intro nd' v
      simp only [HOp.spec, addSpec, List.mem_map]
      by_cases hn : nd' = nd
      · subst hn
        have hv : IsLast row (t + 1) nd' v ↔ v = t := by
          constructor
          · rintro ⟨a1, a2, a3⟩
            apply Classical.byContradiction
            intro hne
            exact a3 t (by omega) (by omega) hnd
          · rintro rfl
            exact ⟨by omega, hnd, fun v' h1 h2 => by omega⟩
        rw [hv]
        constructor
        · rintro ⟨e, _, he⟩
          by_cases hk : keyEq e (nd', 0) = true
          · rw [if_pos hk] at he; cases he; rfl
          · rw [if_neg hk] at he
            rw [he] at hk
            exact absurd (keyEq_iff.2 rfl) hk
        · rintro rfl
          by_cases hany : (l.any fun e => keyEq e (nd', 0)) = true
          · rw [if_pos hany]
            obtain ⟨e, he, hk⟩ := List.any_eq_true.1 hany
            refine ⟨e, he, ?_⟩
            rw [if_pos hk, keyEq_iff.1 hk]
          · rw [if_neg hany]
            exact ⟨(nd', 0), by simp, by rw [if_pos (keyEq_iff.2 rfl)]⟩
      · have hv : IsLast row (t + 1) nd' v ↔ IsLast row t nd' v := by
          constructor
          · rintro ⟨a1, a2, a3⟩
            refine ⟨?_, a2, fun v' b1 b2 => a3 v' b1 (by omega)⟩
            apply Classical.byContradiction
            intro hlt
            have : v = t := by omega
            rw [this, hnd] at a2
            exact hn (Option.some.inj a2).symm
          · rintro ⟨a1, a2, a3⟩
            refine ⟨by omega, a2, fun v' b1 b2 he => ?_⟩
            by_cases e : v' = t
            · rw [e, hnd] at he; exact hn (Option.some.inj he).symm
            · exact a3 v' b1 (by omega) he
        rw [hv, ← hl]
        constructor
        · rintro ⟨e, he, hk⟩
          by_cases hke : keyEq e (nd, 0) = true
          · rw [if_pos hke] at hk
            have hk1 : e.1 = nd := keyEq_iff.1 hke
            have hk2 : e.1 = nd' := congrArg Prod.fst hk
            exact absurd (hk2.symm.trans hk1) hn
          · rw [if_neg hke] at hk
            subst hk
            by_cases hany : (l.any fun e => keyEq e (nd, 0)) = true
            · rw [if_pos hany] at he; exact he
            · rw [if_neg hany, List.mem_append, List.mem_singleton] at he
              rcases he with he | he
              · exact he
              · cases he; exact absurd rfl hn
        · intro he
          refine ⟨(nd', v), ?_, ?_⟩
          · by_cases hany : (l.any fun e => keyEq e (nd, 0)) = true
            · rw [if_pos hany]; exact he
            · rw [if_neg hany]; simp [he]
          · rw [if_neg]
            intro hk
            exact hn (keyEq_iff.1 hk))
  exact ⟨u, l, e2, h2, h3⟩

theorem mapGet_spec {row : List (Node (N + 1))} {u : HT (Node (N + 1) × Nat)} {l : List (Node (N + 1) × Nat)}
    (hs : HSim keyHash keyEq (fun _ => True) u l) (hl : ∀ nd v, (nd, v) ∈ l ↔ IsLast row row.length nd v)
    (nd : Node (N + 1)) : ∃ r, mapGet u nd = some r ∧ (∀ v, r = some v → IsLast row row.length nd v) ∧
      (r = none → ∀ v : Nat, row[v]? ≠ some nd) := by
  obtain ⟨r, e, h1, h2⟩ := HT.get_spec hs.ok keyLaw (x := (nd, 0)) trivial
  refine ⟨r.map fun e => e.2.2, by unfold mapGet; rw [e]; rfl, ?_, ?_⟩
  · intro v hr
    obtain ⟨p, hp, hv⟩ := Option.map_eq_some_iff.1 hr
    obtain ⟨a1, a2, a3⟩ := h1 p.1 p.2 hp
    have hm := (hs.has p.2).1 ⟨p.1, a1, a2⟩
    have := keyEq_iff.1 a3
    dsimp only at this hv
    rw [← hl, ← this, ← hv]
    exact hm
  · intro hr
    rw [Option.map_eq_none_iff] at hr
    intro v hv
    have hno := h2 hr
    -- there is a last one
    have hex : ∃ w, IsLast row row.length nd w := by
      have : ∀ t, v < t → t ≤ row.length → ∃ w, IsLast row t nd w := by
        intro t
        induction t with
        | zero => intro h; omega
        | succ t ih =>
          intro h1 h2
          by_cases he : row[t]? = some nd
          · exact ⟨t, by omega, he, fun v' a b => by omega⟩
          · by_cases hvt : v = t
            · rw [hvt] at hv; exact absurd hv he
            · obtain ⟨w, b1, b2, b3⟩ := ih (by omega) (by omega)
              refine ⟨w, by omega, b2, fun v' c1 c2 => ?_⟩
              by_cases e : v' = t
              · rw [e]; exact he
              · exact b3 v' c1 (by omega)
      exact this _ (getElem?_lt hv) (Nat.le_refl _)
    obtain ⟨w, hw⟩ := hex
    have := hno _ ((hs.has _).2 ((hl _ _).2 hw))
    rw [keyEq_iff.2 (show (nd, w).1 = (nd, 0).1 from rfl)] at this
    cases this

theorem iso_row0 {A O : Table (N + 1)} {f g : NodeId} (h : Iso A O f g) (h0 : f.row = 0) : f = g := by
  cases h with
  | term _ => rfl
  | node h1 _ _ _ _ => omega

section
variable {A O : Table (N + 1)}

/-- what the computed equivalents satisfy on rows `0..k` -/
structure EqInv (A O : Table (N + 1)) (k : Nat) (s : EqSt N) : Prop where
  ex : ∀ {f}, O.Valid f → f.row ≤ k → ∃ e, (s.equiv f.row)[f.col]? = some e ∧ e.row = f.row
  sound : ∀ {f e}, O.Valid f → f.row ≤ k → (s.equiv f.row)[f.col]? = some e → A.Valid e → Iso A O e f
  compl : A.Unique → ∀ {f g}, O.Valid f → A.Valid g → f.row ≤ k → Iso A O g f → (s.equiv f.row)[f.col]? = some g

theorem eqLevel_spec (hA : A.Wf) (hO : O.Wf) {k : Nat} (hkA : k + 1 < A.numRows) (hkO : k + 1 < O.numRows)
    {s : EqSt N} (h : EqInv A O k s) :
    ∃ s', eqLevel A O s (k + 1) = some s' ∧ EqInv A O (k + 1) s' := by
  obtain ⟨u1, e1, u, l, e2, hs, hl⟩ := fill_spec (A.row (k + 1)) s.uniq ((A.row (k + 1)).length * 2)
  have hOn : ∀ {j : Nat} {nd}, (O.row (k + 1))[j]? = some nd → O.node? ⟨k + 1, j⟩ = some nd := by
    intro j nd hj; unfold Table.node?; dsimp only; rw [if_pos hkO]; exact hj
  have hAn : ∀ {j : Nat} {nd}, A.node? ⟨k + 1, j⟩ = some nd ↔ (A.row (k + 1))[j]? = some nd := by
    intro j nd; unfold Table.node?; dsimp only; rw [if_pos hkA]
  -- the equivalents of one node
  have hnode : ∀ {j : Nat} {nd}, (O.row (k + 1))[j]? = some nd → ∃ node : Node (N + 1),
      (∀ b, (s.equiv (nd b).row)[(nd b).col]? = some (node b)) ∧
      ∃ r, eqNode (k + 1) (A.row (k + 1)).length { s with uniq := u } nd =
        some ⟨k + 1, r.getD (A.row (k + 1)).length⟩ ∧
        (∀ v, r = some v → IsLast (A.row (k + 1)) (A.row (k + 1)).length node v) ∧
        (r = none → ∀ v : Nat, (A.row (k + 1))[v]? ≠ some node) := by
    intro j nd hj
    have hch := fun b => hO.child (f := ⟨k + 1, j⟩) (Nat.succ_pos _) (hOn hj) b
    have : ∀ b, ∃ e, (s.equiv (nd b).row)[(nd b).col]? = some e := by
      intro b
      obtain ⟨e, he, _⟩ := h.ex (hch b).1 (by have := (hch b).2; dsimp only at this; omega)
      exact ⟨e, he⟩
    refine ⟨fun b => Classical.choose (this b), fun b => Classical.choose_spec (this b), ?_⟩
    obtain ⟨r, er, h1, h2⟩ := mapGet_spec hs hl fun b => Classical.choose (this b)
    refine ⟨r, ?_, h1, h2⟩
    unfold eqNode
    have em : mapNode (fun f => ((EqSt.equiv { s with uniq := u }) f.row)[f.col]?) nd =
        some fun b => Classical.choose (this b) := allSome_of fun b => Classical.choose_spec (this b)
    rw [em]
    simp only [Option.bind_some, er]
    rfl
  -- the list of ids
  have hmap : ∃ ids : List NodeId, (O.row (k + 1)).mapM (eqNode (k + 1) (A.row (k + 1)).length { s with uniq := u }) = some ids ∧
      ∀ j : Nat, ids[j]? = (O.row (k + 1))[j]?.bind (eqNode (k + 1) (A.row (k + 1)).length { s with uniq := u }) := by
    have gen : ∀ (L : List (Node (N + 1))), (∀ nd ∈ L, ∃ e, eqNode (k + 1) (A.row (k + 1)).length { s with uniq := u } nd = some e) →
        ∃ ids : List NodeId, L.mapM (eqNode (k + 1) (A.row (k + 1)).length { s with uniq := u }) = some ids ∧
          ∀ j : Nat, ids[j]? = L[j]?.bind (eqNode (k + 1) (A.row (k + 1)).length { s with uniq := u }) := by
      intro L
      induction L with
      | nil => intro _; exact ⟨[], by simp, by simp⟩
      | cons nd L ih =>
        intro hL
        obtain ⟨e, he⟩ := hL nd (by simp)
        obtain ⟨ids, h1, h2⟩ := ih fun x hx => hL x (by simp [hx])
        refine ⟨e :: ids, by simp [List.mapM_cons, he, h1], ?_⟩
        intro j
        cases j with
        | zero => simp [he]
        | succ j => simpa using h2 j
    refine gen _ fun nd hnd => ?_
    obtain ⟨j, hj⟩ := List.mem_iff_getElem?.1 hnd
    obtain ⟨_, _, r, er, _⟩ := hnode hj
    exact ⟨_, er⟩
  obtain ⟨ids, e3, hids⟩ := hmap
  refine ⟨{ uniq := u, equiv := upd s.equiv (k + 1) ids }, ?_, ?_⟩
  · unfold eqLevel
    rw [if_pos ⟨hkA, hkO⟩]
    simp only [e1, e2, e3, Option.bind_eq_bind, Option.bind_some]
  · have hlow : ∀ {f : NodeId}, f.row ≠ k + 1 → upd s.equiv (k + 1) ids f.row = s.equiv f.row := by
      intro f hf; unfold upd; rw [if_neg hf]
    have htop : ∀ {f : NodeId}, f.row = k + 1 → upd s.equiv (k + 1) ids f.row = ids := by
      intro f hf; unfold upd; rw [if_pos hf]
    have hval : ∀ {f : NodeId}, O.Valid f → f.row = k + 1 → ∃ nd, (O.row (k + 1))[f.col]? = some nd ∧ O.node? f = some nd := by
      intro f hv hf
      obtain ⟨nd, hn⟩ := hv.pos (by omega)
      refine ⟨nd, ?_, hn⟩
      unfold Table.node? at hn
      rw [hf, if_pos hkO] at hn
      exact hn
    refine ⟨?_, ?_, ?_⟩
    · intro f hv hf
      by_cases hfk : f.row = k + 1
      · obtain ⟨nd, h1, _⟩ := hval hv hfk
        obtain ⟨_, _, r, er, _⟩ := hnode h1
        dsimp only
        rw [htop hfk, hids, h1]
        exact ⟨_, er, hfk.symm⟩
      · dsimp only; rw [hlow hfk]; exact h.ex hv (by omega)
    · intro f e hv hf he hAe
      by_cases hfk : f.row = k + 1
      · obtain ⟨nd, h1, h1'⟩ := hval hv hfk
        obtain ⟨node, hn, r, er, hr1, hr2⟩ := hnode h1
        dsimp only at he
        rw [htop hfk, hids, h1] at he
        have he' : some (⟨k + 1, r.getD (A.row (k + 1)).length⟩ : NodeId) = some e := er.symm.trans he
        cases he'
        cases r with
        | none =>
          obtain ⟨x, hx⟩ := hAe.pos (Nat.succ_pos _)
          rw [hAn] at hx
          have := getElem?_lt hx
          simp at this
        | some v =>
          obtain ⟨_, hv2, _⟩ := hr1 v rfl
          simp only [Option.getD_some] at hAe ⊢
          have hAv := hAn.2 hv2
          refine .node (Nat.succ_pos _) hfk.symm hAv h1' fun b => ?_
          have hb := hO.child (by omega) h1' b
          exact h.sound hb.1 (by omega) (hn b) (hA.child (f := ⟨k + 1, v⟩) (Nat.succ_pos _) hAv b).1
      · dsimp only at he; rw [hlow hfk] at he; exact h.sound hv (by omega) he hAe
    · intro hu f g hv hg hf hiso
      by_cases hfk : f.row = k + 1
      · obtain ⟨nd, h1, h1'⟩ := hval hv hfk
        obtain ⟨node, hn, r, er, hr1, hr2⟩ := hnode h1
        cases hiso with
        | term h0 => omega
        | @node _ _ nd1 nd2 h0 hr hn1 hn2 hb =>
          rw [h1'] at hn2
          cases hn2
          have hnode' : node = nd1 := by
            funext b
            have hb' := hO.child (by omega) h1' b
            have := h.compl hu hb'.1 (hA.child h0 hn1 b).1 (by omega) (hb b)
            rw [hn b] at this
            exact Option.some.inj this
          subst hnode'
          have eg : g = ⟨k + 1, g.col⟩ := by
            cases g; simp only at hr; rw [show _ = k + 1 from hr.trans hfk]
          have hgc : (A.row (k + 1))[g.col]? = some node := by rw [eg] at hn1; exact hAn.1 hn1
          dsimp only
          rw [htop hfk, hids, h1]
          refine er.trans ?_
          cases r with
          | none => exact absurd hgc (hr2 rfl _)
          | some v =>
            obtain ⟨_, hv2, _⟩ := hr1 v rfl
            have := hu ⟨k + 1, v⟩ g node (Nat.succ_pos _) (hr.trans hfk).symm (hAn.2 hv2) hn1
            rw [← this]; rfl
      · dsimp only; rw [hlow hfk]; exact h.compl hu hv hg (by omega) hiso

end

theorem eqMain_spec {A O : Dd (N + 1)} (hA : A.Wf) (hO : O.Wf) (hr : A.root.row = O.root.row) (h0 : 0 < A.root.row)
    (hO0 : 2 ≤ (O.table.row 0).length) : ∃ b, eqMain A O = some b ∧ (b = true → Iso A.table O.table A.root O.root) ∧
      (A.table.Unique → Iso A.table O.table A.root O.root → b = true) := by
  have hnA : A.root.row < A.table.numRows := by
    obtain ⟨nd, hn⟩ := hA.root.pos h0
    exact (nodeAt_lt (T := A.table.row) hn).1
  have hnO : O.root.row < O.table.numRows := by
    obtain ⟨nd, hn⟩ := hO.root.pos (by omega)
    exact (nodeAt_lt (T := O.table.row) hn).1
  have start : EqInv A.table O.table 0 { uniq := HT.empty (E := Node (N + 1) × Nat), equiv := fun r =>
      if r = 0 then (List.range (O.table.row 0).length).map fun j => ⟨0, j⟩ else [] } := by
    have look : ∀ {f : NodeId}, O.table.Valid f → f.row = 0 →
        ((if f.row = 0 then (List.range (O.table.row 0).length).map fun j => (⟨0, j⟩ : NodeId) else [])[f.col]?) = some f := by
      intro f hv hf
      rw [if_pos hf]
      rcases hv.row0 hf with rfl | rfl
      · rw [List.getElem?_map, List.getElem?_range (by simp only [NodeId.zero]; omega)]; rfl
      · rw [List.getElem?_map, List.getElem?_range (by simp only [NodeId.one]; omega)]; rfl
    refine ⟨?_, ?_, ?_⟩
    · intro f hv hf
      exact ⟨f, look hv (by omega), rfl⟩
    · intro f e hv hf he _
      dsimp only at he
      rw [look hv (by omega)] at he
      cases he
      exact .term (by omega)
    · intro _ f g hv _ hf hiso
      dsimp only
      rw [look hv (by omega)]
      cases hiso with
      | term _ => rfl
      | node h1 h2 _ _ _ => omega
  obtain ⟨s, e, h⟩ := levelsUp_fold (f := eqLevel A.table O.table) (fun k s => EqInv A.table O.table k s) A.root.row _ start
    (fun t s ht h => eqLevel_spec hA.table hO.table (by omega) (by omega) h)
  obtain ⟨x, hx, _⟩ := h.ex hO.root (by omega)
  refine ⟨decide (A.root = x), ?_, ?_, ?_⟩
  · unfold eqMain
    simp only [e, Option.bind_eq_bind, Option.bind_some, hx]
  · intro hb
    have : A.root = x := by simpa using hb
    rw [← this] at hx
    exact h.sound hO.root (by omega) hx hA.root
  · intro hu hiso
    have := h.compl hu hO.root hA.root (by omega) hiso
    rw [hx] at this
    simpa using (Option.some.inj this).symm

/-- the answer `true` is right; for diagrams without duplicate nodes so is the answer `false` -/
theorem ddEq_spec {same : Bool} {A O : Dd (N + 1)} (hA : A.Wf) (hO : O.Wf) (hA0 : 2 ≤ (A.table.row 0).length)
    (hO0 : 2 ≤ (O.table.row 0).length) (hs : same = true → A.table = O.table) :
    ∃ b, ddEq same A O = some b ∧ (b = true → Iso A.table O.table A.root O.root) ∧
      (A.table.Unique → O.table.Unique → Iso A.table O.table A.root O.root → b = true) := by
  unfold ddEq
  by_cases hr : A.root.row = O.root.row
  · rw [if_neg (by simpa using hr)]
    by_cases h0 : A.root.row = 0
    · rw [if_pos h0]
      refine ⟨_, rfl, ?_, ?_⟩
      · intro hb
        have : A.root = O.root := by simpa using hb
        rw [← this]; exact .term h0
      · intro _ _ hiso
        simpa using iso_row0 hiso h0
    · rw [if_neg h0]
      by_cases hsm : A.root = O.root ∧ same = true
      · rw [if_pos hsm]
        refine ⟨true, rfl, fun _ => ?_, fun _ _ _ => rfl⟩
        rw [← hsm.1, ← hs hsm.2]
        exact .refl hA.table _ (Nat.le_refl _) hA.root
      · rw [if_neg hsm]
        by_cases hz : A.table.size > O.table.size
        · rw [if_pos hz]
          obtain ⟨b, h1, h2, h3⟩ := eqMain_spec hO hA hr.symm (by omega) hA0
          exact ⟨b, h1, fun h => (h2 h).symm, fun _ hu h => h3 hu h.symm⟩
        · rw [if_neg hz]
          obtain ⟨b, h1, h2, h3⟩ := eqMain_spec hA hO hr (by omega) hO0
          exact ⟨b, h1, h2, fun hu _ h => h3 hu h⟩
  · rw [if_pos (by simpa using hr)]
    exact ⟨false, rfl, fun h => (nomatch h), fun _ _ h => absurd h.row hr⟩

end TdZdd
