import Verif.EqualityProofs

/-! Consequences of the reducer theorems for whole structures, for every arity. -/

namespace TdZdd

variable {N : Nat}

theorem bddReduce_spec {D : Dd (N + 1)} (hw : D.Wf) : ∃ D', D.bddReduce = some D' ∧ IsRed delB D D' := by
  unfold Dd.bddReduce Dd.reduce
  match N, D, hw with
  | 1, D, hw => exact reduce2_bdd hw
  | 0, D, hw => exact reduceN_bdd hw
  | n + 2, D, hw => exact reduceN_bdd hw

theorem zddReduce_spec {D : Dd (N + 1)} (hw : D.Wf) : ∃ D', D.zddReduce = some D' ∧ IsRed delZ D D' := by
  unfold Dd.zddReduce Dd.reduce
  match N, D, hw with
  | 1, D, hw => exact reduce2_zdd hw
  | 0, D, hw => exact reduceN_zdd hw
  | n + 2, D, hw => exact reduceN_zdd hw

theorem qddReduce_spec {D : Dd (N + 1)} (hw : D.Wf) : ∃ D', D.qddReduce = some D' ∧ IsQRed D D' := by
  unfold Dd.qddReduce Dd.reduce
  match N, D, hw with
  | 1, D, hw => exact reduce2_qdd hw
  | 0, D, hw => exact reduceN_qdd hw
  | n + 2, D, hw => exact reduceN_qdd hw

section
variable {del : Node (N + 1) → Prop} {D D' : Dd (N + 1)}

theorem IsRed.wf (h : IsRed del D D') (hw : D.Wf) : D'.Wf := by
  obtain ⟨_, _, nid, hr, e⟩ := h
  refine ⟨hr.wf hw.table, ?_⟩
  rw [e]
  exact (hr.valid hw.table _ (Nat.le_refl _) (Nat.le_refl _) hw.root).1

theorem IsRed.root_row (h : IsRed del D D') (hw : D.Wf) : D'.root.row ≤ D.root.row := by
  obtain ⟨_, _, nid, hr, e⟩ := h
  rw [e]
  exact (hr.valid hw.table _ (Nat.le_refl _) (Nat.le_refl _) hw.root).2

theorem IsRed.row0 (h : IsRed del D D') : 2 ≤ (D'.table.row 0).length := by rw [h.2.1]; exact Nat.le_refl _

theorem IsRed.canon (h : IsRed del D D') (hw : D.Wf) : Canon del D'.table := by
  obtain ⟨_, _, nid, hr, e⟩ := h
  exact hr.canon hw.table

theorem IsRed.size_le (h : IsRed del D D') : D'.table.size ≤ D.table.size := by
  obtain ⟨_, _, nid, hr, e⟩ := h
  exact hr.size_le

theorem IsRed.bddSat (h : IsRed delB D D') (hw : D.Wf) (a : Asg (N + 1)) : BddSat D'.spec a ↔ BddSat D.spec a := by
  rw [(h.wf hw).bddSat_iff, hw.bddSat_iff]
  obtain ⟨_, _, nid, hr, e⟩ := h
  rw [e]
  exact hr.tsat hw.table _ (Nat.le_refl _) (Nat.le_refl _) hw.root a

theorem IsRed.zddMem (h : IsRed delZ D D') (hw : D.Wf) (n : Nat) (hn : D.root.row ≤ n) (a : Asg (N + 1)) :
    ZddMem D'.spec n a ↔ ZddMem D.spec n a := by
  rw [(h.wf hw).zddMem_iff, hw.zddMem_iff]
  obtain ⟨_, _, nid, hr, e⟩ := h
  rw [e]
  exact hr.tmem hw.table _ (Nat.le_refl _) (Nat.le_refl _) hw.root n a hn

theorem IsRed.allLive (h : IsRed del D D') (hw : D.Wf) (hdel : ∀ c, del c → ∀ b, c b = c 0 ∨ c b = .zero)
    (hl : D.AllLive) : D'.AllLive := by
  obtain ⟨_, _, nid, hr, e⟩ := h
  have := hr.allLive hw.table (Nat.le_refl _) hw.root hdel hl
  rw [← e] at this
  exact this

theorem IsQRed.wf (h : IsQRed D D') (hw : D.Wf) : D'.Wf := by
  obtain ⟨_, _, T', cmp, nid, del, hc, hr, _, e⟩ := h
  have hw' := hc.wf hw.table
  refine ⟨hr.wf hw', ?_⟩
  rw [e]
  refine (hr.valid hw' _ (Nat.le_refl _) (Nat.le_refl _) ?_).1
  by_cases h0 : D.root.row = 0
  · rcases hw.root.row0 h0 with e | e <;> rw [e]
    · exact .zero
    · exact .one
  · obtain ⟨nd, hn⟩ := hw.root.pos (by omega)
    exact Table.valid_of_node (by omega) (by rw [hc.node (by omega), hn]; rfl)

theorem Comp.valid {T T' : Table (N + 1)} {cmp : NodeId → NodeId} (hc : Comp del T T' cmp) {f : NodeId}
    (hv : T.Valid f) : T'.Valid f := by
  by_cases h0 : f.row = 0
  · rcases hv.row0 h0 with e | e <;> rw [e]
    · exact .zero
    · exact .one
  · obtain ⟨nd, hn⟩ := hv.pos (by omega)
    exact Table.valid_of_node (by omega) (by rw [hc.node (by omega), hn]; rfl)

theorem IsQRed.accepts (h : IsQRed D D') (hw : D.Wf) (p : Path (N + 1)) :
    Accepts D'.spec D'.spec.root.1 D'.spec.root.2 p ↔ Accepts D.spec D.spec.root.1 D.spec.root.2 p := by
  rw [(h.wf hw).accepts_iff, hw.accepts_iff]
  obtain ⟨_, _, T', cmp, nid, del, hc, hr, hd, e⟩ := h
  rw [e, hr.tacc (hc.wf hw.table) hd p (Nat.le_refl _) (hc.valid hw.root)]
  exact (hc.tacc hw.table p hw.root).1

theorem IsQRed.unique (h : IsQRed D D') : D'.table.Unique := by
  obtain ⟨_, _, T', cmp, nid, del, hc, hr, hd, e⟩ := h
  exact hr.nodup

theorem IsQRed.row0 (h : IsQRed D D') : 2 ≤ (D'.table.row 0).length := by rw [h.2.1]; exact Nat.le_refl _

theorem IsQRed.size_le (h : IsQRed D D') : D'.table.size ≤ D.table.size := by
  obtain ⟨_, _, T', cmp, nid, del, hc, hr, hd, e⟩ := h
  refine Nat.le_trans hr.size_le (Table.size_le_of_rows fun i hi => ?_)
  apply Classical.byContradiction
  intro hlt
  obtain ⟨nd, hn⟩ := (Table.node?_isSome (T := T') (i := i) (c := D.table.rowLen i)).2 (by omega)
  rw [hc.node (f := ⟨i, _⟩) hi] at hn
  obtain ⟨nd', hn', _⟩ := Option.map_eq_some_iff.1 hn
  have := (Table.node?_isSome (T := D.table) (i := i) (c := D.table.rowLen i)).1 ⟨_, hn'⟩
  omega

/-- same Boolean function after BDD reduction: same unfolding -/
theorem IsRed.isoB {E E' : Dd (N + 1)} (h : IsRed delB D D') (hw : D.Wf) (h' : IsRed delB E E') (hw' : E.Wf)
    (he : ∀ a, BddSat D.spec a ↔ BddSat E.spec a) : Iso D'.table E'.table D'.root E'.root := by
  refine (h.canon hw).isoB (h.wf hw).table (h'.wf hw').table (h'.canon hw') _ (Nat.le_refl _) (h.wf hw).root
    (h'.wf hw').root fun a => ?_
  rw [← (h.wf hw).bddSat_iff, ← (h'.wf hw').bddSat_iff, h.bddSat hw, h'.bddSat hw', he]

theorem IsRed.isoZ {E E' : Dd (N + 1)} (h : IsRed delZ D D') (hw : D.Wf) (h' : IsRed delZ E E') (hw' : E.Wf)
    {n : Nat} (hn : D.root.row ≤ n) (hn' : E.root.row ≤ n)
    (he : ∀ a, ZddMem D.spec n a ↔ ZddMem E.spec n a) : Iso D'.table E'.table D'.root E'.root := by
  refine (h.canon hw).isoZ (h.wf hw).table (h'.wf hw').table (h'.canon hw') _ (Nat.le_refl _) (h.wf hw).root
    (h'.wf hw').root n (Nat.le_trans (h.root_row hw) hn) (Nat.le_trans (h'.root_row hw') hn') fun a => ?_
  rw [← (h.wf hw).zddMem_iff, ← (h'.wf hw').zddMem_iff, h.zddMem hw n hn, h'.zddMem hw' n hn', he]

end

/-- nothing but the 0-terminal gets the new id 0 if no node is deleted -/
theorem RedOf.zero_inv {del : Node (N + 1) → Prop} {T out : Table (N + 1)} {n : Nat} {nid : NodeId → NodeId}
    (h : RedOf del T n nid out) (hd : ∀ c, ¬ del c) {f : NodeId} (hv : T.Valid f) (hf : f.row ≤ n)
    (e : nid f = .zero) : f = .zero := by
  by_cases h0 : f.row = 0
  · rw [h.term h0] at e; exact e
  · obtain ⟨nd, hn⟩ := hv.pos (by omega)
    rcases h.node (by omega) hf hn with ⟨hx, _⟩ | ⟨_, hr, _⟩
    · exact absurd hx (hd _)
    · rw [e] at hr; exact absurd hr.symm h0

/-- a second QDD reduction only renumbers, arity 2 -/
theorem reduce2_qdd_idem {D D' D'' : Dd 2} (hw : D.Wf) (h : reduce2 false false D = some D')
    (h' : reduce2 false false D' = some D'') : Iso D'.table D''.table D'.root D''.root := by
  obtain ⟨X, T', cmp, nid, e, h1, h2, h3, h4, h5, h6⟩ := reduce2_spec (bdd := false) (zdd := false) hw
  rw [h] at e
  cases e
  have hwd : D'.Wf := by
    obtain ⟨Y, eY, hY⟩ := reduce2_qdd hw
    rw [h] at eY
    cases eY
    exact hY.wf hw
  obtain ⟨Y, T'', cmp', nid', e', g1, g2, g3, g4, g5, g6⟩ := reduce2_spec (bdd := false) (zdd := false) hwd
  rw [h'] at e'
  cases e'
  have nodel : ∀ c, ¬ delP false false c := by intro c hc; simp [delP, delR] at hc
  have hwT : T'.Wf := h3.wf hw.table
  rcases h6 with h6 | h6
  · -- terminal root
    have e0 : D'.root = D.root := by rw [h5]; exact h4.term h6
    rw [g5, g4.term (by rw [e0]; exact h6)]
    exact .term (by rw [e0]; exact h6)
  -- no edge of `D'` points to an all-zero node
  have hno : ∀ {g : NodeId} {nd nd' : Node 2} {b : Fin 2}, 0 < g.row → D'.table.node? g = some nd →
      0 < (nd b).row → D'.table.node? (nd b) = some nd' → ¬ delQ nd' := by
    intro g nd nd' b hg hn hb hn' hq
    obtain ⟨hle, _, f, nd0, f1, f2, f3, f4⟩ := h4.hit' hwT hg hn
    have c := hwT.child (f := f) (by omega) f2 b
    rw [f4] at hb hn'
    simp only [Function.comp] at hb hn'
    have hb0 : 0 < (nd0 b).row := by
      apply Classical.byContradiction
      intro hz
      rw [h4.term (by omega)] at hb
      omega
    obtain ⟨nd1, hn1⟩ := c.1.pos hb0
    rcases h4.node hb0 (by omega) hn1 with ⟨hx, _⟩ | ⟨_, _, hx⟩
    · exact nodel _ hx
    · rw [hx] at hn'
      cases hn'
      refine h6 (by omega) f2 hb0 hn1 ((delM_qdd nd1).2 fun b' => ?_)
      have c' := hwT.child hb0 hn1 b'
      exact h4.zero_inv nodel c'.1 (by omega) (hq b')
  -- so the preparation changes nothing
  have hsame : ∀ (r : Nat) {f : NodeId}, f.row ≤ r → 0 < f.row → T''.node? f = D'.table.node? f := by
    intro r
    induction r with
    | zero => intro f hf h0; omega
    | succ r ih =>
      intro f hf h0
      rw [g3.node h0]
      cases hn : D'.table.node? f with
      | none => rfl
      | some nd =>
        simp only [Option.map_some, Option.some.injEq]
        funext b
        simp only [Function.comp]
        have c := hwd.table.child h0 hn b
        rcases g3.comp (f := nd b) with e | ⟨hb, nd1, k1, k2, k3⟩
        · exact e
        · rw [ih (by omega) hb] at k1
          exact absurd ((delM_qdd nd1).1 k2) (hno h0 hn hb k1)
  have hred : RedOf (delP false false) D'.table D'.root.row nid' D''.table :=
    g4.congr_table fun f h0 => (hsame _ (Nat.le_refl _) h0).symm
  rw [g5]
  exact (hred.iso hwd.table (fun _ _ => nodel _) h4.nodup (fun c _ _ hd => absurd hd (nodel _)) _ (Nat.le_refl _)
    (Nat.le_refl _) hwd.root).1

theorem reduceN_qdd_idem {D D' D'' : Dd (N + 1)} (hw : D.Wf) (h : reduceN false false D = some D')
    (h' : reduceN false false D' = some D'') : Iso D'.table D''.table D'.root D''.root := by
  obtain ⟨X, nid, e, h1, h2, h3, h4⟩ := reduceN_spec (bdd := false) (zdd := false) hw
  rw [h] at e
  cases e
  have hwd : D'.Wf := by
    obtain ⟨Y, eY, hY⟩ := reduceN_qdd hw
    rw [h] at eY
    cases eY
    exact hY.wf hw
  obtain ⟨Y, nid', e', g1, g2, g3, g4⟩ := reduceN_spec (bdd := false) (zdd := false) hwd
  rw [h'] at e'
  cases e'
  have hc := (h3.congr_del delN_qdd).canon hw.table
  rw [g4]
  refine ((g3.congr_del delN_qdd).iso hwd.table (fun h0 hn => hc.keep h0 hn) hc.uniq ?_ _ (Nat.le_refl _)
    (Nat.le_refl _) hwd.root).1
  intro c _ hz hd b
  exact hz b (hd b)

theorem qddReduce_idem {D D' D'' : Dd (N + 1)} (hw : D.Wf) (h : D.qddReduce = some D')
    (h' : D'.qddReduce = some D'') : Iso D'.table D''.table D'.root D''.root := by
  unfold Dd.qddReduce Dd.reduce at h h'
  match N, D, D', D'', hw, h, h' with
  | 1, D, D', D'', hw, h, h' => exact reduce2_qdd_idem hw h h'
  | 0, D, D', D'', hw, h, h' => exact reduceN_qdd_idem hw h h'
  | n + 2, D, D', D'', hw, h, h' => exact reduceN_qdd_idem hw h h'

theorem IsRed.idemB {D D' D'' : Dd (N + 1)} (hw : D.Wf) (h : IsRed delB D D') (h' : IsRed delB D' D'') :
    Iso D'.table D''.table D'.root D''.root := by
  have hc := h.canon hw
  have hwd := h.wf hw
  obtain ⟨_, _, nid, hr, e⟩ := h'
  rw [e]
  refine (hr.iso hwd.table (fun h0 hn => hc.keep h0 hn) hc.uniq ?_ _ (Nat.le_refl _) (Nat.le_refl _) hwd.root).1
  intro c hi _ hd b
  exact hi b 0 (hd b)

theorem IsRed.idemZ {D D' D'' : Dd (N + 1)} (hw : D.Wf) (h : IsRed delZ D D') (h' : IsRed delZ D' D'') :
    Iso D'.table D''.table D'.root D''.root := by
  have hc := h.canon hw
  have hwd := h.wf hw
  obtain ⟨_, _, nid, hr, e⟩ := h'
  rw [e]
  refine (hr.iso hwd.table (fun h0 hn => hc.keep h0 hn) hc.uniq ?_ _ (Nat.le_refl _) (Nat.le_refl _) hwd.root).1
  intro c _ hz hd b hb
  exact hz b (hd b hb)

theorem delB_low (c : Node (N + 1)) (h : delB c) (b : Fin (N + 1)) : c b = c 0 ∨ c b = .zero := .inl (h b)
theorem delZ_low (c : Node (N + 1)) (h : delZ c) (b : Fin (N + 1)) : c b = c 0 ∨ c b = .zero := by
  by_cases hb : b = 0
  · rw [hb]; exact .inl rfl
  · exact .inr (h b hb)

end TdZdd
