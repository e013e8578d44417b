import Verif.ReducerProofs5

/-! The whole binary reduction. -/

namespace TdZdd

variable {N : Nat}

theorem fin2_cases : ∀ b : Fin 2, b = 0 ∨ b = 1 := by decide

theorem RedOf.congr_del {del del' : Node (N + 1) → Prop} {T : Table (N + 1)} {n : Nat} {nid : NodeId → NodeId}
    {out : Table (N + 1)} (h : RedOf del T n nid out) (hd : ∀ c, del c ↔ del' c) : RedOf del' T n nid out := by
  have : del = del' := funext fun c => propext (hd c)
  rw [← this]; exact h

/-- tables that agree above row 0 -/
theorem RedOf.congr_table {del : Node (N + 1) → Prop} {T T' : Table (N + 1)} {n : Nat} {nid : NodeId → NodeId}
    {out : Table (N + 1)} (h : RedOf del T n nid out) (ht : ∀ f, 0 < f.row → T'.node? f = T.node? f) :
    RedOf del T' n nid out := by
  refine ⟨h.term, ?_, ?_, h.nodup⟩
  · intro f nd h0 hn hnd; exact h.node h0 hn (by rw [← ht f h0]; exact hnd)
  · intro g nd h0 hg
    obtain ⟨h1, f, nd', h2, h3, h4⟩ := h.hit h0 hg
    exact ⟨h1, f, nd', h2, by rw [ht f (by omega)]; exact h3, h4⟩

theorem Table.valid_congr {T T' : Table N} (ht : ∀ f, 0 < f.row → T'.node? f = T.node? f) {f : NodeId} :
    T'.Valid f ↔ T.Valid f := by
  unfold Table.Valid
  constructor
  · rintro (h | h | ⟨h0, nd, h⟩)
    · exact .inl h
    · exact .inr (.inl h)
    · exact .inr (.inr ⟨h0, nd, by rw [← ht f h0]; exact h⟩)
  · rintro (h | h | ⟨h0, nd, h⟩)
    · exact .inl h
    · exact .inr (.inl h)
    · exact .inr (.inr ⟨h0, nd, by rw [ht f h0]; exact h⟩)

theorem Table.wf_congr {T T' : Table N} (ht : ∀ f, 0 < f.row → T'.node? f = T.node? f) (h : T.Wf) : T'.Wf := by
  intro r c nd h0 hn b
  rw [ht ⟨r, c⟩ h0] at hn
  obtain ⟨h1, h2⟩ := h r c nd h0 hn b
  exact ⟨(Table.valid_congr ht).2 h1, h2⟩

theorem Table.Wf.down {nr : Nat} {T : Rows N} (h : Table.Wf ⟨nr, T⟩) : Down T (nr - 1) := by
  intro i h1 h2 nd hnd b
  by_cases hi : i < nr
  · obtain ⟨c, hc⟩ := List.mem_iff_getElem?.1 hnd
    exact (h.child (f := ⟨i, c⟩) h1 (by unfold Table.node?; dsimp only; rw [if_pos hi]; exact hc) b).2
  · omega

theorem reduceInit_node (D : Dd N) : ∀ f : NodeId, 0 < f.row →
    Table.node? ⟨D.table.numRows, (reduceInit D).input⟩ f = D.table.node? f := by
  intro f h0
  have : (reduceInit D).input f.row = D.table.row f.row := by
    unfold reduceInit upd
    dsimp only
    rw [if_neg (by omega)]
  unfold Table.node?
  dsimp only
  rw [this]

/-- a diagram without non-terminal nodes is the reduction of a terminal root -/
theorem redOf_zero {del : Node (N + 1) → Prop} {T : Table (N + 1)} {nr : Nat} {out : Rows (N + 1)}
    (h : ∀ r, 0 < r → out r = []) : RedOf del T 0 id ⟨nr, out⟩ := by
  have hn : ∀ {f : NodeId}, 0 < f.row → Table.node? ⟨nr, out⟩ f = none := by
    intro f h0
    unfold Table.node?
    dsimp only
    rw [h _ h0]
    by_cases hr : f.row < nr <;> simp [hr]
  refine ⟨fun _ => rfl, fun h1 h2 => by omega, ?_, ?_⟩
  · intro g nd h0 hg; rw [hn h0] at hg; cases hg
  · intro f g nd h0 _ hf; rw [hn h0] at hf; cases hf

theorem comp_refl {del : Node (N + 1) → Prop} {T : Table (N + 1)} : Comp del T T id := by
  refine ⟨?_, fun {f} => .inl rfl⟩
  intro f _
  have : (fun nd : Node (N + 1) => id ∘ nd) = id := rfl
  rw [this]
  simp

theorem Comp.congr_table {del : Node (N + 1) → Prop} {T T1 T' : Table (N + 1)} {cmp : NodeId → NodeId}
    (h : Comp del T T' cmp) (ht : ∀ f, 0 < f.row → T1.node? f = T.node? f) : Comp del T1 T' cmp := by
  refine ⟨?_, h.comp⟩
  intro f h0
  rw [h.node h0, ht f h0]

/-- The sequential binary reduction: preparation followed by a reduction of the prepared table. -/
theorem reduce2_spec {bdd zdd : Bool} {D : Dd 2} (hw : D.Wf) :
    ∃ D' T' cmp nid, reduce2 bdd zdd D = some D' ∧ D'.table.numRows = D.table.numRows ∧
      D'.table.row 0 = terminalRow 2 ∧
      Comp (delM bdd zdd) D.table T' cmp ∧ RedOf (delP bdd zdd) T' D.root.row nid D'.table ∧
      D'.root = nid D.root ∧ (D.root.row = 0 ∨ ∀ {g : NodeId} {nd nd' : Node 2} {b : Fin 2}, 0 < g.row →
        T'.node? g = some nd → 0 < (nd b).row → T'.node? (nd b) = some nd' → ¬ delM bdd zdd nd') := by
  have hwt : Table.Wf ⟨D.table.numRows, (reduceInit D).input⟩ := Table.wf_congr (reduceInit_node D) hw.table
  obtain ⟨hi0, lo0, e0, _⟩ := makeIndex_spec hwt.down
  unfold reduce2
  simp only [e0, Option.bind_eq_bind, Option.bind_some]
  by_cases hr : D.root.row = 0
  · rw [if_pos hr]
    refine ⟨_, D.table, id, id, rfl, rfl, rfl, comp_refl, ?_, rfl, .inl hr⟩
    rw [hr]
    exact redOf_zero fun r h0 => by unfold reduceInit; dsimp only; rw [if_neg (by omega)]
  · rw [if_neg hr]
    obtain ⟨S, eS, hS0, hSlen, hcomp⟩ := makeReady_spec (bdd := bdd) (zdd := zdd) hwt
    have hwS := hcomp.wf hwt
    obtain ⟨hi1, lo1, e1, hlo⟩ := makeIndex_spec hwS.down
    simp only [eS, Option.bind_some, e1]
    obtain ⟨nd, hnd⟩ := hw.root.pos (by omega)
    have hrlt : D.root.row < D.table.numRows ∧ D.root.col < (D.table.row D.root.row).length :=
      nodeAt_lt (T := D.table.row) hnd
    have hrc : D.root.col < (S D.root.row).length := by
      rw [hSlen]
      unfold reduceInit upd
      dsimp only
      rw [if_neg hr]
      exact hrlt.2
    have hnoDel : bdd = true ∨ NoDelEdge zdd D.table.numRows S := by
      cases bdd with
      | true => exact .inl rfl
      | false =>
        right
        intro g nd b nd' h0 hn hb hn' hz h1
        refine comp_noDel hwt hcomp _ (Nat.le_refl _) h0 hn hb hn' ?_
        intro b' hb'
        rw [hz] at hb'
        have : b' = 1 := (fin2_cases b').resolve_left (hb' rfl)
        rw [this, h1]; rfl
    obtain ⟨st', e2, nid, h⟩ := levelsUp_fold
      (f := algorithmR bdd zdd D.table.numRows D.root.row lo1)
      (fun k st => ∃ nid, RInv bdd zdd D.table.numRows D.root.row S D.root k nid st)
      D.root.row { reduceInit D with input := S }
      ⟨id, ⟨redOf_zero fun r h0 => by unfold reduceInit; dsimp only; rw [if_neg (by omega)], fun _ _ => rfl,
        by dsimp only; rw [hSlen]; rfl, fun r h0 h1 => by omega, by
          intro f nd hf hn
          dsimp only at hn
          unfold nodeAt at hn
          rw [if_pos (by omega), show f.row = 0 by omega, hS0] at hn
          have hf2 := getElem?_lt hn
          have : f.col = 0 ∨ f.col = 1 := by
            have : f.col < 2 := hf2
            omega
          rcases this with e | e <;> rw [e] at hn <;> cases hn <;> exact Nat.le_refl _,
        fun r h0 h1 => by omega, fun r h0 => by unfold reduceInit; dsimp only; rw [if_neg (by omega)],
        by rw [if_pos (by omega)]; rfl, rfl⟩⟩
      (by
        rintro t st ht ⟨nid, h⟩
        obtain ⟨nid', st', e, h'⟩ := h.step hwS hnoDel hlo rfl hrc (by omega)
        exact ⟨st', e, nid', h'⟩)
    simp only [e2, Option.bind_some]
    refine ⟨_, ⟨D.table.numRows, S⟩, cmpOf bdd zdd D.table.numRows S, nid, rfl, rfl, h.out0,
      hcomp.congr_table fun f h0 => (reduceInit_node D f h0).symm, h.red, ?_,
      .inr fun h0 hn hb hn' => comp_noDel hwt hcomp _ (Nat.le_refl _) h0 hn hb hn'⟩
    unfold reduceResult
    dsimp only
    rw [h.root, if_neg (by omega)]

theorem delP_bdd (c : Node 2) : delP true false c ↔ delB c := by
  unfold delP delR delB
  simp only [Bool.true_and, Bool.false_and, Bool.or_false, beq_iff_eq]
  constructor
  · intro h b
    rcases fin2_cases b with rfl | rfl
    · rfl
    · exact h
  · exact fun h => h 1

theorem delP_zdd (c : Node 2) : delP false true c ↔ delZ c := by
  unfold delP delR delZ
  simp only [Bool.true_and, Bool.false_and, Bool.false_or, beq_iff_eq]
  constructor
  · intro h b hb
    rw [(fin2_cases b).resolve_left hb]; exact h
  · exact fun h => h 1 (by decide)

theorem delM_bdd (c : Node (N + 1)) : delM true false c ↔ delB c := by
  unfold delM delB
  simp only [Bool.or_false, if_true, forall_const]
  constructor
  · intro h b
    by_cases hb : b = 0
    · rw [hb]
    · exact h b hb
  · exact fun h b _ => h b

theorem delM_zdd (c : Node (N + 1)) : delM false true c ↔ delZ c := by
  unfold delM delZ; simp

theorem delM_qdd (c : Node (N + 1)) : delM false false c ↔ delQ c := by
  unfold delM delQ; simp

theorem Comp.congr_del {del del' : Node (N + 1) → Prop} {T T' : Table (N + 1)} {cmp : NodeId → NodeId}
    (h : Comp del T T' cmp) (hd : ∀ c, del c ↔ del' c) : Comp del' T T' cmp := by
  have : del = del' := funext fun c => propext (hd c)
  rw [← this]; exact h

/-- `D'` is the BDD/ZDD reduction of `D` -/
def IsRed (del : Node (N + 1) → Prop) (D D' : Dd (N + 1)) : Prop :=
  D'.table.numRows = D.table.numRows ∧ D'.table.row 0 = terminalRow (N + 1) ∧
  ∃ nid, RedOf del D.table D.root.row nid D'.table ∧ D'.root = nid D.root

/-- `D'` is the QDD reduction of `D` -/
def IsQRed (D D' : Dd (N + 1)) : Prop :=
  D'.table.numRows = D.table.numRows ∧ D'.table.row 0 = terminalRow (N + 1) ∧
  ∃ T' cmp nid del, Comp delQ D.table T' cmp ∧ RedOf del T' D.root.row nid D'.table ∧ (∀ c, del c → delQ c) ∧
    D'.root = nid D.root

theorem reduce2_bdd {D : Dd 2} (hw : D.Wf) : ∃ D', reduce2 true false D = some D' ∧ IsRed delB D D' := by
  obtain ⟨D', T', cmp, nid, e, h1, h2, h3, h4, h5, _⟩ := reduce2_spec (bdd := true) (zdd := false) hw
  refine ⟨D', e, h1, h2, nid, ?_, h5⟩
  refine (h4.congr_del delP_bdd).comp (h3.congr_del delM_bdd) hw.table ?_
  intro c hc b
  simp only [Function.comp]
  rw [hc b]

theorem reduce2_zdd {D : Dd 2} (hw : D.Wf) : ∃ D', reduce2 false true D = some D' ∧ IsRed delZ D D' := by
  obtain ⟨D', T', cmp, nid, e, h1, h2, h3, h4, h5, _⟩ := reduce2_spec (bdd := false) (zdd := true) hw
  refine ⟨D', e, h1, h2, nid, ?_, h5⟩
  refine (h4.congr_del delP_zdd).comp (h3.congr_del delM_zdd) hw.table ?_
  intro c hc b hb
  simp only [Function.comp]
  rw [hc b hb, h4.zero]

theorem reduce2_qdd {D : Dd 2} (hw : D.Wf) : ∃ D', reduce2 false false D = some D' ∧ IsQRed D D' := by
  obtain ⟨D', T', cmp, nid, e, h1, h2, h3, h4, h5, _⟩ := reduce2_spec (bdd := false) (zdd := false) hw
  refine ⟨D', e, h1, h2, T', cmp, nid, _, h3.congr_del delM_qdd, h4, ?_, h5⟩
  intro c hc
  simp [delP, delR] at hc

end TdZdd
