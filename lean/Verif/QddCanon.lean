import Verif.SubsetCanon
import Verif.Dense

/-! The quasi-reduced diagrams of level-by-level specifications. -/

namespace TdZdd

variable {N : Nat} {S : Type}

/-- every edge is 0 or goes to the next level -/
def TDense (T : Table N) : Prop := ∀ (f : NodeId) (nd : Node N), 0 < f.row → T.node? f = some nd →
  ∀ b, nd b = .zero ∨ (nd b).row + 1 = f.row

/-- no edge points to an all-zero node -/
def NoZeroEdge (T : Table (N + 1)) : Prop := ∀ (g : NodeId) (nd nd' : Node (N + 1)) (b : Fin (N + 1)), 0 < g.row → T.node? g = some nd →
  0 < (nd b).row → T.node? (nd b) = some nd' → ¬ delQ nd'

theorem Sim.dense {sp : DdSpec N S} {D : Dd N} {lab : NodeId → Option S} (h : Sim sp D lab) {n : Nat} (hd : Dense sp n) : TDense D.table := by
  intro f nd h0 hn b
  obtain ⟨s, _, hr, he⟩ := h.node h0 hn
  have hc := hd.child b h0 hr
  rcases he b with ⟨e, _⟩ | ⟨e, hlt⟩ | ⟨hp, e, _⟩
  · exact .inl e
  · right
    rw [e]
    show 0 + 1 = f.row
    rcases hc with hc | hc
    · omega
    · split at hc <;> omega
  · right
    rcases hc with hc | hc
    · omega
    · split at hc <;> omega

section
variable {D D' : Dd (N + 1)}

theorem IsQRed.dense (h : IsQRed D D') (hw : D.Wf) (hd : TDense D.table) : TDense D'.table := by
  obtain ⟨_, _, T', cmp, nid, del, hc, hr, hdel, e⟩ := h
  have hwT := hc.wf hw.table
  intro g nd h0 hn b
  obtain ⟨hle, _, f, nd0, f1, f2, f3, f4⟩ := hr.hit' hwT h0 hn
  rw [f4]
  have f2' := f2
  rw [hc.node (by omega)] at f2'
  obtain ⟨nd1, k1, k2⟩ := Option.map_eq_some_iff.1 f2'
  have hb : nd0 b = .zero ∨ (nd0 b).row + 1 = f.row := by
    rw [← k2]
    rcases hc.comp (f := nd1 b) with e | ⟨_, x, _, hx, e⟩
    · show cmp (nd1 b) = _ ∨ (cmp (nd1 b)).row + 1 = _
      rw [e]
      exact hd f nd1 (by omega) k1 b
    · left
      show cmp (nd1 b) = _
      rw [e]
      exact hx 0
  have hch := hwT.child (f := f) (by omega) f2 b
  simp only [Function.comp]
  rcases hb with hb | hb
  · left; rw [hb]; exact hr.zero
  · by_cases hz : (nd0 b).row = 0
    · right; rw [hr.term hz]; omega
    · obtain ⟨nd2, hn2⟩ := hch.1.pos (by omega)
      rcases hr.node (by omega) (by omega) hn2 with ⟨k, e⟩ | ⟨_, e, _⟩
      · left
        rw [e]
        exact hdel _ k 0
      · right; omega

theorem reduce2_noZero {D D' : Dd 2} (hw : D.Wf) (h : reduce2 false false D = some D') : NoZeroEdge D'.table := by
  obtain ⟨X, T', cmp, nid, e, h1, h2, h3, h4, h5, h6⟩ := reduce2_spec (bdd := false) (zdd := false) hw
  rw [h] at e
  cases e
  have nodel : ∀ c, ¬ delP false false c := by intro c hc; simp [delP, delR] at hc
  have hwT : T'.Wf := h3.wf hw.table
  intro g nd nd' b hg hn hb hn' hq
  obtain ⟨hle, _, f, nd0, f1, f2, f3, f4⟩ := h4.hit' hwT hg hn
  rcases h6 with h6 | h6
  · omega
  have c := hwT.child (f := f) (by omega) f2 b
  rw [f4] at hb hn'
  simp only [Function.comp] at hb hn'
  have hb0 : 0 < (nd0 b).row := by
    apply Classical.byContradiction
    intro hz
    rw [h4.term (by omega)] at hb
    omega
  obtain ⟨nd1, hn1⟩ := c.1.pos hb0
  rcases h4.node hb0 (by omega) hn1 with ⟨hx, _⟩ | ⟨_, _, hx⟩
  · exact nodel _ hx
  · rw [hx] at hn'
    cases hn'
    refine h6 (by omega) f2 hb0 hn1 ((delM_qdd nd1).2 fun b' => ?_)
    have c' := hwT.child hb0 hn1 b'
    exact h4.zero_inv nodel c'.1 (by omega) (hq b')

theorem reduceN_noZero (hw : D.Wf) (h : reduceN false false D = some D') : NoZeroEdge D'.table := by
  obtain ⟨X, nid, e, h1, h2, h3, h4⟩ := reduceN_spec (bdd := false) (zdd := false) hw
  rw [h] at e
  cases e
  have hc := (h3.congr_del delN_qdd).canon hw.table
  intro g nd nd' b _ _ hb hn' hq
  exact hc.keep hb hn' hq

theorem qddReduce_noZero (hw : D.Wf) (h : D.qddReduce = some D') : NoZeroEdge D'.table := by
  unfold Dd.qddReduce Dd.reduce at h
  match N, D, D', hw, h with
  | 1, D, D', hw, h => exact reduce2_noZero hw h
  | 0, D, D', hw, h => exact reduceN_noZero hw h
  | n + 2, D, D', hw, h => exact reduceN_noZero hw h

/-- nodes of the empty family have all edges 0 -/
theorem empty_zero {T : Table (N + 1)} (hw : T.Wf) (hd : TDense T) (hz : NoZeroEdge T) : ∀ (r : Nat) (g : NodeId) (nd : Node (N + 1)), g.row ≤ r →
    0 < g.row → T.node? g = some nd → (∀ a, ¬ TMem T g.row g a) → ∀ b, nd b = .zero := by
  intro r
  induction r with
  | zero => intro g nd h1 h2; omega
  | succ r ih =>
    intro g nd hr h0 hn he b
    have hc := hw.child h0 hn b
    have he' : ∀ a, ¬ TMem T (g.row - 1) (nd b) a := by
      intro a ha
      refine he (setAsg a g.row b) ?_
      rw [tmem_node h0 hn, setAsg_self, tmem_setAsg hw (by omega) (by omega)]
      exact ha
    rcases hd g nd h0 hn b with e | e
    · exact e
    · by_cases hp : (nd b).row = 0
      · rcases hc.1.row0 hp with e' | e'
        · exact e'
        · exact absurd (by rw [e']; exact tmem_one.2 fun _ _ _ => rfl) (he' fun _ => 0)
      · obtain ⟨nd', hn'⟩ := hc.1.pos (by omega)
        exact absurd (ih _ _ (by omega) (by omega) hn' (by rw [show (nd b).row = g.row - 1 by omega]; exact he')) (hz g nd nd' b h0 hn (by omega) hn')

/-- nodes with the same non-empty family on the same level are the same -/
theorem level_canon {T : Table (N + 1)} (hw : T.Wf) (hu : T.Unique) (hd : TDense T) (hz : NoZeroEdge T) : ∀ (n : Nat) (q r : NodeId), 0 < n →
    q.row = n → r.row = n → T.Valid q → T.Valid r → EqZ T T n q r → q = r := by
  intro n
  induction n with
  | zero => intro q r h0; omega
  | succ n ih =>
    intro q r h0 h1 h2 v1 v2 he
    obtain ⟨nd, hn⟩ := v1.pos (by omega)
    obtain ⟨nd', hn'⟩ := v2.pos (by omega)
    have : nd = nd' := by
      funext b
      have hc := hw.child (f := q) (by omega) hn b
      have hc' := hw.child (f := r) (by omega) hn' b
      have hs := EqZ.child_same hw hw (f := q) (g := r) (by rw [h1]; exact he) (by omega) (by omega) hn hn' b
      rw [h1] at hs
      replace hs : EqZ T T n (nd b) (nd' b) := hs
      have one : ∀ {x : NodeId}, T.Valid x → x.row = 0 → x ≠ .zero → ∃ a, TMem T n x a := by
        intro x hv hr hx
        rcases hv.row0 hr with e | e
        · exact absurd e hx
        · exact ⟨fun _ => 0, by rw [e]; exact tmem_one.2 fun _ _ _ => rfl⟩
      -- a non-zero edge of such a node leads to a non-empty family
      have ne : ∀ {g : NodeId} {nd : Node (N + 1)}, g.row = n + 1 → T.node? g = some nd → nd b ≠ .zero → ∃ a, TMem T n (nd b) a := by
        intro g nd hg hn hb
        have hc := hw.child (f := g) (by omega) hn b
        have hrow := (hd g nd (by omega) hn b).resolve_left hb
        by_cases hp : (nd b).row = 0
        · exact one hc.1 hp hb
        · obtain ⟨x, hx⟩ := hc.1.pos (by omega)
          apply Classical.byContradiction
          intro hno
          refine hz g nd x b (by omega) hn (by omega) hx (empty_zero hw hd hz _ _ _ (Nat.le_refl _) (by omega) hx fun a ha => hno ⟨a, ?_⟩)
          rw [show (nd b).row = n by omega] at ha
          exact ha
      rcases hd q nd (by omega) hn b with e | e
      · by_cases e' : nd' b = .zero
        · rw [e, e']
        · obtain ⟨a, ha⟩ := ne h2 hn' e'
          exact absurd ((hs a).2 ha) (by rw [e]; exact not_tmem_zero)
      · rcases hd r nd' (by omega) hn' b with e' | e'
        · by_cases e2 : nd b = .zero
          · rw [e2, e']
          · obtain ⟨a, ha⟩ := ne h1 hn e2
            exact absurd ((hs a).1 ha) (by rw [e']; exact not_tmem_zero)
        · by_cases hp : n = 0
          · subst hp
            have r1 : (nd b).row = 0 := by omega
            have r2 : (nd' b).row = 0 := by omega
            rcases hc.1.row0 r1 with e1 | e1 <;> rcases hc'.1.row0 r2 with e2 | e2 <;> rw [e1, e2]
            · exact absurd ((hs fun _ => 0).2 (by rw [e2]; exact tmem_one.2 fun _ _ _ => rfl)) (by rw [e1]; exact not_tmem_zero)
            · exact absurd ((hs fun _ => 0).1 (by rw [e1]; exact tmem_one.2 fun _ _ _ => rfl)) (by rw [e2]; exact not_tmem_zero)
          · exact ih _ _ (by omega) (by omega) (by omega) hc.1 hc'.1 hs
    rw [← this] at hn'
    exact hu q r nd (by omega) (by omega) hn hn'

theorem levelCanon_of (hw : D.Wf) (hu : D.table.Unique) (hd : TDense D.table) (hz : NoZeroEdge D.table) : LevelCanon D := by
  intro n q r hn hq hr _ he
  obtain ⟨e1, nd, h1, _⟩ := reach_row hw hn hq
  obtain ⟨e2, nd', h2, _⟩ := reach_row hw hn hr
  exact level_canon hw.table hu hd hz n q r hn e1 e2 (Table.valid_of_node (by omega) h1) (Table.valid_of_node (by omega) h2) he

/-- the quasi-reduced diagram of a level-by-level diagram -/
theorem qddReduce_levelCanon (hw : D.Wf) (hd : TDense D.table) (h : D.qddReduce = some D') : LevelCanon D' := by
  obtain ⟨X, e, hr⟩ := qddReduce_spec hw
  rw [h] at e
  cases e
  exact levelCanon_of (hr.wf hw) hr.unique (hr.dense hw hd) (qddReduce_noZero hw h)

end

end TdZdd
