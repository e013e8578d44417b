import Verif.InterleaveProofs2

/-! One step of `ColoredZdd`. -/

namespace TdZdd.Interleave

variable {dds : List (Dd 2)}

/-- The way of the assignment `a` down from the node `f` has a node of row `i`. -/
inductive Visits (T : Table 2) (a : Asg 2) : NodeId → Nat → Prop
  | here {f : NodeId} : 0 < f.row → Visits T a f f.row
  | step {f : NodeId} {nd : Node 2} {i : Nat} : 0 < f.row → T.node? f = some nd → Visits T a (nd (a f.row)) i → Visits T a f i

theorem visits_node {T : Table 2} {a : Asg 2} {f : NodeId} {nd : Node 2} {i : Nat} (h0 : 0 < f.row) (hn : T.node? f = some nd) :
    Visits T a f i ↔ i = f.row ∨ Visits T a (nd (a f.row)) i := by
  constructor
  · intro h
    cases h with
    | here _ => exact .inl rfl
    | step _ hn' h =>
      rw [hn] at hn'
      cases hn'
      exact .inr h
  · rintro (rfl | h)
    · exact .here h0
    · exact .step h0 hn h

theorem visits_le {T : Table 2} (hw : T.Wf) {a : Asg 2} {f : NodeId} {i : Nat} (h : Visits T a f i) : 1 ≤ i ∧ i ≤ f.row := by
  induction h with
  | here h => exact ⟨h, Nat.le_refl _⟩
  | @step f nd i h0 hn _ ih =>
    have := (hw.child h0 hn (a f.row)).2
    exact ⟨ih.1, by omega⟩

/-- every field has at most one colour, and a field with a node has one -/
def C (dds : List (Dd 2)) (l : Nat) (s : List NodeId) (a : Asg 2) : Prop := ∀ i, 1 ≤ i →
  (∀ k k', k < dds.length → k' < dds.length → (i - 1) * dds.length + k + 1 ≤ l → (i - 1) * dds.length + k' + 1 ≤ l →
    (a ((i - 1) * dds.length + k + 1)).val ≠ 0 → (a ((i - 1) * dds.length + k' + 1)).val ≠ 0 → k = k') ∧
  ∀ (k : Nat) (D : Dd 2) (f : NodeId), dds[k]? = some D → s[k]? = some f → (i - 1) * dds.length + k + 1 ≤ l → Visits D.table (col dds.length a k) f i →
    ∃ k', k' < dds.length ∧ (i - 1) * dds.length + k' + 1 ≤ l ∧ (a ((i - 1) * dds.length + k' + 1)).val ≠ 0

def Q (dds : List (Dd 2)) (l : Nat) (s : List NodeId) (a : Asg 2) : Prop := P dds l s a ∧ C dds l s a

theorem C_raise (hw : ∀ D ∈ dds, D.Wf) {l l' : Nat} {s : List NodeId} {a : Asg 2} (hb : Below dds.length l' s) (hl : l' ≤ l) (hz : ∀ j, l' < j → j ≤ l → (a j).val = 0) :
    C dds l s a ↔ C dds l' s a := by
  have hnz : ∀ j, j ≤ l → (a j).val ≠ 0 → j ≤ l' := fun j h1 h2 => by
    apply Classical.byContradiction
    intro h
    exact h2 (hz j (by omega) h1)
  constructor
  · intro h i hi
    refine ⟨fun k k' hk hk' h1 h2 => (h i hi).1 k k' hk hk' (by omega) (by omega), fun k D f hD hf h1 hv => ?_⟩
    obtain ⟨k', hk', h2, h3⟩ := (h i hi).2 k D f hD hf (by omega) hv
    exact ⟨k', hk', hnz _ h2 h3, h3⟩
  · intro h i hi
    refine ⟨fun k k' hk hk' h1 h2 h3 h4 => (h i hi).1 k k' hk hk' (hnz _ h1 h3) (hnz _ h2 h4) h3 h4, fun k D f hD hf h1 hv => ?_⟩
    have hle := visits_le (hw D (List.mem_of_getElem? hD)).table hv
    have h2 := hb k f hf (by omega)
    have h3 : (i - 1) * dds.length + k + 1 ≤ (f.row - 1) * dds.length + k + 1 := (lev_le (by omega) hi).2 (.inl hle.2)
    obtain ⟨k', hk', h4, h5⟩ := (h i hi).2 k D f hD hf (by omega) hv
    exact ⟨k', hk', by omega, h5⟩

theorem Q_meaning (hn : 0 < dds.length) (hw : ∀ D ∈ dds, D.Wf) : Meaning dds (Q dds) where
  zero := fun l s a k hk hg h => (P_meaning hn hw).zero l s a k hk hg h.1
  one := fun s a hg h1 => ⟨(P_meaning hn hw).one s a hg h1, fun i hi => ⟨fun k k' _ _ h => by omega, fun k D f _ _ h => by omega⟩⟩
  raise := fun l l' s a hg hb hl => by
    unfold Q
    rw [(P_meaning hn hw).raise l l' s a hg hb hl]
    constructor
    · rintro ⟨⟨h1, h2⟩, h3⟩
      exact ⟨h1, h2, (C_raise hw hb hl h1).1 h3⟩
    · rintro ⟨h1, h2, h3⟩
      exact ⟨⟨h1, h2⟩, (C_raise hw hb hl h1).2 h3⟩

/-- a level of a row that no entry has is 0 -/
theorem P_low (hw : ∀ D ∈ dds, D.Wf) {s : List NodeId} (hg : Good dds s) {l i k : Nat} {f : NodeId} (hf : s[k]? = some f) (hi : f.row < i) (hl : (i - 1) * dds.length + k + 1 ≤ l) {a : Asg 2} (h : P dds l s a) :
    (a ((i - 1) * dds.length + k + 1)).val = 0 := by
  obtain ⟨D, hD⟩ := hg.dd hf
  have hle : i ≤ bd dds.length k l := (bd_iff (hg.lt hf) (by omega)).2 hl
  have := (tmem_raise (hw D (List.mem_of_getElem? hD)).table (m := i - 1) (by omega) (by omega)).1 (h k D f hD hf)
  exact this.1 i (by omega) hle

theorem C_drop (hw : ∀ D ∈ dds, D.Wf) {s : List NodeId} (hg : Good dds s) {k : Nat} {f : NodeId} (hf : s[k]? = some f) (hr : 0 < f.row) {D : Dd 2} {nd : Node 2} (hD : dds[k]? = some D) (hnd : D.table.node? f = some nd)
    {kk : Nat} {g : NodeId} (hkk : kk < k) (hgg : s[kk]? = some g) (hgr : g.row = f.row) {a : Asg 2} (ha : (a ((f.row - 1) * dds.length + k + 1)) = 0) :
    C dds ((f.row - 1) * dds.length + k + 1) s a ↔ C dds ((f.row - 1) * dds.length + k) (s.set k (nd 0)) a := by
  have hk := hg.lt hf
  have hks : k < s.length := by rw [hg.len]; exact hk
  have hT := (hw D (List.mem_of_getElem? hD)).table
  have hlt := (hT.child hr hnd 0).2
  have hnz : ∀ j, j ≤ (f.row - 1) * dds.length + k + 1 → (a j).val ≠ 0 → j ≤ (f.row - 1) * dds.length + k := fun j h1 h2 => by
    have : j ≠ (f.row - 1) * dds.length + k + 1 := fun e => h2 (by rw [e, ha]; rfl)
    omega
  have hvis : ∀ i, Visits D.table (col dds.length a k) f i ↔ i = f.row ∨ Visits D.table (col dds.length a k) (nd 0) i := fun i => by
    rw [visits_node hr hnd]
    show _ ∨ Visits D.table (col dds.length a k) (nd (a ((f.row - 1) * dds.length + k + 1))) i ↔ _
    rw [ha]
  constructor
  · intro h i hi
    refine ⟨fun k1 k2 h1 h2 l1 l2 => (h i hi).1 k1 k2 h1 h2 (by omega) (by omega), fun k' D' f' hD' hf' hl hv => ?_⟩
    have : ∃ k', k' < dds.length ∧ (i - 1) * dds.length + k' + 1 ≤ (f.row - 1) * dds.length + k + 1 ∧ (a ((i - 1) * dds.length + k' + 1)).val ≠ 0 := by
      by_cases e : k = k'
      · subst e
        rw [hD] at hD'
        cases hD'
        rw [List.getElem?_set_self hks] at hf'
        cases hf'
        exact (h i hi).2 k D f hD hf (by omega) ((hvis i).2 (.inr hv))
      · rw [List.getElem?_set_ne e] at hf'
        exact (h i hi).2 k' D' f' hD' hf' (by omega) hv
    obtain ⟨k'', h1, h2, h3⟩ := this
    exact ⟨k'', h1, hnz _ h2 h3, h3⟩
  · intro h i hi
    refine ⟨fun k1 k2 h1 h2 l1 l2 h3 h4 => (h i hi).1 k1 k2 h1 h2 (hnz _ l1 h3) (hnz _ l2 h4) h3 h4, fun k' D' f' hD' hf' hl hv => ?_⟩
    have : ∃ k', k' < dds.length ∧ (i - 1) * dds.length + k' + 1 ≤ (f.row - 1) * dds.length + k ∧ (a ((i - 1) * dds.length + k' + 1)).val ≠ 0 := by
      by_cases e : k = k'
      · subst e
        rw [hD] at hD'
        cases hD'
        rw [hf] at hf'
        cases hf'
        rcases (hvis i).1 hv with rfl | hv'
        · obtain ⟨D', hD'⟩ := hg.dd hgg
          have : (f.row - 1) * dds.length + kk + 1 ≤ (f.row - 1) * dds.length + k := by omega
          exact (h f.row hi).2 kk D' g hD' (by rw [List.getElem?_set_ne (by omega)]; exact hgg) this (by rw [← hgr]; exact .here (by omega))
        · have hle := (visits_le hT hv').2
          have : (i - 1) * dds.length + k + 1 ≠ (f.row - 1) * dds.length + k + 1 := fun e => by
            have := (lev_inj hk hk hi hr e).1
            omega
          exact (h i hi).2 k D (nd 0) hD (List.getElem?_set_self hks) (by omega) hv'
      · have : (i - 1) * dds.length + k' + 1 ≠ (f.row - 1) * dds.length + k + 1 := fun e' => e (lev_inj (hg.lt hf') hk hi hr e').2.symm
        exact (h i hi).2 k' D' f' hD' (by rw [List.getElem?_set_ne e]; exact hf') (by omega) hv
    obtain ⟨k'', h1, h2, h3⟩ := this
    exact ⟨k'', h1, by omega, h3⟩

theorem lastLoop_spec {i : Nat} {s : List NodeId} : ∀ k, k ≤ s.length → (lastLoop i k s = some true ∧ ∀ (kk : Nat) (f : NodeId), kk < k → s[kk]? = some f → f.row ≠ i) ∨
    (lastLoop i k s = some false ∧ ∃ (kk : Nat) (f : NodeId), kk < k ∧ s[kk]? = some f ∧ f.row = i)
  | 0, _ => .inl ⟨rfl, fun kk _ h => by omega⟩
  | k + 1, hk => by
    have hf := List.getElem?_eq_getElem (l := s) (i := k) (by omega)
    unfold lastLoop
    rw [hf]
    simp only [Option.bind_some]
    by_cases h : s[k].row = i
    · rw [if_pos h]
      exact .inr ⟨rfl, k, s[k], by omega, hf, h⟩
    · rw [if_neg h]
      rcases lastLoop_spec (i := i) (s := s) k (by omega) with ⟨e, h'⟩ | ⟨e, kk, f, h1, h2, h3⟩
      · refine .inl ⟨e, fun kk f h1 h2 => ?_⟩
        by_cases hk : kk = k
        · subst hk
          rw [hf] at h2
          cases h2
          exact h
        · exact h' kk f (by omega) h2
      · exact .inr ⟨e, kk, f, by omega, h2, h3⟩

/-- all entries of row `i` move on with 0 -/
theorem dropLoop_spec (hn : 0 < dds.length) (hw : ∀ D ∈ dds, D.Wf) {i : Nat} (hi : 1 ≤ i) : ∀ c (s : List NodeId), c ≤ dds.length → Good dds s → Below dds.length ((i - 1) * dds.length + c) s →
    ∃ s', dropLoop dds i c s = some s' ∧ Good dds s' ∧ Below dds.length ((i - 1) * dds.length) s' ∧
      ∀ a : Asg 2, (∀ j, (i - 1) * dds.length < j → j ≤ (i - 1) * dds.length + c → (a j).val = 0) →
        (P dds ((i - 1) * dds.length + c) s a ↔ P dds ((i - 1) * dds.length) s' a) ∧
        ∀ (k : Nat) (D : Dd 2) (f f' : NodeId) i', dds[k]? = some D → s[k]? = some f → s'[k]? = some f' → i' < i → (Visits D.table (col dds.length a k) f i' ↔ Visits D.table (col dds.length a k) f' i')
  | 0, s, _, hg, hb => ⟨s, rfl, hg, hb, fun a _ => ⟨Iff.rfl, fun k D f f' i' _ h1 h2 _ => by rw [h1] at h2; cases h2; rfl⟩⟩
  | c + 1, s, hc, hg, hb => by
    obtain ⟨f, hf⟩ := hg.get (k := c) (by omega)
    have hcs : c < s.length := by rw [hg.len]; omega
    unfold dropLoop
    rw [hf]
    simp only [Option.bind_some]
    by_cases h : f.row = i
    · rw [if_pos h]
      obtain ⟨D, nd, hD, hnd, hch, hv, hlt, hg'⟩ := step_entry hw hg hf (by omega) 0
      rw [hch]
      simp only [Option.map_some, Option.bind_some]
      subst h
      obtain ⟨s', e, hg2, hb2, h2⟩ := dropLoop_spec hn hw hi c (s.set c (nd 0)) (by omega) hg' (below_set hg.len hf hi hb hlt)
      refine ⟨s', e, hg2, hb2, fun a hz => ?_⟩
      have ha : a ((f.row - 1) * dds.length + c + 1) = 0 := Fin.ext (hz _ (by omega) (by omega))
      obtain ⟨h3, h4⟩ := h2 a fun j j1 j2 => hz j j1 (by omega)
      refine ⟨?_, fun k D' f1 f2 i' hD' hf1 hf2 hlt' => ?_⟩
      · rw [← h3]
        have := P_step hg hf hi hD hnd (a := a)
        rw [ha] at this
        exact this
      · by_cases e : c = k
        · subst e
          rw [hD] at hD'
          cases hD'
          rw [hf] at hf1
          cases hf1
          rw [← h4 c D (nd 0) f2 i' hD (List.getElem?_set_self hcs) hf2 hlt', visits_node hi hnd]
          show i' = f.row ∨ Visits D.table (col dds.length a c) (nd (a ((f.row - 1) * dds.length + c + 1))) i' ↔ _
          rw [ha]
          exact ⟨fun h => h.resolve_left (by omega), .inr⟩
        · exact h4 k D' f1 f2 i' hD' (by rw [List.getElem?_set_ne e]; exact hf1) hf2 hlt'
    · rw [if_neg h]
      simp only [Option.bind_some]
      have hb' : Below dds.length ((i - 1) * dds.length + c) s := fun k g hk h0 => by
        have h1 := hb k g hk h0
        have : (g.row - 1) * dds.length + k + 1 ≠ (i - 1) * dds.length + c + 1 := fun e => by
          obtain ⟨e1, e2⟩ := lev_inj (hg.lt hk) (by omega) h0 hi e
          subst e2
          rw [hf] at hk
          cases hk
          exact h e1
        omega
      obtain ⟨s', e, hg2, hb2, h2⟩ := dropLoop_spec hn hw hi c s (by omega) hg hb'
      refine ⟨s', e, hg2, hb2, fun a hz => ?_⟩
      obtain ⟨h3, h4⟩ := h2 a fun j j1 j2 => hz j j1 (by omega)
      refine ⟨?_, h4⟩
      rw [← h3, ← Nat.add_assoc, (P_meaning hn hw).raise _ _ s a hg hb' (Nat.le_succ _)]
      exact ⟨fun h => h.2, fun h => ⟨fun j j1 j2 => hz j (by omega) (by omega), h⟩⟩

theorem colored_all (hn : 0 < dds.length) (hw : ∀ D ∈ dds, D.Wf) :
    Desc (colored dds) ∧ ∀ m a, Below dds.length m (dds.map Dd.root) → (ZddMem (colored dds) m a ↔ Q dds m (dds.map Dd.root) a) := by
  refine (Q_meaning hn hw).family rfl (root_good hw) ?_
  intro l s b hl hA
  obtain ⟨k, f, hf, hr, rfl⟩ := hA.top
  have hk := hA.good.lt hf
  have hks : k < s.length := by rw [hA.good.len]; exact hk
  obtain ⟨e1, e2⟩ := lev_of (n := dds.length) hk hr
  have hch : ∀ x, cchild dds s ((f.row - 1) * dds.length + k + 1) b = some x → (colored dds).child s ((f.row - 1) * dds.length + k + 1) b = x := fun x e => by
    show (cchild dds s ((f.row - 1) * dds.length + k + 1) b).getD _ = _
    rw [e]; rfl
  unfold cchild at hch
  simp only [e1, e2] at hch
  rw [hf] at hch
  simp only [Option.bind_some, if_true] at hch
  by_cases hb : b = 0
  · subst hb
    rw [if_neg (by simp)] at hch
    rcases lastLoop_spec (i := f.row) (s := s) k (by omega) with ⟨e, hlast⟩ | ⟨e, kk, g, hkk, hg, hgr⟩
    · rw [e] at hch
      rw [hch _ rfl]
      refine .inl ⟨rfl, fun a ha hQ => ?_⟩
      obtain ⟨D, hD⟩ := hA.good.dd hf
      obtain ⟨k', hk', h1, h2⟩ := (hQ.2 f.row hr).2 k D f hD hf (Nat.le_refl _) (.here hr)
      have hne : k' ≠ k := fun e => h2 (by rw [e, ha]; rfl)
      obtain ⟨g, hg⟩ := hA.good.get hk'
      have h3 := hlast k' g (by omega) hg
      have h4 : g.row < f.row := by
        by_cases h0 : 0 < g.row
        · have h5 := hA.below k' g hg h0
          have : (f.row - 1) * dds.length + k' + 1 ≤ (f.row - 1) * dds.length + k + 1 := h1
          apply Classical.byContradiction
          intro h6
          have : (f.row - 1 + 1) * dds.length ≤ (g.row - 1) * dds.length := Nat.mul_le_mul_right _ (by omega)
          rw [Nat.succ_mul] at this
          omega
        · omega
      exact h2 (P_low hw hA.good hg h4 h1 hQ.1)
    · rw [e] at hch
      obtain ⟨D, nd, hD, hnd, hc, hv, hlt, hg'⟩ := step_entry hw hA.good hf hr 0
      rw [hc] at hch
      rw [hch _ rfl]
      refine (Q_meaning hn hw).outcome hg' (below_set hA.good.len hf hr hA.below hlt) (Nat.lt_succ_self _) fun a ha => ?_
      have h1 := P_step hA.good hf hr hD hnd (a := a)
      rw [ha] at h1
      unfold Q
      rw [h1, C_drop hw hA.good hf hr hD hnd hkk hg hgr ha]
      exact ⟨fun h => ⟨fun j h1 h2 => by omega, h⟩, fun h => h.2⟩
  · rw [if_pos hb] at hch
    have hb1 : b = 1 := by
      rcases Fin.eq_zero_or_eq_succ b with h | ⟨j, h⟩
      · exact absurd h hb
      · rw [h]; exact congrArg _ (Subsingleton.elim j 0)
    subst hb1
    obtain ⟨D, nd, hD, hnd, hc, hv, hlt, hg'⟩ := step_entry hw hA.good hf hr 1
    rw [hc] at hch
    obtain ⟨s', e, hg2, hb2, h2⟩ := dropLoop_spec hn hw hr k (s.set k (nd 1)) (by omega) hg' (below_set hA.good.len hf hr hA.below hlt)
    simp only [Option.bind_some] at hch
    rw [e] at hch
    rw [hch _ rfl]
    refine (Q_meaning hn hw).outcome hg2 hb2 (by omega) fun a ha => ?_
    have hP := P_step hA.good hf hr hD hnd (a := a)
    rw [ha] at hP
    have hone : (a ((f.row - 1) * dds.length + k + 1)).val ≠ 0 := by rw [ha]; decide
    -- the rows below
    have hrow : ∀ i k', k' < dds.length → 1 ≤ i → ((i - 1) * dds.length + k' + 1 ≤ (f.row - 1) * dds.length ↔ i < f.row) := fun i k' hk' hi => by
      constructor
      · intro h
        apply Classical.byContradiction
        intro h'
        have : (f.row - 1) * dds.length ≤ (i - 1) * dds.length := Nat.mul_le_mul_right _ (by omega)
        omega
      · intro h
        have : (i - 1 + 1) * dds.length ≤ (f.row - 1) * dds.length := Nat.mul_le_mul_right _ (by omega)
        rw [Nat.succ_mul] at this
        omega
    have hup : ∀ i k', 1 ≤ i → (i - 1) * dds.length + k' + 1 ≤ (f.row - 1) * dds.length + k + 1 → i ≤ f.row := fun i k' hi h => by
      apply Classical.byContradiction
      intro h'
      have : (f.row - 1 + 1) * dds.length ≤ (i - 1) * dds.length := Nat.mul_le_mul_right _ (by omega)
      rw [Nat.succ_mul] at this
      omega
    have hzero : C dds ((f.row - 1) * dds.length + k + 1) s a → ∀ j, (f.row - 1) * dds.length < j → j < (f.row - 1) * dds.length + k + 1 → (a j).val = 0 := fun h j j1 j2 => by
      apply Classical.byContradiction
      intro h0
      have e : j = (f.row - 1) * dds.length + (j - (f.row - 1) * dds.length - 1) + 1 := by omega
      have := (h f.row hr).1 (j - (f.row - 1) * dds.length - 1) k (by omega) hk (by omega) (Nat.le_refl _) (by rw [← e]; exact h0) hone
      omega
    have hvis : (∀ j, (f.row - 1) * dds.length < j → j ≤ (f.row - 1) * dds.length + k → (a j).val = 0) → ∀ (k' : Nat) (D' : Dd 2) (f1 f2 : NodeId) i', dds[k']? = some D' → s[k']? = some f1 → s'[k']? = some f2 → i' < f.row →
        (Visits D'.table (col dds.length a k') f1 i' ↔ Visits D'.table (col dds.length a k') f2 i') := fun hz k' D' f1 f2 i' hD' hf1 hf2 hi' => by
      have h4 := (h2 a hz).2
      by_cases e : k = k'
      · subst e
        rw [hD] at hD'
        cases hD'
        rw [hf] at hf1
        cases hf1
        rw [← h4 k D (nd 1) f2 i' hD (List.getElem?_set_self hks) hf2 hi', visits_node hr hnd]
        show i' = f.row ∨ Visits D.table (col dds.length a k) (nd (a ((f.row - 1) * dds.length + k + 1))) i' ↔ _
        rw [ha]
        exact ⟨fun h => h.resolve_left (by omega), .inr⟩
      · exact h4 k' D' f1 f2 i' hD' (by rw [List.getElem?_set_ne e]; exact hf1) hf2 hi'
    constructor
    · rintro ⟨h3, h4⟩
      have hz := hzero h4
      have hz' : ∀ j, (f.row - 1) * dds.length < j → j ≤ (f.row - 1) * dds.length + k → (a j).val = 0 := fun j j1 j2 => hz j j1 (by omega)
      refine ⟨hz, ((h2 a hz').1).1 (hP.1 h3), fun i hi => ⟨fun k1 k2 hk1 hk2 l1 l2 => (h4 i hi).1 k1 k2 hk1 hk2 (by omega) (by omega), fun k' D' f2 hD' hf2 hl' hv' => ?_⟩⟩
      have hk' := hg2.lt hf2
      have hi' := (hrow i k' hk' hi).1 hl'
      obtain ⟨f1, hf1⟩ := hA.good.get hk'
      obtain ⟨k'', hk'', h5, h6⟩ := (h4 i hi).2 k' D' f1 hD' hf1 (by omega) ((hvis hz' k' D' f1 f2 i hD' hf1 hf2 hi').2 hv')
      exact ⟨k'', hk'', (hrow i k'' hk'' hi).2 hi', h6⟩
    · rintro ⟨hz, h3, h4⟩
      have hz' : ∀ j, (f.row - 1) * dds.length < j → j ≤ (f.row - 1) * dds.length + k → (a j).val = 0 := fun j j1 j2 => hz j j1 (by omega)
      refine ⟨hP.2 ((h2 a hz').1.2 h3), fun i hi => ?_⟩
      by_cases hi' : i < f.row
      · refine ⟨fun k1 k2 hk1 hk2 _ _ => (h4 i hi).1 k1 k2 hk1 hk2 ((hrow i k1 hk1 hi).2 hi') ((hrow i k2 hk2 hi).2 hi'), fun k' D' f1 hD' hf1 hl' hv' => ?_⟩
        have hk' := hA.good.lt hf1
        obtain ⟨f2, hf2⟩ := hg2.get hk'
        obtain ⟨k'', hk'', h5, h6⟩ := (h4 i hi).2 k' D' f2 hD' hf2 ((hrow i k' hk' hi).2 hi') ((hvis hz' k' D' f1 f2 i hD' hf1 hf2 hi').1 hv')
        exact ⟨k'', hk'', by omega, h6⟩
      · refine ⟨fun k1 k2 hk1 hk2 l1 l2 h5 h6 => ?_, fun k' D' f1 hD' hf1 hl' hv' => ?_⟩
        · have : i = f.row := by have := hup i k1 hi l1; omega
          subst this
          have h7 : ∀ k1, k1 < dds.length → (f.row - 1) * dds.length + k1 + 1 ≤ (f.row - 1) * dds.length + k + 1 → (a ((f.row - 1) * dds.length + k1 + 1)).val ≠ 0 → k1 = k := fun k1 _ l1 h5 => by
            apply Classical.byContradiction
            intro hne
            exact h5 (hz _ (by omega) (by omega))
          rw [h7 k1 hk1 l1 h5, h7 k2 hk2 l2 h6]
        · have : i = f.row := by have := hup i k' hi hl'; omega
          subst this
          exact ⟨k, hk, Nat.le_refl _, hone⟩

end TdZdd.Interleave
