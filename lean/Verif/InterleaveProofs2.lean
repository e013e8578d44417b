import Verif.InterleaveProofs

/-! One step of `ZddInterleave`. -/

namespace TdZdd.Interleave

variable {dds : List (Dd 2)}

theorem le_ext {x y : Nat} (h : ∀ i, 1 ≤ i → (i ≤ x ↔ i ≤ y)) : x = y := by
  apply Nat.le_antisymm
  · by_cases h0 : 1 ≤ x
    · exact (h x h0).1 (Nat.le_refl _)
    · omega
  · by_cases h0 : 1 ≤ y
    · exact (h y h0).2 (Nat.le_refl _)
    · omega

theorem bd_ne {n i k k' : Nat} (hk : k < n) (hk' : k' < n) (hi : 1 ≤ i) (hne : k ≠ k') : bd n k' ((i - 1) * n + k + 1) = bd n k' ((i - 1) * n + k) := by
  refine le_ext fun i' hi' => ?_
  rw [bd_iff hk' hi', bd_iff hk' hi']
  have : (i' - 1) * n + k' + 1 ≠ (i - 1) * n + k + 1 := fun e => hne (lev_inj hk' hk hi' hi e).2.symm
  omega

theorem lev_le {n i i' k : Nat} (hi : 1 ≤ i) (hi' : 1 ≤ i') : (i' - 1) * n + k + 1 ≤ (i - 1) * n + k + 1 ↔ i' ≤ i ∨ n = 0 := by
  constructor
  · intro h
    by_cases h0 : n = 0
    · exact .inr h0
    · left
      apply Classical.byContradiction
      intro hlt
      have : (i - 1 + 1) * n ≤ (i' - 1) * n := Nat.mul_le_mul_right _ (by omega)
      rw [Nat.succ_mul] at this
      omega
  · rintro (h | h)
    · have : (i' - 1) * n ≤ (i - 1) * n := Nat.mul_le_mul_right _ (by omega)
      omega
    · subst h; simp

theorem bd_self {n i k : Nat} (hk : k < n) (hi : 1 ≤ i) : bd n k ((i - 1) * n + k + 1) = i := by
  refine le_ext fun i' hi' => ?_
  rw [bd_iff hk hi', lev_le hi hi']
  omega

theorem bd_pred {n i k : Nat} (hk : k < n) (hi : 1 ≤ i) : bd n k ((i - 1) * n + k) = i - 1 := by
  refine le_ext fun i' hi' => ?_
  rw [bd_iff hk hi']
  by_cases h1 : i = 1
  · subst h1; simp; omega
  · have := lev_le (n := n) (k := k) hi hi'
    have : (i' - 1) * n + k + 1 ≠ (i - 1) * n + k + 1 ∨ i' = i := by
      by_cases e : i' = i
      · exact .inr e
      · exact .inl fun h => e (lev_inj hk hk hi' hi h).1
    by_cases e : i' = i
    · subst e; omega
    · omega

/-- the child of entry `k` -/
theorem step_entry (hw : ∀ D ∈ dds, D.Wf) {s : List NodeId} (hg : Good dds s) {k : Nat} {f : NodeId} (hf : s[k]? = some f) (hr : 0 < f.row) (b : Fin 2) :
    ∃ D nd, dds[k]? = some D ∧ D.table.node? f = some nd ∧ childOf dds k f b = some (nd b) ∧ D.table.Valid (nd b) ∧ (nd b).row < f.row ∧ Good dds (s.set k (nd b)) := by
  obtain ⟨D, hD⟩ := hg.dd hf
  obtain ⟨nd, hnd⟩ := (hg.valid k D f hD hf).pos hr
  have h := (hw D (List.mem_of_getElem? hD)).table.child hr hnd b
  refine ⟨D, nd, hD, hnd, ?_, h.1, h.2, hg.set hD h.1⟩
  unfold childOf
  rw [hD]
  show Option.map _ (D.table.node? f) = _
  rw [hnd]
  rfl

theorem below_set {n : Nat} {s : List NodeId} {k : Nat} {f g : NodeId} (hlen : s.length = n) (hf : s[k]? = some f) (hr : 0 < f.row) (hb : Below n ((f.row - 1) * n + k + 1) s) (hg : g.row < f.row) :
    Below n ((f.row - 1) * n + k) (s.set k g) := by
  have hk : k < s.length := (List.getElem?_eq_some_iff.1 hf).1
  intro k' h hh h0
  by_cases e : k = k'
  · subst e
    rw [List.getElem?_set_self hk] at hh
    cases hh
    have : (g.row - 1) * n + n ≤ (f.row - 1) * n := by
      have : (g.row - 1 + 1) * n ≤ (f.row - 1) * n := Nat.mul_le_mul_right _ (by omega)
      rwa [Nat.succ_mul] at this
    omega
  · rw [List.getElem?_set_ne e] at hh
    have hk' : k' < s.length := (List.getElem?_eq_some_iff.1 hh).1
    have h1 := hb k' h hh h0
    have h2 : (h.row - 1) * n + k' + 1 ≠ (f.row - 1) * n + k + 1 := fun e' => e (lev_inj (by omega) (by omega) h0 hr e').2.symm
    omega

theorem P_step {s : List NodeId} (hg : Good dds s) {k : Nat} {f : NodeId} (hf : s[k]? = some f) (hr : 0 < f.row) {D : Dd 2} {nd : Node 2} (hD : dds[k]? = some D) (hnd : D.table.node? f = some nd) {a : Asg 2} :
    P dds ((f.row - 1) * dds.length + k + 1) s a ↔ P dds ((f.row - 1) * dds.length + k) (s.set k (nd (a ((f.row - 1) * dds.length + k + 1)))) a := by
  have hk := hg.lt hf
  have hks : k < s.length := by rw [hg.len]; exact hk
  have key : TMem D.table (bd dds.length k ((f.row - 1) * dds.length + k + 1)) f (col dds.length a k) ↔
      TMem D.table (bd dds.length k ((f.row - 1) * dds.length + k)) (nd (a ((f.row - 1) * dds.length + k + 1))) (col dds.length a k) := by
    rw [bd_self hk hr, bd_pred hk hr, tmem_node hr hnd]
    rfl
  constructor
  · intro h k' D' f' hD' hf'
    by_cases e : k = k'
    · subst e
      rw [hD] at hD'
      cases hD'
      rw [List.getElem?_set_self hks] at hf'
      cases hf'
      exact key.1 (h k D f hD hf)
    · rw [List.getElem?_set_ne e] at hf'
      rw [← bd_ne hk (hg.lt hf') hr e]
      exact h k' D' f' hD' hf'
  · intro h k' D' f' hD' hf'
    by_cases e : k = k'
    · subst e
      rw [hD] at hD'
      cases hD'
      rw [hf] at hf'
      cases hf'
      exact key.2 (h k D _ hD (List.getElem?_set_self hks))
    · rw [bd_ne hk (hg.lt hf') hr e]
      exact h k' D' f' hD' (by rw [List.getElem?_set_ne e]; exact hf')

theorem root_good (hw : ∀ D ∈ dds, D.Wf) : Good dds (dds.map Dd.root) where
  len := by simp
  valid := fun k D f hD hf => by
    rw [List.getElem?_map, hD] at hf
    cases hf
    exact (hw D (List.mem_of_getElem? hD)).root

theorem interleave_all (hn : 0 < dds.length) (hw : ∀ D ∈ dds, D.Wf) :
    Desc (interleave dds) ∧ ∀ m a, Below dds.length m (dds.map Dd.root) → (ZddMem (interleave dds) m a ↔ P dds m (dds.map Dd.root) a) := by
  refine (P_meaning hn hw).family rfl (root_good hw) ?_
  intro l s b hl hA
  obtain ⟨k, f, hf, hr, rfl⟩ := hA.top
  obtain ⟨D, nd, hD, hnd, hc, hv, hlt, hg⟩ := step_entry hw hA.good hf hr b
  have hch : (interleave dds).child s ((f.row - 1) * dds.length + k + 1) b = (getLevel dds.length (s.set k (nd b)), s.set k (nd b)) := by
    show (child dds s ((f.row - 1) * dds.length + k + 1) b).getD _ = _
    unfold child
    obtain ⟨e1, e2⟩ := lev_of (n := dds.length) (hA.good.lt hf) hr
    simp only [e1, e2]
    rw [hf]
    simp only [Option.bind_some, if_true, hc]
    rfl
  rw [hch]
  refine (P_meaning hn hw).outcome hg (below_set hA.good.len hf hr hA.below hlt) (Nat.lt_succ_self _) fun a ha => ?_
  rw [P_step hA.good hf hr hD hnd, ha]
  exact ⟨fun h => ⟨fun j h1 h2 => by omega, h⟩, fun h => h.2⟩

end TdZdd.Interleave
