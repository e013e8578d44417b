import Verif.ReducerProofs4
import Verif.BuilderProofs4

/-! `makeReadyForSequentialReduction`. -/

namespace TdZdd

variable {N : Nat}

/-- the deletion test of `makeReadyForSequentialReduction` -/
def delM (bdd zdd : Bool) (nd : Node (N + 1)) : Prop :=
  ∀ b : Fin (N + 1), ((bdd || zdd) = true → b ≠ 0) → nd b = if bdd then nd 0 else .zero

instance (bdd zdd : Bool) (c : Node (N + 1)) : Decidable (delM bdd zdd c) := by unfold delM; infer_instance

section
variable {bdd zdd : Bool} {nr : Nat} {T : Rows (N + 1)}

/-- target of an edge after redirection, with respect to the rows `S` -/
def cmpOf (bdd zdd : Bool) (nr : Nat) (S : Rows (N + 1)) (f : NodeId) : NodeId :=
  if f.row = 0 then f else match nodeAt nr S f with
    | none => f
    | some nd => if delM bdd zdd nd then nd 0 else f

theorem redirect_eq {S : Rows (N + 1)} {f : NodeId} (h : f.row = 0 ∨ ∃ nd, nodeAt nr S f = some nd) :
    redirect bdd zdd nr S f = some (cmpOf bdd zdd nr S f) := by
  unfold redirect cmpOf
  by_cases h0 : f.row = 0
  · rw [if_pos h0, if_pos h0]
  · rw [if_neg h0, if_neg h0]
    obtain ⟨nd, hn⟩ := h.resolve_left h0
    rw [hn]
    rfl

theorem cmpOf_congr {S S' : Rows (N + 1)} {f : NodeId} (h : S f.row = S' f.row) :
    cmpOf bdd zdd nr S f = cmpOf bdd zdd nr S' f := by
  unfold cmpOf nodeAt; rw [h]

/-- rows `< i` are done -/
structure Ready (bdd zdd : Bool) (nr : Nat) (T : Rows (N + 1)) (i : Nat) (S : Rows (N + 1)) : Prop where
  zero : S 0 = T 0
  done : ∀ r, 0 < r → r < i → S r = (T r).map fun nd => cmpOf bdd zdd nr S ∘ nd
  todo : ∀ r, i ≤ r → S r = T r

theorem readyRow_spec {i : Nat} {S : Rows (N + 1)} (hw : Table.Wf ⟨nr, T⟩) (hi0 : 0 < i) (hi : i < nr)
    (h : Ready bdd zdd nr T i S) :
    ∃ S', readyRow bdd zdd nr S i = some S' ∧ Ready bdd zdd nr T (i + 1) S' := by
  have hlen : ∀ r, (S r).length = (T r).length := by
    intro r
    by_cases h0 : r = 0
    · rw [h0, h.zero]
    · by_cases hr : r < i
      · rw [h.done r (by omega) hr, List.length_map]
      · rw [h.todo r (by omega)]
  obtain ⟨S', e, h1, h2⟩ := foldlM_up (f := readyNode bdd zdd nr i)
    (fun t S' => (∀ r, r ≠ i → S' r = S r) ∧
      S' i = ((T i).take t).map (fun nd => cmpOf bdd zdd nr S ∘ nd) ++ (T i).drop t) (S i).length S
    ⟨fun _ _ => rfl, by simp [h.todo i (Nat.le_refl _)]⟩ (by
      intro t S' ht ⟨h1, h2⟩
      rw [h.todo i (Nat.le_refl _)] at ht
      obtain ⟨nd, hnd⟩ := getElem?_of_lt ht
      have hlt : (((T i).take t).map (fun nd => cmpOf bdd zdd nr S ∘ nd)).length = t := by
        rw [List.length_map, List.length_take]; omega
      have hat : nodeAt nr S' ⟨i, t⟩ = some nd := by
        unfold nodeAt
        dsimp only
        rw [if_pos hi, h2, List.getElem?_append_right (by omega), hlt, List.getElem?_drop]
        simpa using hnd
      have hchild := hw.child (f := ⟨i, t⟩) hi0
        (by unfold Table.node?; dsimp only; rw [if_pos hi]; exact hnd)
      have hmap : mapNode (redirect bdd zdd nr S') nd = some (cmpOf bdd zdd nr S ∘ nd) := by
        refine allSome_of fun b => ?_
        obtain ⟨hv, hr⟩ := hchild b
        dsimp only at hr
        have e : S' (nd b).row = S (nd b).row := h1 _ (by omega)
        rw [redirect_eq]
        · rw [cmpOf_congr e]; rfl
        · by_cases h0 : (nd b).row = 0
          · exact .inl h0
          · right
            obtain ⟨x, hx⟩ := hv.pos (by omega)
            have := nodeAt_lt (T := T) hx
            exact nodeAt_of_lt this.1 (by rw [e, hlen]; exact this.2)
      refine ⟨upd S' i ((S' i).set t (cmpOf bdd zdd nr S ∘ nd)), ?_, ?_, ?_⟩
      · unfold readyNode
        rw [hat]
        simp only [Option.bind_some, hmap]
        exact if_pos ⟨hi, (nodeAt_lt hat).2⟩
      · intro r hr; unfold upd; rw [if_neg hr]; exact h1 r hr
      · unfold upd
        rw [if_pos rfl, h2, List.set_append_right _ _ (by omega), hlt, Nat.sub_self]
        have : (T i).drop t = nd :: (T i).drop (t + 1) := by
          rw [List.getElem?_eq_some_iff] at hnd
          obtain ⟨h3, h4⟩ := hnd
          rw [← h4]
          exact List.drop_eq_getElem_cons h3
        rw [this, List.set_cons_zero, List.take_add_one, hnd]
        simp)
  rw [h.todo i (Nat.le_refl _), List.take_of_length_le (Nat.le_refl _), List.drop_eq_nil_of_le (Nat.le_refl _),
    List.append_nil] at h2
  refine ⟨S', e, ?_, ?_, ?_⟩
  · rw [h1 0 (by omega)]; exact h.zero
  · intro r h0 hr
    have key : (fun nd : Node (N + 1) => cmpOf bdd zdd nr S ∘ nd) = fun nd => cmpOf bdd zdd nr S ∘ nd := rfl
    have hcongr : (T r).map (fun nd => cmpOf bdd zdd nr S' ∘ nd) = (T r).map (fun nd => cmpOf bdd zdd nr S ∘ nd) := by
      apply List.map_congr_left
      intro nd hnd
      funext b
      apply cmpOf_congr
      apply h1
      obtain ⟨c, hc⟩ := List.mem_iff_getElem?.1 hnd
      have := (hw.child (f := ⟨r, c⟩) h0
        (by unfold Table.node?; dsimp only; rw [if_pos (by omega)]; exact hc) b).2
      dsimp only at this
      omega
    rw [hcongr]
    by_cases hri : r = i
    · rw [hri]; exact h2
    · rw [h1 r hri]; exact h.done r h0 (by omega)
  · intro r hr; rw [h1 r (by omega)]; exact h.todo r (by omega)

theorem makeReady_spec (hw : Table.Wf ⟨nr, T⟩) :
    ∃ S, makeReady bdd zdd nr T = some S ∧ S 0 = T 0 ∧ (∀ r, (S r).length = (T r).length) ∧
      Comp (delM bdd zdd) ⟨nr, T⟩ ⟨nr, S⟩ (cmpOf bdd zdd nr S) := by
  have start : Ready bdd zdd nr T (0 + 2) T := by
    refine ⟨rfl, ?_, fun _ _ => rfl⟩
    intro r h0 hr
    have hr1 : r = 1 := by omega
    subst hr1
    by_cases hnr : 1 < nr
    · rw [List.map_congr_left (g := id), List.map_id]
      intro nd hnd
      funext b
      obtain ⟨c, hc⟩ := List.mem_iff_getElem?.1 hnd
      have := (hw.child (f := ⟨1, c⟩) h0
        (by unfold Table.node?; dsimp only; rw [if_pos (by omega)]; exact hc) b).2
      dsimp only at this
      simp only [Function.comp, id, cmpOf]
      rw [if_pos (by omega)]
    · rw [List.map_congr_left (g := id), List.map_id]
      intro nd hnd
      funext b
      simp only [Function.comp, id, cmpOf]
      by_cases h0 : (nd b).row = 0
      · rw [if_pos h0]
      · rw [if_neg h0]
        unfold nodeAt
        rw [if_neg (by omega)]
  obtain ⟨S, e, h⟩ := foldlM_up (f := fun S t => readyRow bdd zdd nr S (t + 2))
    (fun t S => Ready bdd zdd nr T (t + 2) S) (nr - 2) T start
    (fun t S ht h => readyRow_spec hw (by omega) (by omega) h)
  have hdone : ∀ r, 0 < r → r < nr → S r = (T r).map fun nd => cmpOf bdd zdd nr S ∘ nd :=
    fun r h0 hr => h.done r h0 (by omega)
  refine ⟨S, ?_, h.zero, ?_, ?_, ?_⟩
  · unfold makeReady
    rw [List.foldlM_map]
    exact e
  · intro r
    by_cases h0 : r = 0
    · rw [h0, h.zero]
    · by_cases hr : r < nr - 2 + 2
      · rw [h.done r (by omega) hr, List.length_map]
      · rw [h.todo r (by omega)]
  · intro f h0
    unfold Table.node?
    dsimp only
    by_cases hr : f.row < nr
    · rw [if_pos hr, if_pos hr, hdone _ h0 hr, List.getElem?_map]
    · rw [if_neg hr, if_neg hr]; rfl
  · intro f
    unfold cmpOf
    by_cases h0 : f.row = 0
    · rw [if_pos h0]; exact .inl rfl
    · rw [if_neg h0]
      cases hn : nodeAt nr S f with
      | none => exact .inl rfl
      | some nd =>
        by_cases hd : delM bdd zdd nd
        · right
          refine ⟨by omega, nd, hn, hd, ?_⟩
          dsimp only; rw [if_pos hd]
        · left
          dsimp only; rw [if_neg hd]

/-- no edge of the prepared table points to a deletable node -/
theorem comp_noDel {S : Rows (N + 1)} (hw : Table.Wf ⟨nr, T⟩)
    (hc : Comp (delM bdd zdd) ⟨nr, T⟩ ⟨nr, S⟩ (cmpOf bdd zdd nr S)) :
    ∀ (r : Nat) {g : NodeId} {nd nd' : Node (N + 1)} {b : Fin (N + 1)}, g.row ≤ r → 0 < g.row →
      nodeAt nr S g = some nd → 0 < (nd b).row → nodeAt nr S (nd b) = some nd' → ¬ delM bdd zdd nd' := by
  intro r
  induction r with
  | zero => intro g nd nd' b h1 h2; omega
  | succ r ih =>
    intro g nd nd' b hr h0 hn hb hn' hd
    have hn1 : Table.node? ⟨nr, S⟩ g = some nd := hn
    rw [hc.node h0] at hn1
    obtain ⟨nd0, h1, h2⟩ := Option.map_eq_some_iff.1 hn1
    have hch := hw.child h0 h1 b
    have eb : nd b = cmpOf bdd zdd nr S (nd0 b) := by rw [← h2]; rfl
    by_cases hz : (nd0 b).row = 0
    · rw [eb] at hb
      unfold cmpOf at hb
      rw [if_pos hz] at hb
      omega
    · obtain ⟨x0, hx0⟩ := hch.1.pos (by omega)
      have hx : nodeAt nr S (nd0 b) = some (cmpOf bdd zdd nr S ∘ x0) := by
        show Table.node? ⟨nr, S⟩ (nd0 b) = _
        rw [hc.node (by omega), hx0]; rfl
      by_cases hdx : delM bdd zdd (cmpOf bdd zdd nr S ∘ x0)
      · have e : nd b = (cmpOf bdd zdd nr S ∘ x0) 0 := by
          rw [eb]
          conv => lhs; unfold cmpOf
          rw [if_neg hz, hx]
          dsimp only
          rw [if_pos hdx]
        rw [e] at hb hn'
        exact ih (g := nd0 b) (by omega) (by omega) hx hb hn' hd
      · have e : nd b = nd0 b := by
          rw [eb]
          conv => lhs; unfold cmpOf
          rw [if_neg hz, hx]
          dsimp only
          rw [if_neg hdx]
        rw [e, hx] at hn'
        cases hn'
        exact hdx hd

end

end TdZdd
