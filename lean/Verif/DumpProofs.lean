import Verif.Dump

/-! Proofs about the Graphviz output of specifications. -/

namespace TdZdd.Dot

variable {N : Nat} {S : Type} {sp : DdSpec N S} {n i : Nat} {st st' : St S}

theorem upd_same {α : Type} (f : Nat → α) (r : Nat) (v : α) : upd f r v r = v := if_pos rfl

theorem upd_other {α : Type} (f : Nat → α) {r k : Nat} (v : α) (h : k ≠ r) : upd f r v k = f k := if_neg h

/-- the state while level `i` is processed -/
structure Ok (sp : DdSpec N S) (n i : Nat) (st : St S) : Prop where
  node : ∀ {r j : Nat} {s : S} {id : NodeId}, (st.lev r)[j]? = some (s, id) → 0 < r ∧ r ≤ n ∧ Reach sp (r : Int) s ∧ (id = ⟨r, j⟩ ∨ id = .zero) ∧ (NoMerge sp → id = ⟨r, j⟩)
  uniq : ∀ {r j : Nat} {s : S}, (j, s) ∈ st.uniq r → (st.lev r)[j]? = some (s, ⟨r, j⟩)
  full : NoMerge sp → ∀ {r j : Nat} {s : S} {id : NodeId}, r < i → (st.lev r)[j]? = some (s, id) → (j, s) ∈ st.uniq r
  diff : NoMerge sp → ∀ {r j j' : Nat} {s s' : S} {id id' : NodeId}, (st.lev r)[j]? = some (s, id) → (st.lev r)[j']? = some (s', id') → sp.eqv r s s' = true → j = j'
  one : 1 ≤ st.oneId
  two : NoMerge sp → st.oneId ≤ 2

/-- later states, where level `i` and the levels above are as before -/
structure Grow (i : Nat) (st st' : St S) : Prop where
  keep : ∀ {r j : Nat} {s : S} {id : NodeId}, (st.lev r)[j]? = some (s, id) → ∃ id', (st'.lev r)[j]? = some (s, id')
  same : ∀ {r : Nat}, i ≤ r → st'.lev r = st.lev r
  one : st.oneId ≤ st'.oneId

theorem Grow.refl (i : Nat) (st : St S) : Grow i st st := ⟨fun h => ⟨_, h⟩, fun _ => rfl, Nat.le_refl _⟩

theorem Grow.trans {st'' : St S} (h : Grow i st st') (h' : Grow i st' st'') : Grow i st st'' where
  keep hj := by obtain ⟨_, h1⟩ := h.keep hj; exact h'.keep h1
  same hr := (h'.same hr).trans (h.same hr)
  one := Nat.le_trans h.one h'.one

/-- the id `c` stands for the level code and state `w` -/
def DEdge (sp : DdSpec N S) (st : St S) (c : NodeId) (w : Int × S) : Prop :=
  (c = .zero ∧ (NoMerge sp → w.1 = 0)) ∨ (∃ k, c = ⟨0, k⟩ ∧ 2 ≤ k ∧ k ≤ st.oneId ∧ w.1 < 0) ∨
  (0 < c.row ∧ w.1 = (c.row : Int) ∧ ∃ g id, (st.lev c.row)[c.col]? = some (g, id) ∧ sp.eqv c.row g w.2 = true)

theorem DEdge.grow {c : NodeId} {w : Int × S} (h : DEdge sp st c w) (hg : Grow i st st') : DEdge sp st' c w := by
  rcases h with h | ⟨k, h1, h2, h3, h4⟩ | ⟨h1, h2, g, id, h3, h4⟩
  · exact .inl h
  · exact .inr (.inl ⟨k, h1, h2, Nat.le_trans h3 hg.one, h4⟩)
  · obtain ⟨id', h5⟩ := hg.keep h3
    exact .inr (.inr ⟨h1, h2, g, id', h5, h4⟩)

theorem nomerge_1 (hm : NoMerge sp) {s t : S} : ¬ sp.merge s t = 1 := by rw [hm s t]; decide

theorem oneChild_ok (h : Ok sp n i st) {w : Int × S} (hw : w.1 < 0) :
    Ok sp n i (oneChild sp w.2 st).1 ∧ Grow i st (oneChild sp w.2 st).1 ∧ DEdge sp (oneChild sp w.2 st).1 (oneChild sp w.2 st).2 w := by
  have h1 := h.one
  unfold oneChild
  by_cases e : st.oneId = 1
  · rw [if_pos e]
    exact ⟨⟨h.node, h.uniq, h.full, h.diff, by show 1 ≤ 2; decide, fun _ => Nat.le_refl _⟩, ⟨fun hj => ⟨_, hj⟩, fun _ => rfl, by rw [e]; show 1 ≤ 2; decide⟩, .inr (.inl ⟨2, rfl, by decide, Nat.le_refl _, hw⟩)⟩
  · rw [if_neg e]
    by_cases m1 : sp.merge st.oneState w.2 = 1
    · rw [if_pos m1]
      exact ⟨⟨h.node, h.uniq, h.full, h.diff, by show 1 ≤ st.oneId + 1; omega, fun hm => absurd m1 (nomerge_1 hm)⟩,
        ⟨fun hj => ⟨_, hj⟩, fun _ => rfl, by show st.oneId ≤ st.oneId + 1; omega⟩, .inr (.inl ⟨_, rfl, by omega, Nat.le_refl _, hw⟩)⟩
    · rw [if_neg m1]
      by_cases m2 : sp.merge st.oneState w.2 = 2
      · rw [if_pos m2]
        exact ⟨h, .refl i st, .inl ⟨rfl, fun hm => absurd (m2.symm.trans (hm _ _)) (by decide)⟩⟩
      · rw [if_neg m2]
        exact ⟨h, .refl i st, .inr (.inl ⟨_, rfl, by omega, Nat.le_refl _, hw⟩)⟩

theorem get_snoc {α : Type} {l : List α} {x y : α} {j : Nat} (h : (l ++ [x])[j]? = some y) : (l[j]? = some y) ∨ (j = l.length ∧ y = x) := by
  by_cases hj : j < l.length
  · rw [List.getElem?_append_left hj] at h; exact .inl h
  · rw [List.getElem?_append_right (by omega)] at h
    by_cases e : j - l.length = 0
    · rw [e] at h; cases h; exact .inr ⟨by omega, rfl⟩
    · rw [List.getElem?_eq_none (by simp; omega)] at h; cases h

theorem snoc_get {α : Type} {l : List α} {x : α} : (l ++ [x])[l.length]? = some x := by
  rw [List.getElem?_append_right (Nat.le_refl _), Nat.sub_self]; rfl

theorem get_left {α : Type} {l : List α} {x y : α} {j : Nat} (h : l[j]? = some y) : (l ++ [x])[j]? = some y := by
  rw [List.getElem?_append_left (List.getElem?_eq_some_iff.1 h).1]; exact h

theorem nodeChild_ok (hl : Lawful sp) (h : Ok sp n i st) (hin : i ≤ n) {ii : Nat} {w : Int × S} (hw : w.1 = (ii : Int)) (h0 : 0 < ii) (hlt : ii < i) (hr : Reach sp (ii : Int) w.2) :
    ∃ st' c, nodeChild sp ii w.2 st = some (st', c) ∧ Ok sp n i st' ∧ Grow i st st' ∧ DEdge sp st' c w := by
  unfold nodeChild
  cases hf : (st.uniq ii).find? fun e => sp.eqv ii e.2 w.2 with
  | none =>
    have hno : ∀ j s, (j, s) ∈ st.uniq ii → ¬ sp.eqv ii s w.2 = true := fun j s hm => List.find?_eq_none.1 hf _ hm
    refine ⟨_, _, rfl, ⟨?_, ?_, ?_, ?_, h.one, h.two⟩, ⟨?_, ?_, Nat.le_refl _⟩, .inr (.inr ⟨h0, hw, w.2, ⟨ii, (st.lev ii).length⟩, ?_, hl.refl h0 hr⟩)⟩
    · intro r j s id hj
      try dsimp only at hj ⊢
      by_cases e : r = ii
      · subst e
        rw [upd_same] at hj
        rcases get_snoc hj with hj | ⟨e1, hj2⟩
        · exact h.node hj
        · cases hj2
          rw [e1]
          exact ⟨h0, by omega, hr, .inl rfl, fun _ => rfl⟩
      · rw [upd_other _ _ e] at hj; exact h.node hj
    · intro r j s hj
      try dsimp only at hj ⊢
      by_cases e : r = ii
      · subst e
        rw [upd_same] at hj ⊢
        rcases List.mem_cons.1 hj with hj | hj
        · cases hj; exact snoc_get
        · exact get_left (h.uniq hj)
      · rw [upd_other _ _ e] at hj ⊢; exact h.uniq hj
    · intro hm r j s id hri hj
      dsimp only at hj ⊢
      by_cases e : r = ii
      · subst e
        rw [upd_same] at hj ⊢
        rcases get_snoc hj with hj | ⟨e1, hj2⟩
        · exact .tail _ (h.full hm hri hj)
        · cases hj2; rw [e1]; exact .head _
      · rw [upd_other _ _ e] at hj ⊢; exact h.full hm hri hj
    · intro hm r j j' s s' id id' hj hj' he
      dsimp only at hj hj'
      by_cases e : r = ii
      · subst e
        rw [upd_same] at hj hj'
        rcases get_snoc hj with hj | ⟨e1, hj⟩
        · rcases get_snoc hj' with hj' | ⟨e2, hj'⟩
          · exact h.diff hm hj hj' he
          · cases hj'
            exact absurd he (hno _ _ (h.full hm hlt hj))
        · rcases get_snoc hj' with hj' | ⟨e2, hj'⟩
          · cases hj
            exact absurd (hl.symm h0 hr (h.node hj').2.2.1 he) (hno _ _ (h.full hm hlt hj'))
          · rw [e1, e2]
      · rw [upd_other _ _ e] at hj hj'; exact h.diff hm hj hj' he
    · intro r j s id hj
      try dsimp only at hj ⊢
      by_cases e : r = ii
      · subst e
        exact ⟨id, by rw [upd_same]; exact get_left hj⟩
      · exact ⟨id, by rw [upd_other _ _ e]; exact hj⟩
    · intro r hir
      exact upd_other _ _ (by omega)
    · dsimp only
      rw [upd_same]; exact snoc_get
  | some e =>
    obtain ⟨j0, g⟩ := e
    have hmem : (j0, g) ∈ st.uniq ii := List.mem_of_find?_eq_some hf
    have heq : sp.eqv ii g w.2 = true := List.find?_some (p := fun e : Nat × S => sp.eqv ii e.2 w.2) hf
    have hj0 := h.uniq hmem
    have hlen := (List.getElem?_eq_some_iff.1 hj0).1
    show ∃ st' c, (if sp.merge g w.2 = 1 then _ else _) = some (st', c) ∧ _
    by_cases m1 : sp.merge g w.2 = 1
    · rw [if_pos m1]
      have hmm : ¬ NoMerge sp := fun hm => nomerge_1 hm m1
      have hset : ∀ {j : Nat} {s : S} {id : NodeId}, ((st.lev ii).set j0 (g, .zero))[j]? = some (s, id) → (j = j0 ∧ s = g ∧ id = .zero) ∨ (j ≠ j0 ∧ (st.lev ii)[j]? = some (s, id)) := by
        intro j s id hj
        try dsimp only at hj ⊢
        rw [List.getElem?_set] at hj
        by_cases e : j0 = j
        · rw [if_pos e, if_pos (by omega)] at hj; cases hj; exact .inl ⟨e.symm, rfl, rfl⟩
        · rw [if_neg e] at hj; exact .inr ⟨fun h => e h.symm, hj⟩
      have hlen' : ((st.lev ii).set j0 (g, .zero)).length = (st.lev ii).length := List.length_set
      have hnew : (((st.lev ii).set j0 (g, .zero)) ++ [(w.2, (⟨ii, (st.lev ii).length⟩ : NodeId))])[(st.lev ii).length]? = some (w.2, ⟨ii, (st.lev ii).length⟩) := by
        have := snoc_get (l := (st.lev ii).set j0 (g, .zero)) (x := (w.2, (⟨ii, (st.lev ii).length⟩ : NodeId)))
        rw [hlen'] at this
        exact this
      refine ⟨_, _, rfl, ⟨?_, ?_, fun hm => absurd hm hmm, fun hm => absurd hm hmm, h.one, h.two⟩, ⟨?_, ?_, Nat.le_refl _⟩, .inr (.inr ⟨h0, hw, w.2, ⟨ii, (st.lev ii).length⟩, ?_, hl.refl h0 hr⟩)⟩
      · intro r j s id hj
        try dsimp only at hj ⊢
        by_cases e : r = ii
        · subst e
          rw [upd_same] at hj
          rcases get_snoc hj with hj | ⟨e1, hj⟩
          · rcases hset hj with ⟨_, rfl, rfl⟩ | ⟨_, hj⟩
            · have := h.node hj0
              exact ⟨this.1, this.2.1, this.2.2.1, .inr rfl, fun hm => absurd hm hmm⟩
            · exact h.node hj
          · cases hj
            rw [hlen'] at e1
            exact ⟨h0, by omega, hr, .inl (by rw [e1]), fun hm => absurd hm hmm⟩
        · rw [upd_other _ _ e] at hj; exact h.node hj
      · intro r j s hj
        try dsimp only at hj ⊢
        by_cases e : r = ii
        · subst e
          rw [upd_same] at hj ⊢
          obtain ⟨⟨j1, s1⟩, hm1, he1⟩ := List.mem_map.1 hj
          replace he1 : (if j1 = j0 then ((st.lev r).length, w.2) else (j1, s1)) = (j, s) := he1
          by_cases e1 : j1 = j0
          · rw [if_pos e1] at he1; cases he1; exact hnew
          · rw [if_neg e1] at he1; cases he1
            apply get_left
            rw [List.getElem?_set, if_neg (fun h => e1 h.symm)]
            exact h.uniq hm1
        · rw [upd_other _ _ e] at hj ⊢; exact h.uniq hj
      · intro r j s id hj
        try dsimp only at hj ⊢
        by_cases e : r = ii
        · subst e
          show ∃ id', (upd st.lev r _ r)[j]? = _
          rw [upd_same]
          by_cases e1 : j = j0
          · subst e1
            rw [hj0] at hj; cases hj
            exact ⟨.zero, get_left (by rw [List.getElem?_set, if_pos rfl, if_pos hlen])⟩
          · exact ⟨id, get_left (by rw [List.getElem?_set, if_neg (fun h => e1 h.symm)]; exact hj)⟩
        · exact ⟨id, by rw [upd_other _ _ e]; exact hj⟩
      · intro r hir
        exact upd_other _ _ (by omega)
      · dsimp only
        rw [upd_same]; exact hnew
    · rw [if_neg m1]
      by_cases m2 : sp.merge g w.2 = 2
      · rw [if_pos m2]
        exact ⟨_, _, rfl, h, .refl i st, .inl ⟨rfl, fun hm => absurd (m2.symm.trans (hm _ _)) (by decide)⟩⟩
      · rw [if_neg m2, hj0]
        exact ⟨_, _, rfl, h, .refl i st, .inr (.inr ⟨h0, hw, g, _, hj0, heq⟩)⟩

theorem branch_ok (hl : Lawful sp) (h : Ok sp n i st) (h0 : 0 < i) (hin : i ≤ n) {s : S} (hr : Reach sp (i : Int) s) (b : Fin N) :
    ∃ st' c, branch sp i s st b = some (st', c) ∧ Ok sp n i st' ∧ Grow i st st' ∧ DEdge sp st' c (sp.child s i b) := by
  have hlt := hl.child_lt b h0 hr
  have hr' := hr.step b h0
  unfold branch
  by_cases h1 : (sp.child s i b).1 = 0
  · rw [if_pos h1]
    exact ⟨_, _, rfl, h, .refl i st, .inl ⟨rfl, fun _ => h1⟩⟩
  · rw [if_neg h1]
    by_cases h2 : (sp.child s i b).1 < 0
    · rw [if_pos h2]
      exact ⟨_, _, rfl, oneChild_ok h h2⟩
    · rw [if_neg h2, if_pos hlt]
      have hc : (sp.child s i b).1 = ((sp.child s i b).1.toNat : Int) := by omega
      rw [hc] at hr'
      exact nodeChild_ok hl h hin hc (by omega) (by omega) hr'

theorem branches_ok (hl : Lawful sp) (h0 : 0 < i) (hin : i ≤ n) {s : S} (hr : Reach sp (i : Int) s) : ∀ (l : List (Fin N)) (st : St S), Ok sp n i st →
    ∃ st' q, branches sp i s st l = some (st', q) ∧ Ok sp n i st' ∧ Grow i st st' ∧ q.map (·.1) = l ∧ ∀ b c, (b, c) ∈ q → DEdge sp st' c (sp.child s i b) := by
  intro l
  induction l with
  | nil => intro st h; exact ⟨st, [], rfl, h, .refl i st, rfl, fun _ _ h => (nomatch h)⟩
  | cons b l ih =>
    intro st h
    obtain ⟨st1, c, e1, k1, g1, d1⟩ := branch_ok hl h h0 hin hr b
    obtain ⟨st2, q, e2, k2, g2, m2, d2⟩ := ih st1 k1
    refine ⟨st2, (b, c) :: q, ?_, k2, g1.trans g2, by rw [List.map_cons, m2], fun b' c' hm => ?_⟩
    · unfold branches
      rw [e1, Option.bind_some, e2]
      rfl
    · rcases List.mem_cons.1 hm with hm | hm
      · cases hm; exact d1.grow g2
      · exact d2 b' c' hm

/-- the nodes of a level as they are when the level is processed -/
def NodeOk (sp : DdSpec N S) (i : Nat) (x : S × NodeId) : Prop := Reach sp (i : Int) x.1 ∧ (NoMerge sp → x.2 ≠ .zero)

theorem nodes_ok (hl : Lawful sp) (h0 : 0 < i) (hin : i ≤ n) : ∀ (l : List (S × NodeId)) (st : St S), Ok sp n i st → (∀ x ∈ l, NodeOk sp i x) →
    ∃ st' t, nodes sp i st l = some (st', t) ∧ Ok sp n i st' ∧ Grow i st st' ∧ t.length = l.length ∧
      ∀ (k : Nat) (x : S × NodeId) (q : List (Fin N × NodeId)), l[k]? = some x → t[k]? = some q → q.map (·.1) = List.finRange N ∧ ∀ b c, (b, c) ∈ q → DEdge sp st' c (sp.child x.1 i b) := by
  intro l
  induction l with
  | nil => intro st h _; exact ⟨st, [], rfl, h, .refl i st, rfl, fun _ _ _ h => by simp at h⟩
  | cons x l ih =>
    intro st h hx
    obtain ⟨hr, hz⟩ := hx x (.head _)
    have hone : ∃ (st1 : St S) (q : List (Fin N × NodeId)), oneNode sp i x st = some (st1, q) ∧ Ok sp n i st1 ∧ Grow i st st1 ∧ q.map (·.1) = List.finRange N ∧ ∀ b c, (b, c) ∈ q → DEdge sp st1 c (sp.child x.1 i b) := by
      unfold oneNode
      by_cases e : x.2 = .zero
      · rw [if_pos e]
        refine ⟨st, _, rfl, h, .refl i st, ?_, fun b c hm => ?_⟩
        · rw [List.map_map]
          exact List.map_id _
        · obtain ⟨b', _, e'⟩ := List.mem_map.1 hm
          cases e'
          exact .inl ⟨rfl, fun hm => absurd e (hz hm)⟩
      · rw [if_neg e]
        exact branches_ok hl h0 hin hr _ st h
    obtain ⟨st1, q, e1, k1, g1, m1, d1⟩ := hone
    obtain ⟨st2, t, e2, k2, g2, l2, d2⟩ := ih st1 k1 fun y hy => hx y (.tail _ hy)
    refine ⟨st2, q :: t, ?_, k2, g1.trans g2, by rw [List.length_cons, List.length_cons, l2], fun k y q' hy hq => ?_⟩
    · unfold nodes
      rw [e1, Option.bind_some, e2]
      rfl
    · cases k with
      | zero => cases hy; cases hq; exact ⟨m1, fun b c hm => (d1 b c hm).grow g2⟩
      | succ k => exact d2 k y q' hy hq

/-! ## Lines -/

/-- the lines describe the levels in `P` -/
structure Shows (sp : DdSpec N S) (st : St S) (P : Nat → Prop) (ls : List (Line N S)) : Prop where
  kind : ∀ x ∈ ls, (∃ f s, x = .node f s) ∨ (∃ f b c, x = .edge f b c) ∨ ∃ i m, x = .rank i m
  node : ∀ f s, .node f s ∈ ls ↔ P f.row ∧ ∃ id, (st.lev f.row)[f.col]? = some (s, id)
  edge : ∀ {f b c}, .edge f b c ∈ ls → P f.row ∧ c ≠ .zero ∧ ∃ s id, (st.lev f.row)[f.col]? = some (s, id) ∧ DEdge sp st c (sp.child s f.row b)
  edge' : NoMerge sp → ∀ {f : NodeId} {s : S} {id : NodeId} (b : Fin N), P f.row → (st.lev f.row)[f.col]? = some (s, id) → (sp.child s f.row b).1 ≠ 0 → ∃ c, .edge f b c ∈ ls
  fn : ∀ {f b c c'}, .edge f b c ∈ ls → .edge f b c' ∈ ls → c = c'
  rank : ∀ r m, .rank r m ∈ ls ↔ P r ∧ m = (st.lev r).length

theorem Shows.grow {P : Nat → Prop} {ls : List (Line N S)} (h : Shows sp st P ls) (hg : Grow i st st') (hP : ∀ r, P r → i ≤ r) : Shows sp st' P ls where
  kind := h.kind
  node f s := by
    rw [h.node]
    constructor
    · rintro ⟨hp, h⟩; exact ⟨hp, by rw [hg.same (hP _ hp)]; exact h⟩
    · rintro ⟨hp, h⟩; exact ⟨hp, by rw [hg.same (hP _ hp)] at h; exact h⟩
  edge he := by
    obtain ⟨hp, hz, s, id, h1, h2⟩ := h.edge he
    exact ⟨hp, hz, s, id, by rw [hg.same (hP _ hp)]; exact h1, h2.grow hg⟩
  edge' hm f s id b hp hj hc := h.edge' hm b hp (by rw [hg.same (hP _ hp)] at hj; exact hj) hc
  fn := h.fn
  rank r m := by
    rw [h.rank]
    constructor
    · rintro ⟨hp, h⟩; exact ⟨hp, by rw [hg.same (hP _ hp)]; exact h⟩
    · rintro ⟨hp, h⟩; exact ⟨hp, by rw [hg.same (hP _ hp)] at h; exact h⟩

theorem Shows.append {P Q : Nat → Prop} {ls ls' : List (Line N S)} (h : Shows sp st P ls) (h' : Shows sp st Q ls') (hd : ∀ r, P r → ¬ Q r) :
    Shows sp st (fun r => P r ∨ Q r) (ls ++ ls') where
  kind x hx := (List.mem_append.1 hx).elim (h.kind x) (h'.kind x)
  node f s := by
    rw [List.mem_append, h.node, h'.node]
    exact ⟨fun h => h.elim (fun h => ⟨.inl h.1, h.2⟩) fun h => ⟨.inr h.1, h.2⟩, fun h => h.1.elim (fun g => .inl ⟨g, h.2⟩) fun g => .inr ⟨g, h.2⟩⟩
  edge he := by
    rcases List.mem_append.1 he with he | he
    · obtain ⟨hp, h⟩ := h.edge he; exact ⟨.inl hp, h⟩
    · obtain ⟨hp, h⟩ := h'.edge he; exact ⟨.inr hp, h⟩
  edge' hm f s id b hp hj hc := by
    rcases hp with hp | hp
    · obtain ⟨c, h⟩ := h.edge' hm b hp hj hc; exact ⟨c, List.mem_append.2 (.inl h)⟩
    · obtain ⟨c, h⟩ := h'.edge' hm b hp hj hc; exact ⟨c, List.mem_append.2 (.inr h)⟩
  fn h1 h2 := by
    rcases List.mem_append.1 h1 with h1 | h1 <;> rcases List.mem_append.1 h2 with h2 | h2
    · exact h.fn h1 h2
    · exact absurd (h'.edge h2).1 (hd _ (h.edge h1).1)
    · exact absurd (h'.edge h1).1 (hd _ (h.edge h2).1)
    · exact h'.fn h1 h2
  rank r m := by
    rw [List.mem_append, h.rank, h'.rank]
    exact ⟨fun h => h.elim (fun h => ⟨.inl h.1, h.2⟩) fun h => ⟨.inr h.1, h.2⟩, fun h => h.1.elim (fun g => .inl ⟨g, h.2⟩) fun g => .inr ⟨g, h.2⟩⟩

theorem Shows.congr {P Q : Nat → Prop} {ls : List (Line N S)} (h : Shows sp st P ls) (hpq : ∀ r, P r ↔ Q r) : Shows sp st Q ls := by
  have : P = Q := funext fun r => propext (hpq r)
  rw [← this]; exact h

theorem mem_nodeLines {l : List (S × NodeId)} {x : Line N S} : x ∈ nodeLines i l ↔ ∃ j s id, x = .node ⟨i, j⟩ s ∧ l[j]? = some (s, id) := by
  unfold nodeLines
  rw [List.mem_reverse, List.mem_map]
  constructor
  · rintro ⟨⟨⟨s, id⟩, j⟩, h, rfl⟩
    exact ⟨j, s, id, rfl, List.mem_zipIdx_iff_getElem?.1 h⟩
  · rintro ⟨j, s, id, rfl, h⟩
    exact ⟨((s, id), j), List.mem_zipIdx_iff_getElem?.2 h, rfl⟩

theorem mem_edgeLines {o : Nat} {t : List (List (Fin N × NodeId))} {x : Line N S} : x ∈ edgeLines i o t ↔
    ∃ j q b c, t[j]? = some q ∧ (b, c) ∈ q ∧ c ≠ .zero ∧ x = .edge ⟨i, j⟩ b (if c = .one then ⟨0, o⟩ else c) := by
  unfold edgeLines
  rw [List.mem_flatMap]
  constructor
  · rintro ⟨⟨q, j⟩, h, hx⟩
    obtain ⟨⟨b, c⟩, hm, hx⟩ := List.mem_filterMap.1 hx
    replace hx : (if c = .zero then none else some (Line.edge ⟨i, j⟩ b (if c = .one then ⟨0, o⟩ else c))) = some x := hx
    by_cases e : c = .zero
    · rw [if_pos e] at hx; cases hx
    · rw [if_neg e] at hx
      injection hx with hx
      exact ⟨j, q, b, c, List.mem_zipIdx_iff_getElem?.1 h, hm, e, hx.symm⟩
  · rintro ⟨j, q, b, c, h, hm, e, rfl⟩
    exact ⟨(q, j), List.mem_zipIdx_iff_getElem?.2 h, List.mem_filterMap.2 ⟨(b, c), hm, if_neg e⟩⟩

theorem DEdge.ne_one {c : NodeId} {w : Int × S} (h : DEdge sp st c w) : c ≠ .one := by
  intro e
  subst e
  rcases h with ⟨h, _⟩ | ⟨k, h, h2, _⟩ | ⟨h, _⟩
  · cases h
  · cases h; omega
  · exact absurd h (by decide)

theorem dumpStep_ok (hl : Lawful sp) (h : Ok sp n (i + 1) st) (hin : i + 1 ≤ n) : ∃ st' ls, dumpStep sp (i + 1) st = some (st', ls) ∧ Ok sp n i st' ∧ Grow (i + 1) st st' ∧
    Shows sp st' (fun r => r = i + 1) ls := by
  have hx : ∀ x ∈ (st.lev (i + 1)).reverse, NodeOk sp (i + 1) x := by
    rintro ⟨s, id⟩ hx
    obtain ⟨j, hj⟩ := List.getElem?_of_mem (List.mem_reverse.1 hx)
    obtain ⟨_, _, hr, _, he⟩ := h.node hj
    exact ⟨hr, fun hm e => by have := (he hm).symm.trans e; cases this⟩
  obtain ⟨st', t, e, k, g, hlen, d⟩ := nodes_ok hl (Nat.succ_pos i) hin _ st h hx
  rw [List.length_reverse] at hlen
  have d' : ∀ (j : Nat) (x : S × NodeId) (q : List (Fin N × NodeId)), (st.lev (i + 1))[j]? = some x → t.reverse[j]? = some q → q.map (·.1) = List.finRange N ∧ ∀ b c, (b, c) ∈ q → DEdge sp st' c (sp.child x.1 (i + 1) b) := by
    intro j x q hj hq
    have hlt := (List.getElem?_eq_some_iff.1 hj).1
    refine d (t.length - 1 - j) x q ?_ ?_
    · rw [List.getElem?_reverse (by omega)]
      rw [show (st.lev (i + 1)).length - 1 - (t.length - 1 - j) = j by omega]
      exact hj
    · rw [List.getElem?_reverse (by omega)] at hq
      exact hq
  have hget : ∀ (j : Nat) (q : List (Fin N × NodeId)), t.reverse[j]? = some q → ∃ x, (st.lev (i + 1))[j]? = some x := by
    intro j q hq
    have := (List.getElem?_eq_some_iff.1 hq).1
    rw [List.length_reverse] at this
    exact ⟨_, List.getElem?_eq_getElem (by omega)⟩
  have hget' : ∀ (j : Nat) (x : S × NodeId), (st.lev (i + 1))[j]? = some x → ∃ q, t.reverse[j]? = some q := by
    intro j x hq
    have := (List.getElem?_eq_some_iff.1 hq).1
    exact ⟨_, List.getElem?_eq_getElem (by rw [List.length_reverse]; omega)⟩
  refine ⟨{ st' with uniq := upd st'.uniq i [] }, nodeLines (i + 1) (st.lev (i + 1)) ++ edgeLines (i + 1) st'.oneId t.reverse ++ [.rank (i + 1) (st.lev (i + 1)).length], ?_, ⟨k.node, ?_, ?_, k.diff, k.one, k.two⟩, ⟨g.keep, g.same, g.one⟩, ?_⟩
  · unfold dumpStep
    rw [e]
    rfl
  · intro r j s hj
    dsimp only at hj
    by_cases e : r = i
    · subst e; rw [upd_same] at hj; cases hj
    · rw [upd_other _ _ e] at hj; exact k.uniq hj
  · intro hm r j s id hri hj
    show _ ∈ upd st'.uniq i [] r
    rw [upd_other _ _ (by omega)]
    exact k.full hm (by omega) hj
  have hsame : st'.lev (i + 1) = st.lev (i + 1) := g.same (Nat.le_refl _)
  constructor
  · intro x hx
    rcases List.mem_append.1 hx with hx | hx
    · rcases List.mem_append.1 hx with hx | hx
      · obtain ⟨j, s, id, rfl, _⟩ := mem_nodeLines.1 hx; exact .inl ⟨_, _, rfl⟩
      · obtain ⟨j, q, b, c, _, _, _, rfl⟩ := mem_edgeLines.1 hx; exact .inr (.inl ⟨_, _, _, rfl⟩)
    · cases List.mem_singleton.1 hx; exact .inr (.inr ⟨_, _, rfl⟩)
  · intro f s
    constructor
    · intro hx
      rcases List.mem_append.1 hx with hx | hx
      · rcases List.mem_append.1 hx with hx | hx
        · obtain ⟨j, s', id, he, hj⟩ := mem_nodeLines.1 hx
          cases he
          exact ⟨rfl, id, by show (st'.lev (i + 1))[j]? = _; rw [hsame]; exact hj⟩
        · obtain ⟨j, q, b, c, _, _, _, he⟩ := mem_edgeLines.1 hx; cases he
      · cases List.mem_singleton.1 hx
    · rintro ⟨hf, id, hj⟩
      replace hj : (st'.lev f.row)[f.col]? = some (s, id) := hj
      rw [hf, hsame] at hj
      refine List.mem_append.2 (.inl (List.mem_append.2 (.inl (mem_nodeLines.2 ⟨f.col, s, id, ?_, hj⟩))))
      rw [← hf]
  · intro f b c hx
    rcases List.mem_append.1 hx with hx | hx
    · rcases List.mem_append.1 hx with hx | hx
      · obtain ⟨j, s', id, he, _⟩ := mem_nodeLines.1 hx; cases he
      · obtain ⟨j, q, b', c', hq, hm, hz, he⟩ := mem_edgeLines.1 hx
        obtain ⟨⟨s, id⟩, hj⟩ := hget j q hq
        have hd := (d' j _ q hj hq).2 b' c' hm
        rw [if_neg hd.ne_one] at he
        cases he
        exact ⟨rfl, hz, s, id, by show (st'.lev (i + 1))[j]? = _; rw [hsame]; exact hj, hd⟩
    · cases List.mem_singleton.1 hx
  · intro hm f s id b hf hj hc
    replace hj : (st'.lev f.row)[f.col]? = some (s, id) := hj
    rw [hf] at hc
    rw [hf, hsame] at hj
    obtain ⟨q, hq⟩ := hget' _ _ hj
    obtain ⟨h1, h2⟩ := d' _ _ q hj hq
    have hb : b ∈ q.map (·.1) := by rw [h1]; exact List.mem_finRange b
    obtain ⟨⟨b', c⟩, hm', e'⟩ := List.mem_map.1 hb
    replace e' : b' = b := e'
    subst e'
    have hd := h2 b' c hm'
    refine ⟨c, List.mem_append.2 (.inl (List.mem_append.2 (.inr (mem_edgeLines.2 ⟨f.col, q, b', c, hq, hm', ?_, ?_⟩))))⟩
    · intro e'
      rcases hd with ⟨_, h⟩ | ⟨k', h, h', _⟩ | ⟨h, _⟩
      · exact hc (h hm)
      · rw [h] at e'; cases e'; omega
      · rw [e'] at h; exact absurd h (by decide)
    · rw [if_neg hd.ne_one, ← hf]
  · intro f b c c' h1 h2
    have key : ∀ {c}, Line.edge f b c ∈ nodeLines (i + 1) (st.lev (i + 1)) ++ edgeLines (i + 1) st'.oneId t.reverse ++ [.rank (i + 1) (st.lev (i + 1)).length] →
        ∃ q, t.reverse[f.col]? = some q ∧ (b, c) ∈ q := by
      intro c hx
      rcases List.mem_append.1 hx with hx | hx
      · rcases List.mem_append.1 hx with hx | hx
        · obtain ⟨j, s', id, he, _⟩ := mem_nodeLines.1 hx; cases he
        · obtain ⟨j, q, b', c', hq, hm, hz, he⟩ := mem_edgeLines.1 hx
          obtain ⟨⟨s, id⟩, hj⟩ := hget j q hq
          have hd := (d' j _ q hj hq).2 b' c' hm
          rw [if_neg hd.ne_one] at he
          cases he
          exact ⟨q, hq, hm⟩
      · cases List.mem_singleton.1 hx
    obtain ⟨q, hq, hm⟩ := key h1
    obtain ⟨q', hq', hm'⟩ := key h2
    rw [hq] at hq'; cases hq'
    obtain ⟨x, hj⟩ := hget _ _ hq
    have hnd := (d' _ x q hj hq).1
    have hnd' : (q.map (·.1)).Nodup := by rw [hnd]; exact List.nodup_finRange N
    clear h1 h2 hq
    clear hnd key
    induction q with
    | nil => cases hm
    | cons y q ih =>
      rw [List.map_cons, List.nodup_cons] at hnd'
      rcases List.mem_cons.1 hm with e1 | m1 <;> rcases List.mem_cons.1 hm' with e2 | m2
      · have := e1.trans e2.symm; cases this; rfl
      · exact absurd (List.mem_map.2 ⟨_, m2, by rw [← e1]⟩) hnd'.1
      · exact absurd (List.mem_map.2 ⟨_, m1, by rw [← e2]⟩) hnd'.1
      · exact ih m1 m2 hnd'.2
  · intro r m
    show _ ↔ r = i + 1 ∧ m = (st'.lev r).length
    constructor
    · intro hx
      rcases List.mem_append.1 hx with hx | hx
      · rcases List.mem_append.1 hx with hx | hx
        · obtain ⟨j, s', id, he, _⟩ := mem_nodeLines.1 hx; cases he
        · obtain ⟨j, q, b', c', _, _, _, he⟩ := mem_edgeLines.1 hx; cases he
      · cases List.mem_singleton.1 hx
        exact ⟨rfl, by rw [hsame]⟩
    · rintro ⟨rfl, rfl⟩
      rw [hsame]
      exact List.mem_append.2 (.inr (.head _))

theorem dumpLevels_ok (hl : Lawful sp) : ∀ (i : Nat) (st : St S), Ok sp n i st → i ≤ n → ∃ st' ls, dumpLevels sp i st = some (st', ls) ∧ Ok sp n 0 st' ∧ Grow i st st' ∧
    Shows sp st' (fun r => 1 ≤ r ∧ r ≤ i) ls := by
  intro i
  induction i with
  | zero =>
    intro st h _
    refine ⟨st, [], rfl, h, .refl 0 st, ⟨fun _ hx => (nomatch hx), ?_, fun h => (nomatch h), ?_, fun h => (nomatch h), ?_⟩⟩
    · intro f s
      exact ⟨fun h => (nomatch h), fun h => by omega⟩
    · intro _ f s id b hp; omega
    · intro r m
      exact ⟨fun h => (nomatch h), fun h => by omega⟩
  | succ i ih =>
    intro st h hin
    obtain ⟨st1, l1, e1, k1, g1, s1⟩ := dumpStep_ok hl h hin
    obtain ⟨st2, l2, e2, k2, g2, s2⟩ := ih st1 k1 (by omega)
    refine ⟨st2, l1 ++ l2, ?_, k2, ?_, ?_⟩
    · unfold dumpLevels
      rw [e1, Option.bind_some, e2]
      rfl
    · refine g1.trans ⟨g2.keep, fun hr => g2.same (by omega), g2.one⟩
    · refine ((s1.grow g2 fun r hr => by omega).append s2 fun r h1 h2 => by omega).congr fun r => ?_
      constructor
      · rintro (h | h) <;> omega
      · intro h; omega

theorem start_ok (h0 : sp.root.1 = (n : Int)) (hn : 0 < n) : Ok sp n n (start sp n) := by
  have hroot : Reach sp (n : Int) sp.root.2 := by rw [← h0]; exact .root
  have hlev : ∀ {r j : Nat} {x : S × NodeId}, ((start sp n).lev r)[j]? = some x → r = n ∧ j = 0 ∧ x = (sp.root.2, ⟨n, 0⟩) := by
    intro r j x hj
    replace hj : (upd (fun _ => []) n [(sp.root.2, (⟨n, 0⟩ : NodeId))] r)[j]? = some x := hj
    by_cases e : r = n
    · subst e
      rw [upd_same] at hj
      cases j with
      | zero => cases hj; exact ⟨rfl, rfl, rfl⟩
      | succ j => simp at hj
    · rw [upd_other _ _ e] at hj; simp at hj
  refine ⟨?_, fun h => (nomatch h), ?_, ?_, Nat.le_refl _, fun _ => by show 1 ≤ 2; decide⟩
  · intro r j s id hj
    obtain ⟨rfl, rfl, e⟩ := hlev hj
    cases e
    exact ⟨hn, Nat.le_refl _, hroot, .inl rfl, fun _ => rfl⟩
  · intro _ r j s id hr hj
    obtain ⟨rfl, _⟩ := hlev hj
    omega
  · intro _ r j j' s s' id id' h1 h2 _
    exact (hlev h1).2.1.trans (hlev h2).2.1.symm

end TdZdd.Dot
