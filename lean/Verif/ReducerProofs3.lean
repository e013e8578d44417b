import Verif.ReducerProofs2

/-! `algorithmR` as a whole: one level. -/

namespace TdZdd

variable {N : Nat}

theorem fullRow_some (l : List (Node N)) : fullRow (l.map some) = some l := by
  unfold fullRow
  induction l with
  | nil => rfl
  | cons x l ih => simp [List.map_cons, List.mapM_cons, ih]

theorem eq_map_some {α : Type} {l : List (Option α)} {l' : List α} (hl : l.length = l'.length)
    (h : ∀ (j : Nat) x, l'[j]? = some x → l[j]? = some (some x)) : l = l'.map some := by
  apply List.ext_getElem?
  intro j
  rw [List.getElem?_map]
  by_cases hj : j < l'.length
  · obtain ⟨x, hx⟩ := getElem?_of_lt hj
    rw [h j x hx, hx]; rfl
  · rw [List.getElem?_eq_none (by omega), List.getElem?_eq_none (by omega)]; rfl

theorem foldl_upd {α : Type} (l : List Nat) (t : Nat → List α) (r : Nat) :
    (l.foldl (fun t r => upd t r []) t) r = if r ∈ l then [] else t r := by
  induction l generalizing t with
  | nil => simp
  | cons x l ih =>
    rw [List.foldl_cons, ih]
    by_cases h : r ∈ l
    · simp [h]
    · by_cases h' : r = x
      · subst h'; simp [upd]
      · simp [upd, h, h']

theorem clearIds_at (l : List Nat) (t : Nat → List (Option NodeId)) (r : Nat) :
    clearIds l t r = if r ∈ l then [] else t r := foldl_upd l t r

theorem clearRows_at (l : List Nat) (t : Rows N) (r : Nat) :
    clearRows l t r = if r ∈ l then [] else t r := foldl_upd l t r

section
variable {bdd zdd : Bool} {nr i m : Nat} {c : Nat → Node 2}

theorem loop3_all {st0 st2 : RSt 2} {outs : List Nat}
    (hlow : ∀ {j : Nat} (b : Fin 2), j < m → (c j b).row < i)
    (h2 : I2 bdd zdd nr i m c st0 (fun _ => True) m outs st2) {T : Rows 2}
    (hT : T i = st2.input i) :
    ∃ a', (List.range m).foldlM (loop3 bdd zdd nr i m)
        ({ st2 with input := T }, List.replicate outs.length none) = some a' ∧
      I3 bdd zdd nr i m c outs { st2 with input := T } m a' := by
  refine foldlM_up (I3 bdd zdd nr i m c outs { st2 with input := T }) m _ ?_
    fun t a ht h => loop3_step hlow h2 hT ht h
  refine ⟨rfl, fun _ _ => rfl, h2.idlen, fun hj => by omega, fun _ => rfl, ?_, by simp, fun _ h => by omega,
    rfl, rfl⟩
  intro q k hq
  obtain ⟨a1, a2, _⟩ := h2.outsOk (mem_of_getElem?' hq)
  rcases h2.idDone a1 a2 trivial with ⟨q', b1, b2, _⟩ | ⟨k', b1, b2, b3, _⟩
  · have := h2.uniq hq b1 rfl
    subst this
    exact b2
  · exact (b3 (mem_of_getElem?' hq)).elim

/-- Everything `algorithmR` does on one level. -/
structure LevelOk (bdd zdd : Bool) (nr top i m : Nat) (c : Nat → Node 2) (lower : List Nat) (st st' : RSt 2)
    (ids : List NodeId) (out : List (Node 2)) : Prop where
  len : ids.length = m
  node : ∀ {j : Nat}, j < m → ∃ id, ids[j]? = some id ∧
    ((delR bdd zdd (c j) = true ∧ id = c j 0) ∨
     (delR bdd zdd (c j) = false ∧ id.row = i ∧ out[id.col]? = some (c j)))
  hit : ∀ {q : Nat} {nd}, out[q]? = some nd → ∃ j, j < m ∧ ids[j]? = some ⟨i, q⟩
  nodup : ∀ {q q' : Nat} {nd}, out[q]? = some nd → out[q']? = some nd → q = q'
  newId : st'.newId i = ids.map some
  other : ∀ r, r ≠ i → st'.newId r = if r ∈ lower then [] else st.newId r
  high : ∀ r, i < r → st'.input r = st.input r
  shape : ∀ r, r ≤ i → bdd = true ∨ r ∉ lower → (st'.input r).length = (st.input r).length
  br : ∀ {f nd}, f.row ≤ i → nodeAt nr st'.input f = some nd → (nd 1).row ≤ i
  out : st'.output = upd st.output i out
  root : if i = top then ids[st.root.col]? = some st'.root else st'.root = st.root

theorem algorithmR_spec {top : Nat} {lower : Nat → List Nat} {row : List (Node 2)} {st : RSt 2}
    (hp : Pre bdd zdd nr i m c row { st with newId := upd st.newId i (List.replicate m none) })
    (hlo : ∀ r ∈ lower i, r < i) (hroot : i = top → st.root.col < m) :
    ∃ st' ids out, algorithmR bdd zdd nr top lower st i = some st' ∧
      LevelOk bdd zdd nr top i m c (lower i) st st' ids out := by
  have hm : (st.input i).length = m := by rw [← hp.len, ← hp.inp]
  obtain ⟨st1, e1, h1⟩ := loop1_all hp (by simp [upd])
  have hni : i ∉ lower i := fun h => absurd (hlo i h) (Nat.lt_irrefl _)
  obtain ⟨outs, st2, e2, h2⟩ := loop2_all hp h1 (st2 := { st1 with newId := clearIds (lower i) st1.newId }) rfl
    (by dsimp only; rw [clearIds_at, if_neg hni])
  have hTi : ∀ r, r ∉ lower i → (if bdd then st2.input else clearRows (lower i) st2.input) r = st2.input r := by
    intro r hr
    cases bdd
    · simp only [Bool.false_eq_true, if_false]; rw [clearRows_at, if_neg hr]
    · rfl
  obtain ⟨a, e3, h3⟩ := loop3_all hp.low h2 (T := if bdd then st2.input else clearRows (lower i) st2.input) (hTi i hni)
  have hrow : a.2 = (outs.map c).map some := by
    apply eq_map_some
    · rw [h3.rowlen, List.length_map]
    · intro q nd hq
      rw [List.getElem?_map, Option.map_eq_some_iff] at hq
      obtain ⟨k, h4, h5⟩ := hq
      rw [h3.row h4 (h2.outsOk (mem_of_getElem?' h4)).1, h5]
  obtain ⟨ids, hids⟩ : ∃ ids : List NodeId, a.1.newId i = ids.map some := by
    refine ⟨(a.1.newId i).map fun x => x.getD .zero, ?_⟩
    apply eq_map_some
    · simp
    · intro j x hx
      rw [List.getElem?_map, Option.map_eq_some_iff] at hx
      obtain ⟨y, h4, h5⟩ := hx
      obtain ⟨id, h6, _⟩ := h3.done (j := j) (by rw [← h3.idlen]; exact getElem?_lt h4)
      rw [h6] at h4
      cases h4
      rw [h6, ← h5]; rfl
  have hidat : ∀ (j : Nat) id, (a.1.newId i)[j]? = some (some id) ↔ ids[j]? = some id := by
    intro j id
    rw [hids, List.getElem?_map, Option.map_eq_some_iff]
    constructor
    · rintro ⟨x, h4, h5⟩; cases h5; exact h4
    · exact fun h => ⟨id, h, rfl⟩
  have hidlen : ids.length = m := by rw [← h3.idlen, hids, List.length_map]
  -- the state handed to the root update
  have hfin : ∃ r', rootUpdate top i { a.1 with output := upd a.1.output i (outs.map c) } =
      some ⟨a.1.input, a.1.newId, upd a.1.output i (outs.map c), r'⟩ ∧
      if i = top then ids[st.root.col]? = some r' else r' = st.root := by
    have er : a.1.root = st.root := by
      rw [h3.root, show (RSt.root { st2 with input := (if bdd then st2.input else clearRows (lower i) st2.input) }) = st2.root from rfl,
        h2.root, show (RSt.root { st1 with newId := clearIds (lower i) st1.newId }) = st1.root from rfl, h1.root]
    by_cases ht : i = top
    · obtain ⟨id, hid⟩ := getElem?_of_lt (l := ids) (i := st.root.col) (by rw [hidlen]; exact hroot ht)
      refine ⟨id, ?_, by rw [if_pos ht]; exact hid⟩
      unfold rootUpdate RSt.look
      rw [if_pos ht]
      dsimp only
      rw [er, (hidat _ _).2 hid]; rfl
    · refine ⟨st.root, ?_, by rw [if_neg ht]⟩
      unfold rootUpdate
      rw [if_neg ht, ← er]
  obtain ⟨r', e4, hr'⟩ := hfin
  refine ⟨⟨a.1.input, a.1.newId, upd a.1.output i (outs.map c), r'⟩, ids, outs.map c, ?_, ?_⟩
  · unfold algorithmR
    have e2' := e2
    simp only [hm, Option.bind_eq_bind, e1, Option.bind_some, e2']
    have es : (if bdd = true then st2 else { st2 with input := clearRows (lower i) st2.input }) =
        { st2 with input := (if bdd then st2.input else clearRows (lower i) st2.input) } := by
      cases bdd <;> rfl
    rw [es, e3]
    simp only [Option.bind_some, hrow, fullRow_some]
    exact e4
  · refine ⟨hidlen, ?_, ?_, ?_, hids, ?_, ?_, ?_, ?_, ?_, hr'⟩
    · intro j hj
      obtain ⟨id, h4, h5⟩ := h3.done hj
      refine ⟨id, (hidat _ _).1 h4, ?_⟩
      rcases h5 with h5 | ⟨h5, q, k, h6, h7, h8⟩
      · exact .inl h5
      · refine .inr ⟨h5, by rw [h8], ?_⟩
        rw [h8, List.getElem?_map, h6, ← h7]; rfl
    · intro q nd hq
      rw [List.getElem?_map, Option.map_eq_some_iff] at hq
      obtain ⟨k, h4, h5⟩ := hq
      exact ⟨k, (h2.outsOk (mem_of_getElem?' h4)).1, (hidat _ _).1 (h3.keep h4)⟩
    · intro q q' nd hq hq'
      rw [List.getElem?_map, Option.map_eq_some_iff] at hq hq'
      obtain ⟨k, h4, h5⟩ := hq
      obtain ⟨k', h4', h5'⟩ := hq'
      exact h2.uniq h4 h4' (by rw [h5, h5'])
    · intro r hr
      dsimp only
      rw [h3.ids r hr]
      dsimp only
      rw [h2.ids r hr]
      dsimp only
      rw [clearIds_at, h1.ids r hr]
      simp [upd, hr]
    · intro r hr
      dsimp only
      rw [h3.inp]
      dsimp only
      rw [hTi r (fun h => by have := hlo r h; omega), h2.high r hr]
      exact h1.high r hr
    · intro r hr hb
      dsimp only
      rw [h3.inp]
      dsimp only
      have : (if bdd then st2.input else clearRows (lower i) st2.input) r = st2.input r := by
        rcases hb with hb | hb
        · rw [hb]; rfl
        · exact hTi r hb
      rw [this, h2.shape]
      exact h1.shape r
    · intro f nd hf hn
      dsimp only at hn
      rw [h3.inp] at hn
      dsimp only at hn
      have hn2 : nodeAt nr st2.input f = some nd := by
        by_cases hl : f.row ∈ lower i
        · cases hb : bdd
          · rw [hb] at hn
            simp only [Bool.false_eq_true, if_false] at hn
            unfold nodeAt at hn
            rw [clearRows_at, if_pos hl] at hn
            by_cases h : f.row < nr <;> simp [h] at hn
          · rw [hb] at hn
            exact hn
        · unfold nodeAt at hn ⊢
          rw [hTi _ hl] at hn
          exact hn
      by_cases hfi : f.row < i
      · rcases h2.scr hfi hn2 with h | h | ⟨j, _, h⟩
        · omega
        · rw [h]; exact Nat.le_refl _
        · rw [h]; exact Nat.le_refl _
      · have efr : f = ⟨i, f.col⟩ := by
          have : f.row = i := by omega
          cases f; simp only at this; subst this; rfl
        have hcol : f.col < m := by
          have := (nodeAt_lt hn2).2
          rw [show f.row = i by omega, h2.shape] at this
          have e := h1.shape i
          dsimp only at this e
          omega
        rw [efr] at hn2
        by_cases hd : delR bdd zdd (c f.col) = true
        · have := (h2.idDel hcol hd).2
          rw [this] at hn2
          cases hn2
          have := hp.low (j := f.col) 1 hcol
          omega
        · rcases h2.idDone hcol (by simpa using hd) trivial with ⟨_, _, _, h⟩ | ⟨_, _, _, _, _, h⟩
          · rw [h] at hn2
            cases hn2
            have := hp.low (j := f.col) 1 hcol
            omega
          · rw [h] at hn2
            cases hn2
            exact Nat.le_refl _
    · dsimp only
      rw [h3.out]
      dsimp only
      rw [h2.out]
      dsimp only
      rw [h1.out]

end

end TdZdd
