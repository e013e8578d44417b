import Verif.IndexProofs

/-! Lemmas about the memory operations of the reducer, and the first loop of `algorithmR`. -/

namespace TdZdd

variable {N : Nat}

theorem foldlM_up {β : Type} {f : β → Nat → Option β} (P : Nat → β → Prop) (m : Nat) (b : β) (h0 : P 0 b)
    (hs : ∀ t b, t < m → P t b → ∃ b', f b t = some b' ∧ P (t + 1) b') :
    ∃ b', (List.range m).foldlM f b = some b' ∧ P m b' := by
  induction m with
  | zero => exact ⟨b, rfl, h0⟩
  | succ m ih =>
    obtain ⟨b1, h1, h2⟩ := ih fun t b ht => hs t b (by omega)
    obtain ⟨b2, h3, h4⟩ := hs m b1 (by omega) h2
    refine ⟨b2, ?_, h4⟩
    rw [List.range_succ, List.foldlM_append, h1]
    simp only [List.foldlM_cons, List.foldlM_nil, Option.bind_eq_bind, Option.bind_some, h3]
    rfl

theorem foldlM_down {β : Type} {f : β → Nat → Option β} (P : Nat → β → Prop) (m : Nat) (b : β) (h0 : P m b)
    (hs : ∀ t b, t < m → P (t + 1) b → ∃ b', f b t = some b' ∧ P t b') :
    ∃ b', (List.range m).reverse.foldlM f b = some b' ∧ P 0 b' := by
  induction m generalizing b with
  | zero => exact ⟨b, rfl, h0⟩
  | succ m ih =>
    obtain ⟨b1, h1, h2⟩ := hs m b (by omega) h0
    obtain ⟨b2, h3, h4⟩ := ih b1 h2 fun t b ht => hs t b (by omega)
    refine ⟨b2, ?_, h4⟩
    rw [List.range_succ, List.reverse_append]
    simp only [List.reverse_cons, List.reverse_nil, List.nil_append, List.singleton_append, List.foldlM_cons,
      h1, Option.bind_eq_bind, Option.bind_some, h3]

/-- effect of overwriting one node -/
structure Wr (nr : Nat) (T : Rows N) (f : NodeId) (nd : Node N) (T' : Rows N) : Prop where
  at' : ∀ g, nodeAt nr T' g = if g = f then some nd else nodeAt nr T g
  row : ∀ r, r ≠ f.row → T' r = T r
  len : ∀ r, (T' r).length = (T r).length

theorem setNode_spec {nr : Nat} {T : Rows N} {f : NodeId} (nd : Node N) {nd0 : Node N}
    (h : nodeAt nr T f = some nd0) : ∃ T', setNode nr T f nd = some T' ∧ Wr nr T f nd T' := by
  unfold nodeAt at h
  by_cases hr : f.row < nr
  · rw [if_pos hr] at h
    have hc := getElem?_lt h
    refine ⟨_, if_pos ⟨hr, hc⟩, ?_, ?_, ?_⟩
    · intro g
      unfold nodeAt upd
      by_cases hg : g = f
      · subst hg
        rw [if_pos hr, if_pos rfl, if_pos rfl, List.getElem?_set_self hc]
      · rw [if_neg hg]
        by_cases hgr : g.row = f.row
        · rw [hgr, if_pos rfl, if_pos hr, if_pos hr, List.getElem?_set_ne]
          intro he
          apply hg
          cases g; cases f
          simp only at hgr he
          rw [hgr, he]
        · rw [if_neg hgr]
    · intro r hr'; unfold upd; rw [if_neg hr']
    · intro r
      unfold upd
      by_cases he : r = f.row
      · rw [if_pos he, List.length_set, he]
      · rw [if_neg he]
  · rw [if_neg hr] at h; cases h

theorem setCell_spec {nr : Nat} {T : Rows N} {f : NodeId} (b : Fin N) (v : NodeId) {nd : Node N}
    (h : nodeAt nr T f = some nd) :
    ∃ T', setCell nr T f b v = some T' ∧ Wr nr T f (fun b' => if b' = b then v else nd b') T' := by
  unfold setCell
  rw [h]
  exact setNode_spec _ h

theorem nodeAt_lt {nr : Nat} {T : Rows N} {f : NodeId} {nd : Node N} (h : nodeAt nr T f = some nd) :
    f.row < nr ∧ f.col < (T f.row).length := by
  unfold nodeAt at h
  by_cases hr : f.row < nr
  · rw [if_pos hr] at h; exact ⟨hr, getElem?_lt h⟩
  · rw [if_neg hr] at h; cases h

theorem nodeAt_of_lt {nr : Nat} {T : Rows N} {f : NodeId} (h1 : f.row < nr)
    (h2 : f.col < (T f.row).length) : ∃ nd, nodeAt nr T f = some nd := by
  unfold nodeAt; rw [if_pos h1]; exact getElem?_of_lt h2

theorem nodeAt_mem {nr : Nat} {T : Rows N} {r : Nat} (hr : r < nr) {nd : Node N} :
    nd ∈ T r ↔ ∃ c, nodeAt nr T ⟨r, c⟩ = some nd := by
  unfold nodeAt
  simp only [hr, if_true]
  exact List.mem_iff_getElem?

theorem pair_eta (nd : Node 2) : pair (nd 0) (nd 1) = nd := by
  funext b
  unfold pair
  by_cases h : b = 0
  · rw [if_pos h, h]
  · rw [if_neg h]
    have : b = 1 := by omega
    rw [this]

theorem setId_spec {st : RSt N} {i j : Nat} (v : NodeId) (h : j < (st.newId i).length) :
    st.setId i j v = some { st with newId := upd st.newId i ((st.newId i).set j (some v)) } := if_pos h

/-! ### First loop -/

section
variable {bdd zdd : Bool} {nr i m : Nat} {c : Nat → Node 2}

/-- node `j` is kept and its canonical 0-child is `x` -/
def Kept (bdd zdd : Bool) (c : Nat → Node 2) (j : Nat) (x : NodeId) : Prop := delR bdd zdd (c j) = false ∧ c j 0 = x

/-- `k` is the first kept node with 0-child `x` from `t` on, or `m` -/
def IsNext (bdd zdd : Bool) (m : Nat) (c : Nat → Node 2) (t : Nat) (x : NodeId) (k : Nat) : Prop :=
  (t ≤ k ∧ k < m ∧ Kept bdd zdd c k x ∧ ∀ k', t ≤ k' → k' < k → ¬ Kept bdd zdd c k' x) ∨
  (k = m ∧ ∀ k', t ≤ k' → k' < m → ¬ Kept bdd zdd c k' x)

/-- what the first loop needs -/
structure Pre (bdd zdd : Bool) (nr i m : Nat) (c : Nat → Node 2) (row : List (Node 2)) (st : RSt 2) : Prop where
  hi : i < nr
  inp : st.input i = row
  len : row.length = m
  map : ∀ {j : Nat} {nd : Node 2} (b : Fin 2), row[j]? = some nd → (nd b).row < i ∧ remap st (nd b) = some (c j b)
  low : ∀ {j : Nat} (b : Fin 2), j < m → (c j b).row < i
  ex : ∀ {j : Nat} (b : Fin 2), j < m → ∃ nd, nodeAt nr st.input (c j b) = some nd
  br : ∀ {f nd}, f.row < i → nodeAt nr st.input f = some nd → (nd 1).row < i

/-- invariant of the first loop: nodes from `t` on are done -/
structure I1 (bdd zdd : Bool) (nr i m : Nat) (c : Nat → Node 2) (row : List (Node 2)) (st0 : RSt 2) (t : Nat)
    (st : RSt 2) : Prop where
  todo : ∀ {j : Nat}, j < t → nodeAt nr st.input ⟨i, j⟩ = row[j]?
  done : ∀ {j : Nat}, t ≤ j → j < m → nodeAt nr st.input ⟨i, j⟩ = some (c j)
  high : ∀ r, i < r → st.input r = st0.input r
  shape : ∀ r, (st.input r).length = (st0.input r).length
  scr : ∀ {f nd}, f.row < i → nodeAt nr st.input f = some nd →
    ((nd 1).row < i ∧ ∀ j, t ≤ j → j < m → ¬ Kept bdd zdd c j f) ∨
    (nd 1 = ⟨i, m⟩ ∧ ∃ k, k < m ∧ IsNext bdd zdd m c t f k ∧ nd 0 = ⟨i + 1, k⟩)
  ids : ∀ r, r ≠ i → st.newId r = st0.newId r
  idlen : (st.newId i).length = m
  idDel : ∀ {j : Nat}, t ≤ j → j < m → delR bdd zdd (c j) = true → (st.newId i)[j]? = some (some (c j 0))
  idKeep : ∀ {j : Nat}, t ≤ j → j < m → delR bdd zdd (c j) = false →
    ∃ k, IsNext bdd zdd m c (j + 1) (c j 0) k ∧ (st.newId i)[j]? = some (some ⟨i + 1, k⟩)
  out : st.output = st0.output
  root : st.root = st0.root

theorem IsNext.head {t : Nat} {x : NodeId} (ht : t < m) (h : Kept bdd zdd c t x) : IsNext bdd zdd m c t x t :=
  .inl ⟨Nat.le_refl _, ht, h, fun k' h1 h2 => by omega⟩

theorem IsNext.skip {t k : Nat} {x : NodeId} (h : IsNext bdd zdd m c (t + 1) x k)
    (hn : ¬ Kept bdd zdd c t x) : IsNext bdd zdd m c t x k := by
  rcases h with ⟨h1, h2, h3, h4⟩ | ⟨h1, h2⟩
  · refine .inl ⟨by omega, h2, h3, fun k' a b => ?_⟩
    by_cases e : k' = t
    · rw [e]; exact hn
    · exact h4 k' (by omega) b
  · refine .inr ⟨h1, fun k' a b => ?_⟩
    by_cases e : k' = t
    · rw [e]; exact hn
    · exact h2 k' (by omega) b

theorem remap_congr {st st' : RSt N} {f : NodeId} (h : st'.newId f.row = st.newId f.row) :
    remap st' f = remap st f := by
  unfold remap RSt.look; rw [h]

theorem loop1_step {row : List (Node 2)} {st0 st : RSt 2} (hp : Pre bdd zdd nr i m c row st0) {t : Nat}
    (ht : t < m) (h : I1 bdd zdd nr i m c row st0 (t + 1) st) :
    ∃ st', loop1 bdd zdd nr i m st t = some st' ∧ I1 bdd zdd nr i m c row st0 t st' := by
  obtain ⟨nd, hnd⟩ := getElem?_of_lt (l := row) (i := t) (by rw [hp.len]; exact ht)
  have hat : nodeAt nr st.input ⟨i, t⟩ = some nd := by rw [h.todo (by omega), hnd]
  have hmap : ∀ b, remap st (nd b) = some (c t b) := by
    intro b
    obtain ⟨h1, h2⟩ := hp.map b hnd
    rw [← h2]
    exact remap_congr (h.ids _ (by omega))
  obtain ⟨T1, e1, w1⟩ := setNode_spec (c t) hat
  have hne : ∀ {f : NodeId} {j : Nat}, f.row < i → f ≠ ⟨i, j⟩ := by
    intro f j hf e; rw [e] at hf; exact absurd hf (Nat.lt_irrefl _)
  have hne' : ∀ {f : NodeId} {j : Nat}, f.row < i → (⟨i, j⟩ : NodeId) ≠ f := fun hf e => hne hf e.symm
  unfold loop1
  simp only [hat, hmap, pair_eta, e1, Option.bind_eq_bind, Option.bind_some]
  -- facts about row `i` after the canonical children have been written
  have at1 : ∀ {j : Nat}, nodeAt nr T1 ⟨i, j⟩ = if j = t then some (c t) else nodeAt nr st.input ⟨i, j⟩ := by
    intro j
    rw [w1.at']
    by_cases e : j = t
    · subst e; simp
    · rw [if_neg e, if_neg (by intro e'; exact e (congrArg NodeId.col e'))]
  have low1 : ∀ {f : NodeId}, f.row < i → nodeAt nr T1 f = nodeAt nr st.input f := by
    intro f hf; rw [w1.at', if_neg (hne hf)]
  by_cases hdel : delR bdd zdd (c t) = true
  · rw [if_pos hdel, setId_spec _ (by show t < (st.newId i).length; rw [h.idlen]; exact ht)]
    refine ⟨_, rfl, ?_⟩
    have nk : ∀ x, ¬ Kept bdd zdd c t x := fun x hk => by rw [hk.1] at hdel; cases hdel
    refine ⟨?_, ?_, ?_, ?_, ?_, ?_, ?_, ?_, ?_, h.out, h.root⟩
    · intro j hj
      dsimp only
      rw [at1, if_neg (by omega)]; exact h.todo (by omega)
    · intro j h1 h2
      dsimp only
      rw [at1]
      by_cases e : j = t
      · rw [if_pos e, e]
      · rw [if_neg e]; exact h.done (by omega) h2
    · intro r hr
      rw [← h.high r hr]; exact w1.row r (by dsimp only; omega)
    · intro r; rw [← h.shape r]; exact w1.len r
    · intro f nd' hf hn
      dsimp only at hn
      rw [low1 hf] at hn
      rcases h.scr hf hn with ⟨h1, h2⟩ | ⟨h1, k, h2, h3, h4⟩
      · refine .inl ⟨h1, fun j a b => ?_⟩
        by_cases e : j = t
        · rw [e]; exact nk f
        · exact h2 j (by omega) b
      · exact .inr ⟨h1, k, h2, h3.skip (nk f), h4⟩
    · intro r hr; dsimp only [upd]; rw [if_neg hr]; exact h.ids r hr
    · dsimp only [upd]; rw [if_pos rfl, List.length_set]; exact h.idlen
    · intro j h1 h2 h3
      dsimp only [upd]
      rw [if_pos rfl]
      by_cases e : j = t
      · rw [e, List.getElem?_set_self (by rw [h.idlen]; exact ht)]
      · rw [List.getElem?_set_ne (by omega)]; exact h.idDel (by omega) h2 h3
    · intro j h1 h2 h3
      by_cases e : j = t
      · rw [e, hdel] at h3; cases h3
      · dsimp only [upd]
        rw [if_pos rfl, List.getElem?_set_ne (by omega)]
        exact h.idKeep (by omega) h2 h3
  · have hkeep : delR bdd zdd (c t) = false := by simpa using hdel
    rw [if_neg hdel]
    have hf0 := hp.low (j := t) 0 ht
    obtain ⟨c0', hc0'⟩ := hp.ex (j := t) 0 ht
    obtain ⟨c0, hc0⟩ : ∃ c0, nodeAt nr st.input (c t 0) = some c0 := by
      have := nodeAt_lt hc0'
      exact nodeAt_of_lt this.1 (by rw [h.shape]; exact this.2)
    have hc1 : nodeAt nr T1 (c t 0) = some c0 := by rw [low1 hf0]; exact hc0
    rw [hc1]
    simp only [Option.bind_some]
    -- the common final argument
    have fin : ∀ {T3 : Rows 2} {k : Nat}, IsNext bdd zdd m c (t + 1) (c t 0) k →
        (∀ g, nodeAt nr T3 g = if g = c t 0 then some (pair ⟨i + 1, t⟩ ⟨i, m⟩) else nodeAt nr T1 g) →
        (∀ r, r ≠ (c t 0).row → T3 r = T1 r) → (∀ r, (T3 r).length = (T1 r).length) →
        I1 bdd zdd nr i m c row st0 t ⟨T3, upd st.newId i ((st.newId i).set t (some ⟨i + 1, k⟩)),
          st.output, st.root⟩ := by
      intro T3 k hk h3at h3row h3len
      refine ⟨?_, ?_, ?_, ?_, ?_, ?_, ?_, ?_, ?_, h.out, h.root⟩
      · intro j hj
        dsimp only
        rw [h3at, if_neg (hne' hf0), at1, if_neg (by omega)]; exact h.todo (by omega)
      · intro j h1 h2
        dsimp only
        rw [h3at, if_neg (hne' hf0), at1]
        by_cases e : j = t
        · rw [if_pos e, e]
        · rw [if_neg e]; exact h.done (by omega) h2
      · intro r hr
        dsimp only
        rw [h3row r (by omega), ← h.high r hr]; exact w1.row r (by dsimp only; omega)
      · intro r; dsimp only; rw [h3len, ← h.shape r]; exact w1.len r
      · intro f nd' hf hn
        dsimp only at hn
        rw [h3at] at hn
        by_cases e : f = c t 0
        · rw [if_pos e] at hn
          cases hn
          exact .inr ⟨rfl, t, ht, by rw [e]; exact .head ht ⟨hkeep, rfl⟩, rfl⟩
        · rw [if_neg e, low1 hf] at hn
          have nk : ¬ Kept bdd zdd c t f := fun hk => e hk.2.symm
          rcases h.scr hf hn with ⟨h1, h2⟩ | ⟨h1, k, h2, h3, h4⟩
          · refine .inl ⟨h1, fun j a b => ?_⟩
            by_cases e : j = t
            · rw [e]; exact nk
            · exact h2 j (by omega) b
          · exact .inr ⟨h1, k, h2, h3.skip nk, h4⟩
      · intro r hr; dsimp only [upd]; rw [if_neg hr]; exact h.ids r hr
      · dsimp only [upd]; rw [if_pos rfl, List.length_set]; exact h.idlen
      · intro j h1 h2 h3
        by_cases e : j = t
        · rw [e, hkeep] at h3; cases h3
        · dsimp only [upd]
          rw [if_pos rfl, List.getElem?_set_ne (by omega)]
          exact h.idDel (by omega) h2 h3
      · intro j h1 h2 h3
        dsimp only [upd]
        rw [if_pos rfl]
        by_cases e : j = t
        · subst e
          exact ⟨k, hk, List.getElem?_set_self (by rw [h.idlen]; exact ht)⟩
        · obtain ⟨k', h4, h5⟩ := h.idKeep (j := j) (by omega) h2 h3
          exact ⟨k', h4, by rw [List.getElem?_set_ne (by omega)]; exact h5⟩
    have hlen : ∀ T : Rows 2, t < (RSt.newId { st with input := T } i).length := by
      intro T; show t < (st.newId i).length; rw [h.idlen]; exact ht
    rcases h.scr hf0 hc0 with ⟨h1, h2⟩ | ⟨h1, k, h2, h3, h4⟩
    · have hmark : c0 1 ≠ ⟨i, m⟩ := by
        intro e; rw [e] at h1; exact absurd h1 (Nat.lt_irrefl _)
      rw [if_pos hmark]
      obtain ⟨T2, e2, w2⟩ := setCell_spec 1 ⟨i, m⟩ hc1
      obtain ⟨T3, e3, w3⟩ := setCell_spec (nr := nr) (T := T2) (f := c t 0) 0 ⟨i + 1, t⟩
        (by rw [w2.at', if_pos rfl])
      simp only [e2, Option.bind_some, setId_spec _ (hlen _), e3]
      refine ⟨_, rfl, fin (.inr ⟨rfl, fun k' a b => h2 k' (by omega) b⟩) ?_ ?_ ?_⟩
      · intro g
        rw [w3.at', w2.at']
        by_cases e : g = c t 0
        · rw [if_pos e, if_pos e]
          congr 1
          funext b
          unfold pair
          by_cases hb : b = 0
          · rw [if_pos hb, if_pos hb]
          · rw [if_neg hb, if_neg hb, if_pos (show b = 1 by omega)]
        · rw [if_neg e, if_neg e, if_neg e]
      · intro r hr; rw [w3.row r hr, w2.row r hr]
      · intro r; rw [w3.len r, w2.len r]
    · rw [if_neg (by simp [h1])]
      obtain ⟨T3, e3, w3⟩ := setCell_spec 0 ⟨i + 1, t⟩ hc1
      simp only [setId_spec _ (hlen _), Option.bind_some, e3]
      refine ⟨_, rfl, ?_⟩
      rw [h4]
      refine fin h3 ?_ w3.row w3.len
      intro g
      rw [w3.at']
      by_cases e : g = c t 0
      · rw [if_pos e, if_pos e]
        congr 1
        funext b
        unfold pair
        by_cases hb : b = 0
        · rw [if_pos hb, if_pos hb]
        · rw [if_neg hb, if_neg hb, show b = 1 by omega, h1]
      · rw [if_neg e, if_neg e]

theorem loop1_all {row : List (Node 2)} {st0 : RSt 2} (hp : Pre bdd zdd nr i m c row st0)
    (hid : (st0.newId i).length = m) :
    ∃ st', (List.range m).reverse.foldlM (loop1 bdd zdd nr i m) st0 = some st' ∧
      I1 bdd zdd nr i m c row st0 0 st' := by
  refine foldlM_down (I1 bdd zdd nr i m c row st0) m st0 ?_ fun t b ht h => loop1_step hp ht h
  refine ⟨?_, ?_, fun _ _ => rfl, fun _ => rfl, ?_, fun _ _ => rfl, hid, ?_, ?_, rfl, rfl⟩
  · intro j hj
    unfold nodeAt
    rw [if_pos hp.hi, hp.inp]
  · intro j h1 h2; omega
  · intro f nd hf hn; exact .inl ⟨hp.br hf hn, fun j h1 h2 => by omega⟩
  · intro j h1 h2; omega
  · intro j h1 h2; omega

end

end TdZdd
