import Verif.AttrProofs3

/-! The bits set by `algorithmR` on one level. -/

namespace TdZdd

namespace Attr

section
variable {bdd zdd : Bool} {nr i m : Nat} {c : Nat → Node 2} {row : List (Node 2)} {E : NodeId → Bool}

/-- what the loops have not touched -/
structure Same (i : Nat) (s0 s : Bits 2) : Prop where
  other : ∀ r, r ≠ i → s.newId r = s0.newId r
  high : ∀ f : NodeId, i < f.row → s.input f = s0.input f
  out : ∀ f : NodeId, f.row ≠ i → s.output f = s0.output f
  root : s.root = s0.root

theorem Same.setId {s0 s : Bits 2} (h : Same i s0 s) (j : Nat) (v : Bool) : Same i s0 (s.setId i j v) := by
  refine ⟨fun r hr => ?_, h.high, h.out, h.root⟩
  funext q
  show (if r = i ∧ q = j then v else s.newId r q) = _
  rw [if_neg (fun e => hr e.1), h.other r hr]

theorem Same.setNode {s0 s : Bits 2} (h : Same i s0 s) {f : NodeId} (hf : f.row ≤ i) (v : Fin 2 → Bool) :
    Same i s0 (s.setNode f v) := by
  refine ⟨h.other, fun g hg => ?_, h.out, h.root⟩
  show (if g = f then v else s.input g) = _
  rw [if_neg (fun e => by rw [e] at hg; omega), h.high g hg]

theorem Same.setCell {s0 s : Bits 2} (h : Same i s0 s) {f : NodeId} (hf : f.row ≤ i) (b : Fin 2) (v : Bool) :
    Same i s0 (s.setCell f b v) := by
  refine ⟨h.other, fun g hg => ?_, h.out, h.root⟩
  funext b'
  show (if g = f ∧ b' = b then v else s.input g b') = _
  rw [if_neg (fun e => by rw [e.1] at hg; omega), h.high g hg]

theorem Same.setOut {s0 s : Bits 2} (h : Same i s0 s) {f : NodeId} (hf : f.row = i) (v : Fin 2 → Bool) :
    Same i s0 (s.setOut f v) := by
  refine ⟨h.other, h.high, fun g hg => ?_, h.root⟩
  show (if g = f then v else s.output g) = _
  rw [if_neg (fun e => hg (by rw [e]; exact hf)), h.out g hg]

theorem setCell_row {s : Bits 2} {f : NodeId} (hf : f.row < i) (b : Fin 2) (v : Bool) (j : Nat) :
    (s.setCell f b v).input ⟨i, j⟩ = s.input ⟨i, j⟩ := by
  funext b'
  show (if (⟨i, j⟩ : NodeId) = f ∧ b' = b then v else s.input ⟨i, j⟩ b') = _
  rw [if_neg (fun e => by rw [← e.1] at hf; exact absurd hf (Nat.lt_irrefl _))]

/-! ### First loop -/

/-- nodes from `t` on are done -/
structure B1 (bdd zdd : Bool) (i m : Nat) (c : Nat → Node 2) (E : NodeId → Bool) (s0 : Bits 2) (t : Nat) (s : Bits 2) : Prop where
  cells : ∀ {j : Nat}, t ≤ j → j < m → ∀ b, s.input ⟨i, j⟩ b = E (c j b)
  todo : ∀ {j : Nat}, j < t → s.input ⟨i, j⟩ = s0.input ⟨i, j⟩
  del : ∀ {j : Nat}, t ≤ j → j < m → delR bdd zdd (c j) = true → s.newId i j = E (c j 0)
  same : Same i s0 s

theorem loop1_bits {st0 : RSt 2} (hp : Pre bdd zdd nr i m c row st0) {s0 : Bits 2}
    (hb : ∀ {j : Nat} {nd : Node 2} (b : Fin 2), row[j]? = some nd → remap s0 (nd b) (s0.input ⟨i, j⟩ b) = E (c j b))
    {t : Nat} (ht : t < m) {x : RSt 2 × Bits 2} (h : I1 bdd zdd nr i m c row st0 (t + 1) x.1) (hs : B1 bdd zdd i m c E s0 (t + 1) x.2) :
    ∃ x', loop1 bdd zdd nr i m x t = some x' ∧ I1 bdd zdd nr i m c row st0 t x'.1 ∧ B1 bdd zdd i m c E s0 t x'.2 := by
  obtain ⟨a', e, h'⟩ := loop1_step hp ht h
  have hfst := loop1_fst bdd zdd nr i m x t
  rw [e, Option.map_eq_some_iff] at hfst
  obtain ⟨x', e', rfl⟩ := hfst
  refine ⟨x', e', h', ?_⟩
  obtain ⟨nd, hnd⟩ := getElem?_of_lt (l := row) (i := t) (by rw [hp.len]; exact ht)
  have hat : nodeAt nr x.1.input ⟨i, t⟩ = some nd := by rw [h.todo (by omega), hnd]
  have hmap : ∀ b, TdZdd.remap x.1 (nd b) = some (c t b) := by
    intro b
    obtain ⟨h1, h2⟩ := hp.map b hnd
    rw [← h2]
    exact remap_congr (h.ids _ (by omega))
  have hf0 := hp.low (j := t) 0 ht
  have hcb : ∀ b, remap x.2 (nd b) (x.2.input ⟨i, t⟩ b) = E (c t b) := by
    intro b
    rw [← hb b hnd, hs.todo (Nat.lt_succ_self t)]
    unfold remap
    rw [hs.same.other _ (by have := (hp.map b hnd).1; omega)]
  let s1 := x.2.setNode ⟨i, t⟩ fun b => remap x.2 (nd b) (x.2.input ⟨i, t⟩ b)
  have sat : ∀ j, s1.input ⟨i, j⟩ = if j = t then fun b => E (c t b) else x.2.input ⟨i, j⟩ := by
    intro j
    by_cases e : j = t
    · subst e
      rw [if_pos rfl]
      show (if (⟨i, j⟩ : NodeId) = ⟨i, j⟩ then _ else _) = _
      rw [if_pos rfl]
      funext b
      exact hcb b
    · rw [if_neg e]
      show (if (⟨i, j⟩ : NodeId) = ⟨i, t⟩ then _ else _) = _
      rw [if_neg (fun e' => e (congrArg NodeId.col e'))]
  have fin : ∀ {s : Bits 2}, (∀ j, s.input ⟨i, j⟩ = s1.input ⟨i, j⟩) → (∀ j, j ≠ t → s.newId i j = x.2.newId i j) →
      (delR bdd zdd (c t) = true → s.newId i t = E (c t 0)) → Same i s0 s → B1 bdd zdd i m c E s0 t s := by
    intro s h1 h2 h3 h4
    refine ⟨?_, ?_, ?_, h4⟩
    · intro j hj hjm b
      rw [h1, sat]
      by_cases e : j = t
      · rw [if_pos e, e]
      · rw [if_neg e]; exact hs.cells (by omega) hjm b
    · intro j hj
      rw [h1, sat, if_neg (by omega)]; exact hs.todo (by omega)
    · intro j hj hjm hd
      by_cases e : j = t
      · subst e; exact h3 hd
      · rw [h2 j e]; exact hs.del (by omega) hjm hd
  have same1 : Same i s0 s1 := hs.same.setNode (Nat.le_refl _) _
  have setne : ∀ {s : Bits 2} {v : Bool} (j : Nat), j ≠ t → (s.setId i t v).newId i j = s.newId i j := by
    intro s v j hj
    show (if i = i ∧ j = t then v else s.newId i j) = _
    rw [if_neg (fun e => hj e.2)]
  obtain ⟨T1, e1, w1⟩ := setNode_spec (c t) hat
  unfold loop1 at e'
  simp only [hat, hmap, pair_eta, e1, Option.bind_eq_bind, Option.bind_some] at e'
  by_cases hdel : delR bdd zdd (c t) = true
  · rw [if_pos hdel, Option.bind_eq_some_iff] at e'
    obtain ⟨st1, _, e'⟩ := e'
    cases e'
    refine fin (s := s1.setId i t (s1.input ⟨i, t⟩ 0)) (fun _ => rfl) (fun j hj => setne j hj) (fun _ => ?_) (same1.setId _ _)
    show (if i = i ∧ t = t then _ else _) = _
    rw [if_pos ⟨rfl, rfl⟩, sat, if_pos rfl]
  · rw [if_neg hdel, Option.bind_eq_some_iff] at e'
    obtain ⟨c0, _, e'⟩ := e'
    by_cases hmark : c0 1 ≠ ⟨i, m⟩
    · rw [if_pos hmark, Option.bind_eq_some_iff] at e'
      obtain ⟨_, _, e'⟩ := e'
      rw [Option.bind_eq_some_iff] at e'
      obtain ⟨_, _, e'⟩ := e'
      rw [Option.bind_eq_some_iff] at e'
      obtain ⟨_, _, e'⟩ := e'
      cases e'
      refine fin (s := ((s1.setCell (c t 0) 1 false).setId i t false).setCell (c t 0) 0 false) (fun j => ?_) (fun j hj => setne j hj)
        (fun hd => absurd hd hdel) (((same1.setCell (Nat.le_of_lt hf0) _ _).setId _ _).setCell (Nat.le_of_lt hf0) _ _)
      rw [setCell_row hf0]
      exact setCell_row hf0 _ _ j
    · rw [if_neg hmark, Option.bind_eq_some_iff] at e'
      obtain ⟨_, _, e'⟩ := e'
      rw [Option.bind_eq_some_iff] at e'
      obtain ⟨_, _, e'⟩ := e'
      cases e'
      refine fin (s := (s1.setId i t (s1.input (c t 0) 0)).setCell (c t 0) 0 false) (fun j => ?_) (fun j hj => setne j hj)
        (fun hd => absurd hd hdel) ((same1.setId _ _).setCell (Nat.le_of_lt hf0) _ _)
      exact setCell_row hf0 _ _ j

/-! ### Second loop -/

structure B2 (bdd zdd : Bool) (nr i m : Nat) (c : Nat → Node 2) (E : NodeId → Bool) (s0 : Bits 2) (st : RSt 2) (s : Bits 2) : Prop where
  cells : ∀ {j : Nat}, j < m → nodeAt nr st.input ⟨i, j⟩ = some (c j) → ∀ b, s.input ⟨i, j⟩ b = E (c j b)
  del : ∀ {j : Nat}, j < m → delR bdd zdd (c j) = true → s.newId i j = E (c j 0)
  kept : ∀ {j : Nat} {id : NodeId}, j < m → delR bdd zdd (c j) = false → (st.newId i)[j]? = some (some id) → id.row = i →
    s.newId i j = hasEmpty (c j 0) (E (c j 0))
  same : Same i s0 s

theorem inner_bits {st0 : RSt 2} {s0 : Bits 2}
    (hlow : ∀ {j : Nat} (b : Fin 2), j < m → (c j b).row < i)
    (hex : ∀ {j : Nat} (b : Fin 2), j < m → ∃ nd, nodeAt nr st0.input (c j b) = some nd)
    {t : Nat} (hnt : ¬ DoneBelow bdd zdd c t t) :
    ∀ (fuel k : Nat) (outs : List Nat) (st : RSt 2) (s : Bits 2), m < k + fuel → t ≤ k →
      (k < m ∧ Kept bdd zdd c k (c t 0) ∨ k = m) →
      InnerInv bdd zdd nr i m c st0 t k outs st → B2 bdd zdd nr i m c E s0 st s →
      ∃ y s', inner nr i m ⟨i, t⟩ fuel k ((st, outs.length), s) = some (y, s') ∧ B2 bdd zdd nr i m c E s0 y.1 s' := by
  intro fuel
  induction fuel with
  | zero => intro k outs st s hf _ hk _ _; rcases hk with ⟨h, _⟩ | h <;> omega
  | succ fuel ih =>
    intro k outs st s hfuel htk hk h hs
    rcases hk with ⟨hkm, hkk⟩ | rfl
    · obtain ⟨k2, c1, hat, hc1, hlook, hk2, hk2', hlen, _, hor⟩ := inner_step hlow hex hnt htk hkm hkk h
      have hlen' : ∀ T : Rows 2, k < (RSt.newId { st with input := T } i).length := fun T => hlen
      have hg1 := hlow (j := k) 1 hkm
      have setne : ∀ {s : Bits 2} {v : Bool} (j : Nat), j ≠ k → (s.setId i k v).newId i j = s.newId i j := by
        intro s v j hj
        show (if i = i ∧ j = k then v else s.newId i j) = _
        rw [if_neg (fun e => hj e.2)]
      have notdel : ∀ {j : Nat}, delR bdd zdd (c j) = true → j ≠ k := by
        rintro j hd rfl; rw [hkk.1] at hd; cases hd
      rw [inner, if_pos hkm]
      simp only [hat, Option.bind_eq_bind, Option.bind_some, hc1, hlook]
      rcases hor with ⟨hmark, T1, w, h'⟩ | ⟨hmark, T1, T2, w, w', h'⟩
      · rw [if_neg (by simp [hmark])]
        simp only [w, Option.bind_some, setId_spec _ (hlen' _)]
        refine ih k2 outs _ _ (by omega) (by omega) hk2' h' ?_
        obtain ⟨T1', w0, w1⟩ := setNode_spec (pair (c1 0) ⟨i, m⟩) hat
        rw [w] at w0
        cases w0
        refine ⟨?_, ?_, ?_, (hs.same.setNode (Nat.le_refl _) _).setId _ _⟩
        · intro j hj hn b
          dsimp only at hn
          rw [w1.at'] at hn
          by_cases e : j = k
          · subst e
            rw [if_pos rfl] at hn
            have := congrFun (Option.some.inj hn) 1
            rw [← this] at hg1
            exact absurd hg1 (Nat.lt_irrefl _)
          · rw [if_neg (fun e' => e (congrArg NodeId.col e'))] at hn
            show (if (⟨i, j⟩ : NodeId) = ⟨i, k⟩ then _ else s.input ⟨i, j⟩) b = _
            rw [if_neg (fun e' => e (congrArg NodeId.col e'))]
            exact hs.cells hj hn b
        · intro j hj hd
          rw [setne j (notdel hd)]
          exact hs.del hj hd
        · intro j id hj hd hn hi
          dsimp only [upd] at hn
          rw [if_pos rfl] at hn
          by_cases e : j = k
          · subst e
            rw [List.getElem?_set_self hlen] at hn
            cases hn
            have : (0 : Nat) = i := hi
            omega
          · rw [List.getElem?_set_ne (by omega)] at hn
            rw [setne j e]
            exact hs.kept hj hd hn hi
      · rw [if_pos hmark]
        simp only [w, Option.bind_some, w', setId_spec _ (hlen' _)]
        have hcell := hs.cells hkm hat
        obtain ⟨T1', w0, w1⟩ := setCell_spec 1 ⟨i, t⟩ hc1
        rw [w] at w0
        cases w0
        obtain ⟨T2', w0', w2⟩ := setCell_spec (nr := nr) (T := T1) (f := c k 1) 0 ⟨i, k⟩ (by rw [w1.at', if_pos rfl])
        rw [w'] at w0'
        cases w0'
        have := ih k2 (outs ++ [k]) _ (((s.setCell (c k 1) 1 false).setCell (c k 1) 0 false).setId i k (hasEmpty (c k 0) (s.input ⟨i, k⟩ 0)))
          (by omega) (by omega) hk2' h' ?_
        · rw [List.length_append] at this
          exact this
        · refine ⟨?_, ?_, ?_, ((hs.same.setCell (Nat.le_of_lt hg1) _ _).setCell (Nat.le_of_lt hg1) _ _).setId _ _⟩
          · intro j hj hn b
            dsimp only at hn
            have hne : (⟨i, j⟩ : NodeId) ≠ c k 1 := by
              intro e; rw [← e] at hg1; exact absurd hg1 (Nat.lt_irrefl _)
            rw [w2.at', if_neg hne, w1.at', if_neg hne] at hn
            rw [← hs.cells hj hn b]
            show ((s.setCell (c k 1) 1 false).setCell (c k 1) 0 false).input ⟨i, j⟩ b = _
            rw [setCell_row hg1, setCell_row hg1]
          · intro j hj hd
            rw [setne j (notdel hd)]
            exact hs.del hj hd
          · intro j id hj hd hn hi
            dsimp only [upd] at hn
            rw [if_pos rfl] at hn
            by_cases e : j = k
            · subst e
              show (if i = i ∧ j = j then _ else _) = _
              rw [if_pos ⟨rfl, rfl⟩, hcell]
            · rw [List.getElem?_set_ne (by omega)] at hn
              rw [setne j e]
              exact hs.kept hj hd hn hi
    · refine ⟨(st, outs.length), s, ?_, hs⟩
      rw [inner, if_neg (Nat.lt_irrefl _)]

theorem loop2_bits {st0 : RSt 2} {s0 : Bits 2}
    (hlow : ∀ {j : Nat} (b : Fin 2), j < m → (c j b).row < i)
    (hex : ∀ {j : Nat} (b : Fin 2), j < m → ∃ nd, nodeAt nr st0.input (c j b) = some nd)
    {t : Nat} (ht : t < m) {outs : List Nat} {st : RSt 2} {s : Bits 2}
    (h : I2 bdd zdd nr i m c st0 (DoneBelow bdd zdd c t) t outs st) (hs : B2 bdd zdd nr i m c E s0 st s) :
    ∃ outs' st' s', loop2 nr i m ((st, outs.length), s) t = some ((st', outs'.length), s') ∧
      I2 bdd zdd nr i m c st0 (DoneBelow bdd zdd c (t + 1)) (t + 1) outs' st' ∧ B2 bdd zdd nr i m c E s0 st' s' := by
  obtain ⟨outs', st', e, h'⟩ := loop2_step hlow hex ht h
  have hfst := loop2_fst nr i m ((st, outs.length), s) t
  rw [e, Option.map_eq_some_iff] at hfst
  obtain ⟨⟨y, s'⟩, e', e2⟩ := hfst
  dsimp only at e2
  subst e2
  refine ⟨outs', st', s', e', h', ?_⟩
  unfold loop2 at e'
  rw [Option.bind_eq_some_iff] at e'
  obtain ⟨id, hid, e'⟩ := e'
  by_cases hle : id.row ≤ i
  · rw [if_pos hle] at e'
    simp only [Option.some.injEq, Prod.mk.injEq] at e'
    rw [← e'.1.1, ← e'.2]
    exact hs
  · rw [if_neg hle] at e'
    dsimp only at hid
    have hkeep : delR bdd zdd (c t) = false := by
      cases hd : delR bdd zdd (c t) with
      | false => rfl
      | true =>
        unfold RSt.look at hid
        rw [(h.idDel ht hd).1] at hid
        cases hid
        have := hlow (j := t) 0 ht
        omega
    have hdn : ¬ DoneBelow bdd zdd c t t := by
      intro hd
      unfold RSt.look at hid
      rcases h.idDone ht hkeep hd with ⟨q, _, h2, _⟩ | ⟨k, _, _, _, h2, _⟩
      · rw [h2] at hid; cases hid; exact hle (Nat.le_refl _)
      · rw [h2] at hid; cases hid; exact hle (Nat.zero_le _)
    obtain ⟨y, s2, e3, h3⟩ := inner_bits (E := E) (s0 := s0) hlow hex hdn (m + 1) t outs st s (by omega) (Nat.le_refl _)
      (.inl ⟨ht, hkeep, rfl⟩) (InnerInv.start ht h hdn) hs
    rw [e3] at e'
    cases e'
    exact h3

/-! ### Third loop -/

structure B3 (bdd zdd : Bool) (i m : Nat) (c : Nat → Node 2) (E : NodeId → Bool) (outs : List Nat) (s0 : Bits 2) (s2 : Bits 2) (t : Nat)
    (s : Bits 2) : Prop where
  inp : s.input = s2.input
  ids : ∀ {j : Nat}, j < t → s.newId i j = bitOf (delR bdd zdd (c j)) E (c j)
  todo : ∀ {j : Nat}, t ≤ j → s.newId i j = s2.newId i j
  reps : ∀ {k : Nat}, k ∈ outs → s.newId i k = hasEmpty (c k 0) (E (c k 0))
  row : ∀ {q k : Nat}, outs[q]? = some k → k < t → ∀ b, s.output ⟨i, q⟩ b = E (c k b)
  same : Same i s0 s

theorem loop3_bits {st0 st2 : RSt 2} {outs : List Nat} {s0 s2 : Bits 2}
    (hlow : ∀ {j : Nat} (b : Fin 2), j < m → (c j b).row < i)
    (h2 : I2 bdd zdd nr i m c st0 (fun _ => True) m outs st2) (hb : B2 bdd zdd nr i m c E s0 st2 s2) {T : Rows 2}
    (hT : T i = st2.input i) {t : Nat} (ht : t < m)
    {x : (RSt 2 × List (Option (Node 2))) × Bits 2} (h : I3 bdd zdd nr i m c outs { st2 with input := T } t x.1)
    (hs : B3 bdd zdd i m c E outs s0 s2 t x.2) :
    ∃ x', loop3 bdd zdd nr i m x t = some x' ∧
      I3 bdd zdd nr i m c outs { st2 with input := T } (t + 1) x'.1 ∧ B3 bdd zdd i m c E outs s0 s2 (t + 1) x'.2 := by
  obtain ⟨a', e, h'⟩ := loop3_step hlow h2 hT ht h
  have hfst := loop3_fst bdd zdd nr i m x t
  rw [e, Option.map_eq_some_iff] at hfst
  obtain ⟨x', e', rfl⟩ := hfst
  refine ⟨x', e', h', ?_⟩
  have hat : nodeAt nr x.1.1.input ⟨i, t⟩ = nodeAt nr st2.input ⟨i, t⟩ := by
    unfold nodeAt; rw [h.inp]; dsimp only; rw [hT]
  have hmk : c t 1 ≠ ⟨i, m⟩ := by
    intro e
    have := hlow (j := t) 1 ht
    rw [e] at this; exact absurd this (Nat.lt_irrefl _)
  have hrow : ∀ {q k : Nat}, outs[q]? = some k → k < t + 1 → k ≠ t → ∀ b, x.2.output ⟨i, q⟩ b = E (c k b) :=
    fun h1 h2 h3 => hs.row h1 (by omega)
  have setne : ∀ {s : Bits 2} {v : Bool} (j : Nat), j ≠ t → (s.setId i t v).newId i j = s.newId i j := by
    intro s v j hj
    show (if i = i ∧ j = t then v else s.newId i j) = _
    rw [if_neg (fun e => hj e.2)]
  unfold loop3 at e'
  simp only [hat] at e'
  have hidt := h.todo (Nat.le_refl t)
  dsimp only at hidt
  by_cases hdel : delR bdd zdd (c t) = true
  · obtain ⟨_, h4⟩ := h2.idDel ht hdel
    simp only [h4, Option.bind_eq_bind, Option.bind_some] at e'
    rw [if_neg hmk, if_pos hdel] at e'
    cases e'
    refine ⟨hs.inp, ?_, fun hj => hs.todo (by omega), hs.reps, ?_, hs.same⟩
    · intro j hj
      by_cases e : j = t
      · subst e
        rw [hs.todo (Nat.le_refl _), hb.del ht hdel]
        unfold bitOf
        rw [if_pos hdel]
      · exact hs.ids (by omega)
    · intro q k h5 h6
      refine hrow h5 h6 ?_
      rintro rfl
      have := (h2.outsOk (mem_of_getElem?' h5)).2.1
      rw [hdel] at this; cases this
  · have hkeep : delR bdd zdd (c t) = false := by simpa using hdel
    rcases h2.idDone ht hkeep trivial with ⟨q, h3, h4, h5⟩ | ⟨k, h3, h4, h4', h5, h6⟩
    · simp only [h5, Option.bind_eq_bind, Option.bind_some] at e'
      rw [if_neg hmk, if_neg hdel] at e'
      have hl : x.1.1.look ⟨i, t⟩ = some ⟨i, q⟩ := by
        unfold RSt.look; simp [hidt, h4]
      simp only [hl, Option.bind_some] at e'
      have hq := getElem?_lt h3
      rw [if_pos (by rw [h.rowlen]; exact hq)] at e'
      cases e'
      refine ⟨hs.inp, ?_, fun hj => hs.todo (by omega), hs.reps, ?_, hs.same.setOut rfl _⟩
      · intro j hj
        by_cases e : j = t
        · subst e
          show x.2.newId i j = _
          rw [hs.reps (mem_of_getElem?' h3)]
          unfold bitOf
          rw [if_neg hdel]
        · exact hs.ids (by omega)
      · intro q' k' h6 h7 b
        show (if (⟨i, q'⟩ : NodeId) = ⟨i, q⟩ then _ else x.2.output ⟨i, q'⟩) b = _
        by_cases eq : q' = q
        · subst eq
          rw [h3] at h6
          cases h6
          rw [if_pos rfl, hs.inp]
          exact hb.cells ht h5 b
        · rw [if_neg (fun e' => eq (congrArg NodeId.col e'))]
          refine hrow h6 h7 ?_ b
          rintro rfl
          exact eq (h2.uniq h6 h3 rfl)
    · simp only [h6, Option.bind_eq_bind, Option.bind_some] at e'
      rw [if_pos (show pair ⟨i, k⟩ ⟨i, m⟩ 1 = ⟨i, m⟩ from rfl), Option.bind_eq_some_iff] at e'
      obtain ⟨_, _, e'⟩ := e'
      rw [Option.bind_eq_some_iff] at e'
      obtain ⟨_, _, e'⟩ := e'
      cases e'
      refine ⟨hs.inp, ?_, ?_, ?_, ?_, hs.same.setId _ _⟩
      · intro j hj
        by_cases e : j = t
        · subst e
          show (if i = i ∧ j = j then x.2.newId i k else _) = _
          rw [if_pos ⟨rfl, rfl⟩, hs.reps h3, h4]
          unfold bitOf
          rw [if_neg hdel]
        · rw [setne j e]; exact hs.ids (by omega)
      · intro j hj; rw [setne j (by omega)]; exact hs.todo (by omega)
      · intro k' hk'
        rw [setne k' (by rintro rfl; exact h4' hk')]
        exact hs.reps hk'
      · intro q' k' h7 h8
        refine hrow h7 h8 ?_
        rintro rfl
        exact h4' (mem_of_getElem?' h7)

end

end Attr

end TdZdd
