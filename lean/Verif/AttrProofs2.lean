import Verif.AttrProofs1
import Verif.ReducerProofs8

/-! The bits set by `reduce_` on one level. -/

namespace TdZdd

namespace Attr

variable {N : Nat}

/-- the bit of the new id of a node with canonical children `c` -/
def bitOf (del : Bool) (E : NodeId → Bool) (c : Node (N + 1)) : Bool := if del then E (c 0) else hasEmpty (c 0) (E (c 0))

section
variable {bdd zdd : Bool} {nr i m : Nat} {c : Nat → Node (N + 1)} {row : List (Node (N + 1))} {E : NodeId → Bool}

/-- what a step of the main loop has done to the bits -/
structure BN (bdd zdd : Bool) (i : Nat) (c : Nat → Node (N + 1)) (E : NodeId → Bool) (s0 : Bits (N + 1)) (t : Nat) (s : Bits (N + 1)) : Prop where
  cells : ∀ {j : Nat}, j < t → ∀ b, s.input ⟨i, j⟩ b = E (c j b)
  ids : ∀ {j : Nat}, j < t → s.newId i j = bitOf (delN bdd zdd (c j)) E (c j)
  other : ∀ r, r ≠ i → s.newId r = s0.newId r
  out : s.output = s0.output
  root : s.root = s0.root

theorem reduceStep_bits {st0 : RSt (N + 1)} (hp : PreN nr i m c row st0) {s0 : Bits (N + 1)}
    (hb : ∀ {j : Nat} {nd : Node (N + 1)} (b : Fin (N + 1)), row[j]? = some nd → s0.newId (nd b).row (nd b).col = E (c j b))
    {t : Nat} (ht : t < m) {outs : List Nat} {x : RedSt N × Bits (N + 1)} (h : JN bdd zdd nr i m c row st0 t outs x.1)
    (hs : BN bdd zdd i c E s0 t x.2) :
    ∃ outs' x', reduceStep bdd zdd nr i x t = some x' ∧ JN bdd zdd nr i m c row st0 (t + 1) outs' x'.1 ∧
      BN bdd zdd i c E s0 (t + 1) x'.2 := by
  obtain ⟨outs', a', e, h'⟩ := reduceStep_spec hp ht h
  have hfst := reduceStep_fst bdd zdd nr i x t
  rw [e, Option.map_eq_some_iff] at hfst
  obtain ⟨x', e', rfl⟩ := hfst
  refine ⟨outs', x', e', h', ?_⟩
  obtain ⟨nd, hnd⟩ := getElem?_of_lt (l := row) (i := t) (by rw [hp.len]; exact ht)
  have hat : nodeAt nr x.1.st.input ⟨i, t⟩ = some nd := by rw [h.todo (Nat.le_refl _), hnd]
  have hmap : mapNode x.1.st.look nd = some (c t) := by
    refine allSome_of fun b => ?_
    obtain ⟨h1, h2⟩ := hp.map b hnd
    rw [← h2]
    unfold RSt.look
    rw [h.ids _ (by omega)]
  obtain ⟨T1, e1, w1⟩ := setNode_spec (c t) hat
  have hlen : ∀ T : Rows (N + 1), t < (RSt.newId { x.1.st with input := T } i).length := by
    intro T; show t < (x.1.st.newId i).length; rw [h.idlen]; exact ht
  have hcb : ∀ b, x.2.newId (nd b).row (nd b).col = E (c t b) := by
    intro b
    rw [hs.other _ (by have := (hp.map b hnd).1; omega)]
    exact hb b hnd
  -- the common final argument
  have fin : ∀ v, v = bitOf (delN bdd zdd (c t)) E (c t) → BN bdd zdd i c E s0 (t + 1)
      ((x.2.setNode ⟨i, t⟩ fun b => x.2.newId (nd b).row (nd b).col).setId i t v) := by
    intro v hv
    refine ⟨?_, ?_, ?_, hs.out, hs.root⟩
    · intro j hj b
      dsimp only [Bits.setId, Bits.setNode]
      by_cases e : j = t
      · subst e; rw [if_pos rfl]; exact hcb b
      · rw [if_neg (fun e' => e (congrArg NodeId.col e'))]; exact hs.cells (by omega) b
    · intro j hj
      dsimp only [Bits.setId, Bits.setNode]
      by_cases e : j = t
      · subst e; rw [if_pos ⟨rfl, rfl⟩]; exact hv
      · rw [if_neg (fun e' => e e'.2)]; exact hs.ids (by omega)
    · intro r hr
      dsimp only [Bits.setId, Bits.setNode]
      funext q
      rw [if_neg (fun e' => hr e'.1), hs.other r hr]
  have self : ∀ b, (x.2.setNode ⟨i, t⟩ fun b => x.2.newId (nd b).row (nd b).col).input ⟨i, t⟩ b = E (c t b) := by
    intro b
    dsimp only [Bits.setNode]
    rw [if_pos rfl]; exact hcb b
  unfold reduceStep at e'
  simp only [hat, hmap, e1, Option.bind_eq_bind, Option.bind_some] at e'
  by_cases hdel : delN bdd zdd (c t) = true
  · rw [if_pos hdel, setId_spec _ (hlen _)] at e'
    simp only [Option.bind_some, Option.some.injEq] at e'
    subst e'
    refine fin _ ?_
    unfold bitOf
    rw [if_pos hdel, self]
  · rw [if_neg hdel] at e'
    obtain ⟨u, x1, e2, h2, _, h3⟩ := h.tab.add nodeLaw (x := (t, c t)) trivial
    simp only [e2, Option.bind_some, h3] at e'
    cases hf : (outs.map fun k => (k, c k)).find? (fun e => nodeEq e (t, c t)) with
    | none =>
      rw [hf] at e'
      simp only [Option.getD_none, if_true, setId_spec _ (hlen _), Option.bind_some, Option.some.injEq] at e'
      subst e'
      refine fin _ ?_
      unfold bitOf
      rw [if_neg hdel, self]
    | some e =>
      rw [hf] at e'
      have hmem := List.mem_of_find?_eq_some hf
      obtain ⟨k, hk, rfl⟩ := List.mem_map.1 hmem
      have hck : c k = c t := nodeEq_iff.1 (by simpa using List.find?_some hf)
      obtain ⟨hkt, _⟩ := h.outsOk hk
      obtain ⟨q, hq⟩ := List.mem_iff_getElem?.1 hk
      simp only [Option.getD_some] at e'
      rw [if_neg (by omega)] at e'
      have hl : RSt.look { x.1.st with input := T1 } ⟨i, k⟩ = some ⟨i, q⟩ := by
        unfold RSt.look; dsimp only; rw [h.keep hq]; rfl
      simp only [hl, Option.bind_some, setId_spec _ (hlen _), Option.some.injEq] at e'
      subst e'
      refine fin _ ?_
      dsimp only [Bits.setNode]
      rw [hs.ids hkt, hck]

/-- what a level has done to the bits -/
structure BLevel (del : Node (N + 1) → Bool) (top i m : Nat) (c : Nat → Node (N + 1)) (E : NodeId → Bool) (out : List (Node (N + 1))) (col : Nat)
    (s0 s : Bits (N + 1)) : Prop where
  ids : ∀ {j : Nat}, j < m → s.newId i j = bitOf (del (c j)) E (c j)
  other : ∀ r, r ≠ i → s.newId r = s0.newId r
  out : ∀ {q : Nat} {nd : Node (N + 1)}, out[q]? = some nd → ∀ b, s.output ⟨i, q⟩ b = E (nd b)
  low : ∀ f : NodeId, f.row ≠ i → s.output f = s0.output f
  root : s.root = if i = top then s.newId i col else s0.root

theorem reduceLevel_bits {top : Nat} {lower : Nat → List Nat} {st : RSt (N + 1)} {s0 : Bits (N + 1)}
    (hp : PreN nr i m c row { st with newId := upd st.newId i (List.replicate m none) })
    (hlo : ∀ r ∈ lower i, r < i) (hroot : i = top → st.root.col < m)
    (hb : ∀ {j : Nat} {nd : Node (N + 1)} (b : Fin (N + 1)), row[j]? = some nd → s0.newId (nd b).row (nd b).col = E (c j b)) :
    ∃ st' s' ids out, reduceLevel bdd zdd nr top lower (st, s0) i = some (st', s') ∧
      LevelN bdd zdd top i m c (lower i) st st' ids out ∧ BLevel (delN bdd zdd) top i m c E out st.root.col s0 s' := by
  obtain ⟨st', ids, out, e, L⟩ := reduceLevel_spec (bdd := bdd) (zdd := zdd) (top := top) (lower := lower) hp hlo hroot
  have hfst := reduceLevel_fst bdd zdd nr top lower (st, s0) i
  rw [e, Option.map_eq_some_iff] at hfst
  obtain ⟨⟨st'', s'⟩, e', e''⟩ := hfst
  dsimp only at e''
  subst e''
  refine ⟨st'', s', ids, out, e', L, ?_⟩
  have hm : (st.input i).length = m := by rw [← hp.len, ← hp.inp]
  obtain ⟨u, eu, hok, _, _, hsz, hemp⟩ := HT.init_spec (hash := nodeHash (N := N)) (eq := nodeEq) (P := fun _ => True)
    (m * 2) HT.empty
  have hni : i ∉ lower i := fun h => absurd (hlo i h) (Nat.lt_irrefl _)
  obtain ⟨a, e1, outs, h1, s1⟩ := foldlM_up (f := reduceStep bdd zdd nr i)
    (fun t x => ∃ outs, JN bdd zdd nr i m c row { st with newId := upd st.newId i (List.replicate m none) } t outs x.1 ∧
      BN bdd zdd i c E s0 t x.2) m
    ({ st := { st with newId := upd st.newId i (List.replicate m none) }, uniq := u, jj := 0 }, s0)
    ⟨[], ⟨fun hj => by omega, fun hj => by unfold nodeAt; rw [if_pos hp.hi]; exact congrArg (·[_]?) hp.inp,
      fun _ _ => rfl, fun _ _ => rfl, by simp [upd], fun hj => by omega, fun hq => by simp at hq, fun hk => by simp at hk,
      fun hq => by simp at hq, ⟨hok, fun e => by simp [hemp e], by simpa using hsz, by simp⟩, rfl, rfl, rfl⟩,
      ⟨fun hj => by omega, fun hj => by omega, fun _ _ => rfl, rfl, rfl⟩⟩
    (fun t a ht ⟨outs, h, hs⟩ => by
      obtain ⟨outs', a', e, h', hs'⟩ := reduceStep_bits hp hb ht h hs
      exact ⟨a', e, outs', h', hs'⟩)
  have hnew : clearIds (lower i) a.1.st.newId i = a.1.st.newId i := by rw [clearIds_at, if_neg hni]
  -- the copy loop
  obtain ⟨r, e2, h2, h3, h4, h5, h6⟩ := foldlM_up
    (f := copyStep nr i { a.1.st with newId := clearIds (lower i) a.1.st.newId })
    (fun t (r : List (Option (Node (N + 1))) × Bits (N + 1)) => r.1.length = outs.length ∧
      (∀ (q k : Nat), outs[q]? = some k → k < t → ∀ b, r.2.output ⟨i, q⟩ b = E (c k b)) ∧
      r.2.newId = a.2.newId ∧ (r.2.input = a.2.input ∧ r.2.root = a.2.root) ∧ ∀ f : NodeId, f.row ≠ i → r.2.output f = a.2.output f) m
    (List.replicate a.1.jj none, a.2) ⟨by rw [List.length_replicate, h1.jj], fun q k _ hk => by omega, rfl, ⟨rfl, rfl⟩, fun _ _ => rfl⟩
    (by
      rintro t r ht ⟨hr1, hr2, hr3, hr4, hr5⟩
      obtain ⟨id, h4, h5⟩ := h1.fin ht
      have hl : RSt.look { a.1.st with newId := clearIds (lower i) a.1.st.newId } ⟨i, t⟩ = some id := by
        unfold RSt.look; dsimp only; rw [hnew, h4]; rfl
      have hat : nodeAt nr a.1.st.input ⟨i, t⟩ = some (c t) := h1.done ht
      unfold copyStep
      simp only [hl, Option.bind_eq_bind, Option.bind_some]
      rcases h5 with ⟨h5, h6⟩ | ⟨h5, q, k, h6, h7, h8⟩
      · have := hp.low (j := t) 0 ht
        rw [if_neg (by rw [h6]; omega)]
        refine ⟨r, rfl, hr1, fun q k hq hk => ?_, hr3, hr4, hr5⟩
        by_cases e : k = t
        · subst e
          have := (h1.outsOk (mem_of_getElem?' hq)).2
          rw [h5] at this; cases this
        · exact hr2 q k hq (by omega)
      · subst h8
        have hql := getElem?_lt h6
        rw [if_pos rfl]
        simp only [hat, Option.bind_some]
        rw [if_pos (by rw [hr1]; exact hql)]
        refine ⟨_, rfl, by rw [List.length_set]; exact hr1, fun q' k' hq' hk' b => ?_, hr3, hr4, fun f hf => ?_⟩
        · dsimp only [Bits.setOut]
          by_cases e : q' = q
          · subst e
            rw [h6] at hq'
            cases hq'
            rw [if_pos rfl, hr4.1, s1.cells ht, h7]
          · rw [if_neg (fun e' => e (congrArg NodeId.col e'))]
            refine hr2 q' k' hq' ?_ b
            apply Classical.byContradiction
            intro hlt
            have : k' = t := by omega
            subst this
            exact e (h1.uniq hq' h6 h7.symm)
        · dsimp only [Bits.setOut]
          rw [if_neg (fun e' => hf (by rw [e']))]
          exact hr5 f hf)
  -- the result
  unfold reduceLevel at e'
  simp only [hm, Option.bind_eq_bind, eu, Option.bind_some, e1, e2] at e'
  cases hrow : fullRow r.1 with
  | none => rw [hrow] at e'; cases e'
  | some orow =>
    rw [hrow] at e'
    simp only [Option.bind_some] at e'
    generalize hx : ({ a.1.st with newId := clearIds (lower i) a.1.st.newId, input := upd a.1.st.input i [], output := upd a.1.st.output i orow } : RSt (N + 1)) = x at e'
    have hxn : x.newId i = a.1.st.newId i := by rw [← hx]; exact hnew
    cases hru : rootUpdate top i x with
    | none => rw [hru] at e'; cases e'
    | some st3 =>
      rw [hru] at e'
      simp only [Option.bind_some, Option.some.injEq, Prod.mk.injEq] at e'
      obtain ⟨e3, e4⟩ := e'
      subst e3
      have eroot : a.1.st.root = st.root := h1.root
      have keyn : s'.newId = a.2.newId := by
        rw [← e4]; unfold Bits.rootUpdate; by_cases ht : i = top
        · rw [if_pos ht]; exact h4
        · rw [if_neg ht]; exact h4
      have keyo : s'.output = r.2.output := by
        rw [← e4]; unfold Bits.rootUpdate; by_cases ht : i = top
        · rw [if_pos ht]
        · rw [if_neg ht]
      refine ⟨?_, ?_, ?_, ?_, ?_⟩
      · intro j hj; rw [keyn]; exact s1.ids hj
      · intro r hr; rw [keyn]; exact s1.other r hr
      · intro q nd hq b
        obtain ⟨j, hj, hjq⟩ := L.row.hit hq
        obtain ⟨id, g1, g2⟩ := L.row.node hj
        rw [hjq] at g1
        cases g1
        obtain ⟨id', g3, g4⟩ := h1.fin hj
        have : id' = ⟨i, q⟩ := by
          have hst : st3.newId i = a.1.st.newId i := by
            unfold rootUpdate at hru
            by_cases ht : i = top
            · rw [if_pos ht, Option.map_eq_some_iff] at hru
              obtain ⟨f, _, hru⟩ := hru
              rw [← hru]; exact hxn
            · rw [if_neg ht] at hru
              cases hru
              exact hxn
          rw [← hst, L.newId, List.getElem?_map, hjq] at g3
          cases g3
          rfl
        subst this
        have hlow := hp.low (j := j) 0 hj
        rcases g4 with ⟨_, g5⟩ | ⟨_, q', k, g5, g6, g7⟩
        · rw [← g5] at hlow; exact absurd hlow (Nat.lt_irrefl _)
        · cases g7
          rw [keyo, h3 q k g5 (h1.outsOk (mem_of_getElem?' g5)).1, g6]
          rcases g2 with ⟨_, g2⟩ | ⟨_, _, g2⟩
          · rw [← g2] at hlow; exact absurd hlow (Nat.lt_irrefl _)
          · dsimp only at g2
            rw [hq] at g2
            cases g2
            rfl
      · intro f hf; rw [keyo, h6 f hf, s1.out]
      · rw [keyn, ← e4]; unfold Bits.rootUpdate
        by_cases ht : i = top
        · rw [if_pos ht, if_pos ht]
          dsimp only
          rw [h4, eroot]
        · rw [if_neg ht, if_neg ht, h5.2, s1.root]

end

end Attr

end TdZdd
