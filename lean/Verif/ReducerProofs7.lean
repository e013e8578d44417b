import Verif.ReducerProofs6
import Verif.Props.HashTable

/-! The reducer for any arity (`reduce_`). -/

namespace TdZdd

variable {N : Nat}

/-- one reduced row: `c j` are the canonical children of node `j`, `ids` the new ids, `out` the new row -/
structure RowOk (del : Node (N + 1) → Prop) (i m : Nat) (c : Nat → Node (N + 1)) (ids : List NodeId)
    (out : List (Node (N + 1))) : Prop where
  len : ids.length = m
  node : ∀ {j : Nat}, j < m → ∃ id, ids[j]? = some id ∧
    ((del (c j) ∧ id = c j 0) ∨ (¬ del (c j) ∧ id.row = i ∧ out[id.col]? = some (c j)))
  hit : ∀ {q : Nat} {nd}, out[q]? = some nd → ∃ j, j < m ∧ ids[j]? = some ⟨i, q⟩
  nodup : ∀ {q q' : Nat} {nd}, out[q]? = some nd → out[q']? = some nd → q = q'

/-- new ids after row `k` has been added -/
def nidUpd (nid : NodeId → NodeId) (k : Nat) (ids : List NodeId) (f : NodeId) : NodeId :=
  if f.row = k then (ids[f.col]?).getD .zero else nid f

theorem nidUpd_ne {nid : NodeId → NodeId} {k : Nat} {ids : List NodeId} {f : NodeId} (h : f.row ≠ k) :
    nidUpd nid k ids f = nid f := if_neg h

theorem RedOf.extend {del : Node (N + 1) → Prop} {nr k : Nat} {T out : Rows (N + 1)} {nid : NodeId → NodeId}
    (h : RedOf del ⟨nr, T⟩ k nid ⟨nr, out⟩) (hw : Table.Wf ⟨nr, T⟩) (hk : k + 1 < nr)
    {c : Nat → Node (N + 1)} {ids : List NodeId} {row : List (Node (N + 1))}
    (hc : ∀ {j : Nat} {nd}, (T (k + 1))[j]? = some nd → c j = nid ∘ nd)
    (L : RowOk del (k + 1) (T (k + 1)).length c ids row) :
    RedOf del ⟨nr, T⟩ (k + 1) (nidUpd nid (k + 1) ids) ⟨nr, upd out (k + 1) row⟩ := by
  have hnode : ∀ {j : Nat} {nd : Node (N + 1)}, (T (k + 1))[j]? = some nd → Table.node? ⟨nr, T⟩ ⟨k + 1, j⟩ = some nd := by
    intro j nd hj; unfold Table.node?; dsimp only; rw [if_pos hk]; exact hj
  have hchild : ∀ {j : Nat} {nd : Node (N + 1)} (b : Fin (N + 1)), (T (k + 1))[j]? = some nd →
      Table.Valid ⟨nr, T⟩ (nd b) ∧ (nd b).row < k + 1 :=
    fun b hj => hw.child (f := ⟨k + 1, _⟩) (Nat.succ_pos _) (hnode hj) b
  have hcomp : ∀ {j : Nat} {nd : Node (N + 1)}, (T (k + 1))[j]? = some nd → nidUpd nid (k + 1) ids ∘ nd = c j := by
    intro j nd hj
    rw [hc hj]
    funext b
    have := (hchild b hj).2
    exact nidUpd_ne (by omega)
  have hnodeOut : ∀ {f : NodeId}, f.row ≠ k + 1 →
      Table.node? ⟨nr, upd out (k + 1) row⟩ f = Table.node? ⟨nr, out⟩ f := by
    intro f hf
    unfold Table.node?
    have : upd out (k + 1) row f.row = out f.row := by unfold upd; rw [if_neg hf]
    dsimp only
    rw [this]
  have hrow : ∀ {g : NodeId} {nd}, g.row = k + 1 → Table.node? ⟨nr, upd out (k + 1) row⟩ g = some nd →
      row[g.col]? = some nd := by
    intro g nd hf hg
    unfold Table.node? at hg
    dsimp only at hg
    rw [hf, if_pos hk] at hg
    have : upd out (k + 1) row (k + 1) = row := by unfold upd; rw [if_pos rfl]
    rw [this] at hg
    exact hg
  refine ⟨?_, ?_, ?_, ?_⟩
  · intro f hf
    rw [nidUpd_ne (by omega)]
    exact h.term hf
  · intro f nd h0 hn hnd
    by_cases hf : f.row = k + 1
    · have hj : (T (k + 1))[f.col]? = some nd := by
        unfold Table.node? at hnd
        dsimp only at hnd
        rw [hf, if_pos hk] at hnd
        exact hnd
      rw [hcomp hj]
      obtain ⟨id, h1, h2⟩ := L.node (getElem?_lt hj)
      have e : nidUpd nid (k + 1) ids f = id := by unfold nidUpd; rw [if_pos hf, h1]; rfl
      rw [e]
      rcases h2 with ⟨h2, h3⟩ | ⟨h2, h3, h4⟩
      · left
        refine ⟨h2, ?_⟩
        have := (hchild 0 hj).2
        rw [h3, nidUpd_ne (by omega), hc hj]; rfl
      · right
        refine ⟨h2, by rw [h3, hf], ?_⟩
        unfold Table.node?
        dsimp only
        rw [h3, if_pos hk]
        have : upd out (k + 1) row (k + 1) = row := by unfold upd; rw [if_pos rfl]
        rw [this]
        exact h4
    · have hcomp' : nidUpd nid (k + 1) ids ∘ nd = nid ∘ nd := by
        funext b
        have := (hw.child h0 hnd b).2
        exact nidUpd_ne (by omega)
      rw [hcomp']
      have := (hw.child h0 hnd 0).2
      rw [nidUpd_ne hf, nidUpd_ne (f := nd 0) (by omega)]
      rcases h.node h0 (by omega) hnd with h1 | ⟨h1, h2, h3⟩
      · exact .inl h1
      · exact .inr ⟨h1, h2, by rw [hnodeOut (by omega)]; exact h3⟩
  · intro g nd h0 hg
    by_cases hf : g.row = k + 1
    · obtain ⟨j, h1, h2⟩ := L.hit (hrow hf hg)
      obtain ⟨nd', hnd'⟩ := getElem?_of_lt h1
      refine ⟨by omega, ⟨k + 1, j⟩, nd', hf.symm, hnode hnd', ?_⟩
      unfold nidUpd
      rw [if_pos rfl, h2, ← hf]
      rfl
    · rw [hnodeOut hf] at hg
      obtain ⟨h1, f, nd', h2, h3, h4⟩ := h.hit h0 hg
      exact ⟨by omega, f, nd', h2, h3, by rw [nidUpd_ne (by omega)]; exact h4⟩
  · intro f g nd h0 hr hf hg
    by_cases e' : f.row = k + 1
    · have := L.nodup (hrow e' hf) (hrow (by omega) hg)
      cases f; cases g
      simp only at hr this
      rw [hr, this]
    · rw [hnodeOut e'] at hf
      rw [hnodeOut (by omega)] at hg
      exact h.nodup f g nd h0 hr hf hg

theorem nodeEq_iff {e e' : Nat × Node (N + 1)} : nodeEq e e' = true ↔ e.2 = e'.2 := by
  unfold nodeEq
  rw [decide_eq_true_iff]
  exact ⟨fun h => funext h, fun h b => by rw [h]⟩

theorem nodeLaw : HT.Law (nodeHash (N := N)) nodeEq fun _ => True := by
  refine ⟨fun _ => nodeEq_iff.2 rfl, ?_, ?_, ?_⟩
  · intro x y _ _ h; exact nodeEq_iff.2 (nodeEq_iff.1 h).symm
  · intro x y z _ _ _ h h'; exact nodeEq_iff.2 ((nodeEq_iff.1 h).trans (nodeEq_iff.1 h'))
  · intro x y _ _ h; unfold nodeHash; rw [nodeEq_iff.1 h]

section
variable {bdd zdd : Bool} {nr i m : Nat} {c : Nat → Node (N + 1)} {row : List (Node (N + 1))}

/-- what the loop over the nodes of a level needs -/
structure PreN (nr i m : Nat) (c : Nat → Node (N + 1)) (row : List (Node (N + 1))) (st : RSt (N + 1)) : Prop where
  hi : i < nr
  inp : st.input i = row
  len : row.length = m
  map : ∀ {j : Nat} {nd} (b : Fin (N + 1)), row[j]? = some nd → (nd b).row < i ∧ st.look (nd b) = some (c j b)
  low : ∀ {j : Nat} (b : Fin (N + 1)), j < m → (c j b).row < i

/-- the new id of node `j` -/
def FinalN (bdd zdd : Bool) (i : Nat) (c : Nat → Node (N + 1)) (outs : List Nat) (j : Nat) (id : NodeId) : Prop :=
  (delN bdd zdd (c j) = true ∧ id = c j 0) ∨
  (delN bdd zdd (c j) = false ∧ ∃ q k : Nat, outs[q]? = some k ∧ c k = c j ∧ id = ⟨i, q⟩)

/-- invariant of the main loop: nodes before `t` are done, `outs` are the representatives -/
structure JN (bdd zdd : Bool) (nr i m : Nat) (c : Nat → Node (N + 1)) (row : List (Node (N + 1)))
    (st0 : RSt (N + 1)) (t : Nat) (outs : List Nat) (a : RedSt N) : Prop where
  done : ∀ {j : Nat}, j < t → nodeAt nr a.st.input ⟨i, j⟩ = some (c j)
  todo : ∀ {j : Nat}, t ≤ j → nodeAt nr a.st.input ⟨i, j⟩ = row[j]?
  inp : ∀ r, r ≠ i → a.st.input r = st0.input r
  ids : ∀ r, r ≠ i → a.st.newId r = st0.newId r
  idlen : (a.st.newId i).length = m
  fin : ∀ {j : Nat}, j < t → ∃ id, (a.st.newId i)[j]? = some (some id) ∧ FinalN bdd zdd i c outs j id
  keep : ∀ {q k : Nat}, outs[q]? = some k → (a.st.newId i)[k]? = some (some ⟨i, q⟩)
  outsOk : ∀ {k}, k ∈ outs → k < t ∧ delN bdd zdd (c k) = false
  uniq : ∀ {q q' k k' : Nat}, outs[q]? = some k → outs[q']? = some k' → c k = c k' → q = q'
  tab : HSim nodeHash nodeEq (fun _ => True) a.uniq (outs.map fun k => (k, c k))
  jj : a.jj = outs.length
  out : a.st.output = st0.output
  root : a.st.root = st0.root

theorem FinalN.mono {outs : List Nat} {j : Nat} {id : NodeId} {x : Nat} (h : FinalN bdd zdd i c outs j id) :
    FinalN bdd zdd i c (outs ++ [x]) j id := by
  rcases h with h | ⟨h, q, k, h1, h2⟩
  · exact .inl h
  · exact .inr ⟨h, q, k, getElem?_append_of_some h1, h2⟩

theorem reduceStep_spec {st0 : RSt (N + 1)} (hp : PreN nr i m c row st0) {t : Nat} (ht : t < m) {outs : List Nat}
    {a : RedSt N} (h : JN bdd zdd nr i m c row st0 t outs a) :
    ∃ outs' a', reduceStep bdd zdd nr i a t = some a' ∧ JN bdd zdd nr i m c row st0 (t + 1) outs' a' := by
  obtain ⟨nd, hnd⟩ := getElem?_of_lt (l := row) (i := t) (by rw [hp.len]; exact ht)
  have hat : nodeAt nr a.st.input ⟨i, t⟩ = some nd := by rw [h.todo (Nat.le_refl _), hnd]
  have hmap : mapNode a.st.look nd = some (c t) := by
    refine allSome_of fun b => ?_
    obtain ⟨h1, h2⟩ := hp.map b hnd
    rw [← h2]
    unfold RSt.look
    rw [h.ids _ (by omega)]
  obtain ⟨T1, e1, w1⟩ := setNode_spec (c t) hat
  unfold reduceStep
  simp only [hat, hmap, e1, Option.bind_eq_bind, Option.bind_some]
  have at1 : ∀ {j : Nat}, nodeAt nr T1 ⟨i, j⟩ = if j = t then some (c t) else nodeAt nr a.st.input ⟨i, j⟩ := by
    intro j
    rw [w1.at']
    by_cases e : j = t
    · subst e; simp
    · rw [if_neg e, if_neg (by intro e'; exact e (congrArg NodeId.col e'))]
  have hdone : ∀ {j : Nat}, j < t + 1 → nodeAt nr T1 ⟨i, j⟩ = some (c j) := by
    intro j hj
    rw [at1]
    by_cases e : j = t
    · rw [if_pos e, e]
    · rw [if_neg e]; exact h.done (by omega)
  have htodo : ∀ {j : Nat}, t + 1 ≤ j → nodeAt nr T1 ⟨i, j⟩ = row[j]? := by
    intro j hj; rw [at1, if_neg (by omega)]; exact h.todo (by omega)
  have hinp : ∀ r, r ≠ i → T1 r = st0.input r := by
    intro r hr; rw [w1.row r hr]; exact h.inp r hr
  have hlen : ∀ T : Rows (N + 1), t < (RSt.newId { a.st with input := T } i).length := by
    intro T; show t < (a.st.newId i).length; rw [h.idlen]; exact ht
  have hids : ∀ (v : NodeId) r, r ≠ i → upd a.st.newId i ((a.st.newId i).set t (some v)) r = st0.newId r := by
    intro v r hr; unfold upd; rw [if_neg hr]; exact h.ids r hr
  have hself : ∀ (v : NodeId), upd a.st.newId i ((a.st.newId i).set t (some v)) i = (a.st.newId i).set t (some v) := by
    intro v; unfold upd; rw [if_pos rfl]
  have hidl : ∀ (v : NodeId), ((a.st.newId i).set t (some v)).length = m := by
    intro v; rw [List.length_set]; exact h.idlen
  have hat' : ∀ (v : NodeId), ((a.st.newId i).set t (some v))[t]? = some (some v) := by
    intro v; exact List.getElem?_set_self (by rw [h.idlen]; exact ht)
  have hne' : ∀ (v : NodeId) {j : Nat}, j ≠ t → ((a.st.newId i).set t (some v))[j]? = (a.st.newId i)[j]? := by
    intro v j hj; exact List.getElem?_set_ne (by omega)
  have hkept : ∀ (v : NodeId) {q k : Nat}, outs[q]? = some k → ((a.st.newId i).set t (some v))[k]? = some (some ⟨i, q⟩) := by
    intro v q k hq
    have := (h.outsOk (mem_of_getElem?' hq)).1
    rw [hne' v (by omega)]; exact h.keep hq
  by_cases hdel : delN bdd zdd (c t) = true
  · rw [if_pos hdel, setId_spec _ (hlen _)]
    simp only [Option.bind_some]
    refine ⟨outs, _, rfl, hdone, htodo, hinp, hids _, by dsimp only; rw [hself]; exact hidl _, ?_, ?_, ?_, h.uniq, h.tab,
      h.jj, h.out, h.root⟩
    · intro j hj
      dsimp only
      rw [hself]
      by_cases e : j = t
      · subst e
        exact ⟨c j 0, hat' _, .inl ⟨hdel, rfl⟩⟩
      · rw [hne' _ e]; exact h.fin (by omega)
    · intro q k hq; dsimp only; rw [hself]; exact hkept _ hq
    · intro k hk
      obtain ⟨h1, h2⟩ := h.outsOk hk
      exact ⟨by omega, h2⟩
  · have hkeep : delN bdd zdd (c t) = false := by simpa using hdel
    rw [if_neg hdel]
    obtain ⟨u, x, e2, h2, _, h3⟩ := h.tab.add nodeLaw (x := (t, c t)) trivial
    simp only [e2, Option.bind_some, h3]
    unfold addSpec at h2
    cases hf : (outs.map fun k => (k, c k)).find? (fun e => nodeEq e (t, c t)) with
    | none =>
      have hno := List.find?_eq_none.1 hf
      have hany : (outs.map fun k => (k, c k)).any (fun e => nodeEq e (t, c t)) = false := by
        rw [List.any_eq_false]; exact hno
      rw [hany] at h2
      simp only [Bool.false_eq_true, if_false] at h2
      simp only [Option.getD_none, if_true, setId_spec _ (hlen _), Option.bind_some]
      have hfresh : ∀ k ∈ outs, c k ≠ c t := by
        intro k hk he
        exact hno (k, c k) (List.mem_map.2 ⟨k, hk, rfl⟩) (nodeEq_iff.2 he)
      refine ⟨outs ++ [t], _, rfl, hdone, htodo, hinp, hids _, by dsimp only; rw [hself]; exact hidl _, ?_, ?_, ?_, ?_, ?_, ?_,
        h.out, h.root⟩
      · intro j hj
        dsimp only
        rw [hself]
        by_cases e : j = t
        · subst e
          exact ⟨⟨i, a.jj⟩, hat' _, .inr ⟨hkeep, outs.length, j, by simp, rfl, by rw [h.jj]⟩⟩
        · rw [hne' _ e]
          obtain ⟨id, h4, h5⟩ := h.fin (j := j) (by omega)
          exact ⟨id, h4, h5.mono⟩
      · intro q k hq
        dsimp only
        rw [hself]
        by_cases hq' : q < outs.length
        · rw [List.getElem?_append_left hq'] at hq; exact hkept _ hq
        · have hlt := getElem?_lt hq
          rw [List.length_append, List.length_singleton] at hlt
          have eq' : q = outs.length := by omega
          subst eq'
          simp at hq
          subst hq
          rw [hat', h.jj]
      · intro k hk
        rw [List.mem_append, List.mem_singleton] at hk
        rcases hk with hk | rfl
        · obtain ⟨h1, h2⟩ := h.outsOk hk
          exact ⟨by omega, h2⟩
        · exact ⟨by omega, hkeep⟩
      · intro q q' x y g1 g2 g3
        have split : ∀ {q x : Nat}, (outs ++ [t])[q]? = some x → (outs[q]? = some x ∧ x ∈ outs) ∨ q = outs.length ∧ x = t := by
          intro q x h1
          by_cases hq : q < outs.length
          · rw [List.getElem?_append_left hq] at h1; exact .inl ⟨h1, mem_of_getElem?' h1⟩
          · have hlt := getElem?_lt h1
            rw [List.length_append, List.length_singleton] at hlt
            have eq' : q = outs.length := by omega
            subst eq'
            simp at h1
            exact .inr ⟨rfl, h1.symm⟩
        rcases split g1 with ⟨a1, m1⟩ | ⟨a1, b1⟩ <;> rcases split g2 with ⟨a2, m2⟩ | ⟨a2, b2⟩
        · exact h.uniq a1 a2 g3
        · rw [b2] at g3; exact absurd g3 (hfresh _ m1)
        · rw [b1] at g3; exact absurd g3.symm (hfresh _ m2)
        · omega
      · rw [List.map_append]; exact h2
      · dsimp only; rw [h.jj, List.length_append]; rfl
    | some e =>
      have hmem := List.mem_of_find?_eq_some hf
      obtain ⟨k, hk, rfl⟩ := List.mem_map.1 hmem
      have hck : c k = c t := nodeEq_iff.1 (by simpa using List.find?_some hf)
      have hany : (outs.map fun k => (k, c k)).any (fun e => nodeEq e (t, c t)) = true :=
        List.any_eq_true.2 ⟨_, hmem, nodeEq_iff.2 hck⟩
      rw [hany, if_pos rfl] at h2
      obtain ⟨hkt, _⟩ := h.outsOk hk
      obtain ⟨q, hq⟩ := List.mem_iff_getElem?.1 hk
      simp only [Option.getD_some]
      rw [if_neg (by omega)]
      have hl : RSt.look { a.st with input := T1 } ⟨i, k⟩ = some ⟨i, q⟩ := by
        unfold RSt.look; dsimp only; rw [h.keep hq]; rfl
      simp only [hl, Option.bind_some, setId_spec _ (hlen _)]
      refine ⟨outs, _, rfl, hdone, htodo, hinp, hids _, by dsimp only; rw [hself]; exact hidl _, ?_, ?_, ?_, h.uniq, h2,
        h.jj, h.out, h.root⟩
      · intro j hj
        dsimp only
        rw [hself]
        by_cases e : j = t
        · subst e
          exact ⟨⟨i, q⟩, hat' _, .inr ⟨hkeep, q, k, hq, hck, rfl⟩⟩
        · rw [hne' _ e]; exact h.fin (by omega)
      · intro q k hq; dsimp only; rw [hself]; exact hkept _ hq
      · intro k hk
        obtain ⟨h1, h2⟩ := h.outsOk hk
        exact ⟨by omega, h2⟩

/-- What `reduce_` does on one level. -/
structure LevelN (bdd zdd : Bool) (top i m : Nat) (c : Nat → Node (N + 1)) (lower : List Nat) (st st' : RSt (N + 1))
    (ids : List NodeId) (out : List (Node (N + 1))) : Prop where
  row : RowOk (fun c => delN bdd zdd c = true) i m c ids out
  newId : st'.newId i = ids.map some
  other : ∀ r, r ≠ i → st'.newId r = if r ∈ lower then [] else st.newId r
  inp : ∀ r, r ≠ i → st'.input r = st.input r
  out : st'.output = upd st.output i out
  root : if i = top then ids[st.root.col]? = some st'.root else st'.root = st.root

theorem reduceLevel_spec {top : Nat} {lower : Nat → List Nat} {st : RSt (N + 1)}
    (hp : PreN nr i m c row { st with newId := upd st.newId i (List.replicate m none) })
    (hlo : ∀ r ∈ lower i, r < i) (hroot : i = top → st.root.col < m) :
    ∃ st' ids out, reduceLevel bdd zdd nr top lower st i = some st' ∧
      LevelN bdd zdd top i m c (lower i) st st' ids out := by
  have hm : (st.input i).length = m := by rw [← hp.len, ← hp.inp]
  obtain ⟨u, eu, hok, _, _, hsz, hemp⟩ := HT.init_spec (hash := nodeHash (N := N)) (eq := nodeEq) (P := fun _ => True)
    (m * 2) HT.empty
  have hni : i ∉ lower i := fun h => absurd (hlo i h) (Nat.lt_irrefl _)
  obtain ⟨a, e1, outs, h1⟩ := foldlM_up (f := reduceStep bdd zdd nr i)
    (fun t a => ∃ outs, JN bdd zdd nr i m c row { st with newId := upd st.newId i (List.replicate m none) } t outs a) m
    { st := { st with newId := upd st.newId i (List.replicate m none) }, uniq := u, jj := 0 }
    ⟨[], fun hj => by omega, fun hj => by unfold nodeAt; rw [if_pos hp.hi]; exact congrArg (·[_]?) hp.inp,
      fun _ _ => rfl, fun _ _ => rfl, by simp [upd], fun hj => by omega, fun hq => by simp at hq, fun hk => by simp at hk,
      fun hq => by simp at hq, ⟨hok, fun e => by simp [hemp e], by simpa using hsz, by simp⟩, rfl, rfl, rfl⟩
    (fun t a ht ⟨outs, h⟩ => by
      obtain ⟨outs', a', e, h'⟩ := reduceStep_spec hp ht h
      exact ⟨a', e, outs', h'⟩)
  obtain ⟨ids, hids⟩ : ∃ ids : List NodeId, a.st.newId i = ids.map some := by
    refine ⟨(a.st.newId i).map fun x => x.getD .zero, ?_⟩
    apply eq_map_some
    · simp
    · intro j x hx
      rw [List.getElem?_map, Option.map_eq_some_iff] at hx
      obtain ⟨y, h4, h5⟩ := hx
      obtain ⟨id, h6, _⟩ := h1.fin (j := j) (by rw [← h1.idlen]; exact getElem?_lt h4)
      rw [h6] at h4
      cases h4
      rw [h6, ← h5]; rfl
  have hidat : ∀ (j : Nat) id, (a.st.newId i)[j]? = some (some id) ↔ ids[j]? = some id := by
    intro j id
    rw [hids, List.getElem?_map, Option.map_eq_some_iff]
    constructor
    · rintro ⟨x, h4, h5⟩; cases h5; exact h4
    · exact fun h => ⟨id, h, rfl⟩
  have hidlen : ids.length = m := by rw [← h1.idlen, hids, List.length_map]
  have hnew : clearIds (lower i) a.st.newId i = a.st.newId i := by rw [clearIds_at, if_neg hni]
  -- the copy loop
  obtain ⟨orow, e2, h2, h3⟩ := foldlM_up
    (f := copyStep nr i { a.st with newId := clearIds (lower i) a.st.newId })
    (fun t r => r.length = outs.length ∧ ∀ (q k : Nat), outs[q]? = some k → k < t → r[q]? = some (some (c k))) m
    (List.replicate a.jj none) ⟨by rw [List.length_replicate, h1.jj], fun q k _ hk => by omega⟩
    (by
      rintro t r ht ⟨hr1, hr2⟩
      obtain ⟨id, h4, h5⟩ := h1.fin ht
      have hl : RSt.look { a.st with newId := clearIds (lower i) a.st.newId } ⟨i, t⟩ = some id := by
        unfold RSt.look; dsimp only; rw [hnew, h4]; rfl
      have hat : nodeAt nr a.st.input ⟨i, t⟩ = some (c t) := h1.done ht
      unfold copyStep
      simp only [hl, Option.bind_eq_bind, Option.bind_some]
      rcases h5 with ⟨h5, h6⟩ | ⟨h5, q, k, h6, h7, h8⟩
      · have := hp.low (j := t) 0 ht
        rw [if_neg (by rw [h6]; omega)]
        refine ⟨r, rfl, hr1, fun q k hq hk => ?_⟩
        by_cases e : k = t
        · subst e
          have := (h1.outsOk (mem_of_getElem?' hq)).2
          rw [h5] at this; cases this
        · exact hr2 q k hq (by omega)
      · subst h8
        have hql := getElem?_lt h6
        rw [if_pos rfl]
        simp only [hat, Option.bind_some]
        rw [if_pos (by rw [hr1]; exact hql)]
        refine ⟨_, rfl, by rw [List.length_set]; exact hr1, fun q' k' hq' hk' => ?_⟩
        by_cases e : q' = q
        · subst e
          rw [h6] at hq'
          cases hq'
          rw [List.getElem?_set_self (by rw [hr1]; exact hql), h7]
        · rw [List.getElem?_set_ne (by omega)]
          refine hr2 q' k' hq' ?_
          apply Classical.byContradiction
          intro hlt
          have : k' = t := by omega
          subst this
          exact e (h1.uniq hq' h6 h7.symm))
  have hrow : orow = (outs.map c).map some := by
    apply eq_map_some
    · rw [h2, List.length_map]
    · intro q nd hq
      rw [List.getElem?_map, Option.map_eq_some_iff] at hq
      obtain ⟨k, h4, h5⟩ := hq
      rw [h3 q k h4 (h1.outsOk (mem_of_getElem?' h4)).1, h5]
  have hfin : ∃ r', rootUpdate top i ⟨upd a.st.input i [], clearIds (lower i) a.st.newId, upd a.st.output i (outs.map c), a.st.root⟩ =
      some ⟨upd a.st.input i [], clearIds (lower i) a.st.newId, upd a.st.output i (outs.map c), r'⟩ ∧
      if i = top then ids[st.root.col]? = some r' else r' = st.root := by
    have er : a.st.root = st.root := h1.root
    by_cases ht : i = top
    · obtain ⟨id, hid⟩ := getElem?_of_lt (l := ids) (i := st.root.col) (by rw [hidlen]; exact hroot ht)
      refine ⟨id, ?_, by rw [if_pos ht]; exact hid⟩
      unfold rootUpdate RSt.look
      rw [if_pos ht]
      dsimp only
      rw [er, hnew, (hidat _ _).2 hid]; rfl
    · refine ⟨st.root, ?_, by rw [if_neg ht]⟩
      unfold rootUpdate
      rw [if_neg ht, ← er]
  obtain ⟨r', e4, hr'⟩ := hfin
  refine ⟨⟨upd a.st.input i [], clearIds (lower i) a.st.newId, upd a.st.output i (outs.map c), r'⟩, ids, outs.map c,
    ?_, ?_, ?_, ?_, ?_, ?_, hr'⟩
  · unfold reduceLevel
    simp only [hm, Option.bind_eq_bind, eu, Option.bind_some, e1, e2, hrow, fullRow_some]
    exact e4
  · refine ⟨hidlen, ?_, ?_, ?_⟩
    · intro j hj
      obtain ⟨id, h4, h5⟩ := h1.fin hj
      refine ⟨id, (hidat _ _).1 h4, ?_⟩
      rcases h5 with h5 | ⟨h5, q, k, h6, h7, h8⟩
      · exact .inl h5
      · refine .inr ⟨by rw [h5]; decide, by rw [h8], ?_⟩
        rw [h8, List.getElem?_map, h6, ← h7]; rfl
    · intro q nd hq
      rw [List.getElem?_map, Option.map_eq_some_iff] at hq
      obtain ⟨k, h4, h5⟩ := hq
      exact ⟨k, (h1.outsOk (mem_of_getElem?' h4)).1, (hidat _ _).1 (h1.keep h4)⟩
    · intro q q' nd hq hq'
      rw [List.getElem?_map, Option.map_eq_some_iff] at hq hq'
      obtain ⟨k, h4, h5⟩ := hq
      obtain ⟨k', h4', h5'⟩ := hq'
      exact h1.uniq h4 h4' (by rw [h5, h5'])
  · dsimp only; rw [hnew]; exact hids
  · intro r hr
    dsimp only
    rw [clearIds_at, h1.ids r hr]
    simp [upd, hr]
  · intro r hr
    dsimp only [upd]
    rw [if_neg hr, h1.inp r hr]
  · dsimp only
    rw [h1.out]

end

end TdZdd
