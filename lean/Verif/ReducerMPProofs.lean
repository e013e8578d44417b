import Verif.ReducerMP
import Verif.ReducerProofs8

/-! The parallel reducer: every schedule gives a correct reduction. -/

namespace TdZdd

variable {N : Nat}

section
variable {bdd zdd : Bool} {nr i m tasks threads : Nat} {c : Nat → Node (N + 1)} {row : List (Node (N + 1))}

/-- invariant of the first loop; `pre` are the executed iterations -/
structure J1 (bdd zdd : Bool) (nr i m tasks : Nat) (c : Nat → Node (N + 1)) (row : List (Node (N + 1)))
    (s0 : MpSt N) (pre : List (Nat × Nat)) (a : MpSt N) : Prop where
  done : ∀ {j : Nat}, j ∈ pre.map (·.2) → nodeAt nr a.st.input ⟨i, j⟩ = some (c j)
  todo : ∀ {j : Nat}, j ∉ pre.map (·.2) → nodeAt nr a.st.input ⟨i, j⟩ = row[j]?
  inp : ∀ r, r ≠ i → a.st.input r = s0.st.input r
  ids : ∀ r, r ≠ i → a.st.newId r = s0.st.newId r
  idlen : (a.st.newId i).length = m
  del : ∀ {j : Nat}, j ∈ pre.map (·.2) → delN bdd zdd (c j) = true → (a.st.newId i)[j]? = some (some (c j 0))
  mat : ∀ y x j d, (j, d) ∈ a.matrix y x ↔
    (y, j) ∈ pre ∧ d = c j ∧ delN bdd zdd (c j) = false ∧ nodeHash (j, c j) % tasks = x
  matNd : ∀ y x, ((a.matrix y x).map (·.1)).Nodup
  base : a.base = s0.base
  out : a.st.output = s0.st.output
  root : a.st.root = s0.st.root

theorem mpScan_spec {s0 : MpSt N} (hp : PreN nr i m c row s0.st) (htask : 0 < tasks) {pre : List (Nat × Nat)}
    {e : Nat × Nat} (hj : e.2 < m) (hnew : e.2 ∉ pre.map (·.2)) {a : MpSt N}
    (h : J1 bdd zdd nr i m tasks c row s0 pre a) :
    ∃ a', mpScan bdd zdd nr i tasks a e = some a' ∧ J1 bdd zdd nr i m tasks c row s0 (pre ++ [e]) a' := by
  obtain ⟨y, t⟩ := e
  dsimp only at hj hnew
  obtain ⟨nd, hnd⟩ := getElem?_of_lt (l := row) (i := t) (by rw [hp.len]; exact hj)
  have hat : nodeAt nr a.st.input ⟨i, t⟩ = some nd := by rw [h.todo hnew, hnd]
  have hmap : mapNode a.st.look nd = some (c t) := by
    refine allSome_of fun b => ?_
    obtain ⟨h1, h2⟩ := hp.map b hnd
    rw [← h2]
    unfold RSt.look
    rw [h.ids _ (by omega)]
  obtain ⟨T1, e1, w1⟩ := setNode_spec (c t) hat
  unfold mpScan
  simp only [hat, hmap, e1, Option.bind_eq_bind, Option.bind_some]
  have at1 : ∀ {j : Nat}, nodeAt nr T1 ⟨i, j⟩ = if j = t then some (c t) else nodeAt nr a.st.input ⟨i, j⟩ := by
    intro j
    rw [w1.at']
    by_cases e : j = t
    · subst e; simp
    · rw [if_neg e, if_neg (by intro e'; exact e (congrArg NodeId.col e'))]
  have hmem : ∀ {j : Nat}, j ∈ (pre ++ [(y, t)]).map (·.2) ↔ j ∈ pre.map (·.2) ∨ j = t := by
    intro j; simp
  have hdone : ∀ {j : Nat}, j ∈ (pre ++ [(y, t)]).map (·.2) → nodeAt nr T1 ⟨i, j⟩ = some (c j) := by
    intro j hj
    rw [at1]
    by_cases e : j = t
    · rw [if_pos e, e]
    · rw [if_neg e]; exact h.done ((hmem.1 hj).resolve_right e)
  have htodo : ∀ {j : Nat}, j ∉ (pre ++ [(y, t)]).map (·.2) → nodeAt nr T1 ⟨i, j⟩ = row[j]? := by
    intro j hj
    rw [at1, if_neg fun e => hj (hmem.2 (.inr e))]
    exact h.todo fun e => hj (hmem.2 (.inl e))
  have hinp : ∀ r, r ≠ i → T1 r = s0.st.input r := by
    intro r hr; rw [w1.row r hr]; exact h.inp r hr
  have hyj : ∀ {y' j : Nat}, (y', j) ∈ pre ++ [(y, t)] ↔ (y', j) ∈ pre ∨ (y' = y ∧ j = t) := by
    intro y' j; simp
  by_cases hdel : delN bdd zdd (c t) = true
  · rw [if_pos hdel, setId_spec (st := { a.st with input := T1 }) _ (show t < (a.st.newId i).length by rw [h.idlen]; exact hj)]
    simp only [Option.bind_some]
    refine ⟨_, rfl, hdone, htodo, hinp, ?_, ?_, ?_, ?_, h.matNd, h.base, h.out, h.root⟩
    · intro r hr; dsimp only; unfold upd; rw [if_neg hr]; exact h.ids r hr
    · dsimp only; unfold upd; rw [if_pos rfl, List.length_set]; exact h.idlen
    · intro j hj' hd
      dsimp only
      unfold upd
      rw [if_pos rfl]
      by_cases e : j = t
      · rw [e, List.getElem?_set_self (by rw [h.idlen]; exact hj)]
      · rw [List.getElem?_set_ne (by omega)]
        exact h.del ((hmem.1 hj').resolve_right e) hd
    · intro y' x j d
      rw [h.mat, hyj]
      constructor
      · rintro ⟨h1, h2⟩; exact ⟨.inl h1, h2⟩
      · rintro ⟨h1, h2, h3, h4⟩
        refine ⟨h1.resolve_right fun e => ?_, h2, h3, h4⟩
        rw [e.2, hdel] at h3; cases h3
  · have hkeep : delN bdd zdd (c t) = false := by simpa using hdel
    rw [if_neg hdel, if_neg (by omega)]
    refine ⟨_, rfl, hdone, htodo, hinp, h.ids, h.idlen, ?_, ?_, ?_, h.base, h.out, h.root⟩
    · intro j hj' hd
      refine h.del ((hmem.1 hj').resolve_right fun e => ?_) hd
      rw [e, hkeep] at hd; cases hd
    · intro y' x j d
      dsimp only
      unfold upd
      rw [hyj]
      by_cases hy : y' = y
      · subst hy
        rw [if_pos rfl]
        by_cases hx : x = nodeHash (t, c t) % tasks
        · subst hx
          rw [if_pos rfl, List.mem_cons, h.mat]
          constructor
          · rintro (h1 | ⟨h1, h2⟩)
            · cases h1; exact ⟨.inr ⟨rfl, rfl⟩, rfl, hkeep, rfl⟩
            · exact ⟨.inl h1, h2⟩
          · rintro ⟨h1 | h1, h2, h3, h4⟩
            · exact .inr ⟨h1, h2, h3, h4⟩
            · left; rw [h2, h1.2]
        · rw [if_neg hx, h.mat]
          constructor
          · rintro ⟨h1, h2⟩; exact ⟨.inl h1, h2⟩
          · rintro ⟨h1 | h1, h2, h3, h4⟩
            · exact ⟨h1, h2, h3, h4⟩
            · rw [h1.2] at h4; exact absurd h4.symm hx
      · rw [if_neg hy, h.mat]
        constructor
        · rintro ⟨h1, h2⟩; exact ⟨.inl h1, h2⟩
        · rintro ⟨h1, h2⟩; exact ⟨h1.resolve_right fun e => hy e.1, h2⟩
    · intro y' x
      dsimp only
      unfold upd
      by_cases hy : y' = y
      · subst hy
        rw [if_pos rfl]
        by_cases hx : x = nodeHash (t, c t) % tasks
        · subst hx
          rw [if_pos rfl, List.map_cons, List.nodup_cons]
          refine ⟨fun hm => ?_, h.matNd _ _⟩
          obtain ⟨⟨j, d⟩, h1, h2⟩ := List.mem_map.1 hm
          dsimp only at h2
          subst h2
          exact hnew (List.mem_map.2 ⟨_, ((h.mat _ _ _ _).1 h1).1, rfl⟩)
        · rw [if_neg hx]; exact h.matNd _ _
      · rw [if_neg hy]; exact h.matNd _ _

/-- invariant of one task; `pre` are the handled entries -/
structure J2 (i m x : Nat) (c : Nat → Node (N + 1)) (st0 : RSt (N + 1))
    (pre : List (Nat × Node (N + 1))) (outs : List Nat) (a : TaskSt N) : Prop where
  eqs : ∃ l, l.length = m ∧ a.st = { st0 with newId := upd st0.newId i l }
  old : ∀ {j : Nat}, j ∉ pre.map (·.1) → (a.st.newId i)[j]? = (st0.newId i)[j]?
  fin : ∀ {j : Nat}, j ∈ pre.map (·.1) → ∃ q k : Nat, outs[q]? = some k ∧ c k = c j ∧
    (a.st.newId i)[j]? = some (some ⟨i + x, q⟩)
  keep : ∀ {q k : Nat}, outs[q]? = some k → (a.st.newId i)[k]? = some (some ⟨i + x, q⟩)
  outsOk : ∀ {k}, k ∈ outs → k ∈ pre.map (·.1)
  uniq : ∀ {q q' k k' : Nat}, outs[q]? = some k → outs[q']? = some k' → c k = c k' → q = q'
  tab : HSim nodeHash nodeEq (fun _ => True) a.uniq (outs.map fun k => (k, c k))
  jj : a.j = outs.length

theorem mpEntry_spec {x : Nat} {st0 : RSt (N + 1)} (hix : i + x < 2 ^ 20) {pre : List (Nat × Node (N + 1))}
    {t : Nat} (ht : t < m) (hnew : t ∉ pre.map (·.1)) {outs : List Nat} {a : TaskSt N}
    (h : J2 i m x c st0 pre outs a) :
    ∃ outs' a', mpEntry i x a (t, c t) = some a' ∧ J2 i m x c st0 (pre ++ [(t, c t)]) outs' a' := by
  have hlen : (a.st.newId i).length = m := by
    obtain ⟨l, hl, e⟩ := h.eqs
    rw [e]; simp [upd, hl]
  have heqs : ∀ v : NodeId, ∃ l, l.length = m ∧ ({ a.st with newId := upd a.st.newId i ((a.st.newId i).set t (some v)) } : RSt (N + 1)) =
      { st0 with newId := upd st0.newId i l } := by
    intro v
    obtain ⟨l, hl, e⟩ := h.eqs
    refine ⟨l.set t (some v), by rw [List.length_set]; exact hl, ?_⟩
    rw [e]
    dsimp only
    congr 1
    funext r
    unfold upd
    by_cases hr : r = i
    · rw [if_pos hr, if_pos hr, if_pos rfl]
    · rw [if_neg hr, if_neg hr, if_neg hr]
  have hself : ∀ (v : NodeId), upd a.st.newId i ((a.st.newId i).set t (some v)) i = (a.st.newId i).set t (some v) := by
    intro v; unfold upd; rw [if_pos rfl]
  have hat' : ∀ (v : NodeId), ((a.st.newId i).set t (some v))[t]? = some (some v) := by
    intro v; exact List.getElem?_set_self (by rw [hlen]; exact ht)
  have hne' : ∀ (v : NodeId) {j : Nat}, j ≠ t → ((a.st.newId i).set t (some v))[j]? = (a.st.newId i)[j]? := by
    intro v j hj; exact List.getElem?_set_ne (by omega)
  have hmem : ∀ {j : Nat}, j ∈ (pre ++ [(t, c t)]).map (·.1) ↔ j ∈ pre.map (·.1) ∨ j = t := by
    intro j; simp
  have hkept : ∀ (v : NodeId) {q k : Nat}, outs[q]? = some k → ((a.st.newId i).set t (some v))[k]? = some (some ⟨i + x, q⟩) := by
    intro v q k hq
    have := h.outsOk (mem_of_getElem?' hq)
    rw [hne' v fun e => hnew (by rw [← e]; exact this)]
    exact h.keep hq
  unfold mpEntry
  obtain ⟨u, z, e2, h2, _, h3⟩ := h.tab.add nodeLaw (x := (t, c t)) trivial
  simp only [e2, Option.bind_eq_bind, Option.bind_some, h3]
  unfold addSpec at h2
  cases hf : (outs.map fun k => (k, c k)).find? (fun e => nodeEq e (t, c t)) with
  | none =>
    have hno := List.find?_eq_none.1 hf
    have hany : (outs.map fun k => (k, c k)).any (fun e => nodeEq e (t, c t)) = false := by
      rw [List.any_eq_false]; exact hno
    rw [hany] at h2
    simp only [Bool.false_eq_true, if_false] at h2
    simp only [Option.getD_none, if_true]
    rw [if_pos hix, setId_spec _ (by rw [hlen]; exact ht)]
    simp only [Option.bind_some]
    have hfresh : ∀ k ∈ outs, c k ≠ c t := by
      intro k hk he
      exact hno (k, c k) (List.mem_map.2 ⟨k, hk, rfl⟩) (nodeEq_iff.2 he)
    refine ⟨outs ++ [t], _, rfl, heqs _, ?_, ?_, ?_, ?_, ?_, ?_, ?_⟩
    · intro j hj
      dsimp only
      rw [hself, hne' _ fun e => hj (hmem.2 (.inr e))]
      exact h.old fun e => hj (hmem.2 (.inl e))
    · intro j hj
      dsimp only
      rw [hself]
      by_cases e : j = t
      · subst e
        exact ⟨outs.length, j, by simp, rfl, by rw [hat', h.jj]⟩
      · obtain ⟨q, k, h4, h5, h6⟩ := h.fin ((hmem.1 hj).resolve_right e)
        exact ⟨q, k, getElem?_append_of_some h4, h5, by rw [hne' _ e]; exact h6⟩
    · intro q k hq
      dsimp only
      rw [hself]
      by_cases hq' : q < outs.length
      · rw [List.getElem?_append_left hq'] at hq; exact hkept _ hq
      · have hlt := getElem?_lt hq
        rw [List.length_append, List.length_singleton] at hlt
        have eq' : q = outs.length := by omega
        subst eq'
        simp at hq
        subst hq
        rw [hat', h.jj]
    · intro k hk
      rw [List.mem_append, List.mem_singleton] at hk
      rcases hk with hk | hk
      · exact hmem.2 (.inl (h.outsOk hk))
      · exact hmem.2 (.inr hk)
    · intro q q' x y g1 g2 g3
      have split : ∀ {q x : Nat}, (outs ++ [t])[q]? = some x → (outs[q]? = some x ∧ x ∈ outs) ∨ q = outs.length ∧ x = t := by
        intro q x h1
        by_cases hq : q < outs.length
        · rw [List.getElem?_append_left hq] at h1; exact .inl ⟨h1, mem_of_getElem?' h1⟩
        · have hlt := getElem?_lt h1
          rw [List.length_append, List.length_singleton] at hlt
          have eq' : q = outs.length := by omega
          subst eq'
          simp at h1
          exact .inr ⟨rfl, h1.symm⟩
      rcases split g1 with ⟨a1, m1⟩ | ⟨a1, b1⟩ <;> rcases split g2 with ⟨a2, m2⟩ | ⟨a2, b2⟩
      · exact h.uniq a1 a2 g3
      · rw [b2] at g3; exact absurd g3 (hfresh _ m1)
      · rw [b1] at g3; exact absurd g3.symm (hfresh _ m2)
      · omega
    · rw [List.map_append]; exact h2
    · dsimp only; rw [h.jj, List.length_append]; rfl
  | some e =>
    have hmem' := List.mem_of_find?_eq_some hf
    obtain ⟨k, hk, rfl⟩ := List.mem_map.1 hmem'
    have hck : c k = c t := nodeEq_iff.1 (by simpa using List.find?_some hf)
    have hany : (outs.map fun k => (k, c k)).any (fun e => nodeEq e (t, c t)) = true :=
      List.any_eq_true.2 ⟨_, hmem', nodeEq_iff.2 hck⟩
    rw [hany, if_pos rfl] at h2
    have hkt : k ≠ t := fun e => hnew (by rw [← e]; exact h.outsOk hk)
    obtain ⟨q, hq⟩ := List.mem_iff_getElem?.1 hk
    simp only [Option.getD_some]
    rw [if_neg hkt]
    have hl : a.st.look ⟨i, k⟩ = some ⟨i + x, q⟩ := by
      unfold RSt.look; dsimp only; rw [h.keep hq]; rfl
    simp only [hl, Option.bind_some]
    rw [setId_spec _ (by rw [hlen]; exact ht)]
    simp only [Option.bind_some]
    refine ⟨outs, _, rfl, heqs _, ?_, ?_, ?_, ?_, h.uniq, h2, h.jj⟩
    · intro j hj
      dsimp only
      rw [hself, hne' _ fun e => hj (hmem.2 (.inr e))]
      exact h.old fun e => hj (hmem.2 (.inl e))
    · intro j hj
      dsimp only
      rw [hself]
      by_cases e : j = t
      · subst e
        exact ⟨q, k, hq, hck, hat' _⟩
      · obtain ⟨q, k, h4, h5, h6⟩ := h.fin ((hmem.1 hj).resolve_right e)
        exact ⟨q, k, h4, h5, by rw [hne' _ e]; exact h6⟩
    · intro q k hq; dsimp only; rw [hself]; exact hkept _ hq
    · intro k hk; exact hmem.2 (.inl (h.outsOk hk))

/-- column `j` belongs to task `x` -/
def InTask (bdd zdd : Bool) (tasks : Nat) (c : Nat → Node (N + 1)) (x j : Nat) : Prop :=
  delN bdd zdd (c j) = false ∧ nodeHash (j, c j) % tasks = x

/-- the outcome of task `x`: representatives `outs` and temporary ids -/
structure TaskOk (bdd zdd : Bool) (i m tasks x : Nat) (c : Nat → Node (N + 1)) (newId : List (Option NodeId))
    (outs : List Nat) : Prop where
  fin : ∀ {j : Nat}, j < m → InTask bdd zdd tasks c x j → ∃ q k : Nat, outs[q]? = some k ∧ c k = c j ∧
    newId[j]? = some (some ⟨i + x, q⟩)
  keep : ∀ {q k : Nat}, outs[q]? = some k → newId[k]? = some (some ⟨i + x, q⟩)
  outsOk : ∀ {k}, k ∈ outs → k < m ∧ InTask bdd zdd tasks c x k
  uniq : ∀ {q q' k k' : Nat}, outs[q]? = some k → outs[q']? = some k' → c k = c k' → q = q'

/-- the lists of task `x` after the first loop -/
theorem taskList_spec {sched : MpSched} (hs : sched.Ok threads tasks m) {s0 a : MpSt N}
    (h : J1 bdd zdd nr i m tasks c row s0 sched.p1 a) (x : Nat) :
    (∀ j d, (j, d) ∈ taskList threads a.matrix x ↔ j < m ∧ d = c j ∧ InTask bdd zdd tasks c x j) ∧
    ((taskList threads a.matrix x).map (·.1)).Nodup := by
  constructor
  · intro j d
    unfold taskList InTask
    rw [List.mem_flatMap]
    constructor
    · rintro ⟨y, _, hy⟩
      obtain ⟨h1, h2, h3, h4⟩ := (h.mat _ _ _ _).1 hy
      refine ⟨?_, h2, h3, h4⟩
      exact List.mem_range.1 (hs.cols1.mem_iff.1 (List.mem_map.2 ⟨_, h1, rfl⟩))
    · rintro ⟨h1, h2, h3, h4⟩
      obtain ⟨⟨y, j'⟩, h5, h6⟩ := List.mem_map.1 (hs.cols1.mem_iff.2 (List.mem_range.2 h1))
      dsimp only at h6
      subst h6
      exact ⟨y, List.mem_range.2 (hs.thr1 _ h5), (h.mat _ _ _ _).2 ⟨h5, h2, h3, h4⟩⟩
  · unfold taskList
    rw [List.map_flatMap]
    have hnd : (sched.p1.map (·.2)).Nodup := hs.cols1.nodup_iff.2 List.nodup_range
    have hdisj : ∀ {y y' j : Nat}, (y, j) ∈ sched.p1 → (y', j) ∈ sched.p1 → y = y' := by
      generalize sched.p1 = l at hnd
      intro y y' j
      induction l with
      | nil => intro h; cases h
      | cons e l ih =>
        rw [List.map_cons, List.nodup_cons] at hnd
        intro h1 h2
        rcases List.mem_cons.1 h1 with h1 | h1 <;> rcases List.mem_cons.1 h2 with h2 | h2
        · rw [← h1] at h2; cases h2; rfl
        · rw [← h1] at hnd; exact absurd (List.mem_map.2 ⟨_, h2, rfl⟩) hnd.1
        · rw [← h2] at hnd; exact absurd (List.mem_map.2 ⟨_, h1, rfl⟩) hnd.1
        · exact ih hnd.2 h1 h2
    have gen : ∀ n, ((List.range n).flatMap fun y => (a.matrix y x).map (·.1)).Nodup := by
      intro n
      induction n with
      | zero => simp
      | succ n ih =>
        rw [List.range_succ, List.flatMap_append, List.nodup_append]
        refine ⟨ih, by simpa using h.matNd n x, ?_⟩
        intro j hj j' hj' e
        subst e
        obtain ⟨y, hy, hm⟩ := List.mem_flatMap.1 hj
        obtain ⟨⟨j1, d⟩, h1, h2⟩ := List.mem_map.1 hm
        simp only [List.flatMap_cons, List.flatMap_nil, List.append_nil] at hj'
        obtain ⟨⟨j2, d'⟩, h3, h4⟩ := List.mem_map.1 hj'
        dsimp only at h2 h4
        rw [h2] at h1
        rw [h4] at h3
        have := hdisj ((h.mat _ _ _ _).1 h1).1 ((h.mat _ _ _ _).1 h3).1
        rw [List.mem_range] at hy
        omega
    exact gen threads

/-- invariant of the second loop; `pre` are the finished tasks -/
structure J3 (bdd zdd : Bool) (i m tasks : Nat) (c : Nat → Node (N + 1)) (s1 : MpSt N) (pre : List Nat)
    (outs : Nat → List Nat) (a : MpSt N) : Prop where
  eqs : ∃ l, l.length = m ∧ a.st = { s1.st with newId := upd s1.st.newId i l }
  del : ∀ {j : Nat}, j < m → delN bdd zdd (c j) = true → (a.st.newId i)[j]? = (s1.st.newId i)[j]?
  mat : a.matrix = s1.matrix
  ok : ∀ {x}, x ∈ pre → TaskOk bdd zdd i m tasks x c (a.st.newId i) (outs x)
  base : ∀ {x}, x ∈ pre → a.base (x + 1) = (outs x).length
  base0 : a.base 0 = s1.base 0

theorem mpTask_spec {s1 : MpSt N} {x y : Nat} (hix : i + x < 2 ^ 20)
    (hl : ∀ j d, (j, d) ∈ taskList threads s1.matrix x ↔ j < m ∧ d = c j ∧ InTask bdd zdd tasks c x j)
    (hnd : ((taskList threads s1.matrix x).map (·.1)).Nodup) {pre : List Nat} (hx : x ∉ pre) {outs : Nat → List Nat}
    {a : MpSt N} (h : J3 bdd zdd i m tasks c s1 pre outs a) :
    ∃ outs' a', mpTask i threads a (y, x) = some a' ∧ J3 bdd zdd i m tasks c s1 (pre ++ [x]) outs' a' := by
  unfold mpTask
  dsimp only
  rw [h.mat]
  by_cases h0 : (taskList threads s1.matrix x).length = 0
  · rw [if_pos h0]
    have hemp : taskList threads s1.matrix x = [] := List.eq_nil_of_length_eq_zero h0
    have hno : ∀ {j}, j < m → ¬ InTask bdd zdd tasks c x j := by
      intro j hj hin
      have := (hl j (c j)).2 ⟨hj, rfl, hin⟩
      rw [hemp] at this; cases this
    refine ⟨upd outs x [], _, rfl, h.eqs, h.del, rfl, ?_, ?_, ?_⟩
    · intro x' hx'
      rw [List.mem_append, List.mem_singleton] at hx'
      unfold upd
      by_cases e : x' = x
      · rw [if_pos e]
        subst e
        exact ⟨fun hj hin => absurd hin (hno hj), fun hq => by simp at hq, fun hk => by simp at hk, fun hq => by simp at hq⟩
      · rw [if_neg e]; exact h.ok (hx'.resolve_right e)
    · intro x' hx'
      rw [List.mem_append, List.mem_singleton] at hx'
      dsimp only
      unfold upd
      by_cases e : x' = x
      · rw [if_pos e, if_pos (by omega)]; rfl
      · rw [if_neg e, if_neg (by omega)]; exact h.base (hx'.resolve_right e)
    · dsimp only; unfold upd; rw [if_neg (by omega)]; exact h.base0
  · rw [if_neg h0]
    obtain ⟨u, eu, hok, _, _, hsz, hemp⟩ := HT.init_spec (hash := nodeHash (N := N)) (eq := nodeEq) (P := fun _ => True)
      ((taskList threads s1.matrix x).length * 2) (a.uniq y)
    obtain ⟨lst, hlst, est⟩ := h.eqs
    obtain ⟨r, er, os, hr⟩ := foldlM_inv (f := mpEntry i x)
      (fun pre r => ∃ os, J2 i m x c a.st pre os r) (taskList threads s1.matrix x)
      { st := a.st, uniq := u, j := 0 }
      ⟨[], ⟨lst, hlst, by
          dsimp only
          rw [est]
          dsimp only
          congr 1
          funext r
          unfold upd
          by_cases hr : r = i
          · rw [if_pos hr, if_pos hr]
          · rw [if_neg hr, if_neg hr]⟩, fun _ => rfl, fun hj => by simp at hj, fun hq => by simp at hq,
        fun hk => by simp at hk, fun hq => by simp at hq, ⟨hok, fun e => by simp [hemp e], by simpa using hsz, by simp⟩, rfl⟩
      (by
        rintro pre e post r he ⟨os, hr⟩
        obtain ⟨j, d⟩ := e
        obtain ⟨h1, h2, h3⟩ := (hl j d).1 (by rw [he]; simp)
        subst h2
        rw [he, List.map_append, List.map_cons] at hnd
        obtain ⟨os', r', e', hr'⟩ := mpEntry_spec hix h1 (by
          intro hm
          exact (List.nodup_append.1 hnd).2.2 _ hm _ (by simp) rfl) hr
        exact ⟨r', e', os', hr'⟩)
    simp only [eu, er, Option.bind_eq_bind, Option.bind_some]
    have hcols : ∀ {j}, j ∈ (taskList threads s1.matrix x).map (·.1) ↔ j < m ∧ InTask bdd zdd tasks c x j := by
      intro j
      constructor
      · intro hm
        obtain ⟨⟨j', d⟩, h1, h2⟩ := List.mem_map.1 hm
        dsimp only at h2
        subst h2
        obtain ⟨h3, _, h4⟩ := (hl _ _).1 h1
        exact ⟨h3, h4⟩
      · rintro ⟨h1, h2⟩
        exact List.mem_map.2 ⟨(j, c j), (hl _ _).2 ⟨h1, rfl, h2⟩, rfl⟩
    refine ⟨upd outs x os, _, rfl, ?_, ?_, rfl, ?_, ?_, ?_⟩
    · obtain ⟨l2, hl2, e2⟩ := hr.eqs
      refine ⟨l2, hl2, ?_⟩
      dsimp only
      rw [e2, est]
      dsimp only
      congr 1
      funext r
      unfold upd
      by_cases hr : r = i
      · rw [if_pos hr, if_pos hr]
      · rw [if_neg hr, if_neg hr, if_neg hr]
    · intro j hj hd
      dsimp only
      rw [hr.old fun hm => by
        have := (hcols.1 hm).2.1
        rw [hd] at this; cases this]
      exact h.del hj hd
    · intro x' hx'
      rw [List.mem_append, List.mem_singleton] at hx'
      dsimp only
      unfold upd
      by_cases e : x' = x
      · rw [if_pos e]
        subst e
        exact ⟨fun hj hin => hr.fin (hcols.2 ⟨hj, hin⟩), hr.keep, fun hk => hcols.1 (hr.outsOk hk), hr.uniq⟩
      · rw [if_neg e]
        have ho := h.ok (hx'.resolve_right e)
        have hkeepcol : ∀ {j}, InTask bdd zdd tasks c x' j → (r.st.newId i)[j]? = (a.st.newId i)[j]? := by
          intro j hj
          refine hr.old fun hm => ?_
          exact e (hj.2.symm.trans (hcols.1 hm).2.2)
        refine ⟨?_, ?_, ho.outsOk, ho.uniq⟩
        · intro j hj hin
          rw [hkeepcol hin]; exact ho.fin hj hin
        · intro q k hq
          rw [hkeepcol (ho.outsOk (mem_of_getElem?' hq)).2]; exact ho.keep hq
    · intro x' hx'
      rw [List.mem_append, List.mem_singleton] at hx'
      dsimp only
      unfold upd
      by_cases e : x' = x
      · rw [if_pos e, if_pos (by omega)]; exact hr.jj
      · rw [if_neg e, if_neg (by omega)]; exact h.base (hx'.resolve_right e)
    · dsimp only; unfold upd; rw [if_neg (by omega)]; exact h.base0

/-- start of block `x` in the concatenation of the blocks -/
theorem flat_getElem {α : Type} (f : Nat → List α) {n x q : Nat} (hx : x < n) (hq : q < (f x).length) :
    ((List.range n).flatMap f)[((List.range x).flatMap f).length + q]? = (f x)[q]? := by
  induction n with
  | zero => omega
  | succ n ih =>
    rw [List.range_succ, List.flatMap_append, List.flatMap_cons, List.flatMap_nil, List.append_nil]
    by_cases e : x = n
    · subst e
      rw [List.getElem?_append_right (by omega)]
      congr 1; omega
    · have hlt : ((List.range x).flatMap f).length + q < ((List.range n).flatMap f).length := by
        have hi := ih (by omega)
        rw [List.getElem?_eq_getElem hq] at hi
        exact getElem?_lt hi
      rw [List.getElem?_append_left hlt]
      exact ih (by omega)

theorem flat_find {α : Type} (f : Nat → List α) {n p : Nat} {a : α} (h : ((List.range n).flatMap f)[p]? = some a) :
    ∃ x q, x < n ∧ p = ((List.range x).flatMap f).length + q ∧ (f x)[q]? = some a := by
  induction n with
  | zero => simp at h
  | succ n ih =>
    rw [List.range_succ, List.flatMap_append, List.flatMap_cons, List.flatMap_nil, List.append_nil] at h
    by_cases hp : p < ((List.range n).flatMap f).length
    · rw [List.getElem?_append_left hp] at h
      obtain ⟨x, q, h1, h2, h3⟩ := ih h
      exact ⟨x, q, by omega, h2, h3⟩
    · rw [List.getElem?_append_right (by omega)] at h
      exact ⟨n, _, by omega, by omega, h⟩

theorem mpSums_spec {base : Nat → Nat} {outs : Nat → List Nat} (h0 : base 0 = 0)
    (hb : ∀ x, x < tasks → base (x + 1) = (outs x).length) :
    ∀ x, x ≤ tasks → mpSums tasks base x = ((List.range x).flatMap outs).length := by
  have gen : ∀ t, t ≤ tasks - 1 → ∀ x, x ≤ tasks →
      (List.range t).foldl (fun b x => upd b (x + 2) (b (x + 2) + b (x + 1))) base x =
        if x ≤ t + 1 then ((List.range x).flatMap outs).length else base x := by
    intro t
    induction t with
    | zero =>
      intro _ x hx
      simp only [List.range_zero, List.foldl_nil]
      by_cases h1 : x ≤ 1
      · rw [if_pos (by omega)]
        by_cases h2 : x = 0
        · rw [h2, h0]; rfl
        · have : x = 1 := by omega
          subst this
          rw [hb 0 (by omega)]; simp
      · rw [if_neg (by omega)]
    | succ t ih =>
      intro ht x hx
      rw [List.range_succ, List.foldl_append, List.foldl_cons, List.foldl_nil]
      generalize hB : (List.range t).foldl (fun b x => upd b (x + 2) (b (x + 2) + b (x + 1))) base = B
      have ihB := ih (by omega)
      rw [hB] at ihB
      unfold upd
      by_cases e : x = t + 2
      · rw [if_pos e, if_pos (by omega), ihB (t + 2) (by omega), if_neg (by omega), ihB (t + 1) (by omega), if_pos (by omega),
          hb (t + 1) (by omega), e, List.range_succ (n := t + 1), List.flatMap_append]
        simp [Nat.add_comm]
      · rw [if_neg e, ihB x hx]
        by_cases h1 : x ≤ t + 1
        · rw [if_pos h1, if_pos (by omega)]
        · rw [if_neg h1, if_neg (by omega)]
  intro x hx
  unfold mpSums
  rw [gen _ (Nat.le_refl _) x hx]
  by_cases h1 : x ≤ tasks - 1 + 1
  · rw [if_pos h1]
  · omega

theorem upd_eq_self {α : Type} (f : Nat → α) (i : Nat) (v : α) : upd f i v i = v := by unfold upd; rw [if_pos rfl]
theorem upd_eq_ne {α : Type} (f : Nat → α) {i r : Nat} (v : α) (h : r ≠ i) : upd f i v r = f r := by
  unfold upd; rw [if_neg h]

theorem mpLevel_spec {top : Nat} {lower : Nat → List Nat} {sched : Nat → MpSched} {st : RSt (N + 1)} {base : Nat → Nat}
    (hp : PreN nr i m c row { st with newId := upd st.newId i (List.replicate m none) })
    (hlo : ∀ r ∈ lower i, r < i) (hroot : i = top → st.root.col < m) (htask : 0 < tasks) (hix : i + tasks ≤ 2 ^ 20)
    (hs : (sched i).Ok threads tasks m) (hb0 : base 0 = 0) :
    ∃ st' base' ids out, mpLevel bdd zdd threads tasks nr top lower sched (st, base) i = some (st', base') ∧
      LevelN bdd zdd top i m c (lower i) st st' ids out ∧ base' 0 = 0 := by
  have hm : (st.input i).length = m := by rw [← hp.len, ← hp.inp]
  have hni : i ∉ lower i := fun h => absurd (hlo i h) (Nat.lt_irrefl _)
  -- first loop
  have hnd1 : ((sched i).p1.map (·.2)).Nodup := hs.cols1.nodup_iff.2 List.nodup_range
  obtain ⟨s1, e1, h1⟩ := foldlM_inv (f := mpScan bdd zdd nr i tasks)
    (fun pre a => J1 bdd zdd nr i m tasks c row
      { st := { st with newId := upd st.newId i (List.replicate m none) }, matrix := fun _ _ => [], uniq := fun _ => HT.empty,
        base := base } pre a) (sched i).p1
    { st := { st with newId := upd st.newId i (List.replicate m none) }, matrix := fun _ _ => [], uniq := fun _ => HT.empty,
      base := base }
    ⟨fun hj => by simp at hj, fun _ => by unfold nodeAt; rw [if_pos hp.hi]; exact congrArg (·[_]?) hp.inp, fun _ _ => rfl,
      fun _ _ => rfl, by simp [upd], fun hj => by simp at hj, fun y x j d => by simp, fun y x => by simp, rfl, rfl, rfl⟩
    (by
      intro pre e post a he h
      have hmem : e.2 ∈ (sched i).p1.map (·.2) := by rw [he]; simp
      refine mpScan_spec hp htask (List.mem_range.1 (hs.cols1.mem_iff.1 hmem)) ?_ h
      rw [he, List.map_append, List.map_cons] at hnd1
      intro hm
      exact (List.nodup_append.1 hnd1).2.2 _ hm _ (by simp) rfl)
  have hcol1 : ∀ {j}, j < m → j ∈ (sched i).p1.map (·.2) := fun hj => hs.cols1.mem_iff.2 (List.mem_range.2 hj)
  -- second loop
  have hnd2 : ((sched i).p2.map (·.2)).Nodup := hs.tasks2.nodup_iff.2 List.nodup_range
  have hclr : clearIds (lower i) s1.st.newId i = s1.st.newId i := by rw [clearIds_at, if_neg hni]
  generalize hs1' : ({ s1 with st := { s1.st with newId := clearIds (lower i) s1.st.newId } } : MpSt N) = s1'
  have e_mat : s1'.matrix = s1.matrix := by rw [← hs1']
  have e_id : s1'.st.newId i = s1.st.newId i := by rw [← hs1']; exact hclr
  obtain ⟨s2, e2, outs, h2⟩ := foldlM_inv (f := mpTask i threads)
    (fun pre a => ∃ outs, J3 bdd zdd i m tasks c s1' (pre.map (·.2)) outs a) (sched i).p2 s1'
    ⟨fun _ => [], ⟨s1'.st.newId i, by rw [e_id]; exact h1.idlen, by
        have : upd s1'.st.newId i (s1'.st.newId i) = s1'.st.newId := by
          funext r
          by_cases hr : r = i
          · rw [hr, upd_eq_self]
          · rw [upd_eq_ne _ _ hr]
        rw [this]⟩, fun _ _ => rfl, rfl, fun hx => by simp at hx, fun hx => by simp at hx, rfl⟩
    (by
      rintro pre ⟨y, x⟩ post a he ⟨outs, h⟩
      have hmem : x ∈ (sched i).p2.map (·.2) := by rw [he]; simp
      have hxt : x < tasks := List.mem_range.1 (hs.tasks2.mem_iff.1 hmem)
      obtain ⟨t1, t2⟩ := taskList_spec hs h1 x
      rw [← e_mat] at t1 t2
      obtain ⟨outs', a', e', h'⟩ := mpTask_spec (y := y) (pre := pre.map (·.2)) (by omega) t1 t2 (by
        rw [he, List.map_append, List.map_cons] at hnd2
        intro hm
        exact (List.nodup_append.1 hnd2).2.2 _ hm _ (by simp) rfl) h
      refine ⟨a', e', outs', ?_⟩
      rw [List.map_append]
      exact h')
  have hok : ∀ {x}, x < tasks → TaskOk bdd zdd i m tasks x c (s2.st.newId i) (outs x) :=
    fun hx => h2.ok (hs.tasks2.mem_iff.2 (List.mem_range.2 hx))
  have hbase : ∀ x, x ≤ tasks → mpSums tasks s2.base x = ((List.range x).flatMap outs).length := by
    refine mpSums_spec ?_ fun x hx => h2.base (hs.tasks2.mem_iff.2 (List.mem_range.2 hx))
    rw [h2.base0, ← hs1', h1.base]; exact hb0
  -- the concatenation of all representatives
  generalize hAll : (List.range tasks).flatMap outs = all
  obtain ⟨l2, hl2, est2⟩ := h2.eqs
  have hidlen2 : (s2.st.newId i).length = m := by rw [est2]; simp [upd, hl2]
  have hin2 : s2.st.input = s1.st.input := by rw [est2, ← hs1']
  have htemp : ∀ {j}, j < m → (delN bdd zdd (c j) = true ∧ (s2.st.newId i)[j]? = some (some (c j 0))) ∨
      (delN bdd zdd (c j) = false ∧ ∃ x q k : Nat, x < tasks ∧ (outs x)[q]? = some k ∧ c k = c j ∧
        (s2.st.newId i)[j]? = some (some ⟨i + x, q⟩)) := by
    intro j hj
    cases hd : delN bdd zdd (c j) with
    | true => left; exact ⟨rfl, by rw [h2.del hj hd, e_id]; exact h1.del (hcol1 hj) hd⟩
    | false =>
      right
      have hx : nodeHash (j, c j) % tasks < tasks := Nat.mod_lt _ htask
      obtain ⟨q, k, h3, h4, h5⟩ := (hok hx).fin hj ⟨hd, rfl⟩
      exact ⟨rfl, _, q, k, hx, h3, h4, h5⟩
  have hallAt : ∀ {x q k : Nat}, x < tasks → (outs x)[q]? = some k → all[((List.range x).flatMap outs).length + q]? = some k := by
    intro x q k hx hq
    rw [← hAll, flat_getElem outs hx (getElem?_lt hq), hq]
  have hallInv : ∀ {p k : Nat}, all[p]? = some k → ∃ x q, x < tasks ∧ p = ((List.range x).flatMap outs).length + q ∧
      (outs x)[q]? = some k := by
    intro p k hk
    rw [← hAll] at hk
    exact flat_find outs hk
  have hallUniq : ∀ {p p' k k' : Nat}, all[p]? = some k → all[p']? = some k' → c k = c k' → p = p' := by
    intro p p' k k' hk hk' he
    obtain ⟨x, q, h3, h4, h5⟩ := hallInv hk
    obtain ⟨x', q', h3', h4', h5'⟩ := hallInv hk'
    have hx : x = x' := by
      have a1 := ((hok h3).outsOk (mem_of_getElem?' h5)).2.2
      have a2 := ((hok h3').outsOk (mem_of_getElem?' h5')).2.2
      rw [← a1, ← a2]
      unfold nodeHash
      dsimp only
      rw [he]
    subst hx
    have := (hok h3).uniq h5 h5' he
    omega
  have hallOk : ∀ {k}, k ∈ all → k < m ∧ delN bdd zdd (c k) = false := by
    intro k hk
    obtain ⟨p, hp'⟩ := List.mem_iff_getElem?.1 hk
    obtain ⟨x, q, h3, h4, h5⟩ := hallInv hp'
    have := (hok h3).outsOk (mem_of_getElem?' h5)
    exact ⟨this.1, this.2.1⟩
  -- the final id of a column
  let F : Nat → NodeId → Prop := fun j id => FinalN bdd zdd i c all j id
  -- third loop
  have hnd3 : (sched i).p3.Nodup := hs.cols3.nodup_iff.2 List.nodup_range
  obtain ⟨⟨st3, orow⟩, e3, ⟨l3, hl3, est3⟩, h3old, h3fin, h3len, h3row⟩ := foldlM_inv (f := mpCopy nr i tasks (mpSums tasks s2.base))
    (fun pre a => (∃ l, l.length = m ∧ a.1 = { s2.st with newId := upd s2.st.newId i l }) ∧
      (∀ j : Nat, j ∉ pre → (a.1.newId i)[j]? = (s2.st.newId i)[j]?) ∧
      (∀ j : Nat, j ∈ pre → ∃ id, (a.1.newId i)[j]? = some (some id) ∧ F j id ∧
        ∀ p k : Nat, all[p]? = some k → k = j → id = ⟨i, p⟩) ∧
      a.2.length = all.length ∧
      ∀ p k : Nat, all[p]? = some k → k ∈ pre → a.2[p]? = some (some (c k)))
    (sched i).p3 (s2.st, List.replicate (mpSums tasks s2.base tasks) none)
    ⟨⟨s2.st.newId i, hidlen2, by
        have : upd s2.st.newId i (s2.st.newId i) = s2.st.newId := by
          funext r
          by_cases hr : r = i
          · rw [hr, upd_eq_self]
          · rw [upd_eq_ne _ _ hr]
        rw [this]⟩, fun _ _ => rfl, fun j hj => (nomatch hj), by
          rw [List.length_replicate, hbase _ (Nat.le_refl _), hAll], fun p k _ hk => (nomatch hk)⟩
    (by
      rintro pre j post ⟨st', r⟩ he ⟨⟨l, hl, est⟩, g1, g2, g3, g4⟩
      dsimp only at est g1 g2 g3 g4
      have hj : j < m := List.mem_range.1 (hs.cols3.mem_iff.1 (by rw [he]; simp))
      have hjn : j ∉ pre := by
        rw [he] at hnd3
        intro hm
        exact (List.nodup_append.1 hnd3).2.2 _ hm _ (by simp) rfl
      have hlen' : (st'.newId i).length = m := by rw [est]; simp [upd, hl]
      unfold mpCopy
      dsimp only
      rcases htemp hj with ⟨hd, ht⟩ | ⟨hd, x, q, k, hx, hq, hck, ht⟩
      · have hlook : st'.look ⟨i, j⟩ = some (c j 0) := by
          unfold RSt.look; dsimp only; rw [g1 j hjn, ht]; rfl
        have hlow := hp.low (j := j) 0 hj
        simp only [hlook, Option.bind_eq_bind, Option.bind_some]
        rw [if_neg (by omega)]
        refine ⟨_, rfl, ⟨l, hl, est⟩, ?_, ?_, g3, ?_⟩
        · intro j' hj'
          exact g1 j' fun hm => hj' (by simp [hm])
        · intro j' hj'
          rw [List.mem_append, List.mem_singleton] at hj'
          by_cases e : j' = j
          · subst e
            refine ⟨c j' 0, by dsimp only; rw [g1 j' hjn]; exact ht, .inl ⟨hd, rfl⟩, ?_⟩
            intro p k hk e
            subst e
            have := (hallOk (mem_of_getElem?' hk)).2
            rw [hd] at this; cases this
          · exact g2 j' (hj'.resolve_right e)
        · intro p k hk hm
          rw [List.mem_append, List.mem_singleton] at hm
          refine g4 p k hk (hm.resolve_right fun e => ?_)
          have := (hallOk (mem_of_getElem?' hk)).2
          rw [e, hd] at this; cases this
      · have hlook : st'.look ⟨i, j⟩ = some ⟨i + x, q⟩ := by
          unfold RSt.look; dsimp only; rw [g1 j hjn, ht]; rfl
        simp only [hlook, Option.bind_eq_bind, Option.bind_some]
        have hbx : mpSums tasks s2.base (i + x - i) = ((List.range x).flatMap outs).length := by
          rw [show i + x - i = x by omega]; exact hbase x (by omega)
        rw [if_pos (by omega), if_pos (by omega), setId_spec _ (by rw [hlen']; exact hj), hbx]
        have hat : nodeAt nr st'.input ⟨i, j⟩ = some (c j) := by
          rw [est]; dsimp only; rw [hin2]; exact h1.done (hcol1 hj)
        have hpos : all[q + ((List.range x).flatMap outs).length]? = some k := by
          rw [Nat.add_comm]; exact hallAt hx hq
        simp only [Option.bind_some, hat]
        rw [if_pos (by rw [g3]; exact getElem?_lt hpos)]
        refine ⟨_, rfl, ⟨l.set j (some ⟨i, q + ((List.range x).flatMap outs).length⟩), by rw [List.length_set]; exact hl, ?_⟩, ?_, ?_, ?_, ?_⟩
        · dsimp only
          rw [est]
          dsimp only
          congr 1
          funext r
          by_cases hr : r = i
          · rw [hr, upd_eq_self, upd_eq_self, upd_eq_self]
          · rw [upd_eq_ne _ _ hr, upd_eq_ne _ _ hr, upd_eq_ne _ _ hr]
        · intro j' hj'
          dsimp only
          rw [upd_eq_self, List.getElem?_set_ne (fun e => hj' (by simp [e]))]
          exact g1 j' fun hm => hj' (by simp [hm])
        · intro j' hj'
          rw [List.mem_append, List.mem_singleton] at hj'
          dsimp only
          rw [upd_eq_self]
          by_cases e : j' = j
          · subst e
            refine ⟨_, List.getElem?_set_self (by rw [hlen']; exact hj), .inr ⟨hd, _, k, hpos, hck, rfl⟩, ?_⟩
            intro p k' hk' e
            subst e
            rw [hallUniq hk' hpos hck.symm]
          · rw [List.getElem?_set_ne (by omega)]
            exact g2 j' (hj'.resolve_right e)
        · dsimp only; rw [List.length_set]; exact g3
        · intro p k' hk' hm
          dsimp only
          by_cases e : p = q + ((List.range x).flatMap outs).length
          · rw [e] at hk' ⊢
            rw [hpos] at hk'
            cases hk'
            rw [List.getElem?_set_self (by rw [g3]; exact getElem?_lt hpos), hck]
          · rw [List.getElem?_set_ne (by omega)]
            rw [List.mem_append, List.mem_singleton] at hm
            refine g4 p k' hk' (hm.resolve_right fun e' => ?_)
            subst e'
            exact e (hallUniq hk' hpos hck.symm))
  dsimp only at est3 h3old h3fin h3len h3row
  have hcol3 : ∀ {j}, j < m → j ∈ (sched i).p3 := fun hj => hs.cols3.mem_iff.2 (List.mem_range.2 hj)
  have hidlen3 : (st3.newId i).length = m := by rw [est3]; simp [upd, hl3]
  obtain ⟨ids, hids⟩ : ∃ ids : List NodeId, st3.newId i = ids.map some := by
    refine ⟨(st3.newId i).map fun x => x.getD .zero, ?_⟩
    apply eq_map_some
    · simp
    · intro j x hx
      rw [List.getElem?_map, Option.map_eq_some_iff] at hx
      obtain ⟨y, h4, h5⟩ := hx
      obtain ⟨id, h6, _⟩ := h3fin j (hcol3 (by rw [← hidlen3]; exact getElem?_lt h4))
      rw [h6] at h4
      cases h4
      rw [h6, ← h5]; rfl
  have hidat : ∀ (j : Nat) id, (st3.newId i)[j]? = some (some id) ↔ ids[j]? = some id := by
    intro j id
    rw [hids, List.getElem?_map, Option.map_eq_some_iff]
    constructor
    · rintro ⟨x, h4, h5⟩; cases h5; exact h4
    · exact fun h => ⟨id, h, rfl⟩
  have hidlen : ids.length = m := by rw [← hidlen3, hids, List.length_map]
  have hrow : orow = (all.map c).map some := by
    apply eq_map_some
    · rw [h3len, List.length_map]
    · intro q nd hq
      rw [List.getElem?_map, Option.map_eq_some_iff] at hq
      obtain ⟨k, h4, h5⟩ := hq
      rw [h3row q k h4 (hcol3 (hallOk (mem_of_getElem?' h4)).1), h5]
  have hout3 : st3.output = st.output := by rw [est3, est2, ← hs1']; exact h1.out
  have hroot3 : st3.root = st.root := by rw [est3, est2, ← hs1']; exact h1.root
  have hfin : ∃ r', rootUpdate top i ⟨upd st3.input i [], st3.newId, upd st3.output i (all.map c), st3.root⟩ =
      some ⟨upd st3.input i [], st3.newId, upd st3.output i (all.map c), r'⟩ ∧
      if i = top then ids[st.root.col]? = some r' else r' = st.root := by
    by_cases ht : i = top
    · obtain ⟨id, hid⟩ := getElem?_of_lt (l := ids) (i := st.root.col) (by rw [hidlen]; exact hroot ht)
      refine ⟨id, ?_, by rw [if_pos ht]; exact hid⟩
      unfold rootUpdate RSt.look
      rw [if_pos ht]
      dsimp only
      rw [hroot3, (hidat _ _).2 hid]; rfl
    · refine ⟨st.root, ?_, by rw [if_neg ht]⟩
      unfold rootUpdate
      rw [if_neg ht, ← hroot3]
  obtain ⟨r', e4, hr'⟩ := hfin
  refine ⟨⟨upd st3.input i [], st3.newId, upd st3.output i (all.map c), r'⟩, mpSums tasks s2.base, ids, all.map c, ?_,
    ⟨?_, ?_, ?_, ?_, ?_, hr'⟩, ?_⟩
  · unfold mpLevel
    simp only [hm, Option.bind_eq_bind, e1, Option.bind_some, hs1', e2, e3, hrow, fullRow_some, e4]
  · refine ⟨hidlen, ?_, ?_, ?_⟩
    · intro j hj
      obtain ⟨id, h4, h5, _⟩ := h3fin j (hcol3 hj)
      refine ⟨id, (hidat _ _).1 h4, ?_⟩
      rcases h5 with h5 | ⟨h5, q, k, h6, h7, h8⟩
      · exact .inl h5
      · refine .inr ⟨by rw [h5]; decide, by rw [h8], ?_⟩
        rw [h8, List.getElem?_map, h6, ← h7]; rfl
    · intro q nd hq
      rw [List.getElem?_map, Option.map_eq_some_iff] at hq
      obtain ⟨k, h4, h5⟩ := hq
      have hkm := (hallOk (mem_of_getElem?' h4)).1
      obtain ⟨id, h6, _, h7⟩ := h3fin k (hcol3 hkm)
      rw [h7 q k h4 rfl] at h6
      exact ⟨k, hkm, (hidat _ _).1 h6⟩
    · intro q q' nd hq hq'
      rw [List.getElem?_map, Option.map_eq_some_iff] at hq hq'
      obtain ⟨k, h4, h5⟩ := hq
      obtain ⟨k', h4', h5'⟩ := hq'
      exact hallUniq h4 h4' (by rw [h5, h5'])
  · exact hids
  · intro r hr
    dsimp only
    rw [est3]
    dsimp only
    rw [upd_eq_ne _ _ hr, est2]
    dsimp only
    rw [upd_eq_ne _ _ hr, ← hs1']
    dsimp only
    rw [clearIds_at, h1.ids r hr]
    simp [upd, hr]
  · intro r hr
    dsimp only
    rw [upd_eq_ne _ _ hr, est3]
    dsimp only
    rw [hin2, h1.inp r hr]
  · dsimp only
    rw [hout3]
  · rw [hbase 0 (Nat.zero_le _)]; rfl

end

theorem foldlM_congr_mem {α β : Type} {f g : β → α → Option β} (l : List α) (h : ∀ a ∈ l, ∀ b, f b a = g b a) (b : β) :
    l.foldlM f b = l.foldlM g b := by
  induction l generalizing b with
  | nil => rfl
  | cons a l ih =>
    simp only [List.foldlM_cons]
    rw [h a (by simp)]
    congr 1
    funext b'
    exact ih (fun a ha => h a (by simp [ha])) b'

theorem makeIndexOrd_congr {n : Nat} {E E' : Nat → List NodeId} (h : ∀ i, 1 ≤ i → E i = E' i) :
    makeIndexOrd n E = makeIndexOrd n E' := by
  unfold makeIndexOrd
  rw [foldlM_congr_mem (g := idxRow n E')]
  intro i hi b
  have : 1 ≤ i := by
    unfold levels at hi
    simp at hi
    omega
  unfold idxRow
  rw [h i this]

theorem reduceMP_spec {bdd zdd : Bool} {threads tasks : Nat} {E : Nat → List NodeId} {sched : Nat → MpSched}
    {D : Dd (N + 1)} (hw : D.Wf) (htask : 0 < tasks) (hrow : D.root.row + tasks ≤ 2 ^ 20)
    (hE : ∀ i, 1 ≤ i → (E i).Perm (rowEdges (D.table.row i)))
    (hs : ∀ i, 1 ≤ i → i ≤ D.root.row → (sched i).Ok threads tasks (D.table.row i).length) :
    ∃ D' nid, D.reduceMP bdd zdd threads tasks E sched = some D' ∧ D'.table.numRows = D.table.numRows ∧
      D'.table.row 0 = terminalRow (N + 1) ∧
      RedOf (fun c => delN bdd zdd c = true) D.table D.root.row nid D'.table ∧ D'.root = nid D.root := by
  have hwt : Table.Wf ⟨D.table.numRows, (reduceInit D).input⟩ := Table.wf_congr (reduceInit_node D) hw.table
  have hin : ∀ i, 1 ≤ i → (reduceInit D).input i = D.table.row i := by
    intro i hi
    unfold reduceInit
    dsimp only
    rw [upd_eq_ne _ _ (by omega)]
  obtain ⟨hi0, lo, e0, hlo⟩ := makeIndexOrd_spec (E := fun i => if i = 0 then rowEdges ((reduceInit D).input 0) else E i)
    hwt.down (by
      intro i f
      by_cases h0 : i = 0
      · rw [if_pos h0, h0]
      · rw [if_neg h0, hin i (by omega)]
        exact (hE i (by omega)).mem_iff)
  rw [makeIndexOrd_congr (E' := E) fun i hi => if_neg (by omega)] at e0
  unfold Dd.reduceMP
  simp only [e0, Option.bind_eq_bind, Option.bind_some]
  have hstart : ∃ nid, RInvN bdd zdd D.table.numRows D.root.row (reduceInit D).input D.root 0 nid (reduceInit D) := by
    refine ⟨id, redOf_zero fun r h0 => by unfold reduceInit; dsimp only; rw [if_neg (by omega)], fun _ _ => rfl,
      rfl, fun r h0 h1 => by omega, fun r h0 => by unfold reduceInit; dsimp only; rw [if_neg (by omega)], ?_, rfl⟩
    by_cases h : 0 < D.root.row
    · rw [if_pos h]; rfl
    · rw [if_neg h]; rfl
  obtain ⟨⟨st', base'⟩, e2, ⟨nid, h⟩, _⟩ := levelsUp_fold
    (f := mpLevel bdd zdd threads tasks D.table.numRows D.root.row lo sched)
    (fun k a => (∃ nid, RInvN bdd zdd D.table.numRows D.root.row (reduceInit D).input D.root k nid a.1) ∧ a.2 0 = 0)
    D.root.row (reduceInit D, fun _ => 0) ⟨hstart, rfl⟩
    (by
      rintro t ⟨st, base⟩ ht ⟨⟨nid, h⟩, hb⟩
      dsimp only at h hb
      obtain ⟨nd, hnd⟩ := hw.root.pos (by omega)
      have hrlt : D.root.row < D.table.numRows ∧ D.root.col < (D.table.row D.root.row).length :=
        nodeAt_lt (T := D.table.row) hnd
      have hrc : D.root.col < ((reduceInit D).input D.root.row).length := by
        rw [hin _ (by omega)]
        exact hrlt.2
      have hso := hs (t + 1) (by omega) (by omega)
      rw [← hin (t + 1) (by omega)] at hso
      have key := h.stepWith (lower := lo)
        (lev := fun st i => (mpLevel bdd zdd threads tasks D.table.numRows D.root.row lo sched (st, base) i).bind
          fun r => if r.2 0 = 0 then some r.1 else none) hwt
        (by
          intro c hp h1 h2
          obtain ⟨st', base', ids, out, e, hl, hb'⟩ := mpLevel_spec (bdd := bdd) (zdd := zdd) (threads := threads)
            (tasks := tasks) (sched := sched) hp h1 h2 htask (by omega) hso hb
          refine ⟨st', ids, out, ?_, hl⟩
          rw [e, Option.bind_some, if_pos hb']) hlo rfl hrc (by omega)
      obtain ⟨nid', st', e, h'⟩ := key
      rw [Option.bind_eq_some_iff] at e
      obtain ⟨⟨st'', b''⟩, e, e'⟩ := e
      dsimp only at e'
      by_cases hb' : b'' 0 = 0
      · rw [if_pos hb'] at e'
        cases e'
        exact ⟨_, e, ⟨nid', h'⟩, hb'⟩
      · rw [if_neg hb'] at e'; cases e')
  simp only [e2, Option.bind_some]
  refine ⟨_, nid, rfl, rfl, h.out0, h.red.congr_table fun f h0 => (reduceInit_node D f h0).symm, ?_⟩
  unfold reduceResult
  dsimp only
  rw [h.root, if_neg (by omega)]

end TdZdd
