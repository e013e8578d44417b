import Verif.ReducerFineProofs1

/-! The second loop of the parallel reducer at single accesses. -/

namespace TdZdd

namespace Fine

open Conc

variable {N : Nat} {bdd zdd : Bool} {nr i m tasks threads : Nat} {c : Nat → Node (N + 1)} {row : List (Node (N + 1))}

/-- accesses of a thread in the second loop, if it has the tasks `xs` -/
def F2 (bdd zdd : Bool) (i tasks : Nat) (c : Nat → Node (N + 1)) (xs : List Nat) : Ev Loc (Val N) → Prop
  | .rd (.nid r j) => r = i ∧ ∃ x ∈ xs, InTask bdd zdd tasks c x j
  | .rd (.mat _ _) => True
  | .wr (.nid r j) _ => r = i ∧ ∃ x ∈ xs, InTask bdd zdd tasks c x j
  | .wr (.base x) _ => ∃ x' ∈ xs, x = x' + 1
  | _ => False

theorem F2_free {xs xs' : List Nat} (hd : ∀ x ∈ xs, x ∉ xs') (e e' : Ev Loc (Val N)) (h : F2 bdd zdd i tasks c xs e) (h' : F2 bdd zdd i tasks c xs' e') : e.Free e' := by
  have key : ∀ {j : Nat}, (∃ x ∈ xs, InTask bdd zdd tasks c x j) → (∃ x ∈ xs', InTask bdd zdd tasks c x j) → False := by
    rintro j ⟨x, h1, h2⟩ ⟨x', h1', h2'⟩
    have : x = x' := h2.2.symm.trans h2'.2
    exact hd x h1 (this ▸ h1')
  rcases e with l | ⟨l, v⟩ <;> rcases e' with l' | ⟨l', v'⟩ <;> cases l <;> cases l' <;> first
    | trivial
    | exact False.elim h
    | exact False.elim h'
    | (intro e; cases e; done)
    | (intro e; cases e; exact key h.2 h'.2)
    | (intro e; cases e
       obtain ⟨x, h1, h2⟩ := h
       obtain ⟨x', h1', h2'⟩ := h'
       have : x = x' := by omega
       exact hd x h1 (this ▸ h1'))

/-- reading the lists of a task -/
theorem lists_foot {F : Ev Loc (Val N) → Prop} (hF : ∀ y x, F (.rd (.mat y x))) {s s' : FMem N} {x : Nat} {k : List (Nat × Node (N + 1)) → P N} :
    ∀ (ys : List Nat) (l : List (Nat × Node (N + 1))), Foot (mem nr i tasks) F (k (l ++ ys.flatMap fun y => s.1.matrix y x)) s s' → Foot (mem nr i tasks) F (lists x ys l k) s s'
  | [], l, h => by rw [List.flatMap_nil, List.append_nil] at h; exact h
  | y :: ys, l, h => by
    refine Foot.rd (v := .list (s.1.matrix y x)) rfl (hF y x) ?_
    refine lists_foot hF ys _ ?_
    rw [List.flatMap_cons, ← List.append_assoc] at h
    exact h

/-- one element -/
theorem entry_foot {x : Nat} {st0 : RSt (N + 1)} (hix : i + x < 2 ^ 20) {F : Ev Loc (Val N) → Prop} {pre : List (Nat × Node (N + 1))} {t : Nat} (ht : t < m) (hnew : t ∉ pre.map (·.1))
    (hF1 : ∀ j ∈ pre.map (·.1), F (.rd (.nid i j))) (hF2 : ∀ v, F (.wr (.nid i t) v)) {outs : List Nat} {a : TaskSt N} (h : J2 i m x c st0 pre outs a) (b : MpSt N) (o : List (Option (Node (N + 1)))) :
    ∃ outs' a', mpEntry i x a (t, c t) = some a' ∧ J2 i m x c st0 (pre ++ [(t, c t)]) outs' a' ∧
      ∀ es k s', Foot (mem nr i tasks) F (entries i x es a'.uniq a'.j k) ({ b with st := a'.st }, o) s' →
        Foot (mem nr i tasks) F (entries i x ((t, c t) :: es) a.uniq a.j k) ({ b with st := a.st }, o) s' := by
  obtain ⟨outs', a', e, h'⟩ := mpEntry_spec hix ht hnew h
  refine ⟨outs', a', e, h', fun es k s' hk => ?_⟩
  have hlen : (a.st.newId i).length = m := by
    obtain ⟨l, hl, e⟩ := h.eqs
    rw [e]; simp [upd, hl]
  obtain ⟨u, z, e2, _, _, h3⟩ := h.tab.add nodeLaw (x := (t, c t)) trivial
  unfold mpEntry at e
  simp only [e2, Option.bind_eq_bind, Option.bind_some, h3] at e
  unfold entries
  simp only [e2, h3]
  by_cases hb : (((outs.map fun k => (k, c k)).find? fun e => nodeEq e (t, c t)).getD (t, c t)).1 = t
  · rw [if_pos hb, if_pos hix, setId_spec _ (by rw [hlen]; exact ht)] at e
    simp only [Option.bind_some] at e
    rw [if_pos hb, if_pos hix]
    refine Foot.wr (decide_eq_true (by rw [hlen]; exact ht)) (hF2 _) ?_
    rw [← Option.some.inj e] at hk
    exact hk
  · rw [if_neg hb] at e ⊢
    generalize hg : (((outs.map fun k => (k, c k)).find? fun e => nodeEq e (t, c t)).getD (t, c t)) = g at e hb
    have hmem : g.1 ∈ pre.map (·.1) := by
      cases hf : (outs.map fun k => (k, c k)).find? (fun e => nodeEq e (t, c t)) with
      | none => rw [hf] at hg; exact absurd (by rw [← hg]; rfl) hb
      | some v =>
        rw [hf] at hg
        obtain ⟨k, hk, rfl⟩ := List.mem_map.1 (List.mem_of_find?_eq_some hf)
        rw [← hg]
        exact h.outsOk hk
    obtain ⟨f, hf, e⟩ := Option.bind_eq_some_iff.1 e
    rw [setId_spec _ (by rw [hlen]; exact ht)] at e
    simp only [Option.bind_some] at e
    refine Foot.rd (v := .id f) ?_ (hF1 _ hmem) ?_
    · show (a.st.look ⟨i, g.1⟩).map _ = _
      rw [hf]; rfl
    · refine Foot.wr (decide_eq_true (by rw [hlen]; exact ht)) (hF2 _) ?_
      rw [← Option.some.inj e] at hk
      exact hk

/-- the elements of a task -/
theorem entries_foot {x : Nat} {st0 : RSt (N + 1)} (hix : i + x < 2 ^ 20) {F : Ev Loc (Val N) → Prop} (b : MpSt N) (o : List (Option (Node (N + 1)))) :
    ∀ (l pre : List (Nat × Node (N + 1))) (outs : List Nat) (a : TaskSt N), (∀ e ∈ l, e.1 < m ∧ e.2 = c e.1) → ((pre ++ l).map (·.1)).Nodup →
      (∀ j ∈ (pre ++ l).map (·.1), F (.rd (.nid i j)) ∧ ∀ v, F (.wr (.nid i j) v)) → J2 i m x c st0 pre outs a →
      ∃ outs' a', l.foldlM (mpEntry i x) a = some a' ∧ J2 i m x c st0 (pre ++ l) outs' a' ∧
        ∀ k s', Foot (mem nr i tasks) F (k a'.uniq a'.j) ({ b with st := a'.st }, o) s' → Foot (mem nr i tasks) F (entries i x l a.uniq a.j k) ({ b with st := a.st }, o) s'
  | [], pre, outs, a, _, _, _, h => ⟨outs, a, rfl, by rw [List.append_nil]; exact h, fun k s' hk => hk⟩
  | (t, d) :: l, pre, outs, a, hl, hn, hF, h => by
    obtain ⟨h1, h2⟩ := hl (t, d) (List.mem_cons_self ..)
    dsimp only at h1 h2
    subst h2
    have hpre : ∀ j ∈ pre.map (·.1), j ∈ (pre ++ (t, c t) :: l).map (·.1) := fun j hj => by rw [List.map_append]; exact List.mem_append_left _ hj
    have hnew : t ∉ pre.map (·.1) := fun hm => by
      rw [List.map_append] at hn
      exact (List.nodup_append.1 hn).2.2 t hm t (by simp) rfl
    obtain ⟨outs1, a1, e1, j1, f1⟩ := entry_foot (nr := nr) (tasks := tasks) hix (F := F) h1 hnew (fun j hj => (hF j (hpre j hj)).1) ((hF t (by simp)).2) h b o
    have ea : pre ++ [(t, c t)] ++ l = pre ++ (t, c t) :: l := by simp
    obtain ⟨outs', a', e2, j2, f2⟩ := entries_foot hix b o l (pre ++ [(t, c t)]) outs1 a1 (fun e he => hl e (List.mem_cons_of_mem _ he)) (by rw [ea]; exact hn) (by rw [ea]; exact hF) j1
    refine ⟨outs', a', ?_, by rw [← ea]; exact j2, fun k s' hk => f1 _ _ _ (f2 k s' hk)⟩
    rw [List.foldlM_cons, e1]
    exact e2

/-- one task -/
theorem task_foot {s1 : MpSt N} {x y : Nat} (hx : x < tasks) (hix : i + tasks ≤ 2 ^ 20)
    (hl : ∀ j d, (j, d) ∈ taskList threads s1.matrix x ↔ j < m ∧ d = c j ∧ InTask bdd zdd tasks c x j) (hnd : ((taskList threads s1.matrix x).map (·.1)).Nodup) {pre : List Nat} (hxp : x ∉ pre)
    {xs : List Nat} (hxs : x ∈ xs) {outs : Nat → List Nat} {a : MpSt N} (h : J3 bdd zdd i m tasks c s1 pre outs a) (u0 : Nat → HT (Nat × Node (N + 1))) (o : List (Option (Node (N + 1)))) :
    ∃ outs' a', mpTask i threads a (y, x) = some a' ∧ J3 bdd zdd i m tasks c s1 (pre ++ [x]) outs' a' ∧ (∀ y', y' ≠ y → a'.uniq y' = a.uniq y') ∧
      ∀ k s', Foot (mem nr i tasks) (F2 bdd zdd i tasks c xs) (k (a'.uniq y)) ({ a' with uniq := u0 }, o) s' →
        Foot (mem nr i tasks) (F2 bdd zdd i tasks c xs) (task i threads x (a.uniq y) k) ({ a with uniq := u0 }, o) s' := by
  obtain ⟨outs', a', e, h'⟩ := mpTask_spec (y := y) (by omega) hl hnd hxp h
  refine ⟨outs', a', e, h', ?_⟩
  have hcan : ∀ s : FMem N, (mem nr i tasks).can s (.base (x + 1)) = true := fun s => decide_eq_true (by omega)
  have hw : ∀ v, F2 bdd zdd i tasks c xs (.wr (.base (x + 1)) v : Ev Loc (Val N)) := fun v => ⟨x, hxs, rfl⟩
  unfold mpTask at e
  dsimp only at e
  rw [h.mat] at e
  by_cases h0 : (taskList threads s1.matrix x).length = 0
  · rw [if_pos h0] at e
    have e := Option.some.inj e
    refine ⟨fun y' _ => by rw [← e], fun k s' hk => ?_⟩
    refine lists_foot (fun _ _ => trivial) _ _ ?_
    rw [List.nil_append]
    show Foot _ _ (if (taskList threads a.matrix x).length = 0 then _ else _) _ _
    rw [h.mat, if_pos h0]
    refine Foot.wr (hcan _) (hw _) ?_
    rw [← e] at hk
    exact hk
  · rw [if_neg h0] at e
    obtain ⟨u, eu, hok, _, _, hsz, hemp⟩ := HT.init_spec (hash := nodeHash (N := N)) (eq := nodeEq) (P := fun _ => True) ((taskList threads s1.matrix x).length * 2) (a.uniq y)
    simp only [eu, Option.bind_eq_bind, Option.bind_some] at e
    obtain ⟨lst, hlst, est⟩ := h.eqs
    obtain ⟨os, r, er, hr, fr⟩ := entries_foot (nr := nr) (tasks := tasks) (m := m) (c := c) (st0 := a.st) (x := x) (i := i) (by omega) (F := F2 bdd zdd i tasks c xs) { a with uniq := u0 } o (taskList threads s1.matrix x) [] []
      { st := a.st, uniq := u, j := 0 } (fun e he => ⟨((hl e.1 e.2).1 he).1, ((hl e.1 e.2).1 he).2.1⟩) hnd
      (fun j hj => by
        obtain ⟨e, he, rfl⟩ := List.mem_map.1 hj
        have := ((hl e.1 e.2).1 he).2.2
        exact ⟨⟨rfl, x, hxs, this⟩, fun v => ⟨rfl, x, hxs, this⟩⟩)
      ⟨⟨lst, hlst, by
          dsimp only
          rw [est]
          dsimp only
          rw [upd_upd]⟩, fun _ => rfl, fun hj => by simp at hj, fun hq => by simp at hq,
        fun hk => by simp at hk, fun hq => by simp at hq, ⟨hok, fun e => by simp [hemp e], by simpa using hsz, by simp⟩, rfl⟩
    rw [er] at e
    simp only [Option.bind_some] at e
    have e := Option.some.inj e
    refine ⟨fun y' hy' => by rw [← e]; exact upd_eq_ne _ _ hy', fun k s' hk => ?_⟩
    refine lists_foot (fun _ _ => trivial) _ _ ?_
    rw [List.nil_append]
    show Foot _ _ (if (taskList threads a.matrix x).length = 0 then _ else match HT.init ((taskList threads a.matrix x).length * 2) (a.uniq y) with
      | none => .ub
      | some u => entries i x (taskList threads a.matrix x) u 0 fun u j => .wr (.base (x + 1)) (.num j) (k u)) _ _
    rw [h.mat, if_neg h0]
    simp only [eu]
    simp only [h.mat] at fr
    refine fr _ _ ?_
    refine Foot.wr (hcan _) (hw _) ?_
    rw [← e] at hk
    simp only [upd_eq_self] at hk
    exact hk

/-- the tasks of one thread -/
theorem tasksOf_foot {s1 : MpSt N} {y : Nat} (hix : i + tasks ≤ 2 ^ 20) (hl : ∀ x j d, (j, d) ∈ taskList threads s1.matrix x ↔ j < m ∧ d = c j ∧ InTask bdd zdd tasks c x j)
    (hnd : ∀ x, ((taskList threads s1.matrix x).map (·.1)).Nodup) {all : List Nat} (u0 : Nat → HT (Nat × Node (N + 1))) (o : List (Option (Node (N + 1)))) :
    ∀ (xs pre : List Nat) (outs : Nat → List Nat) (a : MpSt N), (∀ x ∈ xs, x < tasks ∧ x ∈ all) → (pre ++ xs).Nodup → J3 bdd zdd i m tasks c s1 pre outs a →
      ∃ outs' a', (xs.map fun x => (y, x)).foldlM (mpTask i threads) a = some a' ∧ J3 bdd zdd i m tasks c s1 (pre ++ xs) outs' a' ∧ (∀ y', y' ≠ y → a'.uniq y' = a.uniq y') ∧
        Foot (mem nr i tasks) (F2 bdd zdd i tasks c all) (tasksOf i threads xs (a.uniq y)) ({ a with uniq := u0 }, o) ({ a' with uniq := u0 }, o)
  | [], pre, outs, a, _, _, h => ⟨outs, a, rfl, by rw [List.append_nil]; exact h, fun _ _ => rfl, Foot.ret _⟩
  | x :: xs, pre, outs, a, hx, hn, h => by
    have hxx := hx x (List.mem_cons_self ..)
    have hnew : x ∉ pre := fun hm => (List.nodup_append.1 hn).2.2 x hm x (List.mem_cons_self ..) rfl
    obtain ⟨outs1, a1, e1, j1, q1, f1⟩ := task_foot (nr := nr) (y := y) hxx.1 hix (hl x) (hnd x) hnew hxx.2 h u0 o
    have ea : pre ++ [x] ++ xs = pre ++ x :: xs := by simp
    obtain ⟨outs', a', e2, j2, q2, f2⟩ := tasksOf_foot (y := y) hix hl hnd u0 o xs (pre ++ [x]) outs1 a1 (fun x hxs => hx x (List.mem_cons_of_mem _ hxs)) (by rw [ea]; exact hn) j1
    refine ⟨outs', a', ?_, by rw [← ea]; exact j2, fun y' hy' => (q2 y' hy').trans (q1 y' hy'), f1 _ _ f2⟩
    rw [List.map_cons, List.foldlM_cons, e1]
    exact e2

/-- the threads one after the other -/
theorem tasks_seq {s1 : MpSt N} (hix : i + tasks ≤ 2 ^ 20) (hl : ∀ x j d, (j, d) ∈ taskList threads s1.matrix x ↔ j < m ∧ d = c j ∧ InTask bdd zdd tasks c x j)
    (hnd : ∀ x, ((taskList threads s1.matrix x).map (·.1)).Nodup) (c2 : Nat → List Nat) (u0 : Nat → HT (Nat × Node (N + 1))) (o : List (Option (Node (N + 1)))) :
    ∀ (ys pre : List Nat) (outs : Nat → List Nat) (a : MpSt N), ys.Nodup → (∀ y ∈ ys, a.uniq y = u0 y) → (∀ x ∈ ys.flatMap c2, x < tasks) → (pre ++ ys.flatMap c2).Nodup → J3 bdd zdd i m tasks c s1 pre outs a →
      ∃ outs' a', (ys.flatMap fun y => (c2 y).map fun x => (y, x)).foldlM (mpTask i threads) a = some a' ∧ J3 bdd zdd i m tasks c s1 (pre ++ ys.flatMap c2) outs' a' ∧
        seqL (mem nr i tasks) ys (fun y => tasksOf i threads (c2 y) (u0 y)) ({ a with uniq := u0 }, o) = some ({ a' with uniq := u0 }, o)
  | [], pre, outs, a, _, _, _, _, h => ⟨outs, a, rfl, by rw [List.flatMap_nil, List.append_nil]; exact h, rfl⟩
  | y :: ys, pre, outs, a, hy, hu, hx, hn, h => by
    rw [List.flatMap_cons] at hx hn
    rw [← List.append_assoc] at hn
    have hy' := List.nodup_cons.1 hy
    obtain ⟨outs1, a1, e1, j1, q1, t, _, f1, _⟩ := tasksOf_foot (nr := nr) (y := y) (all := c2 y) hix hl hnd u0 o (c2 y) pre outs a (fun x h => ⟨hx x (List.mem_append_left _ h), h⟩) (List.nodup_append.1 hn).1 h
    obtain ⟨outs', a', e2, j2, f2⟩ := tasks_seq hix hl hnd c2 u0 o ys (pre ++ c2 y) outs1 a1 hy'.2 (fun y' h => by
      rw [q1 y' fun e => hy'.1 (e ▸ h)]
      exact hu y' (List.mem_cons_of_mem _ h)) (fun x h => hx x (List.mem_append_right _ h)) hn j1
    refine ⟨outs', a', ?_, ?_, ?_⟩
    · rw [List.flatMap_cons, List.foldlM_append, e1]
      exact e2
    · rw [List.flatMap_cons, ← List.append_assoc]
      exact j2
    · rw [hu y (List.mem_cons_self ..)] at f1
      rw [seqL_cons, f1]
      exact f2

end Fine

end TdZdd
