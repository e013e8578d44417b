import Verif.ReducerFine
import Verif.ConcProofs
import Verif.ReducerMPProofs

/-! The first loop of the parallel reducer at single accesses. -/

namespace TdZdd

namespace Fine

open Conc

variable {N : Nat}

theorem upd_comm {α : Type} (f : Nat → α) {a b : Nat} (h : a ≠ b) (x y : α) : upd (upd f a x) b y = upd (upd f b y) a x := by
  funext j
  unfold upd
  by_cases h1 : j = b
  · by_cases h2 : j = a
    · exact absurd (h2.symm.trans h1) h
    · rw [if_pos h1, if_neg h2, if_pos h1]
  · rw [if_neg h1, if_neg h1]

theorem upd_upd {α : Type} (f : Nat → α) (a : Nat) (x y : α) : upd (upd f a x) a y = upd f a y := by
  funext j
  unfold upd
  by_cases h : j = a
  · rw [if_pos h, if_pos h]
  · rw [if_neg h, if_neg h, if_neg h]

theorem mem_laws (nr i tasks : Nat) : (mem nr i tasks : Mem (FMem N) Loc (Val N)).Laws where
  get_put := by
    intro m l v l' h
    cases l <;> cases v <;> cases l'
    case inp.node.inp a v b =>
      have hab : b ≠ a := fun e => h (by rw [e])
      show (nodeAt nr (upd m.1.st.input i ((m.1.st.input i).set a v)) ⟨i, b⟩).map _ = (nodeAt nr m.1.st.input ⟨i, b⟩).map _
      unfold nodeAt
      simp only [upd_eq_self]
      rw [List.getElem?_set_ne hab.symm]
    case nid.id.nid a c v b d =>
      show (RSt.look { m.1.st with newId := upd m.1.st.newId a ((m.1.st.newId a).set c (some v)) } ⟨b, d⟩).map _ = (RSt.look m.1.st ⟨b, d⟩).map _
      unfold RSt.look
      by_cases hab : b = a
      · subst hab
        have hcd : d ≠ c := fun e => h (by rw [e])
        simp only [upd_eq_self]
        rw [List.getElem?_set_ne hcd.symm]
      · simp only [upd_eq_ne _ _ hab]
    case mat.list.mat a c v b d =>
      show some (Val.list (upd m.1.matrix a (upd (m.1.matrix a) c v) b d)) = some (Val.list (m.1.matrix b d))
      by_cases hab : b = a
      · subst hab
        have hcd : d ≠ c := fun e => h (by rw [e])
        rw [upd_eq_self, upd_eq_ne _ _ hcd]
      · rw [upd_eq_ne _ _ hab]
    case base.num.base a v b =>
      have hab : b ≠ a := fun e => h (by rw [e])
      show some (Val.num (upd m.1.base a v b)) = some (Val.num (m.1.base b))
      rw [upd_eq_ne _ _ hab]
    all_goals rfl
  can_put := by
    intro m l v l'
    cases l <;> cases v <;> cases l'
    case nid.id.nid a c v b d =>
      show decide (d < (upd m.1.st.newId a ((m.1.st.newId a).set c (some v)) b).length) = decide (d < (m.1.st.newId b).length)
      by_cases hab : b = a
      · rw [hab, upd_eq_self, List.length_set]
      · rw [upd_eq_ne _ _ hab]
    all_goals first
      | rfl
      | simp only [mem, can, put, upd_eq_self, List.length_set]
  comm := by
    intro m l v l' v' h
    cases l <;> cases v <;> cases l' <;> cases v' <;> first
      | rfl
      | (rename_i a v b w
         have hab : a ≠ b := fun e => h (by rw [e])
         simp only [mem, put, upd_eq_self, upd_upd]
         rw [List.set_comm _ _ hab])
      | (rename_i a c v b d w
         simp only [mem, put]
         by_cases hab : a = b
         · subst hab
           have hcd : c ≠ d := fun e => h (by rw [e])
           rw [upd_eq_self, upd_eq_self, upd_upd, upd_upd, List.set_comm _ _ hcd]
         · rw [upd_eq_ne _ _ hab, upd_eq_ne _ _ (Ne.symm hab), upd_comm _ hab])
      | (rename_i a c v b d w
         simp only [mem, put]
         by_cases hab : a = b
         · subst hab
           have hcd : c ≠ d := fun e => h (by rw [e])
           rw [upd_eq_self, upd_eq_self, upd_upd, upd_upd, upd_comm _ hcd]
         · rw [upd_eq_ne _ _ hab, upd_eq_ne _ _ (Ne.symm hab), upd_comm _ hab])
      | (rename_i a v b w
         have hab : a ≠ b := fun e => h (by rw [e])
         simp only [mem, put]
         first | rw [upd_comm _ hab] | rw [List.set_comm _ _ hab])
  idem := by
    intro m l v
    cases l <;> cases v <;> first
      | rfl
      | (simp only [mem, put, upd_eq_self, upd_upd, List.set_set])

/-- the program alone: it ends in `m'` and makes only accesses of `F` -/
def Foot {M L V : Type} (μ : Mem M L V) (F : Ev L V → Prop) (p : Prog L V) (m m' : M) : Prop :=
  ∃ t, p.trace μ m = some t ∧ p.run μ m = some m' ∧ ∀ e ∈ t, F e

section
variable {M L V : Type} {μ : Mem M L V} {F : Ev L V → Prop}

theorem Foot.ret (m : M) : Foot μ F .ret m m := ⟨[], rfl, rfl, fun _ h => nomatch h⟩

theorem Foot.rd {l : L} {k : V → Prog L V} {m m' : M} {v : V} (hv : μ.get m l = some v) (hF : F (.rd l)) (h : Foot μ F (k v) m m') : Foot μ F (.rd l k) m m' := by
  obtain ⟨t, h1, h2, h3⟩ := h
  refine ⟨.rd l :: t, ?_, ?_, fun e he => ?_⟩
  · unfold Prog.trace; rw [hv, Option.bind_some, h1]; rfl
  · unfold Prog.run; rw [hv]; exact h2
  · rcases List.mem_cons.1 he with rfl | he
    · exact hF
    · exact h3 e he

theorem Foot.wr {l : L} {v : V} {p : Prog L V} {m m' : M} (hc : μ.can m l = true) (hF : F (.wr l v)) (h : Foot μ F p (μ.put m l v) m') : Foot μ F (.wr l v p) m m' := by
  obtain ⟨t, h1, h2, h3⟩ := h
  refine ⟨.wr l v :: t, ?_, ?_, fun e he => ?_⟩
  · unfold Prog.trace; rw [if_pos hc, h1]; rfl
  · unfold Prog.run; rw [if_pos hc]; exact h2
  · rcases List.mem_cons.1 he with rfl | he
    · exact hF
    · exact h3 e he

/-- threads with compatible accesses are as good as one after the other -/
theorem par_of_foot (hμ : μ.Laws) {T : Nat} {P : Nat → Prog L V} {m : M} {G : Nat → Ev L V → Prop} (h : ∀ y, y < T → ∃ m', Foot μ (G y) (P y) m m')
    (hc : ∀ y y', y < T → y' < T → y ≠ y' → ∀ e e', G y e → G y' e' → e.Compat e') (w : List Nat) : Conc.par μ T w P m = seqL μ (List.range T) P m := by
  refine Indep.par hμ (t := fun y => ((P y).trace μ m).getD []) ⟨fun y hy => ?_, fun y y' hy hy' hne e he e' he' => ?_⟩ w
  · obtain ⟨m', t, h1, _⟩ := h y hy
    rw [h1]; rfl
  · obtain ⟨_, t, h1, _, h3⟩ := h y hy
    obtain ⟨_, t', h1', _, h3'⟩ := h y' hy'
    rw [h1] at he
    rw [h1'] at he'
    exact hc y y' hy hy' hne e e' (h3 e he) (h3' e' he')

/-- in each reachable state the next access of a thread is one of its own -/
theorem pending_of_foot (hμ : μ.Laws) {T : Nat} {P : Nat → Prog L V} {m : M} {G : Nat → Ev L V → Prop} (h : ∀ y, y < T → ∃ m', Foot μ (G y) (P y) m m')
    (hc : ∀ y y', y < T → y' < T → y ≠ y' → ∀ e e', G y e → G y' e' → e.Compat e') (w : List Nat) :
    ∃ s, Conc.exec μ T w (P, m) = some s ∧ ∀ y, y < T → ∀ e, (s.1 y).next = some e → G y e := by
  have hG : ∀ y, y < T → ∀ e ∈ ((P y).trace μ m).getD [], G y e := fun y hy e he => by
    obtain ⟨_, t, h1, _, h3⟩ := h y hy
    rw [h1] at he
    exact h3 e he
  have hI : Indep μ T P m fun y => ((P y).trace μ m).getD [] := ⟨fun y hy => by
    obtain ⟨m', t, h1, _⟩ := h y hy
    rw [h1]; rfl, fun y y' hy hy' hne e he e' he' => hc y y' hy hy' hne e e' (hG y hy e he) (hG y' hy' e' he')⟩
  obtain ⟨s, t', e, hs, ht, _⟩ := hI.exec hμ w
  refine ⟨s, e, fun y hy a ha => hG y hy a ?_⟩
  obtain ⟨u, hu⟩ := ht y
  rw [hu]
  exact List.mem_append_right _ (next_mem (hs.tr y hy) ha)

theorem noRace_of_foot (hμ : μ.Laws) {T : Nat} {P : Nat → Prog L V} {m : M} {G : Nat → Ev L V → Prop} (h : ∀ y, y < T → ∃ m', Foot μ (G y) (P y) m m')
    (hc : ∀ y y', y < T → y' < T → y ≠ y' → ∀ e e', G y e → G y' e' → e.Free e') (w : List Nat) : ∃ s, Conc.exec μ T w (P, m) = some s ∧ ¬ Race T s.1 := by
  obtain ⟨s, e, hs⟩ := pending_of_foot hμ h (fun y y' hy hy' hne e e' he he' => (hc y y' hy hy' hne e e' he he').compat) w
  refine ⟨s, e, ?_⟩
  rintro ⟨y, y', a, b, hy, hy', hne, ha, hb, hab⟩
  exact hab (hc y y' hy hy' hne a b (hs y hy a ha) (hs y' hy' b hb))

end

section
variable {bdd zdd : Bool} {nr i m tasks threads : Nat} {c : Nat → Node (N + 1)} {row : List (Node (N + 1))}

/-- accesses of thread `y` in the first loop, if it has the columns `js` -/
def F1 (i y : Nat) (js : List Nat) : Ev Loc (Val N) → Prop
  | .rd (.inp j) => j ∈ js
  | .rd (.nid r _) => r < i
  | .rd (.mat y' _) => y' = y
  | .wr (.inp j) _ => j ∈ js
  | .wr (.nid r j) _ => r = i ∧ j ∈ js
  | .wr (.mat y' _) _ => y' = y
  | _ => False

theorem F1_free {y y' : Nat} {js js' : List Nat} (hy : y ≠ y') (hd : ∀ j ∈ js, j ∉ js') (e e' : Ev Loc (Val N)) (h : F1 i y js e) (h' : F1 i y' js' e') : e.Free e' := by
  rcases e with l | ⟨l, v⟩ <;> rcases e' with l' | ⟨l', v'⟩ <;> cases l <;> cases l' <;> first
    | trivial
    | exact False.elim h
    | exact False.elim h'
    | (intro e; cases e; done)
    | (intro e; cases e; exact hd _ h h')
    | (intro e; cases e; exact hd _ h.2 h'.2)
    | (intro e; cases e; have h1 : _ < i := h; have h2 : _ = i := h'.1; omega)
    | (intro e; cases e; have h1 : _ < i := h'; have h2 : _ = i := h.1; omega)
    | (intro e; cases e; exact hy (Eq.trans (Eq.symm h) h'))

/-- memory after the branches -/
theorem put_inp_put (s : FMem N) (j : Nat) (nd nd' : Node (N + 1)) : put i (put i s (.inp j) (.node nd)) (.inp j) (.node nd') = put i s (.inp j) (.node nd') := by
  simp only [put, upd_eq_self, upd_upd, List.set_set]

theorem get_inp_put (s : FMem N) {j : Nat} (nd : Node (N + 1)) (hi : i < nr) (hj : j < (s.1.st.input i).length) : get nr i (put i s (.inp j) (.node nd)) (.inp j) = some (.node nd) := by
  simp only [get, put, nodeAt, upd_eq_self, if_pos hi]
  rw [List.getElem?_set_self hj]
  rfl

theorem branches_foot {F : Ev Loc (Val N) → Prop} {s s' : FMem N} {j : Nat} {nd cj : Node (N + 1)} {k : P N} (hi : i < nr) (hj : j < (s.1.st.input i).length)
    (hlook : ∀ b, s.1.st.look (nd b) = some (cj b)) (hF1 : F (.rd (.inp j))) (hF2 : ∀ b, F (.rd (.nid (nd b).row (nd b).col))) (hF3 : ∀ v, F (.wr (.inp j) v))
    (hk : Foot (mem nr i tasks) F k (put i s (.inp j) (.node cj)) s') :
    ∀ (bs : List (Fin (N + 1))) (cur : Node (N + 1)), bs.Nodup → (∀ b, cur b = if b ∈ bs then nd b else cj b) →
      Foot (mem nr i tasks) F (branches j bs k) (put i s (.inp j) (.node cur)) s'
  | [], cur, _, hc => by
    have : cur = cj := funext fun b => by rw [hc, if_neg (by simp)]
    rw [this]
    exact hk
  | b :: bs, cur, hn, hc => by
    have hb : cur b = nd b := by rw [hc, if_pos (List.mem_cons_self ..)]
    have hn' := List.nodup_cons.1 hn
    refine Foot.rd (v := .node cur) (get_inp_put s cur hi hj) hF1 ?_
    refine Foot.rd (v := .id (cj b)) ?_ (by rw [hb]; exact hF2 b) ?_
    · show ((put i s (.inp j) (.node cur)).1.st.look ⟨(cur b).row, (cur b).col⟩).map _ = _
      rw [hb]
      show (s.1.st.look (nd b)).map _ = _
      rw [hlook b]
      rfl
    · refine Foot.wr ?_ (hF3 _) ?_
      · show (decide (i < nr) && decide (j < ((put i s (.inp j) (.node cur)).1.st.input i).length)) = true
        simp only [put, upd_eq_self, List.length_set, decide_eq_true hi, decide_eq_true hj, Bool.and_self]
      · show Foot _ F _ (put i (put i s (.inp j) (.node cur)) (.inp j) (.node _)) s'
        rw [put_inp_put]
        refine branches_foot hi hj hlook hF1 hF2 hF3 hk bs _ hn'.2 fun b' => ?_
        by_cases e : b' = b
        · rw [if_pos e, e, if_neg hn'.1]
        · rw [if_neg e, hc]
          by_cases hm : b' ∈ bs
          · rw [if_pos hm, if_pos (List.mem_cons_of_mem _ hm)]
          · rw [if_neg hm, if_neg (fun h => (List.mem_cons.1 h).elim e hm)]

/-- one column: the accesses of the thread give what the atomic iteration gives -/
theorem scan_foot {s0 : MpSt N} (hp : PreN nr i m c row s0.st) (htask : 0 < tasks) {pre : List (Nat × Nat)} {y j : Nat} (hj : j < m) (hnew : j ∉ pre.map (·.2)) {a : MpSt N}
    (h : J1 bdd zdd nr i m tasks c row s0 pre a) {js : List Nat} (hjs : j ∈ js) (o : List (Option (Node (N + 1)))) :
    ∃ a', mpScan bdd zdd nr i tasks a (y, j) = some a' ∧ J1 bdd zdd nr i m tasks c row s0 (pre ++ [(y, j)]) a' ∧
      ∀ k s', Foot (mem nr i tasks) (F1 i y js) k (a', o) s' → Foot (mem nr i tasks) (F1 i y js) (scan bdd zdd i tasks y j k) (a, o) s' := by
  obtain ⟨a', e, h'⟩ := mpScan_spec hp htask (e := (y, j)) hj hnew h
  refine ⟨a', e, h', fun k s' hk => ?_⟩
  have hrow : nodeAt nr a.st.input ⟨i, j⟩ = row[j]? := h.todo hnew
  obtain ⟨nd, hnd⟩ := getElem?_of_lt (l := row) (i := j) (by rw [hp.len]; exact hj)
  rw [hnd] at hrow
  have hlen : j < (a.st.input i).length := by
    unfold nodeAt at hrow
    rw [if_pos hp.hi] at hrow
    exact getElem?_lt hrow
  have hlook : ∀ b, a.st.look (nd b) = some (c j b) := fun b => by
    obtain ⟨h1, h2⟩ := hp.map b hnd
    rw [← h2]
    unfold RSt.look
    rw [h.ids _ (by omega)]
  have hmap : mapNode a.st.look nd = some (c j) := allSome_of hlook
  have hset : setNode nr a.st.input ⟨i, j⟩ (c j) = some (upd a.st.input i ((a.st.input i).set j (c j))) := by
    unfold setNode
    rw [if_pos ⟨hp.hi, hlen⟩]
  have h0 : ((a, o) : FMem N) = put i (a, o) (.inp j) (.node nd) := by
    simp only [put]
    have : (a.st.input i).set j nd = a.st.input i := by
      refine List.ext_getElem? fun q => ?_
      by_cases hq : j = q
      · subst hq
        rw [List.getElem?_set_self hlen]
        unfold nodeAt at hrow
        rw [if_pos hp.hi] at hrow
        exact hrow.symm
      · rw [List.getElem?_set_ne hq]
    have h2 : upd a.st.input i (a.st.input i) = a.st.input := funext fun q => by unfold upd; split <;> simp_all
    rw [this, h2]
  unfold mpScan at e
  simp only [hrow, hmap, hset, Option.bind_eq_bind, Option.bind_some] at e
  unfold scan
  rw [h0]
  refine branches_foot (nd := nd) (cj := c j) hp.hi hlen hlook hjs (fun b => (hp.map b hnd).1) (fun _ => hjs) ?_ _ _ (List.nodup_finRange _) fun b => by rw [if_pos (List.mem_finRange b)]
  refine Foot.rd (v := .node (c j)) (get_inp_put (a, o) (c j) hp.hi hlen) hjs ?_
  show Foot _ _ (if delN bdd zdd (c j) = true then _ else _) _ _
  by_cases hd : delN bdd zdd (c j) = true
  · rw [if_pos hd] at e ⊢
    have hl : j < (a.st.newId i).length := by rw [h.idlen]; exact hj
    refine Foot.wr (decide_eq_true hl) ⟨rfl, hjs⟩ ?_
    unfold RSt.setId at e
    rw [if_pos hl] at e
    have e := Option.some.inj e
    rw [← e] at hk
    exact hk
  · rw [if_neg hd] at e ⊢
    rw [if_neg (by omega)] at e ⊢
    refine Foot.rd (v := .list (a.matrix y (nodeHash (j, c j) % tasks))) rfl rfl ?_
    refine Foot.wr rfl rfl ?_
    rw [← Option.some.inj e] at hk
    exact hk

/-- the columns of one thread -/
theorem scans_foot {s0 : MpSt N} (hp : PreN nr i m c row s0.st) (htask : 0 < tasks) {y : Nat} {all : List Nat} (o : List (Option (Node (N + 1)))) :
    ∀ (js : List Nat) (pre : List (Nat × Nat)) (a : MpSt N), (∀ j ∈ js, j < m ∧ j ∈ all) → (pre.map (·.2) ++ js).Nodup → J1 bdd zdd nr i m tasks c row s0 pre a →
      ∃ a', (js.map fun j => (y, j)).foldlM (mpScan bdd zdd nr i tasks) a = some a' ∧ J1 bdd zdd nr i m tasks c row s0 (pre ++ js.map fun j => (y, j)) a' ∧
        Foot (mem nr i tasks) (F1 i y all) (scans bdd zdd i tasks y js) (a, o) (a', o)
  | [], pre, a, _, _, h => ⟨a, rfl, by rw [List.map_nil, List.append_nil]; exact h, Foot.ret _⟩
  | j :: js, pre, a, hj, hn, h => by
    have hjj := hj j (List.mem_cons_self ..)
    have hnew : j ∉ pre.map (·.2) := fun hm => (List.nodup_append.1 hn).2.2 j hm j (List.mem_cons_self ..) rfl
    obtain ⟨a1, e1, h1, f1⟩ := scan_foot hp htask (y := y) hjj.1 hnew h hjj.2 o
    obtain ⟨a', e2, h2, f2⟩ := scans_foot hp htask (y := y) o js (pre ++ [(y, j)]) a1 (fun j hjs => hj j (List.mem_cons_of_mem _ hjs)) (by
      rw [List.map_append]
      simp only [List.map_cons, List.map_nil, List.append_assoc, List.singleton_append]
      exact hn) h1
    refine ⟨a', ?_, ?_, f1 _ _ f2⟩
    · rw [List.map_cons, List.foldlM_cons, e1]
      exact e2
    · rw [List.map_cons, ← List.append_cons] at *
      exact h2

/-- the threads one after the other -/
theorem scans_seq {s0 : MpSt N} (hp : PreN nr i m c row s0.st) (htask : 0 < tasks) (c1 : Nat → List Nat) (o : List (Option (Node (N + 1)))) :
    ∀ (ys : List Nat) (pre : List (Nat × Nat)) (a : MpSt N), (∀ j ∈ ys.flatMap c1, j < m) → (pre.map (·.2) ++ ys.flatMap c1).Nodup → J1 bdd zdd nr i m tasks c row s0 pre a →
      ∃ a', (ys.flatMap fun y => (c1 y).map fun j => (y, j)).foldlM (mpScan bdd zdd nr i tasks) a = some a' ∧
        seqL (mem nr i tasks) ys (fun y => scans bdd zdd i tasks y (c1 y)) (a, o) = some (a', o)
  | [], pre, a, _, _, h => ⟨a, rfl, rfl⟩
  | y :: ys, pre, a, hj, hn, h => by
    rw [List.flatMap_cons] at hj hn
    rw [← List.append_assoc] at hn
    obtain ⟨a1, e1, h1, t, _, f1, _⟩ := scans_foot hp htask (y := y) (all := c1 y) o (c1 y) pre a (fun j h => ⟨hj j (List.mem_append_left _ h), h⟩) (List.nodup_append.1 hn).1 h
    obtain ⟨a', e2, f2⟩ := scans_seq hp htask c1 o ys (pre ++ (c1 y).map fun j => (y, j)) a1 (fun j h => hj j (List.mem_append_right _ h)) (by
      rw [List.map_append, List.map_map]
      have : ((fun x : Nat × Nat => x.2) ∘ fun j => (y, j)) = id := rfl
      rw [this, List.map_id]
      exact hn) h1
    refine ⟨a', ?_, ?_⟩
    · rw [List.flatMap_cons, List.foldlM_append, e1]
      exact e2
    · rw [seqL_cons, f1]
      exact f2

theorem nodup_disjoint {T : Nat} {f : Nat → List Nat} (h : ((List.range T).flatMap f).Nodup) {y y' : Nat} (hy : y < T) (hy' : y' < T) (hne : y ≠ y') : ∀ j ∈ f y, j ∉ f y' := by
  have key : ∀ (l : List Nat), (l.flatMap f).Nodup → l.Nodup → ∀ y ∈ l, ∀ y' ∈ l, y ≠ y' → ∀ j ∈ f y, j ∉ f y' := by
    intro l
    induction l with
    | nil => intro _ _ y hy; cases hy
    | cons z l ih =>
      intro h hl y hy y' hy' hne j hj hj'
      rw [List.flatMap_cons] at h
      have h' := List.nodup_append.1 h
      rcases List.mem_cons.1 hy with rfl | h1 <;> rcases List.mem_cons.1 hy' with rfl | h2
      · exact hne rfl
      · exact h'.2.2 j hj j (List.mem_flatMap.2 ⟨_, h2, hj'⟩) rfl
      · exact h'.2.2 j hj' j (List.mem_flatMap.2 ⟨_, h1, hj⟩) rfl
      · exact ih h'.2.1 (List.nodup_cons.1 hl).2 y h1 y' h2 hne j hj hj'
  exact key _ h List.nodup_range y (List.mem_range.2 hy) y' (List.mem_range.2 hy') hne

theorem nodup_part {T : Nat} {f : Nat → List Nat} (h : ((List.range T).flatMap f).Nodup) {y : Nat} (hy : y < T) : (f y).Nodup := by
  obtain ⟨A, B, e, _⟩ := range_split hy
  rw [e, List.flatMap_append, List.flatMap_cons] at h
  exact (List.nodup_append.1 (List.nodup_append.1 h).2.1).1

end

end Fine

end TdZdd
