import Verif.ReducerFineProofs2

/-! The third loop of the parallel reducer at single accesses, and one level. -/

namespace TdZdd

namespace Fine

open Conc

variable {N : Nat} {bdd zdd : Bool} {nr i m tasks threads : Nat} {c : Nat → Node (N + 1)} {row : List (Node (N + 1))}

/-- accesses of a thread in the third loop, if it has the columns `js`; column `p` of the output gets the node `cc p` -/
def F3 (i : Nat) (cc : Nat → Node (N + 1)) (js : List Nat) : Ev Loc (Val N) → Prop
  | .rd (.nid r j) => r = i ∧ j ∈ js
  | .rd (.base _) => True
  | .rd (.inp _) => True
  | .wr (.nid r j) _ => r = i ∧ j ∈ js
  | .wr (.out p) v => v = .node (cc p)
  | _ => False

theorem F3_free {cc : Nat → Node (N + 1)} {js js' : List Nat} (hd : ∀ j ∈ js, j ∉ js') (e e' : Ev Loc (Val N)) (h : F3 i cc js e) (h' : F3 i cc js' e') :
    e.Free e' ∨ ∃ p v, e = .wr (.out p) v ∧ e' = .wr (.out p) v := by
  rcases e with l | ⟨l, v⟩ <;> rcases e' with l' | ⟨l', v'⟩ <;> cases l <;> cases l' <;> first
    | exact False.elim h
    | exact False.elim h'
    | exact .inl trivial
    | (refine .inl ?_; intro e; cases e; done)
    | (refine .inl ?_; intro e; cases e; exact hd _ h.2 h'.2)
    | skip
  rename_i p p'
  by_cases e : p = p'
  · subst e
    have h1 : v = .node (cc p) := h
    have h2 : v' = .node (cc p) := h'
    subst h1; subst h2
    exact .inr ⟨p, _, rfl, rfl⟩
  · exact .inl fun e' => e (Loc.out.inj e')

/-- what the third loop finds: an id of a lower row, or the task and the number in the task of a representative with the same node -/
def Temp (nr i tasks L : Nat) (base : Nat → Nat) (cc : Nat → Node (N + 1)) (st : RSt (N + 1)) (j : Nat) : Prop :=
  ∃ f, (st.newId i)[j]? = some (some f) ∧ (f.row < i ∨ i ≤ f.row ∧ f.row - i ≤ tasks ∧ f.col + base (f.row - i) < L ∧ nodeAt nr st.input ⟨i, j⟩ = some (cc (f.col + base (f.row - i))))

/-- invariant of the third loop -/
structure J4 (i m L : Nat) (st0 : RSt (N + 1)) (pre : List Nat) (a : RSt (N + 1) × List (Option (Node (N + 1)))) : Prop where
  eqs : ∃ l, l.length = m ∧ a.1 = { st0 with newId := upd st0.newId i l }
  old : ∀ j : Nat, j ∉ pre → (a.1.newId i)[j]? = (st0.newId i)[j]?
  len : a.2.length = L

/-- one column -/
theorem copy_foot {L : Nat} {cc : Nat → Node (N + 1)} {st0 : RSt (N + 1)} {b : MpSt N} {pre : List Nat} {j : Nat} (hj : j < m) (ht : Temp nr i tasks L b.base cc st0 j) (hnew : j ∉ pre)
    {a : RSt (N + 1) × List (Option (Node (N + 1)))} (h : J4 i m L st0 pre a) {js : List Nat} (hjs : j ∈ js) :
    ∃ a', mpCopy nr i tasks b.base a j = some a' ∧ J4 i m L st0 (pre ++ [j]) a' ∧
      ∀ k s', Foot (mem nr i tasks) (F3 i cc js) k ({ b with st := a'.1 }, a'.2) s' → Foot (mem nr i tasks) (F3 i cc js) (copy i tasks j k) ({ b with st := a.1 }, a.2) s' := by
  obtain ⟨l, hl, est⟩ := h.eqs
  have hlen : (a.1.newId i).length = m := by rw [est]; simp [upd, hl]
  obtain ⟨f, hf, hcase⟩ := ht
  rw [← h.old j hnew] at hf
  have hlook : a.1.look ⟨i, j⟩ = some f := by unfold RSt.look; dsimp only; rw [hf]; rfl
  have hold : ∀ j' : Nat, j' ∉ pre ++ [j] → (a.1.newId i)[j']? = (st0.newId i)[j']? := fun j' hj' => h.old j' fun hm => hj' (List.mem_append_left _ hm)
  have hget : (mem nr i tasks).get (({ b with st := a.1 }, a.2) : FMem N) (.nid i j) = some (.id f) := by
    show (a.1.look ⟨i, j⟩).map _ = _
    rw [hlook]; rfl
  unfold mpCopy
  simp only [hlook, Option.bind_eq_bind, Option.bind_some]
  rcases hcase with hlow | ⟨h1, h2, h3, h4⟩
  · rw [if_neg (by omega)]
    refine ⟨a, rfl, ⟨⟨l, hl, est⟩, hold, h.len⟩, fun k s' hk => ?_⟩
    refine Foot.rd (v := .id f) hget ⟨rfl, hjs⟩ ?_
    show Foot _ _ (if i ≤ f.row then _ else _) _ _
    rw [if_neg (by omega)]
    exact hk
  · rw [if_pos h1, if_pos h2, setId_spec _ (by rw [hlen]; exact hj)]
    have hat : nodeAt nr a.1.input ⟨i, j⟩ = some (cc (f.col + b.base (f.row - i))) := by rw [est]; exact h4
    simp only [Option.bind_some, hat]
    rw [if_pos (by rw [h.len]; exact h3)]
    refine ⟨_, rfl, ⟨⟨l.set j (some ⟨i, f.col + b.base (f.row - i)⟩), by rw [List.length_set]; exact hl, ?_⟩, fun j' hj' => ?_, by rw [List.length_set]; exact h.len⟩, fun k s' hk => ?_⟩
    · rw [est]
      dsimp only
      rw [upd_eq_self, upd_upd]
    · show (upd a.1.newId i ((a.1.newId i).set j _) i)[j']? = _
      rw [upd_eq_self, List.getElem?_set_ne fun e => hj' (by rw [e]; exact List.mem_append_right _ (List.mem_singleton.2 rfl))]
      exact hold j' hj'
    · refine Foot.rd (v := .id f) hget ⟨rfl, hjs⟩ ?_
      show Foot _ _ (if i ≤ f.row then _ else _) _ _
      rw [if_pos h1, if_pos h2]
      refine Foot.rd (v := .num (b.base (f.row - i))) rfl trivial ?_
      refine Foot.wr (decide_eq_true (by rw [hlen]; exact hj)) ⟨rfl, hjs⟩ ?_
      refine Foot.rd (v := .node (cc (f.col + b.base (f.row - i)))) ?_ trivial ?_
      · show (nodeAt nr a.1.input ⟨i, j⟩).map _ = _
        rw [hat]; rfl
      · refine Foot.wr (decide_eq_true ?_) rfl ?_
        · show f.col + b.base (f.row - i) < a.2.length
          rw [h.len]; exact h3
        · exact hk

/-- the columns of one thread -/
theorem copies_foot {L : Nat} {cc : Nat → Node (N + 1)} {st0 : RSt (N + 1)} {b : MpSt N} (ht : ∀ j, j < m → Temp nr i tasks L b.base cc st0 j) {all : List Nat} :
    ∀ (js pre : List Nat) (a : RSt (N + 1) × List (Option (Node (N + 1)))), (∀ j ∈ js, j < m ∧ j ∈ all) → (pre ++ js).Nodup → J4 i m L st0 pre a →
      ∃ a', js.foldlM (mpCopy nr i tasks b.base) a = some a' ∧ J4 i m L st0 (pre ++ js) a' ∧
        Foot (mem nr i tasks) (F3 i cc all) (copies i tasks js) ({ b with st := a.1 }, a.2) ({ b with st := a'.1 }, a'.2)
  | [], pre, a, _, _, h => ⟨a, rfl, by rw [List.append_nil]; exact h, Foot.ret _⟩
  | j :: js, pre, a, hj, hn, h => by
    have hjj := hj j (List.mem_cons_self ..)
    have hnew : j ∉ pre := fun hm => (List.nodup_append.1 hn).2.2 j hm j (List.mem_cons_self ..) rfl
    obtain ⟨a1, e1, h1, f1⟩ := copy_foot hjj.1 (ht j hjj.1) hnew h hjj.2
    have ea : pre ++ [j] ++ js = pre ++ j :: js := by simp
    obtain ⟨a', e2, h2, f2⟩ := copies_foot ht js (pre ++ [j]) a1 (fun j hjs => hj j (List.mem_cons_of_mem _ hjs)) (by rw [ea]; exact hn) h1
    refine ⟨a', ?_, by rw [← ea]; exact h2, f1 _ _ f2⟩
    rw [List.foldlM_cons, e1]
    exact e2

/-- the threads one after the other -/
theorem copies_seq {L : Nat} {cc : Nat → Node (N + 1)} {st0 : RSt (N + 1)} {b : MpSt N} (ht : ∀ j, j < m → Temp nr i tasks L b.base cc st0 j) (c3 : Nat → List Nat) :
    ∀ (ys pre : List Nat) (a : RSt (N + 1) × List (Option (Node (N + 1)))), (∀ j ∈ ys.flatMap c3, j < m) → (pre ++ ys.flatMap c3).Nodup → J4 i m L st0 pre a →
      ∃ a', (ys.flatMap c3).foldlM (mpCopy nr i tasks b.base) a = some a' ∧ seqL (mem nr i tasks) ys (fun y => copies i tasks (c3 y)) ({ b with st := a.1 }, a.2) = some ({ b with st := a'.1 }, a'.2)
  | [], pre, a, _, _, h => ⟨a, rfl, rfl⟩
  | y :: ys, pre, a, hj, hn, h => by
    rw [List.flatMap_cons] at hj hn
    rw [← List.append_assoc] at hn
    obtain ⟨a1, e1, h1, t, _, f1, _⟩ := copies_foot ht (all := c3 y) (c3 y) pre a (fun j h => ⟨hj j (List.mem_append_left _ h), h⟩) (List.nodup_append.1 hn).1 h
    obtain ⟨a', e2, f2⟩ := copies_seq ht c3 ys (pre ++ c3 y) a1 (fun j h => hj j (List.mem_append_right _ h)) hn h1
    refine ⟨a', ?_, ?_⟩
    · rw [List.flatMap_cons, List.foldlM_append, e1]
      exact e2
    · rw [seqL_cons, f1]
      exact f2

/-- the same schedule with atomic iterations, the threads one after the other -/
def Sched.coarse (s : Sched) (threads : Nat) : MpSched where
  p1 := (List.range threads).flatMap fun y => (s.c1 y).map fun j => (y, j)
  p2 := (List.range threads).flatMap fun y => (s.c2 y).map fun x => (y, x)
  p3 := (List.range threads).flatMap s.c3

theorem map_snd_flatMap (f : Nat → List Nat) (l : List Nat) : (l.flatMap fun y => (f y).map fun j => (y, j)).map (·.2) = l.flatMap f := by
  rw [List.map_flatMap]
  congr 1
  funext y
  rw [List.map_map]
  exact List.map_id _

theorem Sched.Ok.coarse {s : Sched} (h : s.Ok threads tasks m) : (s.coarse threads).Ok threads tasks m where
  cols1 := by unfold Sched.coarse; dsimp only; rw [map_snd_flatMap]; exact h.cols1
  thr1 := by
    intro e he
    obtain ⟨y, hy, hm⟩ := List.mem_flatMap.1 he
    obtain ⟨j, _, rfl⟩ := List.mem_map.1 hm
    exact List.mem_range.1 hy
  tasks2 := by unfold Sched.coarse; dsimp only; rw [map_snd_flatMap]; exact h.tasks2
  cols3 := h.cols3

/-- One level: no races in the first two loops, only equal writes in the third one, and the result of the atomic iterations. -/
theorem level_main {lower : List Nat} {s : Sched} {st : RSt (N + 1)} {base : Nat → Nat}
    (hp : PreN nr i m c row { st with newId := upd st.newId i (List.replicate m none) })
    (hlo : ∀ r ∈ lower, r < i) (htask : 0 < tasks) (hix : i + tasks ≤ 2 ^ 20) (hs : s.Ok threads tasks m) (hb0 : base 0 = 0) :
    Clean (mem nr i tasks) threads (prog1 bdd zdd i tasks s) (start (st, base) i) ∧
    ∃ s1, (∀ w, par (mem nr i tasks) threads w (prog1 bdd zdd i tasks s) (start (st, base) i) = some s1) ∧
      (s.coarse threads).p1.foldlM (mpScan bdd zdd nr i tasks) (start (st, base) i).1 = some s1.1 ∧
      Clean (mem nr i tasks) threads (prog2 i threads s (clear lower s1).1.uniq) (clear lower s1) ∧
    ∃ s2 a2, (∀ w, par (mem nr i tasks) threads w (prog2 i threads s (clear lower s1).1.uniq) (clear lower s1) = some s2) ∧
      (s.coarse threads).p2.foldlM (mpTask i threads) (clear lower s1).1 = some a2 ∧ s2.1.st = a2.st ∧ s2.1.base = a2.base ∧
      (∀ w, ∃ t, exec (mem nr i tasks) threads w (prog3 i tasks s, sums tasks s2) = some t ∧ OnlyOut threads t.1) ∧
    ∃ s3, (∀ w, par (mem nr i tasks) threads w (prog3 i tasks s) (sums tasks s2) = some s3) ∧ s3.1.base = mpSums tasks a2.base ∧
      (s.coarse threads).p3.foldlM (mpCopy nr i tasks (mpSums tasks a2.base)) (a2.st, List.replicate (mpSums tasks a2.base tasks) none) = some (s3.1.st, s3.2) := by
  have hm : (st.input i).length = m := by rw [← hp.len, ← hp.inp]
  have hni : i ∉ lower := fun h => absurd (hlo i h) (Nat.lt_irrefl _)
  have hnd1 : ((List.range threads).flatMap s.c1).Nodup := hs.cols1.nodup_iff.2 List.nodup_range
  have hnd2 : ((List.range threads).flatMap s.c2).Nodup := hs.tasks2.nodup_iff.2 List.nodup_range
  have hnd3 : ((List.range threads).flatMap s.c3).Nodup := hs.cols3.nodup_iff.2 List.nodup_range
  have hlt1 : ∀ j ∈ (List.range threads).flatMap s.c1, j < m := fun j hj => List.mem_range.1 (hs.cols1.mem_iff.1 hj)
  have hlt2 : ∀ j ∈ (List.range threads).flatMap s.c2, j < tasks := fun j hj => List.mem_range.1 (hs.tasks2.mem_iff.1 hj)
  have hlt3 : ∀ j ∈ (List.range threads).flatMap s.c3, j < m := fun j hj => List.mem_range.1 (hs.cols3.mem_iff.1 hj)
  have hin : ∀ (f : Nat → List Nat) {y j : Nat}, y < threads → j ∈ f y → j ∈ (List.range threads).flatMap f := fun f y j hy hj => List.mem_flatMap.2 ⟨y, List.mem_range.2 hy, hj⟩
  have hsc := hs.coarse
  -- first loop
  have estart : start (st, base) i = (({ st := { st with newId := upd st.newId i (List.replicate m none) }, matrix := fun _ _ => [], uniq := fun _ => HT.empty, base := base } : MpSt N), []) := by
    unfold start; dsimp only; rw [hm]
  rw [estart]
  generalize ha0 : ({ st := { st with newId := upd st.newId i (List.replicate m none) }, matrix := fun _ _ => [], uniq := fun _ => HT.empty, base := base } : MpSt N) = a0
  have hp0 : PreN nr i m c row a0.st := by rw [← ha0]; exact hp
  have hJ1 : J1 bdd zdd nr i m tasks c row a0 [] a0 := by
    rw [← ha0]
    exact ⟨fun hj => by simp at hj, fun _ => by unfold nodeAt; rw [if_pos hp.hi]; exact congrArg (·[_]?) hp.inp, fun _ _ => rfl,
      fun _ _ => rfl, by simp [upd], fun hj => by simp at hj, fun y x j d => by simp, fun y x => by simp, rfl, rfl, rfl⟩
  have foot1 : ∀ y, y < threads → ∃ m', Foot (mem nr i tasks) (F1 i y (s.c1 y)) (prog1 bdd zdd i tasks s y) (a0, []) m' := fun y hy => by
    obtain ⟨a', _, _, f⟩ := scans_foot hp0 htask (y := y) (all := s.c1 y) [] (s.c1 y) [] a0 (fun j hj => ⟨hlt1 j (hin s.c1 hy hj), hj⟩) (nodup_part hnd1 hy) hJ1
    exact ⟨_, f⟩
  have free1 : ∀ y y', y < threads → y' < threads → y ≠ y' → ∀ e e' : Ev Loc (Val N), F1 i y (s.c1 y) e → F1 i y' (s.c1 y') e' → e.Free e' :=
    fun y y' hy hy' hne e e' h h' => F1_free hne (nodup_disjoint hnd1 hy hy' hne) e e' h h'
  obtain ⟨a1, e1, q1⟩ := scans_seq hp0 htask s.c1 [] (List.range threads) [] a0 hlt1 hnd1 hJ1
  obtain ⟨a1', e1', h1⟩ := foldlM_inv (f := mpScan bdd zdd nr i tasks) (fun pre a => J1 bdd zdd nr i m tasks c row a0 pre a) (s.coarse threads).p1 a0 hJ1
    (by
      intro pre e post a he h
      have hmem : e.2 ∈ (s.coarse threads).p1.map (·.2) := by rw [he]; simp
      refine mpScan_spec hp0 htask (List.mem_range.1 (hsc.cols1.mem_iff.1 hmem)) ?_ h
      have hnd := hsc.cols1.nodup_iff.2 List.nodup_range
      rw [he, List.map_append, List.map_cons] at hnd
      intro hm
      exact (List.nodup_append.1 hnd).2.2 _ hm _ (by simp) rfl)
  have ea1 : a1' = a1 := Option.some.inj (e1'.symm.trans e1)
  subst ea1
  refine ⟨noRace_of_foot (mem_laws ..) foot1 free1, (a1', []), fun w => ?_, e1, ?_⟩
  · rw [par_of_foot (mem_laws ..) foot1 (fun y y' hy hy' hne e e' h h' => (free1 y y' hy hy' hne e e' h h').compat) w]
    exact q1
  -- second loop
  have hcol1 : ∀ {j}, j < m → j ∈ (s.coarse threads).p1.map (·.2) := fun hj => hsc.cols1.mem_iff.2 (List.mem_range.2 hj)
  have hclr : clearIds lower a1'.st.newId i = a1'.st.newId i := by rw [clearIds_at, if_neg hni]
  have eclear : clear lower (a1', []) = (({ a1' with st := { a1'.st with newId := clearIds lower a1'.st.newId } } : MpSt N), []) := rfl
  rw [eclear]
  generalize hb1 : ({ a1' with st := { a1'.st with newId := clearIds lower a1'.st.newId } } : MpSt N) = b1
  have e_mat : b1.matrix = a1'.matrix := by rw [← hb1]
  have e_id : b1.st.newId i = a1'.st.newId i := by rw [← hb1]; exact hclr
  have hl2 : ∀ x j d, (j, d) ∈ taskList threads b1.matrix x ↔ j < m ∧ d = c j ∧ InTask bdd zdd tasks c x j := fun x => by rw [e_mat]; exact (taskList_spec hsc h1 x).1
  have hn2 : ∀ x, ((taskList threads b1.matrix x).map (·.1)).Nodup := fun x => by rw [e_mat]; exact (taskList_spec hsc h1 x).2
  have hJ3 : J3 bdd zdd i m tasks c b1 [] (fun _ => []) b1 :=
    ⟨⟨b1.st.newId i, by rw [e_id]; exact h1.idlen, by
        have : upd b1.st.newId i (b1.st.newId i) = b1.st.newId := by
          funext r
          by_cases hr : r = i
          · rw [hr, upd_eq_self]
          · rw [upd_eq_ne _ _ hr]
        rw [this]⟩, fun _ _ => rfl, rfl, fun hx => by simp at hx, fun hx => by simp at hx, rfl⟩
  have foot2 : ∀ y, y < threads → ∃ m', Foot (mem nr i tasks) (F2 bdd zdd i tasks c (s.c2 y)) (prog2 i threads s b1.uniq y) (b1, []) m' := fun y hy => by
    obtain ⟨_, a', _, _, _, f⟩ := tasksOf_foot (nr := nr) (y := y) (all := s.c2 y) hix hl2 hn2 b1.uniq [] (s.c2 y) [] (fun _ => []) b1 (fun j hj => ⟨hlt2 j (hin s.c2 hy hj), hj⟩) (nodup_part hnd2 hy) hJ3
    exact ⟨_, f⟩
  have free2 : ∀ y y', y < threads → y' < threads → y ≠ y' → ∀ e e' : Ev Loc (Val N), F2 bdd zdd i tasks c (s.c2 y) e → F2 bdd zdd i tasks c (s.c2 y') e' → e.Free e' :=
    fun y y' hy hy' hne e e' h h' => F2_free (nodup_disjoint hnd2 hy hy' hne) e e' h h'
  obtain ⟨outs, a2, e2, h2, q2⟩ := tasks_seq (nr := nr) hix hl2 hn2 s.c2 b1.uniq [] (List.range threads) [] (fun _ => []) b1 List.nodup_range (fun _ _ => rfl) hlt2 hnd2 hJ3
  rw [List.nil_append] at h2
  refine ⟨noRace_of_foot (mem_laws ..) foot2 free2, ({ a2 with uniq := b1.uniq }, []), a2, fun w => ?_, e2, rfl, rfl, ?_⟩
  · rw [par_of_foot (mem_laws ..) foot2 (fun y y' hy hy' hne e e' h h' => (free2 y y' hy hy' hne e e' h h').compat) w]
    exact q2
  -- third loop
  have hok : ∀ {x}, x < tasks → TaskOk bdd zdd i m tasks x c (a2.st.newId i) (outs x) := fun hx => h2.ok (hs.tasks2.mem_iff.2 (List.mem_range.2 hx))
  have hbase : ∀ x, x ≤ tasks → mpSums tasks a2.base x = ((List.range x).flatMap outs).length := by
    refine mpSums_spec ?_ fun x hx => h2.base (hs.tasks2.mem_iff.2 (List.mem_range.2 hx))
    rw [h2.base0, ← hb1, h1.base, ← ha0]; exact hb0
  generalize hAll : (List.range tasks).flatMap outs = all
  obtain ⟨l2, hl2', est2⟩ := h2.eqs
  have hidlen2 : (a2.st.newId i).length = m := by rw [est2]; simp [upd, hl2']
  have hin2 : a2.st.input = a1'.st.input := by rw [est2, ← hb1]
  have hnode : ∀ {j}, j < m → nodeAt nr a2.st.input ⟨i, j⟩ = some (c j) := fun hj => by rw [hin2]; exact h1.done (hcol1 hj)
  have hL : mpSums tasks a2.base tasks = all.length := by rw [hbase tasks (Nat.le_refl _), hAll]
  have htemp : ∀ j, j < m → Temp nr i tasks all.length (mpSums tasks a2.base) (fun p => c (all[p]?.getD 0)) a2.st j := by
    intro j hj
    cases hd : delN bdd zdd (c j) with
    | true => exact ⟨c j 0, by rw [h2.del hj hd, e_id]; exact h1.del (hcol1 hj) hd, .inl (hp.low (j := j) 0 hj)⟩
    | false =>
      obtain ⟨q, k, h3, h4, h5⟩ := (hok (Nat.mod_lt (nodeHash (j, c j)) htask)).fin hj ⟨hd, rfl⟩
      generalize hxx : nodeHash (j, c j) % tasks = x at h3 h5
      have hx : x < tasks := by rw [← hxx]; exact Nat.mod_lt _ htask
      have hpos : all[q + ((List.range x).flatMap outs).length]? = some k := by
        rw [Nat.add_comm, ← hAll, flat_getElem outs hx (getElem?_lt h3), h3]
      have hb : mpSums tasks a2.base (i + x - i) = ((List.range x).flatMap outs).length := by
        rw [show i + x - i = x by omega]; exact hbase x (by omega)
      refine ⟨_, h5, .inr ⟨by dsimp only; omega, by dsimp only; omega, ?_, ?_⟩⟩
      · dsimp only; rw [hb]; exact getElem?_lt hpos
      · dsimp only
        rw [hb, hpos, hnode hj]
        exact congrArg some h4.symm
  have hJ4 : J4 i m all.length a2.st [] (a2.st, List.replicate (mpSums tasks a2.base tasks) none) :=
    ⟨⟨a2.st.newId i, hidlen2, by
        have : upd a2.st.newId i (a2.st.newId i) = a2.st.newId := by
          funext r
          by_cases hr : r = i
          · rw [hr, upd_eq_self]
          · rw [upd_eq_ne _ _ hr]
        rw [this]⟩, fun _ _ => rfl, by rw [List.length_replicate, hL]⟩
  have esums : sums tasks (({ a2 with uniq := b1.uniq } : MpSt N), []) =
      ({ ({ a2 with uniq := b1.uniq, base := mpSums tasks a2.base } : MpSt N) with st := a2.st }, List.replicate (mpSums tasks a2.base tasks) none) := rfl
  rw [esums]
  have foot3 : ∀ y, y < threads → ∃ m', Foot (mem nr i tasks) (F3 i (fun p => c (all[p]?.getD 0)) (s.c3 y)) (prog3 i tasks s y)
      ({ ({ a2 with uniq := b1.uniq, base := mpSums tasks a2.base } : MpSt N) with st := a2.st }, List.replicate (mpSums tasks a2.base tasks) none) m' := fun y hy => by
    obtain ⟨a', _, _, f⟩ := copies_foot (b := { a2 with uniq := b1.uniq, base := mpSums tasks a2.base }) htemp (all := s.c3 y) (s.c3 y) [] _ (fun j hj => ⟨hlt3 j (hin s.c3 hy hj), hj⟩) (nodup_part hnd3 hy) hJ4
    exact ⟨_, f⟩
  have free3 : ∀ y y', y < threads → y' < threads → y ≠ y' → ∀ e e' : Ev Loc (Val N), F3 i (fun p => c (all[p]?.getD 0)) (s.c3 y) e → F3 i (fun p => c (all[p]?.getD 0)) (s.c3 y') e' →
      e.Free e' ∨ ∃ p v, e = .wr (.out p) v ∧ e' = .wr (.out p) v :=
    fun y y' hy hy' hne e e' h h' => F3_free (nodup_disjoint hnd3 hy hy' hne) e e' h h'
  have comp3 : ∀ y y', y < threads → y' < threads → y ≠ y' → ∀ e e' : Ev Loc (Val N), F3 i (fun p => c (all[p]?.getD 0)) (s.c3 y) e → F3 i (fun p => c (all[p]?.getD 0)) (s.c3 y') e' → e.Compat e' := by
    intro y y' hy hy' hne e e' h h'
    rcases free3 y y' hy hy' hne e e' h h' with hf | ⟨p, v, rfl, rfl⟩
    · exact hf.compat
    · exact fun _ => rfl
  obtain ⟨a3, e3, q3⟩ := copies_seq (b := { a2 with uniq := b1.uniq, base := mpSums tasks a2.base }) htemp s.c3 (List.range threads) [] _ hlt3 hnd3 hJ4
  refine ⟨fun w => ?_, ({ ({ a2 with uniq := b1.uniq, base := mpSums tasks a2.base } : MpSt N) with st := a3.1 }, a3.2), fun w => ?_, rfl, e3⟩
  · obtain ⟨t, et, ht⟩ := pending_of_foot (mem_laws ..) foot3 comp3 w
    exact ⟨t, et, fun y y' e e' hy hy' hne he he' => free3 y y' hy hy' hne e e' (ht y hy e he) (ht y' hy' e' he')⟩
  · rw [par_of_foot (mem_laws ..) foot3 comp3 w]
    exact q3

/-- one level gives what it gives with atomic iterations -/
theorem level_eq {top : Nat} {lower : Nat → List Nat} {sched : Nat → Sched} {st : RSt (N + 1)} {base : Nat → Nat}
    (hp : PreN nr i m c row { st with newId := upd st.newId i (List.replicate m none) })
    (hlo : ∀ r ∈ lower i, r < i) (htask : 0 < tasks) (hix : i + tasks ≤ 2 ^ 20) (hs : (sched i).Ok threads tasks m) (hb0 : base 0 = 0) :
    level bdd zdd threads tasks nr top lower sched (st, base) i = mpLevel bdd zdd threads tasks nr top lower (fun i => (sched i).coarse threads) (st, base) i := by
  obtain ⟨_, s1, p1, e1, _, s2, a2, p2, e2, es, eb, _, s3, p3, e3b, e3⟩ := level_main (bdd := bdd) (zdd := zdd) hp hlo htask hix hs hb0
  unfold level
  unfold mpLevel
  have e1' : ((sched i).coarse threads).p1.foldlM (mpScan bdd zdd nr i tasks)
    { st := { st with newId := upd st.newId i (List.replicate (st.input i).length none) }, matrix := fun _ _ => [], uniq := fun _ => HT.empty, base := base } = some s1.1 := e1
  have e2' : ((sched i).coarse threads).p2.foldlM (mpTask i threads) { s1.1 with st := { s1.1.st with newId := clearIds (lower i) s1.1.st.newId } } = some a2 := e2
  simp only [Option.bind_eq_bind, p1, Option.bind_some, p2, p3, e1', e2', e3, e3b]

end Fine

end TdZdd
