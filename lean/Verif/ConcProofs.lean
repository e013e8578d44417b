import Verif.Conc

/-! Threads whose accesses do not conflict can as well run one after the other. -/

namespace TdZdd.Conc

variable {M L V : Type} {μ : Mem M L V}

theorem Ev.Free.compat {e e' : Ev L V} (h : e.Free e') : e.Compat e' := by
  cases e <;> cases e' <;> first | exact h | exact fun e => absurd e h

theorem Ev.Compat.symm {e e' : Ev L V} (h : e.Compat e') : e'.Compat e := by
  cases e <;> cases e' <;> first | exact trivial | exact fun e => (h e.symm).symm | exact fun e => h e.symm

theorem run_of_trace : ∀ {p : Prog L V} {m : M} {t : List (Ev L V)}, p.trace μ m = some t → ∃ m', p.run μ m = some m'
  | .ret, m, _, _ => ⟨m, rfl⟩
  | .ub, _, _, h => by cases h
  | .rd l k, m, t, h => by
    unfold Prog.trace at h
    obtain ⟨v, hv, h⟩ := Option.bind_eq_some_iff.1 h
    obtain ⟨t', hh, rfl⟩ := Option.map_eq_some_iff.1 h
    replace h := hh
    obtain ⟨m', e⟩ := run_of_trace h
    exact ⟨m', by unfold Prog.run; rw [hv]; exact e⟩
  | .wr l v p, m, t, h => by
    unfold Prog.trace at h
    by_cases hc : μ.can m l = true
    · rw [if_pos hc] at h
      obtain ⟨t', hh, rfl⟩ := Option.map_eq_some_iff.1 h
      replace h := hh
      obtain ⟨m', e⟩ := run_of_trace h
      exact ⟨m', by unfold Prog.run; rw [if_pos hc]; exact e⟩
    · rw [if_neg hc] at h; cases h

/-- a write that does not conflict with a program can be done before or after it -/
theorem trace_put (hμ : μ.Laws) {l : L} {v : V} : ∀ {p : Prog L V} {m : M} {t : List (Ev L V)}, p.trace μ m = some t → (∀ e ∈ t, (Ev.wr l v).Compat e) →
    p.trace μ (μ.put m l v) = some t ∧ p.run μ (μ.put m l v) = (p.run μ m).map fun m => μ.put m l v
  | .ret, m, t, h, _ => ⟨h, rfl⟩
  | .ub, _, _, h, _ => by cases h
  | .rd l' k, m, t, h, hc => by
    unfold Prog.trace at h
    obtain ⟨x, hx, h⟩ := Option.bind_eq_some_iff.1 h
    obtain ⟨t', hh, rfl⟩ := Option.map_eq_some_iff.1 h
    replace h := hh
    have hne : l ≠ l' := hc _ (List.mem_cons_self ..)
    obtain ⟨h1, h2⟩ := trace_put hμ h fun e he => hc e (List.mem_cons_of_mem _ he)
    constructor
    · unfold Prog.trace; rw [hμ.get_put _ _ _ _ hne, hx, Option.bind_some, h1]; rfl
    · unfold Prog.run; rw [hμ.get_put _ _ _ _ hne, hx, Option.bind_some, Option.bind_some, h2]
  | .wr l' v' p, m, t, h, hc => by
    unfold Prog.trace at h
    by_cases hcan : μ.can m l' = true
    · rw [if_pos hcan] at h
      obtain ⟨t', hh, rfl⟩ := Option.map_eq_some_iff.1 h
      replace h := hh
      have hv : l = l' → v = v' := hc _ (List.mem_cons_self ..)
      obtain ⟨h1, h2⟩ := trace_put hμ h fun e he => hc e (List.mem_cons_of_mem _ he)
      have key : μ.put (μ.put m l v) l' v' = μ.put (μ.put m l' v') l v := by
        by_cases hl : l = l'
        · rw [← hl, ← hv hl]
        · exact hμ.comm _ _ _ _ _ hl
      constructor
      · unfold Prog.trace; rw [hμ.can_put, if_pos hcan, key, h1]; rfl
      · unfold Prog.run; rw [hμ.can_put, if_pos hcan, if_pos hcan, key, h2]
    · rw [if_neg hcan] at h; cases h

/-- a program that does not write a location leaves its value -/
theorem run_get (hμ : μ.Laws) {l : L} : ∀ {p : Prog L V} {m m' : M} {t : List (Ev L V)}, p.trace μ m = some t → p.run μ m = some m' → (∀ e ∈ t, (Ev.rd l).Compat e) →
    μ.get m' l = μ.get m l
  | .ret, m, m', t, _, h, _ => by rw [← Option.some.inj h]
  | .ub, _, _, _, h, _, _ => by cases h
  | .rd l' k, m, m', t, h, hr, hc => by
    unfold Prog.trace at h
    unfold Prog.run at hr
    obtain ⟨x, hx, h⟩ := Option.bind_eq_some_iff.1 h
    obtain ⟨t', hh, rfl⟩ := Option.map_eq_some_iff.1 h
    replace h := hh
    rw [hx, Option.bind_some] at hr
    exact run_get hμ h hr fun e he => hc e (List.mem_cons_of_mem _ he)
  | .wr l' v' p, m, m', t, h, hr, hc => by
    unfold Prog.trace at h
    unfold Prog.run at hr
    by_cases hcan : μ.can m l' = true
    · rw [if_pos hcan] at h hr
      obtain ⟨t', hh, rfl⟩ := Option.map_eq_some_iff.1 h
      replace h := hh
      have hne : l ≠ l' := hc _ (List.mem_cons_self ..)
      rw [run_get hμ h hr fun e he => hc e (List.mem_cons_of_mem _ he), hμ.get_put _ _ _ _ hne.symm]
    · rw [if_neg hcan] at h; cases h

theorem run_can (hμ : μ.Laws) {l : L} : ∀ {p : Prog L V} {m m' : M}, p.run μ m = some m' → μ.can m' l = μ.can m l
  | .ret, m, m', h => by rw [← Option.some.inj h]
  | .ub, _, _, h => by cases h
  | .rd l' k, m, m', h => by
    unfold Prog.run at h
    obtain ⟨x, _, h⟩ := Option.bind_eq_some_iff.1 h
    exact run_can hμ h
  | .wr l' v' p, m, m', h => by
    unfold Prog.run at h
    by_cases hcan : μ.can m l' = true
    · rw [if_pos hcan] at h
      rw [run_can hμ h, hμ.can_put]
    · rw [if_neg hcan] at h; cases h

/-- a program keeps the accesses of another one with which it does not conflict -/
theorem run_trace (hμ : μ.Laws) {q : Prog L V} {t' : List (Ev L V)} : ∀ {p : Prog L V} {m m' : M} {t : List (Ev L V)}, p.trace μ m = some t → p.run μ m = some m' →
    q.trace μ m = some t' → (∀ e ∈ t, ∀ e' ∈ t', e.Compat e') → q.trace μ m' = some t'
  | .ret, m, m', t, _, h, hq, _ => by rw [← Option.some.inj h]; exact hq
  | .ub, _, _, _, h, _, _, _ => by cases h
  | .rd l' k, m, m', t, h, hr, hq, hc => by
    unfold Prog.trace at h
    unfold Prog.run at hr
    obtain ⟨x, hx, h⟩ := Option.bind_eq_some_iff.1 h
    obtain ⟨t', hh, rfl⟩ := Option.map_eq_some_iff.1 h
    replace h := hh
    rw [hx, Option.bind_some] at hr
    exact run_trace hμ h hr hq fun e he => hc e (List.mem_cons_of_mem _ he)
  | .wr l' v' p, m, m', t, h, hr, hq, hc => by
    unfold Prog.trace at h
    unfold Prog.run at hr
    by_cases hcan : μ.can m l' = true
    · rw [if_pos hcan] at h hr
      obtain ⟨t', hh, rfl⟩ := Option.map_eq_some_iff.1 h
      replace h := hh
      exact run_trace hμ h hr (trace_put hμ hq (hc _ (List.mem_cons_self ..))).1 fun e he => hc e (List.mem_cons_of_mem _ he)
    · rw [if_neg hcan] at h; cases h

/-- the accesses of the threads, each alone, do not conflict -/
structure Indep (μ : Mem M L V) (T : Nat) (P : Nat → Prog L V) (m : M) (t : Nat → List (Ev L V)) : Prop where
  tr : ∀ y, y < T → (P y).trace μ m = some (t y)
  co : ∀ y y', y < T → y' < T → y ≠ y' → ∀ e ∈ t y, ∀ e' ∈ t y', e.Compat e'

theorem seqL_cons (y : Nat) (ys : List Nat) (P : Nat → Prog L V) (m : M) : seqL μ (y :: ys) P m = ((P y).run μ m).bind fun m => seqL μ ys P m := rfl

theorem seqL_append (ys zs : List Nat) (P : Nat → Prog L V) (m : M) : seqL μ (ys ++ zs) P m = (seqL μ ys P m).bind fun m => seqL μ zs P m := by
  unfold seqL
  rw [List.foldlM_append]
  rfl

theorem seqL_congr {P Q : Nat → Prog L V} : ∀ {ys : List Nat} (m : M), (∀ y ∈ ys, P y = Q y) → seqL μ ys P m = seqL μ ys Q m
  | [], _, _ => rfl
  | y :: ys, m, h => by
    rw [seqL_cons, seqL_cons, h y (List.mem_cons_self ..)]
    exact congrArg _ (funext fun m => seqL_congr m fun z hz => h z (List.mem_cons_of_mem _ hz))

/-- other threads that run one after the other keep the accesses of a program, the values that it reads and the effect of a write -/
theorem seqL_other (hμ : μ.Laws) {T : Nat} {P : Nat → Prog L V} {t : Nat → List (Ev L V)} {k : Nat} : ∀ {ys : List Nat} {m : M}, (∀ y ∈ ys, y < T ∧ y ≠ k) → ys.Nodup →
    (∀ y ∈ ys, (P y).trace μ m = some (t y)) → (∀ y y', y < T → y' < T → y ≠ y' → ∀ e ∈ t y, ∀ e' ∈ t y', e.Compat e') →
    ∃ m', seqL μ ys P m = some m' ∧ (∀ l, (∀ y ∈ ys, ∀ e ∈ t y, (Ev.rd l).Compat e) → μ.get m' l = μ.get m l) ∧ (∀ l, μ.can m' l = μ.can m l) ∧
      ∀ l v, (∀ y ∈ ys, ∀ e ∈ t y, (Ev.wr l v).Compat e) → seqL μ ys P (μ.put m l v) = some (μ.put m' l v)
  | [], m, _, _, _, _ => ⟨m, rfl, fun _ _ => rfl, fun _ => rfl, fun _ _ _ => rfl⟩
  | y :: ys, m, hy, hn, ht, hc => by
    have h0 := ht y (List.mem_cons_self ..)
    obtain ⟨m1, e1⟩ := run_of_trace h0
    have hn' := List.nodup_cons.1 hn
    obtain ⟨m', e2, g2, c2, p2⟩ := seqL_other hμ (T := T) (P := P) (t := t) (k := k) (ys := ys) (m := m1) (fun z hz => hy z (List.mem_cons_of_mem _ hz)) hn'.2 (fun z hz => by
      refine run_trace hμ h0 e1 (ht z (List.mem_cons_of_mem _ hz)) (hc y z (hy y (List.mem_cons_self ..)).1 (hy z (List.mem_cons_of_mem _ hz)).1 ?_)
      rintro rfl
      exact hn'.1 hz) hc
    refine ⟨m', by rw [seqL_cons, e1]; exact e2, fun l hl => ?_, fun l => ?_, fun l v hl => ?_⟩
    · rw [g2 l fun z hz => hl z (List.mem_cons_of_mem _ hz), run_get hμ h0 e1 (hl y (List.mem_cons_self ..))]
    · rw [c2, run_can hμ e1]
    · rw [seqL_cons, (trace_put hμ h0 (hl y (List.mem_cons_self ..))).2, e1]
      exact p2 l v fun z hz => hl z (List.mem_cons_of_mem _ hz)

theorem upd_same {α : Type} (f : Nat → α) (k : Nat) : upd f k (f k) = f := by
  funext j
  unfold upd
  by_cases h : j = k
  · rw [if_pos h, h]
  · rw [if_neg h]

theorem range_split {k T : Nat} (h : k < T) : ∃ A B, List.range T = A ++ k :: B ∧ (∀ y ∈ A, y < T ∧ y ≠ k) ∧ A.Nodup ∧ ∀ y ∈ B, y ≠ k := by
  have hm := List.mem_range.2 h
  obtain ⟨A, B, e⟩ := List.append_of_mem hm
  have hn : (A ++ k :: B).Nodup := e ▸ List.nodup_range
  have hn' := List.nodup_append.1 hn
  refine ⟨A, B, e, fun y hy => ⟨List.mem_range.1 (e ▸ List.mem_append_left _ hy), hn'.2.2 y hy k (List.mem_cons_self ..)⟩, hn'.1, fun y hy => ?_⟩
  rintro rfl
  exact (List.nodup_cons.1 hn'.2.1).1 hy

/-- one step of one thread: defined, the rest has the rest of the accesses, and running one after the other gives the same -/
theorem Indep.step (hμ : μ.Laws) {T : Nat} {P : Nat → Prog L V} {m : M} {t : Nat → List (Ev L V)} (h : Indep μ T P m t) {k : Nat} (hk : k < T) :
    ∃ p' m' tk, (P k).step μ m = some (p', m') ∧ (∃ s, t k = s ++ tk) ∧ Indep μ T (upd P k p') m' (upd t k tk) ∧
      seqL μ (List.range T) (upd P k p') m' = seqL μ (List.range T) P m := by
  have hsub : ∀ {tk s}, t k = s ++ tk → ∀ y, ∀ e ∈ upd t k tk y, e ∈ t y := by
    intro tk s hs y e he
    unfold upd at he
    by_cases hy : y = k
    · rw [if_pos hy] at he; rw [hy, hs]; exact List.mem_append_right _ he
    · rw [if_neg hy] at he; exact he
  have hself : ∀ {α : Type} (f : Nat → α) v, upd f k v k = v := fun f v => if_pos rfl
  have hoth : ∀ {α : Type} (f : Nat → α) v {y}, y ≠ k → upd f k v y = f y := fun f v _ h => if_neg h
  obtain ⟨A, B, eT, hA, nA, hB⟩ := range_split hk
  have hAlt := fun y hy => (hA y hy).1
  have ht := h.tr k hk
  generalize hp : P k = p at ht
  cases p with
  | ret =>
    refine ⟨.ret, m, t k, by rfl, ⟨[], rfl⟩, ?_, ?_⟩
    · rw [upd_same, ← hp, upd_same]; exact h
    · rw [← hp, upd_same]
  | ub => cases ht
  | rd l K =>
    unfold Prog.trace at ht
    obtain ⟨v, hv, ht⟩ := Option.bind_eq_some_iff.1 ht
    obtain ⟨tk, ht, he⟩ := Option.map_eq_some_iff.1 ht
    have hs : t k = [.rd l] ++ tk := he.symm
    refine ⟨K v, m, tk, by simp only [Prog.step]; rw [hv]; rfl, ⟨_, hs⟩, ⟨fun y hy => ?_, fun y y' hy hy' hne e he e' he' => h.co y y' hy hy' hne e (hsub hs y e he) e' (hsub hs y' e' he')⟩, ?_⟩
    · by_cases hyk : y = k
      · rw [hyk, hself, hself]; exact ht
      · rw [hoth _ _ hyk, hoth _ _ hyk]; exact h.tr y hy
    · rw [eT, seqL_append, seqL_append, seqL_congr m (fun y hy => hoth P (K v) (hA y hy).2)]
      obtain ⟨m', e1, g1, _, _⟩ := seqL_other hμ (k := k) hA nA (fun y hy => h.tr y (hA y hy).1) h.co
      rw [e1, Option.bind_some, Option.bind_some, seqL_cons, seqL_cons, hself, hp]
      have hg : μ.get m' l = some v := by
        rw [g1 l fun y hy e he => h.co k y hk (hA y hy).1 (hA y hy).2.symm _ (by rw [hs]; exact List.mem_cons_self ..) e he]
        exact hv
      have hrun : (Prog.rd l K).run μ m' = (K v).run μ m' := by
        simp only [Prog.run]
        rw [hg]; rfl
      rw [hrun]
      exact congrArg _ (funext fun m => seqL_congr m fun y hy => hoth P (K v) (hB y hy))
  | wr l v q =>
    unfold Prog.trace at ht
    by_cases hcan : μ.can m l = true
    · rw [if_pos hcan] at ht
      obtain ⟨tk, ht, he⟩ := Option.map_eq_some_iff.1 ht
      have hs : t k = [.wr l v] ++ tk := he.symm
      have hco : ∀ y, y < T → y ≠ k → ∀ e ∈ t y, (Ev.wr l v).Compat e := fun y hy hne e he => h.co k y hk hy hne.symm _ (by rw [hs]; exact List.mem_cons_self ..) e he
      refine ⟨q, μ.put m l v, tk, by simp only [Prog.step]; rw [if_pos hcan], ⟨_, hs⟩, ⟨fun y hy => ?_, fun y y' hy hy' hne e he e' he' => h.co y y' hy hy' hne e (hsub hs y e he) e' (hsub hs y' e' he')⟩, ?_⟩
      · by_cases hyk : y = k
        · rw [hyk, hself, hself]; exact ht
        · rw [hoth _ _ hyk, hoth _ _ hyk]; exact (trace_put hμ (h.tr y hy) (hco y hy hyk)).1
      · rw [eT, seqL_append, seqL_append, seqL_congr _ (fun y hy => hoth P q (hA y hy).2)]
        obtain ⟨m', e1, _, c1, p1⟩ := seqL_other hμ (k := k) hA nA (fun y hy => h.tr y (hA y hy).1) h.co
        rw [e1, p1 l v fun y hy => hco y (hA y hy).1 (hA y hy).2, Option.bind_some, Option.bind_some, seqL_cons, seqL_cons, hself, hp]
        have hrun : (Prog.wr l v q).run μ m' = q.run μ (μ.put m' l v) := by
          conv => lhs; unfold Prog.run
          rw [c1, if_pos hcan]
        rw [hrun]
        exact congrArg _ (funext fun m => seqL_congr m fun y hy => hoth P q (hB y hy))
    · rw [if_neg hcan] at ht; cases ht

/-- every interleaving of independent threads is defined and gives what the threads give one after the other -/
theorem Indep.exec (hμ : μ.Laws) {T : Nat} : ∀ (w : List Nat) {P : Nat → Prog L V} {m : M} {t : Nat → List (Ev L V)}, Indep μ T P m t →
    ∃ s t', Conc.exec μ T w (P, m) = some s ∧ Indep μ T s.1 s.2 t' ∧ (∀ y, ∃ u, t y = u ++ t' y) ∧ seqL μ (List.range T) s.1 s.2 = seqL μ (List.range T) P m
  | [], P, m, t, h => ⟨(P, m), t, rfl, h, fun _ => ⟨[], rfl⟩, rfl⟩
  | k :: w, P, m, t, h => by
    by_cases hk : k < T
    · obtain ⟨p', m', tk, e, ⟨u, hu⟩, h', es⟩ := h.step hμ hk
      obtain ⟨s, t', e', hs, ht', es'⟩ := Indep.exec hμ w h'
      refine ⟨s, t', by unfold Conc.exec; rw [if_pos hk, e]; exact e', hs, fun y => ?_, es'.trans es⟩
      obtain ⟨u', hu'⟩ := ht' y
      unfold upd at hu'
      by_cases hy : y = k
      · rw [if_pos hy] at hu'
        exact ⟨u ++ u', by rw [hy, hu, hu', List.append_assoc]; rw [hy]⟩
      · rw [if_neg hy] at hu'
        exact ⟨u', hu'⟩
    · obtain ⟨s, t', e', hs⟩ := Indep.exec hμ w h
      exact ⟨s, t', by unfold Conc.exec; rw [if_neg hk]; exact e', hs⟩

theorem Indep.par (hμ : μ.Laws) {T : Nat} {P : Nat → Prog L V} {m : M} {t : Nat → List (Ev L V)} (h : Indep μ T P m t) (w : List Nat) :
    Conc.par μ T w P m = seqL μ (List.range T) P m := by
  obtain ⟨s, t', e, _, _, es⟩ := h.exec hμ w
  unfold Conc.par
  rw [e]
  exact es

theorem next_mem {p : Prog L V} {m : M} {t : List (Ev L V)} (h : p.trace μ m = some t) {e : Ev L V} (he : p.next = some e) : e ∈ t := by
  cases p with
  | ret => cases he
  | ub => cases he
  | rd l k =>
    unfold Prog.trace at h
    obtain ⟨v, _, h⟩ := Option.bind_eq_some_iff.1 h
    obtain ⟨t', _, rfl⟩ := Option.map_eq_some_iff.1 h
    rw [← Option.some.inj he]
    exact List.mem_cons_self ..
  | wr l v p =>
    unfold Prog.trace at h
    by_cases hcan : μ.can m l = true
    · rw [if_pos hcan] at h
      obtain ⟨t', _, rfl⟩ := Option.map_eq_some_iff.1 h
      rw [← Option.some.inj he]
      exact List.mem_cons_self ..
    · rw [if_neg hcan] at h; cases h

/-- without common writes there is no data race in any interleaving -/
theorem Indep.noRace (hμ : μ.Laws) {T : Nat} {P : Nat → Prog L V} {m : M} {t : Nat → List (Ev L V)} (h : Indep μ T P m t)
    (hf : ∀ y y', y < T → y' < T → y ≠ y' → ∀ e ∈ t y, ∀ e' ∈ t y', e.Free e') {w : List Nat} {s : (Nat → Prog L V) × M} (e : Conc.exec μ T w (P, m) = some s) : ¬ Race T s.1 := by
  obtain ⟨s', t', e', hs, ht, _⟩ := h.exec hμ w
  rw [e] at e'
  obtain rfl := Option.some.inj e'
  rintro ⟨y, y', a, b, hy, hy', hne, ha, hb, hab⟩
  obtain ⟨u, hu⟩ := ht y
  obtain ⟨u', hu'⟩ := ht y'
  exact hab (hf y y' hy hy' hne a (by rw [hu]; exact List.mem_append_right _ (next_mem (hs.tr y hy) ha)) b (by rw [hu']; exact List.mem_append_right _ (next_mem (hs.tr y' hy') hb)))

end TdZdd.Conc
