import Verif.Evaluate
import Verif.ReducerProofs4
import Verif.TableSem

/-! `evaluate` computes the bottom-up fold. -/

namespace TdZdd

variable {N : Nat} {σ T R V : Type}

/-- The value of the recursion `tv`/`nv` at a node: terminal `j` has value `tv j`, a node of level `i` has value
`nv i` of the values and levels of its children. -/
inductive FoldVal (tab : Table N) (tv : Nat → V) (nv : Nat → (Fin N → V × Nat) → V) : NodeId → V → Prop
  | term {f : NodeId} : f.row = 0 → FoldVal tab tv nv f (tv f.col)
  | node {f : NodeId} {nd : Node N} {vs : Fin N → V} : 0 < f.row → tab.node? f = some nd →
      (∀ b, FoldVal tab tv nv (nd b) (vs b)) → FoldVal tab tv nv f (nv f.row fun b => (vs b, (nd b).row))

theorem FoldVal.unique {tab : Table N} {tv : Nat → V} {nv : Nat → (Fin N → V × Nat) → V} {f : NodeId} {v v' : V}
    (h : FoldVal tab tv nv f v) (h' : FoldVal tab tv nv f v') : v = v' := by
  induction h generalizing v' with
  | term h0 =>
    cases h' with
    | term _ => rfl
    | node h1 _ _ => omega
  | node h0 hn _ ih =>
    cases h' with
    | term h1 => omega
    | node _ hn' hv' =>
      rw [hn] at hn'
      cases hn'
      congr 1
      funext b
      rw [ih b (hv' b)]

theorem FoldVal.exists {tab : Table N} (hw : tab.Wf) (tv : Nat → V) (nv : Nat → (Fin N → V × Nat) → V) (k : Nat) :
    ∀ {f : NodeId}, f.row ≤ k → tab.Valid f → ∃ v, FoldVal tab tv nv f v := by
  induction k with
  | zero => intro f hf _; exact ⟨_, .term (by omega)⟩
  | succ k ih =>
    intro f hf hv
    by_cases h0 : f.row = 0
    · exact ⟨_, .term h0⟩
    · obtain ⟨nd, hn⟩ := hv.pos (by omega)
      have : ∀ b, ∃ v, FoldVal tab tv nv (nd b) v := fun b =>
        ih (by have := (hw.child (by omega) hn b).2; omega) (hw.child (by omega) hn b).1
      exact ⟨_, .node (by omega) hn fun b => Classical.choose_spec (this b)⟩

/-- The evaluator computes (representations `Rep level t v` of) the recursion `tv`/`nv`, keeping an invariant of its
state. -/
structure Evaluator.Sim (ev : Evaluator N σ T R) (n : Nat) (P : σ → Prop) (Rep : Nat → T → V → Prop) (tv : Nat → V)
    (nv : Nat → (Fin N → V × Nat) → V) : Prop where
  start : P (ev.start n)
  term : ∀ {s j}, P s → j < 2 → ∃ s' t, ev.term s j = some (s', t) ∧ P s' ∧ Rep 0 t (tv j)
  node : ∀ {s i} {vals : Fin N → T × Nat} {vs : Fin N → V}, P s → 1 ≤ i → i ≤ n →
    (∀ b, Rep (vals b).2 (vals b).1 (vs b) ∧ (vals b).2 < i) →
    ∃ s' t, ev.node s i vals = some (s', t) ∧ P s' ∧ Rep i t (nv i fun b => (vs b, (vals b).2))
  clean : ∀ {s r}, P s → 0 < r → r < n → P (ev.clean s r)

theorem Evaluator.pure_sim (tv : Nat → T) (nv : Nat → (Fin N → T × Nat) → T) (g : T → R) (n : Nat) :
    (Evaluator.pure tv nv g : Evaluator N Unit T R).Sim n (fun _ => True) (fun _ t v => t = v) tv nv where
  start := trivial
  term _ _ := ⟨_, _, rfl, trivial, rfl⟩
  node := by
    intro s i vals vs _ _ _ h
    refine ⟨_, _, rfl, trivial, ?_⟩
    congr 1
    funext b
    rw [← (h b).1]
  clean _ _ _ := trivial

theorem allSome'_of {α : Type} {f : Fin N → Option α} {g : Fin N → α} (h : ∀ b, f b = some (g b)) : allSome' f = some g := by
  unfold allSome'
  rw [dif_pos (fun b => by rw [h b]; rfl)]
  congr 1
  funext b
  apply Option.some.inj
  rw [Option.some_get, h b]

/-- row `r` is present and holds the values of its nodes -/
def RowVals (tab : Table N) (Rep : Nat → T → V → Prop) (tv : Nat → V) (nv : Nat → (Fin N → V × Nat) → V) (r : Nat)
    (l : List (Option T)) : Prop :=
  ∀ c : Nat, c < (tab.row r).length → ∃ t v, l[c]? = some (some t) ∧ Rep r t v ∧ FoldVal tab tv nv ⟨r, c⟩ v

theorem clear_at {w : Nat → List (Option T)} (l : List Nat) (r : Nat) :
    l.foldl (fun w r => upd w r []) w r = if r ∈ l then [] else w r := by
  induction l generalizing w with
  | nil => simp
  | cons a l ih =>
    rw [List.foldl_cons, ih]
    unfold upd
    by_cases h : r ∈ l
    · simp [h]
    · by_cases e : r = a <;> simp [h, e]

theorem foldl_clean {ev : Evaluator N σ T R} {P : σ → Prop} {Q : Nat → Prop} (h : ∀ {s r}, P s → Q r → P (ev.clean s r))
    (l : List Nat) (hl : ∀ r, r ∈ l → Q r) {s : σ} (hs : P s) : P (l.foldl ev.clean s) := by
  induction l generalizing s with
  | nil => exact hs
  | cons a l ih => exact ih (fun r hr => hl r (.tail _ hr)) (h hs (hl a (.head _)))

/-- A schedule that evaluates every column of every level exactly once. -/
def EvSched (D : Dd N) (sched : Nat → List (Nat × Nat)) : Prop :=
  ∀ i, 1 ≤ i → i ≤ D.root.row → ((sched i).map (·.2)).Perm (List.range (D.table.row i).length)

theorem seqSched_ok (D : Dd N) : EvSched D (seqSched D) := by
  intro i _ _
  have : (seqSched D i).map (·.2) = List.range (D.table.row i).length := by
    unfold seqSched
    rw [List.map_map]
    exact (List.map_congr_left (fun _ _ => rfl)).trans (List.map_id _)
  rw [this]

theorem evalWork_spec {ev : Evaluator N σ T R} {D : Dd N} {P : σ → Prop} {Rep : Nat → T → V → Prop} {tv : Nat → V}
    {nv : Nat → (Fin N → V × Nat) → V} (hev : ev.Sim D.root.row P Rep tv nv) (hw : D.Wf)
    (h0 : D.table.row 0 = terminalRow N) (hnr : 0 < D.table.numRows) {sched : Nat → List (Nat × Nat)}
    (hs : EvSched D sched) :
    ∃ s t v, evalWork ev D sched = some (s, t) ∧ P s ∧ Rep D.root.row t v ∧ FoldVal D.table tv nv D.root v := by
  have hlt : D.root.row < D.table.numRows := by
    by_cases h : D.root.row = 0
    · omega
    · obtain ⟨nd, hn⟩ := hw.root.pos (by omega)
      unfold Table.node? at hn
      by_cases h' : D.root.row < D.table.numRows
      · exact h'
      · rw [if_neg h'] at hn; cases hn
  have hdown : Down D.table.row (D.table.numRows - 1) := by
    intro i h1 h2 nd hnd b
    obtain ⟨c, hc⟩ := List.mem_iff_getElem?.1 hnd
    refine (hw.table.child (f := ⟨i, c⟩) (nd := nd) (by exact h1) ?_ b).2
    unfold Table.node?
    dsimp only
    rw [if_pos (by omega)]
    exact hc
  obtain ⟨hi, lo, e0, hlo⟩ := makeIndex_spec hdown
  unfold evalWork
  rw [if_neg (by omega), h0]
  have hlen : (terminalRow N).length = 2 := rfl
  rw [hlen]
  -- terminals
  obtain ⟨a1, e1, hP1, hrow1, hlen1⟩ := foldlM_up (f := evTerm ev)
    (fun k (a : EvSt σ T) => (∀ x, P (a.obj x)) ∧
      (∀ j, j < k → ∃ t, (a.work 0)[j]? = some (some t) ∧ Rep 0 t (tv j)) ∧ (a.work 0).length = 2) 2
    { obj := fun _ => ev.start D.root.row, work := fun r => if r = 0 then List.replicate 2 none else [] }
    ⟨fun _ => hev.start, fun j hj => by omega, by simp⟩
    (by
      rintro t a ht ⟨hP, hr, hl⟩
      obtain ⟨s', v, e, hP', hR⟩ := hev.term (hP 0) ht
      unfold evTerm EvSt.put
      rw [e]
      simp only [Option.bind_some]
      rw [if_pos (by omega)]
      refine ⟨_, rfl, ?_, ?_, ?_⟩
      · intro x
        dsimp only
        unfold upd
        by_cases hx : x = 0
        · rw [if_pos hx]; exact hP'
        · rw [if_neg hx]; exact hP x
      · intro j hj
        dsimp only
        unfold upd
        rw [if_pos rfl]
        by_cases e : j = t
        · subst e
          exact ⟨v, List.getElem?_set_self (by omega), hR⟩
        · rw [List.getElem?_set_ne (by omega)]
          exact hr j (by omega)
      · dsimp only; unfold upd; rw [if_pos rfl, List.length_set]; exact hl)
  simp only [e1, e0, Option.bind_eq_bind, Option.bind_some]
  have hnode : ∀ {i c : Nat} {nd : Node N}, i < D.table.numRows → (D.table.row i)[c]? = some nd →
      D.table.node? ⟨i, c⟩ = some nd := by
    intro i c nd hi hc; unfold Table.node?; dsimp only; rw [if_pos hi]; exact hc
  -- levels
  obtain ⟨a2, e2, hP2, hrow2⟩ := levelsUp_fold (f := evLevel ev D lo sched)
    (fun k (a : EvSt σ T) => (∀ x, P (a.obj x)) ∧ ∀ r, r ≤ k →
      (r = 0 ∨ r = k ∨ ∃ i', k < i' ∧ i' ≤ D.table.numRows - 1 ∧ Refs D.table.row i' r) →
      RowVals D.table Rep tv nv r (a.work r)) D.root.row a1
    ⟨hP1, by
      intro r hr _ c hc
      have : r = 0 := by omega
      subst this
      rw [h0, hlen] at hc
      obtain ⟨t, h1, h2⟩ := hrow1 c hc
      exact ⟨t, _, h1, h2, .term rfl⟩⟩
    (by
      rintro k a hk ⟨hP, hr⟩
      have hsk := hs (k + 1) (by omega) (by omega)
      have hnd : ((sched (k + 1)).map (·.2)).Nodup := hsk.nodup_iff.2 List.nodup_range
      have hmem : ∀ {j}, j ∈ (sched (k + 1)).map (·.2) ↔ j < (D.table.row (k + 1)).length := by
        intro j; rw [hsk.mem_iff, List.mem_range]
      obtain ⟨a', e, hP', hoth, hl, hdone⟩ := foldlM_inv (f := evNode ev (D.table.row (k + 1)) (k + 1))
        (fun pre (a' : EvSt σ T) => (∀ x, P (a'.obj x)) ∧ (∀ r, r ≠ k + 1 → a'.work r = a.work r) ∧
          (a'.work (k + 1)).length = (D.table.row (k + 1)).length ∧
          ∀ j : Nat, j ∈ pre.map (·.2) → ∃ t v, (a'.work (k + 1))[j]? = some (some t) ∧ Rep (k + 1) t v ∧
            FoldVal D.table tv nv ⟨k + 1, j⟩ v)
        (sched (k + 1)) { a with work := upd a.work (k + 1) (List.replicate (D.table.row (k + 1)).length none) }
        ⟨hP, fun r hr => by unfold upd; exact if_neg hr, by simp [upd], fun j hj => by simp at hj⟩
        (by
          rintro pre ⟨x, j⟩ post a' he ⟨hP', hoth, hl, hdone⟩
          have hj : j < (D.table.row (k + 1)).length := hmem.1 (by rw [he]; simp)
          have hjn : j ∉ pre.map (·.2) := by
            rw [he, List.map_append, List.map_cons] at hnd
            intro hm
            exact (List.nodup_append.1 hnd).2.2 _ hm _ (by simp) rfl
          obtain ⟨nd, hnd'⟩ := getElem?_of_lt hj
          have hn := hnode (i := k + 1) (by omega) hnd'
          have hch : ∀ b, ∃ t v, a'.look (nd b) = some t ∧ Rep (nd b).row t v ∧ FoldVal D.table tv nv (nd b) v := by
            intro b
            obtain ⟨hv, hlt'⟩ := hw.table.child (f := ⟨k + 1, j⟩) (Nat.succ_pos _) hn b
            dsimp only at hlt'
            have hc : (nd b).col < (D.table.row (nd b).row).length := by
              by_cases hz : (nd b).row = 0
              · rw [hz, h0, hlen]
                rcases hv.row0 hz with e | e <;> rw [e] <;> decide
              · obtain ⟨nd', hn'⟩ := hv.pos (by omega)
                exact (nodeAt_lt (T := D.table.row) hn').2
            obtain ⟨t, v, h1, h2, h3⟩ := hr (nd b).row (by omega)
              (.inr (.inr ⟨k + 1, by omega, by omega, nd, mem_of_getElem?' hnd', b, rfl⟩)) (nd b).col hc
            refine ⟨t, v, ?_, h2, h3⟩
            unfold EvSt.look
            rw [hoth _ (by omega), h1]
            rfl
          let ts : Fin N → T := fun b => Classical.choose (hch b)
          have hts : ∀ b, ∃ v, a'.look (nd b) = some (ts b) ∧ Rep (nd b).row (ts b) v ∧ FoldVal D.table tv nv (nd b) v :=
            fun b => Classical.choose_spec (hch b)
          let vs : Fin N → V := fun b => Classical.choose (hts b)
          have hvs : ∀ b, a'.look (nd b) = some (ts b) ∧ Rep (nd b).row (ts b) (vs b) ∧ FoldVal D.table tv nv (nd b) (vs b) :=
            fun b => Classical.choose_spec (hts b)
          have hvals : allSome' (fun b => (a'.look (nd b)).map fun t => (t, (nd b).row)) =
              some fun b => (ts b, (nd b).row) := allSome'_of fun b => by rw [(hvs b).1]; rfl
          obtain ⟨s', t, e, hPs, hR⟩ := hev.node (vals := fun b => (ts b, (nd b).row)) (vs := vs) (hP' x)
            (show 1 ≤ k + 1 by omega) (by omega) fun b =>
              ⟨(hvs b).2.1, (hw.table.child (f := ⟨k + 1, j⟩) (Nat.succ_pos _) hn b).2⟩
          unfold evNode EvSt.put
          dsimp only
          simp only [hnd', hvals, e, Option.bind_some]
          rw [if_pos (by omega)]
          refine ⟨_, rfl, ?_, ?_, ?_, ?_⟩
          · intro y
            dsimp only
            unfold upd
            by_cases hy : y = x
            · rw [if_pos hy]; exact hPs
            · rw [if_neg hy]; exact hP' y
          · intro r hr'
            dsimp only
            unfold upd
            rw [if_neg hr']
            exact hoth r hr'
          · dsimp only; unfold upd; rw [if_pos rfl, List.length_set]; exact hl
          · intro j' hj'
            rw [List.map_append, List.mem_append] at hj'
            dsimp only
            unfold upd
            rw [if_pos rfl]
            by_cases ej : j' = j
            · subst ej
              exact ⟨t, _, List.getElem?_set_self (by omega), hR, .node (f := ⟨k + 1, j'⟩) (Nat.succ_pos _) hn fun b => (hvs b).2.2⟩
            · rw [List.getElem?_set_ne (by omega)]
              refine hdone j' (hj'.resolve_right fun h => ej ?_)
              simpa using h)
      unfold evLevel
      rw [e]
      refine ⟨_, rfl, fun x => foldl_clean (Q := fun r => 0 < r ∧ r < D.root.row) (fun h hq => hev.clean h hq.1 hq.2)
        _ (fun r hr => by have := (hlo _ _).1 hr; omega) (hP' x), ?_⟩
      intro r hrk hpres c hc
      dsimp only
      rw [clear_at]
      by_cases hrl : r ∈ lo (k + 1)
      · obtain ⟨_, _, h3, h4, _, h6⟩ := (hlo _ _).1 hrl
        rcases hpres with h | h | ⟨i', h7, h8, h9⟩
        · omega
        · omega
        · exact absurd h9 (h6 i' h7 h8)
      · rw [if_neg hrl]
        by_cases er : r = k + 1
        · subst er
          exact hdone c (hmem.2 hc)
        · rw [hoth r er]
          refine hr r (by omega) ?_ c hc
          rcases hpres with h | h | ⟨i', h7, h8, h9⟩
          · exact .inl h
          · exact absurd h er
          · exact .inr (.inr ⟨i', by omega, h8, h9⟩))
  simp only [e2, Option.bind_some]
  have hrc : D.root.col < (D.table.row D.root.row).length := by
    by_cases hz : D.root.row = 0
    · rw [hz, h0, hlen]
      rcases hw.root.row0 hz with e | e <;> rw [e] <;> decide
    · obtain ⟨nd', hn'⟩ := hw.root.pos (by omega)
      exact (nodeAt_lt (T := D.table.row) hn').2
  obtain ⟨t, v, h1, h2, h3⟩ := hrow2 D.root.row (Nat.le_refl _) (.inr (.inl rfl)) D.root.col hrc
  have hl : a2.look D.root = some t := by unfold EvSt.look; rw [h1]; rfl
  rw [hl]
  exact ⟨_, t, v, rfl, hP2 0, h2, h3⟩

end TdZdd
