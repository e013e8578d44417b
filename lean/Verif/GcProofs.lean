import Verif.Gc
import Verif.ReduceTop

/-! Proofs about `garbageCollect()`: the initial marks are exactly the roots; a sweep from the top row downwards keeps exactly the reachable nodes. -/

namespace TdZdd

namespace Gc

variable {N : Nat}

/-- the nodes reachable from the roots -/
inductive Live (T : Table (N + 1)) (roots : List NodeId) : NodeId → Prop
  | root {f : NodeId} : f ∈ roots → Live T roots f
  | child {f : NodeId} {nd : Node (N + 1)} (b : Fin (N + 1)) : Live T roots f → 0 < f.row → T.node? f = some nd → Live T roots (nd b)

/-- what the standard says about `std::sort` -/
def Sorts (sort : List Nat → List Nat) : Prop := ∀ l, (sort l).Perm l ∧ (sort l).Pairwise (· ≤ ·)

theorem mem_unique : ∀ (l : List Nat) (x : Nat), x ∈ unique l ↔ x ∈ l
  | [], _ => Iff.rfl
  | [_], _ => Iff.rfl
  | a :: b :: l, x => by
    have ih := mem_unique (b :: l) x
    unfold unique
    by_cases h : a = b
    · subst h
      rw [if_pos rfl, ih]
      simp
    · rw [if_neg h, List.mem_cons, ih, ← List.mem_cons]

theorem unique_lt : ∀ (l : List Nat), l.Pairwise (· ≤ ·) → (unique l).Pairwise (· < ·)
  | [], _ => .nil
  | [_], _ => List.pairwise_singleton ..
  | a :: b :: l, h => by
    obtain ⟨h1, h2⟩ := List.pairwise_cons.1 h
    have ih := unique_lt (b :: l) h2
    unfold unique
    by_cases e : a = b
    · rw [if_pos e]; exact ih
    · rw [if_neg e]
      refine List.pairwise_cons.2 ⟨fun x hx => ?_, ih⟩
      have hx := (mem_unique _ _).1 hx
      have hb := h1 b (List.mem_cons_self ..)
      rcases List.mem_cons.1 hx with hx | hx
      · omega
      · have := (List.pairwise_cons.1 h2).1 x hx
        omega

theorem columns_spec {sort : List Nat → List Nat} (hs : Sorts sort) (roots : List NodeId) (i m : Nat) :
    ∃ L, columns sort roots i m = L ++ [m] ∧ L.Pairwise (· < ·) ∧ ∀ x, x ∈ L ↔ (⟨i, x⟩ : NodeId) ∈ roots := by
  have hm : ∀ x, x ∈ (roots.filter fun f => decide (f.row = i)).map (·.col) ↔ (⟨i, x⟩ : NodeId) ∈ roots := by
    intro x
    simp only [List.mem_map, List.mem_filter, decide_eq_true_eq]
    constructor
    · rintro ⟨⟨r, c⟩, ⟨h, rfl⟩, rfl⟩; exact h
    · intro h; exact ⟨⟨i, x⟩, ⟨h, rfl⟩, rfl⟩
  unfold columns
  dsimp only
  generalize (roots.filter fun f => decide (f.row = i)).map (·.col) = cs at hm
  refine ⟨_, rfl, ?_, fun x => ?_⟩
  · split
    · exact unique_lt _ (hs cs).2
    · next h =>
      match cs, h with
      | [], _ => exact .nil
      | [_], _ => exact List.pairwise_singleton ..
      | _ :: _ :: _, h => exact absurd (by simp) h
  · rw [← hm x]
    split
    · rw [mem_unique, (hs cs).1.mem_iff]
    · rfl

/-! ## the marks -/

theorem setBit_self (s : St N) (f : NodeId) (v : Bool) : (setBit s f v).bit f = v := if_pos rfl
theorem setBit_ne {s : St N} {f g : NodeId} {v : Bool} (h : g ≠ f) : (setBit s f v).bit g = s.bit g := if_neg h

theorem markRow_spec {sort : List Nat → List Nat} (hs : Sorts sort) {roots : List NodeId} (s : St N) (i : Nat) (hv : ∀ f ∈ roots, f.row = i → f.col < (s.tab i).length) :
    ∃ s', markRow sort roots s i = some s' ∧ s'.tab = s.tab ∧ (∀ f, f.row ≠ i → s'.bit f = s.bit f) ∧
      ∀ f, f.row = i → f.col < (s.tab i).length → (s'.bit f = false ↔ f ∈ roots) := by
  obtain ⟨L, e, hL, hmem⟩ := columns_spec hs roots i (s.tab i).length
  have hlt : ∀ x ∈ L, x < (s.tab i).length := fun x hx => hv _ ((hmem x).1 hx) rfl
  refine Exists.elim (foldlM_up (f := markCol i (columns sort roots i (s.tab i).length))
    (fun t (a : Nat × St N) => a.2.tab = s.tab ∧ (∀ f, f.row ≠ i → a.2.bit f = s.bit f) ∧
      (∀ f, f.row = i → f.col < t → (a.2.bit f = false ↔ f ∈ roots)) ∧
      ∃ P Q, L = P ++ Q ∧ (∀ x ∈ P, x < t) ∧ (∀ x ∈ Q, t ≤ x) ∧ a.1 = P.length)
    (s.tab i).length (0, s)
    ⟨rfl, fun _ _ => rfl, fun _ _ h => absurd h (Nat.not_lt_zero _), [], L, rfl, (fun _ h => nomatch h), fun _ _ => Nat.zero_le _, rfl⟩ ?_) ?_
  · rintro t ⟨k, s1⟩ ht ⟨g1, g2, g3, P, Q, hPQ, hP, hQ, rfl⟩
    dsimp only at g1 g2 g3 ⊢
    have keep : ∀ v f, f.row = i → f.col < t → ((setBit s1 ⟨i, t⟩ v).bit f = false ↔ f ∈ roots) := by
      intro v f hf hc
      rw [setBit_ne (by rintro rfl; exact absurd hc (Nat.lt_irrefl _))]
      exact g3 f hf hc
    have other : ∀ v f, f.row ≠ i → (setBit s1 ⟨i, t⟩ v).bit f = s.bit f := by
      intro v f hf
      rw [setBit_ne (by rintro rfl; exact hf rfl)]
      exact g2 f hf
    have atf : ∀ f : NodeId, f.row = i → ¬ f.col < t → f.col < t + 1 → f = ⟨i, t⟩ := by
      rintro ⟨r, c⟩ rfl h h'
      have : c = t := by dsimp only at h h'; omega
      rw [this]
    have hcols : columns sort roots i (s.tab i).length = P ++ (Q ++ [(s.tab i).length]) := by rw [e, hPQ, List.append_assoc]
    unfold markCol
    rw [hcols]
    dsimp only
    rw [List.getElem?_append_right (Nat.le_refl _), Nat.sub_self]
    have hnot : (∀ x ∈ Q, t < x) → (⟨i, t⟩ : NodeId) ∉ roots := by
      intro h hr
      have := (hmem t).2 hr
      rw [hPQ] at this
      rcases List.mem_append.1 this with h' | h'
      · exact absurd (hP _ h') (Nat.lt_irrefl _)
      · exact absurd (h _ h') (Nat.lt_irrefl _)
    have skip : (∀ x ∈ Q, t < x) → ∃ b', some (P.length, setBit s1 ⟨i, t⟩ true) = some b' ∧ b'.2.tab = s.tab ∧ (∀ f, f.row ≠ i → b'.2.bit f = s.bit f) ∧
        (∀ f, f.row = i → f.col < t + 1 → (b'.2.bit f = false ↔ f ∈ roots)) ∧
        ∃ P Q, L = P ++ Q ∧ (∀ x ∈ P, x < t + 1) ∧ (∀ x ∈ Q, t + 1 ≤ x) ∧ b'.1 = P.length := by
      intro hq
      refine ⟨_, rfl, g1, other true, fun f hf hc => ?_, P, Q, hPQ, fun x hx => Nat.lt_succ_of_lt (hP x hx), hq, rfl⟩
      by_cases h : f.col < t
      · exact keep true f hf h
      · rw [atf f hf h hc, setBit_self]
        exact ⟨(fun h => nomatch h), fun h => absurd h (hnot hq)⟩
    match Q, hPQ, hQ, hnot, skip with
    | [], _, _, _, skip =>
      simp only [List.nil_append, List.getElem?_cons_zero, Option.bind_some]
      rw [if_pos ht]
      exact skip fun _ h => nomatch h
    | c :: Q, hPQ, hQ, hnot, skip =>
      simp only [List.cons_append, List.getElem?_cons_zero, Option.bind_some]
      have hc := hQ c (List.mem_cons_self ..)
      have hcQ : ∀ x ∈ Q, c < x := by
        rw [hPQ] at hL
        exact fun x hx => (List.pairwise_cons.1 (List.pairwise_append.1 hL).2.1).1 x hx
      by_cases h : t < c
      · rw [if_pos h]
        exact skip fun x hx => by
          rcases List.mem_cons.1 hx with rfl | hx
          · exact h
          · have := hcQ x hx; omega
      · have : t = c := by omega
        subst this
        rw [if_neg h, if_pos rfl]
        refine ⟨_, rfl, g1, other false, fun f hf hc => ?_, P ++ [t], Q, by simpa using hPQ, fun x hx => ?_, hcQ, by simp⟩
        · by_cases h : f.col < t
          · exact keep false f hf h
          · rw [atf f hf h hc, setBit_self]
            exact ⟨fun _ => (hmem t).1 (by rw [hPQ]; simp), fun _ => rfl⟩
        · rcases List.mem_append.1 hx with hx | hx
          · exact Nat.lt_succ_of_lt (hP x hx)
          · rw [List.mem_singleton.1 hx]; exact Nat.lt_succ_self _
  · rintro ⟨k, s'⟩ ⟨h1, h2, h3, h4, _⟩
    refine ⟨s', ?_, h2, h3, h4⟩
    unfold markRow
    rw [h1]; rfl

theorem marks_spec {sort : List Nat → List Nat} (hs : Sorts sort) {roots : List NodeId} (n : Nat) (s : St N) (hv : ∀ f ∈ roots, 0 < f.row → f.col < (s.tab f.row).length) :
    ∃ s', (levels n).foldlM (markRow sort roots) s = some s' ∧ s'.tab = s.tab ∧
      ∀ f, 0 < f.row → f.row ≤ n → f.col < (s.tab f.row).length → (s'.bit f = false ↔ f ∈ roots) := by
  suffices H : ∃ s', (levels n).foldlM (markRow sort roots) s = some s' ∧ s'.tab = s.tab ∧ (∀ f, n < f.row → s'.bit f = s.bit f) ∧
      ∀ f, 0 < f.row → f.row ≤ n → f.col < (s.tab f.row).length → (s'.bit f = false ↔ f ∈ roots) by
    obtain ⟨s', h1, h2, _, h3⟩ := H
    exact ⟨s', h1, h2, h3⟩
  induction n generalizing s with
  | zero => exact ⟨s, rfl, rfl, fun _ _ => rfl, fun f h0 h1 => by omega⟩
  | succ n ih =>
    obtain ⟨s1, e1, t1, o1, b1⟩ := markRow_spec hs (roots := roots) s (n + 1) fun f hf he => by
      have := hv f hf (by omega)
      rwa [he] at this
    obtain ⟨s2, e2, t2, o2, b2⟩ := ih s1 (by rw [t1]; exact hv)
    refine ⟨s2, ?_, t2.trans t1, fun f hf => ?_, fun f h0 h1 h2 => ?_⟩
    · rw [levels_succ, List.foldlM_cons, e1]
      exact e2
    · rw [o2 f (by omega), o1 f (by omega)]
    · by_cases h : f.row = n + 1
      · rw [o2 f (by omega)]
        exact b1 f h (by rw [h] at h2; exact h2)
      · exact b2 f h0 (by omega) (by rw [t1]; exact h2)

/-! ## the sweep -/

theorem reach_fold {nr : Nat} {nd : Node (N + 1)} (l : List (Fin (N + 1))) (s : St N) (hv : ∀ b, (nd b).row < nr ∧ (nd b).col < (s.tab (nd b).row).length) :
    ∃ s', l.foldlM (fun s b => reach nr s (nd b)) s = some s' ∧ s'.tab = s.tab ∧ ∀ f, s'.bit f = false ↔ s.bit f = false ∨ ∃ b ∈ l, nd b = f := by
  induction l generalizing s with
  | nil => exact ⟨s, rfl, rfl, fun f => by simp⟩
  | cons b l ih =>
    obtain ⟨s', e, t, h⟩ := ih (setBit s (nd b) false) hv
    refine ⟨s', ?_, t, fun f => ?_⟩
    · rw [List.foldlM_cons]
      unfold reach
      rw [if_pos (hv b)]
      exact e
    · rw [h f]
      by_cases hf : f = nd b
      · subst hf
        rw [setBit_self]
        exact ⟨fun _ => .inr ⟨b, List.mem_cons_self .., rfl⟩, fun _ => .inl rfl⟩
      · rw [setBit_ne hf]
        constructor
        · rintro (h | ⟨c, hc, h⟩)
          · exact .inl h
          · exact .inr ⟨c, List.mem_cons_of_mem _ hc, h⟩
        · rintro (g | ⟨c, hc, g⟩)
          · exact .inl g
          · rcases List.mem_cons.1 hc with rfl | hc
            · exact absurd g.symm hf
            · exact .inr ⟨c, hc, g⟩

/-- the nodes of the rows above `i` and the first `t` nodes of row `i` are done -/
def Done (i t : Nat) (f : NodeId) : Prop := i < f.row ∨ (f.row = i ∧ f.col < t)

structure Inv (T : Table (N + 1)) (roots : List NodeId) (i t : Nat) (s : St N) : Prop where
  len : ∀ r, (s.tab r).length = (T.row r).length
  live : ∀ f nd, 0 < f.row → T.node? f = some nd → Done i t f → Live T roots f → (s.tab f.row)[f.col]? = some nd
  dead : ∀ f nd, 0 < f.row → T.node? f = some nd → Done i t f → ¬ Live T roots f → (s.tab f.row)[f.col]? = some fun _ => .zero
  bit : ∀ f nd, 0 < f.row → T.node? f = some nd → Done i t f → s.bit f = false
  todo : ∀ f, ¬ Done i t f → (s.tab f.row)[f.col]? = (T.row f.row)[f.col]?
  mark : ∀ f nd, 0 < f.row → T.node? f = some nd → ¬ Done i t f → (s.bit f = false ↔ f ∈ roots ∨ ∃ g nd b, Done i t g ∧ 0 < g.row ∧ T.node? g = some nd ∧ Live T roots g ∧ nd b = f)

variable {T : Table (N + 1)} {roots : List NodeId}

theorem done_succ {i t : Nat} {f : NodeId} : Done i (t + 1) f ↔ Done i t f ∨ f = ⟨i, t⟩ := by
  obtain ⟨r, c⟩ := f
  unfold Done
  dsimp only
  rw [NodeId.mk.injEq]
  omega

theorem not_done {i t : Nat} : ¬ Done i t ⟨i, t⟩ := by
  unfold Done
  dsimp only
  omega

theorem node_iff {f : NodeId} : (∃ nd, T.node? f = some nd) ↔ f.row < T.numRows ∧ f.col < (T.row f.row).length := by
  unfold Table.node?
  constructor
  · rintro ⟨nd, h⟩
    split at h
    · next hr => exact ⟨hr, (List.getElem?_eq_some_iff.1 h).1⟩
    · exact nomatch h
  · rintro ⟨h, h'⟩
    rw [if_pos h]
    exact ⟨_, List.getElem?_eq_getElem h'⟩

theorem sweep_step (hw : T.Wf) (h0 : T.row 0 = terminalRow (N + 1)) {i t : Nat} (hi : 0 < i) (hn : i < T.numRows) (ht : t < (T.row i).length) {s : St N} (h : Inv T roots i t s) :
    ∃ s', sweep T.numRows i s t = some s' ∧ Inv T roots i (t + 1) s' := by
  obtain ⟨nd, hnd⟩ := (node_iff (T := T) (f := ⟨i, t⟩)).2 ⟨hn, ht⟩
  have hg : (T.row i)[t]? = some nd := by
    unfold Table.node? at hnd
    rwa [if_pos hn] at hnd
  have hsg : (s.tab i)[t]? = some nd := (h.todo ⟨i, t⟩ not_done).trans hg
  have hval : ∀ f, T.Valid f → f.row < T.numRows ∧ f.col < (T.row f.row).length := by
    rintro f (rfl | rfl | ⟨_, h⟩)
    · exact ⟨Nat.lt_trans hi hn, by show 0 < (T.row 0).length; rw [h0]; exact Nat.zero_lt_two⟩
    · exact ⟨Nat.lt_trans hi hn, by show 1 < (T.row 0).length; rw [h0]; exact Nat.one_lt_two⟩
    · exact node_iff.1 h
  have hlive : s.bit ⟨i, t⟩ = false ↔ Live T roots ⟨i, t⟩ := by
    rw [h.mark ⟨i, t⟩ nd hi hnd not_done]
    constructor
    · rintro (h | ⟨g, nd', b, _, hg0, hgn, hgl, e⟩)
      · exact .root h
      · exact e ▸ .child b hgl hg0 hgn
    · intro hl
      generalize hf : (⟨i, t⟩ : NodeId) = f at hl
      cases hl with
      | root h => exact .inl h
      | @child g nd' b hgl hg0 hgn =>
        refine .inr ⟨g, nd', b, .inl ?_, hg0, hgn, hgl, rfl⟩
        have := (hw.child hg0 hgn b).2
        rw [← hf] at this
        exact this
  unfold sweep
  rw [hsg, Option.bind_some]
  by_cases hb : s.bit ⟨i, t⟩ = true
  · rw [if_pos hb]
    have hdead : ¬ Live T roots ⟨i, t⟩ := fun hl => by rw [hlive.2 hl] at hb; exact nomatch hb
    have htab : ∀ f : NodeId, f ≠ ⟨i, t⟩ → (upd s.tab i ((s.tab i).set t fun _ => .zero) f.row)[f.col]? = (s.tab f.row)[f.col]? := by
      rintro ⟨r, c⟩ hf
      by_cases hr : r = i
      · subst hr
        dsimp only
        rw [upd_same, List.getElem?_set_ne]
        rintro rfl
        exact hf rfl
      · rw [upd_ne _ _ hr]
    refine ⟨_, rfl, fun r => ?_, fun f nd' hf0 hfn hd hl => ?_, fun f nd' hf0 hfn hd hl => ?_, fun f nd' hf0 hfn hd => ?_, fun f hd => ?_, fun f nd' hf0 hfn hd => ?_⟩
    · show (upd s.tab i _ r).length = _
      by_cases hr : r = i
      · subst hr; rw [upd_same, List.length_set]; exact h.len r
      · rw [upd_ne _ _ hr]; exact h.len r
    · rcases done_succ.1 hd with hd | rfl
      · refine (htab f ?_).trans (h.live f nd' hf0 hfn hd hl)
        rintro rfl; exact hdead hl
      · exact absurd hl hdead
    · by_cases hf : f = ⟨i, t⟩
      · subst hf
        show (upd s.tab i _ i)[t]? = _
        rw [upd_same, List.getElem?_set_self (by rw [h.len]; exact ht)]
      · exact (htab f hf).trans (h.dead f nd' hf0 hfn ((done_succ.1 hd).resolve_right hf) hl)
    · by_cases hf : f = ⟨i, t⟩
      · subst hf; exact setBit_self ..
      · exact (setBit_ne hf).trans (h.bit f nd' hf0 hfn ((done_succ.1 hd).resolve_right hf))
    · exact (htab f fun e => hd (done_succ.2 (.inr e))).trans (h.todo f fun e => hd (done_succ.2 (.inl e)))
    · have hf : f ≠ ⟨i, t⟩ := fun e => hd (done_succ.2 (.inr e))
      have : (setBit { s with tab := upd s.tab i ((s.tab i).set t fun _ => .zero) } ⟨i, t⟩ false).bit f = s.bit f := setBit_ne hf
      rw [this, h.mark f nd' hf0 hfn fun e => hd (done_succ.2 (.inl e))]
      constructor
      · rintro (h | ⟨g, nd2, b, h1, h2⟩)
        · exact .inl h
        · exact .inr ⟨g, nd2, b, done_succ.2 (.inl h1), h2⟩
      · rintro (h | ⟨g, nd2, b, h1, h2, h3, h4, h5⟩)
        · exact .inl h
        · refine .inr ⟨g, nd2, b, (done_succ.1 h1).resolve_right ?_, h2, h3, h4, h5⟩
          rintro rfl; exact hdead h4
  · rw [if_neg hb]
    have hl : Live T roots ⟨i, t⟩ := hlive.1 (by simpa using hb)
    obtain ⟨s', e, ht', hbit⟩ := reach_fold (nr := T.numRows) (nd := nd) (List.finRange (N + 1)) s fun b => by
      have := hval _ (hw.child hi hnd b).1
      rw [h.len]; exact this
    have hbit' : ∀ f, s'.bit f = false ↔ s.bit f = false ∨ ∃ b, nd b = f := fun f => by
      rw [hbit f]
      simp
    refine ⟨s', e, fun r => ?_, fun f nd' hf0 hfn hd hl' => ?_, fun f nd' hf0 hfn hd hl' => ?_, fun f nd' hf0 hfn hd => ?_, fun f hd => ?_, fun f nd' hf0 hfn hd => ?_⟩
    · rw [ht']; exact h.len r
    · rw [ht']
      rcases done_succ.1 hd with hd | rfl
      · exact h.live f nd' hf0 hfn hd hl'
      · rw [hnd] at hfn
        rw [← Option.some.inj hfn]
        exact hsg
    · rw [ht']
      rcases done_succ.1 hd with hd | rfl
      · exact h.dead f nd' hf0 hfn hd hl'
      · exact absurd hl hl'
    · rcases done_succ.1 hd with hd | rfl
      · exact (hbit' f).2 (.inl (h.bit f nd' hf0 hfn hd))
      · exact (hbit' _).2 (.inl (by simpa using hb))
    · rw [ht']; exact h.todo f fun e => hd (done_succ.2 (.inl e))
    · rw [hbit' f, h.mark f nd' hf0 hfn fun e => hd (done_succ.2 (.inl e))]
      constructor
      · rintro ((h | ⟨g, nd2, b, h1, h2⟩) | ⟨b, e⟩)
        · exact .inl h
        · exact .inr ⟨g, nd2, b, done_succ.2 (.inl h1), h2⟩
        · exact .inr ⟨_, nd, b, done_succ.2 (.inr rfl), hi, hnd, hl, e⟩
      · rintro (h | ⟨g, nd2, b, h1, h2, h3, h4, h5⟩)
        · exact .inl (.inl h)
        · rcases done_succ.1 h1 with h1 | rfl
          · exact .inl (.inr ⟨g, nd2, b, h1, h2, h3, h4, h5⟩)
          · rw [hnd] at h3
            have := Option.some.inj h3
            subst this
            exact .inr ⟨b, h5⟩

/-- the end of a row is the beginning of the next -/
theorem Inv.next {i m : Nat} (hm : (T.row (i + 1)).length = m) {s : St N} (h : Inv T roots (i + 1) m s) : Inv T roots i 0 s := by
  have key : ∀ f nd, T.node? f = some nd → (Done i 0 f ↔ Done (i + 1) m f) := by
    intro f nd hf
    have hc := (node_iff.1 ⟨nd, hf⟩).2
    unfold Done
    constructor
    · rintro (h | h)
      · by_cases e : f.row = i + 1
        · rw [e, hm] at hc; exact .inr ⟨e, hc⟩
        · exact .inl (by omega)
      · exact absurd h.2 (Nat.not_lt_zero _)
    · rintro (h | h)
      · exact .inl (by omega)
      · exact .inl (by omega)
  refine ⟨h.len, fun f nd h0 hn hd => h.live f nd h0 hn ((key f nd hn).1 hd), fun f nd h0 hn hd => h.dead f nd h0 hn ((key f nd hn).1 hd),
    fun f nd h0 hn hd => h.bit f nd h0 hn ((key f nd hn).1 hd), fun f hd => h.todo f fun e => hd ?_, fun f nd h0 hn hd => ?_⟩
  · rcases e with e | e
    · exact .inl (by omega)
    · exact .inl (by omega)
  · rw [h.mark f nd h0 hn fun e => hd ((key f nd hn).2 e)]
    constructor
    · rintro (h | ⟨g, nd2, b, h1, h2, h3, h4⟩)
      · exact .inl h
      · exact .inr ⟨g, nd2, b, (key g nd2 h3).2 h1, h2, h3, h4⟩
    · rintro (h | ⟨g, nd2, b, h1, h2, h3, h4⟩)
      · exact .inl h
      · exact .inr ⟨g, nd2, b, (key g nd2 h3).1 h1, h2, h3, h4⟩

theorem sweepRow_spec (hw : T.Wf) (h0 : T.row 0 = terminalRow (N + 1)) {i : Nat} (hn : i + 1 < T.numRows) {s : St N} (h : Inv T roots (i + 1) 0 s) :
    ∃ s', sweepRow T.numRows s (i + 1) = some s' ∧ Inv T roots i 0 s' := by
  obtain ⟨s', e, h'⟩ := foldlM_up (f := sweep T.numRows (i + 1)) (fun t s => Inv T roots (i + 1) t s) (s.tab (i + 1)).length s h
    fun t s1 ht h1 => sweep_step hw h0 (Nat.succ_pos i) hn (by rw [← h.len]; exact ht) h1
  exact ⟨s', e, h'.next (h.len _).symm⟩

theorem sweeps_spec (hw : T.Wf) (h0 : T.row 0 = terminalRow (N + 1)) (n : Nat) (hn : n < T.numRows) {s : St N} (h : Inv T roots n 0 s) :
    ∃ s', (levels n).foldlM (sweepRow T.numRows) s = some s' ∧ Inv T roots 0 0 s' := by
  induction n generalizing s with
  | zero => exact ⟨s, rfl, h⟩
  | succ n ih =>
    obtain ⟨s1, e1, h1⟩ := sweepRow_spec hw h0 hn h
    obtain ⟨s2, e2, h2⟩ := ih (by omega) h1
    refine ⟨s2, ?_, h2⟩
    rw [levels_succ, List.foldlM_cons, e1]
    exact e2

theorem collect_spec (hw : T.Wf) (h0 : T.row 0 = terminalRow (N + 1)) (hr : ∀ f ∈ roots, T.Valid f) {sort : List Nat → List Nat} (hs : Sorts sort) (bit : NodeId → Bool) :
    ∃ s, collect sort T.numRows roots ⟨T.row, bit⟩ = some s ∧ Inv T roots 0 0 s := by
  by_cases hn : T.numRows = 0
  · refine ⟨⟨T.row, bit⟩, ?_, fun _ => rfl, ?_, ?_, ?_, fun _ _ => rfl, ?_⟩
    · unfold collect
      rw [hn]; rfl
    all_goals
      intro f nd _ h
      have := (node_iff.1 ⟨nd, h⟩).1
      omega
  · obtain ⟨s1, e1, t1, b1⟩ := marks_spec hs (roots := roots) (T.numRows - 1) ⟨T.row, bit⟩ fun f hf hp => (node_iff.1 ((hr f hf).pos hp)).2
    have hi : Inv T roots (T.numRows - 1) 0 s1 := by
      have hnd : ∀ f nd, T.node? f = some nd → ¬ Done (T.numRows - 1) 0 f := by
        intro f nd h
        have := (node_iff.1 ⟨nd, h⟩).1
        unfold Done
        omega
      refine ⟨fun r => by rw [t1], fun f nd _ h hd => absurd hd (hnd f nd h), fun f nd _ h hd => absurd hd (hnd f nd h), fun f nd _ h hd => absurd hd (hnd f nd h),
        fun f _ => by rw [t1], fun f nd hp h _ => ?_⟩
      have hv := node_iff.1 ⟨nd, h⟩
      rw [b1 f hp (by omega) hv.2]
      constructor
      · exact .inl
      · rintro (h | ⟨g, nd2, b, h1, _, h3, _⟩)
        · exact h
        · exact absurd h1 (hnd g nd2 h3)
    obtain ⟨s2, e2, h2⟩ := sweeps_spec hw h0 (T.numRows - 1) (by omega) hi
    refine ⟨s2, ?_, h2⟩
    unfold collect
    rw [e1, Option.bind_some, e2]

end Gc

end TdZdd
