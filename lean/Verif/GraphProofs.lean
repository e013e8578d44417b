import Verif.Graph

/-! Proofs about `Graph::update` (1): names, numbering, edges. -/

namespace TdZdd

namespace Gr

section
variable {V : Type} [DecidableEq V]

/-- the vertex `v` is an endpoint of edge `a` -/
def Touch (E : List (V × V)) (a : Nat) (v : V) : Prop := ∃ e, E[a]? = some e ∧ (e.1 = v ∨ e.2 = v)

theorem touch_zero {e : V × V} {E : List (V × V)} {v : V} : Touch (e :: E) 0 v ↔ e.1 = v ∨ e.2 = v := by
  unfold Touch
  simp

theorem touch_succ {e : V × V} {E : List (V × V)} {a : Nat} {v : V} : Touch (e :: E) (a + 1) v ↔ Touch E a v := by
  unfold Touch
  simp

/-! ### unique edges -/

/-- two edges with the same endpoints -/
def SameE (e f : V × V) : Prop := e = f ∨ e = (f.2, f.1)

theorem unique_aux (l acc : List (V × V)) (h : acc.Pairwise fun e f => ¬ SameE e f) :
    let r := l.foldl (fun acc e => if e ∈ acc ∨ (e.2, e.1) ∈ acc then acc else acc ++ [e]) acc
    (r.Pairwise fun e f => ¬ SameE e f) ∧ (∃ t, r = acc ++ t ∧ t.Sublist l) ∧ (∀ e ∈ l, ∃ f ∈ r, SameE e f) := by
  induction l generalizing acc with
  | nil => exact ⟨h, ⟨[], (List.append_nil _).symm, List.Sublist.refl _⟩, fun e he => (nomatch he)⟩
  | cons e l ih =>
    dsimp only
    rw [List.foldl_cons]
    by_cases hm : e ∈ acc ∨ (e.2, e.1) ∈ acc
    · rw [if_pos hm]
      obtain ⟨h1, ⟨t, h2, h3⟩, h4⟩ := ih acc h
      refine ⟨h1, ⟨t, h2, h3.cons _⟩, ?_⟩
      intro f hf
      rcases List.mem_cons.1 hf with rfl | hf
      · rcases hm with hm | hm
        · exact ⟨f, by rw [h2]; exact List.mem_append_left _ hm, .inl rfl⟩
        · exact ⟨_, by rw [h2]; exact List.mem_append_left _ hm, .inr rfl⟩
      · exact h4 f hf
    · rw [if_neg hm]
      obtain ⟨h1, ⟨t, h2, h3⟩, h4⟩ := ih (acc ++ [e]) (by
        rw [List.pairwise_append]
        refine ⟨h, List.pairwise_singleton _ _, fun f hf g hg hs => ?_⟩
        rw [List.mem_singleton] at hg
        subst hg
        rcases hs with rfl | rfl
        · exact hm (.inl hf)
        · exact hm (.inr hf))
      refine ⟨h1, ⟨e :: t, by rw [h2, List.append_assoc]; rfl, h3.cons_cons _⟩, ?_⟩
      intro f hf
      rcases List.mem_cons.1 hf with rfl | hf
      · exact ⟨f, by rw [h2, List.append_assoc]; exact List.mem_append_right _ (List.mem_cons_self ..), .inl rfl⟩
      · exact h4 f hf

theorem unique_spec (l : List (V × V)) : ((gUnique l).Pairwise fun e f => ¬ SameE e f) ∧ (gUnique l).Sublist l ∧ (∀ e ∈ l, ∃ f ∈ gUnique l, SameE e f) := by
  obtain ⟨h1, ⟨t, h2, h3⟩, h4⟩ := unique_aux l [] List.Pairwise.nil
  refine ⟨h1, ?_, h4⟩
  show (l.foldl _ []).Sublist l
  rw [h2]; exact h3

/-! ### numbering -/

/-- push a name that is not yet on the stack -/
def push (v : V) (st : List V) : List V := if v ∈ st then st else v :: st

theorem stack_nil : gStack ([] : List (V × V)) = [] := rfl

theorem stack_cons (e : V × V) (E : List (V × V)) : gStack (e :: E) = push e.1 (push e.2 (gStack E)) := by
  unfold gStack
  rw [List.foldl_reverse, List.foldl_reverse, List.foldr_cons]
  rfl

theorem mem_push {v w : V} {st : List V} : w ∈ push v st ↔ w = v ∨ w ∈ st := by
  unfold push
  split
  next h => exact ⟨.inr, fun h' => h'.elim (fun e => e ▸ h) id⟩
  next h => exact List.mem_cons

theorem nodup_push {v : V} {st : List V} (h : st.Nodup) : (push v st).Nodup := by
  unfold push
  split
  · exact h
  next h' => exact List.nodup_cons.2 ⟨h', h⟩

theorem idxOf_cons_ne {u v : V} {st : List V} (h : u ≠ v) : (u :: st).idxOf v = st.idxOf v + 1 := by
  rw [List.idxOf_cons]
  have : (u == v) = false := by simpa using h
  rw [this]; rfl

theorem idxOf_getElem' {st : List V} (hn : st.Nodup) {i : Nat} (hi : i < st.length) : st.idxOf st[i] = i := by
  induction st generalizing i with
  | nil => simp at hi
  | cons u st ih =>
    rw [List.nodup_cons] at hn
    cases i with
    | zero => simp
    | succ i =>
      have hi' : i < st.length := by simpa using hi
      rw [List.getElem_cons_succ, idxOf_cons_ne fun e => hn.1 (by rw [e]; exact List.getElem_mem _), ih hn.2 hi']

/-- `v` is before `w` in a list -/
def Before (st : List V) (v w : V) : Prop := st.idxOf v < st.idxOf w

theorem before_push {v w u : V} {st : List V} (hv : v ∈ st) (hw : w ∈ st) (h : Before st v w) : Before (push u st) v w := by
  unfold push Before at *
  split
  · exact h
  next h' =>
    rw [idxOf_cons_ne fun e => h' (by rw [e]; exact hv), idxOf_cons_ne fun e => h' (by rw [e]; exact hw)]
    omega

theorem before_new {v w : V} {st : List V} (hv : v ∉ st) (hw : w ∈ st) : Before (push v st) v w := by
  unfold push Before
  rw [if_neg hv, List.idxOf_cons_self, idxOf_cons_ne fun e => hv (by rw [e]; exact hw)]
  omega

theorem mem_stack {E : List (V × V)} {v : V} : v ∈ gStack E ↔ ∃ a, Touch E a v := by
  induction E with
  | nil => rw [stack_nil]; exact ⟨fun h => (nomatch h), fun ⟨a, e, h, _⟩ => by simp at h⟩
  | cons e E ih =>
    rw [stack_cons, mem_push, mem_push, ih]
    constructor
    · rintro (h | h | ⟨a, h⟩)
      · exact ⟨0, touch_zero.2 (.inl h.symm)⟩
      · exact ⟨0, touch_zero.2 (.inr h.symm)⟩
      · exact ⟨a + 1, touch_succ.2 h⟩
    · rintro ⟨a, h⟩
      cases a with
      | zero => rcases touch_zero.1 h with h | h
                · exact .inl h.symm
                · exact .inr (.inl h.symm)
      | succ a => exact .inr (.inr ⟨a, touch_succ.1 h⟩)

theorem nodup_stack (E : List (V × V)) : (gStack E).Nodup := by
  induction E with
  | nil => exact List.nodup_nil
  | cons e E ih => rw [stack_cons]; exact nodup_push (nodup_push ih)

/-- names are in the order in which they are used last -/
theorem stack_order {E : List (V × V)} {v w : V} {a : Nat} (hv : v ∈ gStack E) (hno : ∀ b, a ≤ b → ¬ Touch E b v) (hw : ∃ b, a ≤ b ∧ Touch E b w) :
    Before (gStack E) v w := by
  induction E generalizing a with
  | nil => exact (nomatch hv)
  | cons e E ih =>
    cases a with
    | zero =>
      obtain ⟨b, hb⟩ := mem_stack.1 hv
      exact absurd hb (hno b (Nat.zero_le _))
    | succ a =>
      have hno' : ∀ b, a ≤ b → ¬ Touch E b v := fun b hb h => hno (b + 1) (by omega) (touch_succ.2 h)
      obtain ⟨b, hb1, hb2⟩ := hw
      obtain ⟨b, rfl⟩ : ∃ c, b = c + 1 := ⟨b - 1, by omega⟩
      have hb2 := touch_succ.1 hb2
      have hwE : w ∈ gStack E := mem_stack.2 ⟨b, hb2⟩
      rw [stack_cons]
      by_cases hvE : v ∈ gStack E
      · exact before_push (mem_push.2 (.inr hvE)) (mem_push.2 (.inr hwE)) (before_push hvE hwE (ih hvE hno' ⟨b, by omega, hb2⟩))
      · by_cases hv2 : v = e.2
        · subst hv2
          exact before_push (mem_push.2 (.inl rfl)) (mem_push.2 (.inr hwE)) (before_new hvE hwE)
        · have hv1 : v = e.1 := by
            rw [stack_cons, mem_push, mem_push] at hv
            rcases hv with h | h | h
            · exact h
            · exact absurd h hv2
            · exact absurd h hvE
          subst hv1
          refine before_new (fun h => ?_) (mem_push.2 (.inr hwE))
          rcases mem_push.1 h with h | h
          · exact hv2 h
          · exact hvE h

/-- two names used last by the same edge are in the order of the edge -/
theorem stack_tie {E : List (V × V)} {e : V × V} {a : Nat} (he : E[a]? = some e) (hne : e.1 ≠ e.2) (h1 : ∀ b, a < b → ¬ Touch E b e.1)
    (h2 : ∀ b, a < b → ¬ Touch E b e.2) : Before (gStack E) e.1 e.2 := by
  induction E generalizing a with
  | nil => simp at he
  | cons f E ih =>
    rw [stack_cons]
    cases a with
    | zero =>
      have : f = e := by simpa using he
      subst this
      have hn : ∀ v, (∀ b, 0 < b → ¬ Touch (f :: E) b v) → v ∉ gStack E := fun v hv hm => by
        obtain ⟨b, hb⟩ := mem_stack.1 hm
        exact hv (b + 1) (by omega) (touch_succ.2 hb)
      refine before_new (fun h => ?_) (mem_push.2 (.inl rfl))
      rcases mem_push.1 h with h | h
      · exact hne h
      · exact hn _ h1 h
    | succ a =>
      have he' : E[a]? = some e := by simpa using he
      have m1 : e.1 ∈ gStack E := mem_stack.2 ⟨a, e, he', .inl rfl⟩
      have m2 : e.2 ∈ gStack E := mem_stack.2 ⟨a, e, he', .inr rfl⟩
      exact before_push (mem_push.2 (.inr m1)) (mem_push.2 (.inr m2)) (before_push m1 m2 (ih he' (fun b hb h => h1 (b + 1) (by omega) (touch_succ.2 h))
        (fun b hb h => h2 (b + 1) (by omega) (touch_succ.2 h))))

theorem number_pos {st : List V} {v : V} (h : v ∈ st) : gNumber st v = st.idxOf v + 1 := if_pos h

theorem number_range {st : List V} {v : V} (h : v ∈ st) : 1 ≤ gNumber st v ∧ gNumber st v ≤ st.length := by
  rw [number_pos h]
  have := List.idxOf_lt_length_iff.2 h
  omega

theorem number_zero {st : List V} {v : V} : gNumber st v = 0 ↔ v ∉ st := by
  constructor
  · intro h hm; rw [number_pos hm] at h; omega
  · exact fun h => if_neg h

theorem idxOf_inj {st : List V} {v w : V} (hv : v ∈ st) (hw : w ∈ st) (h : st.idxOf v = st.idxOf w) : v = w := by
  have h1 := List.getElem_idxOf (List.idxOf_lt_length_iff.2 hv)
  have h2 := List.getElem_idxOf (List.idxOf_lt_length_iff.2 hw)
  rw [← h1, ← h2]
  congr 1

theorem number_inj {st : List V} {v w : V} (hv : v ∈ st) (hw : w ∈ st) (h : gNumber st v = gNumber st w) : v = w := by
  rw [number_pos hv, number_pos hw] at h
  exact idxOf_inj hv hw (by omega)

theorem number_surj {st : List V} (hn : st.Nodup) {k : Nat} (h1 : 1 ≤ k) (h2 : k ≤ st.length) : ∃ v ∈ st, gNumber st v = k := by
  refine ⟨st[k - 1], List.getElem_mem _, ?_⟩
  rw [number_pos (List.getElem_mem _), idxOf_getElem' hn]
  omega

theorem number_lt {st : List V} {v w : V} (hv : v ∈ st) (hw : w ∈ st) : gNumber st v < gNumber st w ↔ Before st v w := by
  rw [number_pos hv, number_pos hw]
  unfold Before; omega

/-! ### edges -/

/-- the edge with its endpoints numbered and sorted -/
def numE (num : V → Nat) (e : V × V) : EdgeInfo := EdgeInfo.mk0 (min (num e.1) (num e.2)) (max (num e.1) (num e.2))

theorem edges_eq {num : V → Nat} : ∀ (E : List (V × V)) (es : List EdgeInfo), (∀ e ∈ E, num e.1 ≠ 0 ∧ num e.2 ≠ 0) →
    ((es ++ E.map (numE num)).Pairwise fun e f => ¬ (e.v1 = f.v1 ∧ e.v2 = f.v2)) → gEdges num E es = .ok (es ++ E.map (numE num))
  | [], es, _, _ => by rw [List.map_nil, List.append_nil]; rfl
  | (s1, s2) :: E, es, h, hp => by
    have h0 := h _ (List.mem_cons_self ..)
    dsimp only at h0
    unfold gEdges
    have e1 : num (if num s1 > num s2 then (s2, s1) else (s1, s2)).1 = min (num s1) (num s2) := by split <;> dsimp only <;> omega
    have e2 : num (if num s1 > num s2 then (s2, s1) else (s1, s2)).2 = max (num s1) (num s2) := by split <;> dsimp only <;> omega
    dsimp only
    rw [e1, e2, if_neg (by omega), if_neg (by omega)]
    rw [List.map_cons, ← List.singleton_append, ← List.append_assoc] at hp
    have hno : es.any (fun e => e.v1 == min (num s1) (num s2) && e.v2 == max (num s1) (num s2)) = false := by
      rw [Bool.eq_false_iff]
      intro ha
      obtain ⟨f, hf, hf2⟩ := List.any_eq_true.1 ha
      have hp2 := (List.pairwise_append.1 (List.pairwise_append.1 hp).1).2.2 f hf (numE num (s1, s2)) (List.mem_singleton.2 rfl)
      apply hp2
      simpa [numE, EdgeInfo.mk0] using hf2
    rw [hno]
    have := edges_eq E (es ++ [numE num (s1, s2)]) (fun e he => h e (List.mem_cons_of_mem _ he)) hp
    simp only [Bool.false_eq_true, if_false]
    rw [List.map_cons]
    rw [show es ++ numE num (s1, s2) :: E.map (numE num) = es ++ [numE num (s1, s2)] ++ E.map (numE num) by simp]
    exact this

end

/-- vertex number `v` is an endpoint of edge `a` -/
def Uses (es : List EdgeInfo) (a v : Nat) : Prop := ∃ e, es[a]? = some e ∧ (e.v1 = v ∨ e.v2 = v)

theorem foldl_max_ge (es : List EdgeInfo) (m : Nat) : m ≤ es.foldl (fun m e => if m < e.v2 then e.v2 else m) m ∧
    ∀ e ∈ es, e.v2 ≤ es.foldl (fun m e => if m < e.v2 then e.v2 else m) m := by
  induction es generalizing m with
  | nil => exact ⟨Nat.le_refl _, fun e h => (nomatch h)⟩
  | cons f es ih =>
    rw [List.foldl_cons]
    obtain ⟨h1, h2⟩ := ih (if m < f.v2 then f.v2 else m)
    have h3 : m ≤ (if m < f.v2 then f.v2 else m) ∧ f.v2 ≤ (if m < f.v2 then f.v2 else m) := by split <;> omega
    refine ⟨by omega, fun e he => ?_⟩
    rcases List.mem_cons.1 he with rfl | he
    · omega
    · exact h2 e he

theorem foldl_max_le (es : List EdgeInfo) (m k : Nat) (hm : m ≤ k) (h : ∀ e ∈ es, e.v2 ≤ k) :
    es.foldl (fun m e => if m < e.v2 then e.v2 else m) m ≤ k := by
  induction es generalizing m with
  | nil => exact hm
  | cons f es ih =>
    rw [List.foldl_cons]
    have := h f (List.mem_cons_self ..)
    exact ih _ (by split <;> omega) fun e he => h e (List.mem_cons_of_mem _ he)

end Gr
end TdZdd
