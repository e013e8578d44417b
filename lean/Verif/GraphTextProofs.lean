import Verif.GraphText
import Verif.GraphProofs4

/-!
# Names and text of a graph: lemmas
-/

namespace TdZdd

namespace GText

open Gr

/-! ## names -/

/-- `put` in both directions -/
theorem put2 {m : Name × Name → Option Int} {s t : Name} {a b : Int} {k : Name × Name} :
    put (put m (s, t) a) (t, s) a k = some b ↔ (((k = (s, t) ∨ k = (t, s)) ∧ b = a) ∨ (¬ (k = (s, t) ∨ k = (t, s)) ∧ m k = some b)) := by
  unfold put
  by_cases h1 : k = (t, s)
  · rw [if_pos h1]
    constructor
    · intro h; exact .inl ⟨.inr h1, (Option.some.inj h).symm⟩
    · rintro (⟨_, h⟩ | ⟨h, _⟩)
      · rw [h]
      · exact absurd (.inr h1) h
  · rw [if_neg h1]
    by_cases h2 : k = (s, t)
    · rw [if_pos h2]
      constructor
      · intro h; exact .inl ⟨.inl h2, (Option.some.inj h).symm⟩
      · rintro (⟨_, h⟩ | ⟨h, _⟩)
        · rw [h]
        · exact absurd (.inl h2) h
    · rw [if_neg h2]
      constructor
      · intro h; exact .inr ⟨fun h => h.elim h2 h1, h⟩
      · rintro (⟨h, _⟩ | ⟨_, h⟩)
        · exact absurd h fun h => h.elim h2 h1
        · exact h

theorem nameLoop_spec {num : Name → Nat} : ∀ (D : List (Name × Name)) (es : List EdgeInfo) (m : Name × Name → Option Int),
    ((es ++ D.map (numE num)).Pairwise fun e f => ¬ (e.v1 = f.v1 ∧ e.v2 = f.v2)) → (D.Pairwise fun e f => ¬ SameE e f) → ∀ (k : Name × Name) (b : Int),
    nameLoop num D es m k = some b ↔ (∃ j : Nat, (D[j]? = some k ∨ D[j]? = some (k.2, k.1)) ∧ b = es.length + j) ∨
      ((∀ j : Nat, D[j]? ≠ some k ∧ D[j]? ≠ some (k.2, k.1)) ∧ m k = some b)
  | [], es, m, _, _, k, b => by
    unfold nameLoop
    constructor
    · intro h; exact .inr ⟨fun j => by simp, h⟩
    · rintro (⟨j, h, _⟩ | ⟨_, h⟩)
      · simp at h
      · exact h
  | (s1, s2) :: D, es, m, hp, hD, k, b => by
    unfold nameLoop
    dsimp only
    have e1 : num (if num s1 > num s2 then (s2, s1) else (s1, s2)).1 = min (num s1) (num s2) := by split <;> dsimp only <;> omega
    have e2 : num (if num s1 > num s2 then (s2, s1) else (s1, s2)).2 = max (num s1) (num s2) := by split <;> dsimp only <;> omega
    rw [List.map_cons, ← List.singleton_append, ← List.append_assoc] at hp
    have hno : es.any (fun e => e.v1 == min (num s1) (num s2) && e.v2 == max (num s1) (num s2)) = false := by
      rw [Bool.eq_false_iff]
      intro ha
      obtain ⟨f, hf, hf2⟩ := List.any_eq_true.1 ha
      have hp2 := (List.pairwise_append.1 (List.pairwise_append.1 hp).1).2.2 f hf (numE num (s1, s2)) (List.mem_singleton.2 rfl)
      apply hp2
      simpa [numE, EdgeInfo.mk0] using hf2
    rw [e1, e2, hno]
    simp only [Bool.false_eq_true, if_false]
    obtain ⟨hD1, hD2⟩ := List.pairwise_cons.1 hD
    have ih := nameLoop_spec D (es ++ [numE num (s1, s2)])
      (put (put m ((if num s1 > num s2 then (s2, s1) else (s1, s2)).1, (if num s1 > num s2 then (s2, s1) else (s1, s2)).2) es.length)
        ((if num s1 > num s2 then (s2, s1) else (s1, s2)).2, (if num s1 > num s2 then (s2, s1) else (s1, s2)).1) es.length) hp hD2 k b
    have hput : ∀ b, put (put m ((if num s1 > num s2 then (s2, s1) else (s1, s2)).1, (if num s1 > num s2 then (s2, s1) else (s1, s2)).2) es.length)
        ((if num s1 > num s2 then (s2, s1) else (s1, s2)).2, (if num s1 > num s2 then (s2, s1) else (s1, s2)).1) es.length k = some b ↔
        (((k = (s1, s2) ∨ k = (s2, s1)) ∧ b = es.length) ∨ (¬ (k = (s1, s2) ∨ k = (s2, s1)) ∧ m k = some b)) := by
      intro b
      rw [put2]
      split
      · dsimp only
        rw [Or.comm (a := k = (s2, s1))]
      · exact Iff.rfl
    rw [show EdgeInfo.mk0 (min (num s1) (num s2)) (max (num s1) (num s2)) = numE num (s1, s2) from rfl, ih, hput, List.length_append, List.length_singleton]
    have hk : (k = (s1, s2) ∨ k = (s2, s1)) ↔ ((s1, s2) = k ∨ (s1, s2) = (k.2, k.1)) := by
      obtain ⟨x, y⟩ := k
      simp only [Prod.mk.injEq]
      constructor
      · rintro (⟨h1, h2⟩ | ⟨h1, h2⟩)
        · exact .inl ⟨h1.symm, h2.symm⟩
        · exact .inr ⟨h2.symm, h1.symm⟩
      · rintro (⟨h1, h2⟩ | ⟨h1, h2⟩)
        · exact .inl ⟨h1.symm, h2.symm⟩
        · exact .inr ⟨h2.symm, h1.symm⟩
    have hnone : ((s1, s2) = k ∨ (s1, s2) = (k.2, k.1)) → ∀ j : Nat, D[j]? ≠ some k ∧ D[j]? ≠ some (k.2, k.1) := by
      intro h j
      constructor
      · intro hj
        refine hD1 k (List.mem_of_getElem? hj) ?_
        exact h
      · intro hj
        refine hD1 _ (List.mem_of_getElem? hj) ?_
        unfold SameE
        exact h.symm
    constructor
    · rintro (⟨j, h, hb⟩ | ⟨h, (⟨h1, h2⟩ | ⟨h1, h2⟩)⟩)
      · exact .inl ⟨j + 1, by simpa using h, by rw [hb]; push_cast; omega⟩
      · refine .inl ⟨0, ?_, by rw [h2]; simp⟩
        rcases hk.1 h1 with h | h
        · exact .inl (by simp [h])
        · exact .inr (by simp [h])
      · refine .inr ⟨fun j => ?_, h2⟩
        cases j with
        | zero =>
          have := fun h => h1 (hk.2 h)
          constructor
          · intro h; exact this (.inl (by simpa using h))
          · intro h; exact this (.inr (by simpa using h))
        | succ j => simpa using h j
    · rintro (⟨j, h, hb⟩ | ⟨h, h2⟩)
      · cases j with
        | zero =>
          have h' : (s1, s2) = k ∨ (s1, s2) = (k.2, k.1) := by simpa using h
          exact .inr ⟨hnone h', .inl ⟨hk.2 h', by rw [hb]; simp⟩⟩
        | succ j => exact .inl ⟨j, by simpa using h, by rw [hb]; push_cast; omega⟩
      · refine .inr ⟨fun j => by simpa using h (j + 1), .inr ⟨fun hh => ?_, h2⟩⟩
        rcases hk.1 hh with h' | h'
        · exact (h 0).1 (by simp [h'])
        · exact (h 0).2 (by simp [h'])

theorem nameInit_spec (D : List (Name × Name)) (k : Name × Name) (h : ∀ j : Nat, D[j]? ≠ some k ∧ D[j]? ≠ some (k.2, k.1)) : nameInit D k = none := by
  have key : ∀ (D : List (Name × Name)) (m : Name × Name → Option Int), (∀ j : Nat, D[j]? ≠ some k ∧ D[j]? ≠ some (k.2, k.1)) →
      m k = none → D.foldl (fun m e => put (put m e (-1)) (e.2, e.1) (-1)) m k = none := by
    intro D
    induction D with
    | nil => intro m _ h; exact h
    | cons e D ih =>
      intro m h hm
      rw [List.foldl_cons]
      refine ih _ (fun j => by simpa using h (j + 1)) ?_
      unfold put
      have h0 := h 0
      rw [if_neg ?_, if_neg ?_]
      · exact hm
      · intro hk; exact h0.1 (by simp [hk])
      · intro hk; exact h0.2 (by simp [hk])
  exact key D _ h rfl

/-- unique edges with numbers from the stack have different pairs of numbers -/
theorem pairs_ne (E : List (Name × Name)) :
    ((gUnique E).map (numE (gNumber (gStack (gUnique E))))).Pairwise fun e f => ¬ (e.v1 = f.v1 ∧ e.v2 = f.v2) := by
  generalize hD : gUnique E = D
  have hDp : D.Pairwise fun e f => ¬ SameE e f := by rw [← hD]; exact (unique_spec E).1
  have hDe : ∀ e ∈ D, e.1 ∈ gStack D ∧ e.2 ∈ gStack D := fun e he => by
    obtain ⟨a, ha⟩ := List.mem_iff_getElem?.1 he
    exact ⟨mem_stack.2 ⟨a, e, ha, .inl rfl⟩, mem_stack.2 ⟨a, e, ha, .inr rfl⟩⟩
  rw [List.pairwise_map]
  have hDp' : D.Pairwise fun e f => (e ∈ D ∧ f ∈ D) ∧ ¬ SameE e f := by
    rw [List.pairwise_iff_getElem] at hDp ⊢
    exact fun i j hi hj hij => ⟨⟨List.getElem_mem _, List.getElem_mem _⟩, hDp i j hi hj hij⟩
  refine hDp'.imp ?_
  rintro ⟨s, t⟩ ⟨s', t'⟩ ⟨⟨he, hf⟩, hne⟩ ⟨h1, h2⟩
  apply hne
  have k1 : s ∈ gStack D := (hDe _ he).1
  have k2 : t ∈ gStack D := (hDe _ he).2
  have l1 : s' ∈ gStack D := (hDe _ hf).1
  have l2 : t' ∈ gStack D := (hDe _ hf).2
  simp only [numE, EdgeInfo.mk0] at h1 h2
  have : (gNumber (gStack D) s = gNumber (gStack D) s' ∧ gNumber (gStack D) t = gNumber (gStack D) t') ∨
      (gNumber (gStack D) s = gNumber (gStack D) t' ∧ gNumber (gStack D) t = gNumber (gStack D) s') := by omega
  rcases this with ⟨g1, g2⟩ | ⟨g1, g2⟩
  · exact .inl (by rw [number_inj k1 l1 g1, number_inj k2 l2 g2])
  · exact .inr (by rw [number_inj k1 l2 g1, number_inj k2 l1 g2])

theorem getEdge_ok {E : List (Name × Name)} {k : Name × Name} {b : Int} :
    getEdge E k = .ok b ↔ ∃ a : Nat, ((gUnique E)[a]? = some k ∨ (gUnique E)[a]? = some (k.2, k.1)) ∧ b = a := by
  have key := nameLoop_spec (num := gNumber (gStack (gUnique E))) (gUnique E) [] (nameInit (gUnique E)) (by rw [List.nil_append]; exact pairs_ne E) (unique_spec E).1 k b
  have hl : getEdge E k = .ok b ↔ nameLoop (gNumber (gStack (gUnique E))) (gUnique E) [] (nameInit (gUnique E)) k = some b := by
    unfold getEdge
    cases nameLoop (gNumber (gStack (gUnique E))) (gUnique E) [] (nameInit (gUnique E)) k with
    | none => exact ⟨fun h => (nomatch h), fun h => (nomatch h)⟩
    | some a =>
      constructor
      · intro h; cases h; rfl
      · intro h; rw [Option.some.inj h]
  rw [hl, key]
  constructor
  · rintro (⟨j, h, hb⟩ | ⟨h, hb⟩)
    · exact ⟨j, h, by simpa using hb⟩
    · rw [nameInit_spec _ _ h] at hb; cases hb
  · rintro ⟨a, h, hb⟩
    exact .inl ⟨a, h, by simpa using hb⟩

theorem getEdge_cases (E : List (Name × Name)) (k : Name × Name) : (∃ b, getEdge E k = .ok b) ∨ getEdge E k = .thrown := by
  unfold getEdge
  split
  · exact .inl ⟨_, rfl⟩
  · exact .inr rfl

/-- an edge is among the unique edges in one of its directions iff it is among the edges in one of its directions -/
theorem mem_unique {E : List (Name × Name)} {k : Name × Name} : (∃ a : Nat, (gUnique E)[a]? = some k ∨ (gUnique E)[a]? = some (k.2, k.1)) ↔ (k ∈ E ∨ (k.2, k.1) ∈ E) := by
  obtain ⟨_, hsub, hex⟩ := unique_spec E
  constructor
  · rintro ⟨a, h | h⟩
    · exact .inl (hsub.subset (List.mem_of_getElem? h))
    · exact .inr (hsub.subset (List.mem_of_getElem? h))
  · have : ∀ k, k ∈ E → ∃ a : Nat, (gUnique E)[a]? = some k ∨ (gUnique E)[a]? = some (k.2, k.1) := by
      intro k hk
      obtain ⟨f, hf, h⟩ := hex k hk
      obtain ⟨a, ha⟩ := List.mem_iff_getElem?.1 hf
      refine ⟨a, ?_⟩
      rcases h with h | h
      · exact .inl (by rw [h]; exact ha)
      · refine .inr ?_
        rw [h]; exact ha
    rintro (h | h)
    · exact this k h
    · obtain ⟨a, h⟩ := this _ h
      exact ⟨a, h.symm⟩

theorem mem_names {E : List (Name × Name)} {s : Name} : s ∈ gStack (gUnique E) ↔ ∃ e ∈ E, e.1 = s ∨ e.2 = s := by
  obtain ⟨_, hsub, hex⟩ := unique_spec E
  rw [mem_stack]
  constructor
  · rintro ⟨a, e, he, h⟩
    exact ⟨e, hsub.subset (List.mem_of_getElem? he), h⟩
  · rintro ⟨e, he, h⟩
    obtain ⟨f, hf, hs⟩ := hex e he
    obtain ⟨a, ha⟩ := List.mem_iff_getElem?.1 hf
    refine ⟨a, f, ha, ?_⟩
    rcases hs with hs | hs
    · rw [← hs]; exact h
    · rw [hs] at h; exact h.symm

/-! ## the text -/

theorem find_iff {m : List (Name × Name)} (hm : m.Pairwise fun p q => p.1 ≠ q.1) (s c : Name) : find m s = some c ↔ (s, c) ∈ m := by
  unfold find
  induction m with
  | nil => simp
  | cons p m ih =>
    obtain ⟨h1, h2⟩ := List.pairwise_cons.1 hm
    rw [List.find?_cons]
    by_cases hp : p.1 = s
    · have hb : (p.1 == s) = true := by simpa using hp
      rw [hb]
      constructor
      · intro h
        have : p.2 = c := by simpa using h
        exact List.mem_cons.2 (.inl (by rw [← hp, ← this]))
      · intro h
        rcases List.mem_cons.1 h with h | h
        · rw [← h]; rfl
        · exact absurd hp (h1 _ h)
    · have hb : (p.1 == s) = false := by simpa using hp
      rw [hb]
      dsimp only
      rw [ih h2, List.mem_cons]
      constructor
      · exact .inr
      · rintro (h | h)
        · exact absurd (by rw [← h]) hp
        · exact h

/-- line of an edge with the names `e` and the decoration `d` -/
def edgeLine (lab col : Name → Option Name) (e : Name × Name) (d : List Char) : List Char :=
  "  \"".toList ++ e.1 ++ "\"--\"".toList ++ e.2 ++ "\"".toList ++
    (match lab (e.1 ++ [','] ++ e.2) with | some l => "[label=\"".toList ++ l ++ "\"]".toList | none => []) ++
    (match col (e.1 ++ [','] ++ e.2) with | some c => "[color=\"".toList ++ c ++ "\",style=bold]".toList | none => []) ++ d ++ ";\n".toList

/-- line of a vertex -/
def vertexLine (lab col : Name → Option Name) (s : Name) : List Char :=
  "  \"".toList ++ s ++ "\"".toList ++ (match lab s with | some l => "[label=\"".toList ++ l ++ "\"]".toList | none => []) ++
    (match col s with | some c => "[color=\"".toList ++ c ++ "\",style=filled]".toList | none => []) ++ ";\n".toList

/-- lines of edges from number `a` on -/
def edgeLines (lab col : Name → Option Name) (deco : Nat → List Char) : Nat → List (Name × Name) → List Char
  | _, [] => []
  | a, e :: es => edgeLine lab col e (deco a) ++ edgeLines lab col deco (a + 1) es

theorem labelText_eq (o : Option Name) : labelText o = match o with | some l => "[label=\"".toList ++ l ++ "\"]".toList | none => [] := by
  cases o <;> rfl

theorem fillText_eq (o : Option Name) : fillText o = match o with | some c => "[color=\"".toList ++ c ++ "\",style=filled]".toList | none => [] := by
  cases o <;> rfl

theorem boldText_eq (o : Option Name) : boldText o = match o with | some c => "[color=\"".toList ++ c ++ "\",style=bold]".toList | none => [] := by
  cases o <;> rfl

theorem dumpVertex_eq (L C : List (Name × Name)) (s : Name) : dumpVertex L C s = if s = [] then [] else vertexLine (find L) (find C) s := by
  unfold dumpVertex vertexLine
  rw [labelText_eq, fillText_eq]
  rfl

theorem dumpEdges_eq {E L C : List (Name × Name)} {deco : Nat → List Char} : ∀ (es : List EdgeInfo) (a : Nat) (ps : List (Name × Name)), ps.length = es.length →
    (∀ (j : Nat) e p, es[j]? = some e → ps[j]? = some p → (vertex2name E)[e.v1]? = some p.1 ∧ (vertex2name E)[e.v2]? = some p.2) →
    dumpEdges E L C deco a es = some (edgeLines (find L) (find C) deco a ps)
  | [], a, ps, hl, _ => by
    cases ps with
    | nil => rfl
    | cons => cases hl
  | e :: es, a, ps, hl, h => by
    cases ps with
    | nil => cases hl
    | cons p ps =>
      obtain ⟨h1, h2⟩ := h 0 e p rfl rfl
      unfold dumpEdges dumpEdge edgeLines
      rw [h1, h2, dumpEdges_eq es (a + 1) ps (Nat.succ.inj hl) fun j e p he hp => h (j + 1) e p he hp]
      simp only [Option.bind_some, Option.map_some, labelText_eq, boldText_eq]
      rfl

theorem vertices_eq (L C : List (Name × Name)) (st : List Name) :
    ([] :: st).flatMap (dumpVertex L C) = (st.filter (· ≠ [])).flatMap (vertexLine (find L) (find C)) := by
  rw [List.flatMap_cons, dumpVertex_eq, if_pos rfl, List.nil_append]
  induction st with
  | nil => rfl
  | cons s st ih =>
    rw [List.flatMap_cons, ih, dumpVertex_eq, List.filter_cons]
    by_cases hs : s = []
    · rw [if_pos hs, if_neg (by simp [hs])]; rfl
    · rw [if_neg hs, if_pos (by simpa using hs), List.flatMap_cons]

end GText

end TdZdd
