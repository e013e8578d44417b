import Verif.GraphTextProofs

/-!
# Property C102: names of vertices and edges and the text of a graph
-/

namespace TdZdd

namespace GText

open Gr

theorem cut {c : Char} {a a' b b' : List Char} (h : a ++ c :: b = a' ++ c :: b') (ha : c ∉ a) (ha' : c ∉ a') : a = a' ∧ b = b' := by
  induction a generalizing a' with
  | nil =>
    cases a' with
    | nil => exact ⟨rfl, (List.cons.inj h).2⟩
    | cons x a' => exact absurd (List.mem_cons.2 (.inl (List.cons.inj h).1)) ha'
  | cons y a ih =>
    cases a' with
    | nil => exact absurd (List.mem_cons.2 (.inl (List.cons.inj h).1.symm)) ha
    | cons x a' =>
      obtain ⟨h1, h2⟩ := List.cons.inj h
      obtain ⟨h3, h4⟩ := ih h2 (fun hm => ha (List.mem_cons_of_mem _ hm)) (fun hm => ha' (List.mem_cons_of_mem _ hm))
      exact ⟨by rw [h1, h3], h4⟩

/-- the texts of the decorators -/
def Deco (d : List Char) : Prop := d = [] ∨ d = "[style=bold]".toList ∨ d = "[style=dotted,color=gray]".toList

theorem Deco.semi {d : List Char} (h : Deco d) : ';' ∉ d := by
  rcases h with h | h | h <;> subst h <;> decide

theorem edgeDeco_deco (n : Int) (levels : List Int) (a : Nat) : Deco (edgeDeco n levels a) := by
  unfold edgeDeco
  split
  · exact .inr (.inl rfl)
  · exact .inr (.inr rfl)

theorem fill_inj {o o' : Option Name} {x y : List Char} (ho : ∀ c, o = some c → '"' ∉ c) (ho' : ∀ c, o' = some c → '"' ∉ c)
    (h : fillText o ++ ';' :: x = fillText o' ++ ';' :: y) : o = o' ∧ x = y := by
  cases o with
  | none =>
    cases o' with
    | none => exact ⟨rfl, (List.cons.inj h).2⟩
    | some c' => exact absurd (List.cons.inj h).1 (by decide)
  | some c =>
    cases o' with
    | none => exact absurd (List.cons.inj h).1 (by decide)
    | some c' =>
      simp only [fillText, List.append_assoc, List.cons_append, List.nil_append, List.cons.injEq, true_and] at h
      obtain ⟨h1, h2⟩ := cut h (ho c rfl) (ho' c' rfl)
      simp only [List.cons.injEq, true_and] at h2
      exact ⟨by rw [h1], h2⟩

theorem bold_inj {o o' : Option Name} {d d' x y : List Char} (ho : ∀ c, o = some c → '"' ∉ c) (ho' : ∀ c, o' = some c → '"' ∉ c) (hd : Deco d) (hd' : Deco d')
    (h : boldText o ++ (d ++ ';' :: x) = boldText o' ++ (d' ++ ';' :: y)) : d = d' ∧ x = y := by
  have key : ∀ {c : Name} {d x z : List Char}, Deco d → d ++ ';' :: x ≠ boldText (some c) ++ z := by
    intro c d x z hd h
    rcases hd with hd | hd | hd <;> subst hd
    · exact absurd (List.cons.inj h).1 (by decide)
    · exact absurd (List.cons.inj (List.cons.inj h).2).1 (by decide)
    · exact absurd (List.cons.inj (List.cons.inj h).2).1 (by decide)
  cases o with
  | none =>
    cases o' with
    | none => exact cut h hd.semi hd'.semi
    | some c' => exact absurd h (key hd)
  | some c =>
    cases o' with
    | none => exact absurd h.symm (key hd')
    | some c' =>
      simp only [boldText, List.append_assoc, List.cons_append, List.nil_append, List.cons.injEq, true_and] at h
      obtain ⟨h1, h2⟩ := cut h (ho c rfl) (ho' c' rfl)
      simp only [List.cons.injEq, true_and] at h2
      exact cut h2 hd.semi hd'.semi

theorem vertexLine_eq (col : Name → Option Name) (s : Name) (x : List Char) :
    vertexLine (fun _ => none) col s ++ x = ' ' :: ' ' :: '"' :: (s ++ '"' :: (fillText (col s) ++ ';' :: '\n' :: x)) := by
  unfold vertexLine
  rw [← fillText_eq]
  simp only [List.append_assoc]
  rfl

theorem edgeLine_eq (col : Name → Option Name) (e : Name × Name) (d x : List Char) :
    edgeLine (fun _ => none) col e d ++ x = ' ' :: ' ' :: '"' :: (e.1 ++ '"' :: '-' :: '-' :: '"' :: (e.2 ++ '"' :: (boldText (col (e.1 ++ [','] ++ e.2)) ++ (d ++ ';' :: '\n' :: x)))) := by
  unfold edgeLine
  rw [← boldText_eq]
  simp only [List.append_assoc]
  rfl

theorem edgeLines_inj {col col' : Name → Option Name} {deco deco' : Nat → List Char} (hc : ∀ s c, col s = some c → '"' ∉ c) (hc' : ∀ s c, col' s = some c → '"' ∉ c)
    (hd : ∀ a, Deco (deco a)) (hd' : ∀ a, Deco (deco' a)) : ∀ (ps ps' : List (Name × Name)) (a : Nat),
    (∀ p ∈ ps, '"' ∉ p.1 ∧ '"' ∉ p.2) → (∀ p ∈ ps', '"' ∉ p.1 ∧ '"' ∉ p.2) →
    edgeLines (fun _ => none) col deco a ps ++ ['}', '\n'] = edgeLines (fun _ => none) col' deco' a ps' ++ ['}', '\n'] →
    ps = ps' ∧ ∀ j, j < ps.length → deco (a + j) = deco' (a + j)
  | [], [], a, _, _, _ => ⟨rfl, fun j hj => by simp at hj⟩
  | [], p :: ps, a, _, _, h => by
    unfold edgeLines at h
    rw [List.append_assoc, edgeLine_eq] at h
    exact absurd (List.cons.inj h).1 (by decide)
  | p :: ps, [], a, _, _, h => by
    rw [edgeLines, edgeLines, List.append_assoc, edgeLine_eq] at h
    exact absurd (List.cons.inj h).1 (by decide)
  | p :: ps, p' :: ps', a, hp, hp', h => by
    rw [edgeLines, edgeLines, List.append_assoc, List.append_assoc, edgeLine_eq, edgeLine_eq] at h
    simp only [List.cons.injEq, true_and] at h
    obtain ⟨p1, p2⟩ := hp p (List.mem_cons_self ..)
    obtain ⟨q1, q2⟩ := hp' p' (List.mem_cons_self ..)
    obtain ⟨h1, h⟩ := cut h p1 q1
    simp only [List.cons.injEq, true_and] at h
    obtain ⟨h2, h⟩ := cut h p2 q2
    obtain ⟨h3, h⟩ := bold_inj (hc _) (hc' _) (hd a) (hd' a) h
    obtain ⟨h4, h5⟩ := edgeLines_inj hc hc' hd hd' ps ps' (a + 1) (fun p h => hp p (List.mem_cons_of_mem _ h)) (fun p h => hp' p (List.mem_cons_of_mem _ h)) (List.cons.inj h).2
    refine ⟨by rw [h4, Prod.ext h1 h2], fun j hj => ?_⟩
    cases j with
    | zero => exact h3
    | succ j =>
      rw [show a + (j + 1) = a + 1 + j by omega]
      exact h5 j (by simpa using hj)

theorem lines_inj {col col' : Name → Option Name} {deco deco' : Nat → List Char} (hc : ∀ s c, col s = some c → '"' ∉ c) (hc' : ∀ s c, col' s = some c → '"' ∉ c)
    (hd : ∀ a, Deco (deco a)) (hd' : ∀ a, Deco (deco' a)) {ps ps' : List (Name × Name)} (hp : ∀ p ∈ ps, '"' ∉ p.1 ∧ '"' ∉ p.2) (hp' : ∀ p ∈ ps', '"' ∉ p.1 ∧ '"' ∉ p.2) :
    ∀ (ns ns' : List Name), (∀ s ∈ ns, '"' ∉ s) → (∀ s ∈ ns', '"' ∉ s) →
    ns.flatMap (vertexLine (fun _ => none) col) ++ (edgeLines (fun _ => none) col deco 0 ps ++ ['}', '\n']) =
      ns'.flatMap (vertexLine (fun _ => none) col') ++ (edgeLines (fun _ => none) col' deco' 0 ps' ++ ['}', '\n']) →
    (ns = ns' ∧ ∀ s ∈ ns, col s = col' s) ∧ ps = ps' ∧ ∀ j, j < ps.length → deco j = deco' j := by
  -- a line of a vertex is not a line of an edge or the end
  have key : ∀ {col col' : Name → Option Name} {deco : Nat → List Char} {ps : List (Name × Name)} {s : Name} {x : List Char}, (∀ p ∈ ps, '"' ∉ p.1 ∧ '"' ∉ p.2) → '"' ∉ s →
      edgeLines (fun _ => none) col deco 0 ps ++ ['}', '\n'] ≠ vertexLine (fun _ => none) col' s ++ x := by
    intro col col' deco ps s x hp hs h
    rw [vertexLine_eq] at h
    cases ps with
    | nil => exact absurd (List.cons.inj h).1 (by decide)
    | cons p ps =>
      rw [edgeLines, List.append_assoc, edgeLine_eq] at h
      simp only [List.cons.injEq, true_and] at h
      obtain ⟨_, h⟩ := cut h (hp p (List.mem_cons_self ..)).1 hs
      cases hcs : col' s with
      | none => rw [hcs] at h; exact absurd (List.cons.inj h).1 (by decide)
      | some c => rw [hcs] at h; exact absurd (List.cons.inj h).1 (by decide)
  intro ns
  induction ns with
  | nil =>
    intro ns' _ hn' h
    cases ns' with
    | nil =>
      obtain ⟨h1, h2⟩ := edgeLines_inj hc hc' hd hd' ps ps' 0 hp hp' h
      exact ⟨⟨rfl, fun s hs => (nomatch hs)⟩, h1, fun j hj => by simpa using h2 j hj⟩
    | cons s ns' =>
      rw [List.flatMap_cons, List.append_assoc] at h
      exact absurd h (key hp (hn' s (List.mem_cons_self ..)))
  | cons s ns ih =>
    intro ns' hn hn' h
    cases ns' with
    | nil =>
      rw [List.flatMap_cons, List.append_assoc] at h
      exact absurd h.symm (key hp' (hn s (List.mem_cons_self ..)))
    | cons s' ns' =>
      rw [List.flatMap_cons, List.append_assoc, List.flatMap_cons, List.append_assoc, vertexLine_eq, vertexLine_eq] at h
      simp only [List.cons.injEq, true_and] at h
      obtain ⟨h1, h⟩ := cut h (hn s (List.mem_cons_self ..)) (hn' s' (List.mem_cons_self ..))
      obtain ⟨h2, h⟩ := fill_inj (hc _) (hc' _) h
      obtain ⟨⟨h3, h4⟩, h5⟩ := ih ns' (fun s hs => hn s (List.mem_cons_of_mem _ hs)) (fun s hs => hn' s (List.mem_cons_of_mem _ hs)) (List.cons.inj h).2
      refine ⟨⟨by rw [h1, h3], fun x hx => ?_⟩, h5⟩
      rcases List.mem_cons.1 hx with hx | hx
      · rw [hx, h2, h1]
      · exact h4 x hx

/-- the result of `update()` -/
theorem update_ok {E C : List (Name × Name)} (hC : C.Pairwise fun p q => p.1 ≠ q.1) {G : Graph} (h : gUpdate E C = .ok G) :
    G.Ok ∧ G.vMax = (gStack (gUnique E)).length ∧ G.Named C (gUnique E) (gNumber (gStack (gUnique E))) ∧ (∀ p ∈ C, p.1 ∈ gStack (gUnique E)) := by
  rcases update_spec E C hC with ⟨h1, _⟩ | ⟨G', h1, h2, h3, h4, h5, _⟩
  · rw [h] at h1; cases h1
  · rw [h] at h1
    cases h1
    exact ⟨h2, h3, h4, h5⟩

theorem vertexName_num {E : List (Name × Name)} {G : Graph} (hv : G.vMax = (gStack (gUnique E)).length) {v : Nat} (h1 : 1 ≤ v) (h2 : v ≤ G.vMax) :
    ∃ s, s ∈ gStack (gUnique E) ∧ vertexName E G v = .ok s ∧ (vertex2name E)[v]? = some s ∧ gNumber (gStack (gUnique E)) s = v := by
  have hlt : v - 1 < (gStack (gUnique E)).length := by omega
  have hg : (vertex2name E)[v]? = some (gStack (gUnique E))[v - 1] := by
    unfold vertex2name
    obtain ⟨u, rfl⟩ : ∃ u, v = u + 1 := ⟨v - 1, by omega⟩
    rw [List.getElem?_cons_succ]
    exact List.getElem?_eq_getElem hlt
  refine ⟨_, List.getElem_mem hlt, ?_, hg, ?_⟩
  · unfold vertexName
    rw [if_neg (by omega), hg]
  · rw [number_pos (List.getElem_mem hlt), idxOf_getElem' (nodup_stack _) hlt]
    omega

/-- the names of the ends of the edges in the order of the numbers -/
theorem ends_names {E C : List (Name × Name)} (hC : C.Pairwise fun p q => p.1 ≠ q.1) {G : Graph} (h : gUpdate E C = .ok G) :
    ∃ ps : List (Name × Name), ps.length = G.info.length ∧ (∀ p ∈ ps, p ∈ E ∨ (p.2, p.1) ∈ E) ∧ ∀ (j : Nat) e p, G.info[j]? = some e → ps[j]? = some p →
      (vertex2name E)[e.v1]? = some p.1 ∧ (vertex2name E)[e.v2]? = some p.2 ∧ vertexName E G e.v1 = .ok p.1 ∧ vertexName E G e.v2 = .ok p.2 := by
  obtain ⟨hok, hv, hN, _⟩ := update_ok hC h
  let num := gNumber (gStack (gUnique E))
  refine ⟨(gUnique E).map fun p => if num p.1 ≤ num p.2 then p else (p.2, p.1), by rw [List.length_map, hN.edges], ?_, ?_⟩
  · intro p hp
    obtain ⟨q, hq, rfl⟩ := List.mem_map.1 hp
    have := (unique_spec E).2.1.subset hq
    split
    · exact .inl this
    · exact .inr this
  · intro j e p he hp
    rw [List.getElem?_map, Option.map_eq_some_iff] at hp
    obtain ⟨⟨s, t⟩, hq, rfl⟩ := hp
    obtain ⟨e', he', h1, h2⟩ := hN.ends j s t hq
    rw [he] at he'
    cases he'
    have hr := hok.range j e he
    obtain ⟨x, x1, x2, x3, x4⟩ := vertexName_num hv hr.1 (by omega)
    obtain ⟨y, y1, y2, y3, y4⟩ := vertexName_num hv (by omega : 1 ≤ e.v2) hr.2.2
    have hs : s ∈ gStack (gUnique E) := mem_stack.2 ⟨j, _, hq, .inl rfl⟩
    have ht : t ∈ gStack (gUnique E) := mem_stack.2 ⟨j, _, hq, .inr rfl⟩
    rw [x2, y2, x3, y3]
    have hx : x = (if num s ≤ num t then (s, t) else (t, s)).1 := by
      split
      · refine number_inj x1 hs ?_
        rw [x4, h1]; exact Nat.min_eq_left ‹_›
      · refine number_inj x1 ht ?_
        rw [x4, h1]; exact Nat.min_eq_right (by show num t ≤ num s; omega)
    have hy : y = (if num s ≤ num t then (s, t) else (t, s)).2 := by
      split
      · refine number_inj y1 ht ?_
        rw [y4, h2]; exact Nat.max_eq_right ‹_›
      · refine number_inj y1 hs ?_
        rw [y4, h2]; exact Nat.max_eq_left (by show num t ≤ num s; omega)
    rw [hx, hy]
    exact ⟨rfl, rfl, rfl, rfl⟩

theorem dump_eq {E L C : List (Name × Name)} {G : Graph} (deco : Nat → List Char)
    {ps : List (Name × Name)} (hl : ps.length = G.info.length) (hps : ∀ (j : Nat) e p, G.info[j]? = some e → ps[j]? = some p →
      (vertex2name E)[e.v1]? = some p.1 ∧ (vertex2name E)[e.v2]? = some p.2) :
    dump E L C deco G = some ("graph {\n".toList ++ ((gStack (gUnique E)).filter (· ≠ [])).flatMap (vertexLine (find L) (find C)) ++ edgeLines (find L) (find C) deco 0 ps ++ "}\n".toList) := by
  unfold dump
  rw [dumpEdges_eq G.info 0 ps hl hps, show vertex2name E = [] :: gStack (gUnique E) from rfl, vertices_eq]
  rfl

end GText

open GText Gr

/-- C102: after a successful `update()`, `getVertex` and `vertexName` are inverse to each other; the vertices are the names that occur in edges; other names make
`getVertex` throw and other numbers are `"?"`. -/
theorem C102_vertex (E C : List (Name × Name)) (hC : C.Pairwise fun p q => p.1 ≠ q.1) (G : Graph) (h : gUpdate E C = .ok G) :
    (∀ s v, getVertex E s = .ok v ↔ 1 ≤ v ∧ v ≤ G.vMax ∧ vertexName E G v = .ok s) ∧
    (∀ s, (∃ v, getVertex E s = .ok v) ↔ ∃ e ∈ E, e.1 = s ∨ e.2 = s) ∧
    (∀ s, getVertex E s = .thrown ↔ ¬ ∃ e ∈ E, e.1 = s ∨ e.2 = s) ∧
    (∀ v, v = 0 ∨ G.vMax < v → vertexName E G v = .ok "?".toList) := by
  obtain ⟨hok, hv, hN, _⟩ := update_ok hC h
  refine ⟨fun s v => ?_, fun s => ?_, fun s => ?_, fun v hv' => ?_⟩
  · unfold getVertex
    constructor
    · intro hs
      split at hs
      · rename_i hm
        cases hs
        have hr := number_range hm
        obtain ⟨x, x1, x2, _, x4⟩ := vertexName_num hv hr.1 (by omega)
        rw [x2, number_inj x1 hm x4]
        exact ⟨hr.1, by omega, rfl⟩
      · cases hs
    · rintro ⟨h1, h2, h3⟩
      obtain ⟨x, x1, x2, _, x4⟩ := vertexName_num hv h1 h2
      rw [x2] at h3
      cases h3
      rw [if_pos x1, x4]
  · rw [← mem_names]
    unfold getVertex
    split
    · rename_i hm; exact ⟨fun _ => hm, fun _ => ⟨_, rfl⟩⟩
    · rename_i hm; exact ⟨fun ⟨v, h⟩ => (nomatch h), fun h => absurd h hm⟩
  · rw [← mem_names]
    unfold getVertex
    split
    · rename_i hm; exact ⟨fun h => (nomatch h), fun h => absurd hm h⟩
    · rename_i hm; exact ⟨fun _ => hm, fun _ => rfl⟩
  · unfold vertexName
    rw [if_pos (by omega)]
    rfl

/-- C102: `getEdge` of names gives the number of the edge in either direction and throws if there is none; `edgeName` gives the names of the ends as in the input,
`getEdge` of vertex numbers the same edge; other numbers have the name `"?"`. -/
theorem C102_edge (E C : List (Name × Name)) (hC : C.Pairwise fun p q => p.1 ≠ q.1) (G : Graph) (h : gUpdate E C = .ok G) :
    (∀ s t b, getEdge E (s, t) = .ok b ↔ 0 ≤ b ∧ b < G.info.length ∧ (edgeName E G b = .ok (s, t) ∨ edgeName E G b = .ok (t, s))) ∧
    (∀ s t, getEdge E (s, t) = .thrown ↔ (s, t) ∉ E ∧ (t, s) ∉ E) ∧
    (∀ s t b, getEdge E (s, t) = .ok b → ∃ v w e, getVertex E s = .ok v ∧ getVertex E t = .ok w ∧ G.info[b.toNat]? = some e ∧ e.v1 = min v w ∧ e.v2 = max v w ∧
      getEdgeNum G v w = .ok b.toNat ∧ getEdgeNum G w v = .ok b.toNat) ∧
    (∀ b, b < 0 ∨ (G.info.length : Int) ≤ b → edgeName E G b = .ok ("?".toList, "?".toList)) ∧
    (∀ (a : Nat), a < G.info.length → ∃ s t, edgeName E G a = .ok (s, t) ∧ (s, t) ∈ E) := by
  obtain ⟨hok, hv, hN, _⟩ := update_ok hC h
  have hname : ∀ (a : Nat), a < G.info.length → ∃ p, (gUnique E)[a]? = some p ∧ edgeName E G a = .ok p := by
    intro a ha
    have ha' : a < (gUnique E).length := by rw [← hN.edges]; exact ha
    refine ⟨(gUnique E)[a], List.getElem?_eq_getElem ha', ?_⟩
    unfold edgeName
    rw [if_neg (by omega), Int.toNat_natCast, List.getElem?_eq_getElem ha']
  refine ⟨fun s t b => ?_, fun s t => ?_, fun s t b hb => ?_, fun b hb => ?_, fun a ha => ?_⟩
  · rw [getEdge_ok]
    constructor
    · rintro ⟨a, ha, rfl⟩
      have hlt : a < G.info.length := by
        rw [hN.edges]
        rcases ha with ha | ha <;> exact (List.getElem?_eq_some_iff.1 ha).1
      obtain ⟨p, hp, hq⟩ := hname a hlt
      rw [hp] at ha
      refine ⟨by omega, by omega, ?_⟩
      rw [hq]
      rcases ha with ha | ha
      · exact .inl (by rw [Option.some.inj ha])
      · exact .inr (by rw [Option.some.inj ha])
    · rintro ⟨h1, h2, h3⟩
      obtain ⟨p, hp, hq⟩ := hname b.toNat (by omega)
      rw [Int.toNat_of_nonneg h1] at hq
      refine ⟨b.toNat, ?_, by omega⟩
      rw [hp]
      rw [hq] at h3
      rcases h3 with h3 | h3
      · cases h3; exact .inl rfl
      · cases h3; exact .inr rfl
  · have hm := mem_unique (E := E) (k := (s, t))
    rcases getEdge_cases E (s, t) with ⟨b, hb⟩ | hb
    · rw [hb]
      obtain ⟨a, ha, _⟩ := getEdge_ok.1 hb
      have := hm.1 ⟨a, ha⟩
      constructor
      · intro h; cases h
      · rintro ⟨h1, h2⟩
        exact absurd this fun h => h.elim h1 h2
    · rw [hb]
      refine ⟨fun _ => ?_, fun _ => rfl⟩
      have hno : ¬ ((s, t) ∈ E ∨ (t, s) ∈ E) := by
        intro hE
        obtain ⟨a, ha⟩ := hm.2 hE
        rw [getEdge_ok.2 ⟨a, ha, rfl⟩] at hb
        cases hb
      exact ⟨fun h => hno (.inl h), fun h => hno (.inr h)⟩
  · obtain ⟨a, ha, rfl⟩ := getEdge_ok.1 hb
    rw [Int.toNat_natCast]
    have hst : s ∈ gStack (gUnique E) ∧ t ∈ gStack (gUnique E) := by
      rcases ha with ha | ha
      · exact ⟨mem_stack.2 ⟨a, _, ha, .inl rfl⟩, mem_stack.2 ⟨a, _, ha, .inr rfl⟩⟩
      · exact ⟨mem_stack.2 ⟨a, _, ha, .inr rfl⟩, mem_stack.2 ⟨a, _, ha, .inl rfl⟩⟩
    have he : ∃ e, G.info[a]? = some e ∧ e.v1 = min (gNumber (gStack (gUnique E)) s) (gNumber (gStack (gUnique E)) t) ∧
        e.v2 = max (gNumber (gStack (gUnique E)) s) (gNumber (gStack (gUnique E)) t) := by
      rcases ha with ha | ha
      · exact hN.ends a s t ha
      · obtain ⟨e, h1, h2, h3⟩ := hN.ends a t s ha
        exact ⟨e, h1, by rw [h2, Nat.min_comm], by rw [h3, Nat.max_comm]⟩
    obtain ⟨e, he, h1, h2⟩ := he
    have r1 := number_range hst.1
    have r2 := number_range hst.2
    have hnum : ∀ v w, 1 ≤ v → v ≤ G.vMax → 1 ≤ w → w ≤ G.vMax → e.v1 = min v w → e.v2 = max v w → getEdgeNum G v w = .ok a := by
      intro v w v1 v2 w1 w2 k1 k2
      unfold getEdgeNum
      rw [if_pos ⟨v1, v2, w1, w2⟩]
      have hsw : (if v > w then (w, v) else (v, w)) = (min v w, max v w) := by
        split
        · rw [Nat.min_eq_right (by omega), Nat.max_eq_left (by omega)]
        · rw [Nat.min_eq_left (by omega), Nat.max_eq_right (by omega)]
      dsimp only
      rw [hsw]
      dsimp only
      have : G.info.findIdx? (fun e => e.v1 == min v w && e.v2 == max v w) = some a := by
        obtain ⟨ha, hae⟩ := List.getElem?_eq_some_iff.1 he
        rw [List.findIdx?_eq_some_iff_getElem]
        refine ⟨ha, by rw [hae, ← k1, ← k2]; simp, fun j hj => ?_⟩
        intro hb
        have hb' := (Bool.and_eq_true _ _).mp hb
        have := hok.simple j a G.info[j] e (List.getElem?_eq_getElem (by omega)) he (by rw [k1]; simpa using hb'.1) (by rw [k2]; simpa using hb'.2)
        omega
      rw [this]
    refine ⟨_, _, e, by unfold getVertex; rw [if_pos hst.1], by unfold getVertex; rw [if_pos hst.2], he, h1, h2, ?_, ?_⟩
    · exact hnum _ _ r1.1 (by omega) r2.1 (by omega) h1 h2
    · exact hnum _ _ r2.1 (by omega) r1.1 (by omega) (by rw [h1, Nat.min_comm]) (by rw [h2, Nat.max_comm])
  · unfold edgeName
    rw [if_pos hb]
    rfl
  · obtain ⟨⟨s, t⟩, h1, h2⟩ := hname a ha
    exact ⟨s, t, h2, (unique_spec E).2.1.subset (List.mem_of_getElem? h1)⟩

/-- C102: labels of vertices and edges are those of the map; names (of an edge: both names with a comma) stand for labels that are not there. Nothing is undefined. -/
theorem C102_label (E L C : List (Name × Name)) (hL : L.Pairwise fun p q => p.1 ≠ q.1) (hC : C.Pairwise fun p q => p.1 ≠ q.1) (G : Graph) (h : gUpdate E C = .ok G) :
    (∀ v, ∃ s l, vertexName E G v = .ok s ∧ vertexLabel E L G v = .ok l ∧ ((s, l) ∈ L ∨ (l = s ∧ ∀ k, (s, k) ∉ L))) ∧
    (∀ b, ∃ s t l, edgeName E G b = .ok (s, t) ∧ edgeLabel E L G b = .ok l ∧ ((s ++ ",".toList ++ t, l) ∈ L ∨ (l = s ++ ",".toList ++ t ∧ ∀ k, (s ++ ",".toList ++ t, k) ∉ L))) := by
  obtain ⟨hok, hv, hN, _⟩ := update_ok hC h
  have key : ∀ s, (s, (find L s).getD s) ∈ L ∨ ((find L s).getD s = s ∧ ∀ k, (s, k) ∉ L) := by
    intro s
    cases hf : find L s with
    | none => exact .inr ⟨rfl, fun k hk => by rw [(find_iff hL s k).2 hk] at hf; cases hf⟩
    | some l => exact .inl ((find_iff hL s l).1 hf)
  constructor
  · intro v
    have hn : ∃ s, vertexName E G v = .ok s := by
      by_cases hr : v < 1 ∨ G.vMax < v
      · exact ⟨['?'], by unfold vertexName; rw [if_pos hr]⟩
      · obtain ⟨s, _, hs, _⟩ := vertexName_num hv (by omega : 1 ≤ v) (by omega)
        exact ⟨s, hs⟩
    obtain ⟨s, hs⟩ := hn
    exact ⟨s, _, hs, by unfold vertexLabel; rw [hs]; rfl, key s⟩
  · intro b
    have hn : ∃ p, edgeName E G b = .ok p := by
      unfold edgeName
      split
      · exact ⟨_, rfl⟩
      · have : b.toNat < (gUnique E).length := by rw [← hN.edges]; omega
        rw [List.getElem?_eq_getElem this]
        exact ⟨_, rfl⟩
    obtain ⟨⟨s, t⟩, hs⟩ := hn
    exact ⟨s, t, _, hs, by unfold edgeLabel; rw [hs]; rfl, key _⟩

/-- C102: the text of a graph: a line for each vertex whose name is not empty, in the order of their numbers, then a line for each edge in their order, with the ends in the
order of their numbers, followed by what the decorator gives for the number of the edge. -/
theorem C102_dump (E L C : List (Name × Name)) (hL : L.Pairwise fun p q => p.1 ≠ q.1) (hC : C.Pairwise fun p q => p.1 ≠ q.1) (G : Graph) (h : gUpdate E C = .ok G) (deco : Nat → List Char) :
    ∃ (lab col : Name → Option Name) (ns : List Name) (ps : List (Name × Name)),
      (∀ s l, lab s = some l ↔ (s, l) ∈ L) ∧ (∀ s c, col s = some c ↔ (s, c) ∈ C) ∧
      ns.length = G.vMax ∧ (∀ v s, ns[v]? = some s → vertexName E G (v + 1) = .ok s) ∧
      ps.length = G.info.length ∧ (∀ (a : Nat) e p, G.info[a]? = some e → ps[a]? = some p → vertexName E G e.v1 = .ok p.1 ∧ vertexName E G e.v2 = .ok p.2) ∧
      dump E L C deco G = some ("graph {\n".toList ++ (ns.filter (· ≠ [])).flatMap (vertexLine lab col) ++ edgeLines lab col deco 0 ps ++ "}\n".toList) := by
  obtain ⟨hok, hv, hN, _⟩ := update_ok hC h
  obtain ⟨ps, hl, _, hps⟩ := ends_names hC h
  refine ⟨find L, find C, gStack (gUnique E), ps, find_iff hL, find_iff hC, hv.symm, fun v s hs => ?_, hl, fun a e p he hp => (hps a e p he hp).2.2, ?_⟩
  · obtain ⟨hlt, hs'⟩ := List.getElem?_eq_some_iff.1 hs
    obtain ⟨x, _, x2, x3, _⟩ := vertexName_num (E := E) (G := G) hv (by omega : 1 ≤ v + 1) (by omega)
    unfold vertex2name at x3
    rw [List.getElem?_cons_succ, hs] at x3
    rw [x2, Option.some.inj x3]
  · exact dump_eq deco hl fun j e p he hp => ⟨(hps j e p he hp).1, (hps j e p he hp).2.1⟩

/-- C102: graphs with the same text have the same edges with the same decorations and the same coloured vertices (except an empty name), if no name or colour contains a
quotation mark; vertices have the same numbers, if there is no empty name. -/
theorem C102_text_inj (E C E' C' : List (Name × Name)) (hC : C.Pairwise fun p q => p.1 ≠ q.1) (hC' : C'.Pairwise fun p q => p.1 ≠ q.1) (G G' : Graph)
    (h : gUpdate E C = .ok G) (h' : gUpdate E' C' = .ok G') (deco deco' : Nat → List Char) (hd : ∀ a, Deco (deco a)) (hd' : ∀ a, Deco (deco' a))
    (hE : ∀ e ∈ E, '"' ∉ e.1 ∧ '"' ∉ e.2) (hE' : ∀ e ∈ E', '"' ∉ e.1 ∧ '"' ∉ e.2) (hcol : ∀ e ∈ C, '"' ∉ e.2) (hcol' : ∀ e ∈ C', '"' ∉ e.2)
    (heq : dump E [] C deco G = dump E' [] C' deco' G') :
    G.info.length = G'.info.length ∧
    (∀ (a : Nat) e e', G.info[a]? = some e → G'.info[a]? = some e' → vertexName E G e.v1 = vertexName E' G' e'.v1 ∧ vertexName E G e.v2 = vertexName E' G' e'.v2 ∧ deco a = deco' a) ∧
    (∀ s c, s ≠ [] → ((s, c) ∈ C ↔ (s, c) ∈ C')) ∧
    ((∀ e ∈ E, e.1 ≠ [] ∧ e.2 ≠ []) → G.vMax = G'.vMax ∧ ∀ v, vertexName E G v = vertexName E' G' v) := by
  obtain ⟨hok, hv, hN, hmem⟩ := update_ok hC h
  obtain ⟨hok', hv', hN', hmem'⟩ := update_ok hC' h'
  obtain ⟨ps, hl, hpE, hps⟩ := ends_names hC h
  obtain ⟨ps', hl', hpE', hps'⟩ := ends_names hC' h'
  rw [dump_eq deco hl fun j e p he hp => ⟨(hps j e p he hp).1, (hps j e p he hp).2.1⟩,
    dump_eq deco' hl' fun j e p he hp => ⟨(hps' j e p he hp).1, (hps' j e p he hp).2.1⟩] at heq
  have heq' := Option.some.inj heq
  rw [List.append_assoc, List.append_assoc, List.append_assoc, List.append_assoc] at heq'
  have heq2 := List.append_cancel_left heq'
  have quote : ∀ {E : List (Name × Name)} {ps : List (Name × Name)}, (∀ e ∈ E, '"' ∉ e.1 ∧ '"' ∉ e.2) → (∀ p ∈ ps, p ∈ E ∨ (p.2, p.1) ∈ E) → ∀ p ∈ ps, '"' ∉ p.1 ∧ '"' ∉ p.2 := by
    intro E ps hE hp p hm
    rcases hp p hm with h | h
    · exact hE _ h
    · exact ⟨(hE _ h).2, (hE _ h).1⟩
  have quoteN : ∀ {E : List (Name × Name)}, (∀ e ∈ E, '"' ∉ e.1 ∧ '"' ∉ e.2) → ∀ s ∈ (gStack (gUnique E)).filter (· ≠ []), '"' ∉ s := by
    intro E hE s hs
    obtain ⟨e, he, hs⟩ := mem_names.1 (List.mem_filter.1 hs).1
    rcases hs with hs | hs
    · rw [← hs]; exact (hE e he).1
    · rw [← hs]; exact (hE e he).2
  obtain ⟨⟨h1, h2⟩, h3, h4⟩ := lines_inj (col := find C) (col' := find C') (fun s c hc => hcol _ ((find_iff hC s c).1 hc)) (fun s c hc => hcol' _ ((find_iff hC' s c).1 hc)) hd hd'
    (quote hE hpE) (quote hE' hpE') _ _ (quoteN hE) (quoteN hE') heq2
  have hlen : G.info.length = G'.info.length := by rw [← hl, ← hl', h3]
  refine ⟨hlen, fun a e e' he he' => ?_, fun s c hs => ?_, fun hne => ?_⟩
  · have ha : a < ps.length := by rw [hl]; exact (List.getElem?_eq_some_iff.1 he).1
    have k := hps a e _ he (List.getElem?_eq_getElem ha)
    have k' := hps' a e' ps[a] he' (by rw [← h3]; exact List.getElem?_eq_getElem ha)
    rw [k.2.2.1, k'.2.2.1, k.2.2.2, k'.2.2.2]
    exact ⟨rfl, rfl, h4 a ha⟩
  · have hmm : ∀ s c, (s, c) ∈ C → s ≠ [] → (s, c) ∈ C' := by
      intro s c hm hs
      rw [← find_iff hC', ← h2 s (List.mem_filter.2 ⟨hmem _ hm, by simpa using hs⟩), find_iff hC]
      exact hm
    have hmm' : ∀ s c, (s, c) ∈ C' → s ≠ [] → (s, c) ∈ C := by
      intro s c hm hs
      rw [← find_iff hC, h2 s (by rw [h1]; exact List.mem_filter.2 ⟨hmem' _ hm, by simpa using hs⟩), find_iff hC']
      exact hm
    exact ⟨fun hm => hmm s c hm hs, fun hm => hmm' s c hm hs⟩
  · have nonempty : ∀ s ∈ gStack (gUnique E), s ≠ [] := by
      intro s hs
      obtain ⟨e, he, hs⟩ := mem_names.1 hs
      rcases hs with hs | hs
      · rw [← hs]; exact (hne e he).1
      · rw [← hs]; exact (hne e he).2
    have nonempty' : ∀ s ∈ gStack (gUnique E'), s ≠ [] := by
      intro s hs hse
      -- the edges of `E'` are edges of `E`
      obtain ⟨e, he, hs'⟩ := mem_names.1 hs
      obtain ⟨a, e', hae, hs2⟩ := mem_stack.1 hs
      obtain ⟨f, hf, _, _⟩ := hN'.ends a e'.1 e'.2 hae
      have ha : a < ps'.length := by rw [hl']; exact (List.getElem?_eq_some_iff.1 hf).1
      have k' := hps' a f _ hf (List.getElem?_eq_getElem ha)
      -- the names of the ends
      have hcur : ps'[a].1 = s ∨ ps'[a].2 = s := by
        have hr := number_range hs
        have hu : Uses G'.info a (gNumber (gStack (gUnique E')) s) := by
          obtain ⟨f', hf', m1, m2⟩ := hN'.ends a e'.1 e'.2 hae
          refine ⟨f', hf', ?_⟩
          rcases hs2 with hs2 | hs2 <;> rw [hs2] at m1 m2 <;> omega
        obtain ⟨f', hf', hu⟩ := hu
        rw [hf] at hf'
        cases hf'
        obtain ⟨x, x1, x2, _, x4⟩ := vertexName_num hv' hr.1 (by omega)
        have hx := number_inj x1 hs x4
        rw [hx] at x2
        rcases hu with hu | hu
        · rw [hu, x2] at k'
          exact .inl (by cases k'.2.2.1; rfl)
        · rw [hu, x2] at k'
          exact .inr (by cases k'.2.2.2; rfl)
      have hin : ps'[a] ∈ ps := by rw [h3]; exact List.getElem_mem _
      rcases hpE _ hin with hp | hp
      · rcases hcur with hc | hc
        · exact (hne _ hp).1 (by rw [hc]; exact hse)
        · exact (hne _ hp).2 (by rw [hc]; exact hse)
      · rcases hcur with hc | hc
        · exact (hne _ hp).2 (by rw [hc]; exact hse)
        · exact (hne _ hp).1 (by rw [hc]; exact hse)
    have filt : ∀ {l : List Name}, (∀ s ∈ l, s ≠ []) → l.filter (· ≠ []) = l := by
      intro l hl
      rw [List.filter_eq_self]
      intro s hs
      simpa using hl s hs
    rw [filt nonempty, filt nonempty'] at h1
    have hvv : G.vMax = G'.vMax := by rw [hv, hv', h1]
    refine ⟨hvv, fun v => ?_⟩
    unfold vertexName vertex2name
    rw [hvv, h1]

/-- C102: the decorator of the applications makes exactly the edges of the solution bold: edge `a` has the level `n - a`. -/
theorem C102_deco (n : Int) (levels : List Int) (a : Nat) : Deco (edgeDeco n levels a) ∧ (edgeDeco n levels a = "[style=bold]".toList ↔ n - a ∈ levels) := by
  refine ⟨edgeDeco_deco n levels a, ?_⟩
  unfold edgeDeco
  split
  · rename_i h; exact ⟨fun _ => h, fun _ => rfl⟩
  · rename_i h; exact ⟨fun hh => absurd hh (by decide), fun hh => absurd hh h⟩

/-- Finding: colours of vertices and of edges are in the same map, with the key `s,t` for an edge. If a vertex with the name `a,b` is coloured, then the edge between `a` and `b` is
written as coloured, although no function of the class gives colours to edges. -/
theorem C102_comma : ∃ (E C : List (Name × Name)) (G : Graph), gUpdate E C = .ok G ∧ C = [("a,b".toList, "red".toList)] ∧
    dump E [] C noDeco G = some "graph {\n  \"a\";\n  \"b\";\n  \"a,b\"[color=\"red\",style=filled];\n  \"a\"--\"b\"[color=\"red\",style=bold];\n  \"b\"--\"a,b\";\n}\n".toList := by
  have key : ∀ (x : Res Graph) (f : Graph → Option (List Char)) (t : List Char), (match x with | .ok G => f G | _ => none) = some t → ∃ G, x = .ok G ∧ f G = some t := by
    intro x f t h
    cases x with
    | ok G => exact ⟨G, rfl, h⟩
    | thrown => cases h
    | ub => cases h
  obtain ⟨G, h1, h2⟩ := key (gUpdate [("a".toList, "b".toList), ("b".toList, "a,b".toList)] [("a,b".toList, "red".toList)])
    (dump [("a".toList, "b".toList), ("b".toList, "a,b".toList)] [] [("a,b".toList, "red".toList)] noDeco)
    "graph {\n  \"a\";\n  \"b\";\n  \"a,b\"[color=\"red\",style=filled];\n  \"a\"--\"b\"[color=\"red\",style=bold];\n  \"b\"--\"a,b\";\n}\n".toList (by decide +kernel)
  exact ⟨_, _, G, h1, rfl, h2⟩

/-- Finding: a vertex with an empty name has no line of its own. -/
theorem C102_empty_name : ∃ (E : List (Name × Name)) (G : Graph), gUpdate E ([] : List (Name × Name)) = .ok G ∧ (∃ e ∈ E, e.1 = []) ∧
    dump E [] [] noDeco G = some "graph {\n  \"b\";\n  \"\"--\"b\";\n}\n".toList := by
  have key : ∀ (x : Res Graph) (f : Graph → Option (List Char)) (t : List Char), (match x with | .ok G => f G | _ => none) = some t → ∃ G, x = .ok G ∧ f G = some t := by
    intro x f t h
    cases x with
    | ok G => exact ⟨G, rfl, h⟩
    | thrown => cases h
    | ub => cases h
  obtain ⟨G, h1, h2⟩ := key (gUpdate [([], "b".toList)] ([] : List (Name × Name))) (dump [([], "b".toList)] [] [] noDeco)
    "graph {\n  \"b\";\n  \"\"--\"b\";\n}\n".toList (by decide +kernel)
  exact ⟨_, G, h1, ⟨_, List.mem_cons_self .., rfl⟩, h2⟩

/-! ## Examples -/

/-- a triangle with a tail, an edge that is given twice, and two coloured vertices -/
def textEdges : List (Name × Name) := [("x", "y"), ("y", "z"), ("y", "x"), ("z", "x"), ("w", "z")].map fun p => (p.1.toList, p.2.toList)

def textColors : List (Name × Name) := [("x".toList, "#ff0000".toList), ("w".toList, "#00ff00".toList)]

example : (match gUpdate textEdges textColors with
    | .ok G => if edgeName textEdges G 2 = .ok ("z".toList, "x".toList) ∧ vertexName textEdges G 2 = .ok "x".toList ∧ G.vMax = 4 then
        dump textEdges [] textColors (edgeDeco 4 [3, 1]) G else none
    | _ => none) = some ("graph {\n  \"y\";\n  \"x\"[color=\"#ff0000\",style=filled];\n  \"w\"[color=\"#00ff00\",style=filled];\n  \"z\";\n  \"y\"--\"x\"[style=dotted,color=gray];\n  \"y\"--\"z\"[style=bold];\n  \"x\"--\"z\"[style=dotted,color=gray];\n  \"w\"--\"z\"[style=bold];\n}\n".toList) ∧ getEdge textEdges ("z".toList, "y".toList) = .ok 1 ∧
    (textColors.Pairwise fun p q => p.1 ≠ q.1) ∧ (∀ e ∈ textEdges, '"' ∉ e.1 ∧ '"' ∉ e.2) ∧ (∀ e ∈ textColors, '"' ∉ e.2) ∧
    getEdge textEdges ("w".toList, "y".toList) = .thrown ∧ getVertex textEdges "v".toList = .thrown := by
  refine ⟨?_, ?_, ?_, ?_, ?_, ?_, ?_⟩ <;> decide +kernel

end TdZdd
