import Verif.AppTextProofs

/-! # Property C103: the graphs printed by `ddpaths` and `graphillion_example` -/

namespace TdZdd

open AppText

namespace DdPaths

variable {o : Opts} {g : List Char} {t : Option (List Char)}

/-- **C103.** `ddpaths -graph`: what is printed is the picture of the graph, undecorated. The colours are those of the groups that have been read; for paths without groups they are those of the first and the last vertex, and for cycles there are none.
If the graph is rejected, nothing is printed. -/
theorem _root_.TdZdd.C103_graph (o : Opts) (g : List Char) (t : Option (List Char)) :
    (∀ G, readGraph o g t = .ok G → ∃ E C text, load o g t = .ok (E, C, G) ∧ readAdjacencyList g = .ok E ∧ graphText o g t = .ok text ∧ Picture (E, C, G) (fun _ => []) text ∧
      ∃ C0, (t = none → C0 = []) ∧ (∀ t', t = some t' → readVertexGroups t' = .ok C0) ∧ (o.kind = .cycle → C = []) ∧
        (o.kind = .path → C0 = [] → C = [("1".toList, "#ff7777".toList), (decimal G.vMax, "#ff7777".toList)]) ∧
        (o.kind ≠ .cycle → (o.kind ≠ .path ∨ C0 ≠ []) → C = C0)) ∧
    (readGraph o g t = .thrown → graphText o g t = .thrown) := by
  have hr := readGraph_load o g t
  unfold graphText
  cases h : load o g t with
  | thrown => rw [h] at hr; exact ⟨fun G hG => (nomatch hr.symm.trans hG), fun _ => rfl⟩
  | ub => rw [h] at hr; exact ⟨fun G hG => (nomatch hr.symm.trans hG), fun hG => (nomatch hr.symm.trans hG)⟩
  | ok x =>
    rw [h] at hr
    replace hr : readGraph o g t = .ok x.2.2 := hr
    refine ⟨fun G hG => ?_, fun hG => by rw [hr] at hG; cases hG⟩
    rw [hr] at hG
    injection hG with hG
    obtain ⟨E, C, G'⟩ := x
    replace hG : G' = G := hG
    subst hG
    obtain ⟨h1, h2, C0, h3, h4⟩ := load_ok h
    obtain ⟨text, p1, p2⟩ := picture_of h2 GText.noDeco
    refine ⟨E, C, text, rfl, h1, ?_, p2, C0, h3, h4⟩
    show (match pictureOf (E, C, G') GText.noDeco with | some s => Res.ok s | none => .ub) = _
    rw [p1]

/-- **C103.** `ddpaths -all`: the pictures of the solutions one after the other, the edges of the solution bold and the other ones dotted. -/
theorem _root_.TdZdd.C103_all {x : Loaded} (h : load o g t = .ok x) {f : DdS} {Q : List Nat → Prop} (hp : Prints f x.2.2.info.length Q) :
    ∃ (L : List (List Nat)) (pic : List Nat → List Char), L.Nodup ∧ (∀ s, s ∈ L ↔ s.Pairwise (· < ·) ∧ (∀ b ∈ s, b < x.2.2.info.length) ∧ Q s) ∧ (∀ s, Picture x (mark s) (pic s)) ∧
      (∃ fuel steps, allText x f fuel steps = some (L.flatMap pic)) ∧ ∀ fuel steps text, allText x f fuel steps = some text → text = L.flatMap pic := by
  obtain ⟨pic, h1, h2⟩ := solution_pic (load_ok h).2.1
  obtain ⟨L, l1, l2, l3⟩ := hp
  obtain ⟨⟨fuel, steps, e⟩, hu⟩ := l3 _ (seqSched_ok f.dd)
  have key : ∀ fuel steps sets, f.dd.iterate fuel steps = some sets → sets.map (bold x.2.2.info.length) = L := by
    intro fuel' steps' sets hs
    cases hc : f.dd.zddCardinality (seqSched f.dd) with
    | none =>
      unfold output at e
      rw [hc] at e
      cases e
    | some c =>
      have := hu fuel' steps' (c, sets.map (bold x.2.2.info.length)) (by unfold output; rw [hc, hs]; rfl)
      exact congrArg Prod.snd this
  refine ⟨L, pic, l1, l2, h1, ⟨fuel, steps, ?_⟩, fun fuel steps text ht => ?_⟩
  · cases hs : f.dd.iterate fuel steps with
    | none =>
      unfold output at e
      rw [hs] at e
      cases hc : f.dd.zddCardinality (seqSched f.dd) with
      | none => rw [hc] at e; cases e
      | some c => rw [hc] at e; cases e
    | some sets =>
      unfold allText
      rw [hs, Option.bind_some, allLoop_eq h2, key _ _ _ hs]
  · unfold allText at ht
    cases hs : f.dd.iterate fuel steps with
    | none => rw [hs] at ht; cases ht
    | some sets =>
      rw [hs, Option.bind_some, allLoop_eq h2, key _ _ _ hs] at ht
      exact (Option.some.inj ht).symm

/-- **C103.** From the text that is printed for `-all` and the graph one can tell which sets of edges are solutions, whatever the names of the vertices and the colours are. -/
theorem _root_.TdZdd.C103_all_inj {x : Loaded} (h : load o g t = .ok x) {f f' : DdS} {Q Q' : List Nat → Prop} (hp : Prints f x.2.2.info.length Q) (hp' : Prints f' x.2.2.info.length Q')
    {fuel steps fuel' steps' : Nat} {text : List Char} (ht : allText x f fuel steps = some text) (ht' : allText x f' fuel' steps' = some text) :
    ∀ s : List Nat, s.Pairwise (· < ·) → (∀ b ∈ s, b < x.2.2.info.length) → (Q s ↔ Q' s) := by
  obtain ⟨L, pic, _, l2, l3, _, l5⟩ := C103_all h hp
  obtain ⟨L', pic', _, l2', l3', _, l5'⟩ := C103_all h hp'
  have e : L = L' := pictures_inj l3 l3' (fun s hs => ⟨((l2 s).1 hs).1, ((l2 s).1 hs).2.1⟩) (fun s hs => ⟨((l2' s).1 hs).1, ((l2' s).1 hs).2.1⟩) ((l5 _ _ _ ht).symm.trans (l5' _ _ _ ht'))
  intro s h1 h2
  constructor
  · intro hq
    exact ((l2' s).1 (e ▸ (l2 s).2 ⟨h1, h2, hq⟩)).2.2
  · intro hq
    exact ((l2 s).1 (e ▸ (l2' s).2 ⟨h1, h2, hq⟩)).2.2

/-- **C103.** `ddpaths -all` from the text of the files to the text that is printed, for paths and cycles -/
theorem _root_.TdZdd.C103_all_simple {G : CGraph} {e : Par} (h : readGraph o g t = .ok G) (hk : o.kind = .path ∨ o.kind = .cycle) (hham : o.hamilton = false) (hslow : o.slow = false)
    (hl : ∀ x ∈ G.info, x.v1 ≠ x.v2) (hs : G.vMax ≤ 32767) (hb : ∀ x, o.lb = some x → (G.info.length : Int) - x ≤ 2147483647) (he : e.Ok G.info.length) :
    ∃ (x : Loaded) (f : DdS) (L : List (List Nat)) (pic : List Nat → List Char), load o g t = .ok x ∧ x.2.2 = G ∧ diagram e o G = some f ∧ L.Nodup ∧
      (∀ s, s ∈ L ↔ s.Pairwise (· < ·) ∧ (∀ b ∈ s, b < G.info.length) ∧
        (if o.kind = .path then ∃ P, IsPaths G.toGraph (edgesAsg G.info.length s) P else ∃ l, IsCycle G.toGraph (edgesAsg G.info.length s) l) ∧ Bounds o s) ∧
      (∀ s, Picture x (mark s) (pic s)) ∧ (∃ fuel steps, allText x f fuel steps = some (L.flatMap pic)) ∧ ∀ fuel steps text, allText x f fuel steps = some text → text = L.flatMap pic := by
  obtain ⟨f, h1, _, h3⟩ := C83_simple h hk hham hl hs hb he
  have hr := readGraph_load o g t
  rw [h] at hr
  cases hx : load o g t with
  | thrown => rw [hx] at hr; cases hr
  | ub => rw [hx] at hr; cases hr
  | ok x =>
    rw [hx] at hr
    replace hr : Res.ok G = .ok x.2.2 := hr
    injection hr with hr
    subst hr
    obtain ⟨L, pic, l1, l2, l3⟩ := C103_all hx h3
    refine ⟨x, f, L, pic, rfl, rfl, h1, l1, fun s => (l2 s).trans ?_, l3⟩
    rcases hk with hk | hk <;> rw [hk] <;> dsimp only
    · rw [hslow, if_pos rfl]; rfl
    · rw [if_neg (by decide)]

end DdPaths

namespace Gx

variable {o : Opts} {g t : Option (List Char)}

/-- **C103.** `graphillion_example -graph`: the picture of the graph, undecorated. With `-st` the first and the last vertex have the first colour, the other colours are those that have been read. -/
theorem _root_.TdZdd.C103_gx_graph (o : Opts) (g t : Option (List Char)) :
    (∀ G, readGraph o g t = .ok G → ∃ E C text, load o g t = .ok (E, C, G) ∧ graphText o g t = .ok text ∧ Picture (E, C, G) (fun _ => []) text ∧
      ∃ C1 C0, edgesOf o g = .ok (E, C1) ∧ (t = none → C0 = C1) ∧ (∀ t', t = some t' → readVertexGroups t' = .ok C0) ∧ (o.st = false → C = C0) ∧
        (o.st = true → ∀ s c, (s, c) ∈ C ↔ if GText.vertexName E G.toGraph 1 = .ok s ∨ GText.vertexName E G.toGraph G.vMax = .ok s then c = getColor 0 else (s, c) ∈ C0)) ∧
    (readGraph o g t = .thrown → graphText o g t = .thrown) := by
  have hr := readGraph_load o g t
  unfold graphText
  cases h : load o g t with
  | thrown => rw [h] at hr; exact ⟨fun G hG => (nomatch hr.symm.trans hG), fun _ => rfl⟩
  | ub => rw [h] at hr; exact ⟨fun G hG => (nomatch hr.symm.trans hG), fun hG => (nomatch hr.symm.trans hG)⟩
  | ok x =>
    rw [h] at hr
    replace hr : readGraph o g t = .ok x.2.2 := hr
    refine ⟨fun G hG => ?_, fun hG => by rw [hr] at hG; cases hG⟩
    rw [hr] at hG
    injection hG with hG
    obtain ⟨E, C, G'⟩ := x
    replace hG : G' = G := hG
    subst hG
    obtain ⟨h2, ⟨E', C1⟩, C0, h3, h4, h5, h5', h6, h7, h8⟩ := load_ok h
    replace h4 : E = E' := h4
    subst h4
    obtain ⟨text, p1, p2⟩ := picture_of h2 GText.noDeco
    refine ⟨E, C, text, rfl, ?_, p2, C1, C0, h3, h5, h5', fun hst => ?_, fun hst s c => ?_⟩
    · show (match pictureOf (E, C, G') GText.noDeco with | some s => Res.ok s | none => .ub) = _
      rw [p1]
    · replace h8 : C = if o.st = true then colorEnds E C0 G'.vMax else C0 := h8
      rw [h8, if_neg (by rw [hst]; decide)]
    · replace h8 : C = if o.st = true then colorEnds E C0 G'.vMax else C0 := h8
      rw [if_pos hst] at h8
      obtain ⟨hK, C2, G2, hC2, hu2, v2, _⟩ := h2
      have hv : G'.toGraph.vMax = (gStack (gUnique E)).length := v2.trans (GText.update_ok hC2 hu2).2.1
      have hn : ∀ v, (GText.vertexName E G'.toGraph v = .ok s) ↔ s = vertexName E v := fun v => by
        rw [vertexName_text hv]
        exact ⟨fun h => by injection h with h; exact h.symm, fun h => by rw [h]⟩
      rw [h8]
      unfold colorEnds
      rw [mem_setName]
      by_cases e2 : s = vertexName E G'.vMax
      · rw [if_pos e2, if_pos (.inr ((hn _).2 e2))]
      · rw [if_neg e2, mem_setName]
        by_cases e1 : s = vertexName E 1
        · rw [if_pos e1, if_pos (.inl ((hn _).2 e1))]
        · rw [if_neg e1, if_neg fun h => h.elim (fun h => e1 ((hn _).1 h)) fun h => e2 ((hn _).1 h)]

/-- **C103.** `graphillion_example -solutions k`: the pictures of the first `k` solutions one after the other, or of all of them if `k` is not positive. -/
theorem _root_.TdZdd.C103_solutions {x : Loaded} (h : load o g t = .ok x) {D : Dd 2} {Q : List Nat → Prop} (hp : Prints D x.2.2.info.length Q) :
    ∃ (L : List (List Nat)) (pic : List Nat → List Char), L.Nodup ∧ (∀ s, s ∈ L ↔ s.Pairwise (· < ·) ∧ (∀ b ∈ s, b < x.2.2.info.length) ∧ Q s) ∧ (∀ s, Picture x (mark s) (pic s)) ∧
      ∀ k : Int, (1 ≤ k ∨ -2147483648 + (L.length : Int) ≤ k) →
        (∃ fuel steps, solText x D k fuel steps = some ((if 1 ≤ k then L.take k.toNat else L).flatMap pic)) ∧
        ∀ fuel steps text, solText x D k fuel steps = some text → text = (if 1 ≤ k then L.take k.toNat else L).flatMap pic := by
  obtain ⟨pic, h1, h2⟩ := solution_pic (load_ok h).1
  obtain ⟨L, l1, l2, l3⟩ := hp
  refine ⟨L, pic, l1, l2, h1, fun k hk => ?_⟩
  obtain ⟨⟨fuel, steps, e⟩, hu⟩ := l3 k hk _ (seqSched_ok D)
  cases hc : D.zddCardinality (seqSched D) with
  | none =>
    unfold output at e
    rw [hc] at e
    cases e
  | some c =>
    have key : ∀ fuel steps sets l, D.iterate fuel steps = some sets → show' x.2.2.info.length k sets = some l → l = if 1 ≤ k then L.take k.toNat else L := by
      intro fuel' steps' sets l hs hl
      have := hu fuel' steps' (c, l) (by unfold output; rw [hc, hs, Option.bind_some, Option.bind_some, hl]; rfl)
      exact congrArg Prod.snd this
    refine ⟨⟨fuel, steps, ?_⟩, fun fuel steps text ht => ?_⟩
    · unfold output at e
      rw [hc, Option.bind_some] at e
      cases hs : D.iterate fuel steps with
      | none => rw [hs] at e; cases e
      | some sets =>
        rw [hs, Option.bind_some] at e
        cases hl : show' x.2.2.info.length k sets with
        | none => rw [hl] at e; cases e
        | some l =>
          unfold solText
          rw [hs, Option.bind_some, solLoop_eq h2, hl, ← key _ _ _ _ hs hl]
          rfl
    · unfold solText at ht
      cases hs : D.iterate fuel steps with
      | none => rw [hs] at ht; cases ht
      | some sets =>
        rw [hs, Option.bind_some, solLoop_eq h2] at ht
        cases hl : show' x.2.2.info.length k sets with
        | none => rw [hl] at ht; cases ht
        | some l =>
          rw [hl] at ht
          rw [← key _ _ _ _ hs hl]
          exact (Option.some.inj ht).symm

/-- **C103.** `graphillion_example -solutions` from the texts of the files to the text that is printed, without `-import` -/
theorem _root_.TdZdd.C103_solutions_found {G : CGraph} (h : readGraph o g t = .ok G) (hL : Limits o G) :
    ∃ (x : Loaded) (D : Dd 2) (L : List (List Nat)) (pic : List Nat → List Char), load o g t = .ok x ∧ x.2.2 = G ∧ diagram o G none = some D ∧ L.Nodup ∧
      (∀ s, s ∈ L ↔ s.Pairwise (· < ·) ∧ (∀ b ∈ s, b < G.info.length) ∧ Found o G.toGraph s) ∧ (∀ s, Picture x (mark s) (pic s)) ∧
      ∀ k : Int, (1 ≤ k ∨ -2147483648 + (L.length : Int) ≤ k) →
        (∃ fuel steps, solText x D k fuel steps = some ((if 1 ≤ k then L.take k.toNat else L).flatMap pic)) ∧
        ∀ fuel steps text, solText x D k fuel steps = some text → text = (if 1 ≤ k then L.take k.toNat else L).flatMap pic := by
  obtain ⟨D, h1, h3⟩ := C84_family h hL
  have hr := readGraph_load o g t
  rw [h] at hr
  cases hx : load o g t with
  | thrown => rw [hx] at hr; cases hr
  | ub => rw [hx] at hr; cases hr
  | ok x =>
    rw [hx] at hr
    replace hr : Res.ok G = .ok x.2.2 := hr
    injection hr with hr
    subst hr
    obtain ⟨L, pic, l1, l2, l3⟩ := C103_solutions hx h3
    exact ⟨x, D, L, pic, rfl, rfl, h1, l1, l2, l3⟩

/-- **C103.** From the text that is printed for all solutions and the graph one can tell which sets of edges are solutions, if there are at most 2^31 of them. -/
theorem _root_.TdZdd.C103_solutions_inj {x : Loaded} (h : load o g t = .ok x) {D D' : Dd 2} {Q Q' : List Nat → Prop} (hp : Prints D x.2.2.info.length Q) (hp' : Prints D' x.2.2.info.length Q')
    (hc : ∀ L : List (List Nat), L.Nodup → (∀ s ∈ L, s.Pairwise (· < ·) ∧ (∀ b ∈ s, b < x.2.2.info.length) ∧ Q s) → L.length ≤ 2147483648)
    (hc' : ∀ L : List (List Nat), L.Nodup → (∀ s ∈ L, s.Pairwise (· < ·) ∧ (∀ b ∈ s, b < x.2.2.info.length) ∧ Q' s) → L.length ≤ 2147483648)
    {fuel steps fuel' steps' : Nat} {text : List Char} (ht : solText x D 0 fuel steps = some text) (ht' : solText x D' 0 fuel' steps' = some text) :
    ∀ s : List Nat, s.Pairwise (· < ·) → (∀ b ∈ s, b < x.2.2.info.length) → (Q s ↔ Q' s) := by
  obtain ⟨L, pic, l1, l2, l3, l4⟩ := C103_solutions h hp
  obtain ⟨L', pic', l1', l2', l3', l4'⟩ := C103_solutions h hp'
  have g1 := hc L l1 fun s hs => (l2 s).1 hs
  have g2 := hc' L' l1' fun s hs => (l2' s).1 hs
  have e1 := (l4 0 (.inr (by omega))).2 _ _ _ ht
  have e2 := (l4' 0 (.inr (by omega))).2 _ _ _ ht'
  rw [if_neg (by decide)] at e1 e2
  have e : L = L' := pictures_inj l3 l3' (fun s hs => ⟨((l2 s).1 hs).1, ((l2 s).1 hs).2.1⟩) (fun s hs => ⟨((l2' s).1 hs).1, ((l2' s).1 hs).2.1⟩) (e1.symm.trans e2)
  intro s h1 h2
  constructor
  · intro hq
    exact ((l2' s).1 (e ▸ (l2 s).2 ⟨h1, h2, hq⟩)).2.2
  · intro hq
    exact ((l2 s).1 (e ▸ (l2' s).2 ⟨h1, h2, hq⟩)).2.2

end Gx

/-! ## Examples -/

section

example : DdPaths.graphText {} "2\n3\n".toList none = .ok "graph {\n  \"1\"[color=\"#ff7777\",style=filled];\n  \"2\";\n  \"3\"[color=\"#ff7777\",style=filled];\n  \"1\"--\"2\";\n  \"2\"--\"3\";\n}\n".toList := by
  decide +kernel

-- a graph without edges is rejected
example : DdPaths.graphText { kind := .cycle } [] none = .thrown := by decide +kernel

/-- the text for `-all` -/
def AppText.allOf (o : DdPaths.Opts) (g : String) (t : Option String) : Option (List Char) :=
  match DdPaths.load o g.toList (t.map String.toList) with
  | .ok x => (DdPaths.diagram DdPaths.samplePar o x.2.2).bind fun f => DdPaths.allText x f 40 40
  | _ => none

/-- the text for `-solutions` -/
def AppText.solutionsOf (o : Gx.Opts) (g t : Option String) (k : Int) : Option (List Char) :=
  match Gx.load o (g.map String.toList) (t.map String.toList) with
  | .ok x => (Gx.diagram o x.2.2 none).bind fun D => Gx.solText x D k 40 40
  | _ => none

-- cycles: the group of the file is forgotten
example : AppText.allOf { kind := .cycle } "2 3\n3 4\n4\n" (some "1 2\n") = some ("graph {\n  \"1\";\n  \"2\";\n  \"3\";\n  \"4\";\n  \"1\"--\"2\"[style=dotted,color=gray];\n  \"1\"--\"3\"[style=dotted,color=gray];\n  \"2\"--\"3\"[style=bold];\n  \"2\"--\"4\"[style=bold];\n  \"3\"--\"4\"[style=bold];\n}\n" ++
    "graph {\n  \"1\";\n  \"2\";\n  \"3\";\n  \"4\";\n  \"1\"--\"2\"[style=bold];\n  \"1\"--\"3\"[style=bold];\n  \"2\"--\"3\"[style=dotted,color=gray];\n  \"2\"--\"4\"[style=bold];\n  \"3\"--\"4\"[style=bold];\n}\n" ++
    "graph {\n  \"1\";\n  \"2\";\n  \"3\";\n  \"4\";\n  \"1\"--\"2\"[style=bold];\n  \"1\"--\"3\"[style=bold];\n  \"2\"--\"3\"[style=bold];\n  \"2\"--\"4\"[style=dotted,color=gray];\n  \"3\"--\"4\"[style=dotted,color=gray];\n}\n").toList := by
  decide +kernel

-- the first path from 1 to 3
example : AppText.solutionsOf Gx.stPath (some "2 3\n3\n") none 1 = some "graph {\n  \"1\"[color=\"#f0a080\",style=filled];\n  \"2\";\n  \"3\"[color=\"#f0a080\",style=filled];\n  \"1\"--\"2\"[style=dotted,color=gray];\n  \"1\"--\"3\"[style=bold];\n  \"2\"--\"3\"[style=dotted,color=gray];\n}\n".toList := by
  decide +kernel

-- the hypotheses of `C103_all_simple`, `C103_all` and `C103_all_inj`: the paths with and without `-dc`
open DdPaths in
example : ∃ x f f' text, load {} kite.toList none = .ok x ∧ diagram samplePar {} x.2.2 = some f ∧ diagram samplePar { dc := true } x.2.2 = some f' ∧
    (∃ Q, Prints f x.2.2.info.length Q) ∧ (∃ Q, Prints f' x.2.2.info.length Q) ∧ allText x f 40 40 = some text ∧ allText x f' 40 40 = some text := by
  have hr : ∀ o : Opts, (match readGraph o kite.toList none with | .ok _ => true | _ => false) = true → readGraph o kite.toList none = .ok (theGraph o kite none) := fun o h => theGraph_eq (t := none) h
  have h0 := hr {} (by decide +kernel)
  have h1 : readGraph { dc := true } kite.toList none = .ok (theGraph {} kite none) := hr { dc := true } (by decide +kernel)
  have hn : (theGraph {} kite none).info.length = 5 := by decide +kernel
  have hl : ∀ x ∈ (theGraph {} kite none).info, x.v1 ≠ x.v2 := by decide +kernel
  obtain ⟨x, f, _, _, e1, e2, e3, _⟩ := C103_all_simple (e := samplePar) h0 (.inl rfl) rfl rfl hl (by decide +kernel) (fun x hx => nomatch hx) (hn ▸ samplePar_ok (by decide))
  obtain ⟨f0, a1, _, a3⟩ := C83_simple (e := samplePar) h0 (.inl rfl) rfl hl (by decide +kernel) (fun x hx => nomatch hx) (hn ▸ samplePar_ok (by decide))
  obtain ⟨f', b1, _, b3⟩ := C83_simple (e := samplePar) h1 (.inl rfl) rfl hl (by decide +kernel) (fun x hx => nomatch hx) (hn ▸ samplePar_ok (by decide))
  have hf : f = f0 := Option.some.inj (e3.symm.trans a1)
  subst hf
  rw [← e2] at b1 b3 a3 e3
  have key : (match load {} kite.toList none with
      | .ok x => (diagram samplePar {} x.2.2).bind fun f => (diagram samplePar { dc := true } x.2.2).bind fun f' => (allText x f 40 40).bind fun s => (allText x f' 40 40).map fun s' => decide (s = s')
      | _ => none) = some true := by decide +kernel
  rw [e1] at key
  dsimp only at key
  rw [e3, b1, Option.bind_some, Option.bind_some] at key
  cases c1 : allText x f 40 40 with
  | none => rw [c1] at key; cases key
  | some s =>
    cases c2 : allText x f' 40 40 with
    | none => rw [c1, c2] at key; cases key
    | some s' =>
      rw [c1, c2] at key
      have : s = s' := of_decide_eq_true (Option.some.inj key)
      exact ⟨x, f, f', s, e1, e3, b1, ⟨_, a3⟩, ⟨_, b3⟩, c1, this ▸ c2⟩

-- the hypotheses of `C103_solutions_found`: the paths from 1 to 4
open Gx in
example : ∃ x D, load stPath (some kite.toList) none = .ok x ∧ diagram stPath x.2.2 none = some D ∧ Prints D x.2.2.info.length (Found stPath x.2.2.toGraph) := by
  have hr : readGraph stPath (some kite.toList) none = .ok (theGraph stPath (some kite) none) := theGraph_eq (g := some kite) (t := none) (by decide +kernel)
  have hn : (theGraph stPath (some kite) none).info.length = 5 := by decide +kernel
  have hL : Limits stPath (theGraph stPath (some kite) none) := ⟨by decide +kernel, by decide +kernel, by omega, fun _ h => (nomatch h), fun _ h => (nomatch h)⟩
  obtain ⟨x, D, _, _, h1, h2, h3, _⟩ := C103_solutions_found hr hL
  obtain ⟨D', h4, h5⟩ := C84_family hr hL
  have hD : D = D' := Option.some.inj (h3.symm.trans h4)
  subst hD
  exact ⟨x, D, h1, h2 ▸ h3, h2 ▸ h5⟩

end

end TdZdd
