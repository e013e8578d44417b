import Verif.FbMeans
import Verif.Props.PathZdd

/-!
# Properties of `FrontierBasedSearch` (C57)

Edge `b` of a graph with `n` edges belongs to the level `n - b`; an assignment takes it if its value there is 1 (`Taken`). Vertices are given by their numbers 1, …, `vMax`;
how they are related to the names is the subject of C41. The colour of a vertex is 0 if it has none.
-/

namespace TdZdd

open Gr

variable {V K : Type} [DecidableEq V] [DecidableEq K]

/-- there is a walk from `u` along edges in `P` -/
inductive Linked (G : Graph) (P : Nat → Prop) (u : Nat) : Nat → Prop
  | here : Linked G P u u
  | step {v w b : Nat} : Linked G P u v → P b → EdgeJoins G b v w → Linked G P u w

/-- vertex `u` has an edge in `P` -/
def Touched (G : Graph) (P : Nat → Prop) (u : Nat) : Prop := ∃ b v, P b ∧ EdgeJoins G b u v

/-- no vertex that can be reached from `u` is coloured -/
def NoColor (G : Graph) (P : Nat → Prop) (u : Nat) : Prop := ∀ v, Linked G P u v → G.color v = 0

/-- `reps` has one vertex of each component that has edges, but no coloured vertices -/
structure UncoloredComps (G : Graph) (P : Nat → Prop) (reps : List Nat) : Prop where
  apart : reps.Pairwise fun u v => ¬ Linked G P u v
  each : ∀ u ∈ reps, Touched G P u ∧ NoColor G P u
  all : ∀ u, Touched G P u → NoColor G P u → ∃ r ∈ reps, Linked G P r u

/-- what `FrontierBasedSearch` looks for -/
structure WantedOk (G : Graph) (numUEC : Int) (noLoop : Bool) (a : Asg 2) : Prop where
  /-- coloured vertices are connected if and only if they have the same colour -/
  colors : ∀ u v, G.color u ≠ 0 → G.color v ≠ 0 → (Linked G (Taken G a) u v ↔ G.color u = G.color v)
  /-- the ends of an edge are not connected by other edges -/
  forest : noLoop = true → ∀ b u v, Taken G a b → EdgeJoins G b u v → ¬ Linked G (fun c => Taken G a c ∧ c ≠ b) u v
  /-- the number of components with edges, but without coloured vertices -/
  count : 0 ≤ numUEC → ∃ reps, UncoloredComps G (Taken G a) reps ∧ (reps.length : Int) = numUEC

namespace Fb

theorem linked_iff {G : Graph} {P : Nat → Prop} {A : Nat → Nat → Prop} (hA : ∀ x y, A x y ↔ ∃ b, P b ∧ EdgeJoins G b x y) {u v : Nat} : Linked G P u v ↔ Conn A u v := by
  constructor
  · intro h
    induction h with
    | here => exact .refl
    | step _ hb hj ih => exact ih.tail ((hA _ _).2 ⟨_, hb, hj⟩)
  · intro h
    induction h with
    | refl => exact .here
    | tail _ hyz ih =>
      obtain ⟨b, hb, hj⟩ := (hA _ _).1 hyz
      exact .step ih hb hj

theorem valid_iff {G : Graph} {numUEC : Int} {noLoop : Bool} {a : Asg 2} : Valid G noLoop numUEC a ↔ WantedOk G numUEC noLoop a := by
  have hl : ∀ {u v : Nat}, Linked G (Taken G a) u v ↔ Conn (Sp.adjA G a G.info.length) u v := linked_iff fun x y => Sp.taken_iff
  have hx : ∀ {b u v : Nat}, Linked G (fun c => Taken G a c ∧ c ≠ b) u v ↔ Conn (adjX G a b G.info.length) u v := fun {b u v} =>
    linked_iff fun x y => ⟨fun ⟨c, h1, h2, h3, h4⟩ => ⟨c, ⟨⟨h1, h3⟩, h2⟩, h4⟩, fun ⟨c, ⟨⟨h1, h3⟩, h2⟩, h4⟩ => ⟨c, h1, h2, h3, h4⟩⟩
  have ht : ∀ {u : Nat}, Touched G (Taken G a) u ↔ ∃ y, Sp.adjA G a G.info.length u y :=
    ⟨fun ⟨b, v, h1, h2⟩ => ⟨v, Sp.taken_iff.2 ⟨b, h1, h2⟩⟩, fun ⟨y, h⟩ => by obtain ⟨b, h1, h2⟩ := Sp.taken_iff.1 h; exact ⟨b, y, h1, h2⟩⟩
  have hn : ∀ {u : Nat}, NoColor G (Taken G a) u ↔ Plain G (Sp.adjA G a G.info.length) u :=
    ⟨fun h w hw => h w (hl.2 hw), fun h w hw => h w (hl.1 hw)⟩
  have hu : ∀ reps, UncoloredComps G (Taken G a) reps ↔ (reps.Pairwise fun r r' => ¬ Conn (Sp.adjA G a G.info.length) r r') ∧
      (∀ r ∈ reps, (∃ y, Sp.adjA G a G.info.length r y) ∧ Plain G (Sp.adjA G a G.info.length) r) ∧
      ∀ u, (∃ y, Sp.adjA G a G.info.length u y) → Plain G (Sp.adjA G a G.info.length) u → ∃ r ∈ reps, Conn (Sp.adjA G a G.info.length) r u := by
    intro reps
    constructor
    · rintro ⟨h1, h2, h3⟩
      refine ⟨h1.imp fun h => ?_, fun r hr => ⟨ht.1 (h2 r hr).1, hn.1 (h2 r hr).2⟩, fun u g1 g2 => ?_⟩
      · rw [hl] at h; exact h
      · obtain ⟨r, hr, h⟩ := h3 u (ht.2 g1) (hn.2 g2)
        exact ⟨r, hr, hl.1 h⟩
    · rintro ⟨h1, h2, h3⟩
      refine ⟨h1.imp fun h => ?_, fun r hr => ⟨ht.2 (h2 r hr).1, hn.2 (h2 r hr).2⟩, fun u g1 g2 => ?_⟩
      · rw [hl]; exact h
      · obtain ⟨r, hr, h⟩ := h3 u (ht.1 g1) (hn.1 g2)
        exact ⟨r, hr, hl.2 h⟩
  constructor
  · intro h
    refine ⟨fun u v h1 h2 => by rw [hl]; exact h.color u v h1 h2, fun hnl b u v hb hj => ?_, fun h0 => ?_⟩
    · rw [hx]
      obtain ⟨e, he, ⟨rfl, rfl⟩ | ⟨rfl, rfl⟩⟩ := hj
      · exact h.tree hnl b e hb.1 hb.2 he
      · exact fun hc => h.tree hnl b e hb.1 hb.2 he (hc.symm adjX_sym)
    · rcases h.count with h | ⟨reps, h1, h2⟩
      · omega
      · exact ⟨reps, (hu reps).2 h2, h1⟩
  · intro h
    refine ⟨fun u v h1 h2 => by rw [← hl]; exact h.colors u v h1 h2, fun hnl b e hb hab he => ?_, ?_⟩
    · rw [← hx]
      exact h.forest hnl b _ _ ⟨hb, hab⟩ ⟨e, he, .inl ⟨rfl, rfl⟩⟩
    · rcases (show numUEC < 0 ∨ 0 ≤ numUEC by omega) with h0 | h0
      · exact .inl h0
      · obtain ⟨reps, h1, h2⟩ := h.count h0
        exact .inr ⟨reps, h2, (hu reps).1 h1⟩

end Fb

/-- **C57.** `FrontierBasedSearch` contains exactly the edge sets that connect all vertices of the same colour and none of different colours, that are forests if `noLoop` is set, and that have
`numUEC` components with edges, but without coloured vertices, if this is not negative; with and without lookahead. Hypotheses: the graph has an edge, no loops, and at most 32766 vertices;
`numUEC` fits into `int16_t`. -/
theorem C57_search {E : List (V × V)} {C : List (V × K)} (hC : C.Pairwise fun p q => p.1 ≠ q.1) {G : Graph} (h : gUpdate E C = .ok G) (hE : E ≠ []) (hloop : ∀ e ∈ E, e.1 ≠ e.2) (hsmall : G.vMax ≤ 32766)
    {numUEC : Int} (h1 : -32768 ≤ numUEC) (h2 : numUEC ≤ 32767) (noLoop lookahead : Bool) (a : Asg 2) :
    ZddMem (frontierSearch G numUEC noLoop lookahead) G.info.length a ↔ WantedOk G numUEC noLoop a := by
  obtain ⟨hH, hn⟩ := path_hyp hC h hE hloop (by omega)
  rw [Fb.means hH hsmall hn h1 h2, Fb.valid_iff]

/-- **C57.** The specification is lawful: no index is out of bounds, no assertion fails, equal states are interchangeable. Here any `numUEC` is possible. -/
theorem C57_lawful {E : List (V × V)} {C : List (V × K)} (hC : C.Pairwise fun p q => p.1 ≠ q.1) {G : Graph} (h : gUpdate E C = .ok G) (hE : E ≠ []) (hloop : ∀ e ∈ E, e.1 ≠ e.2) (hsmall : G.vMax ≤ 32766)
    (numUEC : Int) (noLoop lookahead : Bool) : LawfulC (frontierSearch G numUEC noLoop lookahead) := by
  obtain ⟨hH, hn⟩ := path_hyp hC h hE hloop (by omega)
  exact lawfulC_of_eq (Fb.desc hH hsmall hn) fun n s t => by simp [frontierSearch]

/-- **C57.** The spanning trees of a graph: if all vertices have the same colour, the members for `noLoop` are the edge sets that connect any two vertices and lose this by removing any edge. -/
theorem C57_spanning_tree {E : List (V × V)} {C : List (V × K)} (hC : C.Pairwise fun p q => p.1 ≠ q.1) {G : Graph} (h : gUpdate E C = .ok G) (hE : E ≠ []) (hloop : ∀ e ∈ E, e.1 ≠ e.2) (hsmall : G.vMax ≤ 32766)
    (hone : ∀ u v, 1 ≤ u → u ≤ G.vMax → 1 ≤ v → v ≤ G.vMax → G.color u = G.color v ∧ G.color u ≠ 0) (lookahead : Bool) (a : Asg 2) :
    ZddMem (frontierSearch G (-1) true lookahead) G.info.length a ↔
      (∀ u v, 1 ≤ u → u ≤ G.vMax → 1 ≤ v → v ≤ G.vMax → Linked G (Taken G a) u v) ∧
      ∀ b, Taken G a b → ¬ ∀ u v, 1 ≤ u → u ≤ G.vMax → 1 ≤ v → v ≤ G.vMax → Linked G (fun c => Taken G a c ∧ c ≠ b) u v := by
  obtain ⟨hH, hn⟩ := path_hyp hC h hE hloop (by omega)
  have hin : ∀ u, G.color u ≠ 0 → 1 ≤ u ∧ u ≤ G.vMax := by
    intro u hu
    apply Classical.byContradiction
    intro hn
    exact hu (hH.ok.color_out u (by omega))
  rw [C57_search hC h hE hloop hsmall (by omega) (by omega)]
  constructor
  · intro hs
    refine ⟨fun u v u1 u2 v1 v2 => ?_, fun b hb hall => ?_⟩
    · have := hone u v u1 u2 v1 v2
      exact (hs.colors u v this.2 (this.1 ▸ this.2)).2 this.1
    · have he : G.info[b]? = some (G.info[b]'hb.1) := List.getElem?_eq_getElem hb.1
      have hr := hH.ok.range b _ he
      exact hs.forest rfl b _ _ hb ⟨_, he, .inl ⟨rfl, rfl⟩⟩ (hall _ _ (by omega) (by omega) (by omega) (by omega))
  · rintro ⟨h1, h2⟩
    refine ⟨fun u v hu hv => ⟨fun _ => ?_, fun _ => ?_⟩, fun _ b u v hb hj hl => h2 b hb fun x y x1 x2 y1 y2 => ?_, fun h0 => by omega⟩
    · exact (hone u v (hin u hu).1 (hin u hu).2 (hin v hv).1 (hin v hv).2).1
    · exact h1 u v (hin u hu).1 (hin u hu).2 (hin v hv).1 (hin v hv).2
    · -- edge `b` can be replaced by other edges
      have hsym : ∀ {x y : Nat}, Linked G (fun c => Taken G a c ∧ c ≠ b) x y → Linked G (fun c => Taken G a c ∧ c ≠ b) y x := by
        intro x y hxy
        have hA : ∀ x y, (∃ c, (Taken G a c ∧ c ≠ b) ∧ EdgeJoins G c x y) ↔ ∃ c, (Taken G a c ∧ c ≠ b) ∧ EdgeJoins G c x y := fun _ _ => Iff.rfl
        rw [Fb.linked_iff hA] at hxy ⊢
        refine hxy.symm fun x y ⟨c, hc, e, he, hj⟩ => ⟨c, hc, e, he, hj.symm⟩
      have htr : ∀ {x y z : Nat}, Linked G (fun c => Taken G a c ∧ c ≠ b) x y → Linked G (fun c => Taken G a c ∧ c ≠ b) y z → Linked G (fun c => Taken G a c ∧ c ≠ b) x z := by
        intro x y z h1 h2
        induction h2 with
        | here => exact h1
        | step _ hb hj ih => exact .step ih hb hj
      have hxy := h1 x y x1 x2 y1 y2
      clear y1 y2
      induction hxy with
      | here => exact .here
      | step _ hc hj' ih =>
        rename_i p q c _
        by_cases hcb : c = b
        · subst hcb
          obtain ⟨e, he, hej⟩ := hj
          obtain ⟨e', he', hej'⟩ := hj'
          rw [he] at he'
          injection he' with he'
          subst he'
          have : (p = u ∧ q = v) ∨ (p = v ∧ q = u) := by omega
          rcases this with ⟨rfl, rfl⟩ | ⟨rfl, rfl⟩
          · exact htr ih hl
          · exact htr ih (hsym hl)
        · exact .step ih ⟨hc, hcb⟩ hj'

/-- The number of components is kept in an `int16_t`: `numUEC` counts modulo 65536. -/
theorem C57_wrap (G : Graph) (numUEC : Int) (noLoop lookahead : Bool) : frontierSearch G (numUEC + 65536) noLoop lookahead = frontierSearch G numUEC noLoop lookahead := by
  unfold frontierSearch fbRoot
  have : wrap16 (numUEC + 65536) = wrap16 numUEC := by unfold wrap16; omega
  rw [this]

/-- Why 32766 vertices: with 32767 vertices, the offset from the first vertex to the last one of its colour is the mark of uncoloured vertices, and vertex 1 counts as uncoloured. -/
theorem C57_limit {G : Graph} (hv : G.vMax = 32767) (h0 : G.color 1 ≠ 0) (h1 : G.color 32767 = G.color 1) : (fbInit G 1).hoc = fbUnc := by
  unfold fbInit
  rw [if_neg (by omega), if_pos (by omega)]
  dsimp only
  rw [if_pos (by omega), hv]
  unfold fbRootOf
  rw [if_pos h1]
  decide

/-! ### Examples and counterexamples -/

-- the hypotheses of `C57_search`
example : gUpdate grid6 grid6c = .ok (colorGraph grid6 grid6c) ∧ (grid6c.Pairwise fun p q => p.1 ≠ q.1) ∧ grid6 ≠ [] ∧ (∀ e ∈ grid6, e.1 ≠ e.2) ∧ (colorGraph grid6 grid6c).vMax ≤ 32766 :=
  ⟨colorGraph_eq (by decide +kernel), by decide +kernel, by decide +kernel, by decide +kernel, by decide +kernel⟩

theorem C57_grid6 (numUEC : Int) (noLoop lookahead : Bool) : Desc (frontierSearch (colorGraph grid6 grid6c) numUEC noLoop lookahead) :=
  (C57_lawful (by decide +kernel) (colorGraph_eq (by decide +kernel)) (by decide +kernel) (by decide +kernel) (by decide +kernel) _ _ _).toDesc

-- `a b c` and `d e f` are connected; one of the paths alone is not a member, nor are both with an edge between them
example : ZddMem (frontierSearch (colorGraph grid6 grid6c) (-1) false true) 7 (edgeSet 7 [0, 2, 4, 6]) ∧ ¬ ZddMem (frontierSearch (colorGraph grid6 grid6c) (-1) false true) 7 (edgeSet 7 [0, 2]) ∧
    ¬ ZddMem (frontierSearch (colorGraph grid6 grid6c) (-1) false true) 7 (edgeSet 7 [0, 2, 3, 4, 6]) := by
  rw [← zddRun_mem (C57_grid6 _ _ _) (by decide +kernel), ← zddRun_mem (C57_grid6 _ _ _) (by decide +kernel), ← zddRun_mem (C57_grid6 _ _ _) (by decide +kernel)]
  decide +kernel

theorem C57_triTail (numUEC : Int) (noLoop lookahead : Bool) : Desc (frontierSearch (plainGraph triTail) numUEC noLoop lookahead) :=
  (C57_lawful List.Pairwise.nil (plainGraph_eq (by decide +kernel)) (by decide +kernel) (by decide +kernel) (by decide +kernel) _ _ _).toDesc

-- without colours: `a b` and `c d` are two components; the triangle is one component, but not a forest
example : ZddMem (frontierSearch (plainGraph triTail) 2 true true) 4 (edgeSet 4 [0, 3]) ∧ ¬ ZddMem (frontierSearch (plainGraph triTail) 1 true true) 4 (edgeSet 4 [0, 3]) ∧
    ZddMem (frontierSearch (plainGraph triTail) 1 false true) 4 (edgeSet 4 [0, 1, 2]) ∧ ¬ ZddMem (frontierSearch (plainGraph triTail) 1 true true) 4 (edgeSet 4 [0, 1, 2]) ∧
    ZddMem (frontierSearch (plainGraph triTail) 0 true false) 4 (edgeSet 4 []) := by
  rw [← zddRun_mem (C57_triTail _ _ _) (by decide +kernel), ← zddRun_mem (C57_triTail _ _ _) (by decide +kernel), ← zddRun_mem (C57_triTail _ _ _) (by decide +kernel), ← zddRun_mem (C57_triTail _ _ _) (by decide +kernel),
    ← zddRun_mem (C57_triTail _ _ _) (by decide +kernel)]
  decide +kernel

/-- all vertices of `triTail` with one colour -/
def triColor : List (String × Nat) := [("a", 1), ("b", 1), ("c", 1), ("d", 1)]

-- the hypotheses of `C57_spanning_tree`, and a spanning tree
example : gUpdate triTail triColor = .ok (colorGraph triTail triColor) ∧
    (∀ u v, 1 ≤ u → u ≤ (colorGraph triTail triColor).vMax → 1 ≤ v → v ≤ (colorGraph triTail triColor).vMax → (colorGraph triTail triColor).color u = (colorGraph triTail triColor).color v ∧ (colorGraph triTail triColor).color u ≠ 0) ∧
    ZddMem (frontierSearch (colorGraph triTail triColor) (-1) true true) 4 (edgeSet 4 [0, 2, 3]) := by
  refine ⟨colorGraph_eq (by decide +kernel), ?_, ?_⟩
  · have hv : (colorGraph triTail triColor).vMax = 4 := by decide +kernel
    rw [hv]
    have key : ∀ u, u < 5 → ∀ v, v < 5 → 1 ≤ u → 1 ≤ v → (colorGraph triTail triColor).color u = (colorGraph triTail triColor).color v ∧ (colorGraph triTail triColor).color u ≠ 0 := by decide +kernel
    exact fun u v h1 h2 h3 h4 => key u (by omega) v (by omega) h1 h3
  · rw [← zddRun_mem (C57_lawful (by decide +kernel) (colorGraph_eq (by decide +kernel)) (by decide +kernel) (by decide +kernel) (by decide +kernel) _ _ _).toDesc (by decide +kernel)]
    decide +kernel

/-- **The bound on `numUEC` is needed:** for `numUEC = 65536` the empty set is a member, although it has no component at all. -/
theorem C57_wrap_false : ∃ G, gUpdate triTail ([] : List (String × Nat)) = .ok G ∧ ∃ a, ZddMem (frontierSearch G 65536 true true) G.info.length a ∧ ¬ WantedOk G 65536 true a := by
  refine ⟨plainGraph triTail, plainGraph_eq (by decide +kernel), edgeSet 4 [], ?_, fun hs => ?_⟩
  · rw [← zddRun_mem (C57_triTail _ _ _) (by decide +kernel)]
    decide +kernel
  · obtain ⟨reps, h1, h2⟩ := hs.count (by omega)
    cases reps with
    | nil => simp at h2
    | cons r rs =>
      obtain ⟨⟨b, v, ⟨_, hb⟩, _⟩, _⟩ := h1.each r (List.mem_cons_self ..)
      have key : ∀ j, edgeSet 4 [] j ≠ 1 := fun j => by unfold edgeSet; simp
      exact key _ hb

end TdZdd
