import Verif.PathProofs6
import Verif.Props.DegreeConstraint

/-!
# Properties of `CycleZdd` (C43) and `PathZdd` (C44)

Edge `b` of a graph with `n` edges belongs to the level `n - b`; an assignment takes it if its value there is 1 (`Taken`). Vertices are given by their numbers 1, …, `vMax`;
how they are related to the names is the subject of C41.
-/

namespace TdZdd

open Gr

variable {V K : Type} [DecidableEq V] [DecidableEq K]

theorem path_hyp {E : List (V × V)} {C : List (V × K)} (hC : C.Pairwise fun p q => p.1 ≠ q.1) {G : Graph} (h : gUpdate E C = .ok G) (hE : E ≠ []) (hloop : ∀ e ∈ E, e.1 ≠ e.2) (hsmall : G.vMax ≤ 32767) :
    Sp.Hyp G ∧ 0 < G.info.length := by
  obtain ⟨D, num, h1, h2, h3, hN, hG⟩ := C41_update hC h
  have hn : 0 < G.info.length := by
    rw [hN.edges]
    cases E with
    | nil => exact absurd rfl hE
    | cons e E =>
      rcases h3 e (List.mem_cons_self ..) with h | h
      · exact List.length_pos_of_mem h
      · exact List.length_pos_of_mem h
  have hl : ∀ (i : Nat) e, G.info[i]? = some e → e.v1 ≠ e.v2 := by
    intro i e he heq
    have hi := (List.getElem?_eq_some_iff.1 he).1
    rw [hN.edges] at hi
    obtain ⟨e', he', g1, g2⟩ := hN.ends i D[i].1 D[i].2 (List.getElem?_eq_getElem hi)
    rw [he] at he'
    injection he' with he'
    subst he'
    have hnum := (hN.num_iff D[i].1).2 ⟨i, D[i], List.getElem?_eq_getElem hi, .inl rfl⟩
    exact hloop D[i] (h1.mem (List.getElem_mem _)) (hN.num_inj _ _ hnum.1 (by omega))
  exact ⟨⟨hG, hl, hsmall⟩, hn⟩

theorem no_color {E : List (V × V)} {G : Graph} (h : gUpdate E ([] : List (V × K)) = .ok G) (v : Nat) : G.color v = 0 := by
  obtain ⟨D, num, h1, h2, h3, hN, hG⟩ := C41_update List.Pairwise.nil h
  by_cases hv : 1 ≤ v ∧ v ≤ G.vMax
  · obtain ⟨s, rfl⟩ := hN.num_surj v hv.1 hv.2
    exact hN.uncolored s fun k hk => nomatch hk
  · exact hG.color_out v (by omega)

theorem path_pairs {E : List (V × V)} {C : List (V × K)} (hC : C.Pairwise fun p q => p.1 ≠ q.1) {G : Graph} (h : gUpdate E C = .ok G) (hne : C ≠ [])
    (hocc : ∀ p ∈ C, ∃ e ∈ E, e.1 = p.1 ∨ e.2 = p.1) (htwo : ∀ p ∈ C, ∃ q ∈ C, q.1 ≠ p.1 ∧ q.2 = p.2 ∧ ∀ r ∈ C, r.2 = p.2 → r = p ∨ r = q) : Sp.Pairs G := by
  obtain ⟨D, num, h1, h2, h3, hN, hG⟩ := C41_update hC h
  have hpos : ∀ p ∈ C, 1 ≤ num p.1 := by
    intro p hp
    obtain ⟨e, he, hep⟩ := hocc p hp
    refine ((hN.num_iff p.1).2 ?_).1
    rcases h3 e he with h | h
    · obtain ⟨a, ha⟩ := List.mem_iff_getElem?.1 h
      exact ⟨a, _, ha, hep⟩
    · obtain ⟨a, ha⟩ := List.mem_iff_getElem?.1 h
      exact ⟨a, _, ha, hep.symm⟩
  refine ⟨fun c c1 c2 => ?_, ?_⟩
  · obtain ⟨v, v1, v2, hv⟩ := hG.color_surj c c1 c2
    obtain ⟨s, rfl⟩ := hN.num_surj v v1 v2
    obtain ⟨k, hk⟩ : ∃ k, (s, k) ∈ C := Classical.byContradiction fun hn => by
      have := hN.uncolored s fun k hk => hn ⟨k, hk⟩
      omega
    obtain ⟨⟨t, k'⟩, hq, q1, q2, q3⟩ := htwo _ hk
    dsimp only at q1 q2 q3
    subst q2
    have ht := hpos _ hq
    dsimp only at ht
    refine ⟨num s, num t, fun he => q1 (hN.num_inj s t v1 he).symm, fun w => ⟨fun hw => ?_, ?_⟩⟩
    · have hwr : 1 ≤ w ∧ w ≤ G.vMax := by
        apply Classical.byContradiction
        intro hn
        have := hG.color_out w (by omega)
        omega
      obtain ⟨u, rfl⟩ := hN.num_surj w hwr.1 hwr.2
      have := (hN.color_iff s u k' v1 hwr.1 hk).2.1 (by omega)
      rcases q3 _ this rfl with h | h
      · left; rw [(Prod.mk.inj h).1]
      · right; rw [(Prod.mk.inj h).1]
    · rintro (rfl | rfl)
      · exact hv
      · rw [← hv]; exact (hN.color_iff s t k' v1 ht hk).2.2 hq
  · obtain ⟨p, hp⟩ := List.exists_mem_of_ne_nil C hne
    have := (hN.color_iff p.1 p.1 p.2 (hpos p hp) (hpos p hp) hp).1
    have := hG.color_le (num p.1)
    omega

/-! ### Cycles -/

/-- **C43.** `CycleZdd` contains exactly the edge sets that form one simple cycle, with and without lookahead. Hypotheses: the graph has an edge, no loop, no colours, and at most 32767 vertices. -/
theorem C43_cycle {E : List (V × V)} {G : Graph} (h : gUpdate E ([] : List (V × K)) = .ok G) (hE : E ≠ []) (hloop : ∀ e ∈ E, e.1 ≠ e.2) (hsmall : G.vMax ≤ 32767) (lookahead : Bool) (a : Asg 2) :
    ZddMem (cycleZdd G lookahead) G.info.length a ↔ ∃ l, IsCycle G a l := by
  obtain ⟨hH, hn⟩ := path_hyp List.Pairwise.nil h hE hloop hsmall
  have := Sp.means (la := lookahead) (a := a) hH (Sp.cycleSem hH (no_color h) false) trivial hn
  rw [← Sp.cycle_iff]
  exact ⟨this.1, fun hv => this.2 hv fun h => nomatch h⟩

/-- **C43, in part.** `HamiltonCycleZdd` contains only edge sets that form one simple cycle, and contains each of them that visits all vertices.
It may contain others, too (`C43_hamilton_false`): missing is that every member visits all vertices. -/
theorem C43_hamilton_partial {E : List (V × V)} {G : Graph} (h : gUpdate E ([] : List (V × K)) = .ok G) (hE : E ≠ []) (hloop : ∀ e ∈ E, e.1 ≠ e.2) (hsmall : G.vMax ≤ 32767) (lookahead : Bool) (a : Asg 2) :
    (ZddMem (hamiltonCycleZdd G lookahead) G.info.length a → ∃ l, IsCycle G a l) ∧
    (∀ l, IsCycle G a l → (∀ v, 1 ≤ v → v ≤ G.vMax → v ∈ l) → ZddMem (hamiltonCycleZdd G lookahead) G.info.length a) := by
  obtain ⟨hH, hn⟩ := path_hyp List.Pairwise.nil h hE hloop hsmall
  have := Sp.means (la := lookahead) (a := a) hH (Sp.cycleSem hH (no_color h) true) trivial hn
  rw [← Sp.cycle_iff]
  refine ⟨this.1, fun l hl hall => this.2 (Sp.cycle_iff.2 ⟨l, hl⟩) fun _ v h1 h2 => ?_⟩
  obtain ⟨k, hk⟩ := List.mem_iff_getElem?.1 (hall v h1 h2)
  have hkl : k < l.length := (List.getElem?_eq_some_iff.1 hk).1
  exact ⟨_, Sp.taken_iff.2 (hl.has v _ ⟨k, hk, List.getElem?_eq_getElem (Nat.mod_lt _ (by omega))⟩)⟩

/-- The specification is lawful for every graph with an edge and without loops, coloured or not: no index is out of bounds, no assertion fails, equal states are interchangeable. -/
theorem C43_lawful {E : List (V × V)} {C : List (V × K)} (hC : C.Pairwise fun p q => p.1 ≠ q.1) {G : Graph} (h : gUpdate E C = .ok G) (hE : E ≠ []) (hloop : ∀ e ∈ E, e.1 ≠ e.2) (hsmall : G.vMax ≤ 32767)
    (lookahead : Bool) : LawfulC (cycleZdd G lookahead) ∧ LawfulC (hamiltonCycleZdd G lookahead) := by
  obtain ⟨hH, hn⟩ := path_hyp hC h hE hloop hsmall
  exact ⟨lawfulC_of_eq (Sp.desc hH hn) fun n s t => by simp [cycleZdd, simpath], lawfulC_of_eq (Sp.desc hH hn) fun n s t => by simp [hamiltonCycleZdd, simpath]⟩

/-! ### Paths -/

/-- **C44.** `PathZdd` contains exactly the edge sets that are vertex-disjoint simple paths, one joining the two terminals of each colour, with and without lookahead.
Hypotheses: no loops, at least one colour, exactly two vertices of each colour, coloured vertices have edges, at most 32767 vertices. -/
theorem C44_path {E : List (V × V)} {C : List (V × K)} (hC : C.Pairwise fun p q => p.1 ≠ q.1) {G : Graph} (h : gUpdate E C = .ok G) (hloop : ∀ e ∈ E, e.1 ≠ e.2) (hsmall : G.vMax ≤ 32767) (hne : C ≠ [])
    (hocc : ∀ p ∈ C, ∃ e ∈ E, e.1 = p.1 ∨ e.2 = p.1) (htwo : ∀ p ∈ C, ∃ q ∈ C, q.1 ≠ p.1 ∧ q.2 = p.2 ∧ ∀ r ∈ C, r.2 = p.2 → r = p ∨ r = q) (lookahead : Bool) (a : Asg 2) :
    ZddMem (pathZdd G lookahead) G.info.length a ↔ ∃ P, IsPaths G a P := by
  have hE : E ≠ [] := by
    rintro rfl
    obtain ⟨p, hp⟩ := List.exists_mem_of_ne_nil C hne
    obtain ⟨e, he, _⟩ := hocc p hp
    cases he
  obtain ⟨hH, hn⟩ := path_hyp hC h hE hloop hsmall
  have hP := path_pairs hC h hne hocc htwo
  have := Sp.means (la := lookahead) (a := a) hH (Sp.pathSem hH hP false) (Sp.pathPart_empty hH hP) hn
  rw [← Sp.path_iff hH hP]
  exact ⟨this.1, fun hv => this.2 hv fun h => nomatch h⟩

/-- **C44.** `HamiltonPathZdd` contains only edge sets that are such paths, and contains each of them that visits all vertices. It may contain others, too (`C44_hamilton_false`). -/
theorem C44_hamilton_partial {E : List (V × V)} {C : List (V × K)} (hC : C.Pairwise fun p q => p.1 ≠ q.1) {G : Graph} (h : gUpdate E C = .ok G) (hloop : ∀ e ∈ E, e.1 ≠ e.2) (hsmall : G.vMax ≤ 32767) (hne : C ≠ [])
    (hocc : ∀ p ∈ C, ∃ e ∈ E, e.1 = p.1 ∨ e.2 = p.1) (htwo : ∀ p ∈ C, ∃ q ∈ C, q.1 ≠ p.1 ∧ q.2 = p.2 ∧ ∀ r ∈ C, r.2 = p.2 → r = p ∨ r = q) (lookahead : Bool) (a : Asg 2) :
    (ZddMem (hamiltonPathZdd G lookahead) G.info.length a → ∃ P, IsPaths G a P) ∧
    (∀ P, IsPaths G a P → (∀ v, 1 ≤ v → v ≤ G.vMax → ∃ c, 1 ≤ c ∧ c ≤ G.numColor ∧ v ∈ P c) → ZddMem (hamiltonPathZdd G lookahead) G.info.length a) := by
  have hE : E ≠ [] := by
    rintro rfl
    obtain ⟨p, hp⟩ := List.exists_mem_of_ne_nil C hne
    obtain ⟨e, he, _⟩ := hocc p hp
    cases he
  obtain ⟨hH, hn⟩ := path_hyp hC h hE hloop hsmall
  have hP := path_pairs hC h hne hocc htwo
  have := Sp.means (la := lookahead) (a := a) hH (Sp.pathSem hH hP true) (Sp.pathPart_empty hH hP) hn
  rw [← Sp.path_iff hH hP]
  refine ⟨this.1, fun P hl hall => this.2 ((Sp.path_iff hH hP).2 ⟨P, hl⟩) fun _ v h1 h2 => ?_⟩
  obtain ⟨c, c1, c2, hv⟩ := hall v h1 h2
  obtain ⟨k, hk⟩ := List.mem_iff_getElem?.1 hv
  have hkl : k < (P c).length := (List.getElem?_eq_some_iff.1 hk).1
  have hlen := hl.len c c1 c2
  rcases Nat.lt_or_ge (k + 1) (P c).length with h' | h'
  · exact ⟨_, Sp.taken_iff.2 (hl.has c c1 c2 v _ ⟨k, hk, List.getElem?_eq_getElem h'⟩)⟩
  · refine ⟨_, Sp.adjA_sym (Sp.taken_iff.2 (hl.has c c1 c2 (P c)[k - 1] v ⟨k - 1, List.getElem?_eq_getElem (by omega), ?_⟩))⟩
    rw [show k - 1 + 1 = k by omega]; exact hk

/-- The specification is lawful for every graph with an edge and without loops, whatever the colours are. -/
theorem C44_lawful {E : List (V × V)} {C : List (V × K)} (hC : C.Pairwise fun p q => p.1 ≠ q.1) {G : Graph} (h : gUpdate E C = .ok G) (hE : E ≠ []) (hloop : ∀ e ∈ E, e.1 ≠ e.2) (hsmall : G.vMax ≤ 32767)
    (lookahead : Bool) : LawfulC (pathZdd G lookahead) ∧ LawfulC (hamiltonPathZdd G lookahead) := by
  obtain ⟨hH, hn⟩ := path_hyp hC h hE hloop hsmall
  exact ⟨lawfulC_of_eq (Sp.desc hH hn) fun n s t => by simp [pathZdd, simpath], lawfulC_of_eq (Sp.desc hH hn) fun n s t => by simp [hamiltonPathZdd, simpath]⟩

/-! ### Examples and counterexamples -/

/-- a graph with coloured vertices -/
def colorGraph (E : List (String × String)) (C : List (String × Nat)) : Graph :=
  match gUpdate E C with
  | .ok G => G
  | _ => ⟨[], 0, fun _ => 0, 0⟩

theorem colorGraph_eq {E : List (String × String)} {C : List (String × Nat)} (h : (match gUpdate E C with | .ok _ => true | _ => false) = true) : gUpdate E C = .ok (colorGraph E C) := by
  unfold colorGraph
  cases hg : gUpdate E C with
  | ok G => rfl
  | thrown => rw [hg] at h; cases h
  | ub => rw [hg] at h; cases h

/-- the edges with the given indices -/
def edgeSet (n : Nat) (s : List Nat) : Asg 2 := fun j => if n - j ∈ s then 1 else 0

-- the hypotheses of `C43_cycle`
example : gUpdate triTail ([] : List (String × Nat)) = .ok (plainGraph triTail) ∧ triTail ≠ [] ∧ (∀ e ∈ triTail, e.1 ≠ e.2) ∧ (plainGraph triTail).vMax ≤ 32767 :=
  ⟨plainGraph_eq (by decide +kernel), by decide +kernel, by decide +kernel, by decide +kernel⟩

-- the triangle is a member, and the empty set, a path and the whole graph are not
example : ZddMem (cycleZdd (plainGraph triTail) true) 4 (edgeSet 4 [0, 1, 2]) ∧ ¬ ZddMem (cycleZdd (plainGraph triTail) true) 4 (edgeSet 4 []) ∧
    ¬ ZddMem (cycleZdd (plainGraph triTail) true) 4 (edgeSet 4 [0, 1]) ∧ ¬ ZddMem (cycleZdd (plainGraph triTail) true) 4 (edgeSet 4 [0, 1, 2, 3]) := by
  have hd : Desc (cycleZdd (plainGraph triTail) true) := (C43_lawful List.Pairwise.nil (plainGraph_eq (by decide +kernel)) (by decide +kernel) (by decide +kernel) (by decide +kernel) true).1.toDesc
  rw [← zddRun_mem hd (by decide +kernel), ← zddRun_mem hd (by decide +kernel), ← zddRun_mem hd (by decide +kernel), ← zddRun_mem hd (by decide +kernel)]
  decide +kernel

/-- cycle `a b c d` with a fifth vertex `x` -/
def wheelLike : List (String × String) := [("a", "b"), ("b", "c"), ("c", "d"), ("a", "d"), ("x", "a"), ("x", "b"), ("a", "c"), ("b", "d")]

/-- **C43 is violated:** `HamiltonCycleZdd` accepts the cycle `a b c d`, which does not visit `x` (no edge at vertex 1 is taken): the check at the end of a cycle skips the first vertex of the frontier. -/
theorem C43_hamilton_false : ∃ G, gUpdate wheelLike ([] : List (String × Nat)) = .ok G ∧ G.info.length = 8 ∧ G.vMax = 5 ∧
    ∃ a v, ZddMem (hamiltonCycleZdd G true) G.info.length a ∧ 1 ≤ v ∧ v ≤ G.vMax ∧ ∀ b y, Taken G a b → ¬ EdgeJoins G b v y := by
  refine ⟨plainGraph wheelLike, plainGraph_eq (by decide +kernel), by decide +kernel, by decide +kernel, edgeSet 8 [0, 1, 2, 3], 1, ?_, by decide, by decide +kernel, ?_⟩
  · have hd : Desc (hamiltonCycleZdd (plainGraph wheelLike) true) :=
      (C43_lawful List.Pairwise.nil (plainGraph_eq (by decide +kernel)) (by decide +kernel) (by decide +kernel) (by decide +kernel) true).2.toDesc
    rw [← zddRun_mem hd (by decide +kernel)]
    decide +kernel
  · rintro b y ⟨h1, h2⟩ ⟨e, he, h⟩
    have key : ∀ b, b < 8 → edgeSet 8 [0, 1, 2, 3] (8 - b) = 1 → (plainGraph wheelLike).info[b]?.all (fun e => e.v1 ≠ 1 ∧ e.v2 ≠ 1) = true := by decide +kernel
    have hl : (plainGraph wheelLike).info.length = 8 := by decide +kernel
    rw [hl] at h1 h2
    have := key b h1 h2
    rw [he] at this
    simp at this
    omega

/-- cycle `a b c d` with vertices `e`, `f` that come later -/
def laterCycle : List (String × String) := [("a", "b"), ("b", "c"), ("c", "d"), ("a", "d"), ("a", "c"), ("b", "d"), ("d", "e"), ("d", "f"), ("e", "f")]

/-- **C43 is violated** in a second way: `HamiltonCycleZdd` accepts the cycle `a b c d`, although `e` and `f` (vertices 5 and 6) are not visited: they are not yet in the frontier when the cycle is closed. -/
theorem C43_hamilton_false2 : ∃ G, gUpdate laterCycle ([] : List (String × Nat)) = .ok G ∧ G.info.length = 9 ∧ G.vMax = 6 ∧
    ∃ a, ZddMem (hamiltonCycleZdd G true) G.info.length a ∧ ∀ b x y, Taken G a b → EdgeJoins G b x y → x ≤ 4 := by
  refine ⟨plainGraph laterCycle, plainGraph_eq (by decide +kernel), by decide +kernel, by decide +kernel, edgeSet 9 [0, 1, 2, 3], ?_, ?_⟩
  · have hd : Desc (hamiltonCycleZdd (plainGraph laterCycle) true) :=
      (C43_lawful List.Pairwise.nil (plainGraph_eq (by decide +kernel)) (by decide +kernel) (by decide +kernel) (by decide +kernel) true).2.toDesc
    rw [← zddRun_mem hd (by decide +kernel)]
    decide +kernel
  · rintro b x y ⟨h1, h2⟩ ⟨e, he, h⟩
    have key : ∀ b, b < 9 → edgeSet 9 [0, 1, 2, 3] (9 - b) = 1 → (plainGraph laterCycle).info[b]?.all (fun e => e.v1 ≤ 4 ∧ e.v2 ≤ 4) = true := by decide +kernel
    have hl : (plainGraph laterCycle).info.length = 9 := by decide +kernel
    rw [hl] at h1 h2
    have := key b h1 h2
    rw [he] at this
    simp at this
    omega

/-- a grid of 2 x 3 vertices; `a`, `c` and `d`, `f` are to be connected -/
def grid6 : List (String × String) := [("a", "b"), ("a", "d"), ("b", "c"), ("b", "e"), ("d", "e"), ("c", "f"), ("e", "f")]
def grid6c : List (String × Nat) := [("a", 1), ("c", 1), ("d", 2), ("f", 2)]

-- the hypotheses of `C44_path`
example : gUpdate grid6 grid6c = .ok (colorGraph grid6 grid6c) ∧ (grid6c.Pairwise fun p q => p.1 ≠ q.1) ∧ (∀ e ∈ grid6, e.1 ≠ e.2) ∧ (colorGraph grid6 grid6c).vMax ≤ 32767 ∧ grid6c ≠ [] ∧
    (∀ p ∈ grid6c, ∃ e ∈ grid6, e.1 = p.1 ∨ e.2 = p.1) ∧ (∀ p ∈ grid6c, ∃ q ∈ grid6c, q.1 ≠ p.1 ∧ q.2 = p.2 ∧ ∀ r ∈ grid6c, r.2 = p.2 → r = p ∨ r = q) :=
  ⟨colorGraph_eq (by decide +kernel), by decide +kernel, by decide +kernel, by decide +kernel, by decide +kernel, by decide +kernel, by decide +kernel⟩

-- the paths `a b c` and `d e f` are a member, one of them alone, both with another edge, and `a d e b c` are not
example : ZddMem (pathZdd (colorGraph grid6 grid6c) true) 7 (edgeSet 7 [0, 2, 4, 6]) ∧ ¬ ZddMem (pathZdd (colorGraph grid6 grid6c) true) 7 (edgeSet 7 [0, 2]) ∧
    ¬ ZddMem (pathZdd (colorGraph grid6 grid6c) true) 7 (edgeSet 7 [0, 2, 3, 4, 6]) ∧ ¬ ZddMem (pathZdd (colorGraph grid6 grid6c) true) 7 (edgeSet 7 [1, 4, 3, 2]) := by
  have hd : Desc (pathZdd (colorGraph grid6 grid6c) true) := (C44_lawful (by decide +kernel) (colorGraph_eq (by decide +kernel)) (by decide +kernel) (by decide +kernel) (by decide +kernel) true).1.toDesc
  rw [← zddRun_mem hd (by decide +kernel), ← zddRun_mem hd (by decide +kernel), ← zddRun_mem hd (by decide +kernel), ← zddRun_mem hd (by decide +kernel)]
  decide +kernel

/-- `HamiltonPathZdd` may accept paths that do not visit all vertices: for the edges `s t`, `t x` and the terminals `s` and `t` it accepts the edge `s t` alone, without the vertex `x`. -/
theorem C44_hamilton_false : ∃ G, gUpdate [("s", "t"), ("t", "x")] [("s", 1), ("t", 1)] = .ok G ∧ G.vMax = 3 ∧
    ∃ a v, ZddMem (hamiltonPathZdd G true) G.info.length a ∧ 1 ≤ v ∧ v ≤ G.vMax ∧ ∀ b y, Taken G a b → ¬ EdgeJoins G b v y := by
  refine ⟨colorGraph [("s", "t"), ("t", "x")] [("s", 1), ("t", 1)], colorGraph_eq (by decide +kernel), by decide +kernel, edgeSet 2 [0], 3, ?_, by decide, by decide +kernel, ?_⟩
  · have hd : Desc (hamiltonPathZdd (colorGraph [("s", "t"), ("t", "x")] [("s", 1), ("t", 1)]) true) :=
      (C44_lawful (by decide +kernel) (colorGraph_eq (by decide +kernel)) (by decide +kernel) (by decide +kernel) (by decide +kernel) true).2.toDesc
    rw [← zddRun_mem hd (by decide +kernel)]
    decide +kernel
  · rintro b y ⟨h1, h2⟩ ⟨e, he, h⟩
    have key : ∀ b, b < 2 → edgeSet 2 [0] (2 - b) = 1 → (colorGraph [("s", "t"), ("t", "x")] [("s", 1), ("t", 1)]).info[b]?.all (fun e => e.v1 ≠ 3 ∧ e.v2 ≠ 3) = true := by decide +kernel
    have hl : (colorGraph [("s", "t"), ("t", "x")] [("s", 1), ("t", 1)]).info.length = 2 := by decide +kernel
    rw [hl] at h1 h2
    have := key b h1 h2
    rw [he] at this
    simp at this
    omega

end TdZdd
