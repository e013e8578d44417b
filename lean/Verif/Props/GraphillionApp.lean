import Verif.GraphillionPaths
import Verif.Props.DdPaths
import Verif.Props.Graphillion

/-! # Properties of the application `graphillion_example` (C84) -/

namespace TdZdd

namespace Gx

open DdPaths (edgesAsg)

/-- The number that is printed for `-count` is the number of the sets of edges with `Q`; for `-solutions k` the first `k` of a list of exactly these sets, each once, are printed, and all of them if `k` is not positive or larger.
Edges are numbered from 0 in the order of `Graph::edgeInfo`. -/
def Prints (D : Dd 2) (n : Nat) (Q : List Nat → Prop) : Prop :=
  ∃ L : List (List Nat), L.Nodup ∧ (∀ s, s ∈ L ↔ s.Pairwise (· < ·) ∧ (∀ b ∈ s, b < n) ∧ Q s) ∧
    ∀ k : Int, (1 ≤ k ∨ -2147483648 + (L.length : Int) ≤ k) → ∀ sched, EvSched D sched →
      (∃ fuel steps, output D n k sched fuel steps = some (toString L.length, if 1 ≤ k then L.take k.toNat else L)) ∧
      ∀ fuel steps r, output D n k sched fuel steps = some r → r = (toString L.length, if 1 ≤ k then L.take k.toNat else L)

/-- what the options say about the degree of a vertex -/
structure Degree (o : Opts) (G : Graph) (s : List Nat) (v : Nat) : Prop where
  /-- `-spanning`: the vertices without colour have edges -/
  spanning : o.spanning = true → G.color v = 0 → 1 ≤ edgeDegree G (edgesAsg G.info.length s) v
  /-- `-matching`, but not for the vertices of `-spanning` -/
  matching : o.matching = true → (o.spanning = true → G.color v ≠ 0) → edgeDegree G (edgesAsg G.info.length s) v ≤ 1
  /-- `-path`, but only if there is no `-matching`, and not for the vertices of `-spanning` -/
  path0 : o.path = true → o.matching = false → o.spanning = false → G.color v = 0 → edgeDegree G (edgesAsg G.info.length s) v = 0 ∨ edgeDegree G (edgesAsg G.info.length s) v = 2
  path1 : o.path = true → o.matching = false → G.color v ≠ 0 → edgeDegree G (edgesAsg G.info.length s) v = 1

/-- the number of edges is within the bounds that have been given -/
def Bounds (o : Opts) (s : List Nat) : Prop := (∀ x, o.lb = some x → x ≤ s.length) ∧ ∀ x, o.ub = some x → (s.length : Int) ≤ x

/-- what is searched for -/
structure Found (o : Opts) (G : Graph) (s : List Nat) : Prop where
  degree : ∀ v, 1 ≤ v → v ≤ G.vMax → Degree o G s v
  /-- the number of the components without colour is the one of `-uec`, or 0 if there is `-path`; otherwise there is no condition -/
  wanted : WantedOk G (o.uec.getD (if o.path then 0 else -1)) o.noloop (edgesAsg G.info.length s)
  size : Bounds o s

/-- the sizes that the program can handle -/
structure Limits (o : Opts) (G : CGraph) : Prop where
  loops : ∀ e ∈ G.info, e.v1 ≠ e.v2
  vertices : G.vMax ≤ 32766
  edges : G.info.length ≤ 2147483647
  uec : ∀ x, o.uec = some x → -32768 ≤ x ∧ x ≤ 32767
  lb : ∀ x, o.lb = some x → (G.info.length : Int) - x ≤ 2147483647

theorem degree_iff {o : Opts} {G : Graph} {s : List Nat} {v : Nat} : DegOk o G v (edgeDegree G (edgesAsg G.info.length s) v) ↔ Degree o G s v := by
  unfold DegOk
  cases h1 : o.spanning <;> cases h2 : o.matching <;> cases h3 : o.path <;> by_cases h4 : G.color v = 0 <;> simp [h4]
  all_goals first
    | exact ⟨fun h => ⟨by simp_all, by simp_all, by simp_all, by simp_all⟩, fun h => by have a := h.spanning; have b := h.matching; have c := h.path0; have d := h.path1; simp_all⟩
    | exact ⟨by simp_all, by simp_all, by simp_all, by simp_all⟩

theorem numUEC_eq {o : Opts} : o.numUEC = o.uec.getD (if o.path then 0 else -1) := by
  unfold Opts.numUEC
  cases o.uec <;> rfl

variable {o : Opts} {g t : Option (List Char)} {G : CGraph}

theorem found {base : Option Gz} {B : Asg 2 → Prop} (h : readGraph o g t = .ok G) (hL : Limits o G) (hB : ∀ z, base = some z → Fine G.info.length B (graphillion z)) :
    ∃ D, diagram o G base = some D ∧ Prints D G.info.length fun s => Found o G.toGraph s ∧ (base.isSome = true → B (edgesAsg G.info.length s)) := by
  obtain ⟨r, C, G0, _, _, _, hm⟩ := readGraph_made h
  have hu : -32768 ≤ o.numUEC ∧ o.numUEC ≤ 32767 := by
    rw [numUEC_eq]
    cases hx : o.uec with
    | some x => exact hL.uec x hx
    | none => show _ ≤ (if o.path = true then (0 : Int) else -1) ∧ (if o.path = true then (0 : Int) else -1) ≤ _; split <;> decide
  obtain ⟨D, h1, h2⟩ := diagram_is hm hL.loops hL.vertices hu.1 hu.2 hL.edges hL.lb hB
  obtain ⟨L, g1, g2, g3⟩ := output_is h2
  refine ⟨D, h1, L, g1, fun s => ?_, g3⟩
  rw [g2]
  refine and_congr_right fun p1 => and_congr_right fun p2 => ?_
  have e1 : InSize o (DdPaths.sizeOf G.info.length (edgesAsg G.info.length s)) ↔ Bounds o s := by rw [DdPaths.sizeOf_edges p1 p2]; exact Iff.rfl
  rw [e1, numUEC_eq]
  constructor
  · rintro ⟨⟨a1, a2, a3⟩, a4⟩
    exact ⟨⟨fun v v1 v2 => degree_iff.1 (a1 v v1 v2), a2, a4⟩, a3⟩
  · rintro ⟨⟨a1, a2, a4⟩, a3⟩
    exact ⟨⟨fun v v1 v2 => degree_iff.2 (a1 v v1 v2), a2, a3⟩, a4⟩

/-- **C84.** Without `-import`: the sets of edges that meet the conditions on the degrees, the components and the size. -/
theorem _root_.TdZdd.C84_family (h : readGraph o g t = .ok G) (hL : Limits o G) : ∃ D, diagram o G none = some D ∧ Prints D G.info.length (Found o G.toGraph) := by
  obtain ⟨D, h1, L, g1, g2, g3⟩ := found (base := none) (B := fun _ => True) h hL fun _ h => nomatch h
  exact ⟨D, h1, L, g1, fun s => by rw [g2]; simp, g3⟩

/-- **C84.** With `-import`: those that are in the imported family as well. Edge `b` is the variable with the index `mx - n + b + 1`, where `mx` is the largest index of the imported diagram and `n` the number of edges; this is `b + 1` if the diagram uses the last edge. -/
theorem _root_.TdZdd.C84_import (h : readGraph o g t = .ok G) (hL : Limits o G) {text : List Char} {ns : List Gz.Line} (hd : Gz.Dump text ns) (hD : Gz.Diagram ns) (hl : ∀ x ∈ ns, GzLimits x) {r : Gz.Line} (hr : r ∈ ns)
    (hroot : ∀ x ∈ ns, x ≠ r → ∃ y ∈ ns, y.lo = .node x.id ∨ y.hi = .node x.id) {mx : Int} (hm : ∀ x ∈ ns, x.index ≤ mx) (hm' : ∃ x ∈ ns, x.index = mx) (hr' : r.index < 2147483647) (hlev : mx - r.index + 1 ≤ G.info.length) :
    ∃ base D, gzParse text = .ok base ∧ diagram o G (some base) = some D ∧
      Prints D G.info.length fun s => Found o G.toGraph s ∧ ∃ T, Gz.Mem ns (.node r.id) T ∧ ∀ b, b < G.info.length → (b ∈ s ↔ mx - G.info.length + b + 1 ∈ T) := by
  have := hL.edges
  obtain ⟨z, z1, z2, z3, z4⟩ := C58_family hd hD hl hr hroot hm hm' hr' (by omega)
  obtain ⟨D, h1, L, g1, g2, g3⟩ := found (base := some z) (B := fun a => ∃ T, Gz.Mem ns (.node r.id) T ∧ ∀ j : Nat, 1 ≤ j → j ≤ G.info.length → (a j = 1 ↔ mx - j + 1 ∈ T)) h hL fun z' hz => by
    injection hz with hz
    subst hz
    exact ⟨z2, fun _ _ => rfl, by rw [z3]; exact hlev, fun a => z4 _ a hlev⟩
  refine ⟨z, D, z1, h1, L, g1, fun s => ?_, g3⟩
  rw [g2]
  refine and_congr_right fun p1 => and_congr_right fun p2 => and_congr_right fun _ => ?_
  have key : ∀ j, 1 ≤ j → j ≤ G.info.length → (edgesAsg G.info.length s j = 1 ↔ G.info.length - j ∈ s) := by
    intro j j1 j2
    unfold DdPaths.edgesAsg
    split
    next h => exact ⟨fun _ => h.2.2, fun _ => rfl⟩
    next h => exact ⟨fun h => (nomatch h), fun h' => absurd ⟨j1, j2, h'⟩ h⟩
  constructor
  · intro hT
    obtain ⟨T, t1, t2⟩ := hT rfl
    refine ⟨T, t1, fun b hb => ?_⟩
    have := t2 (G.info.length - b) (by omega) (by omega)
    rw [key _ (by omega) (by omega), show G.info.length - (G.info.length - b) = b by omega] at this
    rw [this, show mx - ((G.info.length - b : Nat) : Int) + 1 = mx - G.info.length + b + 1 by omega]
  · rintro ⟨T, t1, t2⟩ _
    refine ⟨T, t1, fun j j1 j2 => ?_⟩
    rw [key j j1 j2, t2 _ (by omega), show mx - (G.info.length : Int) + ((G.info.length - j : Nat) : Int) + 1 = mx - j + 1 by omega]

/-- **C84.** With `-path` and groups of two vertices each (and no `-matching`, `-spanning` or `-uec`): the sets of vertex-disjoint simple paths, one between the vertices of each group. `-noloop` makes no difference. -/
theorem _root_.TdZdd.C84_path (h : readGraph o g t = .ok G) (hL : Limits o G) (hp : o.path = true) (hm : o.matching = false) (hs : o.spanning = false) (hu : o.uec = none) (hP : Sp.Pairs G.toGraph) :
    ∃ D, diagram o G none = some D ∧ Prints D G.info.length fun s => (∃ P, IsPaths G.toGraph (edgesAsg G.info.length s) P) ∧ Bounds o s := by
  obtain ⟨D, h1, L, g1, g2, g3⟩ := C84_family h hL
  obtain ⟨r, C, G0, _, _, _, hmade⟩ := readGraph_made h
  have hH := (hmade.hyp hL.loops (by have := hL.vertices; omega)).1.toHyp
  refine ⟨D, h1, L, g1, fun s => ?_, g3⟩
  rw [g2]
  dsimp only
  rw [← paths_iff hH hP o.noloop]
  refine and_congr_right fun p1 => and_congr_right fun p2 => ?_
  have hun : o.uec.getD (if o.path then 0 else -1) = 0 := by rw [hu, hp]; rfl
  constructor
  · rintro ⟨a1, a2, a3⟩
    rw [hun] at a2
    exact ⟨⟨fun v v1 v2 => ⟨(a1 v v1 v2).path0 hp hm hs, (a1 v v1 v2).path1 hp hm⟩, a2⟩, a3⟩
  · rintro ⟨⟨a1, a2⟩, a3⟩
    refine ⟨fun v v1 v2 => ⟨fun h => (by rw [hs] at h; cases h), fun h => (by rw [hm] at h; cases h), fun _ _ _ => (a1 v v1 v2).1, fun _ _ => (a1 v v1 v2).2⟩, ?_, a3⟩
    rw [hun]; exact a2

/-! ### The graph -/

theorem name_number {E : List (List Char × List Char)} {v : Nat} (h1 : 1 ≤ v) (h2 : v ≤ (gStack (gUnique E)).length) : vertexName E v ∈ gStack (gUnique E) ∧ gNumber (gStack (gUnique E)) (vertexName E v) = v := by
  unfold vertexName
  rw [if_neg (by omega), List.getElem?_eq_getElem (by omega), Option.getD_some]
  refine ⟨List.getElem_mem _, ?_⟩
  rw [Gr.number_pos (List.getElem_mem _), Gr.idxOf_getElem' (Gr.nodup_stack _)]
  omega

/-- **C84.** `-st` for a graph file without group file: the vertices 1 and the last one are the only ones with a colour, which is the same. -/
theorem _root_.TdZdd.C84_st {text : List Char} (h : readGraph o (some text) none = .ok G) (hl : ∀ e ∈ G.info, e.v1 ≠ e.v2) (hst : o.st = true) :
    Sp.Pairs G.toGraph ∧ G.numColor = 1 ∧ 1 < G.vMax ∧ ∀ v, G.color v = 1 ↔ v = 1 ∨ v = G.vMax := by
  obtain ⟨r, C, G0, h1, rfl, h3, hm⟩ := readGraph_made h
  have hr : r.2 = [] := by
    replace h1 : ((if o.a then readAdjacencyList text else readEdges text []).bind fun E => .ok (E, [])) = Res.ok r := h1
    cases e : (if o.a then readAdjacencyList text else readEdges text []) with
    | thrown => rw [e] at h1; cases h1
    | ub => rw [e] at h1; cases h1
    | ok E => rw [e] at h1; injection h1 with h1; rw [← h1]
  have v0 := (DdPaths.update_facts (edgesOf_keys h1) h3).2.2
  have v1 := (DdPaths.update_facts hm.keys hm.update).2.2
  have hlen : 0 < G.info.length := by
    rcases Nat.eq_zero_or_pos G.info.length with h0 | h0
    · exact absurd ((DdPaths.update_facts hm.keys hm.update).2.1.1 h0) hm.edges
    · exact h0
  obtain ⟨hg, cs, hN, hK, hok, _, _⟩ := Ps.cgUpdate_ok hm.keys hm.update
  have he := List.getElem?_eq_getElem hlen
  have hrange := hok.range 0 _ he
  have hloop := hl _ (List.getElem_mem hlen)
  have hv : 1 < G.vMax := by omega
  have hc : o.st = true ∧ 1 ≤ G0.vMax := ⟨hst, by omega⟩
  rw [if_pos hc] at hm hN hK hg
  obtain ⟨m1, n1⟩ := name_number (E := r.1) (v := 1) (by omega) (by omega)
  obtain ⟨m2, n2⟩ := name_number (E := r.1) (v := G0.vMax) (by omega) (by omega)
  have hne : vertexName r.1 1 ≠ vertexName r.1 G0.vMax := by
    intro he
    rw [he] at n1
    omega
  have hC : colorEnds r.1 r.2 G0.vMax = [(vertexName r.1 1, getColor 0), (vertexName r.1 G0.vMax, getColor 0)] := by
    unfold colorEnds
    rw [hr, show setName ([] : List (List Char × List Char)) (vertexName r.1 1) (getColor 0) = [(vertexName r.1 1, getColor 0)] from rfl]
    unfold setName
    rw [if_neg (by simpa using hne)]
    rfl
  rw [hC] at hm hN hg hK
  have hP : Sp.Pairs G.toGraph := by
    refine path_pairs hm.keys hg (by simp) (occ_of hm.keys hm.update) fun p hp => ?_
    simp only [List.mem_cons, List.not_mem_nil, or_false] at hp ⊢
    rcases hp with rfl | rfl
    · exact ⟨_, .inr rfl, Ne.symm hne, rfl, fun r hr _ => hr⟩
    · exact ⟨_, .inl rfl, hne, rfl, fun r hr _ => hr.symm⟩
  have hnum : G.numColor = 1 := by
    rcases Gr.update_spec r.1 _ hm.keys with ⟨e, _⟩ | ⟨G', e, _, _, _, _, ks, hks, hl⟩
    · rw [e] at hg; cases hg
    · rw [e] at hg
      injection hg with hg
      have hle : ks.length ≤ [getColor 0].length := hks.1.length_le_of_subset fun j hj => by
        obtain ⟨r, hr⟩ := (hks.2 j).1 hj
        simp only [List.mem_cons, List.not_mem_nil, or_false, Prod.mk.injEq] at hr
        rcases hr with ⟨_, e⟩ | ⟨_, e⟩ <;> (rw [e]; simp)
      rw [hg] at hl
      have := hP.some
      simp only [List.length_cons, List.length_nil] at hle
      omega
  have c1 := (hN.color_iff (vertexName r.1 1) (vertexName r.1 1) (getColor 0) (by omega) (by omega) (by simp)).1
  have c2 := (hN.color_iff (vertexName r.1 G0.vMax) (vertexName r.1 G0.vMax) (getColor 0) (by omega) (by omega) (by simp)).1
  rw [n1] at c1
  rw [n2] at c2
  have l1 := hok.color_le 1
  have l2 := hok.color_le G0.vMax
  refine ⟨hP, hnum, hv, fun v => ?_⟩
  obtain ⟨x, y, hxy, hc⟩ := hP.two 1 (Nat.le_refl 1) (by omega)
  have q1 := (hc 1).1 (show G.color 1 = 1 by omega)
  have q2 := (hc G0.vMax).1 (show G.color G0.vMax = 1 by omega)
  rw [hc]
  have : G0.vMax = G.vMax := by omega
  rw [this] at q2
  omega

/-- **C84.** So `-st -path` gives the simple paths between the first and the last vertex. -/
theorem _root_.TdZdd.C84_st_path {text : List Char} (h : readGraph o (some text) none = .ok G) (hL : Limits o G) (hst : o.st = true) (hp : o.path = true) (hm : o.matching = false) (hs : o.spanning = false) (hu : o.uec = none) :
    ∃ D, diagram o G none = some D ∧ Prints D G.info.length fun s => (∃ P, IsPaths G.toGraph (edgesAsg G.info.length s) P) ∧ Bounds o s :=
  C84_path h hL hp hm hs hu (C84_st h hL.loops hst).1

/-- **C84.** `-path` for a graph without colours (no group file and no `-st`): only the empty set. -/
theorem _root_.TdZdd.C84_path_none (h : readGraph o g t = .ok G) (hL : Limits o G) (hp : o.path = true) (hs : o.spanning = false) (hu : o.uec = none) (hlb : ∀ x, o.lb = some x → x ≤ 0) (hub : ∀ x, o.ub = some x → 0 ≤ x)
    (hc : ∀ v, G.color v = 0) : ∃ D, diagram o G none = some D ∧ Prints D G.info.length fun s => s = [] := by
  obtain ⟨D, h1, L, g1, g2, g3⟩ := C84_family h hL
  refine ⟨D, h1, L, g1, fun s => ?_, g3⟩
  rw [g2]
  refine and_congr_right fun p1 => and_congr_right fun p2 => ?_
  have hun : o.uec.getD (if o.path then 0 else -1) = 0 := by rw [hu, hp]; rfl
  have hnone : ∀ b, ¬ Taken G.toGraph (edgesAsg G.info.length []) b := by
    rintro b ⟨_, hb⟩
    unfold DdPaths.edgesAsg at hb
    rw [if_neg (by simp)] at hb
    cases hb
  constructor
  · rintro ⟨_, a2, _⟩
    rw [hun] at a2
    obtain ⟨reps, hr, hz⟩ := a2.count (Int.le_refl 0)
    have hr0 : reps = [] := List.length_eq_zero_iff.1 (by omega)
    subst hr0
    refine List.eq_nil_iff_forall_not_mem.2 fun b hb => ?_
    have hbn := p2 b hb
    have ht : Touched G.toGraph (Taken G.toGraph (edgesAsg G.info.length s)) G.info[b].v1 := by
      refine ⟨b, G.info[b].v2, ⟨hbn, ?_⟩, _, List.getElem?_eq_getElem hbn, .inl ⟨rfl, rfl⟩⟩
      unfold DdPaths.edgesAsg
      rw [if_pos ⟨by omega, by omega, by rw [show G.info.length - (G.info.length - b) = b by omega]; exact hb⟩]
    obtain ⟨r, hr', _⟩ := hr.all _ ht fun v _ => hc v
    cases hr'
  · rintro rfl
    have hd : ∀ v, edgeDegree G.toGraph (edgesAsg G.info.length []) v = 0 := by
      intro v
      unfold edgeDegree
      rw [List.length_eq_zero_iff, List.filter_eq_nil_iff]
      intro i hi
      rw [List.mem_range] at hi
      have : edgesAsg G.info.length [] (G.info.length - i) ≠ 1 := fun hb => hnone i ⟨hi, hb⟩
      simp [this]
    refine ⟨fun v _ _ => ⟨fun h => (by rw [hs] at h; cases h), fun _ _ => by rw [hd]; omega, fun _ _ _ _ => .inl (hd v), fun _ _ h => absurd (hc v) h⟩, ⟨fun u v h => absurd (hc u) h, fun _ b u v hb => absurd hb (hnone b), fun _ => ?_⟩, hlb, hub⟩
    refine ⟨[], ⟨List.Pairwise.nil, fun _ h => (nomatch h), fun u ⟨b, v, hb, _⟩ => absurd hb (hnone b)⟩, by rw [hun]; rfl⟩

/-- the names that are read are numbers -/
theorem groups_names {text : List Char} {C : List (List Char × List Char)} (h : readVertexGroups text = .ok C) : ∀ p ∈ C, ∃ v : Int, p.1 = (toString v).toList := by
  unfold readVertexGroups at h
  have key : ∀ (fuel n : Nat) (s : IStr) (m : List (List Char × List Char)), (∀ p ∈ m, ∃ v : Int, p.1 = (toString v).toList) → nlLoop (fun m n v => setName m (intName v) (getColor n)) fuel n s m = .ok C → ∀ p ∈ C, ∃ v : Int, p.1 = (toString v).toList := by
    intro fuel
    induction fuel with
    | zero => intro n s m _ h; cases h
    | succ fuel ih =>
      intro n s m hm h
      unfold nlLoop at h
      split at h
      · injection h with h; exact h ▸ hm
      · cases e : nlNum n s with
        | thrown => rw [e] at h; cases h
        | ub => rw [e] at h; cases h
        | ok x =>
          obtain ⟨n', v', s'⟩ := x
          rw [e] at h
          cases v' with
          | none =>
            replace h : Res.ok m = .ok C := h
            injection h with h; exact h ▸ hm
          | some v =>
            refine ih _ _ _ (fun p hp => ?_) h
            unfold setName at hp
            split at hp
            · obtain ⟨q, hq, rfl⟩ := List.mem_map.1 hp
              split
              · exact ⟨v, rfl⟩
              · exact hm q hq
            · rcases List.mem_append.1 hp with hp | hp
              · exact hm p hp
              · rw [List.mem_singleton.1 hp]; exact ⟨v, rfl⟩
  exact key _ _ _ [] (fun _ h => nomatch h) h

theorem number_no_v (x : Int) : 'v' ∉ (toString x).toList := by
  have hnat : ∀ n : Nat, 'v' ∉ (Nat.repr n).toList := by
    intro n h
    rw [Nat.toList_repr] at h
    exact absurd (Nat.isDigit_of_mem_toDigits (by decide) (by decide) h) (by decide)
  cases x with
  | ofNat n => exact hnat n
  | negSucc n =>
    show 'v' ∉ ("-" ++ Nat.repr (n + 1)).toList
    rw [String.toList_append, List.mem_append]
    rintro (h | h)
    · exact absurd h (by decide)
    · exact hnat _ h

/-- **C84.** The graph that is used without a graph file cannot have groups from a file, since its vertices are not numbers: there is an exception. -/
theorem _root_.TdZdd.C84_own_groups {text : List Char} {C : List (List Char × List Char)} (hC : readVertexGroups text = .ok C) (hne : C ≠ []) : readGraph o none (some text) = .thrown := by
  have hk := DdPaths.readVertexGroups_keys hC
  have hown : ∃ G, cgUpdate ownEdges ownColors = .ok G := by
    have hd : (match cgUpdate ownEdges ownColors with | .ok _ => true | _ => false) = true := by decide +kernel
    rcases Ps.cgUpdate_of (E := ownEdges) ownColors_keys with ⟨_, h⟩ | h
    · rw [h] at hd; cases hd
    · exact h
  obtain ⟨G0, h0⟩ := hown
  have hbad : cgUpdate ownEdges C = .thrown := by
    rcases Ps.cgUpdate_of (E := ownEdges) hk with ⟨_, h⟩ | ⟨G, h⟩
    · exact h
    · exfalso
      obtain ⟨p, hp⟩ := List.exists_mem_of_ne_nil _ hne
      obtain ⟨e, he, h1⟩ := occ_of hk h p hp
      obtain ⟨x, hx⟩ := groups_names hC p hp
      have hv : ∀ e ∈ ownEdges, 'v' ∈ e.1 ∧ 'v' ∈ e.2 := by decide +kernel
      have := hv e he
      rw [hx] at h1
      rcases h1 with h1 | h1
      · rw [h1] at this; exact number_no_v x this.1
      · rw [h1] at this; exact number_no_v x this.2
  unfold readGraph edgesOf
  simp only [Res.bind, h0, hC, hbad]

/-- **C84.** A graph without edges: there is an exception. -/
theorem _root_.TdZdd.C84_empty {text : List Char} (h : (if o.a then readAdjacencyList text else readEdges text []) = .ok []) : readGraph o (some text) none = .thrown := by
  unfold readGraph edgesOf
  dsimp only
  rw [h]
  rcases Ps.cgUpdate_of (E := ([] : List (List Char × List Char))) (C := ([] : List (List Char × List Char))) List.Pairwise.nil with ⟨_, h⟩ | ⟨G, h⟩
  · simp only [Res.bind, h]
  · have hf := DdPaths.update_facts List.Pairwise.nil h
    have hv : G.vMax = 0 := hf.2.2
    have hi : G.info.length = 0 := hf.2.1.2 rfl
    simp only [Res.bind, h]
    unfold finish
    rw [if_neg (by omega)]
    simp only [Res.bind]
    rw [if_pos hi]

/-! ### Examples and counterexamples -/

/-- the graph of the files -/
def theGraph (o : Opts) (g t : Option String) : CGraph :=
  match readGraph o (g.map String.toList) (t.map String.toList) with
  | .ok G => G
  | _ => ⟨⟨[], 0, fun _ => 0, 0⟩, fun _ => 0, false⟩

theorem theGraph_eq {o : Opts} {g t : Option String} (h : (match readGraph o (g.map String.toList) (t.map String.toList) with | .ok _ => true | _ => false) = true) :
    readGraph o (g.map String.toList) (t.map String.toList) = .ok (theGraph o g t) := by
  unfold theGraph
  cases hg : readGraph o (g.map String.toList) (t.map String.toList) with
  | ok G => rfl
  | thrown => rw [hg] at h; cases h
  | ub => rw [hg] at h; cases h

/-- what is printed -/
def run (o : Opts) (g t : Option String) (base : Option Gz) (k : Int) : Option (String × List (List Nat)) :=
  (diagram o (theGraph o g t) base).bind fun D => output D (theGraph o g t).info.length k (seqSched D) 60 60

/-- the options of the examples -/
def stPath : Opts := { path := true, st := true, a := true }

/-- two triangles with a common edge -/
def kite : String := "2 3\n3 4\n4\n"

-- the paths from 1 to 4
example : ∃ D, diagram stPath (theGraph stPath (some kite) none) none = some D ∧
    Prints D 5 fun s => (∃ P, IsPaths (theGraph stPath (some kite) none).toGraph (edgesAsg 5 s) P) ∧ Bounds stPath s := by
  have hr : readGraph stPath (some kite.toList) none = .ok (theGraph stPath (some kite) none) := theGraph_eq (g := some kite) (t := none) (by decide +kernel)
  have hn : (theGraph stPath (some kite) none).info.length = 5 := by decide +kernel
  obtain ⟨D, h1, h2⟩ := C84_st_path hr ⟨by decide +kernel, by decide +kernel, by omega, fun _ h => (nomatch h), fun _ h => (nomatch h)⟩ rfl rfl rfl rfl rfl
  rw [hn] at h2
  exact ⟨D, h1, h2⟩

example : run stPath (some kite) none none 0 = some ("4", [[1, 4], [1, 2, 3], [0, 3], [0, 2, 4]]) := by decide +kernel

-- the first two of them
example : run stPath (some kite) none none 2 = some ("4", [[1, 4], [1, 2, 3]]) := by decide +kernel

-- the built-in graph: paths from v2 to v3, the first three of 20
example : run { path := true } none none none 3 = some ("20", [[4, 6, 10, 11], [4, 6, 8, 9, 10], [4, 6, 7, 9, 11]]) := by decide +kernel

-- the matchings of a path; names are read from the file
example : run { matching := true } (some "1 2\n2 3\n3 4\n") none none 0 = some ("5", [[], [2], [1], [0], [0, 2]]) := by decide +kernel

-- `-path` without terminals
example : ∃ D, diagram { path := true } (theGraph { path := true } (some "1 2\n2 3\n3 1\n") none) none = some D ∧ Prints D 3 fun s => s = [] := by
  have hr : readGraph { path := true } (some "1 2\n2 3\n3 1\n".toList) none = .ok (theGraph { path := true } (some "1 2\n2 3\n3 1\n") none) := theGraph_eq (g := some _) (t := none) (by decide +kernel)
  have hn : (theGraph { path := true } (some "1 2\n2 3\n3 1\n") none).info.length = 3 := by decide +kernel
  have hv : (theGraph { path := true } (some "1 2\n2 3\n3 1\n") none).vMax = 3 := by decide +kernel
  obtain ⟨r, C, G0, h1, rfl, h3, hm⟩ := readGraph_made hr
  have hc : ∀ v, (theGraph { path := true } (some "1 2\n2 3\n3 1\n") none).color v = 0 := by
    intro v
    have := (Ps.cgUpdate_ok hm.keys hm.update).2
    obtain ⟨_, _, _, hok, _⟩ := this
    by_cases h : v = 1 ∨ v = 2 ∨ v = 3
    · rcases h with rfl | rfl | rfl <;> decide +kernel
    · exact hok.color_out v (by omega)
  obtain ⟨D, h1, h2⟩ := C84_path_none hr ⟨by decide +kernel, by omega, by omega, fun _ h => (nomatch h), fun _ h => (nomatch h)⟩ rfl rfl rfl (fun _ h => nomatch h) (fun _ h => nomatch h) hc
  rw [hn] at h2
  exact ⟨D, h1, h2⟩

-- `-import` of the family {{1}, {2}}, with `-ub 1`, for a graph with three edges: index 1 is the edge 1, index 2 the edge 2
example : ∃ base D, gzParse gzText = .ok base ∧ diagram { ub := some 1 } (theGraph { ub := some 1 } (some "1 2\n2 3\n3 1\n") none) (some base) = some D ∧
    Prints D 3 fun s => Found { ub := some 1 } (theGraph { ub := some 1 } (some "1 2\n2 3\n3 1\n") none).toGraph s ∧ ∃ T, Gz.Mem gzLines (.node 4) T ∧ ∀ b, b < 3 → (b ∈ s ↔ (2 : Int) - (3 : Nat) + b + 1 ∈ T) := by
  have hr : readGraph { ub := some 1 } (some "1 2\n2 3\n3 1\n".toList) none = .ok (theGraph { ub := some 1 } (some "1 2\n2 3\n3 1\n") none) := theGraph_eq (g := some _) (t := none) (by decide +kernel)
  have hn : (theGraph { ub := some 1 } (some "1 2\n2 3\n3 1\n") none).info.length = 3 := by decide +kernel
  obtain ⟨g1, g2, g3, g4, g5, g6⟩ := gzLines_ok
  have := C84_import hr ⟨by decide +kernel, by decide +kernel, by omega, fun _ h => (nomatch h), fun _ h => (nomatch h)⟩ gzText_dump g1 g2 g3 g4 g5 g6 (by decide) (by rw [hn]; decide)
  rw [hn] at this
  exact this

example : (match gzParse gzText with | .ok z => run { ub := some 1 } (some "1 2\n2 3\n3 1\n") none (some z) 0 | _ => none) = some ("2", [[2], [1]]) := by decide +kernel

-- `C84_own_groups` and `C84_empty`
example : readVertexGroups "1 2\n".toList = .ok [("1".toList, "#f0a080".toList), ("2".toList, "#f0a080".toList)] ∧ readEdges "".toList [] = .ok [] ∧ readAdjacencyList "\n".toList = .ok [] := by decide +kernel

/-- **Violated: `-matching -spanning` should give the matchings that cover all vertices.** Both edges of the path 1-2-3 are printed, though vertex 2 has two of them: the constraint of `-spanning` replaces the one of `-matching`. -/
theorem _root_.TdZdd.C84_matching_false : ∃ D, diagram { matching := true, spanning := true } (theGraph { matching := true, spanning := true } (some "1 2\n2 3\n") none) none = some D ∧
    output D 2 0 (seqSched D) 60 60 = some ("1", [[0, 1]]) ∧ EvSched D (seqSched D) ∧ edgeDegree (theGraph { matching := true, spanning := true } (some "1 2\n2 3\n") none).toGraph (edgesAsg 2 [0, 1]) 2 = 2 := by
  have h : run { matching := true, spanning := true } (some "1 2\n2 3\n") none none 0 = some ("1", [[0, 1]]) := by decide +kernel
  have hn : (theGraph { matching := true, spanning := true } (some "1 2\n2 3\n") none).info.length = 2 := by decide +kernel
  unfold run at h
  rw [hn] at h
  obtain ⟨D, h1, h2⟩ := Option.bind_eq_some_iff.1 h
  exact ⟨D, h1, h2, seqSched_ok D, by decide +kernel⟩

/-- **Violated: an imported variable with index `i` should be the edge `i`.** The imported family is {{1}}, the graph has two edges, and the second one is printed: the index of an edge depends on the largest index that occurs in the diagram. -/
theorem _root_.TdZdd.C84_import_false : ∃ z D, gzParse "3 1 B T\n".toList = .ok z ∧ diagram { a := true } (theGraph { a := true } (some "2\n3\n") none) (some z) = some D ∧ EvSched D (seqSched D) ∧
    output D 2 0 (seqSched D) 60 60 = some ("1", [[1]]) := by
  have h : (match gzParse "3 1 B T\n".toList with | .ok z => run { a := true } (some "2\n3\n") none (some z) 0 | _ => none) = some ("1", [[1]]) := by decide +kernel
  have hn : (theGraph { a := true } (some "2\n3\n") none).info.length = 2 := by decide +kernel
  cases e : gzParse "3 1 B T\n".toList with
  | thrown => rw [e] at h; cases h
  | ub => rw [e] at h; cases h
  | ok z =>
    rw [e] at h
    replace h : run { a := true } (some "2\n3\n") none (some z) 0 = some ("1", [[1]]) := h
    unfold run at h
    rw [hn] at h
    obtain ⟨D, h1, h2⟩ := Option.bind_eq_some_iff.1 h
    exact ⟨z, D, rfl, h1, seqSched_ok D, h2⟩

/-- **Violated: `-st` should colour the first and the last vertex with a colour of their own.** If there is a group file, they are put in its first group: here all vertices have the same colour, and with `-path` there is no solution, though 1-2 and 3-4 are edges (vertex 1 has the name 2, the last one the name 1). -/
theorem _root_.TdZdd.C84_st_false : ∃ G, readGraph { path := true, st := true } (some "1 2\n2 3\n3 4\n4 1\n".toList) (some "3 4\n".toList) = .ok G ∧ [1, 2, 3, 4].map G.color = [1, 1, 1, 1] ∧
    run { path := true, st := true } (some "1 2\n2 3\n3 4\n4 1\n") (some "3 4\n") none 0 = some ("0", []) :=
  ⟨theGraph { path := true, st := true } (some "1 2\n2 3\n3 4\n4 1\n") (some "3 4\n"), theGraph_eq (g := some _) (t := some _) (by decide +kernel), by decide +kernel, by decide +kernel⟩

end Gx

end TdZdd
