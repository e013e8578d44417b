import Verif.DdPathsProofs
import Verif.DdPathsOutput
import Verif.Props.ReducerMP
import Verif.Props.BuilderMP

/-! # Properties of the application `ddpaths` (C83) -/

namespace TdZdd

namespace DdPaths

open Sp

/-- The number that is printed for `-count` is the number of the sets of edges with `Q`, and those that are printed for `-all` are exactly these sets, each once. Edges are numbered from 0 in the order of `Graph::edgeInfo`.
The order in which they are printed and the number of them do not depend on the schedule. -/
def Prints (f : DdS) (n : Nat) (Q : List Nat → Prop) : Prop :=
  ∃ L : List (List Nat), L.Nodup ∧ (∀ s, s ∈ L ↔ s.Pairwise (· < ·) ∧ (∀ b ∈ s, b < n) ∧ Q s) ∧
    ∀ sched, EvSched f.dd sched → (∃ fuel steps, output f n sched fuel steps = some (toString L.length, L)) ∧
      ∀ fuel steps r, output f n sched fuel steps = some r → r = (toString L.length, L)

/-- the number of edges is within the bounds that have been given -/
def Bounds (o : Opts) (s : List Nat) : Prop := (∀ x, o.lb = some x → x ≤ s.length) ∧ ∀ x, o.ub = some x → (s.length : Int) ≤ x

theorem inSize_iff {o : Opts} {n : Nat} {s : List Nat} (hn : n ≤ 2147483647) (h1 : s.Pairwise (· < ·)) (h2 : ∀ b ∈ s, b < n) : InSize o (sizeOf n (edgesAsg n s)) ↔ Bounds o s := by
  rw [sizeOf_edges h1 h2]
  have hnd : s.Nodup := h1.imp fun h => Nat.ne_of_lt h
  have hle : s.length ≤ (List.range n).length := hnd.length_le_of_subset fun b hb => List.mem_range.2 (h2 b hb)
  rw [List.length_range] at hle
  unfold InSize Bounds Opts.sized
  cases hlb : o.lb <;> cases hub : o.ub <;> simp <;> omega

theorem prints_of {f : DdS} {n : Nat} {o : Opts} {F : Asg 2 → Prop} (hn : n ≤ 2147483647) (h : f.Is n fun a => F a ∧ InSize o (sizeOf n a)) : Prints f n fun s => F (edgesAsg n s) ∧ Bounds o s := by
  obtain ⟨L, h1, h2, h3⟩ := output_main h
  refine ⟨L, h1, fun s => ?_, h3⟩
  rw [h2]
  refine and_congr_right fun g1 => and_congr_right fun g2 => and_congr_right fun _ => ?_
  exact inSize_iff hn g1 g2

theorem lb_bound {o : Opts} {n : Nat} {e : Par} (he : e.Ok n) (hb : ∀ x, o.lb = some x → (n : Int) - x ≤ 2147483647) : n ≤ 2147483647 ∧ (n : Int) - o.lb.getD 0 ≤ 2147483647 := by
  have := he.bits
  have h0 : n ≤ 2 ^ 20 := by omega
  have h1 : n ≤ 2147483647 := Nat.le_trans h0 (by decide)
  refine ⟨h1, ?_⟩
  cases hlb : o.lb with
  | none =>
    show (n : Int) - 0 ≤ 2147483647
    omega
  | some x => exact hb x hlb

variable {o : Opts} {g : List Char} {t : Option (List Char)} {G : CGraph} {e : Par}

/-- **C83.** Paths and cycles without `-hamilton`, for every graph file and file with vertex groups, with and without `-dc`, `-lb`, `-ub`, `-slow`, `-nola`, `-p`, `-nored`: exactly the wanted sets of edges within the bounds are printed.
For `-p` the number of threads and the schedules are arbitrary. With `-slow` paths are what is in C61. -/
theorem _root_.TdZdd.C83_simple (h : readGraph o g t = .ok G) (hk : o.kind = .path ∨ o.kind = .cycle) (hham : o.hamilton = false) (hl : ∀ x ∈ G.info, x.v1 ≠ x.v2) (hs : G.vMax ≤ 32767)
    (hb : ∀ x, o.lb = some x → (G.info.length : Int) - x ≤ 2147483647) (he : e.Ok G.info.length) :
    ∃ f, diagram e o G = some f ∧ (o.nored = false → f.Reduced) ∧
      Prints f G.info.length fun s => (match o.kind with
        | .path => if o.slow then ∃ l, IsRing G.toGraph (edgesAsg G.info.length s) l else ∃ P, IsPaths G.toGraph (edgesAsg G.info.length s) P
        | _ => ∃ l, IsCycle G.toGraph (edgesAsg G.info.length s) l) ∧ Bounds o s := by
  obtain ⟨E, C, G0, _, hm⟩ := readGraph_made h
  obtain ⟨b1, b2⟩ := lb_bound he hb
  obtain ⟨F, f, hF, _, h1, h2, h3⟩ := diagram_simple hm hk hl hs rfl b2 he
  have hW : ∀ a, F a ↔ Wanted o G.toGraph a := fun a => ⟨hF.sub a, fun hw => hF.sup a hw fun hh => absurd (hh.symm.trans hham) (by decide)⟩
  refine ⟨f, h1, h3, ?_⟩
  have hp := prints_of b1 h2
  refine (funext fun s => propext (and_congr_left fun _ => (hW _).trans ?_) : (fun s => F (edgesAsg G.info.length s) ∧ Bounds o s) = _) ▸ hp
  unfold Wanted
  rcases hk with hk | hk <;> rw [hk] <;> dsimp only
  rw [hham, Bool.not_false, Bool.and_true]

/-- **C83.** Connected components and forests -/
theorem _root_.TdZdd.C83_search (h : readGraph o g t = .ok G) (hk : o.kind = .cc ∨ o.kind = .forest) (hl : ∀ x ∈ G.info, x.v1 ≠ x.v2) (hs : G.vMax ≤ 32766) (h1 : -32768 ≤ o.uec) (h2 : o.uec ≤ 32767)
    (hb : ∀ x, o.lb = some x → (G.info.length : Int) - x ≤ 2147483647) (he : e.Ok G.info.length) :
    ∃ f, diagram e o G = some f ∧ (o.nored = false → f.Reduced) ∧
      Prints f G.info.length fun s => WantedOk G.toGraph o.uec (decide (o.kind = .forest)) (edgesAsg G.info.length s) ∧ Bounds o s := by
  obtain ⟨E, C, G0, _, hm⟩ := readGraph_made h
  obtain ⟨b1, b2⟩ := lb_bound he hb
  obtain ⟨f, g1, g2, g3⟩ := diagram_search hm hk hl hs h1 h2 rfl b2 he
  refine ⟨f, g1, g3, ?_⟩
  have hp := prints_of b1 g2
  refine (funext fun s => propext (and_congr_left fun _ => ?_) : (fun s => Wanted o G.toGraph (edgesAsg G.info.length s) ∧ Bounds o s) = _) ▸ hp
  unfold Wanted
  rcases hk with hk | hk <;> rw [hk] <;> exact Iff.rfl

/-- **C83, in part.** With `-hamilton` only sets of edges that are wanted without it are printed, and all of those that visit all vertices. Missing is that all of them visit all vertices: `C83_hamilton_false`. -/
theorem _root_.TdZdd.C83_hamilton_partial (h : readGraph o g t = .ok G) (hk : o.kind = .path ∨ o.kind = .cycle) (hham : o.hamilton = true) (hl : ∀ x ∈ G.info, x.v1 ≠ x.v2) (hs : G.vMax ≤ 32767)
    (hb : ∀ x, o.lb = some x → (G.info.length : Int) - x ≤ 2147483647) (he : e.Ok G.info.length) :
    ∃ (f : DdS) (Q : List Nat → Prop), diagram e o G = some f ∧ (o.nored = false → f.Reduced) ∧ (Prints f G.info.length fun s => Q s ∧ Bounds o s) ∧
      (∀ s, Q s → match o.kind with
        | .path => ∃ P, IsPaths G.toGraph (edgesAsg G.info.length s) P
        | _ => ∃ l, IsCycle G.toGraph (edgesAsg G.info.length s) l) ∧
      ∀ s, (match o.kind with
        | .path => ∃ P, IsPaths G.toGraph (edgesAsg G.info.length s) P
        | _ => ∃ l, IsCycle G.toGraph (edgesAsg G.info.length s) l) →
        (∀ v, 1 ≤ v → v ≤ G.vMax → ∃ b y, Taken G.toGraph (edgesAsg G.info.length s) b ∧ EdgeJoins G.toGraph b v y) → Q s := by
  obtain ⟨E, C, G0, _, hm⟩ := readGraph_made h
  obtain ⟨b1, b2⟩ := lb_bound he hb
  obtain ⟨F, f, hF, _, h1, h2, h3⟩ := diagram_simple hm hk hl hs rfl b2 he
  have hw : ∀ a, Wanted o G.toGraph a ↔ match o.kind with
        | .path => ∃ P, IsPaths G.toGraph a P
        | _ => ∃ l, IsCycle G.toGraph a l := by
    intro a
    unfold Wanted
    rcases hk with hk | hk <;> rw [hk] <;> dsimp only
    rw [hham, Bool.not_true, Bool.and_false]
    exact Iff.rfl
  exact ⟨f, fun s => F (edgesAsg G.info.length s), h1, h3, prints_of b1 h2, fun s hq => (hw _).1 (hF.sub _ hq), fun s hq hv => hF.sup _ ((hw _).2 hq) fun _ _ => hv⟩

/-! ### The graph -/

section
variable {E C : List (List Char × List Char)}

theorem update_facts (hC : C.Pairwise fun p q => p.1 ≠ q.1) (h : cgUpdate E C = .ok G) : (G.numColor = 0 ↔ C = []) ∧ (G.info.length = 0 ↔ E = []) ∧ G.vMax = (gStack (gUnique E)).length := by
  have hg := (Ps.cgUpdate_ok hC h).1
  refine ⟨?_, ?_, ?_⟩
  · rcases Gr.update_spec E C hC with ⟨e, _⟩ | ⟨G', e, _, _, _, _, ks, hks, hl⟩
    · rw [e] at hg; cases hg
    · rw [e] at hg
      injection hg with hg
      rw [← hg, ← hl]
      constructor
      · intro h0
        cases C with
        | nil => rfl
        | cons p C =>
          have := (hks.2 p.2).2 ⟨p.1, List.mem_cons_self ..⟩
          rw [List.length_eq_zero_iff.1 h0] at this
          cases this
      · rintro rfl
        cases ks with
        | nil => rfl
        | cons k ks =>
          obtain ⟨s, hs⟩ := (hks.2 k).1 (List.mem_cons_self ..)
          cases hs
  · constructor
    · intro h0
      cases E with
      | nil => rfl
      | cons x E =>
        obtain ⟨D, num, h1, h2, h3, hN, _⟩ := C41_update hC hg
        rw [hN.edges] at h0
        rw [List.length_eq_zero_iff.1 h0] at h3
        rcases h3 x (List.mem_cons_self ..) with h | h <;> cases h
    · intro h0
      apply Classical.byContradiction
      intro hl
      exact info_nil hC h hl h0
  · rcases Gr.update_spec E C hC with ⟨e, _⟩ | ⟨G', e, _, hv, _⟩
    · rw [e] at hg; cases hg
    · rw [e] at hg
      injection hg with hg
      rw [← hg]; exact hv

/-- the colours of the graph -/
def colorsOf (o : Opts) (C : List (List Char × List Char)) (n : Nat) : List (List Char × List Char) := if o.kind = .path ∧ C = [] then defaultColor n else C

theorem colorsOf_keys (hC : C.Pairwise fun p q => p.1 ≠ q.1) (n : Nat) : (colorsOf o C n).Pairwise fun p q => p.1 ≠ q.1 := by
  unfold colorsOf
  split
  · exact defaultColor_keys n
  · exact hC

theorem graphOf_eq {C : Option (List (List Char × List Char))} (hC : (C.getD []).Pairwise fun p q => p.1 ≠ q.1) :
    (cgUpdate E (C.getD []) = .thrown ∧ graphOf o E C = .thrown) ∨ ∃ G1, cgUpdate E (C.getD []) = .ok G1 ∧
      ((cgUpdate E (colorsOf o (C.getD []) G1.vMax) = .thrown ∧ graphOf o E C = .thrown) ∨ ∃ G0, cgUpdate E (colorsOf o (C.getD []) G1.vMax) = .ok G0 ∧ G0.vMax = G1.vMax ∧
        graphOf o E C = if E = [] then Res.thrown else if o.kind = .path ∧ G0.pairs = false then .thrown else .ok (if o.kind = .cycle then G0.clearColors else G0)) := by
  rcases Ps.cgUpdate_of (E := E) hC with ⟨_, h⟩ | ⟨G1, h⟩
  · exact .inl ⟨h, by unfold graphOf; rw [h]; rfl⟩
  · refine .inr ⟨G1, h, ?_⟩
    obtain ⟨n1, _, v1⟩ := update_facts hC h
    have hK := colorsOf_keys (o := o) hC G1.vMax
    have hq : (if o.kind = .path ∧ G1.numColor = 0 then cgUpdate E (defaultColor G1.vMax) else .ok G1) = cgUpdate E (colorsOf o (C.getD []) G1.vMax) := by
      unfold colorsOf
      by_cases hp : o.kind = .path ∧ C.getD [] = []
      · rw [if_pos hp, if_pos ⟨hp.1, n1.2 hp.2⟩]
      · rw [if_neg hp, if_neg (fun hh => hp ⟨hh.1, n1.1 hh.2⟩), h]
    have hg : graphOf o E C = adjust o E G1 := by unfold graphOf; rw [h]; rfl
    rcases Ps.cgUpdate_of (E := E) hK with ⟨_, h'⟩ | ⟨G0, h'⟩
    · refine .inl ⟨h', ?_⟩
      rw [hg]; unfold adjust
      rw [hq, h']; rfl
    · obtain ⟨_, i0, v0⟩ := update_facts hK h'
      refine .inr ⟨G0, h', v0.trans v1.symm, ?_⟩
      rw [hg]; unfold adjust
      rw [hq, h']
      show (if G0.info.length = 0 then _ else _) = _
      by_cases he : E = []
      · rw [if_pos he, if_pos (i0.2 he)]
      · rw [if_neg he, if_neg (fun hh => he (i0.1 hh))]

theorem one_name : intName 1 = "1".toList := by decide +kernel

theorem defaultColor_eq {n : Nat} (hn : n ≠ 1) : defaultColor n = [("1".toList, "#ff7777".toList), (decimal n, "#ff7777".toList)] := by
  unfold defaultColor
  rw [if_neg hn, one_name]
  rfl

theorem not_pairs_one (h : cgUpdate E (defaultColor 1) = .ok G) : G.pairs = false := by
  cases hb : G.pairs with
  | false => rfl
  | true =>
    have := (C60_pairs (defaultColor_keys 1) h).1 hb
    have hd : defaultColor 1 = [(intName 1, "#ff7777".toList)] := rfl
    rw [hd] at this
    obtain ⟨q, hq, hne, _⟩ := this.2 _ (List.mem_singleton.2 rfl)
    rw [List.mem_singleton] at hq
    rw [hq] at hne
    exact absurd rfl hne

end

/-- **C83.** The graph: the edges are those of the graph file; the terminals are the groups of the other file, or for paths the vertices 1 and the number of vertices if there are none; for cycles the groups are forgotten. -/
theorem _root_.TdZdd.C83_graph (h : readGraph o g t = .ok G) :
    ∃ E C G0, readAdjacencyList g = .ok E ∧ E ≠ [] ∧ (C.Pairwise fun p q => p.1 ≠ q.1) ∧ cgUpdate E C = .ok G0 ∧ (o.kind ≠ .cycle → G = G0) ∧ (o.kind = .cycle → G = G0.clearColors) ∧
      ∃ C0, (match t with
        | none => C0 = []
        | some t => readVertexGroups t = .ok C0) ∧
        (o.kind = .path → C0 = [] → C = [("1".toList, "#ff7777".toList), (decimal G.vMax, "#ff7777".toList)]) ∧ ((o.kind ≠ .path ∨ C0 ≠ []) → C = C0) ∧
        (o.kind = .path → ∀ p ∈ C, ∃ q ∈ C, q.1 ≠ p.1 ∧ q.2 = p.2 ∧ ∀ r ∈ C, r.2 = p.2 → r = p ∨ r = q) := by
  unfold readGraph at h
  cases e1 : readAdjacencyList g with
  | thrown => rw [e1] at h; cases h
  | ub => rw [e1] at h; cases h
  | ok E =>
    rw [e1] at h
    simp only [Res.bind] at h
    have key : ∀ (Cm : Option (List (List Char × List Char))) (C0 : List (List Char × List Char)), Cm.getD [] = C0 → (C0.Pairwise fun p q => p.1 ≠ q.1) → graphOf o E Cm = .ok G →
        ∃ C G0, E ≠ [] ∧ (C.Pairwise fun p q => p.1 ≠ q.1) ∧ cgUpdate E C = .ok G0 ∧ (o.kind ≠ .cycle → G = G0) ∧ (o.kind = .cycle → G = G0.clearColors) ∧
          (o.kind = .path → C0 = [] → C = [("1".toList, "#ff7777".toList), (decimal G.vMax, "#ff7777".toList)]) ∧ ((o.kind ≠ .path ∨ C0 ≠ []) → C = C0) ∧
          (o.kind = .path → ∀ p ∈ C, ∃ q ∈ C, q.1 ≠ p.1 ∧ q.2 = p.2 ∧ ∀ r ∈ C, r.2 = p.2 → r = p ∨ r = q) := by
      rintro Cm C0 rfl hC hg
      rcases graphOf_eq (o := o) (E := E) hC with ⟨_, h'⟩ | ⟨G1, hu1, ⟨_, h'⟩ | ⟨G0, hu0, hv, h'⟩⟩
      · rw [h'] at hg; cases hg
      · rw [h'] at hg; cases hg
      rw [h'] at hg
      split at hg
      · cases hg
      next hE =>
        split at hg
        · cases hg
        next hp =>
          injection hg with hg
          have hK := colorsOf_keys (o := o) hC G1.vMax
          have hGv : G.vMax = G0.vMax := by rw [← hg]; split <;> rfl
          have hpr : o.kind = .path → G0.pairs = true := fun hk => by
            cases hb : G0.pairs
            · exact absurd ⟨hk, hb⟩ hp
            · rfl
          refine ⟨_, G0, hE, hK, hu0, fun hk => ?_, fun hk => ?_, fun hk hn => ?_, fun hor => ?_, fun hk => ((C60_pairs hK hu0).1 (hpr hk)).2⟩
          · rw [← hg, if_neg hk]
          · rw [← hg, if_pos hk]
          · unfold colorsOf at hu0 ⊢
            rw [if_pos ⟨hk, hn⟩] at hu0 ⊢
            by_cases h1 : G1.vMax = 1
            · rw [h1] at hu0
              rw [not_pairs_one hu0] at hpr
              exact absurd (hpr hk) (by decide)
            · rw [defaultColor_eq h1, hGv, hv]
          · unfold colorsOf
            rw [if_neg]
            rintro ⟨h1, h2⟩
            rcases hor with h | h
            · exact h h1
            · exact h h2
    split at h
    case h_1 =>
      cases t with
      | none =>
        obtain ⟨C, G0, h1, h2, h3, h4, h5, h6⟩ := key none [] rfl List.Pairwise.nil h
        exact ⟨E, C, G0, rfl, h1, h2, h3, h4, h5, [], rfl, h6⟩
      | some t =>
        dsimp only at h
        cases e2 : readVertexGroups t with
        | thrown => rw [e2] at h; cases h
        | ub => rw [e2] at h; cases h
        | ok C0 =>
          rw [e2] at h
          obtain ⟨C, G0, h1, h2, h3, h4, h5, h6⟩ := key (some C0) C0 rfl (readVertexGroups_keys e2) h
          exact ⟨E, C, G0, rfl, h1, h2, h3, h4, h5, C0, e2, h6⟩
    all_goals cases h

/-- **C83.** When both files have been read, an error is reported exactly when there is no edge, `update()` fails (C41), or it is about paths and either a group has not exactly two vertices or there are no groups and no vertices named 1 and as the number of vertices, or these are the same. -/
theorem _root_.TdZdd.C83_errors {E : List (List Char × List Char)} {C : Option (List (List Char × List Char))} (hC : (C.getD []).Pairwise fun p q => p.1 ≠ q.1) :
    (graphOf o E C = .thrown ∨ ∃ G, graphOf o E C = .ok G) ∧
    ((∃ G, graphOf o E C = .ok G) ↔ ∃ G0, cgUpdate E (C.getD []) = .ok G0 ∧ E ≠ [] ∧
      (o.kind = .path → C.getD [] ≠ [] → ∀ p ∈ C.getD [], ∃ q ∈ C.getD [], q.1 ≠ p.1 ∧ q.2 = p.2 ∧ ∀ r ∈ C.getD [], r.2 = p.2 → r = p ∨ r = q) ∧
      (o.kind = .path → C.getD [] = [] → G0.vMax ≠ 1 ∧ (∃ x ∈ E, x.1 = "1".toList ∨ x.2 = "1".toList) ∧ ∃ x ∈ E, x.1 = decimal G0.vMax ∨ x.2 = decimal G0.vMax)) := by
  rcases graphOf_eq (o := o) (E := E) hC with ⟨h1, h'⟩ | ⟨G1, hu1, ⟨h2, h'⟩ | ⟨G0, hu0, hv, h'⟩⟩
  · refine ⟨.inl h', fun ⟨G, hG⟩ => ?_, fun ⟨G0, hG, _⟩ => ?_⟩
    · rw [h'] at hG; cases hG
    · rw [h1] at hG; cases hG
  · refine ⟨.inl h', fun ⟨G, hG⟩ => ?_, fun ⟨G0, hG, hE, hp1, hp2⟩ => ?_⟩
    · rw [h'] at hG; cases hG
    · rw [hu1] at hG
      injection hG with hG
      subst hG
      exfalso
      unfold colorsOf at h2
      by_cases hp : o.kind = .path ∧ C.getD [] = []
      · rw [if_pos hp] at h2
        obtain ⟨n1, o1, o2⟩ := hp2 hp.1 hp.2
        have hK := defaultColor_keys G1.vMax
        have hg2 : gUpdate E (defaultColor G1.vMax) = .thrown := by
          rcases Ps.cgUpdate_of (E := E) hK with ⟨h, _⟩ | ⟨G2, h⟩
          · exact h
          · rw [h2] at h; cases h
        have hg1 := (Ps.cgUpdate_ok hC hu1).1
        rcases (C41_throws E _ hK).2.1 hg2 with h | ⟨p, hpm, h⟩ | ⟨ks, k1, k2, k3⟩
        · have := (C41_throws E _ hC).2.2 (.inl h)
          rw [hg1] at this; cases this
        · rw [defaultColor_eq n1] at hpm
          simp only [List.mem_cons, List.not_mem_nil, or_false] at hpm
          rcases hpm with rfl | rfl
          · obtain ⟨x, hx, h'⟩ := o1
            exact h'.elim (h x hx).1 (h x hx).2
          · obtain ⟨x, hx, h'⟩ := o2
            exact h'.elim (h x hx).1 (h x hx).2
        · have : ks.length ≤ ["#ff7777".toList].length := k1.length_le_of_subset fun k hk => by
            obtain ⟨s, hs⟩ := k2 k hk
            rw [defaultColor_eq n1] at hs
            simp only [List.mem_cons, List.not_mem_nil, or_false, Prod.mk.injEq] at hs
            rcases hs with ⟨_, e⟩ | ⟨_, e⟩ <;> (rw [e]; exact List.mem_singleton.2 rfl)
          simp only [List.length_cons, List.length_nil] at this
          omega
      · rw [if_neg hp, hu1] at h2
        cases h2
  · have hK := colorsOf_keys (o := o) hC G1.vMax
    have hpairs := C60_pairs hK hu0
    have hocc := occ_of hK hu0
    refine ⟨?_, fun ⟨G, hG⟩ => ⟨G1, hu1, ?_⟩, fun ⟨G2, hG, hE, hp1, hp2⟩ => ?_⟩
    · rw [h']
      by_cases hE : E = []
      · rw [if_pos hE]; exact .inl rfl
      · rw [if_neg hE]
        split
        · exact .inl rfl
        · exact .inr ⟨_, rfl⟩
    · rw [h'] at hG
      split at hG
      · cases hG
      next hE =>
        split at hG
        · cases hG
        next hp =>
          have hpr : o.kind = .path → G0.pairs = true := fun hk => by
            cases hb : G0.pairs
            · exact absurd ⟨hk, hb⟩ hp
            · rfl
          refine ⟨hE, fun hk hne => ?_, fun hk hne => ?_⟩
          · have := hpairs.1 (hpr hk)
            unfold colorsOf at this
            rw [if_neg (fun hh => hne hh.2)] at this
            exact this.2
          · unfold colorsOf at hu0 hocc
            rw [if_pos ⟨hk, hne⟩] at hu0 hocc
            have n1 : G1.vMax ≠ 1 := fun h1 => by
              rw [h1] at hu0
              rw [not_pairs_one hu0] at hpr
              exact absurd (hpr hk) (by decide)
            rw [defaultColor_eq n1] at hocc
            exact ⟨n1, hocc _ (List.mem_cons_self ..), hocc _ (List.mem_cons_of_mem _ (List.mem_cons_self ..))⟩
    · rw [hu1] at hG
      injection hG with hG
      subst hG
      rw [h', if_neg hE]
      by_cases hk : o.kind = .path
      · have : G0.pairs = true := by
          rw [hpairs]
          unfold colorsOf
          by_cases hn : C.getD [] = []
          · obtain ⟨n1, _⟩ := hp2 hk hn
            rw [if_pos ⟨hk, hn⟩, defaultColor_eq n1]
            have hne : decimal G1.vMax ≠ "1".toList := fun hd => n1 (by have := Rd.decimal_inj (hd.trans one_name.symm); omega)
            refine ⟨by simp, fun p hp => ?_⟩
            simp only [List.mem_cons, List.not_mem_nil, or_false] at hp ⊢
            rcases hp with rfl | rfl
            · exact ⟨_, .inr rfl, hne, rfl, fun r hr _ => hr⟩
            · exact ⟨_, .inl rfl, Ne.symm hne, rfl, fun r hr _ => hr.symm⟩
          · rw [if_neg (fun hh => hn hh.2)]
            exact ⟨hn, hp1 hk hn⟩
        rw [if_neg (fun hh => by rw [this] at hh; exact absurd hh.2 (by decide))]
        exact ⟨_, rfl⟩
      · rw [if_neg (fun hh => hk hh.1)]
        exact ⟨_, rfl⟩

/-! ### `-slow` -/

/-- **C83.** With one pair of terminals `-slow` does not change what is printed. -/
theorem _root_.TdZdd.C83_slow_one (h : readGraph o g t = .ok G) (hk : o.kind = .path) (hl : ∀ x ∈ G.info, x.v1 ≠ x.v2) (hs : G.vMax ≤ 32767) (h1 : G.numColor = 1) (a : Asg 2) :
    (∃ l, IsRing G.toGraph a l) ↔ ∃ P, IsPaths G.toGraph a P := by
  obtain ⟨E, C, G0, _, hm⟩ := readGraph_made h
  obtain ⟨hH, _⟩ := hm.hyp hl hs
  have hP := hm.pairs' hk
  have hG : G = G0 := by rw [hm.graph, hk]; rfl
  subst hG
  obtain ⟨s, u, hsu, hc⟩ := hP.two 1 (by omega) (by omega)
  rw [← Ps.ring_iff, Ps.one_iff hH.toHyp h1 hsu hc, Sp.path_iff hH.toHyp hP]

/-- **C83 is violated for `-slow` with more than one pair:** no set of paths is printed, then. -/
theorem _root_.TdZdd.C83_slow_false (h : readGraph o g t = .ok G) (hk : o.kind = .path) (hslow : o.slow = true) (hham : o.hamilton = false) (hl : ∀ x ∈ G.info, x.v1 ≠ x.v2) (hs : G.vMax ≤ 32767)
    (hb : ∀ x, o.lb = some x → (G.info.length : Int) - x ≤ 2147483647) (he : e.Ok G.info.length) (h2 : 2 ≤ G.numColor) :
    ∃ f, diagram e o G = some f ∧ ∃ Q : List Nat → Prop, Prints f G.info.length Q ∧ ∀ s P, IsPaths G.toGraph (edgesAsg G.info.length s) P → ¬ Q s := by
  obtain ⟨f, h3, _, h4⟩ := C83_simple h (.inl hk) hham hl hs hb he
  refine ⟨f, h3, _, h4, fun s P hP' hQ => ?_⟩
  rw [hk, hslow] at hQ
  obtain ⟨E, C, G0, _, hm⟩ := readGraph_made h
  obtain ⟨hH, _⟩ := hm.hyp hl hs
  have hP := hm.pairs' hk
  have hG : G = G0 := by rw [hm.graph, hk]; rfl
  subst hG
  exact Ps.not_both hH.toHyp hP h2 ((Sp.path_iff hH.toHyp hP).2 ⟨P, hP'⟩) (Ps.ring_iff.2 hQ.1)

/-! ### Examples -/

/-- two threads, everything backwards -/
def samplePar : Par where
  threads := 2
  buildTasks := 5
  redTasks := 3
  build _ S _ := revSched 2 S 2
  edges _ D i := (rowEdges (D.table.row i)).reverse
  red _ D i := sampleSched (D.table.row i).length

theorem samplePar_ok {n : Nat} (h : n ≤ 1000) : samplePar.Ok n where
  threads := by decide
  buildTasks := by decide
  redTasks := by decide
  bits := Nat.le_trans (Nat.add_le_add_right h 3) (by decide)
  build _ _ _ := revSched_ok (by decide)
  edges _ _ _ _ := List.reverse_perm _
  red _ _ _ _ _ := sampleSched_ok _

/-- the graph of the files -/
def theGraph (o : Opts) (g : String) (t : Option String) : CGraph :=
  match readGraph o g.toList (t.map String.toList) with
  | .ok G => G
  | _ => ⟨⟨[], 0, fun _ => 0, 0⟩, fun _ => 0, false⟩

theorem theGraph_eq {o : Opts} {g : String} {t : Option String} (h : (match readGraph o g.toList (t.map String.toList) with | .ok _ => true | _ => false) = true) : readGraph o g.toList (t.map String.toList) = .ok (theGraph o g t) := by
  unfold theGraph
  cases hg : readGraph o g.toList (t.map String.toList) with
  | ok G => rfl
  | thrown => rw [hg] at h; cases h
  | ub => rw [hg] at h; cases h

/-- two triangles with a common edge -/
def kite : String := "2 3\n3 4\n4\n"

-- the hypotheses of `C83_simple` and what is printed: the four paths from 1 to 4
example : ∃ G f, readGraph { p := true } kite.toList none = .ok G ∧ (∀ x ∈ G.info, x.v1 ≠ x.v2) ∧ G.vMax = 4 ∧ G.info.length = 5 ∧ G.numColor = 1 ∧ samplePar.Ok 5 ∧
    diagram samplePar { p := true } G = some f ∧ f.Reduced ∧ Prints f 5 fun s => (∃ P, IsPaths G.toGraph (edgesAsg 5 s) P) ∧ Bounds { p := true } s := by
  have hr : readGraph { p := true } kite.toList none = .ok (theGraph { p := true } kite none) := theGraph_eq (t := none) (by decide +kernel)
  have hn : (theGraph { p := true } kite none).info.length = 5 := by decide +kernel
  have hl : ∀ x ∈ (theGraph { p := true } kite none).info, x.v1 ≠ x.v2 := by decide +kernel
  obtain ⟨f, h1, h2, h3⟩ := C83_simple (e := samplePar) hr (.inl rfl) rfl hl (by decide +kernel) (fun x hx => nomatch hx) (hn ▸ samplePar_ok (by decide))
  rw [hn] at h3
  exact ⟨_, f, hr, hl, by decide +kernel, hn, by decide +kernel, samplePar_ok (by decide), h1, h2 rfl, h3⟩

example : ((diagram samplePar { p := true } (theGraph { p := true } kite none)).bind fun f => output f 5 (seqSched f.dd) 40 40) = some ("4", [[1, 4], [1, 2, 3], [0, 3], [0, 2, 4]]) := by decide +kernel

-- at most two edges, with `-dc`
example : ((diagram samplePar { p := true, dc := true, ub := some 2 } (theGraph {} kite none)).bind fun f => output f 5 (seqSched f.dd) 40 40) = some ("2", [[1, 4], [0, 3]]) := by decide +kernel

-- cycles
example : ((diagram samplePar { kind := .cycle } (theGraph { kind := .cycle } kite none)).bind fun f => output f 5 (seqSched f.dd) 40 40) = some ("3", [[2, 3, 4], [0, 1, 3, 4], [0, 1, 2]]) := by decide +kernel

-- the hypotheses of `C83_search`: forests, 1 and 4 in one tree, at least three edges
example : ∃ f, diagram samplePar { kind := .forest, lb := some 3 } (theGraph { kind := .forest, lb := some 3 } kite (some "1 4\n")) = some f ∧ f.Reduced ∧
    Prints f 5 fun s => WantedOk (theGraph { kind := .forest, lb := some 3 } kite (some "1 4\n")).toGraph (-1) true (edgesAsg 5 s) ∧ Bounds { kind := .forest, lb := some 3 } s := by
  have hr : readGraph { kind := .forest, lb := some 3 } kite.toList (some "1 4\n".toList) = .ok (theGraph { kind := .forest, lb := some 3 } kite (some "1 4\n")) := theGraph_eq (t := some "1 4\n") (by decide +kernel)
  have hn : (theGraph { kind := .forest, lb := some 3 } kite (some "1 4\n")).info.length = 5 := by decide +kernel
  obtain ⟨f, h1, h2, h3⟩ := C83_search (e := samplePar) hr (.inr rfl) (by decide +kernel) (by decide +kernel) (by decide) (by decide) (fun x hx => by injection hx with hx; omega) (hn ▸ samplePar_ok (by decide))
  rw [hn] at h3
  exact ⟨f, h1, h2 rfl, h3⟩

-- the hypotheses of `C83_hamilton_partial`: cycles
example : ∃ G, readGraph { kind := .cycle, hamilton := true } kite.toList none = .ok G ∧ (∀ x ∈ G.info, x.v1 ≠ x.v2) ∧ G.vMax ≤ 32767 ∧ samplePar.Ok G.info.length ∧
    ((diagram samplePar { kind := .cycle, hamilton := true } G).bind fun f => output f 5 (seqSched f.dd) 40 40) = some ("1", [[0, 1, 3, 4]]) :=
  ⟨theGraph { kind := .cycle, hamilton := true } kite none, theGraph_eq (t := none) (by decide +kernel), by decide +kernel, by decide +kernel, samplePar_ok (by decide +kernel), by decide +kernel⟩

-- the hypotheses of `C83_errors`: with one edge fewer the vertex 4 does not exist, but there are three vertices; a group of three
example : (graphOf {} [("1".toList, "2".toList), ("2".toList, "3".toList)] none matches .ok _) = true ∧ graphOf {} [("1".toList, "2".toList), ("2".toList, "5".toList)] none matches .thrown ∧
    graphOf { kind := .forest } [("1".toList, "2".toList), ("2".toList, "5".toList)] none matches .ok _ ∧
    graphOf {} [("1".toList, "2".toList), ("2".toList, "3".toList)] (some [("1".toList, ['x']), ("2".toList, ['x']), ("3".toList, ['x'])]) matches .thrown := by decide +kernel

/-- **C83 is violated for `-hamilton`:** of the path 1 2 3 with the terminals 1 and 2 the edge from 1 to 2 is printed; it does not visit vertex 3. -/
theorem _root_.TdZdd.C83_hamilton_false : ∃ G, readGraph { hamilton := true } "2\n3\n".toList (some "1 2\n".toList) = .ok G ∧ G.vMax = 3 ∧ G.info.length = 2 ∧
    ∀ e, e.Ok 2 → ∃ f Q, diagram e { hamilton := true } G = some f ∧ Prints f 2 Q ∧ Q [0] ∧ ∀ b y, Taken G.toGraph (edgesAsg 2 [0]) b → ¬ EdgeJoins G.toGraph b 3 y := by
  have hr : readGraph { hamilton := true } "2\n3\n".toList (some "1 2\n".toList) = .ok (theGraph { hamilton := true } "2\n3\n" (some "1 2\n")) := theGraph_eq (t := some "1 2\n") (by decide +kernel)
  have hn : (theGraph { hamilton := true } "2\n3\n" (some "1 2\n")).info.length = 2 := by decide +kernel
  refine ⟨_, hr, by decide +kernel, hn, fun e he => ?_⟩
  obtain ⟨E, C, G0, _, hm⟩ := readGraph_made hr
  obtain ⟨F, f, _, hw, h1, h2, _⟩ := diagram_simple hm (.inl rfl) (by decide +kernel) (by decide +kernel) hn (by decide) he
  replace hw : Good 2 F (hamiltonPathZdd (theGraph { hamilton := true } "2\n3\n" (some "1 2\n")).toGraph true) := hw
  refine ⟨f, _, h1, prints_of (by decide) h2, ⟨?_, fun x hx => (nomatch hx), fun x hx => (nomatch hx)⟩, ?_⟩
  · rw [← hw.mem, ← zddRun_mem hw.lawful.toDesc hw.root]
    decide +kernel
  · rintro b y ⟨k1, k2⟩ ⟨x, hx, k3⟩
    have key : ∀ b, b < 2 → edgesAsg 2 [0] (2 - b) = 1 → (theGraph { hamilton := true } "2\n3\n" (some "1 2\n")).info[b]?.all (fun x => x.v1 ≠ 3 ∧ x.v2 ≠ 3) = true := by decide +kernel
    rw [hn] at k1 k2
    have := key b k1 k2
    rw [hx] at this
    simp at this
    omega

-- the hypotheses of `C83_slow_false`: the square with the pairs 1 2 and 3 4; printed are the edges from 1 to 3 and from 2 to 4
example : ∃ G, readGraph { slow := true } "2 3\n4\n4\n".toList (some "1 2\n3 4\n".toList) = .ok G ∧ (∀ x ∈ G.info, x.v1 ≠ x.v2) ∧ G.vMax ≤ 32767 ∧ samplePar.Ok G.info.length ∧ G.numColor = 2 ∧
    ((diagram samplePar { slow := true } G).bind fun f => output f 4 (seqSched f.dd) 40 40) = some ("1", [[1, 2]]) ∧
    ((diagram samplePar {} G).bind fun f => output f 4 (seqSched f.dd) 40 40) = some ("1", [[0, 3]]) :=
  ⟨theGraph { slow := true } "2 3\n4\n4\n" (some "1 2\n3 4\n"), theGraph_eq (t := some "1 2\n3 4\n") (by decide +kernel), by decide +kernel, by decide +kernel, samplePar_ok (by decide +kernel), by decide +kernel, by decide +kernel, by decide +kernel⟩

end DdPaths

end TdZdd
