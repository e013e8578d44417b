import Verif.GraphillionApp
import Verif.DdPathsOutput
import Verif.DdPathsProofs
import Verif.NumlinAppProofs
import Verif.Props.SizeConstraint

/-! What the application `graphillion_example` builds and prints. -/

namespace TdZdd

namespace Gx

open DdPaths (edgesAsg sizeOf)

/-- a specification for the family `F` -/
structure Fine {S : Type} (n : Nat) (F : Asg 2 → Prop) (sp : DdSpec 2 S) : Prop where
  lawful : LawfulC sp
  nomerge : NoMerge sp
  root : sp.root.1 ≤ n
  mem : ∀ a, ZddMem sp n a ↔ F a

theorem Fine.inter {S T : Type} {n : Nat} {F H : Asg 2 → Prop} {s1 : DdSpec 2 S} {s2 : DdSpec 2 T} (h1 : Fine n F s1) (h2 : Fine n H s2) : Fine n (fun a => F a ∧ H a) (zddIntersection s1 s2) where
  lawful := C26_zddIntersection _ _ h1.lawful h2.lawful
  nomerge p q := by
    show s1.merge p.1 q.1 ||| s2.merge p.2 q.2 = 0
    rw [h1.nomerge, h2.nomerge]; rfl
  root := Nl.inter_le h1.lawful.toDesc h2.lawful.toDesc h1.root
  mem a := (C18_zddIntersection _ _ h1.lawful.toDesc h2.lawful.toDesc n h1.root h2.root a).trans (and_congr (h1.mem a) (h2.mem a))

/-! ### The graph -/

/-- the graph that has been read -/
structure Made (E C : List (List Char × List Char)) (G : CGraph) : Prop where
  keys : C.Pairwise fun p q => p.1 ≠ q.1
  update : cgUpdate E C = .ok G
  edges : E ≠ []

variable {o : Opts} {E C : List (List Char × List Char)} {G : CGraph}

theorem finish_made (hC : C.Pairwise fun p q => p.1 ≠ q.1) {G0 : CGraph} (hu : cgUpdate E C = .ok G0) (h : finish o E C G0 = .ok G) :
    Made E (if o.st = true ∧ 1 ≤ G0.vMax then colorEnds E C G0.vMax else C) G := by
  unfold finish at h
  have key : ∀ {C' : List (List Char × List Char)} {G1 : CGraph}, (C'.Pairwise fun p q => p.1 ≠ q.1) → cgUpdate E C' = .ok G1 → (if G1.info.length = 0 then Res.thrown else .ok G1) = .ok G → Made E C' G := by
    intro C' G1 hk hu h
    split at h
    · cases h
    next hl =>
      injection h with h
      subst h
      exact ⟨hk, hu, DdPaths.info_nil hk hu hl⟩
  by_cases hst : o.st = true ∧ 1 ≤ G0.vMax
  · rw [if_pos hst] at h ⊢
    have hk : (colorEnds E C G0.vMax).Pairwise fun p q => p.1 ≠ q.1 := Rd.setName_keys (Rd.setName_keys hC)
    cases hu' : cgUpdate E (colorEnds E C G0.vMax) with
    | thrown => rw [hu'] at h; cases h
    | ub => rw [hu'] at h; cases h
    | ok G1 =>
      rw [hu'] at h
      exact key hk hu' h
  · rw [if_neg hst] at h ⊢
    exact key hC hu h

theorem ownColors_keys : ownColors.Pairwise fun p q => p.1 ≠ q.1 := by decide +kernel

theorem edgesOf_keys {g : Option (List Char)} {r : List (List Char × List Char) × List (List Char × List Char)} (h : edgesOf o g = .ok r) : r.2.Pairwise fun p q => p.1 ≠ q.1 := by
  cases g with
  | none =>
    injection h with h
    subst h
    exact ownColors_keys
  | some t =>
    replace h : ((if o.a then readAdjacencyList t else readEdges t []).bind fun E => .ok (E, [])) = Res.ok r := h
    cases e : (if o.a then readAdjacencyList t else readEdges t []) with
    | thrown => rw [e] at h; cases h
    | ub => rw [e] at h; cases h
    | ok E =>
      rw [e] at h
      injection h with h
      subst h
      exact List.Pairwise.nil

/-- what `readGraph` does when it succeeds -/
theorem readGraph_made {g t : Option (List Char)} (h : readGraph o g t = .ok G) :
    ∃ r C G0, edgesOf o g = .ok r ∧ (match t with | none => C = r.2 | some t => readVertexGroups t = .ok C) ∧ cgUpdate r.1 C = .ok G0 ∧
      Made r.1 (if o.st = true ∧ 1 ≤ G0.vMax then colorEnds r.1 C G0.vMax else C) G := by
  unfold readGraph at h
  cases e1 : edgesOf o g with
  | thrown => rw [e1] at h; cases h
  | ub => rw [e1] at h; cases h
  | ok r =>
    rw [e1] at h
    have hk := edgesOf_keys e1
    simp only [Res.bind] at h
    split at h
    case h_1 =>
      have key : ∀ C, (C.Pairwise fun p q => p.1 ≠ q.1) → (cgUpdate r.1 C).bind (finish o r.1 C) = .ok G → ∃ G0, cgUpdate r.1 C = .ok G0 ∧ Made r.1 (if o.st = true ∧ 1 ≤ G0.vMax then colorEnds r.1 C G0.vMax else C) G := by
        intro C hC h
        cases e : cgUpdate r.1 C with
        | thrown => rw [e] at h; cases h
        | ub => rw [e] at h; cases h
        | ok G0 =>
          rw [e] at h
          exact ⟨G0, rfl, finish_made hC e h⟩
      cases t with
      | none =>
        obtain ⟨G0, h1, h2⟩ := key _ hk h
        exact ⟨r, r.2, G0, rfl, rfl, h1, h2⟩
      | some t =>
        dsimp only at h
        cases e2 : readVertexGroups t with
        | thrown => rw [e2] at h; cases h
        | ub => rw [e2] at h; cases h
        | ok C0 =>
          rw [e2] at h
          obtain ⟨G0, h1, h2⟩ := key _ (DdPaths.readVertexGroups_keys e2) h
          exact ⟨r, C0, G0, rfl, e2, h1, h2⟩
    all_goals cases h

theorem Made.noLoops (h : Made E C G) (hl : ∀ e ∈ G.info, e.v1 ≠ e.v2) : ∀ e ∈ E, e.1 ≠ e.2 :=
  DdPaths.Made.noLoops (o := { kind := .cc }) (G0 := G) ⟨h.keys, h.update, h.edges, (nomatch ·), rfl⟩ hl

theorem Made.hyp (h : Made E C G) (hl : ∀ e ∈ G.info, e.v1 ≠ e.v2) (hs : G.vMax ≤ 32767) : Ps.Hyp G ∧ 0 < G.info.length :=
  Ps.hyp_of h.keys h.update h.edges (h.noLoops hl) hs

/-! ### The specifications -/

/-- the condition on the degree of the vertex `v` -/
def DegOk (o : Opts) (G : Graph) (v d : Nat) : Prop :=
  if o.spanning = true ∧ G.color v = 0 then 1 ≤ d
  else if o.matching = true then d ≤ 1
  else if o.path = true then (if G.color v = 0 then d = 0 ∨ d = 2 else d = 1)
  else True

theorem contains_iff {lo hi st x : Int} (h0 : st ≠ 0) (hd : x - lo ≤ 2147483647) : (intRange lo hi st).contains x = true ↔ lo ≤ x ∧ x ≤ hi ∧ ∃ k, x = lo + k * st := by
  obtain ⟨r, h1, h2⟩ := C38_contains lo hi st x h0 (by omega)
  show (intRangeContains lo hi st x).getD false = true ↔ _
  rw [h1]; exact h2

theorem degOk_iff {v d : Nat} (hd : d ≤ 32767) (h1 : 1 ≤ v) (h2 : v ≤ G.vMax) : (∀ c, degrees o G v = some c → c.contains d = true) ↔ DegOk o G.toGraph v d := by
  unfold degrees DegOk
  rw [if_pos ⟨h1, h2⟩]
  have one : ∀ x : Option IntSubset, ∀ c, x = some c → ((∀ c', x = some c' → c'.contains d = true) ↔ c.contains d = true) := by
    rintro x c rfl
    exact ⟨fun h => h c rfl, fun h c' e => by injection e with e; rw [← e]; exact h⟩
  by_cases hs : o.spanning = true ∧ G.color v = 0
  · rw [if_pos hs, if_pos hs, one _ _ rfl, contains_iff (by decide) (by omega)]
    exact ⟨fun h => by omega, fun h => ⟨by omega, by omega, _, show (d : Int) = 1 + ((d : Int) - 1) * 1 by omega⟩⟩
  · rw [if_neg hs, if_neg hs]
    by_cases hm : o.matching = true
    · rw [if_pos hm, if_pos hm, one _ _ rfl, contains_iff (by decide) (by omega)]
      exact ⟨fun h => by omega, fun h => ⟨by omega, by omega, _, show (d : Int) = 0 + (d : Int) * 1 by omega⟩⟩
    · rw [if_neg hm, if_neg hm]
      by_cases hp : o.path = true
      · rw [if_pos hp, if_pos hp, one _ _ rfl]
        by_cases hc : G.color v = 0
        · rw [if_pos hc, if_pos hc, contains_iff (by decide) (by omega)]
          constructor
          · rintro ⟨_, h2, k, hk⟩; omega
          · rintro (rfl | rfl)
            · exact ⟨by omega, by omega, 0, by omega⟩
            · exact ⟨by omega, by omega, 1, by omega⟩
        · rw [if_neg hc, if_neg hc, contains_iff (by decide) (by omega)]
          exact ⟨fun h => by omega, fun h => ⟨by omega, by omega, 0, by omega⟩⟩
      · rw [if_neg hp, if_neg hp]
        exact ⟨fun _ => trivial, fun _ c e => nomatch e⟩

theorem degrees_range {v : Nat} {c : IntSubset} (h : degrees o G v = some c) : ∃ lo hi st, c = intRange lo hi st := by
  unfold degrees at h
  repeat' split at h
  all_goals first | (injection h with h; exact ⟨_, _, _, h.symm⟩) | cases h

/-- the degree constraint -/
theorem dc_fine (h : Made E C G) (hl : ∀ e ∈ G.info, e.v1 ≠ e.v2) (hs : G.vMax ≤ 32767) (la : Bool) :
    Fine G.info.length (fun a => ∀ v, 1 ≤ v → v ≤ G.vMax → DegOk o G.toGraph v (edgeDegree G.toGraph a v)) (degreeConstraint G.toGraph (degrees o G) la) := by
  obtain ⟨hH, hn⟩ := h.hyp hl hs
  have hg := (Ps.cgUpdate_ok h.keys h.update).1
  refine ⟨C40_lawful h.keys hg _ _, fun _ _ => rfl, Int.le_refl _, fun a => ?_⟩
  rw [C40_degree h.keys hg h.edges (h.noLoops hl) (C40_range fun v c hc => degrees_range hc) (fun v _ => Nat.le_trans (DdPaths.degree_le hH.toHyp allEdges v) hs) la a]
  exact forall_congr' fun v => forall_congr' fun h1 => forall_congr' fun h2 => degOk_iff (Nat.le_trans (DdPaths.degree_le hH.toHyp a v) hs) h1 h2

/-- the search -/
theorem fbs_fine (h : Made E C G) (hl : ∀ e ∈ G.info, e.v1 ≠ e.v2) (hs : G.vMax ≤ 32766) {uec : Int} (h1 : -32768 ≤ uec) (h2 : uec ≤ 32767) (noloop la : Bool) :
    Fine G.info.length (WantedOk G.toGraph uec noloop) (frontierSearch G.toGraph uec noloop la) := by
  obtain ⟨hH, hn⟩ := h.hyp hl (by omega)
  refine ⟨lawfulC_of_eq (Fb.desc hH.toHyp hs hn) fun n s t => by simp [frontierSearch], fun _ _ => rfl, ?_, fun a => ?_⟩
  · obtain ⟨e, he, hr⟩ := Fb.root_eq (numUEC := uec) (noLoop := noloop) (la := la) hH.toHyp hn
    rw [hr]; exact Int.le_refl _
  · rw [Fb.means hH.toHyp hs hn h1 h2, Fb.valid_iff]

/-- the number of edges is within the bounds that have been given -/
def InSize (o : Opts) (m : Nat) : Prop := (∀ x, o.lb = some x → x ≤ m) ∧ ∀ x, o.ub = some x → (m : Int) ≤ x

theorem sizeOf_le {n : Nat} {a : Asg 2} : sizeOf n a ≤ n := by
  unfold DdPaths.sizeOf
  exact Nat.le_trans (List.length_filter_le _ _) (by rw [List.length_range]; exact Nat.le_refl _)

theorem size_fine {n : Nat} (hn : 1 ≤ n) (hn' : n ≤ 2147483647) (hb : ∀ x, o.lb = some x → (n : Int) - x ≤ 2147483647) : Fine n (fun a => InSize o (sizeOf n a)) (sizeConstraint n (some o.range)) := by
  have hb' : (n : Int) - o.lb.getD 0 ≤ 2147483647 := by
    cases hlb : o.lb with
    | none => show (n : Int) - 0 ≤ _; omega
    | some x => exact hb x hlb
  refine ⟨(C37_lawful n _ hn).1, (C37_lawful n _ hn).2, ?_, fun a => ?_⟩
  · unfold sizeConstraint
    dsimp only
    split <;> omega
  · have hle : sizeOf n a ≤ n := sizeOf_le
    unfold Opts.range
    rw [C37_range n hn _ _ 1 (by decide) hb']
    unfold InSize
    constructor
    · rintro ⟨m, hm, h1, h2, _⟩
      have hm' : m = sizeOf n a := hm
      rw [← hm']
      refine ⟨fun x hx => ?_, fun x hx => ?_⟩
      · rw [hx] at h1; exact h1
      · rw [hx] at h2; exact h2
    · rintro ⟨h1, h2⟩
      refine ⟨_, rfl, ?_, ?_, _, show _ = o.lb.getD 0 + ((sizeOf n a : Int) - o.lb.getD 0) * 1 by unfold DdPaths.sizeOf; omega⟩
      · show o.lb.getD 0 ≤ (sizeOf n a : Int)
        cases hlb : o.lb with
        | none => show (0 : Int) ≤ _; omega
        | some x => exact h1 x hlb
      · show (sizeOf n a : Int) ≤ o.ub.getD 2147483647
        cases hub : o.ub with
        | none => show _ ≤ (2147483647 : Int); omega
        | some x => exact h2 x hub

/-! ### The diagram -/

theorem Fine.build {S : Type} {n : Nat} {F : Asg 2 → Prop} {sp : DdSpec 2 S} (h : Fine n F sp) : ∃ D, build sp = some D ∧ DdS.Is n F ⟨D, false⟩ := by
  obtain ⟨D, lab, h1, h2, h3, h4, _⟩ := build_main h.lawful.lawful
  refine ⟨D, h1, ⟨h2.wf h.lawful.toDesc, ?_, fun a => ?_⟩, h4, by show 0 < D.table.numRows; omega⟩
  · have : D.root.row ≤ _ := h2.root_row
    have := h.root
    show D.root.row ≤ n
    omega
  · rw [← h.mem]; exact zddMem_congr (fun p => ⟨h2.sub, h2.sup h.nomerge⟩) n a

theorem Fine.subset {S : Type} {n : Nat} {F H : Asg 2 → Prop} {sp : DdSpec 2 S} (hs : Fine n H sp) {D : Dd 2} (h : DdS.Is n F ⟨D, false⟩) : ∃ D', zddSubset D sp false = some D' ∧ DdS.Is n (fun a => F a ∧ H a) ⟨D', false⟩ := by
  have hroot := Dd.root_row h.wf
  have hle := h.le
  have hl := hs.lawful.lawful
  obtain ⟨rt, D', lab, _, hrt, h1, h2, h3, h4, _⟩ := zddSubset_main h.wf hl false
  have hpl := prod_lawful h.wf hl hrt
  refine ⟨D', h1, ⟨h2.wf hpl.toDesc, ?_, fun a => ?_⟩, h4, by show 0 < D'.table.numRows; omega⟩
  · have h3 : D'.root.row ≤ rt.1.toNat := h2.root_row
    have h4 := hrt.le1
    show D'.root.row ≤ n
    by_cases h0 : rt.1 = 0
    · rw [h0] at h3; exact Nat.le_trans h3 (Nat.zero_le _)
    · have := h4 h0
      omega
  · rw [← h.mem, ← hs.mem, ← prod_mem h.wf hl.toDesc hrt (by omega) hs.root]
    exact zddMem_congr (fun p => ⟨h2.sub, h2.sup fun s t => hs.nomerge s.2 t.2⟩) n a

theorem Fine.dd {S : Type} {n : Nat} {F B : Asg 2 → Prop} {sp : DdSpec 2 S} (h : Fine n F sp) {base : Option Gz} (hb : ∀ g, base = some g → Fine n B (graphillion g)) :
    ∃ D, dd base sp = some D ∧ DdS.Is n (fun a => F a ∧ (base.isSome = true → B a)) ⟨D, false⟩ := by
  cases base with
  | none =>
    obtain ⟨D, h1, h2⟩ := h.build
    exact ⟨D, h1, h2.congr fun a => ⟨fun h => ⟨h, fun h' => nomatch h'⟩, fun h => h.1⟩⟩
  | some g =>
    obtain ⟨D, h1, h2⟩ := (hb g rfl).build
    obtain ⟨D', h3, h4⟩ := h.subset h2
    refine ⟨D', ?_, h4.congr fun a => ⟨fun h => ⟨h.2, fun _ => h.1⟩, fun h => ⟨h.2 rfl, h.1⟩⟩⟩
    show (TdZdd.build (graphillion g)).bind _ = _
    rw [h1]; exact h3

/-- the whole diagram -/
theorem diagram_is (h : Made E C G) (hl : ∀ e ∈ G.info, e.v1 ≠ e.v2) (hs : G.vMax ≤ 32766) (h1 : -32768 ≤ o.numUEC) (h2 : o.numUEC ≤ 32767) (hn : G.info.length ≤ 2147483647)
    (hb : ∀ x, o.lb = some x → (G.info.length : Int) - x ≤ 2147483647) {base : Option Gz} {B : Asg 2 → Prop} (hB : ∀ g, base = some g → Fine G.info.length B (graphillion g)) :
    ∃ D, diagram o G base = some D ∧ DdS.Is G.info.length (fun a => ((∀ v, 1 ≤ v → v ≤ G.vMax → DegOk o G.toGraph v (edgeDegree G.toGraph a v)) ∧ WantedOk G.toGraph o.numUEC o.noloop a ∧ (base.isSome = true → B a)) ∧
      InSize o (sizeOf G.info.length a)) ⟨D, false⟩ := by
  have f1 := dc_fine (o := o) h hl (by omega) (!o.nola)
  have f2 := f1.inter (fbs_fine h hl hs h1 h2 o.noloop (!o.nola))
  unfold diagram
  by_cases hz : (o.lb.isSome || o.ub.isSome) = true
  · rw [if_pos hz]
    have hn1 := (h.hyp hl (by omega)).2
    obtain ⟨D, e1, e2⟩ := ((size_fine hn1 hn hb).inter f2).dd hB
    exact ⟨D, e1, e2.congr fun a => ⟨fun h => ⟨⟨h.1.2.1, h.1.2.2, h.2⟩, h.1.1⟩, fun h => ⟨⟨h.2, h.1.1, h.1.2.1⟩, h.1.2.2⟩⟩⟩
  · rw [if_neg hz]
    obtain ⟨D, e1, e2⟩ := f2.dd hB
    have hno : o.lb = none ∧ o.ub = none := by
      cases hlb : o.lb <;> cases hub : o.ub <;> simp [hlb, hub] at hz ⊢
    refine ⟨D, e1, e2.congr fun a => ⟨fun h => ⟨⟨h.1.1, h.1.2, h.2⟩, ?_⟩, fun h => ⟨⟨h.1.1, h.1.2.1⟩, h.1.2.2⟩⟩⟩
    unfold InSize
    rw [hno.1, hno.2]
    exact ⟨fun x hx => (nomatch hx), fun x hx => (nomatch hx)⟩

/-! ### The output -/

/-- what is printed of the list of all sets -/
def shown (count : Int) (L : List (List Nat)) : List (List Nat) := if 1 ≤ count then L.take count.toNat else L

theorem show_eq {n : Nat} : ∀ (sets : List (List Nat)) (count : Int), (1 ≤ count ∨ -2147483648 + (sets.length : Int) ≤ count) →
    show' n count sets = some (shown count (sets.map (DdPaths.bold n)))
  | [], count, _ => by
    unfold show' shown
    split <;> simp
  | s :: ss, count, h => by
    unfold show'
    rw [List.length_cons] at h
    rw [if_neg (show ¬ count = -2147483648 by omega)]
    by_cases h1 : count - 1 = 0
    · rw [if_pos h1]
      have : count = 1 := by omega
      subst this
      unfold shown
      rw [if_pos (by decide)]
      rfl
    · rw [if_neg h1, show_eq ss (count - 1) (by omega)]
      unfold shown
      by_cases h2 : 1 ≤ count
      · obtain ⟨k, rfl⟩ : ∃ k : Nat, count = (k : Int) + 2 := ⟨(count - 2).toNat, by omega⟩
        rw [if_pos (show 1 ≤ (k : Int) + 2 - 1 by omega), if_pos h2, show ((k : Int) + 2 - 1).toNat = k + 1 by omega, show ((k : Int) + 2).toNat = k + 1 + 1 by omega, List.map_cons, List.take_succ_cons]
        rfl
      · rw [if_neg (show ¬ 1 ≤ count - 1 by omega), if_neg h2]
        rfl

theorem output_is {D : Dd 2} {n : Nat} {F : Asg 2 → Prop} (h : DdS.Is n F ⟨D, false⟩) :
    ∃ L : List (List Nat), L.Nodup ∧ (∀ s, s ∈ L ↔ s.Pairwise (· < ·) ∧ (∀ b ∈ s, b < n) ∧ F (edgesAsg n s)) ∧
      ∀ count : Int, (1 ≤ count ∨ -2147483648 + (L.length : Int) ≤ count) → ∀ sched, EvSched D sched →
        (∃ fuel steps, output D n count sched fuel steps = some (toString L.length, shown count L)) ∧ ∀ fuel steps r, output D n count sched fuel steps = some r → r = (toString L.length, shown count L) := by
  obtain ⟨L, h1, h2, h3⟩ := DdPaths.output_main h
  refine ⟨L, h1, h2, fun count hc sched hs => ?_⟩
  obtain ⟨⟨fuel, steps, h4⟩, h5⟩ := h3 sched hs
  have split : ∀ {fuel steps r}, DdPaths.output ⟨D, false⟩ n sched fuel steps = some r ↔ ∃ c sets, D.zddCardinality sched = some c ∧ D.iterate fuel steps = some sets ∧ r = (c, sets.map (DdPaths.bold n)) := by
    intro fuel steps r
    unfold DdPaths.output
    simp only [Option.bind_eq_bind, Option.bind_eq_some_iff, Option.some.injEq]
    constructor
    · rintro ⟨c, hc, sets, hs, rfl⟩; exact ⟨c, sets, hc, hs, rfl⟩
    · rintro ⟨c, sets, hc, hs, rfl⟩; exact ⟨c, hc, sets, hs, rfl⟩
  refine ⟨?_, fun fuel steps r hr => ?_⟩
  · obtain ⟨c, sets, g1, g2, g3⟩ := split.1 h4
    injection g3 with g3 g4
    refine ⟨fuel, steps, ?_⟩
    unfold output
    rw [g1, g2, Option.bind_some, Option.bind_some, show_eq sets count (by rw [g4, List.length_map] at hc; exact hc), ← g4, g3]
    rfl
  · unfold output at hr
    simp only [Option.bind_eq_some_iff, Option.map_eq_some_iff] at hr
    obtain ⟨c, g1, sets, g2, l, g3, rfl⟩ := hr
    have g4 := h5 fuel steps _ (split.2 ⟨c, sets, g1, g2, rfl⟩)
    injection g4 with g4 g5
    rw [show_eq sets count (by rw [← g5, List.length_map] at hc; exact hc), g5] at g3
    injection g3 with g3
    rw [g4, ← g3]

end Gx

end TdZdd
