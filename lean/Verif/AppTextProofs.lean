import Verif.AppText
import Verif.Props.GraphText
import Verif.Props.DdPaths
import Verif.Props.GraphillionApp

/-! # Lemmas on the graphs printed by the applications -/

namespace TdZdd

namespace AppText

open GText

/-- `text` is a picture of the graph: a line for each vertex that has a name that is not empty, with its colour, and a line for each edge with the names of its ends, followed by `deco` of its number. -/
def Picture (x : Loaded) (deco : Nat → List Char) (text : List Char) : Prop :=
  ∃ (col : Name → Option Name) (ns : List Name) (ps : List (Name × Name)),
    (∀ s c, col s = some c ↔ (s, c) ∈ x.2.1) ∧
    ns.length = x.2.2.vMax ∧ (∀ v s, ns[v]? = some s → vertexName x.1 x.2.2.toGraph (v + 1) = .ok s) ∧
    ps.length = x.2.2.info.length ∧
    (∀ (a : Nat) e p, x.2.2.info[a]? = some e → ps[a]? = some p → vertexName x.1 x.2.2.toGraph e.v1 = .ok p.1 ∧ vertexName x.1 x.2.2.toGraph e.v2 = .ok p.2) ∧
    text = "graph {\n".toList ++ (ns.filter (· ≠ [])).flatMap (vertexLine (fun _ => none) col) ++ edgeLines (fun _ => none) col deco 0 ps ++ "}\n".toList

/-- the edges of `s` are bold, the other ones are dotted -/
def mark (s : List Nat) (a : Nat) : List Char := if a ∈ s then "[style=bold]".toList else "[style=dotted,color=gray]".toList

/-- the members fit together -/
def Valid (x : Loaded) : Prop :=
  (x.2.1.Pairwise fun p q => p.1 ≠ q.1) ∧
  ∃ (C0 : List (Name × Name)) (G0 : Graph), (C0.Pairwise fun p q => p.1 ≠ q.1) ∧ gUpdate x.1 C0 = .ok G0 ∧ x.2.2.vMax = G0.vMax ∧ x.2.2.info = G0.info

theorem picture_of {x : Loaded} (h : Valid x) (deco : Nat → List Char) : ∃ text, pictureOf x deco = some text ∧ Picture x deco text := by
  obtain ⟨hC, C0, G0, hC0, hu, h1, h2⟩ := h
  obtain ⟨hok, hv, hN, _⟩ := update_ok hC0 hu
  obtain ⟨ps, hl, _, hps⟩ := ends_names hC0 hu
  have hvn : ∀ v, vertexName x.1 x.2.2.toGraph v = vertexName x.1 G0 v := fun v => by
    unfold vertexName
    rw [h1]
  refine ⟨_, dump_eq deco (by rw [h2]; exact hl) fun j e p he hp => ⟨(hps j e p (h2 ▸ he) hp).1, (hps j e p (h2 ▸ he) hp).2.1⟩,
    find x.2.1, gStack (gUnique x.1), ps, find_iff hC, by rw [h1, hv], fun v s hs => ?_, by rw [h2]; exact hl, fun a e p he hp => ?_, rfl⟩
  · obtain ⟨hlt, hs'⟩ := List.getElem?_eq_some_iff.1 hs
    obtain ⟨y, _, y2, y3, _⟩ := vertexName_num (E := x.1) (G := G0) hv (by omega : 1 ≤ v + 1) (by omega)
    unfold vertex2name at y3
    rw [List.getElem?_cons_succ, hs] at y3
    rw [hvn, y2, Option.some.inj y3]
  · rw [hvn, hvn]
    exact (hps a e p (h2 ▸ he) hp).2.2

theorem edgeLines_congr {lab col : Name → Option Name} {d d' : Nat → List Char} : ∀ (ps : List (Name × Name)) (a : Nat), (∀ i, i < ps.length → d (a + i) = d' (a + i)) →
    edgeLines lab col d a ps = edgeLines lab col d' a ps
  | [], _, _ => rfl
  | p :: ps, a, h => by
    have h0 := h 0 (by simp)
    rw [Nat.add_zero] at h0
    have ih := edgeLines_congr (lab := lab) (col := col) (d := d) (d' := d') ps (a + 1) fun i hi => by
      have := h (i + 1) (by simpa using hi)
      rwa [Nat.add_comm i 1, ← Nat.add_assoc] at this
    unfold edgeLines
    rw [ih, h0]

theorem Picture.congr {x : Loaded} {d d' : Nat → List Char} {text : List Char} (h : Picture x d text) (hd : ∀ a, a < x.2.2.info.length → d a = d' a) : Picture x d' text := by
  obtain ⟨col, ns, ps, h1, h2, h3, h4, h5, h6⟩ := h
  refine ⟨col, ns, ps, h1, h2, h3, h4, h5, ?_⟩
  have e := edgeLines_congr (lab := fun _ => none) (col := col) (d := d) (d' := d') ps 0 fun i hi => by rw [Nat.zero_add]; exact hd i (by omega)
  rw [h6, e]

theorem same_list {α : Type} {l l' : List α} (hl : l.length = l'.length) (h : ∀ (i : Nat) a b, l[i]? = some a → l'[i]? = some b → a = b) : l = l' := by
  refine List.ext_getElem hl fun i h1 h2 => ?_
  exact h i _ _ (List.getElem?_eq_getElem h1) (List.getElem?_eq_getElem h2)

/-- What two pictures of the same graph have in common -/
theorem Picture.shape {x : Loaded} {d d' : Nat → List Char} {t t' : List Char} (h : Picture x d t) (h' : Picture x d' t') :
    ∃ (pre : List Char) (col : Name → Option Name) (ps : List (Name × Name)), ps.length = x.2.2.info.length ∧
      t = pre ++ (edgeLines (fun _ => none) col d 0 ps ++ "}\n".toList) ∧ t' = pre ++ (edgeLines (fun _ => none) col d' 0 ps ++ "}\n".toList) := by
  obtain ⟨col, ns, ps, h1, h2, h3, h4, h5, h6⟩ := h
  obtain ⟨col', ns', ps', h1', h2', h3', h4', h5', h6'⟩ := h'
  have e1 : col = col' := by
    funext s
    cases hc : col s with
    | some c => exact ((h1' s c).2 ((h1 s c).1 hc)).symm
    | none =>
      cases hc' : col' s with
      | none => rfl
      | some c => rw [(h1 s c).2 ((h1' s c).1 hc')] at hc; cases hc
  have e2 : ns = ns' := same_list (h2.trans h2'.symm) fun i a b ha hb => by
    have := (h3 i a ha).symm.trans (h3' i b hb)
    injection this
  have e3 : ps = ps' := same_list (h4.trans h4'.symm) fun i a b ha hb => by
    obtain ⟨hi, _⟩ := List.getElem?_eq_some_iff.1 ha
    have he : x.2.2.info[i]? = some (x.2.2.info[i]'(h4 ▸ hi)) := List.getElem?_eq_getElem _
    obtain ⟨p1, p2⟩ := h5 i _ a he ha
    obtain ⟨q1, q2⟩ := h5' i _ b he hb
    have r1 := p1.symm.trans q1
    have r2 := p2.symm.trans q2
    injection r1 with r1
    injection r2 with r2
    exact Prod.ext r1 r2
  subst e1
  subst e2
  subst e3
  exact ⟨"graph {\n".toList ++ (ns.filter (· ≠ [])).flatMap (vertexLine (fun _ => none) col), col, ps, h4, by rw [h6, List.append_assoc], by rw [h6', List.append_assoc]⟩

theorem mark_cut {s s' : List Nat} {a : Nat} {r r' : List Char} (h : mark s a ++ r = mark s' a ++ r') : mark s a = mark s' a ∧ r = r' := by
  unfold mark at h ⊢
  split at h
  · rename_i h1
    split at h
    · rename_i h2
      rw [if_pos h1, if_pos h2]
      exact ⟨rfl, List.append_cancel_left h⟩
    · simp at h
  · rename_i h1
    split at h
    · simp at h
    · rename_i h2
      rw [if_neg h1, if_neg h2]
      exact ⟨rfl, List.append_cancel_left h⟩

theorem lines_cut {lab col : Name → Option Name} {s s' : List Nat} : ∀ (ps : List (Name × Name)) (a : Nat) {r r' : List Char},
    edgeLines lab col (mark s) a ps ++ r = edgeLines lab col (mark s') a ps ++ r' → (∀ i, i < ps.length → mark s (a + i) = mark s' (a + i)) ∧ r = r'
  | [], _, _, _, h => ⟨fun i hi => absurd hi (Nat.not_lt_zero i), h⟩
  | p :: ps, a, r, r', h => by
    unfold edgeLines edgeLine at h
    simp only [List.append_assoc] at h
    replace h := List.append_cancel_left h
    replace h := List.append_cancel_left h
    replace h := List.append_cancel_left h
    replace h := List.append_cancel_left h
    replace h := List.append_cancel_left h
    replace h := List.append_cancel_left h
    replace h := List.append_cancel_left h
    obtain ⟨h1, h2⟩ := mark_cut h
    obtain ⟨h3, h4⟩ := lines_cut ps (a + 1) (List.append_cancel_left h2)
    refine ⟨fun i hi => ?_, h4⟩
    cases i with
    | zero => exact h1
    | succ i =>
      have := h3 i (by simpa using hi)
      rwa [Nat.add_assoc, Nat.add_comm 1 i] at this

theorem mark_mem {s s' : List Nat} {a : Nat} (h : mark s a = mark s' a) : a ∈ s ↔ a ∈ s' := by
  unfold mark at h
  split at h <;> rename_i h1 <;> split at h <;> rename_i h2
  · exact ⟨fun _ => h2, fun _ => h1⟩
  · simp at h
  · simp at h
  · exact ⟨fun h => absurd h h1, fun h => absurd h h2⟩

theorem sorted_ext {s s' : List Nat} (h : s.Pairwise (· < ·)) (h' : s'.Pairwise (· < ·)) (hm : ∀ a, a ∈ s ↔ a ∈ s') : s = s' := by
  induction s generalizing s' with
  | nil =>
    cases s' with
    | nil => rfl
    | cons b s' => exact nomatch (hm b).2 (List.mem_cons_self ..)
  | cons a s ih =>
    cases s' with
    | nil => exact nomatch (hm a).1 (List.mem_cons_self ..)
    | cons b s' =>
      rw [List.pairwise_cons] at h h'
      have e : a = b := by
        have h1 := (hm a).1 (List.mem_cons_self ..)
        have h2 := (hm b).2 (List.mem_cons_self ..)
        rcases List.mem_cons.1 h1 with h1 | h1
        · exact h1
        · rcases List.mem_cons.1 h2 with h2 | h2
          · exact h2.symm
          · have := h.1 b h2
            have := h'.1 a h1
            omega
      subst e
      rw [ih h.2 h'.2 fun c => ?_]
      have h1 := hm c
      rw [List.mem_cons, List.mem_cons] at h1
      constructor
      · intro hc
        have := h.1 c hc
        exact (h1.1 (.inr hc)).resolve_left (by omega)
      · intro hc
        have := h'.1 c hc
        exact (h1.2 (.inr hc)).resolve_left (by omega)

/-- no picture is the beginning of another one -/
theorem picture_cut {x : Loaded} {s s' : List Nat} {t t' r r' : List Char} (h : Picture x (mark s) t) (h' : Picture x (mark s') t')
    (hs : s.Pairwise (· < ·)) (hs' : s'.Pairwise (· < ·)) (hn : ∀ b ∈ s, b < x.2.2.info.length) (hn' : ∀ b ∈ s', b < x.2.2.info.length) (e : t ++ r = t' ++ r') : s = s' ∧ r = r' := by
  obtain ⟨pre, col, ps, hl, rfl, rfl⟩ := h.shape h'
  simp only [List.append_assoc] at e
  obtain ⟨h1, h2⟩ := lines_cut ps 0 (List.append_cancel_left e)
  refine ⟨sorted_ext hs hs' fun a => ?_, List.append_cancel_left h2⟩
  by_cases ha : a < ps.length
  · have := h1 a ha
    rw [Nat.zero_add] at this
    exact mark_mem this
  · exact ⟨fun hm => absurd (hn a hm) (by omega), fun hm => absurd (hn' a hm) (by omega)⟩

theorem picture_ne {x : Loaded} {d : Nat → List Char} {t : List Char} (h : Picture x d t) : t ≠ [] := by
  obtain ⟨col, ns, ps, _, _, _, _, _, h⟩ := h
  rw [h]
  simp

/-- the sets can be read from the concatenation of their pictures -/
theorem pictures_inj {x : Loaded} {pic pic' : List Nat → List Char} (hp : ∀ s, Picture x (mark s) (pic s)) (hp' : ∀ s, Picture x (mark s) (pic' s)) :
    ∀ {L L' : List (List Nat)}, (∀ s ∈ L, s.Pairwise (· < ·) ∧ ∀ b ∈ s, b < x.2.2.info.length) → (∀ s ∈ L', s.Pairwise (· < ·) ∧ ∀ b ∈ s, b < x.2.2.info.length) →
    L.flatMap pic = L'.flatMap pic' → L = L'
  | [], [], _, _, _ => rfl
  | [], s :: L', _, _, e => by
    rw [List.flatMap_cons] at e
    exact absurd (List.append_eq_nil_iff.1 e.symm).1 (picture_ne (hp' s))
  | s :: L, [], _, _, e => by
    rw [List.flatMap_cons] at e
    exact absurd (List.append_eq_nil_iff.1 e).1 (picture_ne (hp s))
  | s :: L, s' :: L', h, h', e => by
    rw [List.flatMap_cons, List.flatMap_cons] at e
    obtain ⟨h1, h2⟩ := h s (List.mem_cons_self ..)
    obtain ⟨h1', h2'⟩ := h' s' (List.mem_cons_self ..)
    obtain ⟨e1, e2⟩ := picture_cut (hp s) (hp' s') h1 h1' h2 h2' e
    rw [e1, pictures_inj hp hp' (fun s hs => h s (List.mem_cons_of_mem _ hs)) (fun s hs => h' s (List.mem_cons_of_mem _ hs)) e2]

theorem solution_pic {x : Loaded} (h : Valid x) :
    ∃ pic : List Nat → List Char, (∀ s, Picture x (mark s) (pic s)) ∧ ∀ levels, solution x levels = some (pic (DdPaths.bold x.2.2.info.length levels)) := by
  have hall := fun s => picture_of h (mark s)
  refine ⟨fun s => (hall s).choose, fun s => (hall s).choose_spec.2, fun levels => ?_⟩
  obtain ⟨t, h1, h2⟩ := picture_of h (edgeDeco x.2.2.info.length (levels.map Int.ofNat))
  have hd : ∀ a, a < x.2.2.info.length → edgeDeco x.2.2.info.length (levels.map Int.ofNat) a = mark (DdPaths.bold x.2.2.info.length levels) a := by
    intro a ha
    unfold edgeDeco mark
    have : ((x.2.2.info.length : Int) - a ∈ levels.map Int.ofNat) ↔ a ∈ DdPaths.bold x.2.2.info.length levels := by
      rw [DdPaths.mem_bold, List.mem_map]
      constructor
      · rintro ⟨i, hi, e⟩
        have e' : (i : Int) = (x.2.2.info.length : Int) - a := e
        have : x.2.2.info.length - a = i := by omega
        exact ⟨ha, this ▸ hi⟩
      · rintro ⟨_, hi⟩
        refine ⟨_, hi, ?_⟩
        show ((x.2.2.info.length - a : Nat) : Int) = _
        omega
    by_cases hm : a ∈ DdPaths.bold x.2.2.info.length levels
    · rw [if_pos hm, if_pos (this.2 hm)]; rfl
    · rw [if_neg hm, if_neg fun h => hm (this.1 h)]; rfl
  show pictureOf x _ = _
  rw [h1]
  obtain ⟨pre, col, ps, hl, e1, e2⟩ := (h2.congr hd).shape (hall (DdPaths.bold x.2.2.info.length levels)).choose_spec.2
  exact congrArg some (e1.trans e2.symm)

end AppText

namespace DdPaths

open AppText

theorem adjust_all (o : Opts) (E C : List (List Char × List Char)) (G : CGraph) : adjust o E G = (adjustAll o E C G).bind fun x => .ok x.2.2 := by
  have key : ∀ (C : List (List Char × List Char)) (G : CGraph),
      (if G.info.length = 0 then Res.thrown else if o.kind = .path ∧ G.pairs = false then .thrown else .ok (if o.kind = .cycle then G.clearColors else G)) =
        Res.bind (if G.info.length = 0 then Res.thrown else if o.kind = .path ∧ G.pairs = false then .thrown else .ok ((E, if o.kind = .cycle then ([], G.clearColors) else (C, G)) : Loaded)) fun x => .ok x.2.2 := by
    intro C G
    split
    · rfl
    · split
      · rfl
      · simp only [Res.bind]
        split <;> rfl
  unfold adjust adjustAll
  by_cases h : o.kind = .path ∧ G.numColor = 0
  · rw [if_pos h, if_pos h]
    cases cgUpdate E (defaultColor G.vMax) with
    | thrown => rfl
    | ub => rfl
    | ok G1 => exact key _ _
  · rw [if_neg h, if_neg h]
    exact key _ _

theorem readGraph_load (o : Opts) (g : List Char) (t : Option (List Char)) : readGraph o g t = (load o g t).bind fun x => .ok x.2.2 := by
  unfold readGraph load
  cases readAdjacencyList g with
  | thrown => rfl
  | ub => rfl
  | ok E =>
    simp only [Res.bind]
    cases e : cgUpdate E ([] : List (List Char × List Char)) with
    | thrown => rfl
    | ub => rfl
    | ok G0 =>
      cases t with
      | none =>
        dsimp only
        unfold graphOf
        rw [show (none : Option (List (List Char × List Char))).getD [] = [] from rfl, e]
        exact adjust_all o E [] G0
      | some t =>
        dsimp only
        cases readVertexGroups t with
        | thrown => rfl
        | ub => rfl
        | ok C =>
          dsimp only
          unfold graphOf
          rw [show (some C).getD [] = C from rfl]
          cases cgUpdate E C with
          | thrown => rfl
          | ub => rfl
          | ok G => exact adjust_all o E C G

/-- what `load` gives -/
theorem load_ok {o : Opts} {g : List Char} {t : Option (List Char)} {x : Loaded} (h : load o g t = .ok x) :
    readAdjacencyList g = .ok x.1 ∧ Valid x ∧ ∃ C0, (t = none → C0 = []) ∧ (∀ t', t = some t' → readVertexGroups t' = .ok C0) ∧ (o.kind = .cycle → x.2.1 = []) ∧
      (o.kind = .path → C0 = [] → x.2.1 = [("1".toList, "#ff7777".toList), (decimal x.2.2.vMax, "#ff7777".toList)]) ∧
      (o.kind ≠ .cycle → (o.kind ≠ .path ∨ C0 ≠ []) → x.2.1 = C0) := by
  have hfin : ∀ {E C0 : List (List Char × List Char)} {G : CGraph}, (C0.Pairwise fun p q => p.1 ≠ q.1) → cgUpdate E C0 = .ok G → adjustAll o E C0 G = .ok x →
      x.1 = E ∧ Valid x ∧ (o.kind = .cycle → x.2.1 = []) ∧ (o.kind = .path → C0 = [] → x.2.1 = [("1".toList, "#ff7777".toList), (decimal x.2.2.vMax, "#ff7777".toList)]) ∧
      (o.kind ≠ .cycle → (o.kind ≠ .path ∨ C0 ≠ []) → x.2.1 = C0) := by
    intro E C0 G hC hu h
    unfold adjustAll at h
    obtain ⟨n1, _, n3⟩ := update_facts hC hu
    have key : ∀ (C : List (List Char × List Char)) (G1 : CGraph), (C.Pairwise fun p q => p.1 ≠ q.1) → cgUpdate E C = .ok G1 →
        (if G1.info.length = 0 then Res.thrown else if o.kind = .path ∧ G1.pairs = false then .thrown else .ok ((E, if o.kind = .cycle then ([], G1.clearColors) else (C, G1)) : Loaded)) = .ok x →
        x.1 = E ∧ Valid x ∧ (o.kind = .cycle → x.2.1 = []) ∧ (o.kind ≠ .cycle → x.2.1 = C) ∧ (o.kind = .path → G1.pairs = true) ∧ x.2.2.vMax = G1.vMax := by
      intro C G1 hC hu h
      split at h
      · cases h
      · split at h
        · cases h
        next hp =>
          injection h with h
          subst h
          have hg := (Ps.cgUpdate_ok hC hu).1
          have hpp : o.kind = .path → G1.pairs = true := fun hk => by
            cases hb : G1.pairs
            · exact absurd ⟨hk, hb⟩ hp
            · rfl
          by_cases hk : o.kind = .cycle
          · rw [if_pos hk]
            exact ⟨rfl, ⟨List.Pairwise.nil, C, G1.toGraph, hC, hg, rfl, rfl⟩, fun _ => rfl, fun h => absurd hk h, hpp, rfl⟩
          · rw [if_neg hk]
            exact ⟨rfl, ⟨hC, C, G1.toGraph, hC, hg, rfl, rfl⟩, fun h => absurd h hk, fun _ => rfl, hpp, rfl⟩
    by_cases hp : o.kind = .path ∧ G.numColor = 0
    · rw [if_pos hp] at h
      have h0 := n1.1 hp.2
      cases e : cgUpdate E (defaultColor G.vMax) with
      | thrown => rw [e] at h; cases h
      | ub => rw [e] at h; cases h
      | ok G1 =>
        rw [e] at h
        obtain ⟨k1, k2, k3, k4, k5, k6⟩ := key _ _ (defaultColor_keys _) e h
        refine ⟨k1, k2, k3, fun _ _ => ?_, fun _ hor => ?_⟩
        · have hv : G1.vMax = G.vMax := by rw [(update_facts (defaultColor_keys _) e).2.2, n3]
          rw [k4 (by rw [hp.1]; decide), k6, hv]
          refine defaultColor_eq fun h1 => ?_
          rw [h1] at e
          have := k5 hp.1
          rw [not_pairs_one e] at this
          cases this
        · rcases hor with h | h
          · exact absurd hp.1 h
          · exact absurd h0 h
    · rw [if_neg hp] at h
      obtain ⟨k1, k2, k3, k4, k5, k6⟩ := key _ _ hC hu h
      exact ⟨k1, k2, k3, fun hk h0 => absurd ⟨hk, n1.2 h0⟩ hp, fun hk _ => k4 hk⟩
  unfold load at h
  cases e : readAdjacencyList g with
  | thrown => rw [e] at h; cases h
  | ub => rw [e] at h; cases h
  | ok E =>
    rw [e] at h
    simp only [Res.bind] at h
    cases e1 : cgUpdate E ([] : List (List Char × List Char)) with
    | thrown => rw [e1] at h; cases h
    | ub => rw [e1] at h; cases h
    | ok G0 =>
      rw [e1] at h
      cases t with
      | none =>
        obtain ⟨k1, k2, k3⟩ := hfin List.Pairwise.nil e1 h
        exact ⟨by rw [k1], k2, [], fun _ => rfl, fun _ h => (nomatch h), k3⟩
      | some t =>
        dsimp only at h
        cases e2 : readVertexGroups t with
        | thrown => rw [e2] at h; cases h
        | ub => rw [e2] at h; cases h
        | ok C =>
          rw [e2] at h
          dsimp only at h
          cases e3 : cgUpdate E C with
          | thrown => rw [e3] at h; cases h
          | ub => rw [e3] at h; cases h
          | ok G =>
            rw [e3] at h
            obtain ⟨k1, k2, k3⟩ := hfin (readVertexGroups_keys e2) e3 h
            exact ⟨by rw [k1], k2, C, fun h => (nomatch h), fun _ h => Option.some.inj h ▸ e2, k3⟩

theorem allLoop_eq {x : Loaded} {pic : List Nat → List Char} (h : ∀ levels, solution x levels = some (pic (bold x.2.2.info.length levels))) :
    ∀ sets, allLoop x sets = some ((sets.map (bold x.2.2.info.length)).flatMap pic)
  | [] => rfl
  | s :: sets => by
    unfold allLoop
    rw [h, allLoop_eq h sets]
    rfl

end DdPaths

namespace Gx

open AppText

theorem finish_all (o : Opts) (E C : List (List Char × List Char)) (G : CGraph) : finish o E C G = (finishAll o E C G).bind fun x => .ok x.2.2 := by
  have key : ∀ (C : List (List Char × List Char)) (G : CGraph), (if G.info.length = 0 then Res.thrown else .ok G) = Res.bind (if G.info.length = 0 then Res.thrown else .ok ((E, C, G) : Loaded)) fun x => .ok x.2.2 := by
    intro C G
    split <;> rfl
  unfold finish finishAll
  by_cases h : o.st = true ∧ 1 ≤ G.vMax
  · rw [if_pos h, if_pos h]
    cases cgUpdate E (colorEnds E C G.vMax) with
    | thrown => rfl
    | ub => rfl
    | ok G1 => exact key _ _
  · rw [if_neg h, if_neg h]
    exact key _ _

theorem readGraph_load (o : Opts) (g t : Option (List Char)) : readGraph o g t = (load o g t).bind fun x => .ok x.2.2 := by
  unfold readGraph load
  cases edgesOf o g with
  | thrown => rfl
  | ub => rfl
  | ok r =>
    simp only [Res.bind]
    cases e : cgUpdate r.1 r.2 with
    | thrown => rfl
    | ub => rfl
    | ok G0 =>
      cases t with
      | none =>
        dsimp only
        rw [e]
        exact finish_all o r.1 r.2 G0
      | some t =>
        dsimp only
        cases readVertexGroups t with
        | thrown => rfl
        | ub => rfl
        | ok C =>
          dsimp only
          cases cgUpdate r.1 C with
          | thrown => rfl
          | ub => rfl
          | ok G => exact finish_all o r.1 C G

theorem load_ok {o : Opts} {g t : Option (List Char)} {x : Loaded} (h : load o g t = .ok x) :
    Valid x ∧ ∃ r C0, edgesOf o g = .ok r ∧ x.1 = r.1 ∧ (t = none → C0 = r.2) ∧ (∀ t', t = some t' → readVertexGroups t' = .ok C0) ∧ (C0.Pairwise fun p q => p.1 ≠ q.1) ∧ cgUpdate x.1 x.2.1 = .ok x.2.2 ∧
      x.2.1 = if o.st = true then colorEnds r.1 C0 x.2.2.vMax else C0 := by
  have hfin : ∀ {E C0 : List (List Char × List Char)} {G : CGraph}, (C0.Pairwise fun p q => p.1 ≠ q.1) → cgUpdate E C0 = .ok G → finishAll o E C0 G = .ok x →
      Valid x ∧ x.1 = E ∧ cgUpdate x.1 x.2.1 = .ok x.2.2 ∧ x.2.1 = if o.st = true then colorEnds E C0 x.2.2.vMax else C0 := by
    intro E C0 G hC hu h
    unfold finishAll at h
    obtain ⟨_, n2, n3⟩ := DdPaths.update_facts hC hu
    have key : ∀ (C : List (List Char × List Char)) (G1 : CGraph), (C.Pairwise fun p q => p.1 ≠ q.1) → cgUpdate E C = .ok G1 →
        (if G1.info.length = 0 then Res.thrown else .ok ((E, C, G1) : Loaded)) = .ok x → Valid x ∧ x = (E, C, G1) ∧ G1.info.length ≠ 0 := by
      intro C G1 hC hu h
      split at h
      · cases h
      next hl =>
        injection h with h
        subst h
        exact ⟨⟨hC, C, G1.toGraph, hC, (Ps.cgUpdate_ok hC hu).1, rfl, rfl⟩, rfl, hl⟩
    by_cases hp : o.st = true ∧ 1 ≤ G.vMax
    · rw [if_pos hp] at h
      have hk : (colorEnds E C0 G.vMax).Pairwise fun p q => p.1 ≠ q.1 := Rd.setName_keys (Rd.setName_keys hC)
      cases e : cgUpdate E (colorEnds E C0 G.vMax) with
      | thrown => rw [e] at h; cases h
      | ub => rw [e] at h; cases h
      | ok G1 =>
        rw [e] at h
        obtain ⟨k1, k2, _⟩ := key _ _ hk e h
        subst k2
        refine ⟨k1, rfl, e, ?_⟩
        rw [if_pos hp.1]
        show colorEnds E C0 G.vMax = colorEnds E C0 G1.vMax
        rw [(DdPaths.update_facts hk e).2.2, n3]
    · rw [if_neg hp] at h
      obtain ⟨k1, k2, k3⟩ := key _ _ hC hu h
      subst k2
      refine ⟨k1, rfl, hu, ?_⟩
      rw [if_neg]
      intro hst
      refine hp ⟨hst, ?_⟩
      -- a graph with an edge has a vertex
      cases hE : E with
      | nil => exact absurd (n2.2 hE) k3
      | cons a E' =>
        obtain ⟨k4, k5, _⟩ := C102_vertex E C0 hC G.toGraph (Ps.cgUpdate_ok hC hu).1
        obtain ⟨v, hv⟩ := (k5 a.1).2 ⟨a, hE ▸ List.mem_cons_self .., .inl rfl⟩
        obtain ⟨l1, l2, _⟩ := (k4 _ _).1 hv
        exact Nat.le_trans l1 l2
  unfold load at h
  cases e : edgesOf o g with
  | thrown => rw [e] at h; cases h
  | ub => rw [e] at h; cases h
  | ok r =>
    rw [e] at h
    simp only [Res.bind] at h
    cases e1 : cgUpdate r.1 r.2 with
    | thrown => rw [e1] at h; cases h
    | ub => rw [e1] at h; cases h
    | ok G0 =>
      rw [e1] at h
      cases t with
      | none =>
        obtain ⟨k1, k2, k3⟩ := hfin (edgesOf_keys e) e1 h
        exact ⟨k1, r, r.2, rfl, k2, fun _ => rfl, fun _ h => (nomatch h), edgesOf_keys e, k3⟩
      | some t =>
        dsimp only at h
        cases e2 : readVertexGroups t with
        | thrown => rw [e2] at h; cases h
        | ub => rw [e2] at h; cases h
        | ok C =>
          rw [e2] at h
          dsimp only at h
          cases e3 : cgUpdate r.1 C with
          | thrown => rw [e3] at h; cases h
          | ub => rw [e3] at h; cases h
          | ok G =>
            rw [e3] at h
            obtain ⟨k1, k2, k3⟩ := hfin (DdPaths.readVertexGroups_keys e2) e3 h
            exact ⟨k1, r, C, rfl, k2, fun h => (nomatch h), fun _ h => Option.some.inj h ▸ e2, DdPaths.readVertexGroups_keys e2, k3⟩

theorem mem_setName {m : List (List Char × List Char)} {v c0 s c : List Char} : (s, c) ∈ setName m v c0 ↔ if s = v then c = c0 else (s, c) ∈ m := by
  unfold setName
  split
  next h =>
    obtain ⟨q, q1, q2⟩ := List.any_eq_true.1 h
    replace q2 := of_decide_eq_true q2
    rw [List.mem_map]
    constructor
    · rintro ⟨p, p1, p2⟩
      by_cases hp : p.1 = v
      · rw [if_pos hp] at p2
        injection p2 with e1 e2
        rw [if_pos e1.symm, e2]
      · rw [if_neg hp] at p2
        subst p2
        rw [if_neg hp]
        exact p1
    · intro hs
      by_cases hv : s = v
      · rw [if_pos hv] at hs
        exact ⟨q, q1, by rw [if_pos q2, hv, hs]⟩
      · rw [if_neg hv] at hs
        exact ⟨_, hs, if_neg hv⟩
  next h =>
    rw [List.mem_append, List.mem_singleton]
    by_cases hv : s = v
    · rw [if_pos hv]
      constructor
      · rintro (h1 | h1)
        · exact absurd (List.any_eq_true.2 ⟨_, h1, decide_eq_true hv⟩) h
        · injection h1
      · rintro rfl
        exact .inr (by rw [hv])
    · rw [if_neg hv]
      constructor
      · rintro (h1 | h1)
        · exact h1
        · injection h1 with e1 e2
          exact absurd e1 hv
      · exact .inl

theorem vertexName_text {E : List (List Char × List Char)} {G : Graph} (hv : G.vMax = (gStack (gUnique E)).length) (v : Nat) : GText.vertexName E G v = .ok (vertexName E v) := by
  unfold GText.vertexName vertexName
  by_cases h : v < 1 ∨ G.vMax < v
  · rw [if_pos h]
    by_cases h0 : v < 1
    · rw [if_pos h0]
    · rw [if_neg h0, List.getElem?_eq_none (by omega)]
      rfl
  · rw [if_neg h, if_neg (by omega)]
    obtain ⟨u, rfl⟩ : ∃ u, v = u + 1 := ⟨v - 1, by omega⟩
    unfold GText.vertex2name
    rw [List.getElem?_cons_succ, Nat.add_sub_cancel, List.getElem?_eq_getElem (by omega)]
    rfl

theorem solLoop_eq {x : Loaded} {pic : List Nat → List Char} (h : ∀ levels, solution x levels = some (pic (DdPaths.bold x.2.2.info.length levels))) :
    ∀ (sets : List (List Nat)) (k : Int), solLoop x k sets = (show' x.2.2.info.length k sets).map fun l => l.flatMap pic
  | [], _ => rfl
  | s :: sets, k => by
    unfold solLoop show'
    rw [h, solLoop_eq h sets, Option.bind_some]
    split
    · rfl
    · split
      · show _ = some _
        dsimp only
        rw [List.flatMap_cons, List.flatMap_nil, List.append_nil]
        rfl
      · cases show' x.2.2.info.length (k - 1) sets with
        | none => rfl
        | some l => rfl

end Gx

end TdZdd
