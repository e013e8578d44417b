import Verif.GraphProofs3

/-! Proofs about `Graph::update` (4): the result as a whole. -/

namespace TdZdd

open Gr

/-- What the specifications over graphs rely on, in terms of vertex numbers -/
structure Graph.Ok (G : Graph) : Prop where
  range : ∀ (a : Nat) e, G.info[a]? = some e → 1 ≤ e.v1 ∧ e.v1 ≤ e.v2 ∧ e.v2 ≤ G.vMax
  simple : ∀ (a b : Nat) e f, G.info[a]? = some e → G.info[b]? = some f → e.v1 = f.v1 → e.v2 = f.v2 → a = b
  occurs : ∀ v, 1 ≤ v → v ≤ G.vMax → ∃ a, Uses G.info a v
  order : ∀ a v w, 1 ≤ v → v ≤ w → w ≤ G.vMax → Uses G.info a v → ∃ b, a ≤ b ∧ Uses G.info b w
  final1 : ∀ (a : Nat) e, G.info[a]? = some e → (e.v1final = true ↔ ∀ b, a < b → ¬ Uses G.info b e.v1)
  final2 : ∀ (a : Nat) e, G.info[a]? = some e → (e.v2final = true ↔ ∀ b, a < b → ¬ Uses G.info b e.v2)
  second1 : ∀ (a : Nat) e, G.info[a]? = some e → (e.v1final2 = true ↔ ∃ b, a < b ∧ Uses G.info b e.v1 ∧ ∀ c, a < c → Uses G.info c e.v1 → c = b)
  second2 : ∀ (a : Nat) e, G.info[a]? = some e → (e.v2final2 = true ↔ ∃ b, a < b ∧ Uses G.info b e.v2 ∧ ∀ c, a < c → Uses G.info c e.v2 → c = b)
  window : ∀ (a : Nat) e, G.info[a]? = some e → 1 ≤ e.v0 ∧ e.v0 ≤ G.vMax ∧ (∃ b, a ≤ b ∧ Uses G.info b e.v0) ∧
    ∀ v, 1 ≤ v → v < e.v0 → ∀ b, a ≤ b → ¬ Uses G.info b v
  last : ∀ (a : Nat) e, G.info[a]? = some e → (e.finalEdge = true ↔ a + 1 = G.info.length)
  seen : ∀ (a : Nat) e, G.info[a]? = some e →
    (e.allColorsSeen = true ↔ ∀ c, 1 ≤ c → c ≤ G.numColor → ∃ b v, b ≤ a ∧ Uses G.info b v ∧ G.color v = c)
  color_le : ∀ v, G.color v ≤ G.numColor
  color_out : ∀ v, v = 0 ∨ G.vMax < v → G.color v = 0
  color_surj : ∀ c, 1 ≤ c → c ≤ G.numColor → ∃ v, 1 ≤ v ∧ v ≤ G.vMax ∧ G.color v = c
  color_asc : ∀ v, 1 ≤ v → v ≤ G.vMax → ∀ c, 1 ≤ c → c < G.color v → ∃ u, 1 ≤ u ∧ u < v ∧ G.color u = c
  vMax_lt : G.vMax < 65535
  color_lt : G.numColor ≤ 65535

/-- The result in terms of names: the edges `D`, the vertex numbers `num`, the colours -/
structure Graph.Named {V K : Type} (G : Graph) (C : List (V × K)) (D : List (V × V)) (num : V → Nat) : Prop where
  edges : G.info.length = D.length
  ends : ∀ (a : Nat) s t, D[a]? = some (s, t) → ∃ e, G.info[a]? = some e ∧ e.v1 = min (num s) (num t) ∧ e.v2 = max (num s) (num t)
  num_iff : ∀ s, (1 ≤ num s ∧ num s ≤ G.vMax) ↔ ∃ a, Touch D a s
  num_out : ∀ s, num s ≤ G.vMax
  num_inj : ∀ s t, 1 ≤ num s → num s = num t → s = t
  num_surj : ∀ v, 1 ≤ v → v ≤ G.vMax → ∃ s, num s = v
  order : ∀ a s t, (∃ b, Touch D b s) → (∀ b, a ≤ b → ¬ Touch D b s) → (∃ b, a ≤ b ∧ Touch D b t) → num s < num t
  tie : ∀ (a : Nat) s t, D[a]? = some (s, t) → s ≠ t → (∀ b, a < b → ¬ Touch D b s) → (∀ b, a < b → ¬ Touch D b t) → num s < num t
  color_iff : ∀ s t k, 1 ≤ num s → 1 ≤ num t → (s, k) ∈ C → (G.color (num s) ≠ 0 ∧ (G.color (num t) = G.color (num s) ↔ (t, k) ∈ C))
  uncolored : ∀ s, (∀ k, (s, k) ∉ C) → G.color (num s) = 0

namespace Gr

section
variable {V : Type} [DecidableEq V]

theorem uses_iff {es : List EdgeInfo} {D : List (V × V)} {num : V → Nat} (hes : es.map (fun e => (e.v1, e.v2)) = D.map fun e => (min (num e.1) (num e.2), max (num e.1) (num e.2)))
    {a v : Nat} : Uses es a v ↔ ∃ s, Touch D a s ∧ num s = v := by
  have key : (es[a]?).map (fun e => (e.v1, e.v2)) = (D[a]?).map fun e => (min (num e.1) (num e.2), max (num e.1) (num e.2)) := by
    rw [← List.getElem?_map, ← List.getElem?_map, hes]
  constructor
  · rintro ⟨e, he, hv⟩
    rw [he] at key
    cases hD : D[a]? with
    | none => rw [hD] at key; cases key
    | some d =>
      rw [hD] at key
      simp only [Option.map_some, Option.some.injEq, Prod.mk.injEq] at key
      have : num d.1 = v ∨ num d.2 = v := by omega
      rcases this with h | h
      · exact ⟨_, ⟨d, hD, .inl rfl⟩, h⟩
      · exact ⟨_, ⟨d, hD, .inr rfl⟩, h⟩
  · rintro ⟨s, ⟨d, hD, hs⟩, hv⟩
    rw [hD] at key
    cases he : es[a]? with
    | none => rw [he] at key; cases key
    | some e =>
      rw [he] at key
      simp only [Option.map_some, Option.some.injEq, Prod.mk.injEq] at key
      refine ⟨e, he, ?_⟩
      have : num d.1 = v ∨ num d.2 = v := by
        rcases hs with h | h
        · exact .inl (by rw [h, hv])
        · exact .inr (by rw [h, hv])
      omega

theorem uses_congr {es es' : List EdgeInfo} (h : es.map (fun e => (e.v1, e.v2)) = es'.map fun e => (e.v1, e.v2)) {a v : Nat} : Uses es a v ↔ Uses es' a v := by
  have key : (es[a]?).map (fun e => (e.v1, e.v2)) = (es'[a]?).map fun e => (e.v1, e.v2) := by rw [← List.getElem?_map, ← List.getElem?_map, h]
  unfold Uses
  cases h1 : es[a]? with
  | none =>
    cases h2 : es'[a]? with
    | none => simp
    | some e => rw [h1, h2] at key; cases key
  | some e =>
    cases h2 : es'[a]? with
    | none => rw [h1, h2] at key; cases key
    | some e' =>
      rw [h1, h2] at key
      simp only [Option.map_some, Option.some.injEq, Prod.mk.injEq] at key
      simp only [Option.some.injEq, exists_eq_left']
      rw [key.1, key.2]

variable {K : Type} [DecidableEq K]

/-- the colours in use -/
def Palette (C : List (V × K)) (ks : List K) : Prop := ks.Nodup ∧ ∀ k, k ∈ ks ↔ ∃ s, (s, k) ∈ C

theorem palette_length {C : List (V × K)} {ks ks' : List K} (h : Palette C ks) (h' : Palette C ks') : ks.length = ks'.length := by
  apply Nat.le_antisymm
  · exact h.1.length_le_of_subset fun k hk => (h'.2 k).2 ((h.2 k).1 hk)
  · exact h'.1.length_le_of_subset fun k hk => (h.2 k).2 ((h'.2 k).1 hk)

theorem update_spec (E : List (V × V)) (C : List (V × K)) (hC : C.Pairwise fun p q => p.1 ≠ q.1) :
    (gUpdate E C = .thrown ∧ (65535 ≤ (gStack (gUnique E)).length ∨ (∃ p ∈ C, p.1 ∉ gStack (gUnique E)) ∨ ∃ ks, Palette C ks ∧ 65535 < ks.length)) ∨
    ∃ G : Graph, gUpdate E C = .ok G ∧ G.Ok ∧ G.vMax = (gStack (gUnique E)).length ∧ G.Named C (gUnique E) (gNumber (gStack (gUnique E))) ∧
      (∀ p ∈ C, p.1 ∈ gStack (gUnique E)) ∧ ∃ ks, Palette C ks ∧ ks.length = G.numColor := by
  generalize hD : gUnique E = D
  generalize hst : gStack D = st
  have hDp : D.Pairwise fun e f => ¬ SameE e f := by rw [← hD]; exact (unique_spec E).1
  have hmem : ∀ v, v ∈ st ↔ ∃ a, Touch D a v := fun v => by rw [← hst]; exact mem_stack
  have hnd : st.Nodup := by rw [← hst]; exact nodup_stack D
  unfold gUpdate
  dsimp only
  rw [hD, hst]
  by_cases h0 : 65535 < st.length + 1
  · rw [if_pos h0]; exact .inl ⟨rfl, .inl (by omega)⟩
  rw [if_neg h0]
  generalize hnum : gNumber st = num
  have hn1 : ∀ s, s ∈ st ↔ 1 ≤ num s ∧ num s ≤ st.length := fun s => by
    constructor
    · intro h; rw [← hnum]; exact number_range h
    · intro h
      apply Classical.byContradiction; intro hs
      rw [← hnum, number_zero.2 hs] at h; omega
  have hn2 : ∀ s, num s = 0 ↔ s ∉ st := fun s => by rw [← hnum]; exact number_zero
  have hn3 : ∀ s t, 1 ≤ num s → num s = num t → s = t := fun s t h1 h2 => by
    have hs : s ∈ st := Classical.byContradiction fun h => by have := (hn2 s).2 h; omega
    have ht : t ∈ st := Classical.byContradiction fun h => by have := (hn2 t).2 h; omega
    rw [← hnum] at h2
    exact number_inj hs ht h2
  have hn4 : ∀ v, 1 ≤ v → v ≤ st.length → ∃ s, num s = v := fun v h1 h2 => by
    obtain ⟨s, _, h⟩ := number_surj hnd h1 h2
    exact ⟨s, by rw [← hnum]; exact h⟩
  have hDe : ∀ e ∈ D, e.1 ∈ st ∧ e.2 ∈ st := fun e he => by
    obtain ⟨a, ha⟩ := List.mem_iff_getElem?.1 he
    exact ⟨(hmem _).2 ⟨a, e, ha, .inl rfl⟩, (hmem _).2 ⟨a, e, ha, .inr rfl⟩⟩
  have hpw : (D.map (numE num)).Pairwise fun e f => ¬ (e.v1 = f.v1 ∧ e.v2 = f.v2) := by
    rw [List.pairwise_map]
    have hDp' : D.Pairwise fun e f => (e ∈ D ∧ f ∈ D) ∧ ¬ SameE e f := by
      rw [List.pairwise_iff_getElem] at hDp ⊢
      exact fun i j hi hj hij => ⟨⟨List.getElem_mem _, List.getElem_mem _⟩, hDp i j hi hj hij⟩
    refine hDp'.imp ?_
    rintro ⟨s, t⟩ ⟨s', t'⟩ ⟨⟨he, hf⟩, hne⟩ ⟨h1, h2⟩
    apply hne
    have k1 := (hn1 s).1 (hDe _ he).1
    have k2 := (hn1 t).1 (hDe _ he).2
    simp only [numE, EdgeInfo.mk0] at h1 h2
    have : (num s = num s' ∧ num t = num t') ∨ (num s = num t' ∧ num t = num s') := by omega
    rcases this with ⟨g1, g2⟩ | ⟨g1, g2⟩
    · exact .inl (by rw [hn3 s s' k1.1 g1, hn3 t t' k2.1 g2])
    · exact .inr (by rw [hn3 s t' k1.1 g1, hn3 t s' k2.1 g2])
  have hes := edges_eq (num := num) D [] (fun e he => by
    have := hDe e he
    have k1 := (hn1 e.1).1 this.1
    have k2 := (hn1 e.2).1 this.2
    omega) (by rw [List.nil_append]; exact hpw)
  rw [List.nil_append] at hes
  rw [hes]
  show (_ ∨ _)
  dsimp only [Res.bind]
  generalize hesd : D.map (numE num) = es at hpw
  have hesl : es.map (fun e => (e.v1, e.v2)) = D.map fun e => (min (num e.1) (num e.2), max (num e.1) (num e.2)) := by
    rw [← hesd, List.map_map]; rfl
  have huse : ∀ {a v : Nat}, Uses es a v ↔ ∃ s, Touch D a s ∧ num s = v := uses_iff hesl
  have hr : ∀ (a : Nat) e, es[a]? = some e → 1 ≤ e.v1 ∧ e.v1 ≤ e.v2 ∧ e.v2 ≤ st.length := by
    intro a e he
    rw [← hesd, List.getElem?_map] at he
    obtain ⟨d, hd, rfl⟩ := Option.map_eq_some_iff.1 he
    have := hDe d (List.mem_of_getElem? hd)
    have k1 := (hn1 d.1).1 this.1
    have k2 := (hn1 d.2).1 this.2
    simp only [numE, EdgeInfo.mk0]
    omega
  have hocc : ∀ v, 1 ≤ v → v ≤ st.length → ∃ a, Uses es a v := by
    intro v h1 h2
    obtain ⟨s, hs⟩ := hn4 v h1 h2
    obtain ⟨a, ha⟩ := (hmem s).1 ((hn1 s).2 (by omega))
    exact ⟨a, huse.2 ⟨s, ha, hs⟩⟩
  have hmax : gMax es = st.length := by
    apply Nat.le_antisymm
    · apply foldl_max_le _ _ _ (Nat.zero_le _)
      intro e he
      obtain ⟨a, ha⟩ := List.mem_iff_getElem?.1 he
      exact (hr a e ha).2.2
    · rcases Nat.eq_zero_or_pos st.length with h | h
      · omega
      · obtain ⟨a, e, he, hv⟩ := hocc st.length h (Nat.le_refl _)
        have := (foldl_max_ge es 0).2 e (List.mem_of_getElem? he)
        have k := hr a e he
        unfold gMax; omega
  have horder : ∀ a v w, 1 ≤ v → v ≤ w → w ≤ st.length → Uses es a v → ∃ b, a ≤ b ∧ Uses es b w := by
    intro a v w h1 h2 h3 hu
    apply Classical.byContradiction
    intro hno
    obtain ⟨s, hs⟩ := hn4 v h1 (by omega)
    obtain ⟨t, ht⟩ := hn4 w (by omega) h3
    have ht' : t ∈ st := (hn1 t).2 (by omega)
    have hs' : s ∈ st := (hn1 s).2 (by omega)
    obtain ⟨s', hs1, hs2⟩ := huse.1 hu
    have : s' = s := (hn3 s s' (by omega) (by omega)).symm
    subst this
    have hb := stack_order (E := D) (v := t) (w := s') (a := a) (by rw [hst]; exact ht')
      (fun b hb hT => hno ⟨b, hb, huse.2 ⟨t, hT, ht⟩⟩) ⟨a, Nat.le_refl _, hs1⟩
    rw [hst, ← number_lt ht' hs', hnum] at hb
    omega
  rcases colors_inv (num := num) C [] List.nodup_nil (fun c hc => (nomatch hc)) with ⟨e, p, hp, hp0⟩ | ⟨cs, e, hc1, hc2, hc3, hc4⟩
  · rw [e]
    exact .inl ⟨rfl, .inr (.inl ⟨p, hp, (hn2 _).1 hp0⟩)⟩
  rw [e]
  dsimp only
  have hHas : ∀ k v, Has cs k v ↔ ∃ s, (s, k) ∈ C ∧ num s = v := fun k v => by
    rw [hc4]
    exact ⟨fun h => h.elim (fun ⟨_, h, _⟩ => (nomatch h)) id, .inr⟩
  have hpal : Palette C (cs.map (·.1)) := by
    refine ⟨hc2, fun k => ?_⟩
    constructor
    · intro hk
      obtain ⟨c, hc, rfl⟩ := List.mem_map.1 hk
      obtain ⟨v, hv⟩ := List.exists_mem_of_ne_nil _ (hc3 c hc)
      obtain ⟨s, hs, _⟩ := (hHas c.1 v).1 ⟨c.2, hc, hv⟩
      exact ⟨s, hs⟩
    · rintro ⟨s, hs⟩
      obtain ⟨vs, hvs, _⟩ := (hHas k (num s)).2 ⟨s, hs, rfl⟩
      exact List.mem_map.2 ⟨_, hvs, rfl⟩
  by_cases h1 : 65535 < cs.length
  · rw [if_pos h1]
    exact .inl ⟨rfl, .inr (.inr ⟨_, hpal, by rw [List.length_map]; exact h1⟩)⟩
  rw [if_neg h1, hmax]
  -- colours
  have hCs : ∀ s k k', (s, k) ∈ C → (s, k') ∈ C → k = k' := by
    intro s k k' g1 g2
    obtain ⟨i, hi⟩ := List.mem_iff_getElem.1 g1
    obtain ⟨j, hj⟩ := List.mem_iff_getElem.1 g2
    obtain ⟨hi, hi'⟩ := hi
    obtain ⟨hj, hj'⟩ := hj
    rw [List.pairwise_iff_getElem] at hC
    rcases Nat.lt_trichotomy i j with h | h | h
    · exact absurd (by rw [hi', hj']) (hC i j hi hj h)
    · subst h; rw [hi'] at hj'; injection hj'
    · exact absurd (by rw [hi', hj']) (hC j i hj hi h)
  have hCm : ∀ s k, (s, k) ∈ C → s ∈ st := fun s k h => Classical.byContradiction fun hs => hc1 _ h ((hn2 s).2 hs)
  have hdis : ∀ v, ∀ (j j' : Nat) c c', cs[j]? = some c → cs[j']? = some c' → v ∈ c.2 → v ∈ c'.2 → j = j' := by
    intro v j j' c c' g1 g2 g3 g4
    obtain ⟨s, s1, s2⟩ := (hHas c.1 v).1 ⟨c.2, List.mem_of_getElem? g1, g3⟩
    obtain ⟨t, t1, t2⟩ := (hHas c'.1 v).1 ⟨c'.2, List.mem_of_getElem? g2, g4⟩
    have hst' : s = t := hn3 s t ((hn1 s).1 (hCm _ _ s1)).1 (by omega)
    subst hst'
    have hk := hCs _ _ _ s1 t1
    have n1 := (List.getElem?_eq_some_iff.1 g1)
    have n2 := (List.getElem?_eq_some_iff.1 g2)
    obtain ⟨l1, n1⟩ := n1
    obtain ⟨l2, n2⟩ := n2
    have hne := hc2
    unfold List.Nodup at hne
    rw [List.pairwise_map, List.pairwise_iff_getElem] at hne
    rcases Nat.lt_trichotomy j j' with h | h | h
    · exact absurd (by rw [n1, n2]; exact hk) (hne j j' l1 l2 h)
    · exact h
    · exact absurd (by rw [n1, n2]; exact hk.symm) (hne j' j l2 l1 h)
  generalize hc0 : gColorNum cs 1 (fun _ => 0) = col0
  have hcol0 : ∀ v, (∀ (j : Nat) c, cs[j]? = some c → v ∈ c.2 → col0 v = 1 + j) ∧ ((∀ c ∈ cs, v ∉ c.2) → col0 v = 0) := fun v => by
    rw [← hc0]; exact colorNum_eq cs 1 (fun _ => 0) v (hdis v)
  have hcol0s : ∀ s k, (s, k) ∈ C → ∃ (j : Nat) (c : K × List Nat), cs[j]? = some c ∧ c.1 = k ∧ num s ∈ c.2 ∧ col0 (num s) = 1 + j := fun s k h => by
    obtain ⟨vs, hvs, hv⟩ := (hHas k (num s)).2 ⟨s, h, rfl⟩
    obtain ⟨j, hj⟩ := List.mem_iff_getElem?.1 hvs
    exact ⟨j, _, hj, rfl, hv, (hcol0 _).1 j _ hj hv⟩
  have hcol0z : ∀ v, (∀ s k, (s, k) ∈ C → num s ≠ v) → col0 v = 0 := fun v h => by
    apply (hcol0 v).2
    intro c hc hv
    obtain ⟨s, s1, s2⟩ := (hHas c.1 v).1 ⟨c.2, hc, hv⟩
    exact h s _ s1 s2
  obtain ⟨cmap, cn, hsort⟩ := sort_inv st.length 1 (fun _ => 0) 0 col0 (Nat.le_refl _) (sort_init col0)
  generalize hcol : gSortColors st.length 1 (fun _ => 0) 0 col0 = col at hsort
  rw [Nat.add_comm 1] at hsort
  have hcv : ∀ v, 1 ≤ v → v ≤ st.length → col v = cmap (col0 v) := fun v g1 g2 => hsort.old v g1 (by omega)
  have hcvo : ∀ v, v = 0 ∨ st.length < v → col v = 0 := by
    intro v hv
    have hz : col0 v = 0 := hcol0z v fun s k hs e => by
      have := (hn1 s).1 (hCm s k hs); omega
    rcases hv with rfl | hv
    · have : ∀ k v cmap cn col, 1 ≤ v → gSortColors k v cmap cn col 0 = col 0 := by
        intro k
        induction k with
        | zero => intros; rfl
        | succ k ih =>
          intro v cmap cn col hv
          unfold gSortColors
          dsimp only
          split
          · exact ih _ _ _ _ (by omega)
          · split
            · rw [ih _ _ _ _ (by omega), if_neg (by omega)]
            · rw [ih _ _ _ _ (by omega), if_neg (by omega)]
      rw [← hcol, this _ _ _ _ _ (Nat.le_refl _), hz]
    · rw [hsort.new v (by omega), hz]
  have hcn : cn = cs.length := by
    -- colours `1..cs.length` of the first numbering are exactly those that are mapped
    have hm1 : ∀ c, cmap c ≠ 0 ↔ 1 ≤ c ∧ c ≤ cs.length := by
      intro c
      rw [hsort.seen]
      constructor
      · rintro ⟨h1, u, h2, h3, h4⟩
        refine ⟨by omega, ?_⟩
        by_cases hex : ∃ s k, (s, k) ∈ C ∧ num s = u
        · obtain ⟨s, k, hs, hsu⟩ := hex
          obtain ⟨j, c', g1, _, _, g2⟩ := hcol0s s k hs
          have := (List.getElem?_eq_some_iff.1 g1).1
          rw [hsu] at g2; omega
        · have := hcol0z u fun s k hs e => hex ⟨s, k, hs, e⟩
          omega
      · rintro ⟨g1, g2⟩
        refine ⟨by omega, ?_⟩
        have hlt : c - 1 < cs.length := by omega
        obtain ⟨v, hv⟩ := List.exists_mem_of_ne_nil _ (hc3 cs[c - 1] (List.getElem_mem _))
        obtain ⟨s, s1, s2⟩ := (hHas _ v).1 ⟨_, List.getElem_mem _, hv⟩
        have := (hn1 s).1 (hCm _ _ s1)
        refine ⟨v, by omega, by omega, ?_⟩
        rw [(hcol0 v).1 (c - 1) _ (List.getElem?_eq_getElem hlt) hv]; omega
    apply Nat.le_antisymm
    · -- choose preimages
      have : ∀ n, n ≤ cn → ∃ l : List Nat, l.length = n ∧ l.Nodup ∧ ∀ c ∈ l, 1 ≤ cmap c ∧ cmap c ≤ n := by
        intro n
        induction n with
        | zero => exact fun _ => ⟨[], rfl, List.nodup_nil, fun c hc => (nomatch hc)⟩
        | succ n ih =>
          intro hn
          obtain ⟨l, l1, l2, l3⟩ := ih (by omega)
          obtain ⟨c, hc⟩ := hsort.surj (n + 1) (by omega) hn
          refine ⟨c :: l, by simp [l1], List.nodup_cons.2 ⟨fun h => ?_, l2⟩, fun d hd => ?_⟩
          · have := l3 c h; omega
          · rcases List.mem_cons.1 hd with rfl | hd
            · omega
            · have := l3 d hd; omega
      obtain ⟨l, l1, l2, l3⟩ := this cn (Nat.le_refl _)
      have hsub := l2.length_le_of_subset (l₂ := List.range' 1 cs.length) fun c hc => by
        have := (hm1 c).1 (by have := l3 c hc; omega)
        rw [List.mem_range'_1]; omega
      rw [List.length_range'] at hsub
      omega
    · have hnd : ((List.range' 1 cs.length).map cmap).Nodup := by
        unfold List.Nodup
        rw [List.pairwise_map]
        have hnr : (List.range' 1 cs.length).Nodup := List.nodup_range'
        have : (List.range' 1 cs.length).Pairwise fun a b => (a ∈ List.range' 1 cs.length) ∧ a ≠ b := by
          unfold List.Nodup at hnr
          rw [List.pairwise_iff_getElem] at hnr ⊢
          exact fun i j hi hj hij => ⟨List.getElem_mem _, hnr i j hi hj hij⟩
        refine this.imp ?_
        rintro a b ⟨ha, hab⟩ e
        rw [List.mem_range'_1] at ha
        exact hab (hsort.inj a b ((hm1 a).2 (by omega)) e)
      have hsub := hnd.length_le_of_subset (l₂ := List.range' 1 cn) fun c hc => by
        obtain ⟨d, hd, rfl⟩ := List.mem_map.1 hc
        rw [List.mem_range'_1] at hd
        have h1 := (hm1 d).2 (by omega)
        have h2 := hsort.le d
        rw [List.mem_range'_1]; omega
      simpa using hsub
  subst hcn
  -- last edges
  obtain ⟨l, s, el, hl, hs⟩ := last_inv (vMax := st.length) es es 0 (fun _ => -1) (fun _ => -1) rfl (fun e he => by
      obtain ⟨a, ha⟩ := List.mem_iff_getElem?.1 he
      have := hr a e ha; omega)
    (fun v => ⟨by omega, by omega, fun j h => by omega, fun k _ h => by omega⟩) (fun v => ⟨fun _ => rfl, fun j h => by omega⟩)
  rw [el]
  dsimp only
  generalize hfirst : gFirstAll col es 0 (fun c => c == 0) (cs.length : Int) = first
  have hcle : ∀ v, col v ≤ cs.length := fun v => by
    by_cases hv : v = 0 ∨ st.length < v
    · rw [hcvo v hv]; omega
    · rw [hcv v (by omega) (by omega)]; exact hsort.le _
  have hcsurj : ∀ c, 1 ≤ c → c ≤ cs.length → ∃ v, 1 ≤ v ∧ v ≤ st.length ∧ col v = c := fun c g1 g2 => by
    obtain ⟨d, hd⟩ := hsort.surj c g1 g2
    obtain ⟨_, u, u1, u2, u3⟩ := (hsort.seen d).1 (by omega)
    exact ⟨u, u1, by omega, by rw [hcv u u1 (by omega), u3, hd]⟩
  have hfs : ∀ a, first ≤ a ↔ ∀ c, 1 ≤ c → c ≤ cs.length → SeenBy es col (a + 1) c := fun a => by
    rw [← hfirst]
    apply first_spec es col hcle
    intro c g1 g2
    obtain ⟨v, v1, v2, v3⟩ := hcsurj c g1 g2
    obtain ⟨b, hb⟩ := hocc v v1 v2
    refine ⟨b, v, ?_, hb, v3⟩
    obtain ⟨f, hf, _⟩ := hb
    exact (List.getElem?_eq_some_iff.1 hf).1
  obtain ⟨r, er, hlen, hfin⟩ := final_inv (vMax := st.length) (l := l) (s := s) (first := first) (m := es.length) es 0 1 (fun j e he => by
    have h1 := hr j e he
    refine ⟨by omega, h1.2.2, ?_⟩
    rcases Int.lt_or_le (l e.v2) ((0 + j : Nat) : Int) with hlt | hge
    · exact absurd ⟨e, he, .inr rfl⟩ ((hl e.v2).none j (by omega) (List.getElem?_eq_some_iff.1 he).1)
    · exact hge) (fun v h1 h2 => by omega)
  rw [er]
  refine .inr ⟨⟨r, st.length, col, cs.length⟩, rfl, ?_⟩
  have hget : ∀ (a : Nat) e, r[a]? = some e → ∃ e0 w, es[a]? = some e0 ∧ e = finE l s first es.length a w e0 ∧ 1 ≤ w ∧ w ≤ st.length ∧ (a : Int) ≤ l w ∧ ∀ v, 1 ≤ v → v < w → l v < a := by
    intro a e he
    have hlt : a < es.length := by rw [← hlen]; exact (List.getElem?_eq_some_iff.1 he).1
    obtain ⟨w, w1, w2, w3, w4, w5⟩ := hfin a es[a] (List.getElem?_eq_getElem hlt)
    rw [Nat.zero_add] at w1 w4 w5
    rw [he] at w1
    exact ⟨es[a], w, List.getElem?_eq_getElem hlt, Option.some.inj w1, w2, w3, w4, w5⟩
  have hrl : r.map (fun e => (e.v1, e.v2)) = es.map fun e => (e.v1, e.v2) := by
    apply List.ext_getElem?
    intro a
    rw [List.getElem?_map, List.getElem?_map]
    cases h : r[a]? with
    | none =>
      have : es[a]? = none := by rw [List.getElem?_eq_none_iff] at h ⊢; omega
      rw [this]
    | some e =>
      obtain ⟨e0, w, g1, g2, _⟩ := hget a e h
      rw [g1, g2]; try rfl
  have hru : ∀ {a v : Nat}, Uses r a v ↔ Uses es a v := uses_congr hrl
  have hlge : ∀ (v a : Nat), (a : Int) ≤ l v ↔ ∃ b, a ≤ b ∧ Uses es b v := by
    intro v a
    constructor
    · intro h
      exact ⟨(l v).toNat, by omega, (hl v).uses _ (by omega)⟩
    · rintro ⟨b, h1, h2⟩
      rcases Int.lt_or_le (l v) (b : Int) with hlt | hge
      · obtain ⟨f, hf, hf2⟩ := h2
        exact absurd ⟨f, hf, hf2⟩ ((hl v).none b hlt (List.getElem?_eq_some_iff.1 hf).1)
      · omega
  refine ⟨⟨?_, ?_, ?_, ?_, ?_, ?_, ?_, ?_, ?_, ?_, ?_, ?_, ?_, ?_, ?_, ?_, ?_⟩, rfl, ⟨?_, ?_, ?_, ?_, ?_, ?_, ?_, ?_, ?_, ?_⟩, ?_, ?_⟩
  all_goals try dsimp only
  · intro a e he
    obtain ⟨e0, w, g1, rfl, _⟩ := hget a e he
    exact hr a e0 g1
  · intro a b e f he hf k1 k2
    obtain ⟨e0, w, g1, rfl, _⟩ := hget a e he
    obtain ⟨f0, w', g1', rfl, _⟩ := hget b f hf
    obtain ⟨l1, n1⟩ := (List.getElem?_eq_some_iff.1 g1)
    obtain ⟨l2, n2⟩ := (List.getElem?_eq_some_iff.1 g1')
    rw [List.pairwise_iff_getElem] at hpw
    simp only [finE] at k1 k2
    rcases Nat.lt_trichotomy a b with h | h | h
    · exact absurd (by rw [n1, n2]; exact ⟨k1, k2⟩) (hpw a b l1 l2 h)
    · exact h
    · exact absurd (by rw [n1, n2]; exact ⟨k1.symm, k2.symm⟩) (hpw b a l2 l1 h)
  · intro v h1 h2
    obtain ⟨a, ha⟩ := hocc v h1 h2
    exact ⟨a, hru.2 ha⟩
  · intro a v w h1 h2 h3 hu
    obtain ⟨b, hb, hb'⟩ := horder a v w h1 h2 h3 (hru.1 hu)
    exact ⟨b, hb, hru.2 hb'⟩
  · intro a e he
    obtain ⟨e0, w, g1, rfl, _⟩ := hget a e he
    simp only [finE, decide_eq_true_eq]
    rw [(hl _).final]
    exact ⟨fun h b hb hu => h.2 b hb (hru.1 hu), fun h => ⟨⟨e0, g1, .inl rfl⟩, fun b hb hu => h b hb (hru.2 hu)⟩⟩
  · intro a e he
    obtain ⟨e0, w, g1, rfl, _⟩ := hget a e he
    simp only [finE, decide_eq_true_eq]
    rw [(hl _).final]
    exact ⟨fun h b hb hu => h.2 b hb (hru.1 hu), fun h => ⟨⟨e0, g1, .inr rfl⟩, fun b hb hu => h b hb (hru.2 hu)⟩⟩
  · intro a e he
    obtain ⟨e0, w, g1, rfl, _⟩ := hget a e he
    simp only [finE, decide_eq_true_eq]
    rw [second_final (hl _) (hs _)]
    constructor
    · rintro ⟨_, b, b1, b2, b3⟩
      exact ⟨b, b1, hru.2 b2, fun c c1 c2 => b3 c c1 (hru.1 c2)⟩
    · rintro ⟨b, b1, b2, b3⟩
      exact ⟨⟨e0, g1, .inl rfl⟩, b, b1, hru.1 b2, fun c c1 c2 => b3 c c1 (hru.2 c2)⟩
  · intro a e he
    obtain ⟨e0, w, g1, rfl, _⟩ := hget a e he
    simp only [finE, decide_eq_true_eq]
    rw [second_final (hl _) (hs _)]
    constructor
    · rintro ⟨_, b, b1, b2, b3⟩
      exact ⟨b, b1, hru.2 b2, fun c c1 c2 => b3 c c1 (hru.1 c2)⟩
    · rintro ⟨b, b1, b2, b3⟩
      exact ⟨⟨e0, g1, .inr rfl⟩, b, b1, hru.1 b2, fun c c1 c2 => b3 c c1 (hru.2 c2)⟩
  · intro a e he
    obtain ⟨e0, w, g1, rfl, g2, g3, g4, g5⟩ := hget a e he
    refine ⟨g2, g3, ?_, fun v k1 k2 b hb hu => ?_⟩
    · obtain ⟨b, b1, b2⟩ := (hlge w a).1 g4
      exact ⟨b, b1, hru.2 b2⟩
    · have h1 := g5 v k1 k2
      have h2 := (hlge v a).2 ⟨b, hb, hru.1 hu⟩
      omega
  · intro a e he
    obtain ⟨e0, w, g1, rfl, _⟩ := hget a e he
    simp only [finE, decide_eq_true_eq]
    rw [hlen]
  · intro a e he
    obtain ⟨e0, w, g1, rfl, _⟩ := hget a e he
    simp only [finE, decide_eq_true_eq]
    rw [hfs]
    constructor
    · intro h c c1 c2
      obtain ⟨b, v, k1, k2, k3⟩ := h c c1 c2
      exact ⟨b, v, by omega, hru.2 k2, k3⟩
    · intro h c c1 c2
      obtain ⟨b, v, k1, k2, k3⟩ := h c c1 c2
      exact ⟨b, v, by omega, hru.1 k2, k3⟩
  · exact hcle
  · exact hcvo
  · exact hcsurj
  · intro v h1 h2 c c1 c2
    rw [hcv v h1 h2] at c2
    obtain ⟨u, u1, u2, u3⟩ := hsort.asc v h1 (by omega) c c1 c2
    exact ⟨u, u1, u2, by rw [hcv u u1 (by omega), u3]⟩
  · omega
  · omega
  · rw [hlen, ← hesd, List.length_map]
  · intro a x y hxy
    have hE : es[a]? = some (numE num (x, y)) := by rw [← hesd, List.getElem?_map, hxy]; rfl
    obtain ⟨w, w1, _⟩ := hfin a _ hE
    exact ⟨_, w1, rfl, rfl⟩
  · intro x; rw [← hmem]; exact (hn1 x).symm
  · intro x
    by_cases hx : x ∈ st
    · exact ((hn1 x).1 hx).2
    · rw [(hn2 x).2 hx]; exact Nat.zero_le _
  · exact hn3
  · exact hn4
  · intro a x y hx hno hy
    have hx' := (hmem x).2 hx
    obtain ⟨b, b1, b2⟩ := hy
    have hy' := (hmem y).2 ⟨b, b2⟩
    rw [← hnum, number_lt hx' hy', ← hst]
    exact stack_order (by rw [hst]; exact hx') hno ⟨b, b1, b2⟩
  · intro a x y hxy hne h1 h2
    have hx' := (hmem x).2 ⟨a, _, hxy, .inl rfl⟩
    have hy' := (hmem y).2 ⟨a, _, hxy, .inr rfl⟩
    rw [← hnum, number_lt hx' hy', ← hst]
    exact stack_tie hxy hne h1 h2
  · intro x y k hx hy hxk
    obtain ⟨j, c, g1, g2, g3, g4⟩ := hcol0s x k hxk
    have hxr := (hn1 x).1 (hCm _ _ hxk)
    have hne : cmap (col0 (num x)) ≠ 0 := (hsort.seen _).2 ⟨by omega, num x, by omega, by omega, rfl⟩
    have hyr : num y ≤ st.length := by
      by_cases hy' : y ∈ st
      · exact ((hn1 y).1 hy').2
      · have := (hn2 y).2 hy'; omega
    rw [hcv _ hxr.1 hxr.2, hcv _ hy hyr]
    refine ⟨hne, fun heq => ?_, fun hyk => ?_⟩
    · have h3 := hsort.inj _ _ (by rw [heq]; exact hne) heq
      by_cases hex : ∃ k', (y, k') ∈ C
      · obtain ⟨k', hk'⟩ := hex
        obtain ⟨j', c', g1', g2', g3', g4'⟩ := hcol0s y k' hk'
        have : j = j' := by omega
        subst this
        rw [g1] at g1'
        injection g1' with g1'
        subst g1'
        rw [← g2, g2']; exact hk'
      · have := hcol0z (num y) fun s' k' hs' e' => by
          have := hn3 s' y (by omega) e'
          subst this
          exact hex ⟨k', hs'⟩
        omega
    · obtain ⟨j', c', g1', g2', g3', g4'⟩ := hcol0s y k hyk
      have hj : j = j' := by
        obtain ⟨l1, n1⟩ := (List.getElem?_eq_some_iff.1 g1)
        obtain ⟨l2, n2⟩ := (List.getElem?_eq_some_iff.1 g1')
        have hne := hc2
        unfold List.Nodup at hne
        rw [List.pairwise_map, List.pairwise_iff_getElem] at hne
        rcases Nat.lt_trichotomy j j' with h | h | h
        · exact absurd (by rw [n1, n2, g2, g2']) (hne j j' l1 l2 h)
        · exact h
        · exact absurd (by rw [n1, n2, g2, g2']) (hne j' j l2 l1 h)
      rw [g4, g4', hj]
  · intro x hx
    by_cases h0 : num x = 0
    · exact hcvo _ (.inl h0)
    · have hz := hcol0z (num x) fun s' k' hs' e' => by
        have := hn3 s' x (by omega) e'
        subst this
        exact hx _ hs'
      have hxr : num x ≤ st.length := by
        by_cases hy' : x ∈ st
        · exact ((hn1 x).1 hy').2
        · have := (hn2 x).2 hy'; omega
      rw [hcv _ (by omega) hxr, hz, hsort.zero]
  · intro p hp
    exact hCm p.1 p.2 hp
  · exact ⟨_, hpal, List.length_map ..⟩

end

end Gr
end TdZdd
