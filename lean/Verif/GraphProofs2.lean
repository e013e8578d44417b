import Verif.GraphProofs

/-! Proofs about `Graph::update` (2): last edges, `v0`, colours. -/

namespace TdZdd

namespace Gr

/-! ### last and second last edges -/

/-- `x` is the largest index below `a` of an edge at `v`, or -1 -/
structure IsLast (es : List EdgeInfo) (a v : Nat) (x : Int) : Prop where
  ge : -1 ≤ x
  lt : x < a
  uses : ∀ j : Nat, x = j → Uses es j v
  none : ∀ k : Nat, x < k → k < a → ¬ Uses es k v

theorem uses_get {es : List EdgeInfo} {a : Nat} {e : EdgeInfo} (h : es[a]? = some e) (v : Nat) : Uses es a v ↔ e.v1 = v ∨ e.v2 = v := by
  constructor
  · rintro ⟨f, hf, hv⟩
    rw [h] at hf
    cases hf
    exact hv
  · exact fun hv => ⟨e, h, hv⟩

theorem last_inv {vMax : Nat} (all : List EdgeInfo) : ∀ (es : List EdgeInfo) (a : Nat) (l s : Nat → Int), all.drop a = es → (∀ e ∈ es, e.v1 ≤ vMax ∧ e.v2 ≤ vMax) →
    (∀ v, IsLast all a v (l v)) → (∀ v, (l v = -1 → s v = -1) ∧ (∀ j : Nat, l v = j → IsLast all j v (s v))) →
    ∃ l' s', gLast vMax es a l s = .ok (l', s') ∧ (∀ v, IsLast all all.length v (l' v)) ∧
      ∀ v, (l' v = -1 → s' v = -1) ∧ (∀ j : Nat, l' v = j → IsLast all j v (s' v))
  | [], a, l, s, hd, _, hl, hs => by
    have ha : all.length ≤ a := List.drop_eq_nil_iff.1 hd
    refine ⟨l, s, rfl, fun v => ?_, hs⟩
    refine ⟨(hl v).ge, ?_, (hl v).uses, fun k h1 h2 => (hl v).none k h1 (by omega)⟩
    have h1 := (hl v).ge
    by_cases h : l v = -1
    · omega
    · obtain ⟨e, he, _⟩ := (hl v).uses (l v).toNat (by omega)
      have := (List.getElem?_eq_some_iff.1 he).1
      omega
  | e :: es, a, l, s, hd, hb, hl, hs => by
    have hlt : a < all.length := by
      rcases Nat.lt_or_ge a all.length with h | h
      · exact h
      · rw [List.drop_eq_nil_of_le h] at hd; cases hd
    have he : all[a]? = some e := by
      have := List.drop_eq_getElem_cons hlt
      rw [this] at hd
      injection hd with h1 _
      rw [List.getElem?_eq_getElem hlt, h1]
    have hd' : all.drop (a + 1) = es := by
      have := List.drop_eq_getElem_cons hlt
      rw [this] at hd
      injection hd
    have hb0 := hb e (List.mem_cons_self ..)
    unfold gLast
    rw [if_neg (by omega)]
    dsimp only
    have hnl : ∀ v, gset (gset l e.v1 a) e.v2 a v = if e.v1 = v ∨ e.v2 = v then (a : Int) else l v := by
      intro v; unfold gset
      by_cases h1 : v = e.v2
      · rw [if_pos h1, if_pos (.inr h1.symm)]
      · rw [if_neg h1]
        by_cases h2 : v = e.v1
        · rw [if_pos h2, if_pos (.inl h2.symm)]
        · rw [if_neg h2, if_neg]; rintro (h | h)
          · exact h2 h.symm
          · exact h1 h.symm
    have hns : ∀ v, gset (gset s e.v1 (l e.v1)) e.v2 (l e.v2) v = if e.v1 = v ∨ e.v2 = v then l v else s v := by
      intro v; unfold gset
      by_cases h1 : v = e.v2
      · rw [if_pos h1, if_pos (.inr h1.symm), h1]
      · rw [if_neg h1]
        by_cases h2 : v = e.v1
        · rw [if_pos h2, if_pos (.inl h2.symm), h2]
        · rw [if_neg h2, if_neg]; rintro (h | h)
          · exact h2 h.symm
          · exact h1 h.symm
    apply last_inv all es (a + 1) _ _ hd' fun f hf => hb f (List.mem_cons_of_mem _ hf)
    · intro v
      rw [hnl v]
      by_cases hu : e.v1 = v ∨ e.v2 = v
      · rw [if_pos hu]
        refine ⟨by omega, by omega, fun j hj => ?_, fun k h1 h2 => by omega⟩
        have : j = a := by omega
        subst this
        exact ⟨e, he, hu⟩
      · rw [if_neg hu]
        have := (hl v).lt
        refine ⟨(hl v).ge, by omega, (hl v).uses, fun k h1 h2 hk => ?_⟩
        by_cases hka : k = a
        · subst hka; exact hu ((uses_get he v).1 hk)
        · exact (hl v).none k h1 (by omega) hk
    · intro v
      rw [hnl v, hns v]
      by_cases hu : e.v1 = v ∨ e.v2 = v
      · rw [if_pos hu, if_pos hu]
        refine ⟨fun h => by omega, fun j hj => ?_⟩
        have : j = a := by omega
        subst this
        exact hl v
      · rw [if_neg hu, if_neg hu]
        exact hs v

theorem IsLast.final {es : List EdgeInfo} {v : Nat} {x : Int} (h : IsLast es es.length v x) {a : Nat} :
    (a : Int) = x ↔ Uses es a v ∧ ∀ b, a < b → ¬ Uses es b v := by
  constructor
  · intro e
    refine ⟨h.uses a e.symm, fun b hb hu => ?_⟩
    have : b < es.length := by obtain ⟨f, hf, _⟩ := hu; exact (List.getElem?_eq_some_iff.1 hf).1
    exact h.none b (by omega) this hu
  · rintro ⟨h1, h2⟩
    have ha : a < es.length := by obtain ⟨f, hf, _⟩ := h1; exact (List.getElem?_eq_some_iff.1 hf).1
    have hge := h.ge
    rcases Int.lt_trichotomy (a : Int) x with hlt | heq | hgt
    · exact absurd (h.uses x.toNat (by omega)) (h2 _ (by omega))
    · exact heq
    · exact absurd h1 (h.none a hgt ha)

theorem second_final {es : List EdgeInfo} {v : Nat} {x y : Int} (h : IsLast es es.length v x)
    (h2 : (x = -1 → y = -1) ∧ (∀ j : Nat, x = j → IsLast es j v y)) {a : Nat} :
    (a : Int) = y ↔ Uses es a v ∧ ∃ b, a < b ∧ Uses es b v ∧ ∀ c, a < c → Uses es c v → c = b := by
  have hge := h.ge
  constructor
  · intro e
    have hx : x ≠ -1 := fun hx => by have := h2.1 hx; omega
    have hj := h2.2 x.toNat (by omega)
    have hlt := hj.lt
    refine ⟨hj.uses a e.symm, x.toNat, by omega, h.uses _ (by omega), fun c hc hu => ?_⟩
    have hcl : c < es.length := by obtain ⟨f, hf, _⟩ := hu; exact (List.getElem?_eq_some_iff.1 hf).1
    rcases Nat.lt_trichotomy c x.toNat with hlt | heq | hgt
    · exact absurd hu (hj.none c (by omega) hlt)
    · exact heq
    · exact absurd hu (h.none c (by omega) hcl)
  · rintro ⟨h3, b, hb1, hb2, hb3⟩
    have hbx : (b : Int) = x := by
      rw [h.final]
      refine ⟨hb2, fun c hc hu => ?_⟩
      have := hb3 c (by omega) hu
      omega
    have hj := h2.2 b hbx.symm
    have hyge := hj.ge
    have hylt := hj.lt
    rcases Int.lt_trichotomy (a : Int) y with hlt | heq | hgt
    · have := hb3 y.toNat (by omega) (hj.uses _ (by omega))
      omega
    · exact heq
    · exact absurd h3 (hj.none a hgt hb1)

/-! ### the final loop -/

theorem advance_eq {vMax : Nat} {l : Nat → Int} {a : Nat} : ∀ (fuel v0 : Nat), vMax + 2 ≤ fuel + v0 → (∃ w, v0 ≤ w ∧ w ≤ vMax ∧ (a : Int) ≤ l w) →
    ∃ v0', gAdvance vMax l a fuel v0 = .ok v0' ∧ v0 ≤ v0' ∧ v0' ≤ vMax ∧ (a : Int) ≤ l v0' ∧ ∀ v, v0 ≤ v → v < v0' → l v < a
  | 0, v0, hf, ⟨w, h1, h2, _⟩ => by omega
  | fuel + 1, v0, hf, hw => by
    unfold gAdvance
    rw [if_neg (by obtain ⟨w, h1, h2, _⟩ := hw; omega)]
    by_cases h : l v0 < a
    · rw [if_pos h]
      have key := advance_eq (vMax := vMax) (l := l) (a := a) fuel (v0 + 1) (by omega) (by
        obtain ⟨w, h1, h2, h3⟩ := hw
        refine ⟨w, ?_, h2, h3⟩
        rcases Nat.lt_or_ge v0 w with h4 | h4
        · exact h4
        · have : w = v0 := by omega
          subst this; omega)
      obtain ⟨v0', e, h1, h2, h3, h4⟩ := key
      refine ⟨v0', e, by omega, h2, h3, fun v hv1 hv2 => ?_⟩
      by_cases hv : v = v0
      · subst hv; exact h
      · exact h4 v (by omega) hv2
    · rw [if_neg h]
      exact ⟨v0, rfl, Nat.le_refl _, by obtain ⟨w, h1, h2, _⟩ := hw; omega, by omega, fun v h1 h2 => by omega⟩

/-- what the final loop writes for edge `a` -/
def finE (l s : Nat → Int) (first m a v0 : Nat) (e : EdgeInfo) : EdgeInfo :=
  ⟨v0, e.v1, e.v2, decide ((a : Int) = l e.v1), decide ((a : Int) = l e.v2), decide ((a : Int) = s e.v1), decide ((a : Int) = s e.v2),
    decide (first ≤ a), decide (a + 1 = m)⟩

theorem final_inv {vMax : Nat} {l s : Nat → Int} {first m : Nat} : ∀ (es : List EdgeInfo) (a v0 : Nat),
    (∀ (j : Nat) e, es[j]? = some e → 1 ≤ e.v2 ∧ e.v2 ≤ vMax ∧ ((a + j : Nat) : Int) ≤ l e.v2) → (∀ v, 1 ≤ v → v < v0 → l v < a) →
    ∃ r, gFinal vMax l s first m es a v0 = .ok r ∧ r.length = es.length ∧ ∀ (j : Nat) e, es[j]? = some e →
      ∃ w, r[j]? = some (finE l s first m (a + j) w e) ∧ v0 ≤ w ∧ w ≤ vMax ∧ ((a + j : Nat) : Int) ≤ l w ∧ ∀ v, 1 ≤ v → v < w → l v < ((a + j : Nat) : Int)
  | [], a, v0, _, _ => ⟨[], rfl, rfl, fun j e h => by simp at h⟩
  | e :: es, a, v0, h, hv0 => by
    have he := h 0 e rfl
    have hw : v0 ≤ e.v2 := by
      rcases Nat.lt_or_ge e.v2 v0 with hlt | hge
      · have := hv0 e.v2 he.1 hlt
        have := he.2.2; omega
      · exact hge
    obtain ⟨w, e1, h1, h2, h3, h4⟩ := advance_eq (vMax := vMax) (l := l) (a := a) (vMax + 2) v0 (by omega) ⟨e.v2, hw, he.2.1, he.2.2⟩
    have hv : ∀ v, 1 ≤ v → v < w → l v < a := fun v g1 g2 => by
      rcases Nat.lt_or_ge v v0 with hlt | hge
      · exact hv0 v g1 hlt
      · exact h4 v hge g2
    obtain ⟨r, e2, hlen, h5⟩ := final_inv (first := first) (m := m) (l := l) (s := s) (vMax := vMax) es (a + 1) w (fun j f hf => by
      have := h (j + 1) f (by simpa using hf)
      rw [show a + 1 + j = a + (j + 1) from by omega]; exact this) (fun v g1 g2 => by have := hv v g1 g2; omega)
    refine ⟨finE l s first m a w e :: r, by unfold gFinal; rw [e1]; dsimp only [Res.bind]; rw [e2]; rfl, by simp [hlen], fun j f hf => ?_⟩
    cases j with
    | zero =>
      have : e = f := by simpa using hf
      subst this
      exact ⟨w, rfl, h1, h2, h3, hv⟩
    | succ j =>
      obtain ⟨w', g1, g2, g3, g4, g5⟩ := h5 j f (by simpa using hf)
      rw [show a + (j + 1) = a + 1 + j from by omega]
      exact ⟨w', by simpa using g1, by omega, g3, g4, g5⟩

/-! ### colours -/

/-- vertices of a colour -/
def Has {K : Type} (cs : List (K × List Nat)) (k : K) (v : Nat) : Prop := ∃ vs, (k, vs) ∈ cs ∧ v ∈ vs

theorem colors_inv {V K : Type} [DecidableEq V] [DecidableEq K] {num : V → Nat} : ∀ (nc : List (V × K)) (cs : List (K × List Nat)),
    (cs.map (·.1)).Nodup → (∀ c ∈ cs, c.2 ≠ []) →
    (gColors num nc cs = .thrown ∧ (∃ p ∈ nc, num p.1 = 0)) ∨
    ∃ cs', gColors num nc cs = .ok cs' ∧ (∀ p ∈ nc, num p.1 ≠ 0) ∧ (cs'.map (·.1)).Nodup ∧ (∀ c ∈ cs', c.2 ≠ []) ∧
      ∀ k v, Has cs' k v ↔ Has cs k v ∨ ∃ s, (s, k) ∈ nc ∧ num s = v
  | [], cs, h, h' => .inr ⟨cs, rfl, fun p hp => (nomatch hp), h, h', fun k v => ⟨.inl, fun x => x.elim id fun ⟨s, hs, _⟩ => (nomatch hs)⟩⟩
  | (s, k) :: nc, cs, h, h' => by
    unfold gColors
    by_cases h0 : num s = 0
    · rw [if_pos h0]
      exact .inl ⟨rfl, _, List.mem_cons_self .., h0⟩
    · rw [if_neg h0]
      generalize hc1 : (if cs.any (fun c => c.1 == k) then cs.map (fun c => if c.1 = k then (c.1, num s :: c.2) else c) else cs ++ [(k, [num s])]) = cs1
      have key : (cs1.map (·.1)).Nodup ∧ (∀ c ∈ cs1, c.2 ≠ []) ∧ ∀ k' v, Has cs1 k' v ↔ Has cs k' v ∨ (k' = k ∧ v = num s) := by
        by_cases ha : cs.any (fun c => c.1 == k) = true
        · rw [if_pos ha] at hc1
          subst hc1
          have hmap : (cs.map (fun c => if c.1 = k then (c.1, num s :: c.2) else c)).map (·.1) = cs.map (·.1) := by
            rw [List.map_map]; apply List.map_congr_left; intro c _; dsimp only [Function.comp]; split <;> rfl
          refine ⟨by rw [hmap]; exact h, ?_, ?_⟩
          · intro c hc
            obtain ⟨d, hd, rfl⟩ := List.mem_map.1 hc
            split
            · exact List.cons_ne_nil _ _
            · exact h' d hd
          · intro k' v
            constructor
            · rintro ⟨vs, hm, hv⟩
              obtain ⟨d, hd, e⟩ := List.mem_map.1 hm
              split at e
              next hk =>
                injection e with e1 e2
                subst e2
                rcases List.mem_cons.1 hv with hv | hv
                · exact .inr ⟨by rw [← e1, hk], hv⟩
                · exact .inl ⟨d.2, by rw [← e1]; exact hd, hv⟩
              next hk => subst e; exact .inl ⟨vs, hd, hv⟩
            · rintro (⟨vs, hm, hv⟩ | ⟨e1, e2⟩)
              · by_cases hk : k' = k
                · exact ⟨num s :: vs, List.mem_map.2 ⟨(k', vs), hm, by rw [if_pos hk]⟩, List.mem_cons_of_mem _ hv⟩
                · exact ⟨vs, List.mem_map.2 ⟨(k', vs), hm, by rw [if_neg hk]⟩, hv⟩
              · subst e1 e2
                obtain ⟨d, hd, hdk⟩ := List.any_eq_true.1 ha
                have hdk : d.1 = k' := by simpa using hdk
                refine ⟨num s :: d.2, List.mem_map.2 ⟨d, hd, by rw [if_pos hdk, hdk]⟩, List.mem_cons_self ..⟩
        · rw [if_neg ha] at hc1
          subst hc1
          refine ⟨?_, ?_, ?_⟩
          · rw [List.map_append, List.nodup_append]
            refine ⟨h, by simp, ?_⟩
            intro x hx y hy e
            obtain ⟨d, hd, rfl⟩ := List.mem_map.1 hx
            have : y = k := by simpa using hy
            apply ha
            exact List.any_eq_true.2 ⟨d, hd, by simpa using e.trans this⟩
          · intro c hc
            rcases List.mem_append.1 hc with hc | hc
            · exact h' c hc
            · rw [List.mem_singleton.1 hc]; exact List.cons_ne_nil _ _
          · intro k' v
            constructor
            · rintro ⟨vs, hm, hv⟩
              rcases List.mem_append.1 hm with hm | hm
              · exact .inl ⟨vs, hm, hv⟩
              · have e := List.mem_singleton.1 hm
                injection e with e1 e2
                subst e2
                exact .inr ⟨e1, by simpa using hv⟩
            · rintro (⟨vs, hm, hv⟩ | ⟨e1, e2⟩)
              · exact ⟨vs, List.mem_append_left _ hm, hv⟩
              · subst e1 e2
                exact ⟨[num s], List.mem_append_right _ (List.mem_singleton.2 rfl), List.mem_singleton.2 rfl⟩
      rcases colors_inv nc cs1 key.1 key.2.1 with ⟨e, p, hp, hp0⟩ | ⟨cs', e, h1, h2, h3, h4⟩
      · exact .inl ⟨e, p, List.mem_cons_of_mem _ hp, hp0⟩
      · refine .inr ⟨cs', e, ?_, h2, h3, ?_⟩
        · intro p hp
          rcases List.mem_cons.1 hp with rfl | hp
          · exact h0
          · exact h1 p hp
        · intro k' v
          rw [h4, key.2.2]
          constructor
          · rintro ((h5 | ⟨e1, e2⟩) | ⟨s', hs', e⟩)
            · exact .inl h5
            · exact .inr ⟨s, by rw [e1]; exact List.mem_cons_self .., e2.symm⟩
            · exact .inr ⟨s', List.mem_cons_of_mem _ hs', e⟩
          · rintro (h5 | ⟨s', hs', e⟩)
            · exact .inl (.inl h5)
            · rcases List.mem_cons.1 hs' with e' | hs'
              · injection e' with e1 e2
                exact .inl (.inr ⟨e2, by rw [← e, e1]⟩)
              · exact .inr ⟨s', hs', e⟩

/-- first numbering: position of the colour of a vertex -/
theorem colorNum_eq {K : Type} : ∀ (cs : List (K × List Nat)) (i : Nat) (f : Nat → Nat) (v : Nat),
    (∀ (j j' : Nat) c c', cs[j]? = some c → cs[j']? = some c' → v ∈ c.2 → v ∈ c'.2 → j = j') →
    (∀ (j : Nat) c, cs[j]? = some c → v ∈ c.2 → gColorNum cs i f v = i + j) ∧ ((∀ c ∈ cs, v ∉ c.2) → gColorNum cs i f v = f v)
  | [], i, f, v, _ => ⟨fun j c h => by simp at h, fun _ => rfl⟩
  | (k, vs) :: cs, i, f, v, hd => by
    obtain ⟨h1, h2⟩ := colorNum_eq cs (i + 1) (fun u => if u ∈ vs then i else f u) v
      fun j j' c c' hc hc' hv hv' => by
        have := hd (j + 1) (j' + 1) c c' (by simpa using hc) (by simpa using hc') hv hv'
        omega
    unfold gColorNum
    constructor
    · intro j c hc hv
      cases j with
      | zero =>
        have : (k, vs) = c := by simpa using hc
        subst this
        rw [h2, if_pos hv]; rfl
        intro c hc hvc
        obtain ⟨j, hj⟩ := List.mem_iff_getElem?.1 hc
        have := hd 0 (j + 1) _ c rfl (by simpa using hj) hv hvc
        omega
      | succ j => rw [h1 j c (by simpa using hc) hv]; omega
    · intro hno
      rw [h2 fun c hc => hno c (List.mem_cons_of_mem _ hc), if_neg (hno (k, vs) (List.mem_cons_self ..))]

/-- State of "sort colorNumber" before vertex `v`: `cmap` is injective on the colours seen so far and has the values `1..cn`. -/
structure SortInv (col0 : Nat → Nat) (v : Nat) (cmap : Nat → Nat) (cn : Nat) (col : Nat → Nat) : Prop where
  seen : ∀ c, cmap c ≠ 0 ↔ c ≠ 0 ∧ ∃ u, 1 ≤ u ∧ u < v ∧ col0 u = c
  le : ∀ c, cmap c ≤ cn
  inj : ∀ c c', cmap c ≠ 0 → cmap c = cmap c' → c = c'
  surj : ∀ k, 1 ≤ k → k ≤ cn → ∃ c, cmap c = k
  old : ∀ u, 1 ≤ u → u < v → col u = cmap (col0 u)
  new : ∀ u, v ≤ u → col u = col0 u
  zero : cmap 0 = 0
  asc : ∀ u, 1 ≤ u → u < v → ∀ k, 1 ≤ k → k < cmap (col0 u) → ∃ u', 1 ≤ u' ∧ u' < u ∧ cmap (col0 u') = k

theorem sort_inv {col0 : Nat → Nat} : ∀ (k v : Nat) (cmap : Nat → Nat) (cn : Nat) (col : Nat → Nat), 1 ≤ v → SortInv col0 v cmap cn col →
    ∃ cmap' cn', SortInv col0 (v + k) cmap' cn' (gSortColors k v cmap cn col)
  | 0, v, cmap, cn, col, _, h => ⟨cmap, cn, h⟩
  | k + 1, v, cmap, cn, col, hv, h => by
    have hcv : col v = col0 v := h.new v (Nat.le_refl _)
    unfold gSortColors
    dsimp only
    rw [show v + (k + 1) = v + 1 + k from by omega]
    by_cases h0 : col v = 0
    · rw [if_pos h0]
      apply sort_inv k (v + 1) cmap cn col (by omega)
      refine ⟨?_, h.le, h.inj, h.surj, ?_, fun u hu => h.new u (by omega), h.zero, ?_⟩
      · intro c
        rw [h.seen c]
        constructor
        · rintro ⟨h1, u, h2, h3, h4⟩; exact ⟨h1, u, h2, by omega, h4⟩
        · rintro ⟨h1, u, h2, h3, h4⟩
          refine ⟨h1, u, h2, ?_, h4⟩
          have : u ≠ v := fun e => by subst e; rw [hcv] at h0; omega
          omega
      · intro u h1 h2
        by_cases hu : u = v
        · subst hu; rw [← hcv, h0, h.zero]
        · exact h.old u h1 (by omega)
      · intro u h1 h2 j h3 h4
        by_cases hu : u = v
        · subst hu; rw [← hcv, h0, h.zero] at h4; omega
        · exact h.asc u h1 (by omega) j h3 h4
    · rw [if_neg h0]
      by_cases hm : cmap (col v) = 0
      · rw [if_pos hm]
        apply sort_inv k (v + 1) _ (cn + 1) _ (by omega)
        refine ⟨?_, ?_, ?_, ?_, ?_, ?_, ?_, ?_⟩
        · intro c
          by_cases hc : c = col v
          · rw [if_pos hc]
            exact ⟨fun _ => ⟨by rw [hc]; exact h0, v, hv, by omega, by rw [hc, hcv]⟩, fun _ => by omega⟩
          · rw [if_neg hc, h.seen c]
            constructor
            · rintro ⟨h1, u, h2, h3, h4⟩; exact ⟨h1, u, h2, by omega, h4⟩
            · rintro ⟨h1, u, h2, h3, h4⟩
              refine ⟨h1, u, h2, ?_, h4⟩
              have : u ≠ v := fun e => by subst e; exact hc (by rw [hcv, h4])
              omega
        · intro c; have := h.le c; split <;> omega
        · intro c c' h1 h2
          by_cases hc : c = col v <;> by_cases hc' : c' = col v
          · rw [hc, hc']
          · rw [if_pos hc, if_neg hc'] at h2; have := h.le c'; omega
          · rw [if_neg hc, if_pos hc'] at h2; have := h.le c; omega
          · rw [if_neg hc] at h1; rw [if_neg hc, if_neg hc'] at h2; exact h.inj c c' h1 h2
        · intro j h1 h2
          by_cases hj : j = cn + 1
          · exact ⟨col v, by rw [if_pos rfl, hj]⟩
          · obtain ⟨c, hc⟩ := h.surj j h1 (by omega)
            exact ⟨c, by rw [if_neg]; exact hc; intro e; rw [e, hm] at hc; omega⟩
        · intro u h1 h2
          by_cases hu : u = v
          · rw [if_pos hu, hu, ← hcv, if_pos rfl]
          · rw [if_neg hu, if_neg, h.old u h1 (by omega)]
            intro e
            have := (h.seen (col v)).2 ⟨h0, u, h1, by omega, e⟩
            exact this hm
        · intro u hu; rw [if_neg (by omega)]; exact h.new u (by omega)
        · rw [if_neg (Ne.symm h0)]; exact h.zero
        · have hlt : ∀ u, 1 ≤ u → u < v → col0 u ≠ col v := fun u h1 h2 e => ((h.seen (col v)).2 ⟨h0, u, h1, h2, e⟩) hm
          intro u h1 h2 j h3 h4
          by_cases hu : u = v
          · subst hu
            rw [← hcv, if_pos rfl] at h4
            obtain ⟨c, hc⟩ := h.surj j h3 (by omega)
            have hcne : cmap c ≠ 0 := by omega
            obtain ⟨_, w, w1, w2, w3⟩ := (h.seen c).1 hcne
            refine ⟨w, w1, w2, ?_⟩
            rw [if_neg (hlt w w1 w2), w3, hc]
          · rw [if_neg (hlt u h1 (by omega))] at h4
            obtain ⟨w, w1, w2, w3⟩ := h.asc u h1 (by omega) j h3 h4
            exact ⟨w, w1, w2, by rw [if_neg (hlt w w1 (by omega))]; exact w3⟩
      · rw [if_neg hm]
        apply sort_inv k (v + 1) cmap cn _ (by omega)
        refine ⟨?_, h.le, h.inj, h.surj, ?_, ?_, h.zero, ?_⟩
        · intro c
          rw [h.seen c]
          constructor
          · rintro ⟨h1, u, h2, h3, h4⟩; exact ⟨h1, u, h2, by omega, h4⟩
          · rintro ⟨h1, u, h2, h3, h4⟩
            by_cases hu : u = v
            · subst hu
              rw [← h4, ← hcv]
              exact (h.seen (col u)).1 hm
            · exact ⟨h1, u, h2, by omega, h4⟩
        · intro u h1 h2
          by_cases hu : u = v
          · rw [if_pos hu, hu, hcv]
          · rw [if_neg hu]; exact h.old u h1 (by omega)
        · intro u hu; rw [if_neg (by omega)]; exact h.new u (by omega)
        · intro u h1 h2 j h3 h4
          by_cases hu : u = v
          · subst hu
            obtain ⟨_, w, w1, w2, w3⟩ := (h.seen (col u)).1 hm
            rw [← hcv, ← w3] at h4
            obtain ⟨x, x1, x2, x3⟩ := h.asc w w1 w2 j h3 h4
            exact ⟨x, x1, by omega, x3⟩
          · exact h.asc u h1 (by omega) j h3 h4

theorem sort_init (col0 : Nat → Nat) : SortInv col0 1 (fun _ => 0) 0 col0 :=
  ⟨fun c => ⟨fun h => absurd rfl h, fun ⟨_, u, h1, h2, _⟩ => by omega⟩, fun _ => Nat.le_refl _, fun c c' h => absurd rfl h, fun k h1 h2 => by omega,
    fun u h1 h2 => by omega, fun _ _ => rfl, rfl, fun u h1 h2 => by omega⟩

/-! ### `allColorsSeen` -/

/-- colour `c` occurs at one of the first edges -/
def SeenBy (es : List EdgeInfo) (col : Nat → Nat) (a c : Nat) : Prop := ∃ b v, b < a ∧ Uses es b v ∧ col v = c

end Gr
end TdZdd
