import Verif.PathByMapProofs4
import Verif.Props.PathZdd

/-! # `virtualMate` and `hasColorPairs` after `update()` -/

set_option linter.unusedSectionVars false

namespace TdZdd.Ps

section
variable {V K : Type} [DecidableEq V] [DecidableEq K]

/-- the vertices of a colour are collected once -/
theorem colors_nodup {num : V → Nat} : ∀ (nc : List (V × K)) (cs cs' : List (K × List Nat)), gColors num nc cs = .ok cs' →
    nc.Pairwise (fun p q => p.1 ≠ q.1) → (∀ s t, num s ≠ 0 → num s = num t → s = t) → (∀ c ∈ cs, c.2.Nodup) → (∀ c ∈ cs, ∀ p ∈ nc, num p.1 ∉ c.2) →
    ∀ c ∈ cs', c.2.Nodup
  | [], cs, cs', h, _, _, hn, _ => by
    unfold gColors at h
    injection h with h
    exact h ▸ hn
  | (s, k) :: nc, cs, cs', h, hp, hinj, hn, hnew => by
    unfold gColors at h
    by_cases h0 : num s = 0
    · rw [if_pos h0] at h; cases h
    rw [if_neg h0] at h
    have hp' := List.pairwise_cons.1 hp
    refine colors_nodup nc _ cs' h hp'.2 hinj ?_ ?_
    · intro c hc
      by_cases ha : cs.any (fun c => c.1 == k) = true
      · rw [if_pos ha] at hc
        obtain ⟨d, hd, rfl⟩ := List.mem_map.1 hc
        by_cases hk : d.1 = k
        · rw [if_pos hk]
          exact List.nodup_cons.2 ⟨hnew d hd _ (List.mem_cons_self ..), hn d hd⟩
        · rw [if_neg hk]; exact hn d hd
      · rw [if_neg ha] at hc
        rcases List.mem_append.1 hc with hc | hc
        · exact hn c hc
        · rw [List.mem_singleton.1 hc]; simp
    · intro c hc p hp1
      have hps : num p.1 ≠ num s := fun he => hp'.1 p hp1 (hinj s p.1 h0 he.symm)
      by_cases ha : cs.any (fun c => c.1 == k) = true
      · rw [if_pos ha] at hc
        obtain ⟨d, hd, rfl⟩ := List.mem_map.1 hc
        by_cases hk : d.1 = k
        · rw [if_pos hk]
          intro hm
          rcases List.mem_cons.1 hm with hm | hm
          · exact hps hm
          · exact hnew d hd p (List.mem_cons_of_mem _ hp1) hm
        · rw [if_neg hk]; exact hnew d hd p (List.mem_cons_of_mem _ hp1)
      · rw [if_neg ha] at hc
        rcases List.mem_append.1 hc with hc | hc
        · exact hnew c hc p (List.mem_cons_of_mem _ hp1)
        · rw [List.mem_singleton.1 hc]
          intro hm
          exact hps (List.mem_singleton.1 hm)

theorem mates_other : ∀ (cs : List (K × List Nat)) (f : Nat → Nat) (v : Nat), (∀ c ∈ cs, c.2.length = 2 → v ∉ c.2) → gMates cs f v = f v
  | [], _, _, _ => rfl
  | (k, []) :: cs, f, v, h => mates_other cs f v fun c hc => h c (List.mem_cons_of_mem _ hc)
  | (k, [x]) :: cs, f, v, h => mates_other cs f v fun c hc => h c (List.mem_cons_of_mem _ hc)
  | (k, [x, y]) :: cs, f, v, h => by
    have hv := h (k, [x, y]) (List.mem_cons_self ..) rfl
    simp only [List.mem_cons, List.not_mem_nil, or_false, not_or] at hv
    unfold gMates
    rw [mates_other cs _ v fun c hc => h c (List.mem_cons_of_mem _ hc)]
    simp only [gset]
    rw [if_neg hv.2, if_neg hv.1]
  | (k, x :: y :: z :: l) :: cs, f, v, h => mates_other cs f v fun c hc => h c (List.mem_cons_of_mem _ hc)

theorem mates_pair : ∀ (cs : List (K × List Nat)) (f : Nat → Nat) (k : K) (x y : Nat), (k, [x, y]) ∈ cs → x ≠ y → cs.Pairwise (fun c d => ∀ v, v ∈ c.2 → v ∉ d.2) →
    gMates cs f x = y ∧ gMates cs f y = x
  | c :: cs, f, k, x, y, hm, hne, hd => by
    have hd' := List.pairwise_cons.1 hd
    by_cases hc : c = (k, [x, y])
    · subst hc
      unfold gMates
      rw [mates_other cs _ x fun c hc _ => hd'.1 c hc x (by simp), mates_other cs _ y fun c hc _ => hd'.1 c hc y (by simp)]
      simp only [gset]
      exact ⟨by rw [if_neg hne, if_pos trivial], by rw [if_pos trivial]⟩
    · have hm : (k, [x, y]) ∈ cs := (List.mem_cons.1 hm).resolve_left fun h => hc h.symm
      have key : ∃ g, gMates (c :: cs) f = gMates cs g := by
        obtain ⟨k', l⟩ := c
        match l with
        | [] => exact ⟨_, rfl⟩
        | [a] => exact ⟨_, rfl⟩
        | [a, b] => exact ⟨_, rfl⟩
        | a :: b :: d :: l => exact ⟨_, rfl⟩
      obtain ⟨g, hg⟩ := key
      rw [hg]
      exact mates_pair cs g k x y hm hne hd'.2

theorem fold_pairs (cs : List (K × List Nat)) (b : Bool) : cs.foldl (fun b c => if c.2.length = 2 then b else false) b = true ↔ b = true ∧ ∀ c ∈ cs, c.2.length = 2 := by
  induction cs generalizing b with
  | nil => simp
  | cons c cs ih =>
    rw [List.foldl_cons, ih]
    by_cases h : c.2.length = 2
    · rw [if_pos h]
      simp [h]
    · rw [if_neg h]
      simp [h]

/-- what `update()` makes of the vertices of one colour -/
structure Classes (G : Graph) (C : List (V × K)) (num : V → Nat) (cs : List (K × List Nat)) : Prop where
  keys : (cs.map (·.1)).Nodup
  ne : ∀ c ∈ cs, c.2 ≠ []
  nodup : ∀ c ∈ cs, c.2.Nodup
  has : ∀ k v, Gr.Has cs k v ↔ ∃ s, (s, k) ∈ C ∧ num s = v
  named : ∀ s k, (s, k) ∈ C → 1 ≤ num s ∧ num s ≤ G.vMax

theorem cgUpdate_ok {E : List (V × V)} {C : List (V × K)} (hC : C.Pairwise fun p q => p.1 ≠ q.1) {G : CGraph} (h : cgUpdate E C = .ok G) :
    gUpdate E C = .ok G.toGraph ∧ ∃ cs, G.Named C (gUnique E) (gNumber (gStack (gUnique E))) ∧ Classes G.toGraph C (gNumber (gStack (gUnique E))) cs ∧ G.toGraph.Ok ∧ G.mate = gMates cs (fun _ => 0) ∧ G.pairs = gPairs cs := by
  unfold cgUpdate at h
  rcases Gr.update_spec E C hC with ⟨he, _⟩ | ⟨G0, he, hok, _, hN, hmem, _⟩
  · rw [he] at h; cases h
  rw [he] at h
  rcases Gr.colors_inv (num := gNumber (gStack (gUnique E))) C [] (by simp) (by simp) with ⟨hc, _⟩ | ⟨cs, hc, hnz, hk, hne, hhas⟩
  · simp only [Res.bind, hc] at h; cases h
  · simp only [Res.bind, hc] at h
    injection h with h
    subst h
    refine ⟨he, cs, hN, ⟨hk, hne, ?_, ?_, ?_⟩, hok, rfl, rfl⟩
    · exact colors_nodup C [] cs hc hC (fun s t h1 h2 => hN.num_inj s t (by omega) h2) (by simp) (by simp)
    · intro k v
      rw [hhas]
      exact ⟨fun x => x.elim (fun ⟨_, h, _⟩ => (nomatch h)) id, .inr⟩
    · intro s k hs
      have := hnz _ hs
      exact ⟨by dsimp only at this; omega, hN.num_out s⟩

/-- no cgUpdate fails where `gUpdate` does not -/
theorem cgUpdate_of {E : List (V × V)} {C : List (V × K)} (hC : C.Pairwise fun p q => p.1 ≠ q.1) :
    (gUpdate E C = .thrown ∧ cgUpdate E C = .thrown) ∨ ∃ G, cgUpdate E C = .ok G := by
  rcases Gr.update_spec E C hC with ⟨he, _⟩ | ⟨G0, he, hok, _, hN, hmem, _⟩
  · exact .inl ⟨he, by unfold cgUpdate; rw [he]; rfl⟩
  · right
    rcases Gr.colors_inv (num := gNumber (gStack (gUnique E))) C [] (by simp) (by simp) with ⟨hc, p, hp, hp0⟩ | ⟨cs, hc, _⟩
    · exact absurd (hmem p hp) (Gr.number_zero.1 hp0)
    · exact ⟨_, by unfold cgUpdate; rw [he]; simp only [Res.bind, hc]; rfl⟩

section
variable {G : Graph} {C : List (V × K)} {D : List (V × V)} {num : V → Nat} {cs : List (K × List Nat)}

theorem color_unique (hC : C.Pairwise fun p q => p.1 ≠ q.1) {s : V} {k k' : K} (h : (s, k) ∈ C) (h' : (s, k') ∈ C) : k = k' := by
  obtain ⟨i, hi, hi'⟩ := List.mem_iff_getElem.1 h
  obtain ⟨j, hj, hj'⟩ := List.mem_iff_getElem.1 h'
  rw [List.pairwise_iff_getElem] at hC
  rcases Nat.lt_trichotomy i j with h | h | h
  · exact absurd (by rw [hi', hj']) (hC i j hi hj h)
  · subst h; rw [hi'] at hj'; injection hj'
  · exact absurd (by rw [hi', hj']) (hC j i hj hi h)

theorem Classes.disj (hC : C.Pairwise fun p q => p.1 ≠ q.1) (hN : G.Named C D num) (h : Classes G C num cs) : cs.Pairwise (fun c d => ∀ v, v ∈ c.2 → v ∉ d.2) := by
  have hk := h.keys
  unfold List.Nodup at hk
  rw [List.pairwise_map] at hk
  rw [List.pairwise_iff_forall_sublist] at hk ⊢
  intro c d hcd v h1 h2
  have hc : c ∈ cs := hcd.subset (by simp)
  have hd : d ∈ cs := hcd.subset (by simp)
  obtain ⟨s, s1, s2⟩ := (h.has c.1 v).1 ⟨c.2, hc, h1⟩
  obtain ⟨t, t1, t2⟩ := (h.has d.1 v).1 ⟨d.2, hd, h2⟩
  have hst := hN.num_inj s t (h.named s _ s1).1 (s2.trans t2.symm)
  subst hst
  exact hk hcd (color_unique hC s1 t1)

/-- the vertices in a class are those of one colour -/
theorem Classes.color (hN : G.Named C D num) (hok : G.Ok) (h : Classes G C num cs) {k : K} {vs : List Nat} (hm : (k, vs) ∈ cs) {v : Nat} (hv : v ∈ vs) :
    1 ≤ v ∧ v ≤ G.vMax ∧ G.color v ≠ 0 ∧ ∀ t, G.color t = G.color v ↔ t ∈ vs := by
  have hvs : ∀ t, t ∈ vs ↔ Gr.Has cs k t := by
    intro t
    constructor
    · exact fun ht => ⟨vs, hm, ht⟩
    · rintro ⟨ws, hws, ht⟩
      have hk := h.keys
      have : ws = vs := by
        obtain ⟨i, hi, hi'⟩ := List.mem_iff_getElem.1 hm
        obtain ⟨j, hj, hj'⟩ := List.mem_iff_getElem.1 hws
        unfold List.Nodup at hk
        rw [List.pairwise_map, List.pairwise_iff_getElem] at hk
        rcases Nat.lt_trichotomy i j with h | h | h
        · exact absurd (by rw [hi', hj']) (hk i j hi hj h)
        · subst h; rw [hi'] at hj'; injection hj' with _ e; exact e.symm
        · exact absurd (by rw [hi', hj']) (hk j i hj hi h)
      exact this ▸ ht
  obtain ⟨s, s1, s2⟩ := (h.has k v).1 ((hvs v).1 hv)
  have hs := h.named s k s1
  have hc0 := (hN.color_iff s s k hs.1 hs.1 s1).1
  subst s2
  refine ⟨hs.1, hs.2, hc0, fun t => ?_⟩
  by_cases ht : 1 ≤ t ∧ t ≤ G.vMax
  · obtain ⟨r, rfl⟩ := hN.num_surj t ht.1 ht.2
    rw [(hN.color_iff s r k hs.1 ht.1 s1).2, hvs, h.has]
    constructor
    · exact fun hr => ⟨r, hr, rfl⟩
    · rintro ⟨r', hr', e⟩
      have := hN.num_inj r' r (h.named r' k hr').1 e
      exact this ▸ hr'
  · constructor
    · intro hc
      rw [hok.color_out t (by omega)] at hc
      exact absurd hc.symm hc0
    · intro ht'
      obtain ⟨r, hr, e⟩ := (h.has k t).1 ((hvs t).1 ht')
      have := h.named r k hr
      exact absurd ⟨by omega, by omega⟩ ht

theorem Classes.find (hN : G.Named C D num) (hok : G.Ok) (h : Classes G C num cs) {v : Nat} (hv : G.color v ≠ 0) : ∃ k vs, (k, vs) ∈ cs ∧ v ∈ vs := by
  have hr : 1 ≤ v ∧ v ≤ G.vMax := Classical.byContradiction fun hn => hv (hok.color_out v (by omega))
  obtain ⟨s, rfl⟩ := hN.num_surj v hr.1 hr.2
  have : ∃ k, (s, k) ∈ C := Classical.byContradiction fun hn => hv (hN.uncolored s fun k hk => hn ⟨k, hk⟩)
  obtain ⟨k, hk⟩ := this
  obtain ⟨vs, h1, h2⟩ := (h.has k (num s)).2 ⟨s, hk, rfl⟩
  exact ⟨k, vs, h1, h2⟩

theorem two_of {l : List Nat} (hn : l.Nodup) {v u : Nat} (hne : u ≠ v) (hm : ∀ t, t ∈ l ↔ t = v ∨ t = u) : l = [v, u] ∨ l = [u, v] := by
  have hv : v ∈ l := (hm v).2 (.inl rfl)
  have hu : u ∈ l := (hm u).2 (.inr rfl)
  match l, hn, hm, hv, hu with
  | [], _, _, hv, _ => cases hv
  | [x], _, _, hv, hu => simp at hv hu; omega
  | [x, y], hn, _, hv, hu => simp at hv hu hn ⊢; omega
  | x :: y :: z :: l, hn, hm, _, _ =>
    have h1 := (hm x).1 (by simp)
    have h2 := (hm y).1 (by simp)
    have h3 := (hm z).1 (by simp)
    simp only [List.nodup_cons, List.mem_cons, not_or] at hn
    have := hn.1
    have := hn.2.1
    omega

theorem Classes.mates (hC : C.Pairwise fun p q => p.1 ≠ q.1) (hN : G.Named C D num) (hok : G.Ok) (h : Classes G C num cs) (v u : Nat) (hu : 1 ≤ u) : gMates cs (fun _ => 0) v = u ↔ Pair G v u := by
  constructor
  · intro hm
    have : ∃ c ∈ cs, c.2.length = 2 ∧ v ∈ c.2 := Classical.byContradiction fun hn => by
      rw [mates_other cs _ v fun c hc h2 hv => hn ⟨c, hc, h2, hv⟩] at hm
      omega
    obtain ⟨⟨k, vs⟩, hc, h2, hv⟩ := this
    match vs, hc, h2, hv with
    | [x, y], hc, _, hv =>
      have hnd := h.nodup _ hc
      have hxy : x ≠ y := by simpa using hnd
      have hp := mates_pair cs (fun _ => 0) k x y hc hxy (h.disj hC hN)
      have hcol := h.color hN hok hc hv
      simp only [List.mem_cons, List.not_mem_nil, or_false] at hv hcol
      rcases hv with rfl | rfl
      · have : u = y := by omega
        subst this
        exact ⟨hcol.2.2.1, Ne.symm hxy, hcol.2.2.2⟩
      · have : u = x := by omega
        subst this
        exact ⟨hcol.2.2.1, hxy, fun t => by rw [hcol.2.2.2 t]; exact or_comm⟩
  · rintro ⟨h1, h2, h3⟩
    obtain ⟨k, vs, hm, hv⟩ := h.find hN hok h1
    have hcol := h.color hN hok hm hv
    have := two_of (h.nodup _ hm) h2 fun t => (hcol.2.2.2 t).symm.trans (h3 t)
    rcases this with rfl | rfl
    · exact (mates_pair cs _ k v u hm (Ne.symm h2) (h.disj hC hN)).1
    · exact (mates_pair cs _ k u v hm h2 (h.disj hC hN)).2

theorem Classes.pairs (hN : G.Named C D num) (hok : G.Ok) (h : Classes G C num cs) : gPairs cs = true ↔ (∃ v, G.color v ≠ 0) ∧ ∀ v, G.color v ≠ 0 → ∃ u, Pair G v u := by
  unfold gPairs
  rw [fold_pairs]
  constructor
  · rintro ⟨h1, h2⟩
    constructor
    · match cs, h, h1 with
      | (k, vs) :: cs, h, _ =>
        have hne := h.ne _ (List.mem_cons_self ..)
        obtain ⟨v, hv⟩ := List.exists_mem_of_ne_nil _ hne
        exact ⟨v, (h.color hN hok (List.mem_cons_self ..) hv).2.2.1⟩
    · intro v hv
      obtain ⟨k, vs, hm, hvs⟩ := h.find hN hok hv
      have hcol := h.color hN hok hm hvs
      have hnd := h.nodup _ hm
      have hl := h2 _ hm
      match vs, hl, hvs, hcol, hnd with
      | [x, y], _, hvs, hcol, hnd =>
        have hxy : x ≠ y := by simpa using hnd
        simp only [List.mem_cons, List.not_mem_nil, or_false] at hvs hcol
        rcases hvs with rfl | rfl
        · exact ⟨y, hv, Ne.symm hxy, hcol.2.2.2⟩
        · exact ⟨x, hv, hxy, fun t => by rw [hcol.2.2.2 t]; exact or_comm⟩
  · rintro ⟨⟨v, hv⟩, h2⟩
    constructor
    · obtain ⟨k, vs, hm, _⟩ := h.find hN hok hv
      cases cs with
      | nil => cases hm
      | cons => rfl
    · rintro ⟨k, vs⟩ hm
      obtain ⟨v, hv⟩ := List.exists_mem_of_ne_nil _ (h.ne _ hm)
      have hcol := h.color hN hok hm hv
      obtain ⟨u, h3, h4, h5⟩ := h2 v hcol.2.2.1
      rcases two_of (h.nodup _ hm) h4 fun t => (hcol.2.2.2 t).symm.trans (h5 t) with e | e
      · dsimp only at e ⊢; rw [e]; rfl
      · dsimp only at e ⊢; rw [e]; rfl

end

theorem hyp_of {E : List (V × V)} {C : List (V × K)} (hC : C.Pairwise fun p q => p.1 ≠ q.1) {G : CGraph} (h : cgUpdate E C = .ok G) (hE : E ≠ []) (hloop : ∀ e ∈ E, e.1 ≠ e.2) (hsmall : G.vMax ≤ 32767) :
    Hyp G ∧ 0 < G.info.length := by
  obtain ⟨hg, cs, hN, hK, hok, hm, _⟩ := cgUpdate_ok hC h
  have := path_hyp hC hg hE hloop hsmall
  refine ⟨⟨this.1, fun v u hu => ?_⟩, this.2⟩
  unfold CGraph.virtualMate
  rw [hm]
  have hM := hK.mates hC hN hok v u hu
  by_cases hv : 1 ≤ v ∧ v ≤ G.vMax
  · rw [if_pos hv]; exact hM
  · rw [if_neg hv]
    constructor
    · omega
    · intro hp
      exact absurd (hok.color_out v (by omega)) hp.1

end

end TdZdd.Ps
