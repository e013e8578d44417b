import Verif.PathByMapProofs3

/-! Proofs about `PathZddByStdMap` (4): the family. -/

namespace TdZdd.Ps

open Gr Deg Sp

variable {G : CGraph} {A T : Nat → Nat → Prop} {i : Nat} {m : List (Int × Int)} {e : EdgeInfo} {a : Asg 2}

/-- the chosen edges before edge `i` and the links of the pairs -/
def World (G : CGraph) (a : Asg 2) (i : Nat) (x y : Nat) : Prop := adjA G.toGraph a i x y ∨ Lk G.toGraph x y

theorem world_take (he : G.info[i]? = some e) (h : a (G.info.length - i) = 1) : World G a (i + 1) = addE (World G a i) e.v1 e.v2 := by
  funext x y
  apply propext
  unfold World
  rw [adjA_take he h]
  unfold addE
  constructor
  · rintro ((h | h) | h)
    · exact .inl (.inl h)
    · exact .inr h
    · exact .inl (.inr h)
  · rintro ((h | h) | h)
    · exact .inl (.inl h)
    · exact .inr h
    · exact .inl (.inr h)

theorem world_leave (h : a (G.info.length - i) ≠ 1) : World G a (i + 1) = World G a i := by
  funext x y
  unfold World
  rw [adjA_leave h]

theorem world_mono {j : Nat} (hij : i ≤ j) {x y : Nat} (h : World G a i x y) : World G a j x y := h.imp (adjA_mono hij) id

/-- a vertex that is not used any more has all its neighbours -/
theorem world_final {j v y : Nat} (hna : ¬ Act G.toGraph i v) (h : World G a j v y) : World G a i v y := by
  rcases h with h | h
  · rcases adjA_split (i := i) h with h | ⟨b, hb, _, hj⟩
    · exact .inl h
    · exact absurd ⟨b, hb, hj.uses.1⟩ hna
  · exact .inr h

theorem lk_not_vertex {G : CGraph} {x y : Nat} (h : Lk G.toGraph x y) : G.vMax < x ∨ G.vMax < y := by
  rcases h with ⟨u, hu, hy⟩ | ⟨u, hu, hy⟩
  · have := hu.1; omega
  · have := hu.1; omega

theorem Joins.le {G : CGraph} (hH : Sp.Hyp G.toGraph) {b x y : Nat} (h : Joins G.toGraph b x y) : x ≤ G.vMax ∧ y ≤ G.vMax :=
  ⟨(Uses.range hH h.uses.1).2, (Uses.range hH h.uses.2).2⟩

theorem not_adj (hH : Sp.Hyp G.toGraph) (he : G.info[i]? = some e) (h : Inv G A i m) : ¬ A e.v1 e.v2 := by
  intro hA
  have hj : Joins G.toGraph i e.v1 e.v2 := ⟨e, he, .inl ⟨rfl, rfl⟩⟩
  rcases h.sub _ _ hA with ⟨b, hb, hj'⟩ | hl
  · have := hj'.index hH hj
    omega
  · have := lk_not_vertex hl
    have := Joins.le hH hj
    omega

theorem more (h : CycleOk T) {v x : Nat} (hx : T v x) : ∃ y, y ≠ x ∧ T v y := by
  obtain ⟨n, f, hn, hinj, hT⟩ := h
  obtain ⟨i, hi, rfl, hx'⟩ := (hT _ _).1 hx
  have hne : f (nx n i) ≠ f (pv n i) := fun he => nx_ne_pv hn hi (hinj _ _ (nx_lt hi) (pv_lt hi) he)
  rcases hx' with rfl | rfl
  · exact ⟨f (pv n i), Ne.symm hne, (hT _ _).2 ⟨i, hi, rfl, .inr rfl⟩⟩
  · exact ⟨f (nx n i), hne, (hT _ _).2 ⟨i, hi, rfl, .inl rfl⟩⟩

/-- the cycle closed by a new edge -/
theorem closing' {v w : Nat} (hvw : v ≠ w) (hna : ¬ A v w) (hend : IsEnd A v w) :
    ∃ (n : Nat) (f : Nat → Nat), 3 ≤ n ∧ Comp A n f ∧ f 0 = v ∧ f (n - 1) = w ∧ ∀ i, i < n → addE A v w (f i) (f (nx n i)) := by
  obtain ⟨n, f, hc, h0, h1⟩ := hend
  have hp := hc.pos
  have hn3 : 3 ≤ n := by
    rcases Nat.lt_or_ge n 3 with h | h
    · exfalso
      rcases (show n = 1 ∨ n = 2 by omega) with rfl | rfl
      · exact hvw (by rw [← h0, ← h1])
      · have := hc.next (i := 0) (by omega)
        rw [h0, show 0 + 1 = 2 - 1 by rfl, h1] at this
        exact hna this
    · exact h
  refine ⟨n, f, hn3, hc, h0, h1, fun k hk => ?_⟩
  unfold nx
  by_cases hl : k + 1 = n
  · rw [if_pos hl, h0, show k = n - 1 by omega, h1]
    exact .inr (.inr ⟨rfl, rfl⟩)
  · rw [if_neg hl]
    exact .inl (hc.next (by omega))

/-- closing the only open path gives a cycle -/
theorem closed_cycle {v w : Nat} (hf : Forest A) (hsym : ∀ x y, A x y → A y x) (hvw : v ≠ w) (hna : ¬ A v w) (hend : IsEnd A v w) (hall : ∀ z z', IsEnd A z z' → z' ≠ z → z = v ∨ z = w) :
    CycleOk (addE A v w) := by
  obtain ⟨n, f, hn, hc, h0, h1, hcy⟩ := closing' hvw hna hend
  refine ⟨n, f, hn, hc.inj, fun x y => ⟨fun hxy => ?_, ?_⟩⟩
  · rcases hxy with hxy | ⟨rfl, rfl⟩ | ⟨rfl, rfl⟩
    · obtain ⟨k, g, j, hg, hj, rfl⟩ := hf.comp x
      have hk : 1 < k := by rcases (hg.adj j hj y).1 hxy with ⟨h, _⟩ | ⟨_, h, _⟩ <;> omega
      have hne : g (k - 1) ≠ g 0 := fun he => by
        have := hg.inj _ _ (by omega) (by omega) he
        omega
      have hin : ∃ p, p < n ∧ f p = g 0 := by
        rcases hall (g 0) (g (k - 1)) ⟨k, g, hg, rfl, rfl⟩ hne with h | h
        · exact ⟨0, by omega, by rw [h0, h]⟩
        · exact ⟨n - 1, by omega, by rw [h1, h]⟩
      obtain ⟨p, hp, hp'⟩ := hin
      obtain ⟨q, hq, hq'⟩ := hg.stay (P := fun x => ∃ p, p < n ∧ x = f p) (fun x y ⟨p, hp, hx⟩ hxy => by subst hx; exact hc.closed hp hxy) (by omega : 0 < k) ⟨p, hp, hp'.symm⟩ j hj
      rw [hq'] at hxy ⊢
      refine ⟨q, hq, rfl, ?_⟩
      rcases (hc.adj q hq y).1 hxy with ⟨g1, g2⟩ | ⟨l, g1, g2⟩
      · left; unfold nx; rw [if_neg (by omega)]; exact g2
      · right; unfold pv; rw [if_neg (by omega), g2]; congr 1; omega
    · exact ⟨0, by omega, h0.symm, .inr (by unfold pv; rw [if_pos rfl, h1])⟩
    · exact ⟨n - 1, by omega, h1.symm, .inl (by unfold nx; rw [if_pos (by omega), h0])⟩
  · rintro ⟨k, hk, rfl, rfl | rfl⟩
    · exact hcy k hk
    · have := hcy (pv n k) (pv_lt hk)
      rw [nx_pv hk] at this
      rcases this with h | ⟨h, h'⟩ | ⟨h, h'⟩
      · exact .inl (hsym _ _ h)
      · exact .inr (.inr ⟨h', h⟩)
      · exact .inr (.inl ⟨h', h⟩)

theorem no_take (hH : Sp.Hyp G.toGraph) (he : G.info[i]? = some e) (h : Inv G (World G a i) i m) (hta : a (G.info.length - i) = 1) (hn : NoTake (World G a i) e) :
    ¬ CycleOk (World G a G.info.length) := by
  intro hc
  have hi : i < G.info.length := (List.getElem?_eq_some_iff.1 he).1
  have hloop := hH.loop i e he
  have hw := world_take he hta
  have hna := not_adj hH he h
  have hsub : ∀ x y, addE (World G a i) e.v1 e.v2 x y → World G a G.info.length x y := fun x y hxy => by rw [← hw] at hxy; exact world_mono (by omega) hxy
  have hinner : ∀ {v w}, ¬ World G a i v w → World G a G.info.length v w → Inner (World G a i) v → False := by
    intro v w hvw hw hin
    obtain ⟨p, q, hpq, hp, hq, _⟩ := hin.two
    rcases hc.d2 v p q w (world_mono (by omega) hp) (world_mono (by omega) hq) hw with h | h | h
    · exact hpq h
    · exact hvw (h ▸ hq)
    · exact hvw (h ▸ hp)
  have halone : ∀ {v w}, ¬ Act G.toGraph (i + 1) v → World G a G.info.length v w → IsEnd (World G a i) v v → (∀ y, addE (World G a i) e.v1 e.v2 v y → World G a i v y ∨ y = w) → False := by
    intro v w hnact hvw hend hy
    obtain ⟨y, hne, hy'⟩ := more hc hvw
    have := world_final hnact hy'
    rw [hw] at this
    rcases hy y this with h | h
    · exact hend.alone y h
    · exact hne h
  rcases hn with hin | hin | ⟨hf, hend⟩ | ⟨hf, hend⟩ | ⟨hend, z, z', hz, hne, hz1, hz2⟩
  · exact hinner hna (hsub _ _ (.inr (.inl ⟨rfl, rfl⟩))) hin
  · exact hinner (fun hh => hna (h.sym _ _ hh)) (hsub _ _ (.inr (.inr ⟨rfl, rfl⟩))) hin
  · refine halone (not_act_of_final1 hH he hf) (hsub _ _ (.inr (.inl ⟨rfl, rfl⟩))) hend fun y hy => ?_
    rcases hy with hy | ⟨_, hy⟩ | ⟨hy, _⟩
    · exact .inl hy
    · exact .inr hy
    · exact absurd hy hloop
  · refine halone (not_act_of_final2 hH he hf) (hsub _ _ (.inr (.inr ⟨rfl, rfl⟩))) hend fun y hy => ?_
    rcases hy with hy | ⟨hy, _⟩ | ⟨_, hy⟩
    · exact .inl hy
    · exact absurd hy.symm hloop
    · exact .inr hy
  · obtain ⟨n, f, hn, hcp, h0, h1, hcy⟩ := closing' hloop hna hend
    obtain ⟨x, hx, _⟩ := hz.one hne
    obtain ⟨k, hk, rfl, _⟩ := hc.cover hn hcp.inj (fun k hk => hsub _ _ (hcy k hk)) z x (world_mono (by omega) hx)
    refine hz.not_inner ⟨n, f, k, hcp, ?_, ?_, rfl⟩
    · rcases Nat.eq_zero_or_pos k with hk0 | hk0
      · subst hk0; exact absurd h0 hz1
      · exact hk0
    · rcases Nat.lt_or_ge (k + 1) n with hk0 | hk0
      · exact hk0
      · exact absurd (by rw [← h1]; congr 1; omega) hz2

theorem no_leave (hH : Sp.Hyp G.toGraph) (he : G.info[i]? = some e) (hta : a (G.info.length - i) ≠ 1) {v u : Nat} (hv : (e.v1final = true ∧ v = e.v1) ∨ (e.v2final = true ∧ v = e.v2))
    (hu : IsEnd (World G a i) v u) (hne : u ≠ v) : ¬ CycleOk (World G a G.info.length) := by
  intro hc
  have hi : i < G.info.length := (List.getElem?_eq_some_iff.1 he).1
  obtain ⟨x, hx, hx'⟩ := hu.one hne
  obtain ⟨y, hy, hy'⟩ := more hc (world_mono (by omega) hx)
  have hna : ¬ Act G.toGraph (i + 1) v := by
    rcases hv with ⟨h, rfl⟩ | ⟨h, rfl⟩
    · exact not_act_of_final1 hH he h
    · exact not_act_of_final2 hH he h
  have := world_final hna hy'
  rw [world_leave hta] at this
  exact hy (hx' y this)

theorem hit_iff (hH : Sp.Hyp G.toGraph) (he : G.info[i]? = some e) (h : Inv G (World G a i) i m) (hta : a (G.info.length - i) = 1) (hh : Hit (World G a i) e) :
    (∀ j, 1 ≤ j → j ≤ G.info.length - i - 1 → (a j).val = 0) ↔ CycleOk (World G a G.info.length) := by
  have hi : i < G.info.length := (List.getElem?_eq_some_iff.1 he).1
  have hloop := hH.loop i e he
  have hw := world_take he hta
  have hna := not_adj hH he h
  constructor
  · intro hz
    have hk : ∀ k, i + 1 + k ≤ G.info.length → World G a (i + 1 + k) = World G a (i + 1) := by
      intro k
      induction k with
      | zero => exact fun _ => rfl
      | succ k ih =>
        intro hk
        rw [← ih (by omega)]
        apply world_leave
        intro hc
        have := hz (G.info.length - (i + 1 + k)) (by omega) (by omega)
        rw [show a (G.info.length - (i + 1 + k)) = 1 from hc] at this
        cases this
    have := hk (G.info.length - (i + 1)) (by omega)
    rw [show i + 1 + (G.info.length - (i + 1)) = G.info.length by omega] at this
    rw [this, hw]
    exact closed_cycle h.forest h.sym hloop hna hh.1 hh.2
  · intro hc j h1 h2
    apply Classical.byContradiction
    intro hj
    have hj1 : a j = 1 := by
      apply Fin.ext
      have := (a j).isLt
      show (a j).val = 1
      omega
    obtain ⟨n, f, hn, hcp, h0, hl, hcy⟩ := closing' hloop hna hh.1
    have hb : G.info.length - j < G.info.length := by omega
    have hf' : G.info[G.info.length - j]? = some G.info[G.info.length - j] := List.getElem?_eq_getElem hb
    generalize G.info[G.info.length - j] = g at hf'
    have hjo : Joins G.toGraph (G.info.length - j) g.v1 g.v2 := ⟨g, hf', .inl ⟨rfl, rfl⟩⟩
    have hT : World G a G.info.length g.v1 g.v2 := .inl ⟨_, hb, by rw [show G.info.length - (G.info.length - j) = j by omega]; exact hj1, hjo⟩
    obtain ⟨k, hk, e1, e2⟩ := hc.cover hn hcp.inj (fun k hk => world_mono (by omega) (by rw [hw]; exact hcy k hk : World G a (i + 1) _ _)) _ _ hT
    have hsym : ∀ x y, World G a (i + 1) x y → World G a (i + 1) y x := by
      intro x y hxy
      rcases hxy with hxy | hxy
      · exact .inl (adjA_sym hxy)
      · exact .inr hxy.symm
    have hadj : World G a (i + 1) g.v1 g.v2 := by
      rw [e1]
      rcases e2 with e2 | e2
      · rw [e2, hw]; exact hcy k hk
      · have := hcy (pv n k) (pv_lt hk)
        rw [nx_pv hk, ← hw] at this
        rw [e2]
        exact hsym _ _ this
    rcases hadj with ⟨b, hb', _, hjb⟩ | hlk
    · have := hjb.index hH hjo
      omega
    · have := lk_not_vertex hlk
      have := Joins.le hH hjo
      omega

theorem good (hH : Hyp G) : ∀ k i m, i + k = G.info.length → Inv G (World G a i) i m → Reach (pathByMap G) ((G.info.length - i : Nat) : Int) m →
    (ZddMemAt (pathByMap G) (G.info.length - i) ((G.info.length - i : Nat) : Int) m a ↔ CycleOk (World G a G.info.length))
  | 0, i, m, hk, h, _ => by
    have hi : i = G.info.length := by omega
    subst hi
    rw [Nat.sub_self]
    exact ⟨fun hm => absurd hm zddMemAt_zero, fun hc => (h.forest.not_cycle hc).elim⟩
  | k + 1, i, m, hk, h, hR => by
    have hS := hH.toHyp
    have hd := desc hH
    have hi : i < G.info.length := by omega
    have he : G.info[i]? = some G.info[i] := List.getElem?_eq_getElem hi
    generalize G.info[i] = e at he
    have hstep := Reach.step (a (G.info.length - i)) (by omega : 0 < G.info.length - i) hR
    rw [zddMemAt_pos hd (by omega) hR (Nat.le_refl _)]
    have hno : ∀ j, G.info.length - i < j → j ≤ G.info.length - i → (a j).val = 0 := fun j h1 h2 => by omega
    have hlev : (((G.info.length - i : Nat) : Int) - 1) = ((G.info.length - (i + 1) : Nat) : Int) := by omega
    by_cases hta : a (G.info.length - i) = 1
    · obtain ⟨r, er, hr⟩ := take_some (level := G.info.length - i) hS he h rfl
      have hch : (pathByMap G).child m (G.info.length - i) (a (G.info.length - i)) = r := child_eq (by rw [hta]; exact er)
      rw [hch] at hstep ⊢
      rcases hr with ⟨r0, hn⟩ | ⟨r0, hh⟩ | ⟨r0, hI⟩
      · rw [r0]
        exact ⟨fun hm => absurd hm.2 zddMemAt_zero, fun hc => (no_take hS he h hta hn hc).elim⟩
      · rw [r0, zddMemAt_neg (by omega), hit_iff hS he h hta hh]
        exact ⟨fun h => h.2, fun h => ⟨hno, h⟩⟩
      · rw [← world_take he hta] at hI
        rw [r0, hlev] at hstep ⊢
        rw [show G.info.length - i - 1 = G.info.length - (i + 1) by omega, good hH k (i + 1) r.2 (by omega) hI hstep]
        exact ⟨fun h => h.2, fun h => ⟨hno, h⟩⟩
    · obtain ⟨r, er, hr⟩ := leave_child (level := G.info.length - i) hS he h rfl
      have ha0 : a (G.info.length - i) = 0 := by
        apply Fin.ext
        have := (a (G.info.length - i)).isLt
        have hne : (a (G.info.length - i)).val ≠ 1 := fun hh => hta (Fin.ext hh)
        show (a (G.info.length - i)).val = 0
        omega
      have hch : (pathByMap G).child m (G.info.length - i) (a (G.info.length - i)) = r := child_eq (by rw [ha0]; exact er)
      rw [hch] at hstep ⊢
      rcases hr with ⟨r0, v, u, hv, hu, hne⟩ | ⟨r0, hI⟩
      · rw [r0]
        exact ⟨fun hm => absurd hm.2 zddMemAt_zero, fun hc => (no_leave hS he hta hv hu hne hc).elim⟩
      · rw [← world_leave hta] at hI
        rw [r0, hlev] at hstep ⊢
        rw [show G.info.length - i - 1 = G.info.length - (i + 1) by omega, good hH k (i + 1) r.2 (by omega) hI hstep]
        exact ⟨fun h => h.2, fun h => ⟨hno, h⟩⟩

theorem means (hH : Hyp G) : ZddMem (pathByMap G) G.info.length a ↔ CycleOk (World G a G.info.length) := by
  have h0 : World G a 0 = Lk G.toGraph := by
    funext x y
    apply propext
    exact ⟨fun h => h.elim (fun ⟨b, hb, _⟩ => by omega) id, .inr⟩
  have hR : Reach (pathByMap G) ((G.info.length - 0 : Nat) : Int) (psInit G G.vMax 1 []) := .root
  exact good (a := a) hH G.info.length 0 _ (by omega) (by rw [h0]; exact root_inv hH) hR

end TdZdd.Ps
