import Verif.PathByMapProofs

/-! Proofs about `PathZddByStdMap` (2): the steps. -/

namespace TdZdd.Ps

open Gr Deg Sp

/-- `v` and `u` are the only vertices of their colour -/
def Pair (G : Graph) (v u : Nat) : Prop := G.color v ≠ 0 ∧ u ≠ v ∧ ∀ t, G.color t = G.color v ↔ t = v ∨ t = u

/-- each such pair has a vertex of its own, joined with both of them -/
def Lk (G : Graph) (x y : Nat) : Prop := (∃ u, Pair G x u ∧ y = G.vMax + G.color x) ∨ (∃ u, Pair G y u ∧ x = G.vMax + G.color y)

/-- what is assumed of the graph -/
structure Hyp (G : CGraph) : Prop extends Sp.Hyp G.toGraph where
  mates : ∀ v u, 1 ≤ u → (G.virtualMate v = u ↔ Pair G.toGraph v u)

variable {G : CGraph} {A : Nat → Nat → Prop} {i : Nat} {m : List (Int × Int)} {e : EdgeInfo}

theorem Pair.symm {G : Graph} {v u : Nat} (h : Pair G v u) : Pair G u v := by
  obtain ⟨h1, h2, h3⟩ := h
  have hu := (h3 u).2 (.inr rfl)
  exact ⟨by rw [hu]; exact h1, Ne.symm h2, fun t => by rw [hu, h3 t]; exact or_comm⟩

theorem Pair.unique {G : Graph} {v u u' : Nat} (h : Pair G v u) (h' : Pair G v u') : u = u' := by
  rcases (h'.2.2 u).1 ((h.2.2 u).2 (.inr rfl)) with h1 | h1
  · exact absurd h1 h.2.1
  · exact h1

theorem Pair.range (hH : Sp.Hyp G.toGraph) {v u : Nat} (h : Pair G.toGraph v u) : 1 ≤ v ∧ v ≤ G.vMax := by
  apply Classical.byContradiction
  intro hn
  exact h.1 (hH.ok.color_out v (by omega))

/-- the meaning of the map before edge `i` -/
structure Inv (G : CGraph) (A : Nat → Nat → Prop) (i : Nat) (m : List (Int × Int)) : Prop where
  sym : ∀ x y, A x y → A y x
  sub : ∀ x y, A x y → (∃ b, b < i ∧ Joins G.toGraph b x y) ∨ Lk G.toGraph x y
  forest : Forest A
  opn : ∀ v u, IsEnd A v u → u ≠ v → Act G.toGraph i v ∧ smFind m v = some (u : Int)
  inn : ∀ v, Inner A v → Act G.toGraph i v → smFind m v = some 0
  out : ∀ v, Inner A v → ¬ Act G.toGraph i v → smFind m v = none
  alone : ∀ v, IsEnd A v v → smFind m v = none
  key : ∀ k x, smFind m k = some x → ∃ v : Nat, k = v
  sorted : Sorted m

theorem Inv.pos (hH : Sp.Hyp G.toGraph) (h : Inv G A i m) {v u : Nat} (he : IsEnd A v u) (hne : u ≠ v) : 1 ≤ v ∧ v ≤ G.vMax := (h.opn v u he hne).1.range hH

theorem act_succ_iff (hH : Sp.Hyp G.toGraph) (he : G.info[i]? = some e) {v : Nat} :
    Act G.toGraph (i + 1) v ↔ Act G.toGraph i v ∧ ¬ ((e.v1final = true ∧ v = e.v1) ∨ (e.v2final = true ∧ v = e.v2)) := by
  constructor
  · intro h
    refine ⟨h.pred, ?_⟩
    rintro (⟨h1, rfl⟩ | ⟨h1, rfl⟩)
    · exact not_act_of_final1 hH he h1 h
    · exact not_act_of_final2 hH he h1 h
  · rintro ⟨h1, h2⟩
    by_cases g1 : v = e.v1
    · subst g1
      apply act_of_not_final1 hH he
      cases hf : e.v1final with
      | false => rfl
      | true => exact absurd (.inl ⟨hf, rfl⟩) h2
    · by_cases g2 : v = e.v2
      · subst g2
        apply act_of_not_final2 hH he
        cases hf : e.v2final with
        | false => rfl
        | true => exact absurd (.inr ⟨hf, rfl⟩) h2
      · exact h1.succ he g1 g2

theorem drop_find {m m' : List (Int × Int)} (hd : dropFinal e m m') (v : Nat) :
    smFind m' v = if (e.v1final = true ∧ v = e.v1) ∨ (e.v2final = true ∧ v = e.v2) then none else smFind m v := by
  rw [hd.2]
  by_cases h : (e.v1final = true ∧ v = e.v1) ∨ (e.v2final = true ∧ v = e.v2)
  · rw [if_pos h, if_pos]
    rcases h with h | h
    · exact .inl ⟨h.1, by rw [h.2]⟩
    · exact .inr ⟨h.1, by rw [h.2]⟩
  · rw [if_neg h, if_neg]
    intro hc
    rcases hc with hc | hc
    · exact h (.inl ⟨hc.1, by omega⟩)
    · exact h (.inr ⟨hc.1, by omega⟩)

/-- edge `i` is left -/
theorem leave_inv (hH : Sp.Hyp G.toGraph) (he : G.info[i]? = some e) (h : Inv G A i m) {m' : List (Int × Int)} (hd : dropFinal e m m')
    (h1 : e.v1final = true → ∀ u, IsEnd A e.v1 u → u = e.v1) (h2 : e.v2final = true → ∀ u, IsEnd A e.v2 u → u = e.v2) : Inv G A (i + 1) m' where
  sym := h.sym
  sub x y hxy := (h.sub x y hxy).imp (fun ⟨b, hb, hj⟩ => ⟨b, by omega, hj⟩) id
  forest := h.forest
  opn v u hv hne := by
    have hf : ¬ ((e.v1final = true ∧ v = e.v1) ∨ (e.v2final = true ∧ v = e.v2)) := by
      rintro (⟨g1, rfl⟩ | ⟨g1, rfl⟩)
      · exact hne (h1 g1 u hv)
      · exact hne (h2 g1 u hv)
    refine ⟨(act_succ_iff hH he).2 ⟨(h.opn v u hv hne).1, hf⟩, ?_⟩
    rw [drop_find hd, if_neg hf]
    exact (h.opn v u hv hne).2
  inn v hv ha := by
    rw [act_succ_iff hH he] at ha
    rw [drop_find hd, if_neg ha.2]
    exact h.inn v hv ha.1
  out v hv ha := by
    rw [drop_find hd]
    split
    · rfl
    next hf => exact h.out v hv fun ha' => ha ((act_succ_iff hH he).2 ⟨ha', hf⟩)
  alone v hv := by
    rw [drop_find hd, h.alone v hv]
    split <;> rfl
  key k x hk := by
    rw [hd.2] at hk
    split at hk
    · cases hk
    · exact h.key k x hk
  sorted := hd.1

/-- edge `i` is taken; `m1` is the map before the final vertices are dropped -/
theorem take_inv (hH : Sp.Hyp G.toGraph) (he : G.info[i]? = some e) (h : Inv G A i m) {u1 u2 : Nat} (e1 : IsEnd A e.v1 u1) (e2 : IsEnd A e.v2 u2) (hne : u1 ≠ e.v2)
    (n1 : e.v1final = true → u1 ≠ e.v1) (n2 : e.v2final = true → u2 ≠ e.v2) {m1 m' : List (Int × Int)} (hk : ∀ k x, smFind m1 k = some x → ∃ v : Nat, k = v)
    (hm : ∀ v : Nat, smFind m1 v = if v = u2 then some (u1 : Int) else if v = u1 then some (u2 : Int) else if v = e.v1 ∨ v = e.v2 then some 0 else smFind m v)
    (hd : dropFinal e m1 m') : Inv G (addE A e.v1 e.v2) (i + 1) m' := by
  have hloop := hH.loop i e he
  obtain ⟨j1, j2, j3, j4, j5, j6⟩ := join_ends e1 e2 hloop hne
  have hne2 : u2 ≠ e.v1 := fun hh => hne (by subst hh; exact e1.unique e2.symm)
  have hcl : ∀ x, x = u1 ∨ x = u2 ∨ (x = e.v1 ∧ u1 ≠ e.v1) ∨ (x = e.v2 ∧ u2 ≠ e.v2) ∨ (x ≠ u1 ∧ x ≠ u2 ∧ x ≠ e.v1 ∧ x ≠ e.v2) := by omega
  have hold : ∀ x y, IsEnd (addE A e.v1 e.v2) x y → x ≠ u1 → x ≠ u2 → IsEnd A x y ∧ x ≠ e.v1 ∧ x ≠ e.v2 := by
    intro x y hx h1 h2
    rcases hcl x with hc | hc | ⟨rfl, hc⟩ | ⟨rfl, hc⟩ | ⟨_, _, c1, c2⟩
    · exact absurd hc h1
    · exact absurd hc h2
    · exact absurd (j3 hc) hx.not_inner
    · exact absurd (j4 hc) hx.not_inner
    · rcases h.forest x with hi | ⟨z, hz⟩
      · exact absurd (j6 x hi) hx.not_inner
      · have := hx.unique (j5 x z hz c1 h1 c2 h2)
        subst this
        exact ⟨hz, c1, c2⟩
  have hinner : ∀ x, Inner (addE A e.v1 e.v2) x → x ≠ u1 ∧ x ≠ u2 ∧ (x = e.v1 ∨ x = e.v2 ∨ (x ≠ e.v1 ∧ x ≠ e.v2 ∧ Inner A x)) := by
    intro x hx
    have h1 : x ≠ u1 := by rintro rfl; exact j1.not_inner hx
    have h2 : x ≠ u2 := by rintro rfl; exact j1.symm.not_inner hx
    refine ⟨h1, h2, ?_⟩
    rcases hcl x with hc | hc | ⟨rfl, hc⟩ | ⟨rfl, hc⟩ | ⟨_, _, c1, c2⟩
    · exact absurd hc h1
    · exact absurd hc h2
    · exact .inl rfl
    · exact .inr (.inl rfl)
    · rcases h.forest x with hi | ⟨z, hz⟩
      · exact .inr (.inr ⟨c1, c2, hi⟩)
      · exact absurd hx (j5 x z hz c1 h1 c2 h2).not_inner
  have hu1 : ¬ ((e.v1final = true ∧ u1 = e.v1) ∨ (e.v2final = true ∧ u1 = e.v2)) := by
    rintro (⟨g1, g2⟩ | ⟨g1, g2⟩)
    · exact n1 g1 g2
    · exact hne g2
  have hu2 : ¬ ((e.v1final = true ∧ u2 = e.v1) ∨ (e.v2final = true ∧ u2 = e.v2)) := by
    rintro (⟨g1, g2⟩ | ⟨g1, g2⟩)
    · exact hne2 g2
    · exact n2 g1 g2
  have ha1 : Act G.toGraph i u1 := by
    by_cases hq : u1 = e.v1
    · subst hq; exact ⟨i, Nat.le_refl _, e, he, .inl rfl⟩
    · exact (h.opn _ _ e1.symm (Ne.symm hq)).1
  have ha2 : Act G.toGraph i u2 := by
    by_cases hq : u2 = e.v2
    · subst hq; exact ⟨i, Nat.le_refl _, e, he, .inr rfl⟩
    · exact (h.opn _ _ e2.symm (Ne.symm hq)).1
  refine ⟨fun x y hxy => ?_, fun x y hxy => ?_, fun x => ?_, fun v u hv huv => ?_, fun v hv ha => ?_, fun v hv ha => ?_, fun v hv => ?_, fun k x hkx => ?_, hd.1⟩
  · rcases hxy with hxy | ⟨rfl, rfl⟩ | ⟨rfl, rfl⟩
    · exact .inl (h.sym _ _ hxy)
    · exact .inr (.inr ⟨rfl, rfl⟩)
    · exact .inr (.inl ⟨rfl, rfl⟩)
  · rcases hxy with hxy | ⟨rfl, rfl⟩ | ⟨rfl, rfl⟩
    · exact (h.sub x y hxy).imp (fun ⟨b, hb, hj⟩ => ⟨b, by omega, hj⟩) id
    · exact .inl ⟨i, by omega, e, he, .inl ⟨rfl, rfl⟩⟩
    · exact .inl ⟨i, by omega, e, he, .inr ⟨rfl, rfl⟩⟩
  · rcases hcl x with rfl | rfl | ⟨rfl, hc⟩ | ⟨rfl, hc⟩ | ⟨h1, h2, c1, c2⟩
    · exact .inr ⟨_, j1⟩
    · exact .inr ⟨_, j1.symm⟩
    · exact .inl (j3 hc)
    · exact .inl (j4 hc)
    · rcases h.forest x with hi | ⟨z, hz⟩
      · exact .inl (j6 x hi)
      · exact .inr ⟨z, j5 x z hz c1 h1 c2 h2⟩
  · rw [act_succ_iff hH he, drop_find hd, hm]
    by_cases h1 : v = u1
    · subst h1
      have := hv.unique j1
      subst this
      refine ⟨⟨ha1, hu1⟩, ?_⟩
      rw [if_neg hu1, if_neg j2, if_pos rfl]
    · by_cases h2 : v = u2
      · subst h2
        have := hv.unique j1.symm
        subst this
        refine ⟨⟨ha2, hu2⟩, ?_⟩
        rw [if_neg hu2, if_pos rfl]
      · obtain ⟨g1, g2, g3⟩ := hold v u hv h1 h2
        have hf : ¬ ((e.v1final = true ∧ v = e.v1) ∨ (e.v2final = true ∧ v = e.v2)) := fun hf => hf.elim (fun x => g2 x.2) fun x => g3 x.2
        obtain ⟨k1, k2⟩ := h.opn v u g1 huv
        refine ⟨⟨k1, hf⟩, ?_⟩
        rw [if_neg hf, if_neg h2, if_neg h1, if_neg (fun x => x.elim g2 g3)]
        exact k2
  · obtain ⟨h1, h2, h3⟩ := hinner v hv
    rw [act_succ_iff hH he] at ha
    rw [drop_find hd, hm, if_neg ha.2, if_neg h2, if_neg h1]
    rcases h3 with h3 | h3 | ⟨c1, c2, h3⟩
    · rw [if_pos (.inl h3)]
    · rw [if_pos (.inr h3)]
    · rw [if_neg (fun x => x.elim c1 c2)]
      exact h.inn v h3 ha.1
  · obtain ⟨h1, h2, h3⟩ := hinner v hv
    rw [drop_find hd, hm]
    by_cases hf : (e.v1final = true ∧ v = e.v1) ∨ (e.v2final = true ∧ v = e.v2)
    · rw [if_pos hf]
    · rw [if_neg hf]
      have hna : ¬ Act G.toGraph i v := fun ha' => ha ((act_succ_iff hH he).2 ⟨ha', hf⟩)
      rw [if_neg h2, if_neg h1]
      rcases h3 with rfl | rfl | ⟨c1, c2, h3⟩
      · exact absurd ⟨i, Nat.le_refl _, e, he, .inl rfl⟩ hna
      · exact absurd ⟨i, Nat.le_refl _, e, he, .inr rfl⟩ hna
      · rw [if_neg (fun x => x.elim c1 c2)]
        exact h.out v h3 hna
  · have h1 : v ≠ u1 := by rintro rfl; exact j2 (hv.unique j1)
    have h2 : v ≠ u2 := by rintro rfl; exact j2 (j1.symm.unique hv)
    obtain ⟨g1, g2, g3⟩ := hold v v hv h1 h2
    rw [drop_find hd, hm, if_neg fun hf => hf.elim (fun x => g2 x.2) fun x => g3 x.2, if_neg h2, if_neg h1, if_neg (fun x => x.elim g2 g3), h.alone v g1]
  · rw [hd.2] at hkx
    split at hkx
    · cases hkx
    · exact hk k x hkx

end TdZdd.Ps
