import Verif.PathByMapProofs2

/-! Proofs about `PathZddByStdMap` (3): `getChild` and `getRoot`. -/

namespace TdZdd.Ps

open Gr Deg Sp

variable {G : CGraph} {A : Nat → Nat → Prop} {i : Nat} {m : List (Int × Int)} {e : EdgeInfo}

/-- the value of a vertex of the edge -/
theorem Inv.val (hH : Sp.Hyp G.toGraph) (h : Inv G A i m) {v : Nat} (ha : Act G.toGraph i v) :
    (Inner A v ∧ smFind m v = some 0) ∨ ∃ u, IsEnd A v u ∧ 1 ≤ u ∧ u ≤ G.vMax ∧ smFind m v = if u = v then none else some (u : Int) := by
  rcases h.forest v with hi | ⟨u, hu⟩
  · exact .inl ⟨hi, h.inn v hi ha⟩
  · refine .inr ⟨u, hu, ?_⟩
    by_cases hq : u = v
    · subst hq
      have := ha.range hH
      exact ⟨this.1, this.2, by rw [if_pos rfl]; exact h.alone u hu⟩
    · have := h.pos hH hu.symm (Ne.symm hq)
      exact ⟨this.1, this.2, by rw [if_neg hq]; exact (h.opn v u hu hq).2⟩

/-- why an edge cannot be taken -/
def NoTake (A : Nat → Nat → Prop) (e : EdgeInfo) : Prop :=
  Inner A e.v1 ∨ Inner A e.v2 ∨ (e.v1final = true ∧ IsEnd A e.v1 e.v1) ∨ (e.v2final = true ∧ IsEnd A e.v2 e.v2) ∨
  (IsEnd A e.v1 e.v2 ∧ ∃ z z', IsEnd A z z' ∧ z' ≠ z ∧ z ≠ e.v1 ∧ z ≠ e.v2)

/-- the edge closes the only open path -/
def Hit (A : Nat → Nat → Prop) (e : EdgeInfo) : Prop := IsEnd A e.v1 e.v2 ∧ ∀ z z', IsEnd A z z' → z' ≠ z → z = e.v1 ∨ z = e.v2

theorem wrap_vertex (hH : Sp.Hyp G.toGraph) {v : Nat} (h : v ≤ G.vMax) : wrap16 (v : Int) = v := by
  have := hH.small
  exact wrap16_eq (by omega) (by omega)

theorem take_some (hH : Sp.Hyp G.toGraph) (he : G.info[i]? = some e) (h : Inv G A i m) {level : Nat} (hl : level = G.info.length - i) :
    ∃ r, psChild G m level true = some r ∧ ((r.1 = 0 ∧ NoTake A e) ∨ (r.1 = -1 ∧ Hit A e) ∨ (r.1 = (level : Int) - 1 ∧ Inv G (addE A e.v1 e.v2) (i + 1) r.2)) := by
  have hi : i < G.info.length := (List.getElem?_eq_some_iff.1 he).1
  have hr := hH.ok.range i e he
  have hloop := hH.loop i e he
  have w1 := wrap_vertex hH (v := e.v1) (by omega)
  have w2 := wrap_vertex hH (v := e.v2) (by omega)
  unfold psChild
  rw [if_neg (by omega), show G.info.length - level = i by omega, he]
  dsimp only [Option.bind]
  rw [w1, w2, if_pos rfl]
  have a1 : Act G.toGraph i e.v1 := ⟨i, Nat.le_refl _, e, he, .inl rfl⟩
  have a2 : Act G.toGraph i e.v2 := ⟨i, Nat.le_refl _, e, he, .inr rfl⟩
  rcases h.val hH a1 with ⟨hin, hv1⟩ | ⟨x1, e1, x1p, x1m, hv1⟩
  · rw [hv1]
    dsimp only [Option.getD]
    rw [if_pos (.inl rfl)]
    exact ⟨_, rfl, .inl ⟨rfl, .inl hin⟩⟩
  rcases h.val hH a2 with ⟨hin, hv2⟩ | ⟨x2, e2, x2p, x2m, hv2⟩
  · rw [hv2]
    dsimp only [Option.getD]
    rw [if_pos (.inr rfl)]
    exact ⟨_, rfl, .inl ⟨rfl, .inr (.inl hin)⟩⟩
  have g1 : (smFind m e.v1).getD e.v1 = (x1 : Int) := by
    rw [hv1]
    split
    next hq => rw [hq]; rfl
    · rfl
  have g2 : (smFind m e.v2).getD e.v2 = (x2 : Int) := by
    rw [hv2]
    split
    next hq => rw [hq]; rfl
    · rfl
  have q1 : (smFind m e.v1).isNone = decide (x1 = e.v1) := by
    rw [hv1]
    by_cases hq : x1 = e.v1
    · rw [if_pos hq, decide_eq_true hq]; rfl
    · rw [if_neg hq, decide_eq_false hq]; rfl
  have q2 : (smFind m e.v2).isNone = decide (x2 = e.v2) := by
    rw [hv2]
    by_cases hq : x2 = e.v2
    · rw [if_pos hq, decide_eq_true hq]; rfl
    · rw [if_neg hq, decide_eq_false hq]; rfl
  rw [g1, g2, q1, q2, if_neg (by omega)]
  by_cases c1 : e.v1final = true ∧ decide (x1 = e.v1) = true
  · rw [if_pos c1]
    have hq := of_decide_eq_true c1.2
    subst hq
    exact ⟨_, rfl, .inl ⟨rfl, .inr (.inr (.inl ⟨c1.1, e1⟩))⟩⟩
  rw [if_neg c1]
  by_cases c2 : e.v2final = true ∧ decide (x2 = e.v2) = true
  · rw [if_pos c2]
    have hq := of_decide_eq_true c2.2
    subst hq
    exact ⟨_, rfl, .inl ⟨rfl, .inr (.inr (.inr (.inl ⟨c2.1, e2⟩)))⟩⟩
  rw [if_neg c2]
  have n1 : e.v1final = true → x1 ≠ e.v1 := fun hf hq => c1 ⟨hf, decide_eq_true hq⟩
  have n2 : e.v2final = true → x2 ≠ e.v2 := fun hf hq => c2 ⟨hf, decide_eq_true hq⟩
  by_cases c3 : x1 = e.v2
  · rw [if_pos (by rw [c3])]
    subst c3
    have hx2 : x2 = e.v1 := e2.unique e1.symm
    rw [if_neg (by rw [hx2]; exact fun hh => hh rfl)]
    by_cases c4 : m.any (fun p => decide (p.1 ≠ (e.v1 : Int) ∧ p.1 ≠ (e.v2 : Int) ∧ 0 < p.2)) = true
    · rw [if_pos c4]
      refine ⟨_, rfl, .inl ⟨rfl, .inr (.inr (.inr (.inr ⟨e1, ?_⟩)))⟩⟩
      obtain ⟨⟨k, x⟩, hp, hq⟩ := List.any_eq_true.1 c4
      have hq := of_decide_eq_true hq
      dsimp only at hq
      have hf := mem_find h.sorted hp
      obtain ⟨z, rfl⟩ := h.key _ _ hf
      rcases h.forest z with hin | ⟨z', hz⟩
      · exfalso
        by_cases ha : Act G.toGraph i z
        · rw [h.inn z hin ha] at hf
          injection hf with hf
          omega
        · rw [h.out z hin ha] at hf; cases hf
      · by_cases hzz : z' = z
        · subst hzz
          rw [h.alone z' hz] at hf; cases hf
        · exact ⟨z, z', hz, hzz, by omega, by omega⟩
    · rw [if_neg c4]
      refine ⟨_, rfl, .inr (.inl ⟨rfl, e1, fun z z' hz hne => ?_⟩)⟩
      apply Classical.byContradiction
      intro hn
      apply c4
      have hz' := h.pos hH hz.symm (Ne.symm hne)
      exact List.any_eq_true.2 ⟨((z : Int), (z' : Int)), find_mem (h.opn z z' hz hne).2, decide_eq_true ⟨by dsimp only; omega, by dsimp only; omega, by dsimp only; omega⟩⟩
  rw [if_neg (fun hh => c3 (by omega))]
  have hx2v1 : x2 ≠ e.v1 := fun hh => c3 (by subst hh; exact e1.unique e2.symm)
  have hx12 : x1 ≠ x2 := (join_ends e1 e2 hloop c3).2.1
  rw [wrap_vertex hH x1m, wrap_vertex hH x2m]
  generalize hm1 : smSet (smSet (smSet (smSet m (e.v2 : Int) 0) (e.v1 : Int) 0) (x1 : Int) (x2 : Int)) (x2 : Int) (x1 : Int) = m1
  have hs : Sorted m1 := by
    subst hm1
    exact sorted_set _ _ (sorted_set _ _ (sorted_set _ _ (sorted_set _ _ h.sorted)))
  have hfind : ∀ k : Int, smFind m1 k = if k = x2 then some (x1 : Int) else if k = x1 then some (x2 : Int) else if k = e.v1 then some 0 else if k = e.v2 then some 0 else smFind m k := by
    intro k
    rw [← hm1, find_set, find_set, find_set, find_set]
  have hfn : ∀ v : Nat, smFind m1 v = if v = x2 then some (x1 : Int) else if v = x1 then some (x2 : Int) else if v = e.v1 ∨ v = e.v2 then some 0 else smFind m v := by
    intro v
    rw [hfind]
    by_cases k1 : v = x2
    · rw [if_pos k1, if_pos (by omega)]
    rw [if_neg k1, if_neg (by omega)]
    by_cases k2 : v = x1
    · rw [if_pos k2, if_pos (by omega)]
    rw [if_neg k2, if_neg (by omega)]
    by_cases k3 : v = e.v1
    · rw [if_pos (Or.inl k3 : v = e.v1 ∨ v = e.v2), if_pos (by omega)]
    rw [if_neg (by omega : ¬ (v : Int) = e.v1)]
    by_cases k4 : v = e.v2
    · rw [if_pos (Or.inr k4 : v = e.v1 ∨ v = e.v2), if_pos (by omega)]
    rw [if_neg (by omega : ¬ (v : Int) = e.v2), if_neg (by omega)]
  have hkey : ∀ k x, smFind m1 k = some x → ∃ v : Nat, k = v := by
    intro k x hk
    rw [hfind] at hk
    by_cases k1 : k = x2
    · exact ⟨_, k1⟩
    rw [if_neg k1] at hk
    by_cases k2 : k = x1
    · exact ⟨_, k2⟩
    rw [if_neg k2] at hk
    by_cases k3 : k = e.v1
    · exact ⟨_, k3⟩
    rw [if_neg k3] at hk
    by_cases k4 : k = e.v2
    · exact ⟨_, k4⟩
    rw [if_neg k4] at hk
    exact h.key k x hk
  obtain ⟨m', em, hd⟩ := leave_some (u1 := decide (x1 = e.v1)) (u2 := decide (x2 = e.v2)) (level := level) hs w1 w2 hloop
    (fun hf _ => by rw [hfn, if_neg (Ne.symm hx2v1), if_neg (Ne.symm (n1 hf)), if_pos (.inl rfl)]) (fun hf hq => absurd (of_decide_eq_true hq) (n1 hf))
    (fun hf _ => by rw [hfn, if_neg (Ne.symm (n2 hf)), if_neg (Ne.symm c3), if_pos (.inr rfl)]) (fun hf hq => absurd (of_decide_eq_true hq) (n2 hf))
  rw [em]
  exact ⟨_, rfl, .inr (.inr ⟨rfl, take_inv hH he h e1 e2 c3 n1 n2 hkey hfn hd⟩)⟩

theorem leave_child (hH : Sp.Hyp G.toGraph) (he : G.info[i]? = some e) (h : Inv G A i m) {level : Nat} (hl : level = G.info.length - i) :
    ∃ r, psChild G m level false = some r ∧ ((r.1 = 0 ∧ ∃ v u, ((e.v1final = true ∧ v = e.v1) ∨ (e.v2final = true ∧ v = e.v2)) ∧ IsEnd A v u ∧ u ≠ v) ∨
      (r.1 = (level : Int) - 1 ∧ Inv G A (i + 1) r.2)) := by
  have hi : i < G.info.length := (List.getElem?_eq_some_iff.1 he).1
  have hr := hH.ok.range i e he
  have hloop := hH.loop i e he
  have w1 := wrap_vertex hH (v := e.v1) (by omega)
  have w2 := wrap_vertex hH (v := e.v2) (by omega)
  unfold psChild
  rw [if_neg (by omega), show G.info.length - level = i by omega, he]
  dsimp only [Option.bind]
  rw [w1, w2, if_neg Bool.false_ne_true]
  refine ⟨_, rfl, ?_⟩
  by_cases hc : ∃ v u, ((e.v1final = true ∧ v = e.v1) ∨ (e.v2final = true ∧ v = e.v2)) ∧ IsEnd A v u ∧ u ≠ v
  · left
    refine ⟨leave_zero w1 w2 hloop ?_, hc⟩
    obtain ⟨v, u, hv, hu, hne⟩ := hc
    have hf := (h.opn v u hu hne).2
    have hp := h.pos hH hu.symm (Ne.symm hne)
    rcases hv with ⟨hf1, rfl⟩ | ⟨hf2, rfl⟩
    · exact .inl ⟨hf1, by rw [hf]; rfl, u, by omega, hf⟩
    · exact .inr ⟨hf2, by rw [hf]; rfl, u, by omega, hf⟩
  · right
    have h1 : e.v1final = true → ∀ u, IsEnd A e.v1 u → u = e.v1 := fun hf u hu => Classical.byContradiction fun hne => hc ⟨_, u, .inl ⟨hf, rfl⟩, hu, hne⟩
    have h2 : e.v2final = true → ∀ u, IsEnd A e.v2 u → u = e.v2 := fun hf u hu => Classical.byContradiction fun hne => hc ⟨_, u, .inr ⟨hf, rfl⟩, hu, hne⟩
    have key : ∀ {v : Nat} {f : Bool}, (f = true → ∀ u, IsEnd A v u → u = v) → Act G.toGraph i v →
        (f = true → (smFind m v).isNone = false → smFind m v = some 0) ∧ (f = true → (smFind m v).isNone = true → smFind m v = none) := by
      intro v f hv ha
      refine ⟨fun hf hn => ?_, fun _ hn => Option.isNone_iff_eq_none.1 hn⟩
      rcases h.val hH ha with ⟨_, hv1⟩ | ⟨x1, e1, _, _, hv1⟩
      · exact hv1
      · rw [if_pos (hv hf _ e1)] at hv1
        rw [hv1] at hn; cases hn
    have k1 := key h1 ⟨i, Nat.le_refl _, e, he, .inl rfl⟩
    have k2 := key h2 ⟨i, Nat.le_refl _, e, he, .inr rfl⟩
    obtain ⟨m', em, hd⟩ := leave_some (u1 := (smFind m e.v1).isNone) (u2 := (smFind m e.v2).isNone) (level := level) h.sorted w1 w2 hloop k1.1 k1.2 k2.1 k2.2
    rw [em]
    exact ⟨rfl, leave_inv hH he h hd h1 h2⟩

/-! ### the root -/

theorem lk_pair {G : CGraph} (hH : Sp.Hyp G.toGraph) {v u : Nat} (h : Pair G.toGraph v u) (y : Nat) : Lk G.toGraph v y ↔ y = G.vMax + G.color v := by
  have hr := h.range hH
  constructor
  · rintro (⟨_, _, hy⟩ | ⟨u', hu', hy⟩)
    · exact hy
    · have := hu'.1
      omega
  · intro hy; exact .inl ⟨u, h, hy⟩

theorem lk_mid {G : CGraph} (hH : Sp.Hyp G.toGraph) {v u : Nat} (h : Pair G.toGraph v u) (y : Nat) : Lk G.toGraph (G.vMax + G.color v) y ↔ y = v ∨ y = u := by
  have hv := h.1
  constructor
  · rintro (⟨u', hu', hy⟩ | ⟨u', hu', hy⟩)
    · have := hu'.range hH
      omega
    · exact (h.2.2 y).1 (by omega)
  · intro hy
    have hc := (h.2.2 y).2 hy
    right
    rcases hy with rfl | rfl
    · exact ⟨u, h, rfl⟩
    · exact ⟨v, h.symm, by rw [hc]⟩

theorem lk_comp {G : CGraph} (hH : Sp.Hyp G.toGraph) {v u : Nat} (h : Pair G.toGraph v u) :
    Comp (Lk G.toGraph) 3 (fun k => if k = 0 then v else if k = 1 then G.vMax + G.color v else u) := by
  have hv := h.range hH
  have hu := h.symm.range hH
  have hc := h.1
  have hcu : G.color u = G.color v := (h.2.2 u).2 (.inr rfl)
  have hne := h.2.1
  refine ⟨by omega, fun i j hi hj hij => ?_, fun i hi y => ?_⟩
  · rcases (show i = 0 ∨ i = 1 ∨ i = 2 by omega) with rfl | rfl | rfl <;> rcases (show j = 0 ∨ j = 1 ∨ j = 2 by omega) with rfl | rfl | rfl <;> simp at hij ⊢ <;> omega
  · rcases (show i = 0 ∨ i = 1 ∨ i = 2 by omega) with rfl | rfl | rfl
    · show Lk G.toGraph v y ↔ _
      rw [lk_pair hH h]
      exact ⟨fun hy => .inl ⟨by omega, hy⟩, fun hy => hy.elim (·.2) fun ⟨k, hk, _⟩ => by omega⟩
    · show Lk G.toGraph (G.vMax + G.color v) y ↔ _
      rw [lk_mid hH h]
      constructor
      · rintro (hy | hy)
        · exact .inr ⟨0, rfl, hy⟩
        · exact .inl ⟨by omega, hy⟩
      · rintro (⟨_, hy⟩ | ⟨k, hk, hy⟩)
        · exact .inr hy
        · have : k = 0 := by omega
          subst this
          exact .inl hy
    · show Lk G.toGraph u y ↔ _
      rw [lk_pair hH h.symm, hcu]
      constructor
      · intro hy
        exact .inr ⟨1, rfl, hy⟩
      · rintro (⟨hk, _⟩ | ⟨k, hk, hy⟩)
        · omega
        · have : k = 1 := by omega
          subst this
          exact hy

theorem lk_cases (G : Graph) (v : Nat) : (∃ u, Pair G v u) ∨ (∃ x u, Pair G x u ∧ v = G.vMax + G.color x) ∨ ∀ y, ¬ Lk G v y := by
  by_cases h1 : ∃ u, Pair G v u
  · exact .inl h1
  · by_cases h2 : ∃ x u, Pair G x u ∧ v = G.vMax + G.color x
    · exact .inr (.inl h2)
    · refine .inr (.inr ?_)
      rintro y (⟨u, hu, _⟩ | ⟨u, hu, hy⟩)
      · exact h1 ⟨u, hu⟩
      · exact h2 ⟨y, u, hu, hy⟩

open Classical in
theorem init_find (hH : Sp.Hyp G.toGraph) : ∀ (k v : Nat) (m : List (Int × Int)), 1 ≤ v → v + k ≤ G.vMax + 1 → Sorted m → (∀ x, G.virtualMate x ≤ G.vMax) →
    Sorted (psInit G k v m) ∧ ∀ j : Int, smFind (psInit G k v m) j = if ∃ x : Nat, j = x ∧ v ≤ x ∧ x < v + k ∧ 1 ≤ G.virtualMate x then some (G.virtualMate j.toNat : Int) else smFind m j
  | 0, v, m, h1, h2, h3, _ => ⟨h3, fun j => by rw [if_neg]; rfl; rintro ⟨x, _, g1, g2, _⟩; omega⟩
  | k + 1, v, m, h1, h2, h3, h4 => by
    unfold psInit
    obtain ⟨s, f⟩ := init_find hH k (v + 1) (if 1 ≤ G.virtualMate v then smSet m (wrap16 v) (wrap16 (G.virtualMate v)) else m) (by omega) (by omega)
      (by split; exact sorted_set _ _ h3; exact h3) h4
    refine ⟨s, fun j => ?_⟩
    rw [f]
    by_cases hc : ∃ x : Nat, j = x ∧ v + 1 ≤ x ∧ x < v + 1 + k ∧ 1 ≤ G.virtualMate x
    · rw [if_pos hc, if_pos]
      obtain ⟨x, g1, g2, g3, g4⟩ := hc
      exact ⟨x, g1, by omega, by omega, g4⟩
    · rw [if_neg hc]
      by_cases hv : 1 ≤ G.virtualMate v
      · rw [if_pos hv, find_set, wrap_vertex hH (by omega), wrap_vertex hH (h4 v)]
        by_cases hj : j = v
        · rw [if_pos hj, if_pos ⟨v, hj, by omega, by omega, hv⟩, hj, Int.toNat_natCast]
        · rw [if_neg hj, if_neg]
          rintro ⟨x, g1, g2, g3, g4⟩
          exact hc ⟨x, g1, by omega, by omega, g4⟩
      · rw [if_neg hv, if_neg]
        rintro ⟨x, g1, g2, g3, g4⟩
        by_cases hx : x = v
        · subst hx; exact hv g4
        · exact hc ⟨x, g1, by omega, by omega, g4⟩

theorem root_inv (hH : Hyp G) : Inv G (Lk G.toGraph) 0 (psInit G G.vMax 1 []) := by
  have hS := hH.toHyp
  have hle : ∀ x, G.virtualMate x ≤ G.vMax := by
    intro x
    rcases Nat.eq_zero_or_pos (G.virtualMate x) with h | h
    · omega
    · exact (((hH.mates x _ h).1 rfl).symm.range hS).2
  obtain ⟨s, f⟩ := init_find hS G.vMax 1 [] (by omega) (by omega) List.Pairwise.nil hle
  have hf : ∀ v u : Nat, Pair G.toGraph v u → smFind (psInit G G.vMax 1 []) v = some (u : Int) := by
    intro v u h
    have hr := h.range hS
    have hm := (hH.mates v u (h.symm.range hS).1).2 h
    rw [f, if_pos ⟨v, rfl, by omega, by omega, by rw [hm]; exact (h.symm.range hS).1⟩, Int.toNat_natCast, hm]
  have hf' : ∀ v : Nat, (¬ ∃ u, Pair G.toGraph v u) → smFind (psInit G G.vMax 1 []) v = none := by
    intro v h
    rw [f, if_neg]
    · rfl
    · rintro ⟨x, g1, g2, g3, g4⟩
      have : v = x := by omega
      subst this
      exact h ⟨_, (hH.mates v _ g4).1 rfl⟩
  have hE : ∀ v u, Pair G.toGraph v u → IsEnd (Lk G.toGraph) v u := fun v u h => ⟨3, _, lk_comp hS h, rfl, rfl⟩
  have hM : ∀ v u, Pair G.toGraph v u → Inner (Lk G.toGraph) (G.vMax + G.color v) := fun v u h => ⟨3, _, 1, lk_comp hS h, by omega, by omega, rfl⟩
  have hact : ∀ v, Act G.toGraph 0 v ↔ 1 ≤ v ∧ v ≤ G.vMax := by
    intro v
    refine ⟨fun h => h.range hS, fun h => ?_⟩
    obtain ⟨a, ha⟩ := hS.ok.occurs v h.1 h.2
    exact ⟨a, by omega, ha⟩
  have hin : ∀ v, Inner (Lk G.toGraph) v → G.vMax < v := by
    intro v hv
    rcases lk_cases G.toGraph v with ⟨u, h⟩ | ⟨x, u, h, rfl⟩ | h
    · exact absurd hv (hE v u h).not_inner
    · have := h.1
      omega
    · exact absurd hv (isEnd_self h).not_inner
  refine ⟨fun x y h => h.symm, fun x y h => .inr h, fun v => ?_, fun v u hv hne => ?_, fun v hv ha => ?_, fun v hv _ => ?_, fun v hv => ?_, fun k x hk => ?_, s⟩
  · rcases lk_cases G.toGraph v with ⟨u, h⟩ | ⟨x, u, h, rfl⟩ | h
    · exact .inr ⟨u, hE v u h⟩
    · exact .inl (hM x u h)
    · exact .inr ⟨v, isEnd_self h⟩
  · rcases lk_cases G.toGraph v with ⟨u', h⟩ | ⟨x, u', h, rfl⟩ | h
    · have := hv.unique (hE v u' h)
      subst this
      exact ⟨(hact v).2 (h.range hS), hf v u h⟩
    · exact absurd (hM x u' h) hv.not_inner
    · exact absurd (hv.unique (isEnd_self h)) hne
  · have := (hact v).1 ha
    have := hin v hv
    omega
  · refine hf' v ?_
    rintro ⟨u, h⟩
    exact (hE v u h).not_inner hv
  · refine hf' v ?_
    rintro ⟨u, h⟩
    exact h.2.1 ((hE v u h).unique hv)
  · rw [f] at hk
    split at hk
    next hc => obtain ⟨x, hx, _⟩ := hc; exact ⟨x, hx⟩
    · cases hk

/-! ### reachable states -/

/-- the state before edge `i` -/
def St (G : CGraph) (i : Nat) (m : List (Int × Int)) : Prop := ∃ A, Inv G A i m

theorem child_eq {l : Nat} {b : Fin 2} {r : Int × List (Int × Int)} (h : psChild G m l (b != 0) = some r) : (pathByMap G).child m l b = r := by
  show (psChild G m l (b != 0)).getD _ = r
  rw [h]; rfl

theorem child_legal (hH : Sp.Hyp G.toGraph) {l : Nat} (take : Bool) (h1 : 1 ≤ l) (h2 : l ≤ G.info.length) (hst : St G (G.info.length - l) m) :
    ∃ r, psChild G m l take = some r ∧ (r.1 = 0 ∨ r.1 = -1 ∨ (r.1 = (l : Int) - 1 ∧ St G (G.info.length - l + 1) r.2)) := by
  obtain ⟨A, h⟩ := hst
  have he : G.info[G.info.length - l]? = some G.info[G.info.length - l] := List.getElem?_eq_getElem (by omega)
  cases take with
  | true =>
    obtain ⟨r, er, hr⟩ := take_some (level := l) hH he h (by omega)
    refine ⟨r, er, ?_⟩
    rcases hr with ⟨h, _⟩ | ⟨h, _⟩ | ⟨g1, g2⟩
    · exact .inl h
    · exact .inr (.inl h)
    · exact .inr (.inr ⟨g1, _, g2⟩)
  | false =>
    obtain ⟨r, er, hr⟩ := leave_child (level := l) hH he h (by omega)
    refine ⟨r, er, ?_⟩
    rcases hr with ⟨h, _⟩ | ⟨g1, g2⟩
    · exact .inl h
    · exact .inr (.inr ⟨g1, _, g2⟩)

theorem reach_inv (hH : Hyp G) {l : Int} {s : List (Int × Int)} (hr : Reach (pathByMap G) l s) : 1 ≤ l → l ≤ G.info.length ∧ St G (G.info.length - l.toNat) s := by
  induction hr with
  | root =>
    intro _
    refine ⟨Int.le_refl _, Lk G.toGraph, ?_⟩
    show Inv G _ (G.info.length - ((G.info.length : Int)).toNat) _
    rw [Int.toNat_natCast, Nat.sub_self]
    exact root_inv hH
  | step b hn' hr ih =>
    intro hl
    rename_i n s
    have ih := ih (by omega)
    rw [Int.toNat_natCast] at ih
    obtain ⟨r, er, hleg⟩ := child_legal hH.toHyp (b != 0) hn' (by omega) ih.2
    rw [child_eq er] at hl ⊢
    rcases hleg with h1 | h1 | ⟨h1, h2⟩
    · omega
    · omega
    · refine ⟨by omega, ?_⟩
      rw [h1, show ((n : Int) - 1).toNat = n - 1 by omega, show G.info.length - (n - 1) = G.info.length - n + 1 by omega]
      exact h2

theorem desc (hH : Hyp G) : Desc (pathByMap G) where
  root_ge := by show (-1 : Int) ≤ (G.info.length : Int); omega
  child_lt b hn' hr := by
    rename_i n s
    have hi := reach_inv hH hr (by omega)
    rw [Int.toNat_natCast] at hi
    obtain ⟨r, er, hleg⟩ := child_legal hH.toHyp (b != 0) hn' (by omega) hi.2
    rw [child_eq er]
    rcases hleg with h1 | h1 | ⟨h1, h2⟩ <;> omega
  child_ge b hn' hr := by
    rename_i n s
    have hi := reach_inv hH hr (by omega)
    rw [Int.toNat_natCast] at hi
    obtain ⟨r, er, hleg⟩ := child_legal hH.toHyp (b != 0) hn' (by omega) hi.2
    rw [child_eq er]
    rcases hleg with h1 | h1 | ⟨h1, h2⟩ <;> omega

end TdZdd.Ps
