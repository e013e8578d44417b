import Verif.FbChecks
import Verif.PathProofs3

/-! Proofs about `FrontierBasedSearch` (6): connectivity in a graph, and the array at each edge. -/

namespace TdZdd.Fb

open Gr Deg
open Sp (Act Joins adjA addE joins_get)

/-- connected by edges of `A` -/
inductive Conn (A : Nat → Nat → Prop) (x : Nat) : Nat → Prop
  | refl : Conn A x x
  | tail {y z : Nat} : Conn A x y → A y z → Conn A x z

variable {A B : Nat → Nat → Prop}

theorem Conn.trans {x y z : Nat} (h : Conn A x y) (h' : Conn A y z) : Conn A x z := by
  induction h' with
  | refl => exact h
  | tail _ hyz ih => exact .tail ih hyz

theorem Conn.one {x y : Nat} (h : A x y) : Conn A x y := .tail .refl h

theorem Conn.symm (hs : ∀ x y, A x y → A y x) {x y : Nat} (h : Conn A x y) : Conn A y x := by
  induction h with
  | refl => exact .refl
  | tail _ hyz ih => exact (Conn.one (hs _ _ hyz)).trans ih

theorem Conn.mono (hAB : ∀ x y, A x y → B x y) {x y : Nat} (h : Conn A x y) : Conn B x y := by
  induction h with
  | refl => exact .refl
  | tail _ hyz ih => exact .tail ih (hAB _ _ hyz)

/-- a set that is closed under edges -/
theorem Conn.stay {P : Nat → Prop} (hP : ∀ x y, P x → A x y → P y) {x y : Nat} (h : Conn A x y) (hx : P x) : P y := by
  induction h with
  | refl => exact hx
  | tail _ hyz ih => exact hP _ _ ih hyz

theorem Conn.first {x y : Nat} (h : Conn A x y) : x = y ∨ ∃ z, A x z := by
  induction h with
  | refl => exact .inl rfl
  | tail hxy hyz ih =>
    rcases ih with rfl | ih
    · exact .inr ⟨_, hyz⟩
    · exact .inr ih

theorem conn_addE {x y u v : Nat} :
    Conn (addE A x y) u v ↔ Conn A u v ∨ (Conn A u x ∧ Conn A y v) ∨ (Conn A u y ∧ Conn A x v) := by
  constructor
  · intro h
    induction h with
    | refl => exact .inl .refl
    | tail _ hyz ih =>
      rcases hyz with h | ⟨rfl, rfl⟩ | ⟨rfl, rfl⟩
      · exact ih.imp (fun g => g.tail h) (Or.imp (fun g => ⟨g.1, g.2.tail h⟩) fun g => ⟨g.1, g.2.tail h⟩)
      · rcases ih with g | g | g
        · exact .inr (.inl ⟨g, .refl⟩)
        · exact .inr (.inl ⟨g.1, .refl⟩)
        · exact .inl g.1
      · rcases ih with g | g | g
        · exact .inr (.inr ⟨g, .refl⟩)
        · exact .inl g.1
        · exact .inr (.inr ⟨g.1, .refl⟩)
  · have hm : ∀ {p q}, Conn A p q → Conn (addE A x y) p q := fun h => h.mono fun _ _ => .inl
    rintro (h | ⟨h, h'⟩ | ⟨h, h'⟩)
    · exact hm h
    · exact (hm h).trans ((Conn.one (.inr (.inl ⟨rfl, rfl⟩))).trans (hm h'))
    · exact (hm h).trans ((Conn.one (.inr (.inr ⟨rfl, rfl⟩))).trans (hm h'))

variable {G : Graph} {i : Nat}

/-- the first vertex in use at edge `i` -/
def st (G : Graph) (i : Nat) : Nat :=
  match G.info[i]? with
  | some e => e.v0
  | none => G.vMax + 1

theorem st_some {e : EdgeInfo} (he : G.info[i]? = some e) : st G i = e.v0 := by unfold st; rw [he]

theorem st_len : st G G.info.length = G.vMax + 1 := by unfold st; rw [List.getElem?_eq_none (Nat.le_refl _)]

theorem uses_lt {b v : Nat} (h : Uses G.info b v) : b < G.info.length := by
  obtain ⟨e, he, _⟩ := h
  exact (List.getElem?_eq_some_iff.1 he).1

theorem st_bounds (hH : Sp.Hyp G) : 1 ≤ st G i ∧ st G i ≤ G.vMax + 1 := by
  cases he : G.info[i]? with
  | none => unfold st; rw [he]; dsimp only; omega
  | some e =>
    rw [st_some he]
    have := hH.ok.window i e he
    omega

theorem act_iff (hH : Sp.Hyp G) {v : Nat} (h2 : v ≤ G.vMax) : Act G i v ↔ st G i ≤ v := by
  cases he : G.info[i]? with
  | none =>
    unfold st; rw [he]; dsimp only
    constructor
    · rintro ⟨b, hb, hu⟩
      have := uses_lt hu
      rw [List.getElem?_eq_none_iff] at he
      omega
    · omega
  | some e =>
    rw [st_some he]
    constructor
    · rintro ⟨b, hb, hu⟩
      exact hH.ok.v0_le_of_uses he hb hu
    · intro h
      obtain ⟨a1, a2, ⟨b, hb, hu⟩, _⟩ := hH.ok.window i e he
      obtain ⟨c, hc, hu'⟩ := hH.ok.order b e.v0 v a1 h h2 hu
      exact ⟨c, by omega, hu'⟩

theorem edge_lt (hH : Sp.Hyp G) {e : EdgeInfo} (he : G.info[i]? = some e) : 1 ≤ e.v0 ∧ e.v0 ≤ e.v1 ∧ e.v1 < e.v2 ∧ e.v2 ≤ G.vMax := by
  have := hH.ok.range i e he
  have := hH.loop i e he
  have := hH.ok.v0_le he
  have := hH.ok.window i e he
  omega

theorem leave_edge (hH : Sp.Hyp G) {e : EdgeInfo} (he : G.info[i]? = some e) : Leave (st G i) (st G (i + 1)) e := by
  obtain ⟨q0, q1, q2, q3⟩ := edge_lt hH he
  rw [← st_some he] at q0 q1
  have hb := st_bounds hH (i := i + 1)
  -- vertices that leave
  have hlv : ∀ v, st G i ≤ v → v < st G (i + 1) → v = e.v1 ∨ v = e.v2 := by
    intro v h1 h2
    apply Classical.byContradiction
    intro hn
    have ha := (act_iff hH (by omega)).2 h1
    have := (act_iff hH (by omega)).1 (ha.succ he (fun h => hn (.inl h)) fun h => hn (.inr h))
    omega
  have hle : st G i ≤ st G (i + 1) := by
    apply Classical.byContradiction
    intro hn
    have := (act_iff hH (v := st G (i + 1)) (i := i) (by have := st_bounds hH (i := i); omega)).1 ((act_iff hH (by have := st_bounds hH (i := i); omega)).2 (Nat.le_refl _)).pred
    omega
  have f1 : e.v1final = true ↔ e.v1 < st G (i + 1) := by
    constructor
    · intro h
      have := Sp.not_act_of_final1 hH he h
      rw [act_iff hH (by omega)] at this
      omega
    · intro h
      apply Classical.byContradiction
      intro hn
      have := Sp.act_of_not_final1 hH he (by simpa using hn)
      rw [act_iff hH (by omega)] at this
      omega
  have f2 : e.v2final = true ↔ e.v2 < st G (i + 1) := by
    constructor
    · intro h
      have := Sp.not_act_of_final2 hH he h
      rw [act_iff hH (by omega)] at this
      omega
    · intro h
      apply Classical.byContradiction
      intro hn
      have := Sp.act_of_not_final2 hH he (by simpa using hn)
      rw [act_iff hH (by omega)] at this
      omega
  unfold Leave
  have k0 : st G i < st G (i + 1) → st G i = e.v1 ∨ st G i = e.v2 := hlv _ (Nat.le_refl _)
  have k1 : st G i + 1 < st G (i + 1) → st G i + 1 = e.v1 ∨ st G i + 1 = e.v2 := hlv _ (by omega)
  have k2 : st G i + 2 < st G (i + 1) → st G i + 2 = e.v1 ∨ st G i + 2 = e.v2 := hlv _ (by omega)
  by_cases h1 : e.v1final = true
  · by_cases h2 : e.v2final = true
    · right; right
      rw [f1] at h1; rw [f2] at h2
      refine ⟨f1.2 h1, f2.2 h2, by omega, by omega, by omega⟩
    · right; left
      refine ⟨h1, by simpa using h2, ?_⟩
      rw [f1] at h1; rw [f2] at h2
      omega
  · have h2 : ¬ e.v2final = true := by rw [f1] at h1; rw [f2]; omega
    left
    refine ⟨by simpa using h1, by simpa using h2, ?_⟩
    rw [f1] at h1; rw [f2] at h2
    omega

/-! ### the array and the graph -/

/-- the vertices from `s` on, connected by `A` -/
def world (G : Graph) (A : Nat → Nat → Prop) (s : Nat) : World where
  L := G.vMax + 1 - s
  R k l := Conn A (s + k) (s + l)
  C c k := c ≠ 0 ∧ ∃ u, Conn A (s + k) u ∧ G.color u = c
  E k := ∃ y, A (s + k) y

/-- connected vertices have the same colour -/
def OneColor (G : Graph) (A : Nat → Nat → Prop) : Prop := ∀ u v, Conn A u v → G.color u ≠ 0 → G.color v ≠ 0 → G.color u = G.color v

/-- `A` consists of edges up to number `i` -/
structure Upto (G : Graph) (A : Nat → Nat → Prop) (i : Nat) : Prop where
  sym : ∀ x y, A x y → A y x
  sub : ∀ x y, A x y → ∃ b, b ≤ i ∧ Joins G b x y

theorem Upto.range (hH : Sp.Hyp G) (hA : Upto G A i) {x y : Nat} (h : A x y) : 1 ≤ x ∧ x ≤ G.vMax := by
  obtain ⟨b, _, hj⟩ := hA.sub x y h
  exact Sp.Uses.range hH hj.uses.1

theorem Upto.win (hH : Sp.Hyp G) (hA : Upto G A i) {e : EdgeInfo} (he : G.info[i]? = some e) {x y : Nat} (h : A x y) (hx : e.v0 ≤ x) : x < e.v0 + sz G ∧ x ≤ G.vMax := by
  obtain ⟨b, hb, hj⟩ := hA.sub x y h
  obtain ⟨r1, r2⟩ := hA.range hH h
  exact ⟨(Sp.win hH he hb hj.uses.1 ((act_iff hH r2).2 (by rw [st_some he]; exact hx))).2, r2⟩

theorem law (hH : Sp.Hyp G) (hv : G.vMax ≤ 32766) {e : EdgeInfo} (he : G.info[i]? = some e) (hA : Upto G A i) (hc : OneColor G A) : Law (world G A e.v0) (sz G) where
  refl _ := .refl
  symm _ _ h := h.symm hA.sym
  trans _ _ _ h h' := h.trans h'
  win k l h hne := by
    rcases Conn.first h with h | ⟨y, hy⟩
    · omega
    · have := hA.win hH he hy (by omega)
      refine ⟨by omega, ?_, y, hy⟩
      show k < G.vMax + 1 - e.v0
      omega
  cin c k h := by
    obtain ⟨hc0, u, hu, hcu⟩ := h
    have hle : e.v0 + k ≤ G.vMax := by
      rcases Conn.first hu with h | ⟨y, hy⟩
      · apply Classical.byContradiction
        intro hn
        have := hH.ok.color_out u (by omega)
        omega
      · exact (hA.win hH he hy (by omega)).2
    show k < G.vMax + 1 - e.v0
    omega
  cc c k l h hck := by
    obtain ⟨hc0, u, hu, hcu⟩ := hck
    exact ⟨hc0, u, (h.symm hA.sym).trans hu, hcu⟩
  uniq c c' k h h' := by
    obtain ⟨hc0, u, hu, rfl⟩ := h
    obtain ⟨hc0', u', hu', rfl⟩ := h'
    exact hc u u' ((hu.symm hA.sym).trans hu') hc0 hc0'
  ec k l h hE := by
    by_cases hkl : k = l
    · subst hkl; exact hE
    · rcases Conn.first (h.symm hA.sym) with h | h
      · omega
      · exact h
  small := by
    have := hH.ok.window i e he
    show G.vMax + 1 - e.v0 ≤ 32766
    omega
  size := by
    have := hH.ok.mfs_le
    unfold sz
    omega

theorem same_shift {s s' : Nat} (h : s ≤ s') : Same ((world G A s).shift (s' - s)) (world G A s') := by
  have e : ∀ k, s + (k + (s' - s)) = s' + k := fun k => by omega
  refine ⟨?_, fun k l => ?_, fun c k => ?_, fun k => ?_⟩
  · show G.vMax + 1 - s' = G.vMax + 1 - s - (s' - s)
    omega
  · show Conn A (s' + k) (s' + l) ↔ Conn A (s + (k + (s' - s))) (s + (l + (s' - s)))
    rw [e, e]
  · show (c ≠ 0 ∧ ∃ u, Conn A (s' + k) u ∧ G.color u = c) ↔ (c ≠ 0 ∧ ∃ u, Conn A (s + (k + (s' - s))) u ∧ G.color u = c)
    rw [e]
  · show (∃ y, A (s' + k) y) ↔ ∃ y, A (s + (k + (s' - s))) y
    rw [e]

theorem same_merge {s a b : Nat} : Same ((world G A s).merge a b) (world G (addE A (s + a) (s + b)) s) := by
  refine ⟨rfl, fun k l => conn_addE, fun c k => ?_, fun k => ?_⟩
  · constructor
    · rintro ⟨hc, u, hu, hcu⟩
      rcases conn_addE.1 hu with h | ⟨h, h'⟩ | ⟨h, h'⟩
      · exact .inl ⟨hc, u, h, hcu⟩
      · exact .inr (.inl ⟨h, hc, u, h', hcu⟩)
      · exact .inr (.inr ⟨h, hc, u, h', hcu⟩)
    · rintro (⟨hc, u, h, hcu⟩ | ⟨h, hc, u, h', hcu⟩ | ⟨h, hc, u, h', hcu⟩)
      · exact ⟨hc, u, conn_addE.2 (.inl h), hcu⟩
      · exact ⟨hc, u, conn_addE.2 (.inr (.inl ⟨h, h'⟩)), hcu⟩
      · exact ⟨hc, u, conn_addE.2 (.inr (.inr ⟨h, h'⟩)), hcu⟩
  · constructor
    · rintro ⟨y, h | h | h⟩
      · exact .inl ⟨y, h⟩
      · have : k = a := by omega
        subst this; exact .inr (.inl .refl)
      · have : k = b := by omega
        subst this; exact .inr (.inr .refl)
    · rintro (⟨y, h⟩ | h | h)
      · exact ⟨y, .inl h⟩
      · rcases Conn.first h with h | ⟨y, hy⟩
        · exact ⟨s + b, .inr (.inl ⟨h, rfl⟩)⟩
        · exact ⟨y, .inl hy⟩
      · rcases Conn.first h with h | ⟨y, hy⟩
        · exact ⟨s + a, .inr (.inr ⟨h, rfl⟩)⟩
        · exact ⟨y, .inl hy⟩

/-! ### `initialMate` -/

theorem rootOf_ok (G : Graph) (c : Nat) : ∀ n v, 1 ≤ v → v ≤ n → G.color v = c → v ≤ fbRootOf G c n ∧ fbRootOf G c n ≤ n ∧ G.color (fbRootOf G c n) = c
  | 0, v, h1, h2, _ => by omega
  | n + 1, v, h1, h2, h => by
    unfold fbRootOf
    by_cases hc : G.color (n + 1) = c
    · rw [if_pos hc]; exact ⟨h2, Nat.le_refl _, hc⟩
    · rw [if_neg hc]
      have : v ≠ n + 1 := fun hv => hc (hv ▸ h)
      have := rootOf_ok G c n v h1 (by omega) h
      omega

theorem init_val (hv : G.vMax ≤ 32766) {s k : Nat} (h1 : 1 ≤ s + k) (h2 : s + k ≤ G.vMax) (hcol : ∀ v, v = 0 ∨ G.vMax < v → G.color v = 0) (hfresh : ∀ y, ¬ A (s + k) y)
    (hold : ∀ t u, Conn A (s + t) u → u = s + t ∨ t ≤ k) : HVal (world G A s) k (fbInit G (s + k)).hoc ∧ (fbInit G (s + k)).nxt = 0 := by
  have hself : ∀ u, Conn A (s + k) u → u = s + k := by
    intro u hu
    rcases Conn.first hu with h | ⟨y, hy⟩
    · exact h.symm
    · exact absurd hy (hfresh y)
  unfold fbInit
  rw [if_neg (by omega), if_pos h2]
  refine ⟨?_, rfl⟩
  dsimp only
  by_cases hc : 0 < G.color (s + k)
  · rw [if_pos hc]
    obtain ⟨r1, r2, r3⟩ := rootOf_ok G (G.color (s + k)) G.vMax (s + k) h1 h2 rfl
    rw [wrap16_eq (by omega) (by omega)]
    refine .inl ⟨G.color (s + k), fbRootOf G (G.color (s + k)) G.vMax - s, ⟨by omega, _, .refl, rfl⟩, ⟨⟨by omega, s + (fbRootOf G (G.color (s + k)) G.vMax - s), .refl, ?_⟩, ?_⟩, by omega⟩
    · rw [show s + (fbRootOf G (G.color (s + k)) G.vMax - s) = fbRootOf G (G.color (s + k)) G.vMax by omega]
      exact r3
    · rintro t ⟨_, u, hu, hcu⟩
      rcases hold t u hu with h | h
      · have hur : 1 ≤ u ∧ u ≤ G.vMax := by
          apply Classical.byContradiction
          intro hn
          have := hcol u (by omega)
          omega
        have := (rootOf_ok G (G.color (s + k)) G.vMax u hur.1 hur.2 hcu).1
        omega
      · omega
  · rw [if_neg hc, show wrap16 fbUnc = fbUnc from by decide]
    refine .inr ⟨?_, .inr ⟨fun ⟨y, hy⟩ => hfresh y hy, rfl⟩⟩
    rintro c ⟨hc0, u, hu, hcu⟩
    rw [hself u hu] at hcu
    omega

theorem init_out (hH : Sp.Hyp G) (hv : G.vMax ≤ 32766) {e : EdgeInfo} (he : G.info[i]? = some e) (hA : Upto G A i) (k : Nat) (h1 : sz G ≤ k) (h2 : k < (world G A e.v0).L) :
    HVal (world G A e.v0) k (fbInit G (e.v0 + k)).hoc ∧ (fbInit G (e.v0 + k)).nxt = 0 := by
  have h2' : k < G.vMax + 1 - e.v0 := h2
  have := edge_lt hH he
  refine init_val hv (by omega) (by omega) hH.ok.color_out (fun y hy => ?_) fun t u hu => ?_
  · have := (hA.win hH he hy (by omega)).1
    omega
  · rcases Conn.first hu with h | ⟨y, hy⟩
    · exact .inl h.symm
    · have := (hA.win hH he hy (by omega)).1
      exact .inr (by omega)

/-- the array of the root -/
theorem init_enc (hH : Sp.Hyp G) (hv : G.vMax ≤ 32766) {e : EdgeInfo} (he : G.info[0]? = some e) :
    Enc (world G (fun _ _ => False) e.v0) (sz G) ((List.range G.maxFrontierSize.toNat).map fun k => fbInit G (e.v0 + k)) := by
  have hone : ∀ {x y : Nat}, Conn (fun _ _ => False) x y → x = y := by
    intro x y h
    rcases Conn.first h with h | ⟨_, h⟩
    · exact h
    · exact h.elim
  refine ⟨by simp [sz], fun k h1 h2 => ⟨fbInit G (e.v0 + k), ?_, ?_⟩⟩
  · rw [List.getElem?_map, List.getElem?_range (by unfold sz at h2; omega)]; rfl
  · have h1' : k < G.vMax + 1 - e.v0 := h1
    have := edge_lt hH he
    obtain ⟨a, b⟩ := init_val (A := fun _ _ => False) (k := k) (s := e.v0) hv (by omega) (by omega) hH.ok.color_out (fun y hy => hy) fun t u hu => .inl (hone hu).symm
    refine ⟨⟨k, ⟨.refl, fun j hj hr => ?_⟩, .inl ⟨rfl, a⟩⟩, .inr ⟨fun u hu hr => ?_, b⟩⟩
    · have := hone hr; omega
    · have := hone hr; omega

end TdZdd.Fb
