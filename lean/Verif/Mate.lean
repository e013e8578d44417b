import Verif.Semantics

/-! Ends of paths in a graph to which edges are added one by one: the idea behind `mate` in `NumlinZdd.cpp`. Nothing here refers to the code. -/

namespace TdZdd.Nl

variable {V : Type}

/-- connected by edges of `A` -/
inductive Conn (A : V → V → Prop) (x : V) : V → Prop
  | refl : Conn A x x
  | tail {y z : V} : Conn A x y → A y z → Conn A x z

variable {A B : V → V → Prop}

theorem Conn.trans {x y z : V} (h : Conn A x y) (h' : Conn A y z) : Conn A x z := by
  induction h' with
  | refl => exact h
  | tail _ hyz ih => exact .tail ih hyz

theorem Conn.one {x y : V} (h : A x y) : Conn A x y := .tail .refl h

theorem Conn.symm (hs : ∀ x y, A x y → A y x) {x y : V} (h : Conn A x y) : Conn A y x := by
  induction h with
  | refl => exact .refl
  | tail _ hyz ih => exact (Conn.one (hs _ _ hyz)).trans ih

theorem Conn.mono (hAB : ∀ x y, A x y → B x y) {x y : V} (h : Conn A x y) : Conn B x y := by
  induction h with
  | refl => exact .refl
  | tail _ hyz ih => exact .tail ih (hAB _ _ hyz)

/-- a set that is closed under edges -/
theorem Conn.stay {P : V → Prop} (hP : ∀ x y, P x → A x y → P y) {x y : V} (h : Conn A x y) (hx : P x) : P y := by
  induction h with
  | refl => exact hx
  | tail _ hyz ih => exact hP _ _ ih hyz

theorem Conn.alone {x y : V} (h : Conn A x y) (hx : ∀ z, ¬ A x z) : y = x :=
  h.stay (P := fun z => z = x) (fun u w hu huw => by subst hu; exact absurd huw (hx w)) rfl

/-- one more edge -/
def addE (A : V → V → Prop) (x y : V) (u w : V) : Prop := A u w ∨ (u = x ∧ w = y) ∨ (u = y ∧ w = x)

theorem addE_symm (hs : ∀ x y, A x y → A y x) {x y : V} : ∀ u w, addE A x y u w → addE A x y w u := by
  rintro u w (h | ⟨rfl, rfl⟩ | ⟨rfl, rfl⟩)
  · exact .inl (hs _ _ h)
  · exact .inr (.inr ⟨rfl, rfl⟩)
  · exact .inr (.inl ⟨rfl, rfl⟩)

theorem addE_swap {x y : V} : addE A x y = addE A y x := by
  funext u w
  apply propext
  unfold addE
  constructor
  · exact fun h => h.imp id Or.symm
  · exact fun h => h.imp id Or.symm

theorem conn_addE {x y u v : V} : Conn (addE A x y) u v ↔ Conn A u v ∨ (Conn A u x ∧ Conn A y v) ∨ (Conn A u y ∧ Conn A x v) := by
  constructor
  · intro h
    induction h with
    | refl => exact .inl .refl
    | tail _ hyz ih =>
      rcases hyz with h | ⟨rfl, rfl⟩ | ⟨rfl, rfl⟩
      · exact ih.imp (fun g => g.tail h) (Or.imp (fun g => ⟨g.1, g.2.tail h⟩) fun g => ⟨g.1, g.2.tail h⟩)
      · rcases ih with g | g | g
        · exact .inr (.inl ⟨g, .refl⟩)
        · exact .inr (.inl ⟨g.1, .refl⟩)
        · exact .inl g.1
      · rcases ih with g | g | g
        · exact .inr (.inr ⟨g, .refl⟩)
        · exact .inl g.1
        · exact .inr (.inr ⟨g.1, .refl⟩)
  · have hm : ∀ {u v}, Conn A u v → Conn (addE A x y) u v := fun h => h.mono fun _ _ => .inl
    rintro (h | ⟨h, h'⟩ | ⟨h, h'⟩)
    · exact hm h
    · exact ((hm h).tail (.inr (.inl ⟨rfl, rfl⟩))).trans (hm h')
    · exact ((hm h).tail (.inr (.inr ⟨rfl, rfl⟩))).trans (hm h')

/-- what is known about a vertex -/
inductive End (V : Type)
  /-- no more edges are allowed -/
  | full
  /-- one end of a path without numbers; the other end (the vertex itself if it has no edge) -/
  | vert (v : V)
  /-- the open end of a path to a number -/
  | num (t : Nat)

/-- The ends of the paths of `A` are as in `M`, there is no cycle, and no path joins different numbers. -/
structure MInv (num : V → Nat) (A : V → V → Prop) (M : V → End V) : Prop where
  symm : ∀ x y, A x y → A y x
  vert : ∀ x y, M x = .vert y → M y = .vert x ∧ Conn A x y ∧ ∀ z, Conn A x z → num z = 0 ∧ (z = x ∨ z = y ∨ M z = .full)
  numb : ∀ x t, M x = .num t → 0 < t ∧ (∃ z, Conn A x z ∧ num z = t) ∧ ∀ z, Conn A x z → (num z = 0 ∨ num z = t) ∧ (z = x ∨ M z = .full)
  full : ∀ x, M x = .full → ∃ z, Conn A x z ∧ (0 < num z ∨ M z ≠ .full)
  same : ∀ x y, Conn A x y → 0 < num x → 0 < num y → num x = num y

variable [DecidableEq V]

def upd (M : V → End V) (x : V) (e : End V) : V → End V := fun z => if z = x then e else M z

theorem upd_self {M : V → End V} {x : V} {e : End V} : upd M x e x = e := if_pos rfl
theorem upd_ne {M : V → End V} {x z : V} {e : End V} (h : z ≠ x) : upd M x e z = M z := if_neg h

/-- the ends after joining `x` and `y` -/
def joinM (M : V → End V) (x y : V) : V → End V :=
  match M x, M y with
  | .vert u, .vert w => upd (upd (upd (upd M x .full) y .full) u (.vert w)) w (.vert u)
  | .vert u, .num t => upd (upd (upd M x .full) y .full) u (.num t)
  | .num s, .vert w => upd (upd (upd M x .full) y .full) w (.num s)
  | _, _ => upd (upd M x .full) y .full

variable {num : V → Nat} {M : V → End V} {x y : V}

omit [DecidableEq V] in
/-- a component without `x` and `y` does not change -/
theorem conn_off (u z : V) (hx : ¬ Conn A u x) (hy : ¬ Conn A u y) : Conn (addE A x y) u z ↔ Conn A u z := by
  rw [conn_addE]
  exact ⟨fun h => h.elim id fun h => h.elim (fun h => absurd h.1 hx) fun h => absurd h.1 hy, .inl⟩

omit [DecidableEq V] in
theorem join_cycle (h : MInv num A M) (hxy : M x = .vert y) : ∀ z, Conn (addE A x y) x z → num z = 0 ∧ (z = x ∨ z = y ∨ M z = .full) := by
  intro z hz
  obtain ⟨_, hc, hall⟩ := h.vert x y hxy
  rcases conn_addE.1 hz with h' | ⟨_, h'⟩ | ⟨_, h'⟩
  · exact hall z h'
  · exact hall z (hc.trans h')
  · exact hall z h'

omit [DecidableEq V] in
theorem join_clash (h : MInv num A M) {s t : Nat} (hs : M x = .num s) (ht : M y = .num t) : ∃ z w, Conn (addE A x y) z w ∧ num z = s ∧ num w = t ∧ 0 < s ∧ 0 < t := by
  obtain ⟨h1, ⟨z, hz, ez⟩, _⟩ := h.numb x s hs
  obtain ⟨h2, ⟨w, hw, ew⟩, _⟩ := h.numb y t ht
  exact ⟨z, w, conn_addE.2 (.inr (.inl ⟨hz.symm h.symm, hw⟩)), ez, ew, h1, h2⟩

theorem upd2 (z : V) : upd (upd M x .full) y .full z = if z = x ∨ z = y then .full else M z := by
  unfold upd
  by_cases e1 : z = y
  · rw [if_pos e1, if_pos (.inr e1)]
  · by_cases e2 : z = x
    · rw [if_neg e1, if_pos e2, if_pos (.inl e2)]
    · rw [if_neg e1, if_neg e2, if_neg (fun h => h.elim e2 e1)]

/-- two open numbers -/
theorem join_nn (h : MInv num A M) {s : Nat} (hs : M x = .num s) (ht : M y = .num s) : MInv num (addE A x y) (joinM M x y) := by
  obtain ⟨hp, ⟨zx, hzx, ex⟩, hx⟩ := h.numb x s hs
  obtain ⟨_, ⟨zy, hzy, ey⟩, hy⟩ := h.numb y s ht
  have hsy := h.symm
  have e : joinM M x y = upd (upd M x .full) y .full := by unfold joinM; rw [hs, ht]
  rw [e]
  have hM : ∀ z, upd (upd M x .full) y .full z = if z = x ∨ z = y then .full else M z := upd2
  have hfull : ∀ z, M z = .full → upd (upd M x .full) y .full z = .full := fun z hz => by rw [hM]; split <;> first | rfl | exact hz
  have hne' : ∀ {u e}, upd (upd M x .full) y .full u = e → e ≠ .full → u ≠ x ∧ u ≠ y ∧ M u = e := fun {u e} hu he => by
    rw [hM] at hu
    split at hu
    · exact absurd hu.symm he
    · next hn => exact ⟨fun h => hn (.inl h), fun h => hn (.inr h), hu⟩
  have hlab : ∀ z w, Conn (addE A x y) z w → Conn A z w ∨ ((Conn A x z ∨ Conn A y z) ∧ (Conn A x w ∨ Conn A y w)) := fun z w hzw => by
    rcases conn_addE.1 hzw with h' | ⟨h', h''⟩ | ⟨h', h''⟩
    · exact .inl h'
    · exact .inr ⟨.inl (h'.symm hsy), .inr h''⟩
    · exact .inr ⟨.inr (h'.symm hsy), .inl h''⟩
  constructor
  · exact addE_symm hsy
  · intro u w hu
    obtain ⟨ux, uy, hu⟩ := hne' hu (by simp)
    obtain ⟨hw, hc, hall⟩ := h.vert u w hu
    have nx : ¬ Conn A u x := fun hc => by
      rcases (hall x hc).2 with e | e | e
      · exact ux e.symm
      · rw [← e, hs] at hw; cases hw
      · rw [hs] at e; cases e
    have ny : ¬ Conn A u y := fun hc => by
      rcases (hall y hc).2 with e | e | e
      · exact uy e.symm
      · rw [← e, ht] at hw; cases hw
      · rw [ht] at e; cases e
    refine ⟨?_, (conn_off u w nx ny).2 hc, fun z hz => ?_⟩
    · rw [hM, if_neg]
      · exact hw
      · rintro (e | e)
        · rw [e, hs] at hw; cases hw
        · rw [e, ht] at hw; cases hw
    · have := hall z ((conn_off u z nx ny).1 hz)
      exact ⟨this.1, this.2.imp id (Or.imp id (hfull z))⟩
  · intro u t hu
    obtain ⟨ux, uy, hu⟩ := hne' hu (by simp)
    obtain ⟨h0, ⟨z, hz, ez⟩, hall⟩ := h.numb u t hu
    have nx : ¬ Conn A u x := fun hc => by
      rcases (hall x hc).2 with e | e
      · exact ux e.symm
      · rw [hs] at e; cases e
    have ny : ¬ Conn A u y := fun hc => by
      rcases (hall y hc).2 with e | e
      · exact uy e.symm
      · rw [ht] at e; cases e
    refine ⟨h0, ⟨z, (conn_off u z nx ny).2 hz, ez⟩, fun z hz => ?_⟩
    have := hall z ((conn_off u z nx ny).1 hz)
    exact ⟨this.1, this.2.imp id (hfull z)⟩
  · intro u hu
    have hm : ∀ {u v}, Conn A u v → Conn (addE A x y) u v := fun h => h.mono fun _ _ => .inl
    by_cases ex' : Conn A u x
    · exact ⟨zx, hm (ex'.trans hzx), .inl (by omega)⟩
    by_cases ey' : Conn A u y
    · exact ⟨zy, hm (ey'.trans hzy), .inl (by omega)⟩
    have hu' : M u = .full := by
      rw [hM, if_neg] at hu
      · exact hu
      · rintro (e | e)
        · exact ex' (e ▸ .refl)
        · exact ey' (e ▸ .refl)
    obtain ⟨z, hz, h'⟩ := h.full u hu'
    refine ⟨z, hm hz, h'.imp id fun hf => ?_⟩
    rw [hM, if_neg]
    · exact hf
    · rintro (e | e)
      · exact ex' (e ▸ hz)
      · exact ey' (e ▸ hz)
  · intro z w hzw h1 h2
    rcases hlab z w hzw with h' | ⟨h', h''⟩
    · exact h.same z w h' h1 h2
    · have a1 : num z = s := by
        rcases h' with g | g
        · rcases (hx z g).1 with e | e <;> omega
        · rcases (hy z g).1 with e | e <;> omega
      have a2 : num w = s := by
        rcases h'' with g | g
        · rcases (hx w g).1 with e | e <;> omega
        · rcases (hy w g).1 with e | e <;> omega
      omega

/-- two paths without numbers -/
theorem join_vv (h : MInv num A M) (hne : x ≠ y) {u w : V} (hu : M x = .vert u) (hw : M y = .vert w) (hcyc : u ≠ y) : MInv num (addE A x y) (joinM M x y) := by
  obtain ⟨hu', hxu, hx⟩ := h.vert x u hu
  obtain ⟨hw', hyw, hy⟩ := h.vert y w hw
  have hsy := h.symm
  have hwx : w ≠ x := fun e => by rw [e, hu] at hw'; cases hw'; exact hcyc rfl
  have huw : u ≠ w := fun e => by rw [← e, hu'] at hw'; cases hw'; exact hne rfl
  have e : joinM M x y = upd (upd (upd (upd M x .full) y .full) u (.vert w)) w (.vert u) := by unfold joinM; rw [hu, hw]
  rw [e]
  have hM : ∀ z, upd (upd (upd (upd M x .full) y .full) u (.vert w)) w (.vert u) z = if z = w then .vert u else if z = u then .vert w else if z = x ∨ z = y then .full else M z := fun z => by
    show (if z = w then _ else if z = u then _ else upd (upd M x .full) y .full z) = _
    rw [upd2]
  generalize upd (upd (upd (upd M x .full) y .full) u (.vert w)) w (.vert u) = M' at hM
  have hm : ∀ {u v}, Conn A u v → Conn (addE A x y) u v := fun h => h.mono fun _ _ => .inl
  have hfull : ∀ z, M z = .full → M' z = .full := fun z hz => by
    rw [hM, if_neg (fun e => by rw [e, hw'] at hz; cases hz), if_neg (fun e => by rw [e, hu'] at hz; cases hz)]
    split <;> first | rfl | exact hz
  have hold : ∀ {z}, z ≠ u → z ≠ w → z ≠ x → z ≠ y → M' z = M z := fun {z} h1 h2 h3 h4 => by
    rw [hM, if_neg h2, if_neg h1, if_neg (fun h => h.elim h3 h4)]
  have hin : ∀ z, Conn A x z ∨ Conn A y z → num z = 0 ∧ (z = u ∨ z = w ∨ M' z = .full) := fun z hz => by
    have hfx : x = u ∨ M' x = .full := by
      by_cases e : x = u
      · exact .inl e
      · exact .inr (by rw [hM, if_neg (Ne.symm hwx), if_neg e, if_pos (.inl rfl)])
    have hfy : y = w ∨ M' y = .full := by
      by_cases e : y = w
      · exact .inl e
      · exact .inr (by rw [hM, if_neg e, if_neg (Ne.symm hcyc), if_pos (.inr rfl)])
    rcases hz with hz | hz
    · refine ⟨(hx z hz).1, ?_⟩
      rcases (hx z hz).2 with rfl | rfl | e
      · exact hfx.imp id .inr
      · exact .inl rfl
      · exact .inr (.inr (hfull z e))
    · refine ⟨(hy z hz).1, ?_⟩
      rcases (hy z hz).2 with rfl | rfl | e
      · exact .inr hfy
      · exact .inr (.inl rfl)
      · exact .inr (.inr (hfull z e))
  have hlab : ∀ {z w}, Conn (addE A x y) z w → Conn A z w ∨ ((Conn A x z ∨ Conn A y z) ∧ (Conn A x w ∨ Conn A y w)) := fun {z w} hzw => by
    rcases conn_addE.1 hzw with h' | ⟨h', h''⟩ | ⟨h', h''⟩
    · exact .inl h'
    · exact .inr ⟨.inl (h'.symm hsy), .inr h''⟩
    · exact .inr ⟨.inr (h'.symm hsy), .inl h''⟩
  have hcls : ∀ {v z}, Conn A x v ∨ Conn A y v → Conn (addE A x y) v z → Conn A x z ∨ Conn A y z := fun {v z} hv hz => by
    rcases hlab hz with g | g
    · exact hv.imp (fun hv => hv.trans g) fun hv => hv.trans g
    · exact g.2
  have huwc : Conn (addE A x y) u w := conn_addE.2 (.inr (.inl ⟨hxu.symm hsy, hyw⟩))
  have off : ∀ {v}, v ≠ u → v ≠ w → M' v ≠ .full → ¬ (Conn A x v ∨ Conn A y v) := fun {v} h1 h2 h3 hv => by
    rcases (hin v hv).2 with e | e | e
    · exact h1 e
    · exact h2 e
    · exact h3 e
  have off' : ∀ {v}, ¬ (Conn A x v ∨ Conn A y v) → v ≠ x ∧ v ≠ y ∧ v ≠ u ∧ v ≠ w ∧ ∀ z, Conn (addE A x y) v z ↔ Conn A v z := fun {v} hv =>
    ⟨fun e => hv (.inl (e ▸ .refl)), fun e => hv (.inr (e ▸ .refl)), fun e => hv (.inl (e ▸ hxu)), fun e => hv (.inr (e ▸ hyw)),
      fun z => conn_off v z (fun g => hv (.inl (g.symm hsy))) fun g => hv (.inr (g.symm hsy))⟩
  have tr : ∀ {v z}, ¬ (Conn A x v ∨ Conn A y v) → Conn A v z → ¬ (Conn A x z ∨ Conn A y z) := fun {v z} hv hz g =>
    hv (g.imp (fun g => g.trans (hz.symm hsy)) fun g => g.trans (hz.symm hsy))
  constructor
  · exact addE_symm hsy
  · intro v v' hv
    by_cases e1 : v = w
    · rw [hM, if_pos e1] at hv
      cases hv
      subst e1
      exact ⟨by rw [hM, if_neg huw, if_pos rfl], huwc.symm (addE_symm hsy), fun z hz => by
        obtain ⟨g1, g2⟩ := hin z (hcls (.inr hyw) hz)
        exact ⟨g1, g2.elim (fun e => .inr (.inl e)) fun g => g.elim .inl fun g => .inr (.inr g)⟩⟩
    by_cases e2 : v = u
    · rw [hM, if_neg e1, if_pos e2] at hv
      cases hv
      subst e2
      exact ⟨by rw [hM, if_pos rfl], huwc, fun z hz => hin z (hcls (.inl hxu) hz)⟩
    have hv0 := off e2 e1 (by rw [hv]; simp)
    obtain ⟨o1, o2, o3, o4, o5⟩ := off' hv0
    rw [hold o3 o4 o1 o2] at hv
    obtain ⟨g1, g2, g3⟩ := h.vert v v' hv
    obtain ⟨p1, p2, p3, p4, _⟩ := off' (tr hv0 g2)
    refine ⟨(hold p3 p4 p1 p2).trans g1, (o5 _).2 g2, fun z hz => ?_⟩
    have := g3 z ((o5 z).1 hz)
    exact ⟨this.1, this.2.imp id (Or.imp id (hfull z))⟩
  · intro v t hv
    have e1 : v ≠ w := fun e => by rw [hM, if_pos e] at hv; cases hv
    have e2 : v ≠ u := fun e => by rw [hM, if_neg e1, if_pos e] at hv; cases hv
    have hv0 := off e2 e1 (by rw [hv]; simp)
    obtain ⟨o1, o2, o3, o4, o5⟩ := off' hv0
    rw [hold o3 o4 o1 o2] at hv
    obtain ⟨g0, ⟨z, hz, ez⟩, g3⟩ := h.numb v t hv
    refine ⟨g0, ⟨z, (o5 z).2 hz, ez⟩, fun z hz => ?_⟩
    have := g3 z ((o5 z).1 hz)
    exact ⟨this.1, this.2.imp id (hfull z)⟩
  · intro v hv
    have hu2 : M' u ≠ .full := by rw [hM, if_neg huw, if_pos rfl]; simp
    by_cases g : Conn A x v ∨ Conn A y v
    · refine ⟨u, ?_, .inr hu2⟩
      have : Conn (addE A x y) x v := g.elim hm fun g => conn_addE.2 (.inr (.inl ⟨.refl, g⟩))
      exact (this.symm (addE_symm hsy)).trans (hm hxu)
    · obtain ⟨o1, o2, o3, o4, o5⟩ := off' g
      rw [hold o3 o4 o1 o2] at hv
      obtain ⟨z, hz, h'⟩ := h.full v hv
      obtain ⟨p1, p2, p3, p4, _⟩ := off' (tr g hz)
      exact ⟨z, (o5 z).2 hz, h'.imp id fun h' => by rw [hold p3 p4 p1 p2]; exact h'⟩
  · intro z z' hzz h1 h2
    rcases hlab hzz with g | ⟨g, _⟩
    · exact h.same z z' g h1 h2
    · have := (hin z g).1
      omega

/-- a path without numbers and a path to a number -/
theorem join_vn (h : MInv num A M) (hne : x ≠ y) {u : V} {t : Nat} (hu : M x = .vert u) (ht : M y = .num t) : MInv num (addE A x y) (joinM M x y) := by
  obtain ⟨hu', hxu, hx⟩ := h.vert x u hu
  obtain ⟨ht0, ⟨w, hyw, ew⟩, hy⟩ := h.numb y t ht
  have hsy := h.symm
  have hcyc : u ≠ y := fun e => by rw [e, ht] at hu'; cases hu'
  have e : joinM M x y = upd (upd (upd M x .full) y .full) u (.num t) := by unfold joinM; rw [hu, ht]
  rw [e]
  have hM : ∀ z, upd (upd (upd M x .full) y .full) u (.num t) z = if z = u then .num t else if z = x ∨ z = y then .full else M z := fun z => by
    show (if z = u then _ else upd (upd M x .full) y .full z) = _
    rw [upd2]
  generalize upd (upd (upd M x .full) y .full) u (.num t) = M' at hM
  have hm : ∀ {u v}, Conn A u v → Conn (addE A x y) u v := fun h => h.mono fun _ _ => .inl
  have hfull : ∀ z, M z = .full → M' z = .full := fun z hz => by
    rw [hM, if_neg (fun e => by rw [e, hu'] at hz; cases hz)]
    split <;> first | rfl | exact hz
  have hold : ∀ {z}, z ≠ u → z ≠ x → z ≠ y → M' z = M z := fun {z} h1 h3 h4 => by
    rw [hM, if_neg h1, if_neg (fun h => h.elim h3 h4)]
  have hin : ∀ z, Conn A x z ∨ Conn A y z → (num z = 0 ∨ num z = t) ∧ (z = u ∨ M' z = .full) := fun z hz => by
    have hfx : x = u ∨ M' x = .full := by
      by_cases e : x = u
      · exact .inl e
      · exact .inr (by rw [hM, if_neg e, if_pos (.inl rfl)])
    have hfy : M' y = .full := by rw [hM, if_neg (Ne.symm hcyc), if_pos (.inr rfl)]
    rcases hz with hz | hz
    · refine ⟨.inl (hx z hz).1, ?_⟩
      rcases (hx z hz).2 with rfl | rfl | e
      · exact hfx
      · exact .inl rfl
      · exact .inr (hfull z e)
    · refine ⟨(hy z hz).1, ?_⟩
      rcases (hy z hz).2 with rfl | e
      · exact .inr hfy
      · exact .inr (hfull z e)
  have hlab : ∀ {z w}, Conn (addE A x y) z w → Conn A z w ∨ ((Conn A x z ∨ Conn A y z) ∧ (Conn A x w ∨ Conn A y w)) := fun {z w} hzw => by
    rcases conn_addE.1 hzw with h' | ⟨h', h''⟩ | ⟨h', h''⟩
    · exact .inl h'
    · exact .inr ⟨.inl (h'.symm hsy), .inr h''⟩
    · exact .inr ⟨.inr (h'.symm hsy), .inl h''⟩
  have hcls : ∀ {v z}, Conn A x v ∨ Conn A y v → Conn (addE A x y) v z → Conn A x z ∨ Conn A y z := fun {v z} hv hz => by
    rcases hlab hz with g | g
    · exact hv.imp (fun hv => hv.trans g) fun hv => hv.trans g
    · exact g.2
  have off : ∀ {v}, v ≠ u → M' v ≠ .full → ¬ (Conn A x v ∨ Conn A y v) := fun {v} h1 h3 hv => by
    rcases (hin v hv).2 with e | e
    · exact h1 e
    · exact h3 e
  have off' : ∀ {v}, ¬ (Conn A x v ∨ Conn A y v) → v ≠ x ∧ v ≠ y ∧ v ≠ u ∧ ∀ z, Conn (addE A x y) v z ↔ Conn A v z := fun {v} hv =>
    ⟨fun e => hv (.inl (e ▸ .refl)), fun e => hv (.inr (e ▸ .refl)), fun e => hv (.inl (e ▸ hxu)),
      fun z => conn_off v z (fun g => hv (.inl (g.symm hsy))) fun g => hv (.inr (g.symm hsy))⟩
  have tr : ∀ {v z}, ¬ (Conn A x v ∨ Conn A y v) → Conn A v z → ¬ (Conn A x z ∨ Conn A y z) := fun {v z} hv hz g =>
    hv (g.imp (fun g => g.trans (hz.symm hsy)) fun g => g.trans (hz.symm hsy))
  constructor
  · exact addE_symm hsy
  · intro v v' hv
    have e2 : v ≠ u := fun e => by rw [hM, if_pos e] at hv; cases hv
    have hv0 := off e2 (by rw [hv]; simp)
    obtain ⟨o1, o2, o3, o5⟩ := off' hv0
    rw [hold o3 o1 o2] at hv
    obtain ⟨g1, g2, g3⟩ := h.vert v v' hv
    obtain ⟨p1, p2, p3, _⟩ := off' (tr hv0 g2)
    refine ⟨(hold p3 p1 p2).trans g1, (o5 _).2 g2, fun z hz => ?_⟩
    have := g3 z ((o5 z).1 hz)
    exact ⟨this.1, this.2.imp id (Or.imp id (hfull z))⟩
  · intro v t' hv
    by_cases e2 : v = u
    · rw [hM, if_pos e2] at hv
      cases hv
      subst e2
      exact ⟨ht0, ⟨w, conn_addE.2 (.inr (.inl ⟨hxu.symm hsy, hyw⟩)), ew⟩, fun z hz => hin z (hcls (.inl hxu) hz)⟩
    have hv0 := off e2 (by rw [hv]; simp)
    obtain ⟨o1, o2, o3, o5⟩ := off' hv0
    rw [hold o3 o1 o2] at hv
    obtain ⟨g0, ⟨z, hz, ez⟩, g3⟩ := h.numb v t' hv
    refine ⟨g0, ⟨z, (o5 z).2 hz, ez⟩, fun z hz => ?_⟩
    have := g3 z ((o5 z).1 hz)
    exact ⟨this.1, this.2.imp id (hfull z)⟩
  · intro v hv
    by_cases g : Conn A x v ∨ Conn A y v
    · refine ⟨w, ?_, .inl (by omega)⟩
      have : Conn (addE A x y) y v := g.elim (fun g => conn_addE.2 (.inr (.inr ⟨.refl, g⟩))) hm
      exact (this.symm (addE_symm hsy)).trans (hm hyw)
    · obtain ⟨o1, o2, o3, o5⟩ := off' g
      rw [hold o3 o1 o2] at hv
      obtain ⟨z, hz, h'⟩ := h.full v hv
      obtain ⟨p1, p2, p3, _⟩ := off' (tr g hz)
      exact ⟨z, (o5 z).2 hz, h'.imp id fun h' => by rw [hold p3 p1 p2]; exact h'⟩
  · intro z z' hzz h1 h2
    rcases hlab hzz with g | ⟨g, g'⟩
    · exact h.same z z' g h1 h2
    · have a1 := (hin z g).1
      have a2 := (hin z' g').1
      omega

theorem joinM_swap (hne : x ≠ y) {s : Nat} {w : V} (hs : M x = .num s) (hw : M y = .vert w) : joinM M x y = joinM M y x := by
  unfold joinM
  rw [hs, hw]
  funext z
  unfold upd
  by_cases e1 : z = w
  · simp only [if_pos e1]
  · simp only [if_neg e1]
    by_cases e2 : z = y
    · rw [if_pos e2, if_neg (fun e => hne (e.symm.trans e2)), if_pos e2]
    · rw [if_neg e2, if_neg e2]

/-- Two different vertices that may have another edge are joined: the new ends, unless a cycle is closed or two different numbers are joined. -/
theorem join_ok (h : MInv num A M) (hne : x ≠ y) (hx : M x ≠ .full) (hy : M y ≠ .full) (hcyc : M x ≠ .vert y) (hs : ∀ s t, M x = .num s → M y = .num t → s = t) :
    MInv num (addE A x y) (joinM M x y) := by
  match e1 : M x, e2 : M y with
  | .full, _ => exact absurd e1 hx
  | _, .full => exact absurd e2 hy
  | .num s, .num t =>
    have := hs s t e1 e2
    subst this
    exact join_nn h e1 e2
  | .vert u, .vert w => exact join_vv h hne e1 e2 (fun e => hcyc (e ▸ e1))
  | .vert u, .num t => exact join_vn h hne e1 e2
  | .num s, .vert w =>
    rw [addE_swap, joinM_swap hne e1 e2]
    exact join_vn h (Ne.symm hne) e2 e1

/-- number of edges and of numbers at a vertex, as far as they matter -/
def kind (x : V) : End V → Nat
  | .full => 2
  | .vert y => if y = x then 0 else 1
  | .num _ => 1

theorem kind_vert (x y : V) : kind x (.vert y) = if y = x then 0 else 1 := rfl
theorem kind_num (x : V) (t : Nat) : kind x (.num t) = 1 := rfl
theorem kind_full (x : V) : kind x (.full) = 2 := rfl

theorem kind_join (h : MInv num A M) (hne : x ≠ y) (hx : M x ≠ .full) (hy : M y ≠ .full) (hcyc : M x ≠ .vert y) (z : V) :
    kind z (joinM M x y z) = kind z (M z) + if z = x ∨ z = y then 1 else 0 := by
  unfold joinM
  match e1 : M x, e2 : M y with
  | .full, _ => exact absurd e1 hx
  | _, .full => exact absurd e2 hy
  | .num s, .num t =>
    dsimp only [upd]
    by_cases g1 : z = y
    · subst g1; rw [if_pos rfl, if_pos (.inr rfl), e2]; rfl
    · by_cases g2 : z = x
      · subst g2; rw [if_neg g1, if_pos rfl, if_pos (.inl rfl), e1]; rfl
      · rw [if_neg g1, if_neg g2, if_neg (fun h => h.elim g2 g1)]; rfl
  | .vert u, .num t =>
    have hu := (h.vert x u e1).1
    have huy : u ≠ y := fun e => hcyc (e ▸ e1)
    dsimp only [upd]
    by_cases g1 : z = u
    · subst g1
      rw [if_pos rfl, hu]
      simp only [kind_vert, kind_num]
      by_cases g2 : z = x
      · rw [if_pos g2.symm, if_pos (.inl g2)]
      · rw [if_neg (Ne.symm g2), if_neg (fun h => h.elim g2 huy)]
    · rw [if_neg g1]
      by_cases g2 : z = y
      · subst g2; rw [if_pos rfl, if_pos (.inr rfl), e2]; rfl
      · by_cases g3 : z = x
        · subst g3; rw [if_neg g2, if_pos rfl, if_pos (.inl rfl), e1]; simp only [kind_vert, kind_full]; rw [if_neg (Ne.symm g1)]
        · rw [if_neg g2, if_neg g3, if_neg (fun h => h.elim g3 g2)]; rfl
  | .num s, .vert u =>
    have hu := (h.vert y u e2).1
    have hux : u ≠ x := fun e => by rw [e, e1] at hu; cases hu
    dsimp only [upd]
    by_cases g1 : z = u
    · subst g1
      rw [if_pos rfl, hu]
      simp only [kind_vert, kind_num]
      by_cases g2 : z = y
      · rw [if_pos g2.symm, if_pos (.inr g2)]
      · rw [if_neg (Ne.symm g2), if_neg (fun h => h.elim hux g2)]
    · rw [if_neg g1]
      by_cases g2 : z = y
      · subst g2; rw [if_pos rfl, if_pos (.inr rfl), e2]; simp only [kind_vert, kind_full]; rw [if_neg (Ne.symm g1)]
      · by_cases g3 : z = x
        · subst g3; rw [if_neg g2, if_pos rfl, if_pos (.inl rfl), e1]; rfl
        · rw [if_neg g2, if_neg g3, if_neg (fun h => h.elim g3 g2)]; rfl
  | .vert u, .vert w =>
    have hu := (h.vert x u e1).1
    have hw := (h.vert y w e2).1
    have huy : u ≠ y := fun e => hcyc (e ▸ e1)
    have hwx : w ≠ x := fun e => by rw [e, e1] at hw; cases hw; exact huy rfl
    have huw : u ≠ w := fun e => by rw [← e, hu] at hw; cases hw; exact hne rfl
    dsimp only [upd]
    by_cases g0 : z = w
    · subst g0
      rw [if_pos rfl, hw]
      simp only [kind_vert, kind_num]
      rw [if_neg huw]
      by_cases g2 : z = y
      · rw [if_pos g2.symm, if_pos (.inr g2)]
      · rw [if_neg (Ne.symm g2), if_neg (fun h => h.elim hwx g2)]
    rw [if_neg g0]
    by_cases g1 : z = u
    · subst g1
      rw [if_pos rfl, hu]
      simp only [kind_vert, kind_num]
      rw [if_neg (Ne.symm huw)]
      by_cases g2 : z = x
      · rw [if_pos g2.symm, if_pos (.inl g2)]
      · rw [if_neg (Ne.symm g2), if_neg (fun h => h.elim g2 huy)]
    · rw [if_neg g1]
      by_cases g2 : z = y
      · subst g2; rw [if_pos rfl, if_pos (.inr rfl), e2]; simp only [kind_vert, kind_full]; rw [if_neg (Ne.symm g0)]
      · by_cases g3 : z = x
        · subst g3; rw [if_neg g2, if_pos rfl, if_pos (.inl rfl), e1]; simp only [kind_vert, kind_full]; rw [if_neg (Ne.symm g1)]
        · rw [if_neg g2, if_neg g3, if_neg (fun h => h.elim g3 g2)]; rfl

/-- no edges yet -/
theorem mInv_init (num : V → Nat) : MInv num (fun _ _ => False) fun x => if num x = 0 then .vert x else .num (num x) := by
  have hc : ∀ {x y : V}, Conn (fun _ _ => False) x y → y = x := fun h => h.alone fun _ h => h
  constructor
  · exact fun _ _ h => h
  · intro x y h
    split at h
    · next e =>
      cases h
      exact ⟨if_pos e, .refl, fun z hz => by rw [hc hz]; exact ⟨e, .inl rfl⟩⟩
    · cases h
  · intro x t h
    split at h
    · cases h
    · next e =>
      cases h
      exact ⟨by omega, ⟨x, .refl, rfl⟩, fun z hz => by rw [hc hz]; exact ⟨.inr rfl, .inl rfl⟩⟩
  · intro x h
    split at h <;> cases h
  · intro x y h _ _
    rw [hc h]

end TdZdd.Nl
