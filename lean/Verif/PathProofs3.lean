import Verif.PathProofs2

/-! Proofs about `PathZdd` (3): the recursion over the edges, for paths and cycles alike. -/

namespace TdZdd.Sp

open Gr Deg

variable {G : Graph} {A : Nat → Nat → Prop} {i : Nat}

/-- the graph of the edges chosen by `a` among the first `i` -/
def adjA (G : Graph) (a : Asg 2) (i x y : Nat) : Prop := ∃ b, b < i ∧ a (G.info.length - b) = 1 ∧ Joins G b x y

theorem joins_get {b x y : Nat} {e : EdgeInfo} (he : G.info[b]? = some e) : Joins G b x y ↔ (x = e.v1 ∧ y = e.v2) ∨ (x = e.v2 ∧ y = e.v1) := by
  constructor
  · rintro ⟨e', he', h⟩
    rw [he] at he'
    injection he' with he'
    subst he'
    omega
  · intro h
    exact ⟨e, he, by omega⟩

theorem adjA_take {a : Asg 2} {e : EdgeInfo} (he : G.info[i]? = some e) (h : a (G.info.length - i) = 1) : adjA G a (i + 1) = addE (adjA G a i) e.v1 e.v2 := by
  funext x y
  apply propext
  constructor
  · rintro ⟨b, hb, ha, hj⟩
    by_cases hbi : b = i
    · subst hbi
      exact .inr ((joins_get he).1 hj)
    · exact .inl ⟨b, by omega, ha, hj⟩
  · rintro (⟨b, hb, ha, hj⟩ | hj)
    · exact ⟨b, by omega, ha, hj⟩
    · exact ⟨i, by omega, h, (joins_get he).2 hj⟩

theorem adjA_leave {a : Asg 2} (h : a (G.info.length - i) ≠ 1) : adjA G a (i + 1) = adjA G a i := by
  funext x y
  apply propext
  constructor
  · rintro ⟨b, hb, ha, hj⟩
    by_cases hbi : b = i
    · subst hbi; exact absurd ha h
    · exact ⟨b, by omega, ha, hj⟩
  · rintro ⟨b, hb, ha, hj⟩
    exact ⟨b, by omega, ha, hj⟩

theorem adjA_mono {a : Asg 2} {j x y : Nat} (hij : i ≤ j) (h : adjA G a i x y) : adjA G a j x y := by
  obtain ⟨b, hb, h⟩ := h
  exact ⟨b, by omega, h⟩

theorem adjA_split {a : Asg 2} {j x y : Nat} (h : adjA G a j x y) : adjA G a i x y ∨ ∃ b, i ≤ b ∧ a (G.info.length - b) = 1 ∧ Joins G b x y := by
  obtain ⟨b, hb, h⟩ := h
  rcases Nat.lt_or_ge b i with hlt | hge
  · exact .inl ⟨b, hlt, h⟩
  · exact .inr ⟨b, hge, h⟩

/-- every vertex is visited -/
def AllV (G : Graph) (T : Nat → Nat → Prop) : Prop := ∀ v, 1 ≤ v → v ≤ G.vMax → ∃ y, T v y

/-- degrees in a set of paths between coloured vertices, or in a cycle -/
structure DegOk (G : Graph) (T : Nat → Nat → Prop) : Prop where
  d0 : ∀ v y, T v y → G.color v = 0 → ∃ y', y' ≠ y ∧ T v y'
  d1 : ∀ v, G.color v ≠ 0 → ∃ y, T v y
  d1u : ∀ v y y', G.color v ≠ 0 → T v y → T v y' → y = y'
  d2 : ∀ v x y z, T v x → T v y → T v z → x = y ∨ y = z ∨ x = z

/-- what has to be shown of the goal `Valid` and an invariant `Part` of the partial solutions, for each type of specification -/
structure Sem (G : Graph) (cyc ham : Bool) (Valid Part : (Nat → Nat → Prop) → Prop) : Prop where
  deg : ∀ T, Valid T → DegOk G T
  fin : ∀ A i, Struct G A i → Part A → ¬ Valid A
  no : ∀ {A : Nat → Nat → Prop} {i : Nat} {e : EdgeInfo} {mate : List Int} {u1 u2 : Nat}, G.info[i]? = some e → Struct G A i → Part A → Enc G A i e.v0 mate → Pre G A e u1 u2 →
    typed G cyc ham mate e u1 u2 = .no → ∀ T, (∀ x y, addE A e.v1 e.v2 x y → T x y) → Valid T → (ham = true → AllV G T) → False
  yes : ∀ {A : Nat → Nat → Prop} {i : Nat} {e : EdgeInfo} {mate : List Int} {u1 u2 : Nat}, G.info[i]? = some e → Struct G A i → Part A → Enc G A i e.v0 mate → Pre G A e u1 u2 →
    typed G cyc ham mate e u1 u2 = .yes → Part (addE A e.v1 e.v2)
  hit : ∀ {A : Nat → Nat → Prop} {i : Nat} {e : EdgeInfo} {mate : List Int} {u1 u2 : Nat}, G.info[i]? = some e → Struct G A i → Part A → Enc G A i e.v0 mate → Pre G A e u1 u2 →
    typed G cyc ham mate e u1 u2 = .hit → Valid (addE A e.v1 e.v2) ∧ ∀ T, (∀ x y, addE A e.v1 e.v2 x y → T x y) → Valid T → ∀ x y, T x y → addE A e.v1 e.v2 x y

section
variable {a : Asg 2}

theorem not_takable (hH : Hyp G) (hi : i < G.info.length) {v y : Nat} (hj : Joins G i v y) {w : Int} (hm : MVal G (adjA G a i) i v w) (hta : a (G.info.length - i) = 1)
    (h : w = 0 ∨ ((∀ b, i < b → ¬ Uses G.info b v) ∧ w = v)) : ¬ DegOk G (adjA G a G.info.length) := by
  intro hD
  have hv := (Uses.range hH hj.uses.1).1
  have hT : adjA G a G.info.length v y := ⟨i, hi, hta, hj⟩
  have hnew : ∀ x, adjA G a i v x → x ≠ y := by
    rintro x ⟨b, hb, _, hj'⟩ rfl
    have := hj'.index hH hj
    omega
  have hup : ∀ x, adjA G a i v x → adjA G a G.info.length v x := fun x hx => adjA_mono (by omega) hx
  rcases h with h | ⟨hfin, hwv⟩
  · rcases hm with ⟨u, h1, h2, h3⟩ | ⟨_, h1 | ⟨h1, u, h2, h3⟩ | ⟨h1, h2, h3⟩⟩
    · have hu : 1 ≤ u := by
        by_cases huv : u = v
        · omega
        · obtain ⟨x, ⟨b, _, _, hj'⟩, _⟩ := h1.symm.one (Ne.symm huv)
          exact (Uses.range hH hj'.uses.1).1
      exact rep_ne hu (h2.symm.trans h)
    · obtain ⟨x, z, hxz, hx, hz, _⟩ := h1.two
      rcases hD.d2 v x z y (hup x hx) (hup z hz) hT with h | h | h
      · exact hxz h
      · exact hnew z hz h
      · exact hnew x hx h
    · obtain ⟨x, hx, _⟩ := h3.one h2
      exact hnew x hx (hD.d1u v x y h1 (hup x hx) hT)
    · obtain ⟨y', hne, hy'⟩ := hD.d0 v y hT h1
      rcases adjA_split (i := i) hy' with hy' | ⟨b, hb, _, hj'⟩
      · exact h2.alone y' hy'
      · have hbi := h3 b i hb (Nat.le_refl _) hj'.uses.1 hj.uses.1
        subst hbi
        exact hne (hj'.other hH hj)
  · obtain ⟨u, h1, h2, h3⟩ := hm.nonzero (by omega)
    obtain ⟨huv, hc⟩ := rep_nat (h2.symm.trans hwv)
    subst huv
    obtain ⟨y', hne, hy'⟩ := hD.d0 u y hT (hc hv)
    rcases adjA_split (i := i) hy' with hy' | ⟨b, hb, _, hj'⟩
    · exact h1.alone y' hy'
    · by_cases hbi : b = i
      · subst hbi
        exact hne (hj'.other hH hj)
      · exact hfin b (by omega) hj'.uses.1

theorem not_leavable (hH : Hyp G) {v : Nat} (hu : Uses G.info i v) {w : Int} (hm : MVal G (adjA G a i) i v w) (hta : a (G.info.length - i) ≠ 1) {ham : Bool}
    (h : ((∀ b, i < b → ¬ Uses G.info b v) ∧ w ≠ 0 ∧ (w ≠ v ∨ ham = true)) ∨ (ham = true ∧ (∃ b, i < b ∧ Uses G.info b v ∧ ∀ c, i < c → Uses G.info c v → c = b) ∧ w = v))
    (hD : DegOk G (adjA G a G.info.length)) (hA : ham = true → AllV G (adjA G a G.info.length)) : False := by
  have hv := Uses.range hH hu
  have hlater : ∀ y, adjA G a G.info.length v y → adjA G a i v y ∨ ∃ b, i < b ∧ Joins G b v y := by
    intro y hy
    rcases adjA_split (i := i) hy with hy | ⟨b, hb, hab, hj⟩
    · exact .inl hy
    · refine .inr ⟨b, ?_, hj⟩
      rcases Nat.lt_or_ge i b with h | h
      · exact h
      · have : b = i := by omega
        subst this
        exact absurd hab hta
  rcases h with ⟨hfin, hw0, hwv⟩ | ⟨hh, ⟨b, hb, hub, huniq⟩, hwv⟩
  · have hlater : ∀ y, adjA G a G.info.length v y → adjA G a i v y := by
      intro y hy
      rcases hlater y hy with h | ⟨b, hb, hj⟩
      · exact h
      · exact absurd hj.uses.1 (hfin b hb)
    obtain ⟨u, h1, h2, h3⟩ := hm.nonzero hw0
    by_cases huv : u = v
    · subst huv
      by_cases hc : G.color u = 0
      · rw [rep_zero hc] at h2
        obtain ⟨y, hy⟩ := hA (hwv.resolve_left fun h => h h2) u hv.1 hv.2
        exact h1.alone y (hlater y hy)
      · obtain ⟨y, hy⟩ := hD.d1 u hc
        exact h1.alone y (hlater y hy)
    · obtain ⟨x, hx, hx1⟩ := h1.one huv
      obtain ⟨b, hb, hab, hj⟩ := hx
      have hbl : b < G.info.length := by
        obtain ⟨e, he, _⟩ := hj
        exact (List.getElem?_eq_some_iff.1 he).1
      obtain ⟨y', hne, hy'⟩ := hD.d0 v x ⟨b, hbl, hab, hj⟩ (h3.resolve_right huv)
      exact hne (hx1 y' (hlater y' hy'))
  · obtain ⟨u, h1, h2, h3⟩ := hm.nonzero (by omega)
    obtain ⟨huv, hc⟩ := rep_nat (h2.symm.trans hwv)
    subst huv
    obtain ⟨y, hy⟩ := hA hh u hv.1 hv.2
    obtain ⟨y', hne, hy'⟩ := hD.d0 u y hy (hc hv.1)
    rcases hlater y hy with h | ⟨c, hc1, hj⟩
    · exact h1.alone y h
    rcases hlater y' hy' with h | ⟨c', hc1', hj'⟩
    · exact h1.alone y' h
    have e1 := huniq c hc1 hj.uses.1
    have e2 := huniq c' hc1' hj'.uses.1
    rw [e1] at hj
    rw [e2] at hj'
    exact hne (hj'.other hH hj)

/-! ### recursion -/

variable {cyc ham la : Bool} {Valid Part : (Nat → Nat → Prop) → Prop}

/-- membership means: sound, and complete as far as all vertices are visited if this is asked for -/
def Means (G : Graph) (ham : Bool) (Valid : (Nat → Nat → Prop) → Prop) (a : Asg 2) (M : Prop) : Prop :=
  (M → Valid (adjA G a G.info.length)) ∧ (Valid (adjA G a G.info.length) → (ham = true → AllV G (adjA G a G.info.length)) → M)

/-- meaning of the state before edge `i` -/
def Good (G : Graph) (cyc ham la : Bool) (Valid Part : (Nat → Nat → Prop) → Prop) (a : Asg 2) (i : Nat) : Prop :=
  ∀ e mate, G.info[i]? = some e → Struct G (adjA G a i) i → Part (adjA G a i) → Enc G (adjA G a i) i e.v0 mate →
    Reach (simpath G cyc ham la) ((G.info.length - i : Nat) : Int) mate →
    Means G ham Valid a (ZddMemAt (simpath G cyc ham la) (G.info.length - i) ((G.info.length - i : Nat) : Int) mate a)

/-- meaning of what `getChild` returns after the edge before `i` -/
def GoodLook (G : Graph) (cyc ham la : Bool) (Valid Part : (Nat → Nat → Prop) → Prop) (a : Asg 2) (i : Nat) : Prop :=
  ∀ e mate fuel r, G.info[i]? = some e → Struct G (adjA G a i) i → Part (adjA G a i) → Enc G (adjA G a i) i e.v0 mate → G.info.length ≤ fuel + i →
    spLook G cyc ham la fuel i mate = some r → Reach (simpath G cyc ham la) r.1 r.2 →
    Means G ham Valid a (ZddMemAt (simpath G cyc ham la) (G.info.length - i) r.1 r.2 a)

theorem means_zero {n : Nat} {s : List Int} (h : Valid (adjA G a G.info.length) → (ham = true → AllV G (adjA G a G.info.length)) → False) :
    Means G ham Valid a (ZddMemAt (simpath G cyc ham la) n 0 s a) :=
  ⟨fun hm => absurd hm zddMemAt_zero, fun h1 h2 => (h h1 h2).elim⟩

theorem next_good (hH : Hyp G) (hsem : Sem G cyc ham Valid Part) {e : EdgeInfo} (he : G.info[i]? = some e) (hnext : i + 1 < G.info.length → GoodLook G cyc ham la Valid Part a (i + 1)) {mate : List Int}
    (hS : Struct G (adjA G a (i + 1)) (i + 1)) (hP : Part (adjA G a (i + 1))) (hE : Enc G (adjA G a (i + 1)) (i + 1) e.v0 mate)
    {r : Int × List Int} (hr : spNext G cyc ham la i e mate = some r) (hR : Reach (simpath G cyc ham la) r.1 r.2) :
    Means G ham Valid a (ZddMemAt (simpath G cyc ham la) (G.info.length - i - 1) r.1 r.2 a) := by
  have hi : i < G.info.length := (List.getElem?_eq_some_iff.1 he).1
  unfold spNext at hr
  by_cases hlast : i + 1 = G.info.length
  · rw [if_pos hlast] at hr
    injection hr with hr
    subst hr
    apply means_zero
    intro hv _
    rw [hlast] at hS hP
    exact hsem.fin _ _ hS hP hv
  · rw [if_neg hlast] at hr
    have hf' : G.info[i + 1]? = some G.info[i + 1] := List.getElem?_eq_getElem (by omega)
    generalize G.info[i + 1] = f at hf'
    obtain ⟨n2, e2, hE2⟩ := shift_enc hH hS he hf' hE
    rw [hf'] at hr; dsimp only [Option.bind] at hr
    rw [e2] at hr; dsimp only at hr
    exact hnext (by omega) f n2 _ r hf' hS hP hE2 (by omega) hr hR

/-- `takable` says no -/
theorem no_valid (hH : Hyp G) (hsem : Sem G cyc ham Valid Part) {e : EdgeInfo} {mate : List Int} (he : G.info[i]? = some e) (hS : Struct G (adjA G a i) i) (hP : Part (adjA G a i))
    (hE : Enc G (adjA G a i) i e.v0 mate) (ht : spTakable cyc ham mate e = some .no) (hta : a (G.info.length - i) = 1)
    (hv : Valid (adjA G a G.info.length)) (hA : ham = true → AllV G (adjA G a G.info.length)) : False := by
  have hi : i < G.info.length := (List.getElem?_eq_some_iff.1 he).1
  obtain ⟨w1, w2, p1, p2, q1, q2, m1, m2⟩ := hE.at_edge hH he
  have hD := hsem.deg _ hv
  have hj : Joins G i e.v1 e.v2 := ⟨e, he, .inl ⟨rfl, rfl⟩⟩
  rcases takable_cases (cyc := cyc) (ham := ham) hH he p1 p2 m1 m2 with ⟨_, h | h | h | h⟩ | ⟨u1, u2, hp, g1, g2, h⟩
  · exact not_takable hH hi hj m1 hta (.inl h) hD
  · exact not_takable hH hi hj m1 hta (.inr ⟨(hH.ok.final1 i e he).1 h.1, h.2⟩) hD
  · exact not_takable hH hi hj.symm m2 hta (.inl h) hD
  · exact not_takable hH hi hj.symm m2 hta (.inr ⟨(hH.ok.final2 i e he).1 h.1, h.2⟩) hD
  · rw [ht] at h
    injection h with h
    refine hsem.no he hS hP hE hp h.symm _ (fun x y hxy => ?_) hv hA
    rw [← adjA_take he hta] at hxy
    exact adjA_mono (by omega) hxy

/-- `leavable` says no -/
theorem leave_valid (hH : Hyp G) (hsem : Sem G cyc ham Valid Part) {e : EdgeInfo} {mate : List Int} (he : G.info[i]? = some e)
    (hE : Enc G (adjA G a i) i e.v0 mate) (hl : spLeavable ham mate e = some false) (hta : a (G.info.length - i) ≠ 1)
    (hv : Valid (adjA G a G.info.length)) (hA : ham = true → AllV G (adjA G a G.info.length)) : False := by
  obtain ⟨w1, w2, p1, p2, q1, q2, m1, m2⟩ := hE.at_edge hH he
  have hD := hsem.deg _ hv
  obtain ⟨l, hl', hl1, hl0⟩ := leavable_some (ham := ham) p1 p2
  rw [hl] at hl'
  injection hl' with hl'
  obtain ⟨v, w, ⟨rfl, rfl, h⟩ | ⟨rfl, rfl, h⟩⟩ := hl0 hl'.symm
  · refine not_leavable hH ⟨e, he, .inl rfl⟩ m1 hta (h.imp (fun h => ⟨(hH.ok.final1 i e he).1 h.1, h.2⟩) fun h => ⟨h.1, (hH.ok.second1 i e he).1 h.2.1, h.2.2⟩) hD hA
  · refine not_leavable hH ⟨e, he, .inr rfl⟩ m2 hta (h.imp (fun h => ⟨(hH.ok.final2 i e he).1 h.1, h.2⟩) fun h => ⟨h.1, (hH.ok.second2 i e he).1 h.2.1, h.2.2⟩) hD hA

theorem good_step (hH : Hyp G) (hsem : Sem G cyc ham Valid Part) (hnext : i + 1 < G.info.length → GoodLook G cyc ham la Valid Part a (i + 1)) : Good G cyc ham la Valid Part a i := by
  intro e mate he hS hP hE hR
  have hi : i < G.info.length := (List.getElem?_eq_some_iff.1 he).1
  have hn : 0 < G.info.length := by omega
  obtain ⟨w1, w2, p1, p2, q1, q2, m1, m2⟩ := hE.at_edge hH he
  have hrg := hH.ok.range i e he
  obtain ⟨r, er, hleg⟩ := child_legal (cyc := cyc) (ham := ham) (la := la) hH (level := G.info.length - i) (a (G.info.length - i) != 0) (by omega) (by omega)
    (by rw [show G.info.length - (G.info.length - i) = i by omega]; exact ⟨e, _, he, hS, hE⟩)
  have hRc := Reach.step (a (G.info.length - i)) (by omega) hR
  have hmem := zddMemAt_pos (desc hH hn) (by omega) hR (Nat.le_refl _) (a := a)
  rw [child_eq er] at hRc hmem
  have htriv : (∀ j, G.info.length - i < j → j ≤ G.info.length - i → (a j).val = 0) := fun j h1 h2 => by omega
  have hiff : ZddMemAt (simpath G cyc ham la) (G.info.length - i) ((G.info.length - i : Nat) : Int) mate a ↔ ZddMemAt (simpath G cyc ham la) (G.info.length - i - 1) r.1 r.2 a :=
    Iff.trans hmem ⟨fun h => h.2, fun h => ⟨htriv, h⟩⟩
  suffices hs : Means G ham Valid a (ZddMemAt (simpath G cyc ham la) (G.info.length - i - 1) r.1 r.2 a) from
    ⟨fun h => hs.1 (hiff.1 h), fun h1 h2 => hiff.2 (hs.2 h1 h2)⟩
  unfold spChild at er
  rw [if_neg (by omega), show G.info.length - (G.info.length - i) = i by omega, he] at er
  dsimp only [Option.bind] at er
  rw [if_neg (by omega)] at er
  by_cases hta : a (G.info.length - i) = 1
  · rw [if_pos (by rw [hta]; rfl)] at er
    have hadd := adjA_take he hta
    rcases takable_cases (cyc := cyc) (ham := ham) hH he p1 p2 m1 m2 with ⟨h, _⟩ | ⟨u1, u2, hp, g1, g2, h⟩
    · rw [h] at er; dsimp only at er
      injection er with er
      subst er
      exact means_zero fun hv hA => no_valid hH hsem he hS hP hE h hta hv hA
    · rw [h] at er; dsimp only at er
      cases ht : typed G cyc ham mate e u1 u2 with
      | no =>
        rw [ht] at er h; dsimp only at er
        injection er with er
        subst er
        exact means_zero fun hv hA => no_valid hH hsem he hS hP hE h hta hv hA
      | hit =>
        rw [ht] at er; dsimp only at er
        injection er with er
        subst er
        obtain ⟨hv, hmax⟩ := hsem.hit he hS hP hE hp ht
        rw [← hadd] at hv hmax
        refine ⟨fun hm => ?_, fun hv' hA => ?_⟩
        · rw [zddMemAt_neg (by dsimp only; omega)] at hm
          have heq : adjA G a G.info.length = adjA G a (i + 1) := by
            funext x y
            apply propext
            refine ⟨fun hxy => ?_, fun hxy => adjA_mono (by omega) hxy⟩
            rcases adjA_split (i := i + 1) hxy with h | ⟨b, hb, hab, hj⟩
            · exact h
            · have hbl : b < G.info.length := by
                obtain ⟨e, he, _⟩ := hj
                exact (List.getElem?_eq_some_iff.1 he).1
              have := hm (G.info.length - b) (by omega) (by omega)
              rw [hab] at this
              cases this
          rw [heq]; exact hv
        · rw [zddMemAt_neg (by dsimp only; omega)]
          intro j h1 h2
          apply Classical.byContradiction
          intro hj0
          have haj : a j = 1 := by
            generalize a j = x at hj0
            revert x; decide
          obtain ⟨f, hf⟩ : ∃ f, G.info[G.info.length - j]? = some f := ⟨_, List.getElem?_eq_getElem (by omega)⟩
          have hjj : Joins G (G.info.length - j) f.v1 f.v2 := ⟨f, hf, .inl ⟨rfl, rfl⟩⟩
          obtain ⟨b, hb, _, hj'⟩ := hmax _ (fun x y hxy => adjA_mono (by omega) hxy) hv' f.v1 f.v2
            ⟨G.info.length - j, by omega, by rw [show G.info.length - (G.info.length - j) = j by omega]; exact haj, hjj⟩
          have := hj'.index hH hjj
          omega
      | yes =>
        rw [ht] at er; dsimp only at er
        have hu := hp.ends (typed_yes ht)
        obtain ⟨n1, e1, hE1⟩ := take_enc hH he hS hE hu (by rw [p1, g1]) (by rw [p2, g2])
        have hS1 := take_struct hH he hS hu
        have hP1 := hsem.yes he hS hP hE hp ht
        rw [← hadd] at hE1 hS1 hP1
        rw [e1] at er; dsimp only at er
        exact next_good hH hsem he hnext hS1 hP1 hE1 er hRc
  · rw [if_neg (by
      intro h
      have : a (G.info.length - i) ≠ 0 := by simpa using h
      apply hta
      generalize a (G.info.length - i) = x at this ⊢
      revert x; decide)] at er
    obtain ⟨l, hl, hl1, hl0⟩ := leavable_some (ham := ham) p1 p2
    rw [hl] at er; dsimp only at er
    cases l with
    | false =>
      rw [if_pos rfl] at er
      injection er with er
      subst er
      exact means_zero fun hv hA => leave_valid hH hsem he hE hl hta hv hA
    | true =>
      rw [if_neg (by simp)] at er
      obtain ⟨n1, e1, hE1⟩ := leave_enc hH he hE
      have hS1 := leave_struct hH he hS m1 m2 (hl1 rfl).1 (hl1 rfl).2
      rw [e1] at er; dsimp only at er
      rw [← adjA_leave hta] at hE1 hS1 hP
      exact next_good hH hsem he hnext hS1 hP hE1 er hRc

theorem look_step (hH : Hyp G) (hsem : Sem G cyc ham Valid Part) (hgood : Good G cyc ham la Valid Part a i) (hnext : i + 1 < G.info.length → GoodLook G cyc ham la Valid Part a (i + 1)) :
    GoodLook G cyc ham la Valid Part a i := by
  intro e mate fuel r he hS hP hE hfuel hr hR
  have hi : i < G.info.length := (List.getElem?_eq_some_iff.1 he).1
  have hn : 0 < G.info.length := by omega
  obtain ⟨fuel, rfl⟩ : ∃ k, fuel = k + 1 := ⟨fuel - 1, by omega⟩
  have hcast : ((G.info.length : Int) - i) = ((G.info.length - i : Nat) : Int) := by omega
  obtain ⟨w1, w2, p1, p2, q1, q2, m1, m2⟩ := hE.at_edge hH he
  unfold spLook at hr
  by_cases hla : la = false
  · rw [if_pos hla, hcast] at hr
    injection hr with hr
    subst hr
    exact hgood e mate he hS hP hE hR
  rw [if_neg hla, he] at hr
  dsimp only [Option.bind] at hr
  have ht : ∃ t, spTakable cyc ham mate e = some t := by
    rcases takable_cases (cyc := cyc) (ham := ham) hH he p1 p2 m1 m2 with h | ⟨u1, u2, _, _, _, h⟩
    · exact ⟨_, h.1⟩
    · exact ⟨_, h⟩
  obtain ⟨t, ht⟩ := ht
  rw [ht] at hr; dsimp only at hr
  by_cases htn : t ≠ .no
  · rw [if_pos htn, hcast] at hr
    injection hr with hr
    subst hr
    exact hgood e mate he hS hP hE hR
  rw [if_neg htn] at hr
  have htn' : t = .no := Classical.byContradiction htn
  subst htn'
  obtain ⟨l, hl, hl1, hl0⟩ := leavable_some (ham := ham) p1 p2
  rw [hl] at hr; dsimp only at hr
  -- the level is skipped
  have hskip : r.1 < ((G.info.length - i : Nat) : Int) → (ZddMemAt (simpath G cyc ham la) (G.info.length - i) r.1 r.2 a ↔
      a (G.info.length - i) ≠ 1 ∧ ZddMemAt (simpath G cyc ham la) (G.info.length - i - 1) r.1 r.2 a) := by
    intro hlt
    rw [mem_lower (desc hH hn) hR hlt (by omega) (Nat.le_refl _)]
    constructor
    · rintro ⟨_, h2, h3⟩
      refine ⟨fun h => ?_, h3⟩
      rw [h] at h2; cases h2
    · rintro ⟨h2, h3⟩
      refine ⟨fun j h1 h2 => by omega, ?_, h3⟩
      generalize a (G.info.length - i) = x at h2
      revert x; decide
  cases l with
  | false =>
    rw [if_pos rfl] at hr
    injection hr with hr
    subst hr
    refine means_zero fun hv hA => ?_
    by_cases hta : a (G.info.length - i) = 1
    · exact no_valid hH hsem he hS hP hE ht hta hv hA
    · exact leave_valid hH hsem he hE hl hta hv hA
  | true =>
    rw [if_neg (by simp)] at hr
    by_cases hlast : i + 1 = G.info.length
    · rw [if_pos hlast] at hr
      injection hr with hr
      subst hr
      refine means_zero fun hv hA => ?_
      by_cases hta : a (G.info.length - i) = 1
      · exact no_valid hH hsem he hS hP hE ht hta hv hA
      · have hS1 := leave_struct hH he hS m1 m2 (hl1 rfl).1 (hl1 rfl).2
        rw [← adjA_leave hta, hlast] at hS1 hP
        exact hsem.fin _ _ hS1 hP hv
    rw [if_neg hlast] at hr
    obtain ⟨n1, e1, hE1⟩ := leave_enc hH he hE
    have hS1 := leave_struct hH he hS m1 m2 (hl1 rfl).1 (hl1 rfl).2
    have hf' : G.info[i + 1]? = some G.info[i + 1] := List.getElem?_eq_getElem (by omega)
    generalize G.info[i + 1] = f at hf'
    obtain ⟨n2, e2, hE2⟩ := shift_enc hH hS1 he hf' hE1
    rw [e1] at hr; dsimp only at hr
    rw [hf'] at hr; dsimp only at hr
    rw [e2] at hr; dsimp only at hr
    obtain ⟨r', hr', hleg⟩ := look_legal (cyc := cyc) (ham := ham) (la := la) hH fuel (i + 1) n2 ⟨f, _, hf', hS1, hE2⟩ (by omega)
    rw [hr] at hr'
    injection hr' with hr'
    subst hr'
    have hiff := hskip (by rcases hleg with h | h | ⟨i', h1, h2, h3, h4⟩ <;> omega)
    by_cases hta : a (G.info.length - i) = 1
    · refine ⟨fun h => absurd hta (hiff.1 h).1, fun hv hA => (no_valid hH hsem he hS hP hE ht hta hv hA).elim⟩
    · rw [← adjA_leave hta] at hE2 hS1 hP
      have key := hnext (by omega) f n2 fuel r hf' hS1 hP hE2 (by omega) hr hR
      refine ⟨fun h => key.1 (hiff.1 h).2, fun hv hA => hiff.2 ⟨hta, key.2 hv hA⟩⟩

theorem good_all (hH : Hyp G) (hsem : Sem G cyc ham Valid Part) : ∀ k i, i + k = G.info.length → i < G.info.length → Good G cyc ham la Valid Part a i ∧ GoodLook G cyc ham la Valid Part a i
  | 0, i, h, hi => by omega
  | k + 1, i, h, hi => by
    have hnext : i + 1 < G.info.length → GoodLook G cyc ham la Valid Part a (i + 1) := fun hlt => (good_all hH hsem k (i + 1) (by omega) hlt).2
    have hg := good_step (la := la) (a := a) hH hsem hnext
    exact ⟨hg, look_step hH hsem hg hnext⟩

theorem means (hH : Hyp G) (hsem : Sem G cyc ham Valid Part) (hP : Part fun _ _ => False) (hn : 0 < G.info.length) : Means G ham Valid a (ZddMem (simpath G cyc ham la) G.info.length a) := by
  obtain ⟨e, mate, h1, h2, h3, h4⟩ := root_eq (cyc := cyc) (ham := ham) (la := la) hH hn
  have h0 : adjA G a 0 = fun _ _ => False := by
    funext x y
    apply propext
    exact ⟨fun ⟨b, hb, _⟩ => by omega, fun h => h.elim⟩
  unfold ZddMem
  have hR : Reach (simpath G cyc ham la) (simpath G cyc ham la).root.1 (simpath G cyc ham la).root.2 := .root
  rw [h1] at hR ⊢
  have := (good_all (la := la) (a := a) hH hsem G.info.length 0 (by omega) hn).1 e mate h2 (by rw [h0]; exact h3) (by rw [h0]; exact hP) (by rw [h0]; exact h4)
  rw [Nat.sub_zero] at this
  exact this hR

end
end TdZdd.Sp
