import Verif.PathZdd
import Verif.PathComb
import Verif.DegreeProofs

/-! Proofs about `PathZdd` (1): the meaning of the array `mate`. -/

namespace TdZdd.Sp

open Gr Deg

/-- what is assumed of the graph: no loops, and vertex numbers fit into `int16_t` -/
structure Hyp (G : Graph) : Prop where
  ok : G.Ok
  loop : ∀ (i : Nat) e, G.info[i]? = some e → e.v1 ≠ e.v2
  small : G.vMax ≤ 32767

/-- the vertex is used by edge `i` or later -/
def Act (G : Graph) (i v : Nat) : Prop := ∃ b, i ≤ b ∧ Uses G.info b v

/-- the vertex is used at most once by edge `i` or later -/
def Few (G : Graph) (i v : Nat) : Prop := ∀ b c, i ≤ b → i ≤ c → Uses G.info b v → Uses G.info c v → b = c

/-- edge `b` joins `x` and `y` -/
def Joins (G : Graph) (b x y : Nat) : Prop := ∃ e, G.info[b]? = some e ∧ ((e.v1 = x ∧ e.v2 = y) ∨ (e.v1 = y ∧ e.v2 = x))

/-- what stands for the other end `u` of a path -/
def Rep (G : Graph) (u : Nat) : Int := if G.color u = 0 then u else -(G.color u : Int)

variable {G : Graph} {A : Nat → Nat → Prop} {i : Nat}

theorem Joins.uses {b x y : Nat} (h : Joins G b x y) : Uses G.info b x ∧ Uses G.info b y := by
  obtain ⟨e, he, h | h⟩ := h
  · exact ⟨⟨e, he, .inl h.1⟩, ⟨e, he, .inr h.2⟩⟩
  · exact ⟨⟨e, he, .inr h.2⟩, ⟨e, he, .inl h.1⟩⟩

theorem Joins.symm {b x y : Nat} (h : Joins G b x y) : Joins G b y x := by
  obtain ⟨e, he, h | h⟩ := h
  · exact ⟨e, he, .inr h⟩
  · exact ⟨e, he, .inl h⟩

theorem Joins.other {b x y z : Nat} (hH : Hyp G) (h : Joins G b x y) (h' : Joins G b x z) : y = z := by
  obtain ⟨e, he, h⟩ := h
  obtain ⟨e', he', h'⟩ := h'
  rw [he] at he'
  injection he' with he'
  subst he'
  have := hH.loop b e he
  omega

theorem Joins.index {b c x y : Nat} (hH : Hyp G) (h : Joins G b x y) (h' : Joins G c x y) : b = c := by
  obtain ⟨e, he, h⟩ := h
  obtain ⟨e', he', h'⟩ := h'
  have h1 := hH.ok.range b e he
  have h2 := hH.ok.range c e' he'
  have h3 := hH.loop b e he
  have h4 := hH.loop c e' he'
  exact hH.ok.simple b c e e' he he' (by omega) (by omega)

theorem Uses.range (hH : Hyp G) {b v : Nat} (h : Uses G.info b v) : 1 ≤ v ∧ v ≤ G.vMax := by
  obtain ⟨e, he, h⟩ := h
  have := hH.ok.range b e he
  omega

theorem color_le_self (hH : Hyp G) (v : Nat) : G.color v ≤ v := by
  induction v using Nat.strongRecOn with
  | ind v ih =>
    by_cases h : 1 ≤ v ∧ v ≤ G.vMax
    · rcases Nat.lt_or_ge 1 (G.color v) with hc | hc
      · obtain ⟨u, h1, h2, h3⟩ := hH.ok.color_asc v h.1 h.2 (G.color v - 1) (by omega) (by omega)
        have := ih u h2
        omega
      · omega
    · rw [hH.ok.color_out v (by omega)]; omega

theorem spInit_eq (hH : Hyp G) {v : Nat} (h1 : 1 ≤ v) (h2 : v ≤ G.vMax) : spInit G v = Rep G v := by
  unfold spInit Rep
  rw [if_neg (by omega), if_pos h2]
  have hc := color_le_self hH v
  have hs := hH.small
  by_cases h : G.color v = 0
  · rw [if_neg (by omega), if_pos h, wrap16_eq (by omega) (by omega)]
  · rw [if_pos (by omega), if_neg h, wrap16_eq (by omega) (by omega)]

theorem spInit_out {v : Nat} (h : G.vMax < v) : spInit G v = 0 := by
  unfold spInit
  rw [if_neg (by omega), if_neg (by omega)]

theorem rep_ne {u : Nat} (h : 1 ≤ u) : Rep G u ≠ 0 := by
  unfold Rep
  split <;> omega

theorem rep_nat {u x : Nat} (h : Rep G u = (x : Int)) : u = x ∧ (1 ≤ x → G.color u = 0) := by
  unfold Rep at h
  split at h
  next hc => exact ⟨by omega, fun _ => hc⟩
  next hc => omega

theorem rep_zero {u : Nat} (h : G.color u = 0) : Rep G u = u := by unfold Rep; rw [if_pos h]

theorem rep_neg {u : Nat} : Rep G u < 0 ↔ G.color u ≠ 0 := by
  unfold Rep
  split <;> omega

/-- the structure of the graph of the chosen edges before edge `i` -/
structure Struct (G : Graph) (A : Nat → Nat → Prop) (i : Nat) : Prop where
  sym : ∀ x y, A x y → A y x
  sub : ∀ x y, A x y → ∃ b, b < i ∧ Joins G b x y
  forest : Forest A
  inner : ∀ v, Inner A v → G.color v = 0
  open1 : ∀ v u, IsEnd A v u → u ≠ v → G.color v = 0 → Act G i v
  open2 : ∀ v, G.color v ≠ 0 → IsEnd A v v → Act G i v

/-- the array element of vertex `v` -/
def MVal (G : Graph) (A : Nat → Nat → Prop) (i v : Nat) (w : Int) : Prop :=
  (∃ u, IsEnd A v u ∧ w = Rep G u ∧ (G.color v = 0 ∨ u = v)) ∨
  (w = 0 ∧ (Inner A v ∨ (G.color v ≠ 0 ∧ ∃ u, u ≠ v ∧ IsEnd A v u) ∨ (G.color v = 0 ∧ IsEnd A v v ∧ Few G i v)))

/-- the array -/
structure Enc (G : Graph) (A : Nat → Nat → Prop) (i v0 : Nat) (mate : List Int) : Prop where
  len : mate.length = sz G
  val : ∀ v, v0 ≤ v → v < v0 + sz G → Act G i v → ∃ w, mate[v - v0]? = some w ∧ MVal G A i v w
  out : ∀ v, v0 ≤ v → v < v0 + sz G → ¬ Act G i v → mate[v - v0]? = some 0

theorem Act.range (hH : Hyp G) {v : Nat} (h : Act G i v) : 1 ≤ v ∧ v ≤ G.vMax := by
  obtain ⟨b, _, h⟩ := h
  exact Uses.range hH h

theorem Act.succ {v : Nat} (h : Act G i v) {e : EdgeInfo} (he : G.info[i]? = some e) (h1 : v ≠ e.v1) (h2 : v ≠ e.v2) : Act G (i + 1) v := by
  obtain ⟨b, hb, hu⟩ := h
  refine ⟨b, ?_, hu⟩
  rcases Nat.lt_or_ge i b with h | h
  · exact h
  · have : b = i := by omega
    subst this
    rcases (uses_get he v).1 hu with h | h <;> omega

theorem Act.pred {v : Nat} (h : Act G (i + 1) v) : Act G i v := by
  obtain ⟨b, hb, hu⟩ := h
  exact ⟨b, by omega, hu⟩

theorem act_of_not_final1 (hH : Hyp G) {e : EdgeInfo} (he : G.info[i]? = some e) (h : e.v1final = false) : Act G (i + 1) e.v1 := by
  apply Classical.byContradiction
  intro hn
  have := (hH.ok.final1 i e he).2 fun b hb hu => hn ⟨b, hb, hu⟩
  rw [h] at this; cases this

theorem act_of_not_final2 (hH : Hyp G) {e : EdgeInfo} (he : G.info[i]? = some e) (h : e.v2final = false) : Act G (i + 1) e.v2 := by
  apply Classical.byContradiction
  intro hn
  have := (hH.ok.final2 i e he).2 fun b hb hu => hn ⟨b, hb, hu⟩
  rw [h] at this; cases this

theorem not_act_of_final1 (hH : Hyp G) {e : EdgeInfo} (he : G.info[i]? = some e) (h : e.v1final = true) : ¬ Act G (i + 1) e.v1 :=
  fun ⟨b, hb, hu⟩ => (hH.ok.final1 i e he).1 h b hb hu

theorem not_act_of_final2 (hH : Hyp G) {e : EdgeInfo} (he : G.info[i]? = some e) (h : e.v2final = true) : ¬ Act G (i + 1) e.v2 :=
  fun ⟨b, hb, hu⟩ => (hH.ok.final2 i e he).1 h b hb hu

/-- ends other than isolated vertices have been used -/
theorem Struct.used (hS : Struct G A i) {v u : Nat} (h : IsEnd A v u) (hne : u ≠ v) : ∃ b, b < i ∧ Uses G.info b v := by
  obtain ⟨x, hx, _⟩ := h.one hne
  obtain ⟨b, hb, hj⟩ := hS.sub v x hx
  exact ⟨b, hb, hj.uses.1⟩

theorem Struct.end_pos (hH : Hyp G) (hS : Struct G A i) {v u : Nat} (h : IsEnd A v u) (hv : 1 ≤ v) : 1 ≤ u := by
  by_cases hne : u = v
  · omega
  · obtain ⟨b, _, hu⟩ := hS.used h.symm (Ne.symm hne)
    exact (Uses.range hH hu).1

theorem MVal.nonzero {v : Nat} {w : Int} (h : MVal G A i v w) (hw : w ≠ 0) : ∃ u, IsEnd A v u ∧ w = Rep G u ∧ (G.color v = 0 ∨ u = v) := by
  rcases h with h | h
  · exact h
  · exact absurd h.1 hw

theorem MVal.of_open {v u : Nat} {w : Int} (h : MVal G A i v w) (he : IsEnd A v u) (hne : u ≠ v) (hc : G.color v = 0) : w = Rep G u := by
  rcases h with ⟨u', h1, h2, _⟩ | ⟨_, h | h | h⟩
  · rw [he.unique h1]; exact h2
  · exact absurd h he.not_inner
  · exact absurd hc h.1
  · exact absurd (he.unique h.2.1) hne

theorem MVal.of_alone {v : Nat} {w : Int} (h : MVal G A i v w) (he : IsEnd A v v) (hc : G.color v ≠ 0) : w = Rep G v := by
  rcases h with ⟨u', h1, h2, _⟩ | ⟨_, h | ⟨_, u, h1, h2⟩ | h⟩
  · rw [he.unique h1]; exact h2
  · exact absurd h he.not_inner
  · exact absurd (he.unique h2).symm h1
  · exact absurd h.1 hc

theorem MVal.succ {v : Nat} {w : Int} (h : MVal G A i v w) : MVal G A (i + 1) v w := by
  rcases h with h | ⟨h, h' | h' | ⟨h1, h2, h3⟩⟩
  · exact .inl h
  · exact .inr ⟨h, .inl h'⟩
  · exact .inr ⟨h, .inr (.inl h')⟩
  · exact .inr ⟨h, .inr (.inr ⟨h1, h2, fun b c hb hc => h3 b c (by omega) (by omega)⟩)⟩

/-! ### array accesses -/

theorem pget {mate : List Int} {v0 v : Nat} {w : Int} (hv : v0 ≤ v) (h : mate[v - v0]? = some w) : podGet mate ((v : Int) - v0) = some w := by
  unfold podGet
  rw [if_neg (by omega), show ((v : Int) - v0).toNat = v - v0 by omega]; exact h

theorem pset {mate : List Int} {v0 v : Nat} (x : Int) (hv : v0 ≤ v) (h : v < v0 + mate.length) : podSet mate ((v : Int) - v0) x = some (mate.set (v - v0) x) := by
  rw [podSet_some x (by omega) (by omega), show ((v : Int) - v0).toNat = v - v0 by omega]

theorem setIf_some {c : Bool} {mate : List Int} {v0 v : Nat} {j : Int} (x : Int) (h : c = true → j = (v : Int) - v0 ∧ v0 ≤ v ∧ v < v0 + mate.length) :
    ∃ m', spSetIf c mate j x = some m' ∧ m'.length = mate.length ∧ ∀ y, v0 ≤ y → y < v0 + mate.length → m'[y - v0]? = if c = true ∧ y = v then some x else mate[y - v0]? := by
  unfold spSetIf
  cases c with
  | false => exact ⟨mate, by simp, rfl, fun y _ _ => by rw [if_neg (by simp)]⟩
  | true =>
    obtain ⟨h1, h2, h3⟩ := h rfl
    rw [if_pos rfl, h1, pset x h2 h3]
    refine ⟨_, rfl, List.length_set, fun y hy1 hy2 => ?_⟩
    by_cases hy : y = v
    · subst hy
      rw [if_pos ⟨rfl, rfl⟩, List.getElem?_set_self (by omega)]
    · rw [if_neg (by simp [hy]), List.getElem?_set_ne (by omega)]

theorem win1 (hH : Hyp G) {e : EdgeInfo} (he : G.info[i]? = some e) : e.v0 ≤ e.v1 ∧ e.v1 < e.v0 + sz G := by
  have := idx1 hH.ok he; omega

theorem win2 (hH : Hyp G) {e : EdgeInfo} (he : G.info[i]? = some e) : e.v0 ≤ e.v2 ∧ e.v2 < e.v0 + sz G := by
  have := idx2 hH.ok he; omega

theorem win (hH : Hyp G) {e : EdgeInfo} (he : G.info[i]? = some e) {v b : Nat} (hb : b ≤ i) (hu : Uses G.info b v) (ha : Act G i v) : e.v0 ≤ v ∧ v < e.v0 + sz G := by
  obtain ⟨c, hc, huc⟩ := ha
  have := hH.ok.window_mem he hb hu hc huc
  have := G.mfs_nonneg
  unfold sz; omega

/-- the elements of the endpoints of the edge -/
theorem Enc.at_edge (hH : Hyp G) {e : EdgeInfo} (he : G.info[i]? = some e) {mate : List Int} (hE : Enc G A i e.v0 mate) :
    ∃ w1 w2, podGet mate ((e.v1 : Int) - e.v0) = some w1 ∧ podGet mate ((e.v2 : Int) - e.v0) = some w2 ∧ mate[e.v1 - e.v0]? = some w1 ∧ mate[e.v2 - e.v0]? = some w2 ∧
      MVal G A i e.v1 w1 ∧ MVal G A i e.v2 w2 := by
  have i1 := win1 hH he
  have i2 := win2 hH he
  obtain ⟨w1, q1, m1⟩ := hE.val e.v1 i1.1 i1.2 ⟨i, Nat.le_refl _, e, he, .inl rfl⟩
  obtain ⟨w2, q2, m2⟩ := hE.val e.v2 i2.1 i2.2 ⟨i, Nat.le_refl _, e, he, .inr rfl⟩
  exact ⟨w1, w2, pget i1.1 q1, pget i2.1 q2, q1, q2, m1, m2⟩

/-! ### leaving an edge -/

/-- what `leavable` ensures in both variants -/
def Lv (v : Nat) (w : Int) (final : Bool) : Prop := final = true → w = 0 ∨ w = v

theorem leavable_some {ham : Bool} {mate : List Int} {e : EdgeInfo} {w1 w2 : Int} (p1 : podGet mate ((e.v1 : Int) - e.v0) = some w1) (p2 : podGet mate ((e.v2 : Int) - e.v0) = some w2) :
    ∃ l, spLeavable ham mate e = some l ∧ (l = true → Lv e.v1 w1 e.v1final ∧ Lv e.v2 w2 e.v2final) ∧
      (l = false → ∃ v w, (v = e.v1 ∧ w = w1 ∧ ((e.v1final = true ∧ w ≠ 0 ∧ (w ≠ v ∨ ham = true)) ∨ (ham = true ∧ e.v1final2 = true ∧ w = v))) ∨
        (v = e.v2 ∧ w = w2 ∧ ((e.v2final = true ∧ w ≠ 0 ∧ (w ≠ v ∨ ham = true)) ∨ (ham = true ∧ e.v2final2 = true ∧ w = v)))) := by
  unfold spLeavable Lv
  rw [p1]; dsimp only [Option.bind]
  rw [p2]; dsimp only
  by_cases hh : ham = true
  · rw [if_pos hh]
    by_cases c1 : e.v1final = true ∧ w1 ≠ 0
    · rw [if_pos c1]
      exact ⟨_, rfl, fun h => (by cases h), fun _ => ⟨_, _, .inl ⟨rfl, rfl, .inl ⟨c1.1, c1.2, .inr hh⟩⟩⟩⟩
    rw [if_neg c1]
    by_cases c2 : e.v2final = true ∧ w2 ≠ 0
    · rw [if_pos c2]
      exact ⟨_, rfl, fun h => (by cases h), fun _ => ⟨_, _, .inr ⟨rfl, rfl, .inl ⟨c2.1, c2.2, .inr hh⟩⟩⟩⟩
    rw [if_neg c2]
    by_cases c3 : e.v1final2 = true ∧ w1 = e.v1
    · rw [if_pos c3]
      exact ⟨_, rfl, fun h => (by cases h), fun _ => ⟨_, _, .inl ⟨rfl, rfl, .inr ⟨hh, c3.1, c3.2⟩⟩⟩⟩
    rw [if_neg c3]
    by_cases c4 : e.v2final2 = true ∧ w2 = e.v2
    · rw [if_pos c4]
      exact ⟨_, rfl, fun h => (by cases h), fun _ => ⟨_, _, .inr ⟨rfl, rfl, .inr ⟨hh, c4.1, c4.2⟩⟩⟩⟩
    rw [if_neg c4]
    refine ⟨_, rfl, fun _ => ⟨fun hf => ?_, fun hf => ?_⟩, fun h => by cases h⟩
    · exact .inl (Classical.byContradiction fun hw => c1 ⟨hf, hw⟩)
    · exact .inl (Classical.byContradiction fun hw => c2 ⟨hf, hw⟩)
  · rw [if_neg hh]
    by_cases c1 : e.v1final = true ∧ w1 ≠ 0 ∧ w1 ≠ e.v1
    · rw [if_pos c1]
      exact ⟨_, rfl, fun h => (by cases h), fun _ => ⟨_, _, .inl ⟨rfl, rfl, .inl ⟨c1.1, c1.2.1, .inl c1.2.2⟩⟩⟩⟩
    rw [if_neg c1]
    by_cases c2 : e.v2final = true ∧ w2 ≠ 0 ∧ w2 ≠ e.v2
    · rw [if_pos c2]
      exact ⟨_, rfl, fun h => (by cases h), fun _ => ⟨_, _, .inr ⟨rfl, rfl, .inl ⟨c2.1, c2.2.1, .inl c2.2.2⟩⟩⟩⟩
    rw [if_neg c2]
    refine ⟨_, rfl, fun _ => ⟨fun hf => ?_, fun hf => ?_⟩, fun h => by cases h⟩
    · apply Classical.byContradiction
      intro hn
      exact c1 ⟨hf, fun h => hn (.inl h), fun h => hn (.inr h)⟩
    · apply Classical.byContradiction
      intro hn
      exact c2 ⟨hf, fun h => hn (.inl h), fun h => hn (.inr h)⟩

theorem leave_struct (hH : Hyp G) {e : EdgeInfo} (he : G.info[i]? = some e) (hS : Struct G A i) {w1 w2 : Int} (m1 : MVal G A i e.v1 w1) (m2 : MVal G A i e.v2 w2)
    (l1 : Lv e.v1 w1 e.v1final) (l2 : Lv e.v2 w2 e.v2final) : Struct G A (i + 1) := by
  have hr := hH.ok.range i e he
  refine ⟨hS.sym, fun x y h => ?_, hS.forest, hS.inner, fun v u h1 h2 h3 => ?_, fun v h1 h2 => ?_⟩
  · obtain ⟨b, hb, hj⟩ := hS.sub x y h
    exact ⟨b, by omega, hj⟩
  · have ha := hS.open1 v u h1 h2 h3
    have hu1 := hS.end_pos hH h1 (ha.range hH).1
    by_cases hv1 : v = e.v1
    · subst hv1
      cases hf : e.v1final with
      | false => exact act_of_not_final1 hH he hf
      | true =>
        have hw := m1.of_open h1 h2 h3
        rcases l1 hf with h | h
        · exact absurd (hw.symm.trans h) (rep_ne hu1)
        · exact absurd (rep_nat (hw.symm.trans h)).1 h2
    by_cases hv2 : v = e.v2
    · subst hv2
      cases hf : e.v2final with
      | false => exact act_of_not_final2 hH he hf
      | true =>
        have hw := m2.of_open h1 h2 h3
        rcases l2 hf with h | h
        · exact absurd (hw.symm.trans h) (rep_ne hu1)
        · exact absurd (rep_nat (hw.symm.trans h)).1 h2
    exact ha.succ he hv1 hv2
  · have ha := hS.open2 v h1 h2
    have hu1 := (ha.range hH).1
    by_cases hv1 : v = e.v1
    · subst hv1
      cases hf : e.v1final with
      | false => exact act_of_not_final1 hH he hf
      | true =>
        have hw := m1.of_alone h2 h1
        rcases l1 hf with h | h
        · exact absurd (hw.symm.trans h) (rep_ne hu1)
        · exact absurd ((rep_nat (hw.symm.trans h)).2 hu1) h1
    by_cases hv2 : v = e.v2
    · subst hv2
      cases hf : e.v2final with
      | false => exact act_of_not_final2 hH he hf
      | true =>
        have hw := m2.of_alone h2 h1
        rcases l2 hf with h | h
        · exact absurd (hw.symm.trans h) (rep_ne hu1)
        · exact absurd ((rep_nat (hw.symm.trans h)).2 hu1) h1
    exact ha.succ he hv1 hv2

/-- an element that may have been cleared when an edge is left -/
theorem mval_clear {v : Nat} {w : Int} (h : MVal G A i v w) (hv : 1 ≤ v) (hwv : w = v) (hfew : Few G (i + 1) v) : MVal G A (i + 1) v 0 := by
  obtain ⟨u, h1, h2, _⟩ := h.nonzero (by omega)
  obtain ⟨h3, h4⟩ := rep_nat (h2.symm.trans hwv)
  subst h3
  exact .inr ⟨rfl, .inr (.inr ⟨h4 hv, h1, hfew⟩)⟩

theorem few_of_second1 (hH : Hyp G) {e : EdgeInfo} (he : G.info[i]? = some e) (h : e.v1final2 = true) : Few G (i + 1) e.v1 := by
  obtain ⟨b, _, _, h⟩ := (hH.ok.second1 i e he).1 h
  intro c d hc hd h1 h2
  rw [h c hc h1, h d hd h2]

theorem few_of_second2 (hH : Hyp G) {e : EdgeInfo} (he : G.info[i]? = some e) (h : e.v2final2 = true) : Few G (i + 1) e.v2 := by
  obtain ⟨b, _, _, h⟩ := (hH.ok.second2 i e he).1 h
  intro c d hc hd h1 h2
  rw [h c hc h1, h d hd h2]

theorem leave_enc (hH : Hyp G) {e : EdgeInfo} (he : G.info[i]? = some e) {mate : List Int} (hE : Enc G A i e.v0 mate) :
    ∃ m', spLeave mate e = some m' ∧ Enc G A (i + 1) e.v0 m' := by
  obtain ⟨w1, w2, p1, p2, q1, q2, m1, m2⟩ := hE.at_edge hH he
  have i1 := win1 hH he
  have i2 := win2 hH he
  have hr := hH.ok.range i e he
  have hne := hH.loop i e he
  unfold spLeave
  rw [p1]; dsimp only [Option.bind]
  obtain ⟨n1, e1, l1, g1⟩ := setIf_some (c := e.v1final || (e.v1final2 && decide (w1 = (e.v1 : Int)))) (mate := mate) (v0 := e.v0) (v := e.v1) (j := (e.v1 : Int) - e.v0) 0
    (fun _ => ⟨rfl, i1.1, by rw [hE.len]; exact i1.2⟩)
  rw [e1]; dsimp only
  have q2' : n1[e.v2 - e.v0]? = some w2 := by rw [g1 _ i2.1 (by rw [hE.len]; exact i2.2), if_neg (by simp; omega)]; exact q2
  rw [pget i2.1 q2']; dsimp only
  obtain ⟨n2, e2, l2, g2⟩ := setIf_some (c := e.v2final || (e.v2final2 && decide (w2 = (e.v2 : Int)))) (mate := n1) (v0 := e.v0) (v := e.v2) (j := (e.v2 : Int) - e.v0) 0
    (fun _ => ⟨rfl, i2.1, by rw [l1, hE.len]; exact i2.2⟩)
  refine ⟨n2, e2, by rw [l2, l1, hE.len], fun v h1 h2 ha => ?_, fun v h1 h2 ha => ?_⟩
  · rw [g2 v h1 (by rw [l1, hE.len]; exact h2), g1 v h1 (by rw [hE.len]; exact h2)]
    obtain ⟨w, hw, hm⟩ := hE.val v h1 h2 ha.pred
    by_cases c2 : (e.v2final || (e.v2final2 && decide (w2 = (e.v2 : Int)))) = true ∧ v = e.v2
    · rw [if_pos c2]
      obtain ⟨c, rfl⟩ := c2
      refine ⟨0, rfl, ?_⟩
      rw [Bool.or_eq_true, Bool.and_eq_true, decide_eq_true_eq] at c
      rcases c with c | c
      · exact absurd ha (not_act_of_final2 hH he c)
      · exact mval_clear m2 (by omega) c.2 (few_of_second2 hH he c.1)
    rw [if_neg c2]
    by_cases c1 : (e.v1final || (e.v1final2 && decide (w1 = (e.v1 : Int)))) = true ∧ v = e.v1
    · rw [if_pos c1]
      obtain ⟨c, rfl⟩ := c1
      refine ⟨0, rfl, ?_⟩
      rw [Bool.or_eq_true, Bool.and_eq_true, decide_eq_true_eq] at c
      rcases c with c | c
      · exact absurd ha (not_act_of_final1 hH he c)
      · exact mval_clear m1 (by omega) c.2 (few_of_second1 hH he c.1)
    rw [if_neg c1]
    exact ⟨w, hw, hm.succ⟩
  · rw [g2 v h1 (by rw [l1, hE.len]; exact h2), g1 v h1 (by rw [hE.len]; exact h2)]
    by_cases c2 : (e.v2final || (e.v2final2 && decide (w2 = (e.v2 : Int)))) = true ∧ v = e.v2
    · rw [if_pos c2]
    rw [if_neg c2]
    by_cases c1 : (e.v1final || (e.v1final2 && decide (w1 = (e.v1 : Int)))) = true ∧ v = e.v1
    · rw [if_pos c1]
    rw [if_neg c1]
    by_cases hv1 : v = e.v1
    · subst hv1
      cases hf : e.v1final with
      | false => exact absurd (act_of_not_final1 hH he hf) ha
      | true => exact absurd ⟨by rw [hf]; rfl, rfl⟩ c1
    by_cases hv2 : v = e.v2
    · subst hv2
      cases hf : e.v2final with
      | false => exact absurd (act_of_not_final2 hH he hf) ha
      | true => exact absurd ⟨by rw [hf]; rfl, rfl⟩ c2
    exact hE.out v h1 h2 fun h => ha (h.succ he hv1 hv2)

/-! ### moving the window -/

theorem shift_enc (hH : Hyp G) (hS : Struct G A (i + 1)) {e f : EdgeInfo} (he : G.info[i]? = some e) (hf : G.info[i + 1]? = some f) {mate : List Int} (hE : Enc G A (i + 1) e.v0 mate) :
    ∃ m', spShift G mate e.v0 f.v0 = some m' ∧ Enc G A (i + 1) f.v0 m' := by
  have hmono := hH.ok.v0_mono he hf (by omega)
  have hsh := shift_idx hH.ok he hf
  have hw := hH.ok.window (i + 1) f hf
  have hlen := hE.len
  unfold spShift
  by_cases hd : f.v0 ≤ e.v0
  · rw [if_pos hd]
    have : f.v0 = e.v0 := by omega
    rw [this]
    exact ⟨mate, rfl, hE⟩
  rw [if_neg hd, if_neg (by unfold sz at hsh; omega)]
  have hget : ∀ v, f.v0 ≤ v → v < f.v0 + sz G →
      (mate.drop (f.v0 - e.v0) ++ (List.range (f.v0 - e.v0)).map fun k => spInit G (f.v0 + (G.maxFrontierSize.toNat - (f.v0 - e.v0) + k)))[v - f.v0]? =
        if v < e.v0 + sz G then mate[v - e.v0]? else some (spInit G v) := by
    intro v h1 h2
    by_cases hv : v < e.v0 + sz G
    · rw [if_pos hv, List.getElem?_append_left (by rw [List.length_drop]; omega), List.getElem?_drop]
      congr 1; omega
    · rw [if_neg hv, List.getElem?_append_right (by rw [List.length_drop]; omega), List.length_drop, List.getElem?_map, List.getElem?_range (by omega)]
      simp only [Option.map_some]
      congr 2
      unfold sz at *
      omega
  refine ⟨_, rfl, ?_, fun v h1 h2 ha => ?_, fun v h1 h2 ha => ?_⟩
  · rw [List.length_append, List.length_drop, List.length_map, List.length_range]; omega
  · rw [hget v h1 h2]
    by_cases hv : v < e.v0 + sz G
    · rw [if_pos hv]; exact hE.val v (by omega) hv ha
    · rw [if_neg hv]
      have hr := ha.range hH
      refine ⟨_, rfl, .inl ⟨v, isEnd_self fun y hy => ?_, spInit_eq hH hr.1 hr.2, .inr rfl⟩⟩
      obtain ⟨b, hb, hj⟩ := hS.sub v y hy
      have := win hH he (by omega : b ≤ i) hj.uses.1 ha.pred
      omega
  · rw [hget v h1 h2]
    by_cases hv : v < e.v0 + sz G
    · rw [if_pos hv]; exact hE.out v (by omega) hv ha
    · rw [if_neg hv]
      rcases Nat.lt_or_ge G.vMax v with h | h
      · rw [spInit_out h]
      · obtain ⟨b, hb, hu⟩ := hw.2.2.1
        obtain ⟨c, hc, hu'⟩ := hH.ok.order b f.v0 v hw.1 h1 h hu
        exact absurd ⟨c, by omega, hu'⟩ ha

/-! ### taking an edge -/

/-- the ends that are joined -/
structure Ends (G : Graph) (A : Nat → Nat → Prop) (e : EdgeInfo) (u1 u2 : Nat) : Prop where
  end1 : IsEnd A e.v1 u1
  end2 : IsEnd A e.v2 u2
  col1 : G.color e.v1 = 0 ∨ u1 = e.v1
  col2 : G.color e.v2 = 0 ∨ u2 = e.v2
  fin1 : e.v1final = true → G.color e.v1 = 0 → u1 ≠ e.v1
  fin2 : e.v2final = true → G.color e.v2 = 0 → u2 ≠ e.v2
  ne : u1 ≠ e.v2

theorem Ends.ne2 {e : EdgeInfo} {u1 u2 : Nat} (h : Ends G A e u1 u2) : u2 ≠ e.v1 := by
  intro he
  have := h.end2.symm
  rw [he] at this
  exact h.ne (h.end1.unique this)

theorem take_struct (hH : Hyp G) {e : EdgeInfo} (he : G.info[i]? = some e) (hS : Struct G A i) {u1 u2 : Nat} (hu : Ends G A e u1 u2) : Struct G (addE A e.v1 e.v2) (i + 1) := by
  obtain ⟨j1, j2, j3, j4, j5, j6⟩ := join_ends hu.end1 hu.end2 (hH.loop i e he) hu.ne
  have hne := hH.loop i e he
  have hne1 := hu.ne
  have hne2 := hu.ne2
  refine ⟨?_, ?_, ?_, ?_, ?_, ?_⟩
  · rintro x y (h | ⟨h1, h2⟩ | ⟨h1, h2⟩)
    · exact .inl (hS.sym x y h)
    · exact .inr (.inr ⟨h2, h1⟩)
    · exact .inr (.inl ⟨h2, h1⟩)
  · rintro x y (h | ⟨rfl, rfl⟩ | ⟨rfl, rfl⟩)
    · obtain ⟨b, hb, hj⟩ := hS.sub x y h
      exact ⟨b, by omega, hj⟩
    · exact ⟨i, by omega, e, he, .inl ⟨rfl, rfl⟩⟩
    · exact ⟨i, by omega, e, he, .inr ⟨rfl, rfl⟩⟩
  · intro x
    rcases hS.forest x with h | ⟨y, h⟩
    · exact .inl (j6 x h)
    · by_cases h1 : x = u1
      · subst h1; exact .inr ⟨_, j1⟩
      by_cases h2 : x = u2
      · subst h2; exact .inr ⟨_, j1.symm⟩
      by_cases h3 : x = e.v1
      · subst h3; exact .inl (j3 (Ne.symm h1))
      by_cases h4 : x = e.v2
      · subst h4; exact .inl (j4 (Ne.symm h2))
      exact .inr ⟨y, j5 x y h h3 h1 h4 h2⟩
  · intro x hx
    rcases hS.forest x with h | ⟨y, h⟩
    · exact hS.inner x h
    · by_cases h1 : x = u1
      · subst h1; exact absurd hx j1.not_inner
      by_cases h2 : x = u2
      · subst h2; exact absurd hx j1.symm.not_inner
      by_cases h3 : x = e.v1
      · subst h3; exact hu.col1.resolve_right fun h => h1 h.symm
      by_cases h4 : x = e.v2
      · subst h4; exact hu.col2.resolve_right fun h => h2 h.symm
      exact absurd hx (j5 x y h h3 h1 h4 h2).not_inner
  · intro x y hxy hyx hc
    rcases hS.forest x with h | ⟨z, h⟩
    · exact absurd (j6 x h) hxy.not_inner
    · by_cases h3 : x = e.v1
      · subst h3
        by_cases h1 : u1 = e.v1
        · cases hf : e.v1final with
          | false => exact act_of_not_final1 hH he hf
          | true => exact absurd h1 (hu.fin1 hf hc)
        · exact absurd (j3 h1) hxy.not_inner
      by_cases h4 : x = e.v2
      · subst h4
        by_cases h1 : u2 = e.v2
        · cases hf : e.v2final with
          | false => exact act_of_not_final2 hH he hf
          | true => exact absurd h1 (hu.fin2 hf hc)
        · exact absurd (j4 h1) hxy.not_inner
      by_cases h1 : x = u1
      · subst h1
        exact (hS.open1 x e.v1 hu.end1.symm (Ne.symm h3) hc).succ he h3 h4
      by_cases h2 : x = u2
      · subst h2
        exact (hS.open1 x e.v2 hu.end2.symm (Ne.symm h4) hc).succ he h3 h4
      have := (j5 x z h h3 h1 h4 h2).unique hxy
      subst this
      exact (hS.open1 x z h hyx hc).succ he h3 h4
  · intro x hc hx
    have h1 : x ≠ e.v1 := fun h => hx.alone e.v2 (.inr (.inl ⟨h, rfl⟩))
    have h2 : x ≠ e.v2 := fun h => hx.alone e.v1 (.inr (.inr ⟨h, rfl⟩))
    exact (hS.open2 x hc (isEnd_self fun y hy => hx.alone y (.inl hy))).succ he h1 h2

theorem take_enc (hH : Hyp G) {e : EdgeInfo} (he : G.info[i]? = some e) (hS : Struct G A i) {mate : List Int} (hE : Enc G A i e.v0 mate) {u1 u2 : Nat} (hu : Ends G A e u1 u2)
    (p1 : podGet mate ((e.v1 : Int) - e.v0) = some (Rep G u1)) (p2 : podGet mate ((e.v2 : Int) - e.v0) = some (Rep G u2)) :
    ∃ m', spTake mate e = some m' ∧ Enc G (addE A e.v1 e.v2) (i + 1) e.v0 m' := by
  obtain ⟨j1, j2, j3, j4, j5, j6⟩ := join_ends hu.end1 hu.end2 (hH.loop i e he) hu.ne
  have hne := hH.loop i e he
  have hne1 := hu.ne
  have hne2 := hu.ne2
  have i1 := win1 hH he
  have i2 := win2 hH he
  have hr := hH.ok.range i e he
  have hwin : ∀ u v, (v = e.v1 ∨ v = e.v2) → IsEnd A v u → 0 < Rep G u → Rep G u = (u : Int) ∧ G.color u = 0 ∧ e.v0 ≤ u ∧ u < e.v0 + sz G := by
    intro u v hv hend hpos
    have hc : G.color u = 0 := Classical.byContradiction fun h => by have := (rep_neg (G := G)).2 h; omega
    refine ⟨rep_zero hc, hc, ?_⟩
    by_cases huv : u = v
    · subst huv; rcases hv with rfl | rfl
      · exact i1
      · exact i2
    · obtain ⟨b, hb, hub⟩ := hS.used hend.symm (Ne.symm huv)
      exact win hH he (by omega) hub (hS.open1 u v hend.symm (Ne.symm huv) hc)
  have W1 := hwin u1 e.v1 (.inl rfl) hu.end1
  have W2 := hwin u2 e.v2 (.inr rfl) hu.end2
  unfold spTake
  rw [p1]; dsimp only [Option.bind]
  rw [p2]; dsimp only
  obtain ⟨n1, e1, l1, g1⟩ := setIf_some (c := decide (0 < Rep G u1)) (mate := mate) (v0 := e.v0) (v := u1) (j := Rep G u1 - e.v0) (Rep G u2)
    (fun h => by have := W1 (by simpa using h); rw [hE.len]; omega)
  rw [e1]; dsimp only
  obtain ⟨n2, e2, l2, g2⟩ := setIf_some (c := decide (0 < Rep G u2)) (mate := n1) (v0 := e.v0) (v := u2) (j := Rep G u2 - e.v0) (Rep G u1)
    (fun h => by have := W2 (by simpa using h); rw [l1, hE.len]; omega)
  rw [e2]; dsimp only
  obtain ⟨n3, e3, l3, g3⟩ := setIf_some (c := e.v1final || decide (Rep G u1 ≠ (e.v1 : Int))) (mate := n2) (v0 := e.v0) (v := e.v1) (j := (e.v1 : Int) - e.v0) 0
    (fun _ => ⟨rfl, i1.1, by rw [l2, l1, hE.len]; exact i1.2⟩)
  rw [e3]; dsimp only
  obtain ⟨n4, e4, l4, g4⟩ := setIf_some (c := e.v2final || decide (Rep G u2 ≠ (e.v2 : Int))) (mate := n3) (v0 := e.v0) (v := e.v2) (j := (e.v2 : Int) - e.v0) 0
    (fun _ => ⟨rfl, i2.1, by rw [l3, l2, l1, hE.len]; exact i2.2⟩)
  have hget : ∀ v, e.v0 ≤ v → v < e.v0 + sz G → n4[v - e.v0]? =
      if (e.v2final || decide (Rep G u2 ≠ (e.v2 : Int))) = true ∧ v = e.v2 then some 0
      else if (e.v1final || decide (Rep G u1 ≠ (e.v1 : Int))) = true ∧ v = e.v1 then some 0
      else if decide (0 < Rep G u2) = true ∧ v = u2 then some (Rep G u1)
      else if decide (0 < Rep G u1) = true ∧ v = u1 then some (Rep G u2)
      else mate[v - e.v0]? := by
    intro v h1 h2
    rw [g4 v h1 (by rw [l3, l2, l1, hE.len]; exact h2), g3 v h1 (by rw [l2, l1, hE.len]; exact h2), g2 v h1 (by rw [l1, hE.len]; exact h2), g1 v h1 (by rw [hE.len]; exact h2)]
  refine ⟨n4, e4, by rw [l4, l3, l2, l1, hE.len], fun v h1 h2 ha => ?_, fun v h1 h2 ha => ?_⟩
  · rw [hget v h1 h2]
    have hvp := (ha.range hH).1
    by_cases c2 : (e.v2final || decide (Rep G u2 ≠ (e.v2 : Int))) = true ∧ v = e.v2
    · rw [if_pos c2]
      obtain ⟨c, rfl⟩ := c2
      refine ⟨0, rfl, .inr ⟨rfl, ?_⟩⟩
      rw [Bool.or_eq_true, decide_eq_true_eq] at c
      rcases c with c | c
      · exact absurd ha (not_act_of_final2 hH he c)
      · by_cases hv : u2 = e.v2
        · right; left
          refine ⟨fun hc => c (by rw [hv, rep_zero hc]), u1, hne1, ?_⟩
          rw [hv] at j1; exact j1.symm
        · exact .inl (j4 hv)
    rw [if_neg c2]
    by_cases c1 : (e.v1final || decide (Rep G u1 ≠ (e.v1 : Int))) = true ∧ v = e.v1
    · rw [if_pos c1]
      obtain ⟨c, rfl⟩ := c1
      refine ⟨0, rfl, .inr ⟨rfl, ?_⟩⟩
      rw [Bool.or_eq_true, decide_eq_true_eq] at c
      rcases c with c | c
      · exact absurd ha (not_act_of_final1 hH he c)
      · by_cases hv : u1 = e.v1
        · right; left
          refine ⟨fun hc => c (by rw [hv, rep_zero hc]), u2, hne2, ?_⟩
          rw [hv] at j1; exact j1
        · exact .inl (j3 hv)
    rw [if_neg c1]
    by_cases c3 : decide (0 < Rep G u2) = true ∧ v = u2
    · rw [if_pos c3]
      obtain ⟨c, rfl⟩ := c3
      exact ⟨_, rfl, .inl ⟨u1, j1.symm, rfl, .inl (W2 (by simpa using c)).2.1⟩⟩
    rw [if_neg c3]
    by_cases c4 : decide (0 < Rep G u1) = true ∧ v = u1
    · rw [if_pos c4]
      obtain ⟨c, rfl⟩ := c4
      exact ⟨_, rfl, .inl ⟨u2, j1, rfl, .inl (W1 (by simpa using c)).2.1⟩⟩
    rw [if_neg c4]
    obtain ⟨w, hw, hm⟩ := hE.val v h1 h2 ha.pred
    refine ⟨w, hw, ?_⟩
    -- the endpoints have been dealt with
    have hv1 : v ≠ e.v1 := by
      rintro rfl
      have hrep : Rep G u1 = (e.v1 : Int) := Classical.byContradiction fun h => c1 ⟨by simp [h], rfl⟩
      have h5 := (rep_nat hrep).1
      exact c4 ⟨by rw [hrep]; simp; omega, h5.symm⟩
    have hv2 : v ≠ e.v2 := by
      rintro rfl
      have hrep : Rep G u2 = (e.v2 : Int) := Classical.byContradiction fun h => c2 ⟨by simp [h], rfl⟩
      have h5 := (rep_nat hrep).1
      exact c3 ⟨by rw [hrep]; simp; omega, h5.symm⟩
    -- the other ends if they are coloured
    by_cases hu1 : v = u1
    · subst hu1
      have hc : G.color v ≠ 0 := fun hc => c4 ⟨by rw [rep_zero hc]; simp; omega, rfl⟩
      rcases hm with ⟨u, h1, _, h3⟩ | ⟨h1, _⟩
      · have := hu.end1.symm.unique h1
        rcases h3 with h3 | h3
        · exact absurd h3 hc
        · exact absurd (h3.symm.trans this.symm) hv1
      · exact .inr ⟨h1, .inr (.inl ⟨hc, u2, Ne.symm j2, j1⟩)⟩
    by_cases hu2 : v = u2
    · subst hu2
      have hc : G.color v ≠ 0 := fun hc => c3 ⟨by rw [rep_zero hc]; simp; omega, rfl⟩
      rcases hm with ⟨u, h1, _, h3⟩ | ⟨h1, _⟩
      · have := hu.end2.symm.unique h1
        rcases h3 with h3 | h3
        · exact absurd h3 hc
        · exact absurd (h3.symm.trans this.symm) hv2
      · exact .inr ⟨h1, .inr (.inl ⟨hc, u1, j2, j1.symm⟩)⟩
    rcases hm.succ with ⟨u, h1, h2, h3⟩ | ⟨h, h' | ⟨h1, u, h2, h3⟩ | ⟨h1, h2, h3⟩⟩
    · exact .inl ⟨u, j5 v u h1 hv1 hu1 hv2 hu2, h2, h3⟩
    · exact .inr ⟨h, .inl (j6 v h')⟩
    · exact .inr ⟨h, .inr (.inl ⟨h1, u, h2, j5 v u h3 hv1 hu1 hv2 hu2⟩)⟩
    · exact .inr ⟨h, .inr (.inr ⟨h1, j5 v v h2 hv1 hu1 hv2 hu2, h3⟩)⟩
  · rw [hget v h1 h2]
    by_cases c2 : (e.v2final || decide (Rep G u2 ≠ (e.v2 : Int))) = true ∧ v = e.v2
    · rw [if_pos c2]
    rw [if_neg c2]
    by_cases c1 : (e.v1final || decide (Rep G u1 ≠ (e.v1 : Int))) = true ∧ v = e.v1
    · rw [if_pos c1]
    rw [if_neg c1]
    have hv1 : v ≠ e.v1 := by
      rintro rfl
      cases hf : e.v1final with
      | false => exact absurd (act_of_not_final1 hH he hf) ha
      | true => exact absurd ⟨by rw [hf]; rfl, rfl⟩ c1
    have hv2 : v ≠ e.v2 := by
      rintro rfl
      cases hf : e.v2final with
      | false => exact absurd (act_of_not_final2 hH he hf) ha
      | true => exact absurd ⟨by rw [hf]; rfl, rfl⟩ c2
    rw [if_neg, if_neg]
    · exact hE.out v h1 h2 fun h => ha (h.succ he hv1 hv2)
    · rintro ⟨c, rfl⟩
      exact ha ((hS.open1 v e.v1 hu.end1.symm (Ne.symm hv1) (W1 (by simpa using c)).2.1).succ he hv1 hv2)
    · rintro ⟨c, rfl⟩
      exact ha ((hS.open1 v e.v2 hu.end2.symm (Ne.symm hv2) (W2 (by simpa using c)).2.1).succ he hv1 hv2)

end TdZdd.Sp
