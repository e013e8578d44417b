import Verif.DegreeConstraint
import Verif.GraphProofs5
import Verif.SemanticsLemmas

/-! Proofs about `DegreeConstraint`. -/

namespace TdZdd

open Gr

/-- edge `i` has the endpoint `v` -/
def Graph.usesB (G : Graph) (i v : Nat) : Bool :=
  match G.info[i]? with
  | some e => e.v1 == v || e.v2 == v
  | none => false

theorem usesB_iff {G : Graph} {i v : Nat} : G.usesB i v = true ↔ Uses G.info i v := by
  unfold Graph.usesB Uses
  cases h : G.info[i]? with
  | none => simp
  | some e => simp

namespace Deg

/-- degree of `v` in the edges taken among the first `i` -/
def pdeg (G : Graph) (a : Asg 2) (i v : Nat) : Nat := ((List.range i).filter fun j => a (G.info.length - j) == 1 && G.usesB j v).length

/-- number of edges at `v` among the first `i` -/
def allDeg (G : Graph) (i v : Nat) : Nat := ((List.range i).filter fun j => G.usesB j v).length

section
variable {G : Graph} {a : Asg 2}

theorem filter_range_succ (p : Nat → Bool) (i : Nat) : ((List.range (i + 1)).filter p).length = ((List.range i).filter p).length + if p i then 1 else 0 := by
  rw [List.range_succ, List.filter_append, List.length_append]
  congr 1
  by_cases h : p i = true
  · rw [if_pos h, List.filter_cons_of_pos h]; rfl
  · rw [if_neg h, List.filter_cons_of_neg h]; rfl

theorem pdeg_succ (i v : Nat) : pdeg G a (i + 1) v = pdeg G a i v + if a (G.info.length - i) == 1 && G.usesB i v then 1 else 0 :=
  filter_range_succ (fun j => a (G.info.length - j) == 1 && G.usesB j v) i

theorem allDeg_succ (i v : Nat) : allDeg G (i + 1) v = allDeg G i v + if G.usesB i v then 1 else 0 :=
  filter_range_succ (fun j => G.usesB j v) i

theorem pdeg_mono {i j v : Nat} (h : i ≤ j) : pdeg G a i v ≤ pdeg G a j v := by
  induction j with
  | zero => have : i = 0 := by omega
            subst this; exact Nat.le_refl _
  | succ j ih =>
    by_cases hj : i = j + 1
    · subst hj; exact Nat.le_refl _
    · rw [pdeg_succ]; have := ih (by omega); omega

theorem allDeg_mono {i j v : Nat} (h : i ≤ j) : allDeg G i v ≤ allDeg G j v := by
  induction j with
  | zero => have : i = 0 := by omega
            subst this; exact Nat.le_refl _
  | succ j ih =>
    by_cases hj : i = j + 1
    · subst hj; exact Nat.le_refl _
    · rw [allDeg_succ]; have := ih (by omega); omega

theorem pdeg_le (i v : Nat) : pdeg G a i v ≤ allDeg G i v := by
  induction i with
  | zero => exact Nat.le_refl _
  | succ i ih =>
    rw [pdeg_succ, allDeg_succ]
    cases G.usesB i v <;> simp
    · exact ih
    · split <;> omega

theorem pdeg_final {i j v : Nat} (h : i ≤ j) (hno : ∀ b, i ≤ b → ¬ Uses G.info b v) : pdeg G a j v = pdeg G a i v := by
  induction j with
  | zero => have : i = 0 := by omega
            subst this; rfl
  | succ j ih =>
    by_cases hj : i = j + 1
    · subst hj; rfl
    · rw [pdeg_succ, if_neg]
      · exact ih (by omega)
      · intro h'
        rw [Bool.and_eq_true, usesB_iff] at h'
        exact hno j (by omega) h'.2

theorem pdeg_zero {i v : Nat} (hno : ∀ b, b < i → ¬ Uses G.info b v) : pdeg G a i v = 0 := by
  induction i with
  | zero => rfl
  | succ i ih =>
    rw [pdeg_succ, if_neg]
    · exact ih fun b hb => hno b (by omega)
    · intro h'
      rw [Bool.and_eq_true, usesB_iff] at h'
      exact hno i (by omega) h'.2
end

/-! ### single operations -/

theorem podGet_some {α : Type} {m : List α} {i : Int} (h0 : 0 ≤ i) (h1 : i < m.length) : ∃ x, podGet m i = some x ∧ m[i.toNat]? = some x := by
  unfold podGet
  rw [if_neg (by omega), List.getElem?_eq_getElem (by omega)]
  exact ⟨_, rfl, rfl⟩

theorem podSet_some {α : Type} {m : List α} {i : Int} (x : α) (h0 : 0 ≤ i) (h1 : i < m.length) : podSet m i x = some (m.set i.toNat x) := by
  unfold podSet
  rw [if_neg (by omega)]

theorem clear_some {final : Bool} {m : List Int} {i : Int} (h0 : 0 ≤ i) (h1 : i < m.length) :
    ∃ m', dcClear final m i = some m' ∧ m'.length = m.length ∧ ∀ k : Nat, (final = true → (k : Int) ≠ i) → m'[k]? = m[k]? := by
  unfold dcClear
  cases final with
  | false => exact ⟨m, rfl, rfl, fun _ _ => rfl⟩
  | true =>
    rw [if_pos rfl, podSet_some 0 h0 h1]
    refine ⟨_, rfl, List.length_set, fun k hk => ?_⟩
    have := hk rfl
    rw [List.getElem?_set_ne (by omega)]

theorem inc_some {c : Option IntSubset} {m : List Int} {i : Int} (h0 : 0 ≤ i) (h1 : i < m.length) :
    ∃ m', dcInc c m i = some m' ∧ m'.length = m.length ∧ (∀ k : Nat, (k : Int) ≠ i → m'[k]? = m[k]?) ∧
      ∀ w, c.isSome → m[i.toNat]? = some w → m'[i.toNat]? = some (wrap16 (w + 1)) := by
  unfold dcInc
  cases c with
  | none => exact ⟨m, rfl, rfl, fun _ _ => rfl, fun _ h => by cases h⟩
  | some c =>
    dsimp only
    obtain ⟨x, e1, e2⟩ := podGet_some h0 h1
    rw [e1]
    dsimp only [Option.bind]
    rw [podSet_some _ h0 h1]
    refine ⟨_, rfl, List.length_set, fun k hk => ?_, fun w _ hw => ?_⟩
    · rw [List.getElem?_set_ne (by omega)]
    · rw [e2] at hw
      injection hw with hw
      rw [List.getElem?_set_self (by omega), hw]

theorem shift_some {α : Type} {z : α} {M : Nat} {m : List α} {d : Int} (h0 : 0 ≤ d) (h1 : d ≤ M) (hm : m.length = M) :
    ∃ m', shiftMate z M m d = some m' ∧ m'.length = M ∧ ∀ k : Nat, k < M → m'[k]? = if k + d.toNat < M then m[k + d.toNat]? else some z := by
  unfold shiftMate
  rw [if_neg (by omega)]
  by_cases hd : d = 0
  · rw [if_pos hd]
    refine ⟨m, rfl, hm, fun k hk => ?_⟩
    subst hd
    simp [hk]
  · rw [if_neg hd, if_neg (by omega)]
    refine ⟨_, rfl, by rw [List.length_append, List.length_drop, List.length_replicate]; omega, fun k hk => ?_⟩
    by_cases h : k + d.toNat < M
    · rw [if_pos h, List.getElem?_append_left (by rw [List.length_drop]; omega), List.getElem?_drop, Nat.add_comm]
    · rw [if_neg h, List.getElem?_append_right (by rw [List.length_drop]; omega), List.getElem?_replicate, if_pos]
      rw [List.length_drop]; omega

theorem wrap16_eq {x : Int} (h1 : -2 ^ 15 ≤ x) (h2 : x < 2 ^ 15) : wrap16 x = x := by
  unfold wrap16
  rw [Int.emod_eq_of_lt (by omega) (by omega)]; omega

/-! ### totality -/

section
variable {G : Graph} {cs : Nat → Option IntSubset} {la : Bool}

/-- size of the array -/
abbrev sz (G : Graph) : Nat := G.maxFrontierSize.toNat

theorem idx1 (h : G.Ok) {i : Nat} {e : EdgeInfo} (he : G.info[i]? = some e) : 0 ≤ (e.v1 : Int) - e.v0 ∧ (e.v1 : Int) - e.v0 < sz G := by
  have h1 := h.v0_le he
  have h2 := h.range i e he
  have h3 := G.mfs_ge he
  have h4 := G.mfs_nonneg
  unfold sz; omega

theorem idx2 (h : G.Ok) {i : Nat} {e : EdgeInfo} (he : G.info[i]? = some e) : 0 ≤ (e.v2 : Int) - e.v0 ∧ (e.v2 : Int) - e.v0 < sz G := by
  have h1 := h.v0_le he
  have h2 := h.range i e he
  have h3 := G.mfs_ge he
  have h4 := G.mfs_nonneg
  unfold sz; omega

theorem shift_idx (h : G.Ok) {i : Nat} {e f : EdgeInfo} (he : G.info[i]? = some e) (hf : G.info[i + 1]? = some f) :
    0 ≤ (f.v0 : Int) - e.v0 ∧ (f.v0 : Int) - e.v0 ≤ sz G := by
  have h1 := h.v0_mono he hf (by omega)
  have h2 := h.shift_le he hf
  have h3 := idx2 h he
  have h4 := idx1 h he
  refine ⟨by omega, ?_⟩
  by_cases hd : e.v0 + 1 < f.v0
  · have := h2.2.2 hd; omega
  · omega

/-- clearing and moving on to the next edge -/
theorem move_some (h : G.Ok) {i : Nat} {e f : EdgeInfo} (he : G.info[i]? = some e) (hf : G.info[i + 1]? = some f) {mate : List Int} (hm : mate.length = sz G) :
    ∃ m1 m2 m3, dcClear e.v1final mate ((e.v1 : Int) - e.v0) = some m1 ∧ dcClear e.v2final m1 ((e.v2 : Int) - e.v0) = some m2 ∧
      shiftMate 0 (sz G) m2 ((f.v0 : Int) - e.v0) = some m3 ∧ m3.length = sz G ∧
      ∀ v, f.v0 ≤ v → v < f.v0 + sz G → (∃ b, i + 1 ≤ b ∧ Uses G.info b v) →
        m3[v - f.v0]? = if v < e.v0 + sz G then mate[v - e.v0]? else some 0 := by
  have hi1 := idx1 h he
  have hi2 := idx2 h he
  obtain ⟨m1, e1, l1, g1⟩ := clear_some (final := e.v1final) hi1.1 (by rw [hm]; exact hi1.2)
  obtain ⟨m2, e2, l2, g2⟩ := clear_some (final := e.v2final) (m := m1) hi2.1 (by rw [l1, hm]; exact hi2.2)
  have hsh := shift_idx h he hf
  obtain ⟨m3, e3, l3, g3⟩ := shift_some (z := (0 : Int)) hsh.1 hsh.2 (by rw [l2, l1, hm])
  refine ⟨m1, m2, m3, e1, e2, e3, l3, fun v hv1 hv2 hact => ?_⟩
  have hmono := h.v0_mono he hf (by omega)
  rw [g3 _ (by omega)]
  by_cases hv : v < e.v0 + sz G
  · rw [if_pos (by omega), if_pos hv]
    rw [show v - f.v0 + ((f.v0 : Int) - e.v0).toNat = v - e.v0 by omega]
    obtain ⟨b, hb, hu⟩ := hact
    rw [g2, g1]
    · intro hfin heq
      have := (h.final1 i e he).1 hfin b hb
      have hve : v = e.v1 := by omega
      exact this (hve ▸ hu)
    · intro hfin heq
      have := (h.final2 i e he).1 hfin b hb
      have hve : v = e.v2 := by omega
      exact this (hve ▸ hu)
  · rw [if_neg (by omega), if_neg hv]

/-- the result of `getChild` is legal -/
def Legal (G : Graph) (l : Nat) (r : Int × List Int) : Prop := r.1 = 0 ∨ r.1 = -1 ∨ (1 ≤ r.1 ∧ r.1 ≤ l ∧ r.2.length = sz G)

theorem clears_some (h : G.Ok) {i : Nat} {e : EdgeInfo} (he : G.info[i]? = some e) {mate : List Int} (hm : mate.length = sz G) :
    ∃ m1 m2, dcClear e.v1final mate ((e.v1 : Int) - e.v0) = some m1 ∧ dcClear e.v2final m1 ((e.v2 : Int) - e.v0) = some m2 := by
  have hi1 := idx1 h he
  have hi2 := idx2 h he
  obtain ⟨m1, e1, l1, g1⟩ := clear_some (final := e.v1final) hi1.1 (by rw [hm]; exact hi1.2)
  obtain ⟨m2, e2, l2, g2⟩ := clear_some (final := e.v2final) (m := m1) hi2.1 (by rw [l1, hm]; exact hi2.2)
  exact ⟨m1, m2, e1, e2⟩

theorem look_legal (h : G.Ok) : ∀ (fuel i : Nat) (mate : List Int), mate.length = sz G → i < G.info.length → G.info.length ≤ fuel + i →
    ∃ r, dcLook G cs la fuel i mate = some r ∧ Legal G (G.info.length - i) r
  | 0, i, mate, _, h1, h2 => by omega
  | fuel + 1, i, mate, hm, hi, hf => by
    unfold dcLook
    by_cases hla : la = false
    · rw [if_pos hla]; exact ⟨_, rfl, .inr (.inr ⟨by dsimp only; omega, by dsimp only; omega, hm⟩)⟩
    rw [if_neg hla]
    have he : G.info[i]? = some G.info[i] := List.getElem?_eq_getElem hi
    generalize G.info[i] = e at he
    obtain ⟨w1, p1, _⟩ := podGet_some (m := mate) (idx1 h he).1 (by rw [hm]; exact (idx1 h he).2)
    obtain ⟨w2, p2, _⟩ := podGet_some (m := mate) (idx2 h he).1 (by rw [hm]; exact (idx2 h he).2)
    have hr := h.range i e he
    rw [he]; dsimp only [Option.bind]
    rw [p1]; dsimp only
    rw [p2]; dsimp only
    rw [if_neg (by omega)]
    split
    · exact ⟨_, rfl, .inr (.inr ⟨by dsimp only; omega, by dsimp only; omega, hm⟩)⟩
    split
    · exact ⟨_, rfl, .inl rfl⟩
    split
    · exact ⟨_, rfl, .inl rfl⟩
    by_cases hlast : i + 1 = G.info.length
    · obtain ⟨m1, m2, e1, e2⟩ := clears_some h he hm
      rw [e1]; dsimp only
      rw [e2]; dsimp only
      rw [if_pos hlast]
      exact ⟨_, rfl, .inr (.inl rfl)⟩
    · have hf' : G.info[i + 1]? = some G.info[i + 1] := List.getElem?_eq_getElem (by omega)
      generalize G.info[i + 1] = f at hf'
      obtain ⟨m1, m2, m3, e1, e2, e3, l3, _⟩ := move_some h he hf' hm
      rw [e1]; dsimp only
      rw [e2]; dsimp only
      rw [if_neg hlast, hf']; dsimp only
      rw [e3]; dsimp only
      obtain ⟨r, er, hr⟩ := look_legal h fuel (i + 1) m3 l3 (by omega) (by omega)
      refine ⟨r, er, ?_⟩
      rcases hr with hr | hr | hr
      · exact .inl hr
      · exact .inr (.inl hr)
      · exact .inr (.inr ⟨hr.1, by omega, hr.2.2⟩)

theorem next_legal (h : G.Ok) {i : Nat} {e : EdgeInfo} (he : G.info[i]? = some e) {mate : List Int} (hm : mate.length = sz G) :
    ∃ r, dcNext G cs la i e mate = some r ∧ Legal G (G.info.length - i - 1) r := by
  unfold dcNext
  have hi : i < G.info.length := (List.getElem?_eq_some_iff.1 he).1
  by_cases hlast : i + 1 = G.info.length
  · obtain ⟨m1, m2, e1, e2⟩ := clears_some h he hm
    rw [e1]; dsimp only [Option.bind]
    rw [e2]; dsimp only
    rw [if_pos hlast]
    exact ⟨_, rfl, .inr (.inl rfl)⟩
  · have hf' : G.info[i + 1]? = some G.info[i + 1] := List.getElem?_eq_getElem (by omega)
    generalize G.info[i + 1] = f at hf'
    obtain ⟨m1, m2, m3, e1, e2, e3, l3, _⟩ := move_some h he hf' hm
    rw [e1]; dsimp only [Option.bind]
    rw [e2]; dsimp only
    rw [if_neg hlast, hf']; dsimp only
    rw [e3]; dsimp only
    obtain ⟨r, er, hr⟩ := look_legal h G.info.length (i + 1) m3 l3 (by omega) (by omega)
    exact ⟨r, er, by rw [show G.info.length - i - 1 = G.info.length - (i + 1) by omega]; exact hr⟩

theorem child_legal (h : G.Ok) {mate : List Int} {level : Nat} (take : Bool) (hm : mate.length = sz G) (h1 : 1 ≤ level) (h2 : level ≤ G.info.length) :
    ∃ r, dcChild G cs la mate level take = some r ∧ Legal G (level - 1) r := by
  unfold dcChild
  rw [if_neg (by omega)]
  have he : G.info[G.info.length - level]? = some G.info[G.info.length - level] := List.getElem?_eq_getElem (by omega)
  generalize G.info[G.info.length - level] = e at he
  obtain ⟨w1, p1, _⟩ := podGet_some (m := mate) (idx1 h he).1 (by rw [hm]; exact (idx1 h he).2)
  obtain ⟨w2, p2, _⟩ := podGet_some (m := mate) (idx2 h he).1 (by rw [hm]; exact (idx2 h he).2)
  have hr := h.range _ e he
  rw [he]; dsimp only [Option.bind]
  rw [p1]; dsimp only
  rw [p2]; dsimp only
  rw [if_neg (by omega)]
  have hlev : level - 1 = G.info.length - (G.info.length - level) - 1 := by omega
  cases take with
  | true =>
    rw [if_pos rfl]
    split
    · exact ⟨_, rfl, .inl rfl⟩
    split
    · exact ⟨_, rfl, .inl rfl⟩
    obtain ⟨m1, e1, l1, _⟩ := inc_some (c := cs e.v1) (m := mate) (idx1 h he).1 (by rw [hm]; exact (idx1 h he).2)
    obtain ⟨m2, e2, l2, _⟩ := inc_some (c := cs e.v2) (m := m1) (idx2 h he).1 (by rw [l1, hm]; exact (idx2 h he).2)
    rw [e1]; dsimp only
    rw [e2]; dsimp only
    rw [hlev]
    exact next_legal h he (by rw [l2, l1, hm])
  | false =>
    rw [if_neg (by simp)]
    split
    · exact ⟨_, rfl, .inl rfl⟩
    split
    · exact ⟨_, rfl, .inl rfl⟩
    rw [hlev]
    exact next_legal h he hm

theorem child_eq {mate : List Int} {l : Nat} {b : Fin 2} {r : Int × List Int} (h : dcChild G cs la mate l (b != 0) = some r) :
    (degreeConstraint G cs la).child mate l b = r := by
  show (dcChild G cs la mate l (b != 0)).getD _ = r
  rw [h]; rfl

theorem reach_inv (h : G.Ok) {l : Int} {s : List Int} (hr : Reach (degreeConstraint G cs la) l s) : 1 ≤ l → l ≤ G.info.length ∧ s.length = sz G := by
  induction hr with
  | root =>
    intro _
    exact ⟨Int.le_refl _, List.length_replicate ..⟩
  | step b hn hr ih =>
    intro hl
    rename_i n s
    have ih := ih (by omega)
    obtain ⟨r, er, hleg⟩ := child_legal (cs := cs) (la := la) h (level := n) (b != 0) ih.2 (by omega) (by omega)
    rw [child_eq er] at hl ⊢
    rcases hleg with h1 | h1 | h1
    · omega
    · omega
    · exact ⟨by omega, h1.2.2⟩

theorem desc (h : G.Ok) : Desc (degreeConstraint G cs la) where
  root_ge := by show (-1 : Int) ≤ ((G.info.length : Nat) : Int); omega
  child_lt b hn hr := by
    rename_i n s
    have hi := reach_inv h hr (by omega)
    obtain ⟨r, er, hleg⟩ := child_legal (cs := cs) (la := la) h (level := n) (b != 0) hi.2 (by omega) (by omega)
    rw [child_eq er]
    rcases hleg with h1 | h1 | h1 <;> omega
  child_ge b hn hr := by
    rename_i n s
    have hi := reach_inv h hr (by omega)
    obtain ⟨r, er, hleg⟩ := child_legal (cs := cs) (la := la) h (level := n) (b != 0) hi.2 (by omega) (by omega)
    rw [child_eq er]
    rcases hleg with h1 | h1 | h1 <;> omega


/-! ### correctness -/

/-- what is assumed of the graph and the constraints -/
structure Hyp (G : Graph) (cs : Nat → Option IntSubset) : Prop where
  ok : G.Ok
  loop : ∀ (i : Nat) e, G.info[i]? = some e → e.v1 ≠ e.v2
  upper : ∀ v c, cs v = some c → ∀ x : Int, c.contains x = true → x ≤ c.upper
  small : ∀ v, (cs v).isSome → allDeg G G.info.length v ≤ 32767

/-- the array holds the degrees of the constrained vertices that will be used again -/
structure Enc (G : Graph) (cs : Nat → Option IntSubset) (a : Asg 2) (i : Nat) (v0 : Nat) (mate : List Int) : Prop where
  len : mate.length = sz G
  val : ∀ v, (cs v).isSome → (∃ b, i ≤ b ∧ Uses G.info b v) → v0 ≤ v → v < v0 + sz G → mate[v - v0]? = some ((pdeg G a i v : Nat) : Int)

/-- the constraints of the vertices that will be used again hold in the end -/
def Sat (G : Graph) (cs : Nat → Option IntSubset) (a : Asg 2) (i : Nat) : Prop :=
  ∀ v, (∃ b, i ≤ b ∧ Uses G.info b v) → ∀ c, cs v = some c → c.contains (pdeg G a G.info.length v) = true

variable {a : Asg 2}

theorem sat_end : Sat G cs a G.info.length := by
  rintro v ⟨b, hb, e, he, _⟩
  have := (List.getElem?_eq_some_iff.1 he).1
  omega

theorem sat_mono {i : Nat} (h : Sat G cs a i) : Sat G cs a (i + 1) := fun v ⟨b, hb, hu⟩ c hc => h v ⟨b, by omega, hu⟩ c hc

/-- a vertex of the edge: the array element and the flag -/
structure AtEdge (G : Graph) (cs : Nat → Option IntSubset) (a : Asg 2) (i v : Nat) (w : Int) (final : Bool) : Prop where
  use : Uses G.info i v
  val : (cs v).isSome → w = (pdeg G a i v : Nat)
  fin : final = true ↔ ∀ b, i < b → ¬ Uses G.info b v

theorem AtEdge.final_deg {i v : Nat} {w : Int} {final : Bool} (h : AtEdge G cs a i v w final) (hf : final = true) (hi : i < G.info.length) :
    pdeg G a G.info.length v = pdeg G a (i + 1) v :=
  pdeg_final (by omega) fun b hb => (h.fin.1 hf) b (by omega)

theorem AtEdge.succ {i v : Nat} {w : Int} {final : Bool} (h : AtEdge G cs a i v w final) :
    pdeg G a (i + 1) v = pdeg G a i v + if a (G.info.length - i) = 1 then 1 else 0 := by
  rw [pdeg_succ, usesB_iff.2 h.use, Bool.and_true]
  simp

theorem AtEdge.not_takable (hH : Hyp G cs) {i v : Nat} {w : Int} {final : Bool} (h : AtEdge G cs a i v w final) (hi : i < G.info.length)
    (hta : a (G.info.length - i) = 1) (ht : dcTakable (cs v) w final = false) : ¬ Sat G cs a i := by
  intro hs
  have hsu := h.succ
  rw [if_pos hta] at hsu
  have hmono := pdeg_mono (G := G) (a := a) (i := i + 1) (j := G.info.length) (v := v) (by omega)
  unfold dcTakable at ht
  cases hc : cs v with
  | none => rw [hc] at ht; cases ht
  | some c =>
    have hw := h.val (by rw [hc]; rfl)
    have hcon := hs v ⟨i, Nat.le_refl _, h.use⟩ c hc
    have hup := hH.upper v c hc _ hcon
    rw [hc] at ht
    dsimp only at ht
    split at ht
    · omega
    · rw [Bool.or_eq_false_iff] at ht
      have hf : final = true := by simpa using ht.1
      rw [h.final_deg hf hi, hsu] at hcon
      rw [hw, ← Int.natCast_succ] at ht
      rw [ht.2] at hcon
      cases hcon

theorem AtEdge.not_leavable {i v : Nat} {w : Int} {final : Bool} (h : AtEdge G cs a i v w final) (hi : i < G.info.length)
    (hta : a (G.info.length - i) ≠ 1) (ht : dcLeavable (cs v) w final = false) : ¬ Sat G cs a i := by
  intro hs
  have hsu := h.succ
  rw [if_neg hta] at hsu
  unfold dcLeavable at ht
  cases hc : cs v with
  | none => rw [hc] at ht; cases ht
  | some c =>
    have hw := h.val (by rw [hc]; rfl)
    have hcon := hs v ⟨i, Nat.le_refl _, h.use⟩ c hc
    rw [hc] at ht
    dsimp only at ht
    rw [Bool.or_eq_false_iff] at ht
    have hf : final = true := by simpa using ht.1
    rw [h.final_deg hf hi, hsu] at hcon
    rw [hw] at ht
    rw [Nat.add_zero, ht.2] at hcon
    cases hcon

/-- the check of a vertex that is used for the last time -/
theorem AtEdge.check {i v : Nat} {w : Int} {final : Bool} (h : AtEdge G cs a i v w final) (hi : i < G.info.length)
    (hok : (a (G.info.length - i) = 1 ∧ dcTakable (cs v) w final = true) ∨ (a (G.info.length - i) ≠ 1 ∧ dcLeavable (cs v) w final = true))
    (hf : final = true) {c : IntSubset} (hc : cs v = some c) : c.contains (pdeg G a G.info.length v) = true := by
  have hw := h.val (by rw [hc]; rfl)
  rw [h.final_deg hf hi, h.succ]
  rcases hok with ⟨hta, ht⟩ | ⟨hta, ht⟩
  · rw [if_pos hta]
    unfold dcTakable at ht
    rw [hc] at ht
    dsimp only at ht
    split at ht
    · cases ht
    · rw [hf, hw, ← Int.natCast_succ] at ht
      simpa using ht
  · rw [if_neg hta]
    unfold dcLeavable at ht
    rw [hc] at ht
    dsimp only at ht
    rw [hf, hw] at ht
    simpa using ht

theorem sat_step {i : Nat} {e : EdgeInfo} (he : G.info[i]? = some e) {w1 w2 : Int} (h1 : AtEdge G cs a i e.v1 w1 e.v1final) (h2 : AtEdge G cs a i e.v2 w2 e.v2final)
    (hok : (a (G.info.length - i) = 1 ∧ dcTakable (cs e.v1) w1 e.v1final = true ∧ dcTakable (cs e.v2) w2 e.v2final = true) ∨
      (a (G.info.length - i) ≠ 1 ∧ dcLeavable (cs e.v1) w1 e.v1final = true ∧ dcLeavable (cs e.v2) w2 e.v2final = true)) :
    Sat G cs a i ↔ Sat G cs a (i + 1) := by
  have hi : i < G.info.length := (List.getElem?_eq_some_iff.1 he).1
  refine ⟨sat_mono, fun hs v hv c hc => ?_⟩
  by_cases hact : ∃ b, i + 1 ≤ b ∧ Uses G.info b v
  · exact hs v hact c hc
  · obtain ⟨b, hb, hu⟩ := hv
    have hbi : b = i := by
      rcases Nat.lt_or_ge i b with h | h
      · exact absurd ⟨b, h, hu⟩ hact
      · omega
    subst hbi
    have hno : ∀ c, b < c → ¬ Uses G.info c v := fun c hc hu => hact ⟨c, hc, hu⟩
    rcases (uses_get he v).1 hu with hv | hv
    · subst hv
      exact h1.check hi (hok.imp (fun x => ⟨x.1, x.2.1⟩) fun x => ⟨x.1, x.2.1⟩) (h1.fin.2 hno) hc
    · subst hv
      exact h2.check hi (hok.imp (fun x => ⟨x.1, x.2.2⟩) fun x => ⟨x.1, x.2.2⟩) (h2.fin.2 hno) hc

theorem Enc.atEdge (hH : Hyp G cs) {i : Nat} {e : EdgeInfo} (he : G.info[i]? = some e) {mate : List Int} (hm : Enc G cs a i e.v0 mate) :
    ∃ w1 w2, podGet mate ((e.v1 : Int) - e.v0) = some w1 ∧ podGet mate ((e.v2 : Int) - e.v0) = some w2 ∧ mate[e.v1 - e.v0]? = some w1 ∧ mate[e.v2 - e.v0]? = some w2 ∧
      AtEdge G cs a i e.v1 w1 e.v1final ∧ AtEdge G cs a i e.v2 w2 e.v2final := by
  have i1 := idx1 hH.ok he
  have i2 := idx2 hH.ok he
  obtain ⟨w1, p1, q1⟩ := podGet_some (m := mate) i1.1 (by rw [hm.len]; exact i1.2)
  obtain ⟨w2, p2, q2⟩ := podGet_some (m := mate) i2.1 (by rw [hm.len]; exact i2.2)
  rw [show ((e.v1 : Int) - e.v0).toNat = e.v1 - e.v0 by omega] at q1
  rw [show ((e.v2 : Int) - e.v0).toNat = e.v2 - e.v0 by omega] at q2
  refine ⟨w1, w2, p1, p2, q1, q2, ⟨⟨e, he, .inl rfl⟩, fun hc => ?_, hH.ok.final1 i e he⟩, ⟨⟨e, he, .inr rfl⟩, fun hc => ?_, hH.ok.final2 i e he⟩⟩
  · have := hm.val e.v1 hc ⟨i, Nat.le_refl _, e, he, .inl rfl⟩ (by omega) (by omega)
    rw [q1] at this; exact Option.some.inj this
  · have := hm.val e.v2 hc ⟨i, Nat.le_refl _, e, he, .inr rfl⟩ (by omega) (by omega)
    rw [q2] at this; exact Option.some.inj this

/-- after the edge -/
theorem move_enc (hH : Hyp G cs) {i : Nat} {e f : EdgeInfo} (he : G.info[i]? = some e) (hf : G.info[i + 1]? = some f) {mate : List Int}
    (hlen : mate.length = sz G)
    (hval : ∀ v, (cs v).isSome → (∃ b, i + 1 ≤ b ∧ Uses G.info b v) → e.v0 ≤ v → v < e.v0 + sz G → mate[v - e.v0]? = some ((pdeg G a (i + 1) v : Nat) : Int)) :
    ∃ m1 m2 m3, dcClear e.v1final mate ((e.v1 : Int) - e.v0) = some m1 ∧ dcClear e.v2final m1 ((e.v2 : Int) - e.v0) = some m2 ∧
      shiftMate 0 (sz G) m2 ((f.v0 : Int) - e.v0) = some m3 ∧ Enc G cs a (i + 1) f.v0 m3 := by
  obtain ⟨m1, m2, m3, e1, e2, e3, l3, g⟩ := move_some hH.ok he hf hlen
  refine ⟨m1, m2, m3, e1, e2, e3, l3, fun v hc hact hv1 hv2 => ?_⟩
  rw [g v hv1 hv2 hact]
  have hmono := hH.ok.v0_mono he hf (by omega)
  by_cases hv : v < e.v0 + sz G
  · rw [if_pos hv]
    exact hval v hc hact (by omega) hv
  · rw [if_neg hv, pdeg_zero]
    · rfl
    · intro b hb hu
      obtain ⟨c, hc', hu'⟩ := hact
      have := hH.ok.window_mem he (by omega : b ≤ i) hu (by omega : i ≤ c) hu'
      have hnn := G.mfs_nonneg
      unfold sz at hv; omega

theorem not_use_ne {i : Nat} {e : EdgeInfo} (he : G.info[i]? = some e) {v : Nat} (h1 : v ≠ e.v1) (h2 : v ≠ e.v2) : pdeg G a (i + 1) v = pdeg G a i v := by
  rw [pdeg_succ, if_neg, Nat.add_zero]
  intro h
  rw [Bool.and_eq_true, usesB_iff, uses_get he] at h
  rcases h.2 with h | h
  · exact h1 h.symm
  · exact h2 h.symm

/-- leaving the edge out -/
theorem Enc.leave {i : Nat} {mate : List Int} {v0 : Nat} (hm : Enc G cs a i v0 mate) (hta : a (G.info.length - i) ≠ 1) :
    ∀ v, (cs v).isSome → (∃ b, i + 1 ≤ b ∧ Uses G.info b v) → v0 ≤ v → v < v0 + sz G → mate[v - v0]? = some ((pdeg G a (i + 1) v : Nat) : Int) := by
  intro v hc ⟨b, hb, hu⟩ h1 h2
  rw [hm.val v hc ⟨b, by omega, hu⟩ h1 h2, pdeg_succ, if_neg]
  · rfl
  · intro h
    rw [Bool.and_eq_true] at h
    exact hta (by simpa using h.1)

theorem inc_bound (hH : Hyp G cs) {i v : Nat} (hi : i < G.info.length) (hc : (cs v).isSome) : pdeg G a (i + 1) v ≤ 32767 :=
  Nat.le_trans (pdeg_le _ _) (Nat.le_trans (allDeg_mono (by omega)) (hH.small v hc))

/-- taking the edge -/
theorem Enc.take (hH : Hyp G cs) {i : Nat} {e : EdgeInfo} (he : G.info[i]? = some e) {mate : List Int} (hm : Enc G cs a i e.v0 mate) (hta : a (G.info.length - i) = 1) :
    ∃ m1 m2, dcInc (cs e.v1) mate ((e.v1 : Int) - e.v0) = some m1 ∧ dcInc (cs e.v2) m1 ((e.v2 : Int) - e.v0) = some m2 ∧ m2.length = sz G ∧
      ∀ v, (cs v).isSome → (∃ b, i + 1 ≤ b ∧ Uses G.info b v) → e.v0 ≤ v → v < e.v0 + sz G → m2[v - e.v0]? = some ((pdeg G a (i + 1) v : Nat) : Int) := by
  have hi : i < G.info.length := (List.getElem?_eq_some_iff.1 he).1
  obtain ⟨w1, w2, p1, p2, q1, q2, a1, a2⟩ := hm.atEdge hH he
  have i1 := idx1 hH.ok he
  have i2 := idx2 hH.ok he
  have hne := hH.loop i e he
  obtain ⟨m1, e1, l1, g1, k1⟩ := inc_some (c := cs e.v1) (m := mate) i1.1 (by rw [hm.len]; exact i1.2)
  obtain ⟨m2, e2, l2, g2, k2⟩ := inc_some (c := cs e.v2) (m := m1) i2.1 (by rw [l1, hm.len]; exact i2.2)
  rw [show ((e.v1 : Int) - e.v0).toNat = e.v1 - e.v0 by omega] at k1
  rw [show ((e.v2 : Int) - e.v0).toNat = e.v2 - e.v0 by omega] at k2
  refine ⟨m1, m2, e1, e2, by rw [l2, l1, hm.len], fun v hc hact h1 h2 => ?_⟩
  have hwr : ∀ w : Nat, w + 1 ≤ 32767 → wrap16 ((w : Int) + 1) = ((w + 1 : Nat) : Int) := fun w hw => by rw [wrap16_eq (by omega) (by omega)]; omega
  have hb := inc_bound (a := a) hH hi hc
  by_cases hv2 : v = e.v2
  · subst hv2
    rw [k2 w2 hc (by rw [g1 _ (by omega)]; exact q2), a2.val hc]
    rw [a2.succ, if_pos hta] at hb ⊢
    rw [hwr _ hb]
  · rw [g2 _ (by omega)]
    by_cases hv1 : v = e.v1
    · subst hv1
      rw [k1 w1 hc q1, a1.val hc]
      rw [a1.succ, if_pos hta] at hb ⊢
      rw [hwr _ hb]
    · obtain ⟨b, hb, hu⟩ := hact
      rw [g1 _ (by omega), hm.val v hc ⟨b, by omega, hu⟩ h1 h2, not_use_ne he hv1 hv2]

/-- meaning of the state before edge `i` -/
def Good (G : Graph) (cs : Nat → Option IntSubset) (la : Bool) (a : Asg 2) (i : Nat) : Prop :=
  ∀ e mate, G.info[i]? = some e → Enc G cs a i e.v0 mate → Reach (degreeConstraint G cs la) ((G.info.length - i : Nat) : Int) mate →
    (ZddMemAt (degreeConstraint G cs la) (G.info.length - i) ((G.info.length - i : Nat) : Int) mate a ↔ Sat G cs a i)

/-- meaning of what `getChild` returns after the edge before `i` -/
def GoodLook (G : Graph) (cs : Nat → Option IntSubset) (la : Bool) (a : Asg 2) (i : Nat) : Prop :=
  ∀ e mate fuel r, G.info[i]? = some e → Enc G cs a i e.v0 mate → G.info.length ≤ fuel + i → dcLook G cs la fuel i mate = some r → Reach (degreeConstraint G cs la) r.1 r.2 →
    (ZddMemAt (degreeConstraint G cs la) (G.info.length - i) r.1 r.2 a ↔ Sat G cs a i)

theorem next_good (hH : Hyp G cs) {i : Nat} {e : EdgeInfo} (he : G.info[i]? = some e) (hnext : i + 1 < G.info.length → GoodLook G cs la a (i + 1)) {mate : List Int}
    (hlen : mate.length = sz G)
    (hval : ∀ v, (cs v).isSome → (∃ b, i + 1 ≤ b ∧ Uses G.info b v) → e.v0 ≤ v → v < e.v0 + sz G → mate[v - e.v0]? = some ((pdeg G a (i + 1) v : Nat) : Int))
    {r : Int × List Int} (hr : dcNext G cs la i e mate = some r) (hR : Reach (degreeConstraint G cs la) r.1 r.2) :
    ZddMemAt (degreeConstraint G cs la) (G.info.length - i - 1) r.1 r.2 a ↔ Sat G cs a (i + 1) := by
  have hi : i < G.info.length := (List.getElem?_eq_some_iff.1 he).1
  unfold dcNext at hr
  by_cases hlast : i + 1 = G.info.length
  · obtain ⟨m1, m2, e1, e2⟩ := clears_some hH.ok he hlen
    rw [e1] at hr; dsimp only [Option.bind] at hr
    rw [e2] at hr; dsimp only at hr
    rw [if_pos hlast] at hr
    injection hr with hr
    subst hr
    rw [zddMemAt_neg (by dsimp only; omega), hlast]
    exact ⟨fun _ => sat_end, fun _ j h1 h2 => by omega⟩
  · have hf' : G.info[i + 1]? = some G.info[i + 1] := List.getElem?_eq_getElem (by omega)
    generalize G.info[i + 1] = f at hf'
    obtain ⟨m1, m2, m3, e1, e2, e3, henc⟩ := move_enc hH he hf' hlen hval
    rw [e1] at hr; dsimp only [Option.bind] at hr
    rw [e2] at hr; dsimp only at hr
    rw [if_neg hlast, hf'] at hr; dsimp only at hr
    rw [e3] at hr; dsimp only at hr
    exact hnext (by omega) f m3 _ r hf' henc (by omega) hr hR

theorem good_step (hH : Hyp G cs) {i : Nat} (hnext : i + 1 < G.info.length → GoodLook G cs la a (i + 1)) : Good G cs la a i := by
  intro e mate he hm hR
  have hi : i < G.info.length := (List.getElem?_eq_some_iff.1 he).1
  obtain ⟨w1, w2, p1, p2, q1, q2, a1, a2⟩ := hm.atEdge hH he
  have hrg := hH.ok.range i e he
  rw [zddMemAt_pos (desc hH.ok) (by omega) hR (Nat.le_refl _)]
  obtain ⟨r, er, hleg⟩ := child_legal (cs := cs) (la := la) hH.ok (level := G.info.length - i) (a (G.info.length - i) != 0) hm.len (by omega) (by omega)
  have hRc := Reach.step (a (G.info.length - i)) (by omega) hR
  rw [child_eq er] at hRc ⊢
  have htriv : (∀ j, G.info.length - i < j → j ≤ G.info.length - i → (a j).val = 0) := fun j h1 h2 => by omega
  refine Iff.trans ⟨fun h => h.2, fun h => ⟨htriv, h⟩⟩ ?_
  unfold dcChild at er
  rw [if_neg (by omega), show G.info.length - (G.info.length - i) = i by omega, he] at er
  dsimp only [Option.bind] at er
  rw [p1] at er; dsimp only at er
  rw [p2] at er; dsimp only at er
  rw [if_neg (by omega)] at er
  by_cases hta : a (G.info.length - i) = 1
  · rw [if_pos (by rw [hta]; rfl)] at er
    cases ht1 : dcTakable (cs e.v1) w1 e.v1final with
    | false =>
      rw [ht1, if_pos (by decide)] at er
      injection er with er
      subst er
      exact ⟨fun h => absurd h zddMemAt_zero, fun h => absurd h (a1.not_takable hH hi hta ht1)⟩
    | true =>
      rw [ht1, if_neg (by simp)] at er
      cases ht2 : dcTakable (cs e.v2) w2 e.v2final with
      | false =>
        rw [ht2, if_pos (by decide)] at er
        injection er with er
        subst er
        exact ⟨fun h => absurd h zddMemAt_zero, fun h => absurd h (a2.not_takable hH hi hta ht2)⟩
      | true =>
        rw [ht2, if_neg (by simp)] at er
        obtain ⟨m1, m2, e1, e2, l2, hval⟩ := hm.take hH he hta
        rw [e1] at er; dsimp only at er
        rw [e2] at er; dsimp only at er
        rw [sat_step he a1 a2 (.inl ⟨hta, ht1, ht2⟩)]
        exact next_good hH he hnext l2 hval er hRc
  · rw [if_neg (by
      intro h
      have : a (G.info.length - i) ≠ 0 := by simpa using h
      apply hta
      generalize a (G.info.length - i) = x at this ⊢
      revert x; decide)] at er
    cases ht1 : dcLeavable (cs e.v1) w1 e.v1final with
    | false =>
      rw [ht1, if_pos (by decide)] at er
      injection er with er
      subst er
      exact ⟨fun h => absurd h zddMemAt_zero, fun h => absurd h (a1.not_leavable hi hta ht1)⟩
    | true =>
      rw [ht1, if_neg (by simp)] at er
      cases ht2 : dcLeavable (cs e.v2) w2 e.v2final with
      | false =>
        rw [ht2, if_pos (by decide)] at er
        injection er with er
        subst er
        exact ⟨fun h => absurd h zddMemAt_zero, fun h => absurd h (a2.not_leavable hi hta ht2)⟩
      | true =>
        rw [ht2, if_neg (by simp)] at er
        rw [sat_step he a1 a2 (.inr ⟨hta, ht1, ht2⟩)]
        exact next_good hH he hnext hm.len (hm.leave hta) er hRc

theorem look_step (hH : Hyp G cs) {i : Nat} (hgood : Good G cs la a i) (hnext : i + 1 < G.info.length → GoodLook G cs la a (i + 1)) : GoodLook G cs la a i := by
  intro e mate fuel r he hm hfuel hr hR
  have hi : i < G.info.length := (List.getElem?_eq_some_iff.1 he).1
  obtain ⟨fuel, rfl⟩ : ∃ k, fuel = k + 1 := ⟨fuel - 1, by omega⟩
  have hcast : ((G.info.length : Int) - i) = ((G.info.length - i : Nat) : Int) := by omega
  obtain ⟨w1, w2, p1, p2, q1, q2, a1, a2⟩ := hm.atEdge hH he
  have hrg := hH.ok.range i e he
  unfold dcLook at hr
  by_cases hla : la = false
  · rw [if_pos hla, hcast] at hr
    injection hr with hr
    subst hr
    exact hgood e mate he hm hR
  rw [if_neg hla, he] at hr
  dsimp only [Option.bind] at hr
  rw [p1] at hr; dsimp only at hr
  rw [p2] at hr; dsimp only at hr
  rw [if_neg (by omega)] at hr
  by_cases htk : (dcTakable (cs e.v1) w1 e.v1final && dcTakable (cs e.v2) w2 e.v2final) = true
  · rw [if_pos htk, hcast] at hr
    injection hr with hr
    subst hr
    exact hgood e mate he hm hR
  rw [if_neg htk] at hr
  -- the edge cannot be taken
  have hno : a (G.info.length - i) = 1 → ¬ Sat G cs a i := by
    intro hta
    cases ht1 : dcTakable (cs e.v1) w1 e.v1final with
    | false => exact a1.not_takable hH hi hta ht1
    | true =>
      cases ht2 : dcTakable (cs e.v2) w2 e.v2final with
      | false => exact a2.not_takable hH hi hta ht2
      | true => rw [ht1, ht2] at htk; exact absurd rfl htk
  have hval0 : a (G.info.length - i) ≠ 1 → (a (G.info.length - i)).val = 0 := by
    generalize a (G.info.length - i) = x; revert x; decide
  have hval1 : (a (G.info.length - i)).val = 0 → a (G.info.length - i) ≠ 1 := by
    generalize a (G.info.length - i) = x; revert x; decide
  cases ht1 : dcLeavable (cs e.v1) w1 e.v1final with
  | false =>
    rw [ht1, if_pos (by decide)] at hr
    injection hr with hr
    subst hr
    refine ⟨fun h => absurd h zddMemAt_zero, fun h => ?_⟩
    by_cases hta : a (G.info.length - i) = 1
    · exact absurd h (hno hta)
    · exact absurd h (a1.not_leavable hi hta ht1)
  | true =>
    rw [ht1, if_neg (by simp)] at hr
    cases ht2 : dcLeavable (cs e.v2) w2 e.v2final with
    | false =>
      rw [ht2, if_pos (by decide)] at hr
      injection hr with hr
      subst hr
      refine ⟨fun h => absurd h zddMemAt_zero, fun h => ?_⟩
      by_cases hta : a (G.info.length - i) = 1
      · exact absurd h (hno hta)
      · exact absurd h (a2.not_leavable hi hta ht2)
    | true =>
      rw [ht2, if_neg (by simp)] at hr
      by_cases hlast : i + 1 = G.info.length
      · obtain ⟨m1, m2, e1, e2⟩ := clears_some hH.ok he hm.len
        rw [e1] at hr; dsimp only at hr
        rw [e2] at hr; dsimp only at hr
        rw [if_pos hlast] at hr
        injection hr with hr
        subst hr
        rw [zddMemAt_neg (by dsimp only; omega)]
        constructor
        · intro h
          have h0 := h (G.info.length - i) (by omega) (Nat.le_refl _)
          rw [sat_step he a1 a2 (.inr ⟨hval1 h0, ht1, ht2⟩), hlast]
          exact sat_end
        · intro h j h1 h2
          have : j = G.info.length - i := by omega
          subst this
          exact hval0 fun hta => hno hta h
      · have hf' : G.info[i + 1]? = some G.info[i + 1] := List.getElem?_eq_getElem (by omega)
        generalize G.info[i + 1] = f at hf'
        obtain ⟨m1, m2, m3, e1, e2, e3, l3, g⟩ := move_some hH.ok he hf' hm.len
        rw [e1] at hr; dsimp only at hr
        rw [e2] at hr; dsimp only at hr
        rw [if_neg hlast, hf'] at hr; dsimp only at hr
        rw [e3] at hr; dsimp only at hr
        have hlt : r.1 < ((G.info.length - i : Nat) : Int) := by
          obtain ⟨r', er, hleg⟩ := look_legal (cs := cs) (la := la) hH.ok fuel (i + 1) m3 l3 (by omega) (by omega)
          rw [hr] at er
          injection er with er
          subst er
          rcases hleg with h1 | h1 | h1 <;> omega
        rw [mem_lower (desc hH.ok) hR hlt (by omega) (Nat.le_refl _)]
        constructor
        · rintro ⟨_, h0, hmem⟩
          rw [sat_step he a1 a2 (.inr ⟨hval1 h0, ht1, ht2⟩)]
          obtain ⟨m1', m2', m3', e1', e2', e3', henc⟩ := move_enc hH he hf' hm.len (hm.leave (hval1 h0))
          rw [e1] at e1'; injection e1' with e1'; subst e1'
          rw [e2] at e2'; injection e2' with e2'; subst e2'
          rw [e3] at e3'; injection e3' with e3'; subst e3'
          exact (hnext (by omega) f m3 fuel r hf' henc (by omega) hr hR).1 hmem
        · intro hs
          have hta : a (G.info.length - i) ≠ 1 := fun hta => hno hta hs
          refine ⟨fun j h1 h2 => by omega, hval0 hta, ?_⟩
          obtain ⟨m1', m2', m3', e1', e2', e3', henc⟩ := move_enc hH he hf' hm.len (hm.leave hta)
          rw [e1] at e1'; injection e1' with e1'; subst e1'
          rw [e2] at e2'; injection e2' with e2'; subst e2'
          rw [e3] at e3'; injection e3' with e3'; subst e3'
          exact (hnext (by omega) f m3 fuel r hf' henc (by omega) hr hR).2 ((sat_step he a1 a2 (.inr ⟨hta, ht1, ht2⟩)).1 hs)

theorem good_all (hH : Hyp G cs) : ∀ (k i : Nat), i + k = G.info.length → 0 < k → Good G cs la a i ∧ GoodLook G cs la a i
  | 0, _, _, h => by omega
  | k + 1, i, h, _ => by
    have hnext : i + 1 < G.info.length → GoodLook G cs la a (i + 1) := fun hlt => (good_all hH k (i + 1) (by omega) (by omega)).2
    have hg := good_step (la := la) hH hnext
    exact ⟨hg, look_step hH hg hnext⟩

/-- the family of the specification -/
theorem mem_iff (hH : Hyp G cs) (hn : 0 < G.info.length) :
    ZddMem (degreeConstraint G cs la) G.info.length a ↔ ∀ v, 1 ≤ v → v ≤ G.vMax → ∀ c, cs v = some c → c.contains (pdeg G a G.info.length v) = true := by
  have hg := (good_all (la := la) (a := a) hH G.info.length 0 (by omega) hn).1 G.info[0] (List.replicate (sz G) 0) (List.getElem?_eq_getElem hn)
    ⟨List.length_replicate .., fun v _ _ h1 h2 => by rw [List.getElem?_replicate, if_pos (by omega)]; rfl⟩ .root
  refine Iff.trans hg ⟨fun hs v h1 h2 c hc => ?_, fun hs v hv c hc => ?_⟩
  · obtain ⟨b, hb⟩ := hH.ok.occurs v h1 h2
    exact hs v ⟨b, Nat.zero_le _, hb⟩ c hc
  · obtain ⟨b, _, e, he, hv⟩ := hv
    have := hH.ok.range b e he
    exact hs v (by omega) (by omega) c hc

end

end Deg
end TdZdd
