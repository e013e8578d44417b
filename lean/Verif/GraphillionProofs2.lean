import Verif.GraphillionProofs

/-! Proofs about the table and the meaning of `GraphillionZdd` -/

namespace TdZdd

namespace Gz

/-- small enough for the table -/
structure Small (x : Line) : Prop where
  id : 48 * (x.id + 3) < 2 ^ 63
  lo : 48 * (code x.lo + 1) < 2 ^ 63
  hi : 48 * (code x.hi + 1) < 2 ^ 63
  index1 : -2147483648 ≤ x.index
  index2 : x.index ≤ 2147483647

theorem Small.fits {x : Line} (h : Small x) : Fits x := by
  have := h.id
  have := h.lo
  have := h.hi
  exact ⟨by omega, h.index1, h.index2, by omega, by omega⟩

theorem need_spec {size id : Nat} {x : GzNode} (h1 : 48 * (id + 1) < 2 ^ 63) (h2 : 48 * (x.lo + 1) < 2 ^ 63) (h3 : 48 * (x.hi + 1) < 2 ^ 63) :
    size ≤ gzNeed size id x ∧ id < gzNeed size id x ∧ (gzNeed size id x = size ∨ 48 * gzNeed size id x < 2 ^ 63) := by
  unfold gzNeed
  dsimp only
  rw [Nat.mod_eq_of_lt (show id + 1 < 2 ^ 64 by omega), Nat.mod_eq_of_lt (show x.lo + 1 < 2 ^ 64 by omega), Nat.mod_eq_of_lt (show x.hi + 1 < 2 ^ 64 by omega)]
  split <;> split <;> split <;> omega

theorem add_spec {g : Gz} {id : Nat} {x : GzNode} (h1 : 48 * (id + 1) < 2 ^ 63) (h2 : 48 * (x.lo + 1) < 2 ^ 63) (h3 : 48 * (x.hi + 1) < 2 ^ 63) :
    ∃ g', gzAdd g id x = .ok g' ∧ g'.table[id]? = some x ∧ (∀ (j : Nat) (y : GzNode), j ≠ id → g.table[j]? = some y → g'.table[j]? = some y) ∧
      g'.root = (if x.index < g.minIndex then id else g.root) ∧ g'.minIndex = (if x.index < g.minIndex then x.index else g.minIndex) ∧
      g'.maxIndex = (if g.maxIndex < x.index then x.index else g.maxIndex) := by
  obtain ⟨n1, n2, n3⟩ := need_spec (size := g.table.length) h1 h2 h3
  unfold gzAdd
  dsimp only
  generalize gzNeed g.table.length id x = n at n1 n2 n3
  by_cases hlt : g.table.length < n
  · have hn : 48 * n < 2 ^ 63 := by omega
    have hm : n * 2 % 2 ^ 64 = n * 2 := Nat.mod_eq_of_lt (by omega)
    rw [hm, if_neg (by omega), if_pos hlt]
    have hres : gzResize g.table (n * 2) = g.table ++ List.replicate (n * 2 - g.table.length) ⟨0, 0, 0⟩ := by unfold gzResize; rw [if_neg (by omega)]
    have hlen : (gzResize g.table (n * 2)).length = n * 2 := by rw [hres, List.length_append, List.length_replicate]; omega
    rw [if_pos (by omega)]
    refine ⟨_, rfl, ?_, fun j y hj hy => ?_, rfl, rfl, rfl⟩
    · dsimp only
      rw [List.getElem?_set_self (by omega)]
    · dsimp only
      rw [List.getElem?_set_ne (Ne.symm hj), hres, List.getElem?_append_left ?_]
      · exact hy
      · exact (List.getElem?_eq_some_iff.1 hy).1
  · rw [if_neg (fun h => hlt h.1), if_neg hlt, if_pos (by omega)]
    refine ⟨_, rfl, ?_, fun j y hj hy => ?_, rfl, rfl, rfl⟩
    · dsimp only
      rw [List.getElem?_set_self (by omega)]
    · dsimp only
      rw [List.getElem?_set_ne (Ne.symm hj)]
      exact hy

theorem addAll_append {g : Gz} {xs ys : List Line} : addAll g (xs ++ ys) = (addAll g xs).bind fun g => addAll g ys := by
  induction xs generalizing g with
  | nil => rfl
  | cons x xs ih =>
    rw [List.cons_append, addAll, addAll]
    cases gzAdd g (x.id + 2) (enc x) with
    | ok g' => exact ih
    | thrown => rfl
    | ub => rfl

/-- what `addAll` does -/
theorem addAll_spec {xs : List Line} : ∀ {g : Gz}, (∀ x ∈ xs, Small x) → (xs.Pairwise fun x y => x.id ≠ y.id) →
    ∃ g', addAll g xs = .ok g' ∧ (∀ x ∈ xs, g'.table[x.id + 2]? = some (enc x)) ∧
      (∀ (j : Nat) (y : GzNode), (∀ x ∈ xs, j ≠ x.id + 2) → g.table[j]? = some y → g'.table[j]? = some y) ∧
      g.maxIndex ≤ g'.maxIndex ∧ (∀ x ∈ xs, x.index ≤ g'.maxIndex) ∧ (g'.maxIndex = g.maxIndex ∨ ∃ x ∈ xs, g'.maxIndex = x.index) ∧
      (∀ k : Int, k < g.minIndex → (∀ x ∈ xs, k < x.index) → k < g'.minIndex) ∧
      ((∀ x ∈ xs, g.minIndex ≤ x.index) → g'.root = g.root ∧ g'.minIndex = g.minIndex) := by
  induction xs with
  | nil => exact fun _ _ => ⟨_, rfl, by simp, fun _ _ _ h => h, by omega, by simp, .inl rfl, fun _ h _ => h, fun _ => ⟨rfl, rfl⟩⟩
  | cons x xs ih =>
    intro g hs hp
    have hx := hs x (List.mem_cons_self ..)
    rw [List.pairwise_cons] at hp
    obtain ⟨g1, e1, t1, k1, r1, m1, M1⟩ := add_spec (g := g) (id := x.id + 2) (x := enc x) (by have := hx.id; omega) hx.lo hx.hi
    obtain ⟨g2, e2, t2, k2, Mle, M2, Me, mn, rt⟩ := ih (g := g1) (fun y hy => hs y (List.mem_cons_of_mem _ hy)) hp.2
    have hM : g1.maxIndex = if g.maxIndex < x.index then x.index else g.maxIndex := M1
    have hm : g1.minIndex = if x.index < g.minIndex then x.index else g.minIndex := m1
    have hr : g1.root = if x.index < g.minIndex then x.id + 2 else g.root := r1
    refine ⟨g2, by rw [addAll, e1]; exact e2, ?_, ?_, ?_, ?_, ?_, ?_, ?_⟩
    · intro y hy
      rcases List.mem_cons.1 hy with rfl | hy
      · exact k2 _ _ (fun z hz h => hp.1 z hz (by omega)) t1
      · exact t2 y hy
    · intro j y hj hy
      exact k2 j y (fun z hz => hj z (List.mem_cons_of_mem _ hz)) (k1 j y (hj x (List.mem_cons_self ..)) hy)
    · split at hM <;> omega
    · intro y hy
      rcases List.mem_cons.1 hy with rfl | hy
      · split at hM <;> omega
      · exact M2 y hy
    · rcases Me with Me | ⟨y, hy, Me⟩
      · split at hM
        · exact .inr ⟨x, List.mem_cons_self .., by omega⟩
        · exact .inl (by omega)
      · exact .inr ⟨y, List.mem_cons_of_mem _ hy, Me⟩
    · intro k h1 h2
      refine mn k ?_ fun y hy => h2 y (List.mem_cons_of_mem _ hy)
      have := h2 x (List.mem_cons_self ..)
      split at hm <;> omega
    · intro h
      have := h x (List.mem_cons_self ..)
      rw [if_neg (by omega)] at hm hr
      rw [← hm, ← hr]
      exact rt fun y hy => by rw [hm]; exact h y (List.mem_cons_of_mem _ hy)

/-- The object after reading: the table has the nodes, `maxIndex` is the maximum, and the root is `r`. -/
structure Holds (g : Gz) (ns : List Line) (r : Line) : Prop where
  mem : r ∈ ns
  table : ∀ x ∈ ns, g.table[x.id + 2]? = some (enc x)
  max : ∀ x ∈ ns, x.index ≤ g.maxIndex
  maxEq : ∃ x ∈ ns, g.maxIndex = x.index
  root : g.root = r.id + 2

theorem addAll_holds {pre post : List Line} {r : Line} (hs : ∀ x ∈ pre ++ r :: post, Small x) (hp : (pre ++ r :: post).Pairwise fun x y => x.id ≠ y.id)
    (h1 : ∀ x ∈ pre, r.index < x.index) (h2 : ∀ x ∈ post, r.index ≤ x.index) (h3 : r.index < 2147483647) : ∃ g, addAll gzNew (pre ++ r :: post) = .ok g ∧ Holds g (pre ++ r :: post) r := by
  obtain ⟨g, e, t, _, _, M, Me, _⟩ := addAll_spec (g := gzNew) hs hp
  refine ⟨g, e, by simp, t, M, ?_, ?_⟩
  · rcases Me with Me | Me
    · refine ⟨r, by simp, ?_⟩
      have := (hs r (by simp)).index1
      have := M r (by simp)
      rw [Me] at this ⊢
      unfold gzNew at this ⊢
      dsimp only at this ⊢
      omega
    · exact Me
  · -- the root is set by `r` and does not change any more
    rw [List.pairwise_append] at hp
    obtain ⟨g1, e1, _, _, _, _, _, mn, _⟩ := addAll_spec (g := gzNew) (xs := pre) (fun x hx => hs x (by simp [hx])) hp.1
    have hlt : r.index < g1.minIndex := mn r.index (show r.index < 2147483647 from h3) h1
    have hr := hs r (by simp)
    obtain ⟨g2, e2, _, _, r2, m2, _⟩ := add_spec (g := g1) (id := r.id + 2) (x := enc r) (by have := hr.id; omega) hr.lo hr.hi
    have m2' : g2.minIndex = if r.index < g1.minIndex then r.index else g1.minIndex := m2
    have r2' : g2.root = if r.index < g1.minIndex then r.id + 2 else g1.root := r2
    rw [if_pos hlt] at m2' r2'
    obtain ⟨g3, e3, _, _, _, _, _, _, rt⟩ := addAll_spec (g := g2) (xs := post) (fun x hx => hs x (by simp [hx])) (List.pairwise_cons.1 hp.2.1).2
    rw [addAll_append, e1] at e
    unfold Res.bind at e
    dsimp only at e
    rw [addAll, e2] at e
    unfold Res.bind at e
    dsimp only at e
    rw [e3] at e
    injection e with e
    subst e
    exact (rt fun x hx => by rw [m2']; exact h2 x hx).1.trans r2'

variable {g : Gz} {ns : List Line} {r : Line}

theorem inj (hD : Diagram ns) {x y : Line} (hx : x ∈ ns) (hy : y ∈ ns) (h : x.id = y.id) : x = y := by
  have hp := hD.ids
  clear hD
  induction ns with
  | nil => cases hx
  | cons z zs ih =>
    rw [List.pairwise_cons] at hp
    rcases List.mem_cons.1 hx with rfl | hx'
    · rcases List.mem_cons.1 hy with rfl | hy
      · rfl
      · exact absurd h (hp.1 y hy)
    · rcases List.mem_cons.1 hy with rfl | hy'
      · exact absurd h.symm (hp.1 x hx')
      · exact ih hx' hy' hp.2

/-- a terminal or a node of the diagram -/
def InD (ns : List Line) (x : Ref) : Prop := ∀ i, x = .node i → ∃ y ∈ ns, y.id = i

theorem level_node (hH : Holds g ns r) {x : Line} (hx : x ∈ ns) (hi : g.maxIndex - x.index + 1 ≤ 2147483647) : gzLevel g (x.id + 2) = g.maxIndex - x.index + 1 := by
  unfold gzLevel
  rw [if_neg (by omega), if_neg (by omega), hH.table x hx]
  dsimp only
  have := hH.max x hx
  have e : (enc x).index = x.index := rfl
  rw [e, if_pos (by omega)]

theorem child_node (hH : Holds g ns r) {x : Line} (hx : x ∈ ns) (n : Nat) (v : Fin 2) :
    (graphillion g).child (x.id + 2) n v = (gzLevel g (code (if v = 0 then x.lo else x.hi)), code (if v = 0 then x.lo else x.hi)) := by
  show (match g.table[x.id + 2]? with
    | some x => (gzLevel g (if v = 0 then x.lo else x.hi), if v = 0 then x.lo else x.hi)
    | none => ((n : Int), x.id + 2)) = _
  rw [hH.table x hx]
  dsimp only [enc]
  split <;> rfl

theorem child_in (hD : Diagram ns) {x : Line} (hx : x ∈ ns) (v : Fin 2) {i : Nat} (h : (if v = 0 then x.lo else x.hi) = .node i) : ∃ y ∈ ns, y.id = i ∧ x.index < y.index := by
  refine hD.child x hx i ?_
  split at h
  · exact .inl h
  · exact .inr h

/-- all reachable states are terminals or nodes -/
theorem reach_node (hD : Diagram ns) (hH : Holds g ns r) (hi : g.maxIndex - r.index + 1 ≤ 2147483647) (hmin : ∀ x ∈ ns, r.index ≤ x.index) {l : Int} {f : Nat} (h : Reach (graphillion g) l f) :
    (l = 0 ∨ l = -1) ∨ ∃ x ∈ ns, f = x.id + 2 ∧ l = g.maxIndex - x.index + 1 := by
  induction h with
  | root =>
    right
    refine ⟨r, hH.mem, hH.root, ?_⟩
    show gzLevel g g.root = _
    rw [hH.root, level_node hH hH.mem hi]
  | step b hn _ ih =>
    rename_i n f _
    rcases ih with (h | h) | ⟨x, hx, rfl, hl⟩
    · omega
    · omega
    · rw [child_node hH hx]
      cases hc : (if b = 0 then x.lo else x.hi) with
      | bot => exact .inl (.inl rfl)
      | top => exact .inl (.inr rfl)
      | node i =>
        obtain ⟨y, hy, rfl, hlt⟩ := child_in hD hx b hc
        right
        refine ⟨y, hy, rfl, ?_⟩
        have := hmin x hx
        exact level_node hH hy (by omega)

theorem desc (hD : Diagram ns) (hH : Holds g ns r) (hi : g.maxIndex - r.index + 1 ≤ 2147483647) (hmin : ∀ x ∈ ns, r.index ≤ x.index) : Desc (graphillion g) := by
  have key : ∀ {n : Nat} {s : Nat} (b : Fin 2), 0 < n → Reach (graphillion g) (n : Int) s → ((graphillion g).child s n b).1 < n ∧ -1 ≤ ((graphillion g).child s n b).1 := by
    intro n s b hn hr
    rcases reach_node hD hH hi hmin hr with (h | h) | ⟨x, hx, rfl, hl⟩
    · omega
    · omega
    · rw [child_node hH hx]
      dsimp only
      cases hc : (if b = 0 then x.lo else x.hi) with
      | bot => exact ⟨by show (0 : Int) < n; omega, by show (-1 : Int) ≤ 0; omega⟩
      | top => exact ⟨by show (-1 : Int) < n; omega, by show (-1 : Int) ≤ -1; omega⟩
      | node i =>
        obtain ⟨y, hy, rfl, hlt⟩ := child_in hD hx b hc
        have h1 := hmin y hy
        have h2 := hH.max y hy
        have := level_node hH hy (by omega)
        show gzLevel g (y.id + 2) < n ∧ -1 ≤ gzLevel g (y.id + 2)
        rw [this]
        omega
  refine ⟨?_, fun b hn hr => (key b hn hr).1, fun b hn hr => (key b hn hr).2⟩
  show -1 ≤ gzLevel g g.root
  rw [hH.root, level_node hH hH.mem hi]
  have := hH.max r hH.mem
  omega

/-- members of the family of a node have no smaller indices -/
theorem mem_ge (hD : Diagram ns) {x : Ref} {s : List Int} (h : Mem ns x s) : ∀ y ∈ ns, x = .node y.id → ∀ i ∈ s, y.index ≤ i := by
  induction h with
  | top => intro y _ e; cases e
  | lo hx _ ih =>
    rename_i x s hm
    intro y hy e i hi
    injection e with e
    cases inj hD hx hy e
    cases hc : x.lo with
    | bot => rw [hc] at hm; cases hm
    | top => rw [hc] at hm; cases hm; cases hi
    | node j =>
      obtain ⟨z, hz, rfl, hlt⟩ := hD.child x hx j (.inl hc)
      have := ih z hz hc i hi
      omega
  | hi hx _ ih =>
    rename_i x s hm
    intro y hy e i hi
    injection e with e
    cases inj hD hx hy e
    rcases List.mem_cons.1 hi with rfl | hi
    · omega
    · cases hc : x.hi with
      | bot => rw [hc] at hm; cases hm
      | top => rw [hc] at hm; cases hm; cases hi
      | node j =>
        obtain ⟨z, hz, rfl, hlt⟩ := hD.child x hx j (.inr hc)
        have := ih z hz hc i hi
        omega

/-- members of the family of a child have larger indices -/
theorem mem_gt (hD : Diagram ns) {x : Line} {c : Ref} (hc : ∀ i, c = .node i → ∃ y ∈ ns, y.id = i ∧ x.index < y.index) {s : List Int} (h : Mem ns c s) : ∀ i ∈ s, x.index < i := by
  intro i hi
  cases c with
  | bot => cases h
  | top => cases h; cases hi
  | node j =>
    obtain ⟨z, hz, rfl, hlt⟩ := hc j rfl
    have := mem_ge hD h z hz rfl i hi
    omega

/-- the values of the assignment at the levels `1, …, m` are given by the set -/
def Matches (mx : Int) (m : Nat) (a : Asg 2) (s : List Int) : Prop := ∀ j, 1 ≤ j → j ≤ m → (a j = 1 ↔ mx - j + 1 ∈ s)

theorem val0 {v : Fin 2} : v.val = 0 ↔ ¬ v = 1 := by
  revert v; decide

theorem sem (hD : Diagram ns) (hH : Holds g ns r) (hi : g.maxIndex - r.index + 1 ≤ 2147483647) (hmin : ∀ x ∈ ns, r.index ≤ x.index) {a : Asg 2} :
    ∀ (k m : Nat) (c : Ref), (∀ i, c = .node i → ∃ y ∈ ns, y.id = i ∧ g.maxIndex - y.index + 1 ≤ k ∧ g.maxIndex - y.index + 1 ≤ m) → Reach (graphillion g) (gzLevel g (code c)) (code c) →
      (ZddMemAt (graphillion g) m (gzLevel g (code c)) (code c) a ↔ ∃ s, Mem ns c s ∧ Matches g.maxIndex m a s) := by
  intro k
  induction k with
  | zero =>
    intro m c hc hr
    cases c with
    | bot => exact ⟨fun h => absurd h zddMemAt_zero, fun ⟨s, h, _⟩ => by cases h⟩
    | top =>
      show ZddMemAt (graphillion g) m (-1) _ a ↔ _
      rw [zddMemAt_neg (by decide)]
      constructor
      · exact fun h => ⟨[], .top, fun j h1 h2 => ⟨fun h' => absurd h' (val0.1 (h j h1 h2)), fun h' => by cases h'⟩⟩
      · rintro ⟨s, h, hs⟩ j h1 h2
        cases h
        exact val0.2 fun h' => by have := (hs j h1 h2).1 h'; cases this
    | node i =>
      obtain ⟨y, hy, _, h, _⟩ := hc i rfl
      have := hH.max y hy
      omega
  | succ k ih =>
    intro m c hc hr
    cases c with
    | bot => exact ⟨fun h => absurd h zddMemAt_zero, fun ⟨s, h, _⟩ => by cases h⟩
    | top => exact ih m .top (fun i e => by cases e) hr
    | node i =>
      obtain ⟨x, hx, rfl, hk, hm⟩ := hc i rfl
      have hmx := hH.max x hx
      have hmn := hmin x hx
      have hl : gzLevel g (x.id + 2) = g.maxIndex - x.index + 1 := level_node hH hx (by omega)
      have hl' : gzLevel g (x.id + 2) = (((g.maxIndex - x.index + 1).toNat : Nat) : Int) := by omega
      have hd := desc hD hH hi hmin
      show ZddMemAt (graphillion g) m (gzLevel g (x.id + 2)) (x.id + 2) a ↔ _
      have hr : Reach (graphillion g) (gzLevel g (x.id + 2)) (x.id + 2) := hr
      rw [hl'] at hr ⊢
      generalize hn : (g.maxIndex - x.index + 1).toNat = n at hr hl'
      have hn0 : 0 < n := by omega
      have hnx : g.maxIndex - n + 1 = x.index := by omega
      have hrc := Reach.step (a n) hn0 hr
      rw [zddMemAt_pos hd hn0 hr (by omega)]
      rw [child_node hH hx] at hrc ⊢
      have hcc : ∀ i, (if a n = 0 then x.lo else x.hi) = .node i → ∃ y ∈ ns, y.id = i ∧ x.index < y.index := fun i h => child_in hD hx (a n) h
      have hih := ih (n - 1) (if a n = 0 then x.lo else x.hi) (fun i h => by
        obtain ⟨y, hy, e, hlt⟩ := hcc i h
        exact ⟨y, hy, e, by omega, by omega⟩) hrc
      dsimp only at hih ⊢
      rw [hih]
      by_cases ha : a n = 0
      · have ha1 : ¬ a n = 1 := by rw [ha]; decide
        rw [if_pos ha] at hcc ⊢
        constructor
        · rintro ⟨h0, s, hs, hmt⟩
          refine ⟨s, .lo hx hs, fun j h1 h2 => ?_⟩
          have hgt := mem_gt hD hcc hs
          by_cases hj : j ≤ n - 1
          · exact hmt j h1 hj
          · refine ⟨fun h => ?_, fun h => ?_⟩
            · by_cases hjn : j = n
              · subst hjn; exact absurd h ha1
              · exact absurd h (val0.1 (h0 j (by omega) h2))
            · have := hgt _ h
              omega
        · rintro ⟨s, hs, hmt⟩
          have hge := mem_ge hD hs x hx rfl
          refine ⟨fun j h1 h2 => val0.2 fun h => ?_, ?_⟩
          · have := hge _ ((hmt j (by omega) h2).1 h)
            omega
          · generalize he : Ref.node x.id = rx at hs
            cases hs with
            | top => cases he
            | lo hy hs =>
              injection he with he
              cases inj hD hx hy he
              exact ⟨_, hs, fun j h1 h2 => hmt j h1 (by omega)⟩
            | hi hy hs =>
              injection he with he
              cases inj hD hx hy he
              exact absurd ((hmt n hn0 (by omega)).2 (by rw [hnx]; exact List.mem_cons_self ..)) ha1
      · have ha1 : a n = 1 := by
          have : ∀ v : Fin 2, ¬ v = 0 → v = 1 := by decide
          exact this _ ha
        rw [if_neg ha] at hcc ⊢
        constructor
        · rintro ⟨h0, s, hs, hmt⟩
          refine ⟨x.index :: s, .hi hx hs, fun j h1 h2 => ?_⟩
          have hgt := mem_gt hD hcc hs
          by_cases hj : j ≤ n - 1
          · rw [hmt j h1 hj, List.mem_cons]
            exact ⟨.inr, fun h => h.resolve_left (by omega)⟩
          · refine ⟨fun h => ?_, fun h => ?_⟩
            · by_cases hjn : j = n
              · subst hjn; rw [hnx]; exact List.mem_cons_self ..
              · exact absurd h (val0.1 (h0 j (by omega) h2))
            · rcases List.mem_cons.1 h with h | h
              · have : j = n := by omega
                rw [this]; exact ha1
              · have := hgt _ h
                omega
        · rintro ⟨s, hs, hmt⟩
          have hge := mem_ge hD hs x hx rfl
          refine ⟨fun j h1 h2 => val0.2 fun h => ?_, ?_⟩
          · have := hge _ ((hmt j (by omega) h2).1 h)
            omega
          · generalize he : Ref.node x.id = rx at hs
            cases hs with
            | top => cases he
            | lo hy hs =>
              injection he with he
              cases inj hD hx hy he
              have := mem_gt hD (fun i h => hD.child x hx i (.inl h)) hs _ ((hmt n hn0 (by omega)).1 ha1)
              omega
            | hi hy hs =>
              injection he with he
              cases inj hD hx hy he
              refine ⟨_, hs, fun j h1 h2 => ?_⟩
              rw [hmt j h1 (by omega), List.mem_cons]
              exact ⟨fun h => h.resolve_left (by omega), .inr⟩

end Gz

end TdZdd
