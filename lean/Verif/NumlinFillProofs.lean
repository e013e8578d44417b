import Verif.NumlinWalk

/-! Proofs about `fillNumbers`. -/

namespace TdZdd.Nl.Fill

/-- the boxes that a box is linked with, in the order of the code -/
def nb (m n : Nat) (L : Links) (x : Nat × Nat) : List (Nat × Nat) :=
  (if goesN L x.1 x.2 then [(x.1 - 1, x.2)] else []) ++ ((if goesW L x.1 x.2 then [(x.1, x.2 - 1)] else []) ++
  ((if goesE n L x.1 x.2 then [(x.1, x.2 + 1)] else []) ++ ((if goesS m L x.1 x.2 then [(x.1 + 1, x.2)] else []) ++ [])))

theorem nb_length (m n : Nat) (L : Links) (i j : Nat) : (nb m n L (i, j)).length = deg m n L (i, j) := by
  rw [deg_sides]
  unfold nb
  dsimp only
  cases goesN L i j <;> cases goesW L i j <;> cases goesE n L i j <;> cases goesS m L i j <;> rfl

theorem mem_nb {m n : Nat} {L : Links} {x y : Nat × Nat} (hx : x.1 < m ∧ x.2 < n) : y ∈ nb m n L x ↔ Adj m n L x y := by
  obtain ⟨i, j⟩ := x
  have key : y ∈ nb m n L (i, j) ↔ (goesN L i j = true ∧ y = (i - 1, j)) ∨ (goesW L i j = true ∧ y = (i, j - 1)) ∨ (goesE n L i j = true ∧ y = (i, j + 1)) ∨ (goesS m L i j = true ∧ y = (i + 1, j)) := by
    unfold nb
    dsimp only
    cases goesN L i j <;> cases goesW L i j <;> cases goesE n L i j <;> cases goesS m L i j <;> simp
  dsimp only at hx
  rw [key]
  unfold goesN goesW goesE goesS
  simp only [Bool.and_eq_true, decide_eq_true_eq]
  constructor
  · rintro (⟨⟨a, b⟩, rfl⟩ | ⟨⟨a, b⟩, rfl⟩ | ⟨⟨a, b⟩, rfl⟩ | ⟨⟨a, b⟩, rfl⟩)
    · obtain ⟨i, rfl⟩ : ∃ k, i = k + 1 := ⟨i - 1, by omega⟩
      exact .up hx.1 hx.2 b
    · obtain ⟨j, rfl⟩ : ∃ k, j = k + 1 := ⟨j - 1, by omega⟩
      exact .left hx.1 hx.2 b
    · exact .right hx.1 a b
    · exact .down a hx.2 b
  · intro h
    cases h with
    | right a b c => exact .inr (.inr (.inl ⟨⟨b, c⟩, rfl⟩))
    | left a b c => exact .inr (.inl ⟨⟨Nat.succ_pos _, c⟩, rfl⟩)
    | down a b c => exact .inr (.inr (.inr ⟨⟨a, c⟩, rfl⟩))
    | up a b c => exact .inl ⟨⟨Nat.succ_pos _, c⟩, rfl⟩

theorem nb_nodup (m n : Nat) (L : Links) (x : Nat × Nat) : (nb m n L x).Nodup := by
  obtain ⟨i, j⟩ := x
  have hN : goesN L i j = true → 1 ≤ i := fun h => by
    unfold goesN at h
    rw [Bool.and_eq_true, decide_eq_true_eq] at h; exact h.1
  have hW : goesW L i j = true → 1 ≤ j := fun h => by
    unfold goesW at h
    rw [Bool.and_eq_true, decide_eq_true_eq] at h; exact h.1
  unfold nb
  dsimp only
  cases h1 : goesN L i j <;> cases h2 : goesW L i j <;> cases goesE n L i j <;> cases goesS m L i j <;> simp [h1, h2] at hN hW ⊢ <;> omega

/-! ### The matrices -/

/-- a matrix of a function -/
def mat (m n : Nat) (f : Cells) : List (List Int) := matOf m n fun i j => f (i, j)

theorem get2_mat {m n : Nat} {f : Cells} {i j : Nat} (hi : i < m) (hj : j < n) : get2 (mat m n f) i j = some (f (i, j)) := matOf_get _ hi hj

theorem set2_mat {m n : Nat} {f : Cells} {i j : Nat} (hi : i < m) (hj : j < n) (v : Int) : set2 (mat m n f) i j v = some (mat m n (put1 f (i, j) v)) := by
  obtain ⟨b, e, hs, hg⟩ := set2_ok (matOf_shape (m := m) (n := n) fun i j => f (i, j)) hi hj v
  unfold mat
  rw [e]
  refine congrArg some (hs.ext (matOf_shape _) fun r c hr hc => ?_)
  rw [hg, matOf_get _ hr hc, matOf_get _ hr hc]
  unfold put1
  by_cases k : r = i ∧ c = j
  · rw [if_pos k, if_pos (by rw [k.1, k.2])]
  · rw [if_neg k, if_neg (fun e => k (Prod.mk.inj e))]

def out (m n : Nat) (r : Int × Cells) : Int × List (List Int) := (r.1, mat m n r.2)

theorem fillStep_eq {m n i j : Nat} (hi : i < m) (hj : j < n) {b : Bool} {y : Nat × Nat} {ys : List (Nat × Nat)} {C : Nat × Nat → Cells → Option (Int × Cells)} {call rest : List (List Int) → Option (Int × List (List Int))}
    (hc : b = true → ∀ f, call (mat m n f) = (C y f).map (out m n)) (hr : ∀ f, rest (mat m n f) = (tryAll C (i, j) ys f).map (out m n)) (f : Cells) :
    fillStep i j (some b) call rest (mat m n f) = (tryAll C (i, j) ((if b then [y] else []) ++ ys) f).map (out m n) := by
  unfold fillStep
  rw [Option.bind_some]
  cases b with
  | false => exact hr f
  | true =>
    rw [if_pos rfl, if_pos rfl, hc rfl]
    show _ = (tryAll C (i, j) (y :: ys) f).map (out m n)
    rw [tryAll]
    cases C y f with
    | none => rfl
    | some r =>
      rw [Option.map_some, Option.bind_some, Option.bind_some]
      show (set2 (mat m n r.2) i j r.1).bind _ = _
      rw [set2_mat hi hj, Option.bind_some]
      show (if 0 < r.1 then _ else _) = _
      by_cases k : 0 < r.1
      · rw [if_pos k, if_pos k]; rfl
      · rw [if_neg k, if_neg k]; exact hr _

/-- the model runs on a board as `walk` on the graph of its links; no access is outside of an array -/
theorem fillFrom_eq {g : Grid} (hg : g.Ok) : ∀ (fuel : Nat) {i j : Nat}, i < g.rows → j < g.cols → ∀ f, g.fillFrom fuel i j (mat g.rows g.cols f) = (walk (nb g.rows g.cols g.links) fuel (i, j) f).map (out g.rows g.cols)
  | 0, _, _, _, _, _ => rfl
  | fuel + 1, i, j, hi, hj, f => by
    rw [Grid.fillFrom, walk, get2_mat hi hj, Option.bind_some]
    by_cases k1 : f (i, j) < 0
    · rw [if_pos k1, if_pos k1]; rfl
    rw [if_neg k1, if_neg k1]
    by_cases k2 : 0 < f (i, j)
    · rw [if_pos k2, if_pos k2]; rfl
    rw [if_neg k2, if_neg k2, set2_mat hi hj, Option.bind_some]
    rw [side_some hg.vlink (p := 1 ≤ i) (i := i - 1) (j := j) (fun _ => by omega), side_some hg.hlink (p := 1 ≤ j) (i := i) (j := j - 1) (fun _ => by omega),
      side_some hg.hlink (p := j + 1 < g.cols) (i := i) (j := j) (fun _ => by omega), side_some hg.vlink (p := i + 1 < g.rows) (i := i) (j := j) (fun _ => by omega)]
    refine fillStep_eq hi hj (y := (i - 1, j)) (fun _ => fillFrom_eq hg fuel (by omega) hj) (fun f => ?_) _
    refine fillStep_eq hi hj (y := (i, j - 1)) (fun _ => fillFrom_eq hg fuel hi (by omega)) (fun f => ?_) _
    refine fillStep_eq hi hj (y := (i, j + 1)) (fun h => fillFrom_eq hg fuel hi ?_) (fun f => ?_) _
    · rw [Bool.and_eq_true, decide_eq_true_eq] at h; exact h.1
    refine fillStep_eq hi hj (y := (i + 1, j)) (fun h => fillFrom_eq hg fuel ?_ hj) (fun f => ?_) _
    · rw [Bool.and_eq_true, decide_eq_true_eq] at h; exact h.1
    rw [set2_mat hi hj]; rfl

/-! ### Solutions -/

variable {q : Board} {L : Links}

open Classical in
/-- the number of the line through a box -/
noncomputable def target (q : Board) (L : Links) (x : Nat × Nat) : Int := if h : ∃ y, Conn (Adj q.rows q.cols L) x y ∧ q.num y ≠ 0 then (q.num (Classical.choose h) : Int) else 0

theorem target_eq (hs : IsSolution q L) {x y : Nat × Nat} (hc : Conn (Adj q.rows q.cols L) x y) (hy : q.num y ≠ 0) : target q L x = q.num y := by
  have h : ∃ y, Conn (Adj q.rows q.cols L) x y ∧ q.num y ≠ 0 := ⟨y, hc, hy⟩
  unfold target
  rw [dif_pos h]
  obtain ⟨h1, h2⟩ := Classical.choose_spec h
  exact congrArg _ (hs.same _ _ ((Conn.symm adj_symm h1).trans hc) h2 hy)

theorem target_pos (hs : IsSolution q L) {x : Nat × Nat} (hx : x.1 < q.rows ∧ x.2 < q.cols) (hd : deg q.rows q.cols L x ≠ 0) : 0 < target q L x := by
  obtain ⟨y, h1, h2⟩ := hs.noLoop x.1 x.2 hx.1 hx.2 hd
  rw [target_eq hs h1 h2]; omega

theorem target_blank (hs : IsSolution q L) {x : Nat × Nat} (hx : x.1 < q.rows ∧ x.2 < q.cols) (hd : deg q.rows q.cols L x = 0) : target q L x = 0 := by
  unfold target
  refine dif_neg ?_
  rintro ⟨y, h1, h2⟩
  have : x = y := by
    induction Conn.symm adj_symm h1 with
    | refl => rfl
    | tail _ h ih => exact absurd (adj_symm _ _ h) (no_adj_of_deg hd)
  subst this
  have h3 : deg q.rows q.cols L x = 1 := hs.number x.1 x.2 hx.1 hx.2 h2
  omega

theorem target_adj (hs : IsSolution q L) {x y : Nat × Nat} (ha : Adj q.rows q.cols L x y) : target q L x = target q L y := by
  obtain ⟨_, hb⟩ := adj_board ha
  have hd : deg q.rows q.cols L y ≠ 0 := fun e => no_adj_of_deg e (adj_symm _ _ ha)
  obtain ⟨z, h1, h2⟩ := hs.noLoop y.1 y.2 hb.1 hb.2 hd
  rw [target_eq hs h1 h2, target_eq hs ((Conn.tail .refl ha).trans h1) h2]

/-- numbers that have been filled in -/
def Good (q : Board) (L : Links) (f : Cells) : Prop := ∀ x : Nat × Nat, x.1 < q.rows ∧ x.2 < q.cols → f x = target q L x ∨ (f x = 0 ∧ q.num x = 0)

theorem two_of {l : List (Nat × Nat)} {z : Nat × Nat} (h : l.length = 2) (hn : l.Nodup) (hz : z ∈ l) : ∃ y, y ≠ z ∧ (l = [z, y] ∨ l = [y, z]) := by
  match l, h with
  | [a, b], _ =>
    have hab : a ≠ b := by
      intro e
      rw [e] at hn
      exact (List.nodup_cons.1 hn).1 List.mem_cons_self
    rcases List.mem_cons.1 hz with rfl | hz
    · exact ⟨b, fun e => hab e.symm, .inl rfl⟩
    · rw [List.mem_singleton.1 hz]
      exact ⟨a, hab, .inr rfl⟩

/-- the boxes of the board -/
def cells (m n : Nat) : List (Nat × Nat) := (List.range m).flatMap fun i => (List.range n).map fun j => (i, j)

theorem mem_cells {m n : Nat} {x : Nat × Nat} : x ∈ cells m n ↔ x.1 < m ∧ x.2 < n := by
  unfold cells
  simp only [List.mem_flatMap, List.mem_map, List.mem_range]
  constructor
  · rintro ⟨i, hi, j, hj, rfl⟩; exact ⟨hi, hj⟩
  · rintro ⟨h1, h2⟩; exact ⟨_, h1, _, h2, rfl⟩

/-- from a box of a line one comes to a number in either direction -/
theorem extend (hs : IsSolution q L) {f : Cells} (hf : Good q L f) {x w : Nat × Nat} (hx : x.1 < q.rows ∧ x.2 < q.cols) (hx2 : deg q.rows q.cols L x = 2) (hx0 : q.num x = 0) :
    ∀ (k : Nat) (z : Nat × Nat) (l : List (Nat × Nat)) (y : Nat × Nat), (cells q.rows q.cols).length < k + (z :: l).length → Lk (nb q.rows q.cols L) x w (z :: l) y → (z :: l).Nodup → Adj q.rows q.cols L z y → l.head? ≠ some y →
      (∀ t ∈ z :: l, (t.1 < q.rows ∧ t.2 < q.cols) ∧ f t = 0 ∧ q.num t = 0) → x ∈ z :: l →
      ∃ zs, Fwd (nb q.rows q.cols L) f z (y :: zs) ∧ (y :: zs).Nodup ∧ (∀ t ∈ z :: l, t ∉ y :: zs) ∧ ∀ t ∈ y :: zs, (t.1 < q.rows ∧ t.2 < q.cols) ∧ target q L t = target q L z
  | 0, z, l, y, hk, _, hn, _, _, hl, _ => by
    have := nodup_subset_length (z :: l) (cells q.rows q.cols) hn fun t ht => mem_cells.2 (hl t ht).1
    omega
  | k + 1, z, l, y, hk, hL, hn, ha, hh, hl, hxl => by
    obtain ⟨hzb, hyb⟩ := adj_board ha
    have hd : deg q.rows q.cols L y ≠ 0 := fun e => no_adj_of_deg e (adj_symm _ _ ha)
    have ht := target_adj hs ha
    have hp := target_pos hs hyb hd
    have hfresh : y ∉ z :: l := by
      refine hL.fresh (adj_ne ha).symm hn ((mem_nb hyb).2 (adj_symm _ _ ha)) hh fun hc => ?_
      · obtain ⟨v, h1, h2⟩ := hs.noLoop x.1 x.2 hx.1 hx.2 (by rw [hx2]; decide)
        have : ∀ {t}, Conn (Adj q.rows q.cols L) x t → t ∈ z :: l := by
          intro t h
          induction h with
          | refl => exact hxl
          | tail _ h ih => exact hc _ ih _ ((mem_nb (adj_board h).1).2 h)
        exact h2 (hl v (this h1)).2.2
    rcases hf y hyb with e | ⟨e0, en⟩
    · refine ⟨[], by show 0 < f y; rw [e]; exact hp, by simp, fun t ht' m => ?_, fun t ht' => ?_⟩
      · rw [List.mem_singleton.1 m] at ht'; exact hfresh ht'
      · rw [List.mem_singleton.1 ht']; exact ⟨hyb, ht.symm⟩
    · have h2 : deg q.rows q.cols L y = 2 := (hs.other y.1 y.2 hyb.1 hyb.2 en).resolve_left hd
      obtain ⟨u, hu, hnb⟩ := two_of (l := nb q.rows q.cols L y) (by rw [← h2]; exact nb_length _ _ _ _ _) (nb_nodup _ _ _ _) ((mem_nb hyb).2 (adj_symm _ _ ha))
      have hmem : ∀ t, t ∈ nb q.rows q.cols L y → t = u ∨ t = z := by
        intro t m
        rcases hnb with e | e <;> rw [e] at m <;> simp at m <;> rcases m with m | m <;> first | exact .inl m | exact .inr m
      have hau : Adj q.rows q.cols L y u := (mem_nb hyb).1 (by rcases hnb with e | e <;> rw [e] <;> simp)
      obtain ⟨zs, h3, h4, h5, h6⟩ := extend hs hf hx hx2 hx0 k y (z :: l) u (by simp only [List.length_cons] at hk ⊢; omega) ⟨hmem, hL⟩ (List.nodup_cons.2 ⟨hfresh, hn⟩) hau
        (fun e => hu (Option.some.inj e).symm) (fun t m => (List.mem_cons.1 m).elim (fun e => by rw [e]; exact ⟨hyb, e0, en⟩) (hl t)) (List.mem_cons_of_mem _ hxl)
      refine ⟨u :: zs, ⟨e0, hnb, h3⟩, List.nodup_cons.2 ⟨h5 y List.mem_cons_self, h4⟩, fun t m m' => ?_, fun t m => ?_⟩
      · rcases List.mem_cons.1 m' with e | m'
        · rw [e] at m; exact hfresh m
        · exact h5 t (List.mem_cons_of_mem _ m) m'
      · rcases List.mem_cons.1 m with e | m
        · rw [e]; exact ⟨hyb, ht.symm⟩
        · exact ⟨(h6 t m).1, by rw [(h6 t m).2, ht]⟩

/-- a call from outside fills the box with the number of its line -/
theorem fill_box (hs : IsSolution q L) {f : Cells} (hf : Good q L f) {x : Nat × Nat} (hx : x.1 < q.rows ∧ x.2 < q.cols) :
    ∃ f', Stops (nb q.rows q.cols L) x f (target q L x, f') ∧ Good q L f' ∧ f' x = target q L x ∧ ∀ y, f y = target q L y → f' y = target q L y := by
  by_cases hd : deg q.rows q.cols L x = 0
  · have ht := target_blank hs hx hd
    have h0 : f x = 0 := by
      rcases hf x hx with e | e
      · rw [e, ht]
      · exact e.1
    refine ⟨f, ?_, hf, by rw [h0, ht], fun _ h => h⟩
    rw [ht]
    refine stops_nil h0 (List.length_eq_zero_iff.1 ?_)
    rw [← hd]; exact nb_length _ _ _ _ _
  have hp := target_pos hs hx hd
  rcases hf x hx with e | ⟨e0, en⟩
  · exact ⟨f, by rw [← e]; exact stops_pos (by rw [e]; exact hp), hf, e, fun _ h => h⟩
  have h2 : deg q.rows q.cols L x = 2 := (hs.other x.1 x.2 hx.1 hx.2 en).resolve_left hd
  have hl : (nb q.rows q.cols L x).length = 2 := by rw [← h2]; exact nb_length _ _ _ _ _
  obtain ⟨w, w', hnb⟩ : ∃ w w', nb q.rows q.cols L x = [w, w'] := by
    match nb q.rows q.cols L x, hl with
    | [a, b], _ => exact ⟨a, b, rfl⟩
  have ha : Adj q.rows q.cols L x w := (mem_nb hx).1 (by rw [hnb]; exact List.mem_cons_self)
  obtain ⟨zs, h3, h4, h5, h6⟩ := extend hs hf (x := x) (w := w') hx h2 en ((cells q.rows q.cols).length) x [] w (by simp) ⟨rfl, fun t m => by rw [hnb] at m; simpa using m⟩ (by simp) ha (fun e => by cases e)
    (fun t m => by rw [List.mem_singleton.1 m]; exact ⟨hx, e0, en⟩) List.mem_cons_self
  have hn : (x :: w :: zs).Nodup := List.nodup_cons.2 ⟨h5 x List.mem_cons_self, h4⟩
  have hst := start (v := target q L x) e0 hnb h3 hn (fun y m hy => by
    rcases hf y (h6 y m).1 with e | e
    · rw [e, (h6 y m).2]
    · rw [e.1] at hy; exact absurd hy (Int.lt_irrefl 0)) hp
  have hall : ∀ t ∈ x :: w :: zs, target q L t = target q L x := fun t m => (List.mem_cons.1 m).elim (fun e => by rw [e]) fun m => (h6 t m).2
  refine ⟨_, hst, fun y hy => ?_, ?_, fun y hy => ?_⟩
  · unfold updAll
    split
    · rename_i m
      exact .inl (hall y m).symm
    · exact hf y hy
  · unfold updAll
    rw [if_pos List.mem_cons_self]
  · unfold updAll
    split
    · rename_i m
      exact (hall y m).symm
    · exact hy

/-- loops whose steps need an unknown amount of fuel -/
theorem foldlM_ev {σ α : Type} {s : Nat → σ → α → Option σ} {I : σ → Prop} {R : σ → σ → Prop} {D : α → σ → Prop} (hR : ∀ a, R a a) (hT : ∀ a b c, R a b → R b c → R a c) (hD : ∀ x a b, R a b → D x a → D x b) :
    ∀ {l : List α}, (∀ x ∈ l, ∀ a, I a → ∃ b N, (∀ fuel, N ≤ fuel → s fuel a x = some b) ∧ I b ∧ R a b ∧ D x b) → ∀ a, I a → ∃ b N, (∀ fuel, N ≤ fuel → l.foldlM (s fuel) a = some b) ∧ I b ∧ R a b ∧ ∀ x ∈ l, D x b
  | [], _, a, ha => ⟨a, 0, fun _ _ => rfl, ha, hR a, fun x m => by cases m⟩
  | x :: l, h, a, ha => by
    obtain ⟨b, N, h1, h2, h3, h4⟩ := h x List.mem_cons_self a ha
    obtain ⟨c, M, k1, k2, k3, k4⟩ := foldlM_ev hR hT hD (l := l) (fun y m => h y (List.mem_cons_of_mem _ m)) b h2
    refine ⟨c, N + M, fun fuel hf => ?_, k2, hT _ _ _ h3 k3, fun y m => ?_⟩
    · rw [List.foldlM_cons, h1 fuel (by omega)]
      exact k1 fuel (by omega)
    · rcases List.mem_cons.1 m with e | m
      · rw [e]; exact hD _ _ _ k3 h4
      · exact k4 y m

def val (a : List (List Int)) (x : Nat × Nat) : Int := (get2 a x.1 x.2).getD 0

theorem number_mat {g : Grid} (hg : g.Ok) : (g.number.map fun r => r.map fun k : Nat => Int.ofNat k) = mat g.rows g.cols fun x => (g.num x : Int) := by
  refine Shape.ext (m := g.rows) (n := g.cols) ⟨by rw [List.length_map]; exact hg.board.len, fun r m => ?_⟩ (matOf_shape _) fun i j hi hj => ?_
  · obtain ⟨r, m', rfl⟩ := List.mem_map.1 m
    rw [List.length_map]; exact hg.board.width r m'
  · rw [get2_mat hi hj]
    obtain ⟨k, e⟩ := Shape.get (a := g.number) ⟨hg.board.len, hg.board.width⟩ hi hj
    have ek : g.num (i, j) = k := by
      show (get2 g.number i j).getD 0 = k
      rw [e]; rfl
    rw [ek]
    unfold get2 at e ⊢
    rw [List.getElem?_map]
    cases h : g.number[i]? with
    | none => rw [h] at e; cases e
    | some r =>
      rw [h, Option.bind_some] at e
      rw [Option.map_some, Option.bind_some, List.getElem?_map, e]; rfl

/-- `fillNumbers` fills every line of a solution -/
theorem fillNumbers_eq {g : Grid} (hg : g.Ok) (hs : IsSolution g.toBoard g.links) : ∃ a N, (∀ fuel, N ≤ fuel → g.fillNumbers fuel = some a) ∧ Shape g.rows g.cols a ∧ ∀ i j, i < g.rows → j < g.cols → get2 a i j = some (target g.toBoard g.links (i, j)) := by
  have hinner : ∀ i, i < g.rows → ∀ a, (∃ f, a = mat g.rows g.cols f ∧ Good g.toBoard g.links f) →
      ∃ b N, (∀ fuel, N ≤ fuel → (List.range g.cols).foldlM (fun a j => (g.fillFrom fuel i j a).map fun r => r.2) a = some b) ∧ (∃ f, b = mat g.rows g.cols f ∧ Good g.toBoard g.links f) ∧
        (∀ y : Nat × Nat, y.1 < g.rows ∧ y.2 < g.cols → val a y = target g.toBoard g.links y → val b y = target g.toBoard g.links y) ∧ ∀ j ∈ List.range g.cols, i < g.rows ∧ j < g.cols ∧ val b (i, j) = target g.toBoard g.links (i, j) := by
    intro i hi
    refine foldlM_ev (s := fun fuel a j => (g.fillFrom fuel i j a).map fun r => r.2) (I := fun a => ∃ f, a = mat g.rows g.cols f ∧ Good g.toBoard g.links f)
      (R := fun a b => ∀ y : Nat × Nat, y.1 < g.rows ∧ y.2 < g.cols → val a y = target g.toBoard g.links y → val b y = target g.toBoard g.links y) (D := fun j b => i < g.rows ∧ j < g.cols ∧ val b (i, j) = target g.toBoard g.links (i, j))
      (fun a y _ h => h) (fun a b c h1 h2 y hy h => h2 y hy (h1 y hy h)) (fun j a b h hd => ⟨hd.1, hd.2.1, h _ ⟨hd.1, hd.2.1⟩ hd.2.2⟩) ?_
    rintro j hj a ⟨f, rfl, hf⟩
    have hj := List.mem_range.1 hj
    obtain ⟨f', ⟨N, hN⟩, k1, k2, k3⟩ := fill_box hs hf (x := (i, j)) ⟨hi, hj⟩
    have hv : ∀ (f : Cells) (y : Nat × Nat), y.1 < g.rows ∧ y.2 < g.cols → val (mat g.rows g.cols f) y = f y := fun f y hy => by
      unfold val
      rw [get2_mat hy.1 hy.2]; rfl
    refine ⟨mat g.rows g.cols f', N, fun fuel h => ?_, ⟨f', rfl, k1⟩, fun y hy h => ?_, hi, hj, ?_⟩
    · show (g.fillFrom fuel i j (mat g.rows g.cols f)).map _ = _
      rw [fillFrom_eq hg fuel hi hj, hN fuel h]; rfl
    · rw [hv _ _ hy] at h ⊢
      exact k3 y h
    · rw [hv _ _ ⟨hi, hj⟩]; exact k2
  have hgood : Good g.toBoard g.links fun x => (g.num x : Int) := by
    intro x _
    by_cases k : g.num x = 0
    · exact .inr ⟨by show ((g.num x : Nat) : Int) = 0; rw [k]; rfl, k⟩
    · exact .inl (target_eq hs .refl k).symm
  obtain ⟨b, N, h1, ⟨f, hb, _⟩, _, h4⟩ := foldlM_ev (s := fun fuel a i => (List.range g.cols).foldlM (fun a j => (g.fillFrom fuel i j a).map fun r => r.2) a) (I := fun a => ∃ f, a = mat g.rows g.cols f ∧ Good g.toBoard g.links f)
      (R := fun a b => ∀ y : Nat × Nat, y.1 < g.rows ∧ y.2 < g.cols → val a y = target g.toBoard g.links y → val b y = target g.toBoard g.links y) (D := fun i b => ∀ j ∈ List.range g.cols, i < g.rows ∧ j < g.cols ∧ val b (i, j) = target g.toBoard g.links (i, j))
      (fun a y _ h => h) (fun a b c h1 h2 y hy h => h2 y hy (h1 y hy h)) (fun i a b h hd j m => ⟨(hd j m).1, (hd j m).2.1, h _ ⟨(hd j m).1, (hd j m).2.1⟩ (hd j m).2.2⟩) (l := List.range g.rows) (fun i m => hinner i (List.mem_range.1 m))
      (mat g.rows g.cols fun x => (g.num x : Int)) ⟨_, rfl, hgood⟩
  refine ⟨b, N, fun fuel h => ?_, by rw [hb]; exact matOf_shape _, fun i j hi hj => ?_⟩
  · unfold Grid.fillNumbers
    rw [number_mat hg]; exact h1 fuel h
  · have := (h4 i (List.mem_range.2 hi) j (List.mem_range.2 hj)).2.2
    rw [← this, hb, get2_mat hi hj]
    unfold val
    rw [get2_mat hi hj]; rfl

end TdZdd.Nl.Fill
