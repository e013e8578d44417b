import Verif.NumlinPicture
import Verif.NumlinAppProofs

/-! Proofs about the pictures of `ddnumlin`. -/

namespace TdZdd.Nl

/-- is there a line to the west, east, north, south of a box? -/
def goesW (L : Links) (i j : Nat) : Bool := decide (1 ≤ j) && L.h i (j - 1)
def goesE (n : Nat) (L : Links) (i j : Nat) : Bool := decide (j + 1 < n) && L.h i j
def goesN (L : Links) (i j : Nat) : Bool := decide (1 ≤ i) && L.v (i - 1) j
def goesS (m : Nat) (L : Links) (i j : Nat) : Bool := decide (i + 1 < m) && L.v i j

theorem deg_sides (m n : Nat) (L : Links) (i j : Nat) : deg m n L (i, j) = (goesW L i j).toNat + (goesE n L i j).toNat + (goesN L i j).toNat + (goesS m L i j).toNat := by
  have h : ∀ (p : Prop) [Decidable p] (b : Bool), (if p ∧ b = true then 1 else 0) = (decide p && b).toNat := by
    intro p _ b
    by_cases hp : p <;> cases b <;> simp [hp]
  unfold deg goesW goesE goesN goesS
  dsimp only
  rw [h, h, h, h]
  rfl

/-- the text of a box -/
def boxText (k : Nat) (w e n s : Bool) : List Char :=
  let c := w.toNat + 2 * e.toNat + 4 * n.toNat + 8 * s.toNat
  if c ≤ 2 ∨ c = 4 ∨ c = 8 then (if k = 0 then [' ', ' '] else setw2 k) else (connector[c]?).getD []

theorem side_some {m n : Nat} {a : List (List Bool)} {p : Prop} [Decidable p] {i j : Nat} (h : Shape m n a) (hp : p → i < m ∧ j < n) :
    (if p then get2 a i j else some false) = some (decide p && (get2 a i j).getD false) := by
  by_cases k : p
  · rw [if_pos k]
    obtain ⟨x, e⟩ := h.get (hp k).1 (hp k).2
    rw [e]; simp [k]
  · rw [if_neg k]; simp [k]

theorem connector_getD : ∀ c < 16, connector[c]? = some ((connector[c]?).getD []) := by decide +kernel

theorem Grid.cell_eq {g : Grid} (hg : g.Ok) {i j : Nat} (hi : i < g.rows) (hj : j < g.cols) :
    g.cell i j = some (boxText (g.num (i, j)) (goesW g.links i j) (goesE g.cols g.links i j) (goesN g.links i j) (goesS g.rows g.links i j)) := by
  unfold Grid.cell Grid.mask
  rw [side_some hg.hlink (p := 1 ≤ j) (i := i) (j := j - 1) (fun _ => by omega), side_some hg.hlink (p := j + 1 < g.cols) (i := i) (j := j) (fun _ => by omega),
    side_some hg.vlink (p := 1 ≤ i) (i := i - 1) (j := j) (fun _ => by omega), side_some hg.vlink (p := i + 1 < g.rows) (i := i) (j := j) (fun _ => by omega)]
  obtain ⟨k, e⟩ := Shape.get (a := g.number) ⟨hg.board.len, hg.board.width⟩ hi hj
  have ek : g.num (i, j) = k := by
    show (get2 g.number i j).getD 0 = k
    rw [e]; rfl
  rw [e, ek]
  show (if _ then _ else _) = some (if _ then _ else _)
  generalize hw : (decide (1 ≤ j) && (get2 g.hlink i (j - 1)).getD false) = w
  generalize he : (decide (j + 1 < g.cols) && (get2 g.hlink i j).getD false) = e'
  generalize hn : (decide (1 ≤ i) && (get2 g.vlink (i - 1) j).getD false) = n
  generalize hs : (decide (i + 1 < g.rows) && (get2 g.vlink i j).getD false) = s
  have hw' : goesW g.links i j = w := hw
  have he' : goesE g.cols g.links i j = e' := he
  have hn' : goesN g.links i j = n := hn
  have hs' : goesS g.rows g.links i j = s := hs
  rw [hw', he', hn', hs']
  split
  · rfl
  · refine connector_getD _ ?_
    cases w <;> cases e' <;> cases n <;> cases s <;> decide

theorem setw2_length : ∀ k < 100, (setw2 k).length = 2 := by decide +kernel

theorem connector_length : ∀ c < 16, ((connector[c]?).getD []).length = 2 := by decide +kernel

theorem boxText_length {k : Nat} (hk : k ≤ 99) (w e n s : Bool) : (boxText k w e n s).length = 2 := by
  unfold boxText
  dsimp only
  split
  · split
    · rfl
    · exact setw2_length k (by omega)
  · refine connector_length _ ?_
    cases w <;> cases e <;> cases n <;> cases s <;> decide

/-- the text of a box of a board -/
def Grid.box (g : Grid) (i j : Nat) : List Char := boxText (g.num (i, j)) (goesW g.links i j) (goesE g.cols g.links i j) (goesN g.links i j) (goesS g.rows g.links i j)

def Grid.row (g : Grid) (i : Nat) : List Char := '┃' :: ((List.range g.cols).flatMap (fun j => g.box i j) ++ [' ', '┃', '\n'])

theorem Grid.line_eq {g : Grid} (hg : g.Ok) {i : Nat} (hi : i < g.rows) : g.line i = some (g.row i) := by
  unfold Grid.line
  rw [mapM_some (g := fun j => g.box i j) _ fun j hj => Grid.cell_eq hg hi (List.mem_range.1 hj)]
  unfold Grid.row
  rw [List.flatMap_def]; rfl

/-- the frame above and below -/
def frame (n : Nat) (a b : Char) : List Char := a :: (List.replicate (2 * n) '━' ++ ['━', b, '\n'])

theorem Grid.print_eq {g : Grid} (hg : g.Ok) : g.printNumlin = some (frame g.cols '┏' '┓' ++ ((List.range g.rows).flatMap (fun i => g.row i) ++ frame g.cols '┗' '┛')) := by
  unfold Grid.printNumlin
  rw [mapM_some (g := fun i => g.row i) _ fun i hi => Grid.line_eq hg (List.mem_range.1 hi), List.flatMap_def]
  rfl

theorem flatMap_range_inj {α : Type} {f g : Nat → List α} : ∀ {n : Nat} {x y : List α}, (∀ i, i < n → (f i).length = (g i).length) → (List.range n).flatMap f ++ x = (List.range n).flatMap g ++ y → (∀ i, i < n → f i = g i) ∧ x = y
  | 0, x, y, _, h => ⟨fun i hi => absurd hi (Nat.not_lt_zero _), h⟩
  | n + 1, x, y, hl, h => by
    rw [List.range_succ, List.flatMap_append, List.flatMap_append, List.append_assoc, List.append_assoc] at h
    obtain ⟨h1, h2⟩ := flatMap_range_inj (n := n) (fun i hi => hl i (by omega)) h
    rw [List.flatMap_singleton, List.flatMap_singleton] at h2
    obtain ⟨h3, h4⟩ := List.append_inj h2 (hl n (by omega))
    refine ⟨fun i hi => ?_, h4⟩
    rcases Nat.lt_or_ge i n with k | k
    · exact h1 i k
    · rw [show i = n by omega]; exact h3

theorem length_flatMap_range {α : Type} {f : Nat → List α} {c : Nat} : ∀ {n : Nat}, (∀ i, i < n → (f i).length = c) → ((List.range n).flatMap f).length = n * c
  | 0, _ => by simp
  | n + 1, h => by
    rw [List.range_succ, List.flatMap_append, List.length_append, length_flatMap_range (n := n) fun i hi => h i (by omega), List.flatMap_singleton, h n (by omega), Nat.succ_mul]

theorem Grid.box_length {g : Grid} {i j : Nat} (h : g.num (i, j) ≤ 99) : (g.box i j).length = 2 := boxText_length h _ _ _ _

theorem Grid.row_length {g : Grid} {i : Nat} (h : ∀ j, j < g.cols → g.num (i, j) ≤ 99) : (g.row i).length = 2 * g.cols + 4 := by
  unfold Grid.row
  rw [List.length_cons, List.length_append, length_flatMap_range fun j hj => g.box_length (h j hj)]
  simp; omega

/-- equal pictures have equal boxes -/
theorem Grid.box_of_print {g g' : Grid} (hg : g.Ok) (hg' : g'.Ok) (hq : g'.toBoard = g.toBoard) (h99 : ∀ i j, i < g.rows → j < g.cols → g.num (i, j) ≤ 99) (h : g.printNumlin = g'.printNumlin) :
    ∀ i j, i < g.rows → j < g.cols → g.box i j = g'.box i j := by
  intro i j hi hj
  have hr : g'.rows = g.rows := congrArg Board.rows hq
  have hc : g'.cols = g.cols := congrArg Board.cols hq
  have hn : ∀ x, g'.num x = g.num x := fun x => by show g'.toBoard.num x = g.toBoard.num x; rw [hq]
  rw [Grid.print_eq hg, Grid.print_eq hg', hr, hc] at h
  have h1 := List.append_cancel_left (Option.some.inj h)
  have h2 := (flatMap_range_inj (fun i hi => by
    rw [g.row_length fun j hj => h99 i j hi hj, g'.row_length fun j hj => by rw [hn]; exact h99 i j hi (hc ▸ hj), hc]) h1).1 i hi
  unfold Grid.row at h2
  rw [hc] at h2
  exact (flatMap_range_inj (fun j hj => by rw [g.box_length (h99 i j hi hj), g'.box_length (by rw [hn]; exact h99 i j hi hj)]) (List.cons.inj h2).2).1 j hj

theorem boxText_inj : ∀ w e n s w' e' n' s' : Bool, (w.toNat + e.toNat + n.toNat + s.toNat = 0 ∨ w.toNat + e.toNat + n.toNat + s.toNat = 2) → (w'.toNat + e'.toNat + n'.toNat + s'.toNat = 0 ∨ w'.toNat + e'.toNat + n'.toNat + s'.toNat = 2) →
    boxText 0 w e n s = boxText 0 w' e' n' s' → w = w' ∧ e = e' ∧ n = n' ∧ s = s' := by decide +kernel

theorem adj_of_deg_ne {m n : Nat} {L : Links} {x : Nat × Nat} (hx : x.1 < m ∧ x.2 < n) (h : deg m n L x ≠ 0) : ∃ y, Adj m n L x y := by
  obtain ⟨i, j⟩ := x
  obtain ⟨h1, h2⟩ := hx
  dsimp only at h1 h2
  unfold deg at h
  dsimp only at h
  by_cases a : 0 < j ∧ L.h i (j - 1) = true
  · obtain ⟨j, rfl⟩ : ∃ k, j = k + 1 := ⟨j - 1, by omega⟩
    exact ⟨_, .left h1 h2 a.2⟩
  by_cases b : j + 1 < n ∧ L.h i j = true
  · exact ⟨_, .right h1 b.1 b.2⟩
  by_cases c : 0 < i ∧ L.v (i - 1) j = true
  · obtain ⟨i, rfl⟩ : ∃ k, i = k + 1 := ⟨i - 1, by omega⟩
    exact ⟨_, .up h1 h2 c.2⟩
  by_cases d : i + 1 < m ∧ L.v i j = true
  · exact ⟨_, .down d.1 h2 d.2⟩
  rw [if_neg a, if_neg b, if_neg c, if_neg d] at h
  exact absurd rfl h

theorem adj_ne {m n : Nat} {L : Links} {x y : Nat × Nat} (h : Adj m n L x y) : x ≠ y := by
  cases h <;> intro e <;> injection e <;> omega

/-- a box with one line has one neighbour -/
theorem adj_unique {m n : Nat} {L : Links} {x y z : Nat × Nat} (h : deg m n L x = 1) (hy : Adj m n L x y) (hz : Adj m n L x z) : y = z := by
  have one : ∀ {p q r s : Prop} [Decidable p] [Decidable q] [Decidable r] [Decidable s],
      (if p then 1 else 0) + (if q then 1 else 0) + (if r then 1 else 0) + (if s then 1 else 0) = 1 → ¬ (p ∧ q) ∧ ¬ (p ∧ r) ∧ ¬ (p ∧ s) ∧ ¬ (q ∧ r) ∧ ¬ (q ∧ s) ∧ ¬ (r ∧ s) := by
    intro p q r s _ _ _ _ h
    refine ⟨?_, ?_, ?_, ?_, ?_, ?_⟩ <;> rintro ⟨a, b⟩ <;> simp only [a, b, if_true] at h <;> (repeat' split at h) <;> omega
  have := one h
  cases hy with
  | right a1 a2 a3 =>
    cases hz with
    | right b1 b2 b3 => rfl
    | left b1 b2 b3 => exact absurd ⟨⟨Nat.succ_pos _, b3⟩, ⟨a2, a3⟩⟩ this.1
    | down b1 b2 b3 => exact absurd ⟨⟨a2, a3⟩, ⟨b1, b3⟩⟩ this.2.2.2.2.1
    | up b1 b2 b3 => exact absurd ⟨⟨a2, a3⟩, ⟨Nat.succ_pos _, b3⟩⟩ this.2.2.2.1
  | left a1 a2 a3 =>
    cases hz with
    | right b1 b2 b3 => exact absurd ⟨⟨Nat.succ_pos _, a3⟩, ⟨b2, b3⟩⟩ this.1
    | left b1 b2 b3 => rfl
    | down b1 b2 b3 => exact absurd ⟨⟨Nat.succ_pos _, a3⟩, ⟨b1, b3⟩⟩ this.2.2.1
    | up b1 b2 b3 => exact absurd ⟨⟨Nat.succ_pos _, a3⟩, ⟨Nat.succ_pos _, b3⟩⟩ this.2.1
  | down a1 a2 a3 =>
    cases hz with
    | right b1 b2 b3 => exact absurd ⟨⟨b2, b3⟩, ⟨a1, a3⟩⟩ this.2.2.2.2.1
    | left b1 b2 b3 => exact absurd ⟨⟨Nat.succ_pos _, b3⟩, ⟨a1, a3⟩⟩ this.2.2.1
    | down b1 b2 b3 => rfl
    | up b1 b2 b3 => exact absurd ⟨⟨Nat.succ_pos _, b3⟩, ⟨a1, a3⟩⟩ this.2.2.2.2.2
  | up a1 a2 a3 =>
    cases hz with
    | right b1 b2 b3 => exact absurd ⟨⟨b2, b3⟩, ⟨Nat.succ_pos _, a3⟩⟩ this.2.2.2.1
    | left b1 b2 b3 => exact absurd ⟨⟨Nat.succ_pos _, b3⟩, ⟨Nat.succ_pos _, a3⟩⟩ this.2.1
    | down b1 b2 b3 => exact absurd ⟨⟨Nat.succ_pos _, a3⟩, ⟨b1, b3⟩⟩ this.2.2.2.2.2
    | up b1 b2 b3 => rfl

/-- equal sides give equal neighbours -/
theorem adj_sides {m n : Nat} {L L' : Links} {i j : Nat} (h : goesW L i j = goesW L' i j ∧ goesE n L i j = goesE n L' i j ∧ goesN L i j = goesN L' i j ∧ goesS m L i j = goesS m L' i j) {y : Nat × Nat} (ha : Adj m n L (i, j) y) : Adj m n L' (i, j) y := by
  obtain ⟨h1, h2, h3, h4⟩ := h
  cases ha with
  | right a1 a2 a3 =>
    refine .right a1 a2 ?_
    unfold goesE at h2
    rw [decide_eq_true a2, Bool.true_and, Bool.true_and] at h2
    rw [← h2]; exact a3
  | @left _ j a1 a2 a3 =>
    refine .left a1 a2 ?_
    have : L.h i j = L'.h i j := by
      unfold goesW at h1
      rw [decide_eq_true (Nat.le_add_left 1 j), Bool.true_and, Bool.true_and] at h1
      exact h1
    rw [← this]; exact a3
  | down a1 a2 a3 =>
    refine .down a1 a2 ?_
    unfold goesS at h4
    rw [decide_eq_true a1, Bool.true_and, Bool.true_and] at h4
    rw [← h4]; exact a3
  | @up i _ a1 a2 a3 =>
    refine .up a1 a2 ?_
    have : L.v i j = L'.v i j := by
      unfold goesN at h3
      rw [decide_eq_true (Nat.le_add_left 1 i), Bool.true_and, Bool.true_and] at h3
      exact h3
    rw [← this]; exact a3

end TdZdd.Nl
