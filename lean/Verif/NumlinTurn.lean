import Verif.NumlinShort
import Verif.NumlinApp

/-! Transposition of boards and of their lines. -/

namespace TdZdd.Nl

/-- the lines reflected along the main diagonal -/
def Links.turn (L : Links) : Links := ⟨fun i j => L.v j i, fun i j => L.h j i⟩

def swapP (x : Nat × Nat) : Nat × Nat := (x.2, x.1)

variable {m n : Nat} {L : Links}

theorem deg_turn (x : Nat × Nat) : deg m n L.turn x = deg n m L (swapP x) := by
  unfold deg Links.turn swapP
  dsimp only
  omega

theorem adj_turn {x y : Nat × Nat} (h : Adj m n L.turn x y) : Adj n m L (swapP x) (swapP y) := by
  cases h with
  | right h1 h2 h3 => exact .down h2 h1 h3
  | left h1 h2 h3 => exact .up h2 h1 h3
  | down h1 h2 h3 => exact .right h2 h1 h3
  | up h1 h2 h3 => exact .left h2 h1 h3

theorem adj_turn' {x y : Nat × Nat} (h : Adj n m L x y) : Adj m n L.turn (swapP x) (swapP y) := adj_turn (L := L.turn) h

theorem conn_turn {x y : Nat × Nat} (h : Conn (Adj m n L.turn) x y) : Conn (Adj n m L) (swapP x) (swapP y) := by
  induction h with
  | refl => exact .refl
  | tail _ h ih => exact .tail ih (adj_turn h)

theorem conn_turn' {x y : Nat × Nat} (h : Conn (Adj n m L) x y) : Conn (Adj m n L.turn) (swapP x) (swapP y) := conn_turn (L := L.turn) h

/-- the board reflected along the main diagonal -/
structure Turned (q q' : Board) : Prop where
  rows : q'.rows = q.cols
  cols : q'.cols = q.rows
  num : ∀ i j, q'.num (i, j) = q.num (j, i)

variable {q q' : Board}

theorem Turned.symm (h : Turned q q') : Turned q' q := ⟨h.cols.symm, h.rows.symm, fun i j => (h.num j i).symm⟩

theorem IsSolution.turn (ht : Turned q q') (h : IsSolution q L) : IsSolution q' L.turn := by
  refine ⟨fun i j hi hj hn => ?_, fun i j hi hj hn => ?_, fun i j hi hj hd => ?_, fun x y hc hx hy => ?_⟩
  · rw [ht.rows] at hi
    rw [ht.cols] at hj
    rw [deg_turn, ht.rows, ht.cols]
    exact h.number j i hj hi (by rw [← ht.num]; exact hn)
  · rw [ht.rows] at hi
    rw [ht.cols] at hj
    rw [deg_turn, ht.rows, ht.cols]
    exact h.other j i hj hi (by rw [← ht.num]; exact hn)
  · rw [ht.rows] at hi
    rw [ht.cols] at hj
    rw [deg_turn, ht.rows, ht.cols] at hd
    obtain ⟨y, hy, hy0⟩ := h.noLoop j i hj hi hd
    refine ⟨swapP y, ?_, ?_⟩
    · rw [ht.rows, ht.cols]; exact conn_turn' hy
    · have : q'.num (swapP y) = q.num y := ht.num y.2 y.1
      rw [this]; exact hy0
  · rw [ht.rows, ht.cols] at hc
    have hx' : q'.num x = q.num (swapP x) := ht.num x.1 x.2
    have hy' : q'.num y = q.num (swapP y) := ht.num y.1 y.2
    rw [hx'] at hx ⊢
    rw [hy'] at hy ⊢
    exact h.same _ _ (conn_turn hc) hx hy

/-! ### Blank boxes -/

theorem filter_range_len (P : Nat → Bool) : ∀ k, ((List.range k).filter P).length = sumTo k fun x => (P x).toNat
  | 0 => rfl
  | k + 1 => by
    rw [List.range_succ, List.filter_append, List.length_append, filter_range_len P k]
    show _ = sumTo k _ + (P k).toNat
    cases h : P k
    · rw [List.filter_cons_of_neg (by rw [h]; exact Bool.false_ne_true)]; rfl
    · rw [List.filter_cons_of_pos h]; rfl

theorem sumTo_add (f : Nat → Nat) (k : Nat) : ∀ l, sumTo (k + l) f = sumTo k f + sumTo l fun x => f (k + x)
  | 0 => rfl
  | l + 1 => by
    show sumTo (k + l) f + f (k + l) = _ + (_ + f (k + l))
    rw [sumTo_add f k l]; omega

theorem sumTo_prod (f : Nat → Nat) (n : Nat) : ∀ m, sumTo (m * n) f = sumTo m fun i => sumTo n fun j => f (i * n + j)
  | 0 => by rw [Nat.zero_mul]; rfl
  | m + 1 => by
    rw [Nat.add_mul, Nat.one_mul, sumTo_add, sumTo_prod f n m]; rfl

theorem sumTo_plus (f g : Nat → Nat) : ∀ k, sumTo k (fun x => f x + g x) = sumTo k f + sumTo k g
  | 0 => rfl
  | k + 1 => by
    show sumTo k _ + (f k + g k) = (_ + f k) + (_ + g k)
    rw [sumTo_plus f g k]; omega

theorem sumTo_zero : ∀ k, sumTo k (fun _ => 0) = 0
  | 0 => rfl
  | k + 1 => sumTo_zero k

theorem sumTo_comm (f : Nat → Nat → Nat) (n : Nat) : ∀ m, (sumTo m fun i => sumTo n fun j => f i j) = sumTo n fun j => sumTo m fun i => f i j
  | 0 => (sumTo_zero n).symm
  | m + 1 => by
    show (sumTo m fun i => sumTo n fun j => f i j) + sumTo n (fun j => f m j) = sumTo n fun j => sumTo m (fun i => f i j) + f m j
    rw [sumTo_plus, sumTo_comm f n m]

theorem blanks_eq (q : Board) (L : Links) : blanks q L = sumTo q.rows fun i => sumTo q.cols fun j => (decide (deg q.rows q.cols L (i, j) = 0)).toNat := by
  unfold blanks
  rw [filter_range_len, sumTo_prod]
  refine sumTo_congr fun i _ => sumTo_congr fun j hj => ?_
  have e1 : (i * q.cols + j) / q.cols = i := by
    rw [Nat.add_comm, Nat.add_mul_div_right _ _ (by omega), Nat.div_eq_of_lt hj, Nat.zero_add]
  have e2 : (i * q.cols + j) % q.cols = j := by rw [Nat.add_comm, Nat.add_mul_mod_self_right, Nat.mod_eq_of_lt hj]
  rw [e1, e2]

theorem blanks_turn (ht : Turned q q') : blanks q' L.turn = blanks q L := by
  rw [blanks_eq, blanks_eq, ht.rows, ht.cols, sumTo_comm]
  refine sumTo_congr fun i _ => sumTo_congr fun j _ => ?_
  rw [deg_turn]; rfl

/-! ### Matrices -/

variable {α : Type}

/-- a matrix of `m` rows and `n` columns -/
def Shape (m n : Nat) (a : List (List α)) : Prop := a.length = m ∧ ∀ r ∈ a, r.length = n

theorem Shape.get {a : List (List α)} (h : Shape m n a) {i j : Nat} (hi : i < m) (hj : j < n) : ∃ x, get2 a i j = some x := by
  have h1 : i < a.length := by rw [h.1]; exact hi
  have h2 : j < (a[i]'h1).length := by rw [h.2 _ (List.getElem_mem h1)]; exact hj
  exact ⟨(a[i]'h1)[j]'h2, by unfold get2; rw [List.getElem?_eq_getElem h1, Option.bind_some, List.getElem?_eq_getElem h2]⟩

theorem Shape.out {a : List (List α)} (h : Shape m n a) {i j : Nat} (hi : m ≤ i ∨ n ≤ j) : get2 a i j = none := by
  unfold get2
  by_cases h1 : i < a.length
  · rw [List.getElem?_eq_getElem h1, Option.bind_some]
    exact List.getElem?_eq_none (by rw [h.2 _ (List.getElem_mem h1)]; rw [h.1] at h1; omega)
  · rw [List.getElem?_eq_none (by omega)]; rfl

theorem Shape.ext {a b : List (List α)} (ha : Shape m n a) (hb : Shape m n b) (h : ∀ i j, i < m → j < n → get2 a i j = get2 b i j) : a = b := by
  refine List.ext_getElem (by rw [ha.1, hb.1]) fun i h1 h2 => ?_
  have hi : i < m := by rw [ha.1] at h1; exact h1
  refine List.ext_getElem (by rw [ha.2 _ (List.getElem_mem h1), hb.2 _ (List.getElem_mem h2)]) fun j h3 h4 => ?_
  have hj : j < n := by rw [ha.2 _ (List.getElem_mem h1)] at h3; exact h3
  have := h i j hi hj
  unfold get2 at this
  rw [List.getElem?_eq_getElem h1, List.getElem?_eq_getElem h2, Option.bind_some, Option.bind_some, List.getElem?_eq_getElem h3, List.getElem?_eq_getElem h4] at this
  exact Option.some.inj this

/-- a matrix given by its elements -/
def matOf (m n : Nat) (f : Nat → Nat → α) : List (List α) := (List.range m).map fun i => (List.range n).map fun j => f i j

theorem matOf_shape (f : Nat → Nat → α) : Shape m n (matOf m n f) := by
  refine ⟨by unfold matOf; simp, fun r hr => ?_⟩
  unfold matOf at hr
  obtain ⟨i, _, rfl⟩ := List.mem_map.1 hr
  simp

theorem matOf_get (f : Nat → Nat → α) {i j : Nat} (hi : i < m) (hj : j < n) : get2 (matOf m n f) i j = some (f i j) := by
  unfold get2 matOf
  rw [List.getElem?_map, List.getElem?_range hi]
  dsimp only [Option.map_some, Option.bind_some]
  rw [List.getElem?_map, List.getElem?_range hj]
  rfl

theorem mapM_matOf {f : Nat → Nat → Option α} {g : Nat → Nat → α} (h : ∀ i j, i < m → j < n → f i j = some (g i j)) :
    ((List.range m).mapM fun i => (List.range n).mapM fun j => f i j) = some (matOf m n g) :=
  mapM_some _ fun i hi => mapM_some _ fun j hj => h i j (List.mem_range.1 hi) (List.mem_range.1 hj)

theorem transposedMatrix_eq {a : List (List α)} (h : Shape m n a) (hm : 1 ≤ m) : ∃ b, transposedMatrix a = some b ∧ Shape n m b ∧ ∀ i j, get2 b i j = get2 a j i := by
  have h1 : 0 < a.length := by rw [h.1]; exact hm
  have hr := h.2 _ (List.getElem_mem h1)
  by_cases hn : n = 0
  · refine ⟨[], ?_, ⟨by simp [hn], by simp⟩, fun i j => ?_⟩
    · unfold transposedMatrix
      rw [List.getElem?_eq_getElem h1, Option.bind_some, hr, hn]; rfl
    · rw [h.out (.inr (by omega))]; rfl
  obtain ⟨x0, _⟩ := h.get (i := 0) (j := 0) (by omega) (by omega)
  refine ⟨matOf n m fun i j => (get2 a j i).getD x0, ?_, matOf_shape _, fun i j => ?_⟩
  · unfold transposedMatrix
    rw [List.getElem?_eq_getElem h1, Option.bind_some, hr, h.1]
    refine mapM_matOf fun i j hi hj => ?_
    obtain ⟨x, hx⟩ := h.get hj hi
    rw [hx]; rfl
  · by_cases g : i < n ∧ j < m
    · rw [matOf_get _ g.1 g.2]
      obtain ⟨x, hx⟩ := h.get g.2 g.1
      rw [hx]; rfl
    · rw [h.out (by omega), (matOf_shape _).out (by omega)]

/-- as after `init` -/
structure Grid.Ok (g : Grid) : Prop where
  board : g.toBoard.Ok
  hlink : Shape g.rows (g.cols - 1) g.hlink
  vlink : Shape (g.rows - 1) g.cols g.vlink

/-- the lines of a board -/
def Grid.links (g : Grid) : Links := ⟨fun i j => (get2 g.hlink i j).getD false, fun i j => (get2 g.vlink i j).getD false⟩

theorem Grid.transpose_ok {g : Grid} (hg : g.Ok) (hr : 2 ≤ g.rows) : ∃ g', g.transpose = some g' ∧ g'.Ok ∧ Turned g.toBoard g'.toBoard ∧ g'.links = g.links.turn := by
  obtain ⟨n, e1, s1, t1⟩ := transposedMatrix_eq (a := g.number) (m := g.rows) (n := g.cols) ⟨hg.board.len, hg.board.width⟩ hg.board.rows_pos
  obtain ⟨t, e2, s2, t2⟩ := transposedMatrix_eq hg.hlink hg.board.rows_pos
  obtain ⟨h, e3, s3, t3⟩ := transposedMatrix_eq hg.vlink (by omega)
  refine ⟨⟨⟨g.cols, g.rows, n⟩, h, t⟩, ?_, ⟨⟨hg.board.cols_pos, hg.board.rows_pos, s1.1, s1.2⟩, s3, s2⟩, ⟨rfl, rfl, fun i j => ?_⟩, ?_⟩
  · unfold transpose
    rw [e1, e2, e3]; rfl
  · exact congrArg (·.getD 0) (t1 i j)
  · unfold Grid.links Links.turn
    congr 1
    · funext i j; dsimp only; rw [t3]
    · funext i j; dsimp only; rw [t2]

/-- `transpose` of a board with one row is undefined: `vlink` has no first row. -/
theorem Grid.transpose_row {g : Grid} (hg : g.Ok) (hr : g.rows = 1) : g.transpose = none := by
  have : g.vlink = [] := List.length_eq_zero_iff.1 (by rw [hg.vlink.1, hr])
  unfold transpose
  rw [this]
  cases transposedMatrix g.number with
  | none => rfl
  | some _ =>
    cases transposedMatrix g.hlink with
    | none => rfl
    | some _ => rfl

end TdZdd.Nl
