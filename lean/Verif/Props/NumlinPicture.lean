import Verif.NumlinPictureProofs
import Verif.Props.NumlinApp

/-! # C73: the pictures of `ddnumlin` -/

namespace TdZdd.Nl

/-- the arms of a character (west, east, north, south), after the Unicode names of the box drawing characters -/
def arms : Char → Option (Bool × Bool × Bool × Bool)
  | '─' => some (true, true, false, false)
  | '│' => some (false, false, true, true)
  | '┌' => some (false, true, false, true)
  | '┐' => some (true, false, false, true)
  | '└' => some (false, true, true, false)
  | '┘' => some (true, false, true, false)
  | _ => none

/-- what the two characters of a box say -/
inductive Depicts (k : Nat) (w e n s : Bool) : List Char → Prop
  /-- a number of one or two digits, which hides the line that ends in it -/
  | short {d : Char} : k ≠ 0 → decimalText k = [d] → Depicts k w e n s [' ', d]
  | long {d d' : Char} : k ≠ 0 → decimalText k = [d, d'] → Depicts k w e n s [d, d']
  /-- a blank box -/
  | blank : k = 0 → w = false → e = false → n = false → s = false → Depicts k w e n s [' ', ' ']
  /-- a line; to the west it is continued in the first character -/
  | line {a b : Char} : k = 0 → arms b = some (w, e, n, s) → a = (if w then '─' else ' ') → Depicts k w e n s [a, b]

theorem setw2_short : ∀ k < 100, k ≠ 0 → (∃ d, decimalText k = [d] ∧ setw2 k = [' ', d]) ∨ ∃ d d', decimalText k = [d, d'] ∧ setw2 k = [d, d'] := by
  have h : ∀ k < 100, k ≠ 0 → ((decimalText k).length = 1 ∧ setw2 k = ' ' :: decimalText k) ∨ ((decimalText k).length = 2 ∧ setw2 k = decimalText k) := by decide +kernel
  intro k hk h0
  rcases h k hk h0 with ⟨h1, h2⟩ | ⟨h1, h2⟩
  · match decimalText k, h1, h2 with
    | [d], _, h2 => exact .inl ⟨d, rfl, h2⟩
  · match decimalText k, h1, h2 with
    | [d, d'], _, h2 => exact .inr ⟨d, d', rfl, h2⟩

theorem depicts_line : ∀ w e n s : Bool, w.toNat + e.toNat + n.toNat + s.toNat = 2 → ∃ b, boxText 0 w e n s = [if w then '─' else ' ', b] ∧ arms b = some (w, e, n, s)
  | true, true, false, false, _ => ⟨'─', rfl, rfl⟩
  | true, false, true, false, _ => ⟨'┘', rfl, rfl⟩
  | true, false, false, true, _ => ⟨'┐', rfl, rfl⟩
  | false, true, true, false, _ => ⟨'└', rfl, rfl⟩
  | false, true, false, true, _ => ⟨'┌', rfl, rfl⟩
  | false, false, true, true, _ => ⟨'│', rfl, rfl⟩
  | false, false, false, false, h => nomatch h
  | true, false, false, false, h => nomatch h
  | false, true, false, false, h => nomatch h
  | false, false, true, false, h => nomatch h
  | false, false, false, true, h => nomatch h
  | true, true, true, false, h => nomatch h
  | true, true, false, true, h => nomatch h
  | true, false, true, true, h => nomatch h
  | false, true, true, true, h => nomatch h
  | true, true, true, true, h => nomatch h

theorem boxText_number : ∀ (w e n s : Bool), w.toNat + e.toNat + n.toNat + s.toNat = 1 → ∀ k, k ≠ 0 → boxText k w e n s = setw2 k := by
  intro w e n s h k hk
  unfold boxText
  cases w <;> cases e <;> cases n <;> cases s <;> first | (exact absurd h (by decide)) | (simp [hk])

theorem box_depicts {g : Grid} {i j : Nat} (hs : IsSolution g.toBoard g.links) (hi : i < g.rows) (hj : j < g.cols) (h99 : g.num (i, j) ≤ 99) :
    Depicts (g.num (i, j)) (goesW g.links i j) (goesE g.cols g.links i j) (goesN g.links i j) (goesS g.rows g.links i j) (g.box i j) := by
  have h1 := hs.number i j hi hj
  have h2 := hs.other i j hi hj
  rw [deg_sides] at h1 h2
  unfold Grid.box
  by_cases k : g.num (i, j) = 0
  · rw [k]
    rcases h2 k with h | h
    · generalize goesW g.links i j = w at *
      generalize goesE g.cols g.links i j = e at *
      generalize goesN g.links i j = n at *
      generalize goesS g.rows g.links i j = s at *
      cases w <;> cases e <;> cases n <;> cases s <;> first | (exact absurd h (by decide)) | exact .blank rfl rfl rfl rfl rfl
    · obtain ⟨b, e1, e2⟩ := depicts_line _ _ _ _ h
      rw [e1]
      exact .line rfl e2 rfl
  · rw [boxText_number _ _ _ _ (h1 k) _ k]
    rcases setw2_short _ (by omega) k with ⟨d, e1, e2⟩ | ⟨d, d', e1, e2⟩
    · rw [e2]; exact .short k e1
    · rw [e2]; exact .long k e1

/-- the box of column `j` in a line of a picture -/
def boxAt (l : List Char) (j : Nat) : List Char := (l.drop (1 + 2 * j)).take 2

theorem drop_flatMap {α : Type} {f : Nat → List α} {c : Nat} : ∀ {n j : Nat} {x : List α}, j < n → (∀ i, i < n → (f i).length = c) → (((List.range n).flatMap f ++ x).drop (j * c)).take c = f j
  | 0, j, x, h, _ => absurd h (Nat.not_lt_zero _)
  | n + 1, j, x, hj, h => by
    rw [List.range_succ, List.flatMap_append, List.append_assoc, List.flatMap_singleton]
    rcases Nat.lt_or_ge j n with k | k
    · exact drop_flatMap k fun i hi => h i (by omega)
    · obtain rfl : j = n := by omega
      have hl := length_flatMap_range (f := f) (c := c) (n := j) fun i hi => h i (by omega)
      rw [List.drop_left' hl, List.take_left' (h j (by omega))]

/-- **C73.** The picture of a solution consists of lines of equal length, one for each row between the two lines of the frame; the two characters of a box show its number or the lines through it. -/
theorem _root_.TdZdd.C73_picture {g : Grid} (hg : g.Ok) (hs : IsSolution g.toBoard g.links) (h99 : ∀ i j, i < g.rows → j < g.cols → g.num (i, j) ≤ 99) :
    ∃ (top bottom : List Char) (ls : List (List Char)), g.printNumlin = some (top ++ (ls.flatten ++ bottom)) ∧ ls.length = g.rows ∧
      (∀ l ∈ top :: bottom :: ls, l.length = 2 * g.cols + 4 ∧ ∃ r, l = r ++ ['\n'] ∧ '\n' ∉ r) ∧
      ∀ i j, i < g.rows → j < g.cols → ∃ l, ls[i]? = some l ∧
        Depicts (g.num (i, j)) (goesW g.links i j) (goesE g.cols g.links i j) (goesN g.links i j) (goesS g.rows g.links i j) (boxAt l j) := by
  refine ⟨frame g.cols '┏' '┓', frame g.cols '┗' '┛', (List.range g.rows).map fun i => g.row i, ?_, by simp, ?_, fun i j hi hj => ⟨g.row i, ?_, ?_⟩⟩
  · rw [Grid.print_eq hg, List.flatMap_def]
  · have hf : ∀ a b, a ≠ '\n' → b ≠ '\n' → (frame g.cols a b).length = 2 * g.cols + 4 ∧ ∃ r, frame g.cols a b = r ++ ['\n'] ∧ '\n' ∉ r := by
      intro a b ha hb
      refine ⟨by unfold frame; simp, a :: (List.replicate (2 * g.cols) '━' ++ ['━', b]), by unfold frame; simp, ?_⟩
      simp only [List.mem_cons, List.mem_append, List.mem_replicate, List.not_mem_nil, or_false, not_or, not_and]
      exact ⟨fun e => ha e.symm, (fun _ => by decide), by decide, fun e => hb e.symm⟩
    intro l hl
    rcases List.mem_cons.1 hl with rfl | hl
    · exact hf _ _ (by decide) (by decide)
    rcases List.mem_cons.1 hl with rfl | hl
    · exact hf _ _ (by decide) (by decide)
    obtain ⟨i, hi, rfl⟩ := List.mem_map.1 hl
    have hi := List.mem_range.1 hi
    refine ⟨g.row_length fun j hj => h99 i j hi hj, '┃' :: ((List.range g.cols).flatMap (fun j => g.box i j) ++ [' ', '┃']), by unfold Grid.row; simp, ?_⟩
    intro hm
    rcases List.mem_cons.1 hm with e | hm
    · exact absurd e (by decide)
    rcases List.mem_append.1 hm with hm | hm
    · obtain ⟨j, hj, hm⟩ := List.mem_flatMap.1 hm
      have hj := List.mem_range.1 hj
      have hd := box_depicts hs hi hj (h99 i j hi hj)
      have hdec : ∀ k < 100, '\n' ∉ decimalText k := by decide +kernel
      have hdec := hdec _ (show g.num (i, j) < 100 by have := h99 i j hi hj; omega)
      generalize g.box i j = t at *
      cases hd with
      | short _ e => rw [e] at hdec; exact hdec ((List.mem_cons.1 hm).resolve_left (by decide))
      | long _ e => rw [e] at hdec; exact hdec hm
      | blank => simp at hm
      | @line a b _ e1 e2 =>
        rcases List.mem_cons.1 hm with e | hm
        · rw [e2] at e
          split at e <;> exact absurd e (by decide)
        · rcases List.mem_cons.1 hm with e | hm
          · rw [← e] at e1; cases e1
          · cases hm
    · exact absurd hm (by decide)
  · rw [List.getElem?_map, List.getElem?_range hi]; rfl
  · have : boxAt (g.row i) j = g.box i j := by
      unfold boxAt Grid.row
      rw [Nat.add_comm, List.drop_succ_cons, Nat.mul_comm]
      exact drop_flatMap hj fun j hj => g.box_length (h99 i j hi hj)
    rw [this]
    exact box_depicts hs hi hj (h99 i j hi hj)

theorem links_of_sides {m n : Nat} {L L' : Links} (h : ∀ i j y, i < m → j < n → Adj m n L (i, j) y → Adj m n L' (i, j) y) :
    (∀ i j, i < m → j + 1 < n → L.h i j = true → L'.h i j = true) ∧ ∀ i j, i + 1 < m → j < n → L.v i j = true → L'.v i j = true := by
  refine ⟨fun i j hi hj a => ?_, fun i j hi hj a => ?_⟩
  · have := h i j _ hi (by omega) (.right hi hj a)
    cases this with
    | right _ _ b => exact b
  · have := h i j _ (by omega) hj (.down hi hj a)
    cases this with
    | down _ _ b => exact b

/-- no number occurs more than twice -/
def Pairs (q : Board) : Prop := ∀ x y z : Nat × Nat, q.num x ≠ 0 → q.num x = q.num y → q.num x = q.num z → x = y ∨ x = z ∨ y = z

theorem adj_half {q : Board} {L L' : Links} (hp : Pairs q) (hs : IsSolution q L) (hs' : IsSolution q L')
    (h0 : ∀ i j, i < q.rows → j < q.cols → q.num (i, j) = 0 → ∀ y, Adj q.rows q.cols L' (i, j) y → Adj q.rows q.cols L (i, j) y)
    (h0' : ∀ i j, i < q.rows → j < q.cols → q.num (i, j) = 0 → ∀ y, Adj q.rows q.cols L (i, j) y → Adj q.rows q.cols L' (i, j) y)
    {x y : Nat × Nat} (ha : Adj q.rows q.cols L x y) : Adj q.rows q.cols L' x y := by
  obtain ⟨⟨b1, b2⟩, b3, b4⟩ := adj_board ha
  by_cases hx : q.num x = 0
  · exact h0' x.1 x.2 b1 b2 hx _ ha
  by_cases hy : q.num y = 0
  · exact adj_symm _ _ (h0' y.1 y.2 b3 b4 hy _ (adj_symm _ _ ha))
  have d := hs.number x.1 x.2 b1 b2 hx
  have d' := hs'.number x.1 x.2 b1 b2 hx
  obtain ⟨z, hz⟩ := adj_of_deg_ne (m := q.rows) (n := q.cols) (L := L') (x := x) ⟨b1, b2⟩ (by rw [d']; decide)
  by_cases hz0 : q.num z = 0
  · obtain ⟨_, c3, c4⟩ := adj_board hz
    have : Adj q.rows q.cols L x z := adj_symm _ _ (h0 z.1 z.2 c3 c4 hz0 _ (adj_symm _ _ hz))
    rw [adj_unique d ha this]; exact hz
  · have e1 := hs.same x y (.tail .refl ha) hx hy
    have e2 := hs'.same x z (.tail .refl hz) hx hz0
    rcases hp x y z hx e1 e2 with e | e | e
    · exact absurd e (adj_ne ha)
    · exact absurd e (adj_ne hz)
    · rw [e]; exact hz

/-- **C73.** If no number occurs more than twice, then the picture determines the lines of a solution. -/
theorem _root_.TdZdd.C73_faithful {g g' : Grid} (hg : g.Ok) (hg' : g'.Ok) (hq : g'.toBoard = g.toBoard) (hp : Pairs g.toBoard) (h99 : ∀ i j, i < g.rows → j < g.cols → g.num (i, j) ≤ 99)
    (hs : IsSolution g.toBoard g.links) (hs' : IsSolution g.toBoard g'.links) (h : g.printNumlin = g'.printNumlin) : g = g' := by
  have hb := Grid.box_of_print hg hg' hq h99 h
  have hr : g'.rows = g.rows := congrArg Board.rows hq
  have hc : g'.cols = g.cols := congrArg Board.cols hq
  have hn : ∀ x, g'.num x = g.num x := fun x => by show g'.toBoard.num x = g.toBoard.num x; rw [hq]
  have h0 : ∀ i j, i < g.rows → j < g.cols → g.num (i, j) = 0 → goesW g.links i j = goesW g'.links i j ∧ goesE g.cols g.links i j = goesE g.cols g'.links i j ∧ goesN g.links i j = goesN g'.links i j ∧ goesS g.rows g.links i j = goesS g.rows g'.links i j := by
    intro i j hi hj k
    have e := hb i j hi hj
    unfold Grid.box at e
    rw [hn, k, hr, hc] at e
    have d := hs.other i j hi hj k
    have d' := hs'.other i j hi hj k
    rw [deg_sides] at d d'
    exact boxText_inj _ _ _ _ _ _ _ _ d d' e
  have h1 := fun i j hi hj k y => adj_sides (y := y) (h0 i j hi hj k)
  have h2 := fun i j hi hj k y => adj_sides (y := y) ⟨(h0 i j hi hj k).1.symm, (h0 i j hi hj k).2.1.symm, (h0 i j hi hj k).2.2.1.symm, (h0 i j hi hj k).2.2.2.symm⟩
  have l1 := links_of_sides (L := g.links) (L' := g'.links) fun i j y _ _ ha => adj_half hp hs hs' h2 h1 ha
  have l2 := links_of_sides (L := g'.links) (L' := g.links) fun i j y _ _ ha => adj_half hp hs' hs h1 h2 ha
  refine grid_ext hg hg' hq.symm ⟨fun i j a b => ?_, fun i j a b => ?_⟩
  · exact Bool.eq_iff_iff.2 ⟨l1.1 i j a b, l2.1 i j a b⟩
  · exact Bool.eq_iff_iff.2 ⟨l1.2 i j a b, l2.2 i j a b⟩

/-- **C73.** With numbers that occur at most twice, the pictures that `ddnumlin` prints are pairwise different. -/
theorem _root_.TdZdd.C73_distinct {g : Grid} {all : Bool} {k : Int} {bs : List Grid} (h : Prints g all k bs) (hp : Pairs g.toBoard) (h99 : ∀ i j, i < g.rows → j < g.cols → g.num (i, j) ≤ 99) :
    (bs.map Grid.printNumlin).Nodup := by
  refine List.pairwise_map.2 (List.Pairwise.imp_of_mem ?_ h.nodup)
  intro a b ha hb hne he
  obtain ⟨a1, a2, a3, _⟩ := h.sound a ha
  obtain ⟨b1, b2, b3, _⟩ := h.sound b hb
  refine hne (C73_faithful a1 b1 (by rw [a2, b2]) (by rw [a2]; exact hp) ?_ (by rw [a2]; exact a3) (by rw [a2]; exact b3) he)
  intro i j hi hj
  have hr : a.rows = g.rows := congrArg Board.rows a2
  have hc : a.cols = g.cols := congrArg Board.cols a2
  have hn : a.num (i, j) = g.num (i, j) := congrArg (fun q => Board.num q (i, j)) a2
  rw [hn]
  exact h99 i j (hr ▸ hi) (hc ▸ hj)

/-- four equal numbers, joined by two vertical lines -/
def twoV : Grid := ⟨⟨2, 2, [[1, 1], [1, 1]]⟩, [[false], [false]], [[true, true]]⟩

/-- the same numbers, joined by two horizontal lines -/
def twoH : Grid := ⟨⟨2, 2, [[1, 1], [1, 1]]⟩, [[true], [true]], [[false, false]]⟩

theorem ones_solution {q : Board} {L : Links} (h1 : ∀ i, i < q.rows → ∀ j, j < q.cols → q.num (i, j) = 1) (hd : ∀ i, i < q.rows → ∀ j, j < q.cols → deg q.rows q.cols L (i, j) = 1) : IsSolution q L := by
  refine ⟨fun i j hi hj _ => hd i hi j hj, fun i j hi hj h => ?_, fun i j hi hj _ => ⟨_, .refl, ?_⟩, fun x y hc hx hy => ?_⟩
  · rw [h1 i hi j hj] at h; cases h
  · rw [h1 i hi j hj]; decide
  · cases hc with
    | refl => rfl
    | tail h ha =>
      obtain ⟨_, b3, b4⟩ := adj_board ha
      have : ∀ {x z : Nat × Nat}, Conn (Adj q.rows q.cols L) x z → z.1 < q.rows ∧ z.2 < q.cols → x.1 < q.rows ∧ x.2 < q.cols := by
        intro x z h
        induction h with
        | refl => exact id
        | tail _ ha ih => exact fun _ => ih (adj_board ha).1
      have hb := this h (adj_board ha).1
      rw [h1 _ b3 _ b4, h1 _ hb.1 _ hb.2]

/-- **C73.** With more than two equal numbers different solutions may have the same picture. -/
theorem _root_.TdZdd.C73_faithful_false : ∃ g g' : Grid, g.Ok ∧ g'.Ok ∧ g'.toBoard = g.toBoard ∧ IsSolution g.toBoard g.links ∧ IsSolution g.toBoard g'.links ∧ g.printNumlin = g'.printNumlin ∧ g ≠ g' :=
  ⟨twoV, twoH, ⟨⟨by decide, by decide, by decide, by decide⟩, ⟨by decide, by decide⟩, ⟨by decide, by decide⟩⟩, ⟨⟨by decide, by decide, by decide, by decide⟩, ⟨by decide, by decide⟩, ⟨by decide, by decide⟩⟩, rfl,
    ones_solution (by decide) (by decide), ones_solution (by decide) (by decide), by decide +kernel, by decide⟩

/-- **C73.** With a number above 99 the columns of the picture are not aligned. -/
theorem _root_.TdZdd.C73_picture_false : ∃ g : Grid, g.Ok ∧ IsSolution g.toBoard g.links ∧ g.cols = 2 ∧ g.printNumlin = some "┏━━━━━┓\n┃ 1100 ┃\n┃ 1100 ┃\n┗━━━━━┛\n".toList := by
  refine ⟨⟨⟨2, 2, [[1, 100], [1, 100]]⟩, [[false], [false]], [[true, true]]⟩, ⟨⟨by decide, by decide, by decide, by decide⟩, ⟨by decide, by decide⟩, ⟨by decide, by decide⟩⟩, ?_, rfl, by decide +kernel⟩
  have hd : ∀ i, i < 2 → ∀ j, j < 2 → deg 2 2 ⟨fun i j => (get2 [[false], [false]] i j).getD false, fun i j => (get2 [[true, true]] i j).getD false⟩ (i, j) = 1 := by decide
  have hn : ∀ i, i < 2 → ∀ j, j < 2 → (⟨2, 2, [[1, 100], [1, 100]]⟩ : Board).num (i, j) ≠ 0 ∧ (⟨2, 2, [[1, 100], [1, 100]]⟩ : Board).num (i, j) = if j = 0 then 1 else 100 := by decide
  refine ⟨fun i j hi hj _ => hd i hi j hj, fun i j hi hj h => absurd h (hn i hi j hj).1, fun i j hi hj _ => ⟨_, .refl, (hn i hi j hj).1⟩, fun x y hc _ _ => ?_⟩
  have : ∀ {x y : Nat × Nat}, Conn (Adj 2 2 ⟨fun i j => (get2 [[false], [false]] i j).getD false, fun i j => (get2 [[true, true]] i j).getD false⟩) x y →
      (⟨2, 2, [[1, 100], [1, 100]]⟩ : Board).num x = (⟨2, 2, [[1, 100], [1, 100]]⟩ : Board).num y := by
    intro x y h
    induction h with
    | refl => rfl
    | tail _ ha ih =>
      rw [ih]
      obtain ⟨⟨c1, c2⟩, c3, c4⟩ := adj_board ha
      have hf : ∀ i, i < 2 → ∀ j, j < 1 → (get2 [[false], [false]] i j).getD false = false := by decide
      cases ha with
      | right a1 a2 a3 => exact absurd (Eq.trans (hf _ a1 _ (by omega)).symm a3) (by decide)
      | left a1 a2 a3 => exact absurd (Eq.trans (hf _ a1 _ (by omega)).symm a3) (by decide)
      | down a1 a2 a3 => rw [(hn _ c1 _ c2).2, (hn _ c3 _ c4).2]
      | up a1 a2 a3 => rw [(hn _ c1 _ c2).2, (hn _ c3 _ c4).2]
  exact this hc

/-! ### Examples -/

def wideV : Grid := { wide with vlink := [[true, false, true]] }
def wideL : Grid := { wide with hlink := [[true, false], [true, false]], vlink := [[false, true, true]] }

set_option maxRecDepth 100000 in
theorem wide_sols : ∀ b ∈ [wideL, wideV], b.Ok ∧ b.toBoard = wide.toBoard ∧ IsSolution wide.toBoard b.links := by
  intro b hb
  obtain ⟨bs, h1, h2⟩ := C71_run wide_ok (by decide) (by decide) wide_small true (k := -1) (by decide)
  have e : [wideL, wideV] = bs.take (2 : Int).toNat := (h2 2).2 100 100 _ (by decide +kernel)
  rw [e] at hb
  have := h1.sound b (List.mem_of_mem_take hb)
  exact ⟨this.1, this.2.1, this.2.2.1⟩

theorem wide_pairs : Pairs wide.toBoard := by
  have hb : ∀ x : Nat × Nat, wide.toBoard.num x ≠ 0 → x.1 < 2 ∧ x.2 < 3 := by
    intro ⟨i, j⟩ h
    rcases Nat.lt_or_ge i 2 with k | k
    · rcases Nat.lt_or_ge j 3 with k' | k'
      · exact ⟨k, k'⟩
      · exact absurd (show (get2 wide.number i j).getD 0 = 0 by rw [Shape.out (m := 2) (n := 3) ⟨by decide, by decide⟩ (.inr k')]; rfl) h
    · exact absurd (show (get2 wide.number i j).getD 0 = 0 by rw [Shape.out (m := 2) (n := 3) ⟨by decide, by decide⟩ (.inl k)]; rfl) h
  have key : ∀ a, a < 6 → ∀ c, c < 6 → (wide.toBoard.num (a / 3, a % 3) ≠ 0 ∧ wide.toBoard.num (a / 3, a % 3) = wide.toBoard.num (c / 3, c % 3)) → c = a ∨ c = (a + 3) % 6 := by decide +kernel
  have hx' : ∀ x : Nat × Nat, wide.toBoard.num x ≠ 0 → ∃ a, a < 6 ∧ x = (a / 3, a % 3) := fun x h => by
    obtain ⟨h1, h2⟩ := hb x h
    obtain ⟨i, j⟩ := x
    dsimp only at h1 h2
    exact ⟨3 * i + j, by omega, by rw [show (3 * i + j) / 3 = i by omega, show (3 * i + j) % 3 = j by omega]⟩
  intro x y z h h1 h2
  obtain ⟨a, ha, rfl⟩ := hx' x h
  obtain ⟨c, hc, rfl⟩ := hx' y (h1 ▸ h)
  obtain ⟨e, he, rfl⟩ := hx' z (h2 ▸ h)
  rcases key a ha c hc ⟨h, h1⟩ with rfl | rfl
  · exact .inl rfl
  rcases key a ha e he ⟨h, h2⟩ with rfl | rfl
  · exact .inr (.inl rfl)
  · exact .inr (.inr rfl)

example : wideL.printNumlin = some "┏━━━━━━━┓\n┃ 1─┐ 2 ┃\n┃ 1─┘ 2 ┃\n┗━━━━━━━┛\n".toList ∧ wideV.printNumlin = some "┏━━━━━━━┓\n┃ 1   2 ┃\n┃ 1   2 ┃\n┗━━━━━━━┛\n".toList := by decide +kernel

example : wideL.printNumlin ≠ wideV.printNumlin := by
  intro h
  have hL := wide_sols wideL (by decide)
  have hV := wide_sols wideV (by decide)
  have : ∀ i, i < 2 → ∀ j, j < 3 → wideL.num (i, j) ≤ 99 := by decide
  exact absurd (C73_faithful hL.1 hV.1 rfl wide_pairs (fun i j hi hj => this i hi j hj) hL.2.2 hV.2.2 h) (by decide)

end TdZdd.Nl
