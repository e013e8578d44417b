import Verif.NumlinFillProofs
import Verif.Props.NumlinPicture

/-! # C74: `fillNumbers` -/

namespace TdZdd.Nl

open Fill

/-- **C74.** On a solution `fillNumbers` returns; afterwards every box of a line has the number of the ends of its line, and the other boxes are 0. -/
theorem _root_.TdZdd.C74_fill {g : Grid} (hg : g.Ok) (hs : IsSolution g.toBoard g.links) : ∃ a N, (∀ fuel, N ≤ fuel → g.fillNumbers fuel = some a) ∧ Shape g.rows g.cols a ∧
    ∀ i j, i < g.rows → j < g.cols → (deg g.rows g.cols g.links (i, j) = 0 → get2 a i j = some 0) ∧
      ∀ y, Conn (Adj g.rows g.cols g.links) (i, j) y → g.num y ≠ 0 → get2 a i j = some (g.num y : Int) := by
  obtain ⟨a, N, h1, h2, h3⟩ := fillNumbers_eq hg hs
  refine ⟨a, N, h1, h2, fun i j hi hj => ⟨fun hd => ?_, fun y hc hy => ?_⟩⟩
  · rw [h3 i j hi hj, target_blank hs ⟨hi, hj⟩ hd]
  · rw [h3 i j hi hj, target_eq hs hc hy]

/-- **C74.** The boxes with a number keep it, and every box of a line gets a positive number. -/
theorem _root_.TdZdd.C74_positive {g : Grid} (hg : g.Ok) (hs : IsSolution g.toBoard g.links) {a : List (List Int)} (hf : ∃ N, ∀ fuel', N ≤ fuel' → g.fillNumbers fuel' = some a) :
    ∀ i j, i < g.rows → j < g.cols → (g.num (i, j) ≠ 0 → get2 a i j = some (g.num (i, j) : Int)) ∧ (deg g.rows g.cols g.links (i, j) ≠ 0 ↔ ∃ v, get2 a i j = some v ∧ 0 < v) := by
  obtain ⟨b, N, h1, _, h3⟩ := C74_fill hg hs
  obtain ⟨M, hM⟩ := hf
  obtain rfl : a = b := Option.some.inj ((hM (N + M) (by omega)).symm.trans (h1 (N + M) (by omega)))
  intro i j hi hj
  refine ⟨fun h => (h3 i j hi hj).2 _ .refl h, fun hd => ?_, fun ⟨v, e, hv⟩ hd => ?_⟩
  · obtain ⟨y, hc, hy⟩ := hs.noLoop i j hi hj hd
    exact ⟨_, (h3 i j hi hj).2 y hc hy, by omega⟩
  · rw [(h3 i j hi hj).1 hd] at e
    injection e with e
    omega

/-! ### A closed line -/

/-- a closed line on a board without numbers -/
def ring : Grid := ⟨⟨2, 2, [[0, 0], [0, 0]]⟩, [[true], [true]], [[true, true]]⟩

theorem ring_ok : ring.Ok := ⟨⟨by decide, by decide, by decide, by decide⟩, ⟨by decide, by decide⟩, ⟨by decide, by decide⟩⟩

/-- only the first box is `-1` -/
def ringS : Cells := put1 (fun _ => 0) (0, 0) (-1)

theorem ring_nb : nb 2 2 ring.links (0, 0) = [(0, 1), (1, 0)] ∧ nb 2 2 ring.links (0, 1) = [(0, 0), (1, 1)] ∧ nb 2 2 ring.links (1, 1) = [(0, 1), (1, 0)] ∧ nb 2 2 ring.links (1, 0) = [(0, 0), (1, 1)] := by decide

theorem walk_neg {nbr : Nat × Nat → List (Nat × Nat)} {fuel : Nat} {x : Nat × Nat} {f : Cells} (h : f x < 0) : walk nbr fuel x f = none ∨ walk nbr fuel x f = some (0, f) := by
  cases fuel with
  | zero => exact .inl rfl
  | succ n => rw [walk, if_pos h]; exact .inr rfl

theorem ring_back (fuel : Nat) : walk (nb 2 2 ring.links) fuel (0, 1) (put1 ringS (1, 1) (-1)) = none ∨ walk (nb 2 2 ring.links) fuel (0, 1) (put1 ringS (1, 1) (-1)) = some (0, put1 ringS (1, 1) (-1)) := by
  cases fuel with
  | zero => exact .inl rfl
  | succ n =>
    rw [walk, if_neg (by decide), if_neg (by decide), ring_nb.2.1, tryAll]
    rcases walk_neg (nbr := nb 2 2 ring.links) (fuel := n) (x := (0, 0)) (f := put1 (put1 ringS (1, 1) (-1)) (0, 1) (-1)) (by decide) with e | e
    · rw [e]; exact .inl rfl
    rw [e, Option.bind_some, if_neg (Int.lt_irrefl 0), put1_put1, put1_id (by decide), tryAll]
    rcases walk_neg (nbr := nb 2 2 ring.links) (fuel := n) (x := (1, 1)) (f := put1 ringS (1, 1) (-1)) (by decide) with e | e
    · rw [e]; exact .inl rfl
    rw [e, Option.bind_some, if_neg (Int.lt_irrefl 0), put1_id (by decide), tryAll, put1_id (by decide)]
    exact .inr rfl

theorem ring_loop : ∀ fuel, walk (nb 2 2 ring.links) fuel (1, 1) ringS = none
  | 0 => rfl
  | 1 => by rw [walk, if_neg (by decide), if_neg (by decide), ring_nb.2.2.1, tryAll]; rfl
  | k + 2 => by
    rw [walk, if_neg (by decide), if_neg (by decide), ring_nb.2.2.1, tryAll]
    rcases ring_back (k + 1) with e | e
    · rw [e]; rfl
    rw [e, Option.bind_some, if_neg (Int.lt_irrefl 0), put1_put1, put1_id (by decide), tryAll, walk, if_neg (by decide), if_neg (by decide), ring_nb.2.2.2, tryAll]
    rcases walk_neg (nbr := nb 2 2 ring.links) (fuel := k) (x := (0, 0)) (f := put1 ringS (1, 0) (-1)) (by decide) with e | e
    · rw [e]; rfl
    rw [e, Option.bind_some, if_neg (Int.lt_irrefl 0), put1_put1, put1_id (by decide), tryAll, ring_loop k]; rfl

theorem ring_start (fuel : Nat) : walk (nb 2 2 ring.links) fuel (0, 0) (fun _ => 0) = none := by
  cases fuel with
  | zero => rfl
  | succ n =>
    rw [walk, if_neg (Int.lt_irrefl 0), if_neg (Int.lt_irrefl 0), ring_nb.1, tryAll]
    show (walk _ n (0, 1) ringS).bind _ = none
    cases n with
    | zero => rfl
    | succ n =>
      rw [walk, if_neg (by decide), if_neg (by decide), ring_nb.2.1, tryAll]
      rcases walk_neg (nbr := nb 2 2 ring.links) (fuel := n) (x := (0, 0)) (f := put1 ringS (0, 1) (-1)) (by decide) with e | e
      · rw [e]; rfl
      rw [e, Option.bind_some, if_neg (Int.lt_irrefl 0), put1_put1, put1_id (by decide), tryAll, ring_loop n]; rfl

/-- **C74.** On a closed line the recursion does not end (and runs out of stack). -/
theorem _root_.TdZdd.C74_loop_false : ∃ g : Grid, g.Ok ∧ (∀ i, i < g.rows → ∀ j, j < g.cols → g.num (i, j) = 0 ∧ deg g.rows g.cols g.links (i, j) = 2) ∧ ∀ fuel, g.fillNumbers fuel = none := by
  refine ⟨ring, ring_ok, by decide, fun fuel => ?_⟩
  unfold Grid.fillNumbers
  rw [number_mat ring_ok]
  have e : (fun x => (ring.num x : Int)) = fun _ => 0 := by
    funext ⟨i, j⟩
    show (((get2 ring.number i j).getD 0 : Nat) : Int) = 0
    by_cases k : i < 2 ∧ j < 2
    · have : ∀ i, i < 2 → ∀ j, j < 2 → (((get2 ring.number i j).getD 0 : Nat) : Int) = 0 := by decide
      exact this i k.1 j k.2
    · rw [Shape.out (m := 2) (n := 2) ⟨by decide, by decide⟩ (by omega)]; rfl
  rw [e]
  have h0 : ring.fillFrom fuel 0 0 (mat 2 2 fun _ => 0) = none := by
    have := fillFrom_eq ring_ok fuel (i := 0) (j := 0) (by decide) (by decide) (fun _ => 0)
    rw [show nb ring.rows ring.cols ring.links = nb 2 2 ring.links from rfl, ring_start] at this
    exact this
  have h1 : List.range ring.rows = 0 :: [1] := by decide
  have h2 : List.range ring.cols = 0 :: [1] := by decide
  rw [h1, List.foldlM_cons, h2, List.foldlM_cons]
  rw [show mat ring.rows ring.cols (fun _ => 0) = mat 2 2 fun _ => 0 from rfl, h0]
  rfl

/-! ### Examples -/

example : wideL.fillNumbers 10 = some [[1, 1, 2], [1, 1, 2]] ∧ wideV.fillNumbers 10 = some [[1, 0, 2], [1, 0, 2]] := by decide +kernel

example : ∃ a N, (∀ fuel, N ≤ fuel → wideL.fillNumbers fuel = some a) ∧ get2 a 1 1 = some 1 := by
  have hL := wide_sols wideL (by decide)
  obtain ⟨a, N, h1, _, h3⟩ := C74_fill hL.1 hL.2.2
  exact ⟨a, N, h1, (h3 1 1 (by decide) (by decide)).2 (1, 0) (.tail .refl (.left (by decide) (by decide) rfl)) (by decide)⟩

end TdZdd.Nl
