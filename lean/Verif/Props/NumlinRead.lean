import Verif.NumlinReadProofs
import Verif.Props.NumlinApp

/-!
# Puzzle files (C72)
-/

namespace TdZdd.Nl

open IStr Gz

/-- the board without lines that has the given numbers -/
def puzzle (rows cols : Nat) (f : Nat → Nat → Nat) : Grid :=
  ⟨⟨rows, cols, matOf rows cols f⟩, matOf rows (cols - 1) fun _ _ => false, matOf (rows - 1) cols fun _ _ => false⟩

theorem replicate_matOf {α : Type} (m n : Nat) (x : α) : List.replicate m (List.replicate n x) = matOf m n fun _ _ => x := by
  unfold matOf
  rw [List.map_const', List.map_const', List.length_range, List.length_range]

theorem puzzle_eq (rows cols : Nat) (f : Nat → Nat → Nat) : { Grid.init rows cols with number := matOf rows cols f } = puzzle rows cols f := by
  unfold Grid.init puzzle
  simp only [replicate_matOf]

theorem puzzle_ok {rows cols : Nat} (hr : 1 ≤ rows) (hc : 1 ≤ cols) (f : Nat → Nat → Nat) : (puzzle rows cols f).Ok :=
  ⟨⟨hr, hc, (matOf_shape (m := rows) (n := cols) f).1, (matOf_shape (m := rows) (n := cols) f).2⟩, matOf_shape _, matOf_shape _⟩

theorem puzzle_num {rows cols i j : Nat} (f : Nat → Nat → Nat) (hi : i < rows) (hj : j < cols) : (puzzle rows cols f).num (i, j) = f i j := by
  show (get2 (matOf rows cols f) i j).getD 0 = _
  rw [matOf_get _ hi hj]; rfl

/-- **C72.** A puzzle file is read as it is meant. -/
theorem _root_.TdZdd.C72_read {text : List Char} {rows cols : Nat} {vss : List (List Nat)} (ht : BoardText text rows cols vss) (hr : 1 ≤ rows) (hc : 1 ≤ cols) (hr' : rows ≤ 2147483647) (hc' : cols ≤ 2147483647)
    (hv : ∀ i j, i < rows → j < cols → entry vss i j ≤ 2147483647) : readNumbers text = .ok (puzzle rows cols (entry vss)) := by
  rw [readNumbers_ok ht hr hc hr' hc' hv, puzzle_eq]

theorem readHead_app {h r : List Char} (hh : Head h) : ∀ {fuel : Nat} {b : List Char}, (h ++ r).length + 2 ≤ fuel →
    ∃ fuel' b' s, Blank s ∧ 2 ≤ fuel' ∧ readHead fuel (st b (h ++ r) false) = readHead fuel' (st b' (s ++ r) false) := by
  induction hh with
  | done hs =>
    rename_i s
    intro fuel b hf
    exact ⟨fuel, b, s, hs, by omega, rfl⟩
  | other hs hc hr _ ih =>
    rename_i s r0 t c _
    intro fuel b hf
    cases fuel with
    | zero => omega
    | succ fuel =>
      have e : getSkip (st b (s ++ c :: (r0 ++ '\n' :: t) ++ r) false) = (some c, st (c :: (s.reverse ++ b)) (r0 ++ '\n' :: (t ++ r)) false) := by
        have : s ++ c :: (r0 ++ '\n' :: t) ++ r = s ++ c :: (r0 ++ '\n' :: (t ++ r)) := by simp
        rw [this]
        exact getSkip_at hs.sp (sign_space hc.1)
      obtain ⟨b', e'⟩ := skipLine_at (b := c :: (s.reverse ++ b)) (t := t ++ r) hr
      obtain ⟨f', b'', s', p1, p2, p3⟩ := ih (b := b') (fuel := fuel) (by simp at hf ⊢; omega)
      refine ⟨f', b'', s', p1, p2, ?_⟩
      rw [← p3, readHead, if_neg Bool.false_ne_true, e]
      rw [if_neg (show ¬ isDigit (some c) = true by show ¬ digit c = true; rw [sign_digit hc]; exact Bool.false_ne_true)]
      exact congrArg _ e'

/-- **C72.** A file without a line that begins with a digit (after white space) is refused. -/
theorem _root_.TdZdd.C72_no_size {h l : List Char} (hh : Head h) (hl : l = [] ∨ ∃ c r, l = c :: r ∧ Sign c ∧ '\n' ∉ r) : readNumbers (h ++ l) = .thrown := by
  unfold readNumbers
  obtain ⟨f, b, s, hs, hf, e⟩ := readHead_app (r := l) hh (fuel := (h ++ l).length + 2) (b := []) (Nat.le_refl _)
  have e' : readHead ((h ++ l).length + 2) (ofText (h ++ l)) = readHead f (st b (s ++ l) false) := e
  rw [e']
  obtain ⟨f, rfl⟩ : ∃ f', f = f' + 2 := ⟨f - 2, by omega⟩
  have : readHead (f + 2) (st b (s ++ l) false) = .thrown := by
    rcases hl with rfl | ⟨c, r, rfl, hc, hn⟩
    · rw [List.append_nil, readHead, if_neg Bool.false_ne_true, getSkip_end hs.sp]; rfl
    · have e1 : getSkip (st b (s ++ c :: r) false) = (some c, st (c :: (s.reverse ++ b)) r false) := getSkip_at hs.sp (sign_space hc.1)
      rw [readHead, if_neg Bool.false_ne_true, e1]
      rw [if_neg (show ¬ isDigit (some c) = true by show ¬ digit c = true; rw [sign_digit hc]; exact Bool.false_ne_true)]
      have hg : ∀ {b : List Char}, '\n' ∉ r → (gzLine b r).2 = none := by
        clear hn e1 e e'
        induction r with
        | nil => intro b _; rfl
        | cons d r ih =>
          intro b hn
          rw [List.mem_cons, not_or] at hn
          rw [gzLine, if_neg fun h => hn.1 h.symm]
          exact ih hn.2
      have e2 : ∃ b', gzSkipLine (st (c :: (s.reverse ++ b)) r false) = ⟨b', [], true, true⟩ := by
        have h0 := hg (b := c :: (s.reverse ++ b)) hn
        refine ⟨(gzLine (c :: (s.reverse ++ b)) r).1, ?_⟩
        unfold gzSkipLine
        rw [if_neg Bool.false_ne_true, if_neg Bool.false_ne_true]
        dsimp only
        revert h0
        generalize gzLine (c :: (s.reverse ++ b)) r = p
        obtain ⟨p1, p2⟩ := p
        intro h0
        cases h0
        rfl
      obtain ⟨b', e2⟩ := e2
      dsimp only
      rw [e2]; rfl
  rw [this]; rfl

theorem readNumbers_start {h z : List Char} {d : Char} (hh : Head h) (hd : digit d = true) : ∃ b, readNumbers (h ++ d :: z) = (readSizes (st b (d :: z) false)).bind fun z =>
    (readBoxes (Grid.init z.1.toNat z.2.1.toNat).rows (Grid.init z.1.toNat z.2.1.toNat).cols (z.2.2.rest.length + 2) (-1) 0 (Grid.init z.1.toNat z.2.1.toNat).number z.2.2).bind fun a => .ok { Grid.init z.1.toNat z.2.1.toNat with number := a } := by
  obtain ⟨b1, e1⟩ := readHead_ok hh (fuel := (h ++ d :: z).length + 2) (b := []) (r := z) hd (by omega)
  refine ⟨b1, ?_⟩
  unfold readNumbers
  have e1' : readHead ((h ++ d :: z).length + 2) (ofText (h ++ d :: z)) = .ok (st b1 (d :: z) false) := e1
  rw [e1']; rfl

/-- **C72.** A board without rows or columns is refused. -/
theorem _root_.TdZdd.C72_zero {h z e : List Char} {rows cols : Nat} (hh : Head h) (hz : Sizes z rows cols) (he : Ends e) (h0 : rows = 0 ∨ cols = 0) (hr' : rows ≤ 2147483647) (hc' : cols ≤ 2147483647) :
    readNumbers (h ++ (z ++ e)) = .thrown := by
  obtain ⟨d, z', ez, hd⟩ := sizes_cons hz
  obtain ⟨b, e1⟩ := readNumbers_start (z := z' ++ e) hh hd
  obtain ⟨b', e2⟩ := readSizes_pre hz hr' hc' (b := b) he
  rw [show z ++ e = d :: (z' ++ e) by rw [ez]; rfl] at e2 ⊢
  rw [e1, e2, if_pos (by omega)]; rfl

/-- **C72.** Between the two numbers of the size there is white space or a comma; anything else is refused. -/
theorem _root_.TdZdd.C72_separator {h x s r : List Char} {v : Nat} {c : Char} (hh : Head h) (hx : Numeral x v) (hv : v ≤ 2147483647) (hs : Blank s) (hc : Sign c) (hcc : c ≠ ',') :
    readNumbers (h ++ (x ++ (s ++ c :: r))) = .thrown := by
  obtain ⟨d, x', ex, hd⟩ := numeral_cons hx
  obtain ⟨b, e1⟩ := readNumbers_start (z := x' ++ (s ++ c :: r)) hh hd
  obtain ⟨b1, e2⟩ := readInt_ok (b := b) (r := s ++ c :: r) hx hv (blank_ends hs fun c' r' e => by injection e with e1 _; subst e1; exact hc.2)
  have hemp : (s ++ c :: r).isEmpty = false := by cases s <;> rfl
  rw [hemp] at e2
  have e3 : getSkip (st b1 (s ++ c :: r) false) = (some c, st (c :: (s.reverse ++ b1)) r false) := getSkip_at hs.sp (sign_space hc.1)
  rw [show x ++ (s ++ c :: r) = d :: (x' ++ (s ++ c :: r)) by rw [ex]; rfl] at e2 ⊢
  rw [e1]
  have : readSizes (st b (d :: (x' ++ (s ++ c :: r))) false) = .thrown := by
    unfold readSizes
    rw [e2]
    dsimp only [Option.elim]
    rw [e3, if_neg (by intro h; injection h with h; exact hcc h)]
    unfold readSize
    rw [if_neg (show ¬ isDigit (some c) = true by show ¬ digit c = true; rw [sign_digit hc]; exact Bool.false_ne_true)]
    rfl
  rw [this]; rfl

/-! ### Round trip -/

theorem digit_numeral {n : Nat} (h : n < 10) : '0' ≤ Nat.digitChar n ∧ Nat.digitChar n ≤ '9' ∧ (Nat.digitChar n).toNat - '0'.toNat = n := by
  revert h; revert n; decide

theorem decimal_numeral : ∀ n, Numeral (decimalText n) n := by
  intro n
  show Numeral (Nat.repr n).toList n
  rw [Nat.toList_repr]
  induction n using Nat.strongRecOn with
  | _ n ih =>
    by_cases h : n < 10
    · rw [Nat.toDigits_of_lt_base h]
      obtain ⟨h1, h2, h3⟩ := digit_numeral h
      have := Numeral.single h1 h2
      rw [h3] at this
      exact this
    · rw [Nat.toDigits_of_base_le (by decide) (by omega)]
      obtain ⟨h1, h2, h3⟩ := digit_numeral (Nat.mod_lt n (show 0 < 10 by decide))
      have := Numeral.snoc (ih (n / 10) (by omega)) h1 h2
      rw [h3, show 10 * (n / 10) + n % 10 = n by omega] at this
      exact this

theorem numeral_nl {x : List Char} {v : Nat} (hx : Numeral x v) : '\n' ∉ x := fun h => absurd (hx.spec.2.1 _ h) (by decide)

theorem space_blank : Blank [' '] := by intro c hc; rw [List.mem_singleton] at hc; subst hc; decide

theorem row_tail : ∀ (r : List Nat) (k : Nat), 1 ≤ k → Boxes ((r.zipIdx k).flatMap fun p => (if p.2 ≠ 0 then [' '] else []) ++ decimalText p.1) r ∧ Ends ((r.zipIdx k).flatMap fun p => (if p.2 ≠ 0 then [' '] else []) ++ decimalText p.1) ∧
    '\n' ∉ (r.zipIdx k).flatMap fun p => (if p.2 ≠ 0 then [' '] else []) ++ decimalText p.1
  | [], k, _ => ⟨.done (by intro c hc; cases hc), (fun c r' e => by cases e), by simp⟩
  | v :: r, k, hk => by
    obtain ⟨h1, h2, h3⟩ := row_tail r (k + 1) (by omega)
    rw [List.zipIdx_cons, List.flatMap_cons]
    have e : (if (v, k).2 ≠ 0 then [' '] else []) = [' '] := if_pos (by show k ≠ 0; omega)
    rw [e, List.append_assoc]
    refine ⟨.number space_blank (decimal_numeral v) h2 h1, fun c r' e => ?_, ?_⟩
    · rw [List.cons_append] at e
      injection e with e1 _
      subst e1
      decide
    · rw [List.mem_append, List.mem_append, not_or, not_or]
      exact ⟨by decide, numeral_nl (decimal_numeral v), h3⟩

theorem row_boxes (r : List Nat) : Boxes (writeRow r) r ∧ '\n' ∉ writeRow r := by
  unfold writeRow
  cases r with
  | nil => exact ⟨.done (by intro c hc; cases hc), by simp⟩
  | cons v r =>
    obtain ⟨h1, h2, h3⟩ := row_tail r 1 (by omega)
    rw [List.zipIdx_cons, List.flatMap_cons]
    have e : (if (v, 0).2 ≠ 0 then [' '] else []) = [] := if_neg (by show ¬ (0 ≠ 0); omega)
    rw [e, List.nil_append]
    refine ⟨.number (s := []) (by intro c hc; cases hc) (decimal_numeral v) h2 h1, ?_⟩
    rw [List.mem_append, not_or]
    exact ⟨numeral_nl (decimal_numeral v), h3⟩

theorem rows_text : ∀ a : List (List Nat), RowsText a.length (a.flatMap fun r => writeRow r ++ ['\n']) a
  | [] => .stop
  | r :: a => by
    rw [List.flatMap_cons, List.append_assoc]
    exact .line (row_boxes r).2 (row_boxes r).1 (rows_text a)

theorem writeNumbers_text {q : Board} (hq : q.Ok) : BoardText (writeNumbers q) q.rows q.cols q.number := by
  have hR : RowsText q.rows (q.number.flatMap fun r => writeRow r ++ ['\n']) q.number := by rw [← hq.len]; exact rows_text _
  have := BoardText.full (h := []) (e := []) (.done (by intro c hc; cases hc)) (.space (decimal_numeral q.cols) space_blank (by simp) (decimal_numeral q.rows)) (by simp) (fun c r' e => by cases e) hR
  unfold writeNumbers
  simpa using this

/-- **C72.** `readNumbers` reads what `writeNumbers` writes; the lines are cleared. -/
theorem _root_.TdZdd.C72_roundtrip {q : Board} (hq : q.Ok) (hr : q.rows ≤ 2147483647) (hc : q.cols ≤ 2147483647) (hv : ∀ i j, i < q.rows → j < q.cols → q.num (i, j) ≤ 2147483647) :
    ∃ g, readNumbers (writeNumbers q) = .ok g ∧ g.Ok ∧ g.toBoard = q ∧ (∀ i j, g.links.h i j = false) ∧ ∀ i j, g.links.v i j = false := by
  have ht := writeNumbers_text hq
  have hE : ∀ i j, entry q.number i j = q.num (i, j) := fun i j => rfl
  refine ⟨_, C72_read ht hq.rows_pos hq.cols_pos hr hc (fun i j hi hj => by rw [hE]; exact hv i j hi hj), puzzle_ok hq.rows_pos hq.cols_pos _, ?_, fun i j => ?_, fun i j => ?_⟩
  · refine board_ext (puzzle_ok hq.rows_pos hq.cols_pos _).board hq rfl rfl fun x => ?_
    obtain ⟨i, j⟩ := x
    by_cases k : i < q.rows ∧ j < q.cols
    · exact puzzle_num _ k.1 k.2
    · rw [num_out hq (by omega), num_out (puzzle_ok hq.rows_pos hq.cols_pos _).board (by show q.rows ≤ i ∨ q.cols ≤ j; omega)]
  · show (get2 (matOf q.rows (q.cols - 1) fun _ _ => false) i j).getD false = false
    by_cases k : i < q.rows ∧ j < q.cols - 1
    · rw [matOf_get _ k.1 k.2]; rfl
    · rw [(matOf_shape _).out (by omega)]; rfl
  · show (get2 (matOf (q.rows - 1) q.cols fun _ _ => false) i j).getD false = false
    by_cases k : i < q.rows - 1 ∧ j < q.cols
    · rw [matOf_get _ k.1 k.2]; rfl
    · rw [(matOf_shape _).out (by omega)]; rfl

/-- **C72.** From the file to the answers: `ddnumlin` prints the solutions of the puzzle that the file describes. -/
theorem _root_.TdZdd.C72_solve {text : List Char} {rows cols : Nat} {vss : List (List Nat)} (ht : BoardText text rows cols vss) (hr : 2 ≤ rows) (hc : 2 ≤ cols) (hr' : rows ≤ 2147483647) (hc' : cols ≤ 2147483647)
    (hv : ∀ i j, i < rows → j < cols → min rows cols + entry vss i j ≤ 255) (all : Bool) {k : Int} (hk : k ≤ 65535) :
    ∃ bs, Prints (puzzle rows cols (entry vss)) all k bs ∧ ∀ m, (∃ fuel steps r, ddnumlin text all k m fuel steps = .ok r) ∧ ∀ fuel steps r, ddnumlin text all k m fuel steps = .ok r → r = bs.take m.toNat := by
  obtain ⟨bs, h1, h2⟩ := C71_run (g := puzzle rows cols (entry vss)) (puzzle_ok (by omega) (by omega) _) hr hc (fun i j hi hj => by rw [puzzle_num (rows := rows) (cols := cols) _ hi hj]; exact hv i j hi hj) all hk
  have e : ∀ m fuel steps, ddnumlin text all k m fuel steps = ((puzzle rows cols (entry vss)).run all k m fuel steps).elim .ub .ok := fun m fuel steps => by
    unfold ddnumlin
    rw [C72_read ht (by omega) (by omega) hr' hc' (fun i j hi hj => by have := hv i j hi hj; omega)]; rfl
  refine ⟨bs, h1, fun m => ⟨?_, fun fuel steps r h => ?_⟩⟩
  · obtain ⟨fuel, steps, r, h⟩ := (h2 m).1
    exact ⟨fuel, steps, r, by rw [e, h]; rfl⟩
  · rw [e] at h
    cases h' : (puzzle rows cols (entry vss)).run all k m fuel steps with
    | none => rw [h'] at h; cases h
    | some r' =>
      rw [h'] at h
      cases h
      exact (h2 m).2 _ _ _ h'

/-! ### Examples -/

-- the file `test.dat`
def testDat : List Char := "3 4\n- - 1\n- 2 -\n- 1 -\n2 - -\n".toList

example : readNumbers testDat = .ok (puzzle 4 3 fun i j => (([[0, 0, 1], [0, 2, 0], [0, 1, 0], [2, 0, 0]][i]?).bind (·[j]?)).getD 0) := by decide +kernel

-- a comment, rows and columns with a comma, a short line, a long line, no new-line at the end
example : readNumbers "# puzzle\n 2 , 3 etc\n1\n..1 7 7".toList = .ok (puzzle 2 3 fun i j => (([[1, 0, 0], [0, 0, 1]][i]?).bind (·[j]?)).getD 0) := by decide +kernel

example : readNumbers "# no puzzle".toList = .thrown ∧ readNumbers "0 3\n".toList = .thrown ∧ readNumbers "3x3\n".toList = .thrown := by decide +kernel

example : writeNumbers board3 = "3 3\n1 0 0\n0 2 0\n2 0 1\n".toList ∧ readNumbers (writeNumbers board3) = .ok (puzzle 3 3 fun i j => board3.num (i, j)) := by decide +kernel

example : ∃ bs, Prints (puzzle 3 3 (entry board3.number)) true (-1) bs ∧ ∀ m, (∃ fuel steps r, ddnumlin "3 3\n1 0 0\n0 2 0\n2 0 1\n".toList true (-1) m fuel steps = .ok r) ∧ ∀ fuel steps r, ddnumlin "3 3\n1 0 0\n0 2 0\n2 0 1\n".toList true (-1) m fuel steps = .ok r → r = bs.take m.toNat := by
  have := writeNumbers_text board3_ok
  rw [show writeNumbers board3 = "3 3\n1 0 0\n0 2 0\n2 0 1\n".toList by decide +kernel] at this
  exact C72_solve this (by decide) (by decide) (by decide) (by decide) (fun i j hi hj => board3_small i j hi hj) true (by decide)

end TdZdd.Nl
