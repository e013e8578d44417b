import Verif.NumlinAppProofs

/-!
# The application `ddnumlin` (C71)
-/

namespace TdZdd.Nl

/-- the board with rows and columns exchanged -/
def Board.turned (q : Board) : Board := ⟨q.cols, q.rows, matOf q.cols q.rows fun i j => q.num (j, i)⟩

/-- without detours on the board that is solved, which is turned if it is wider than high -/
def TidyFor (q : Board) (L : Links) : Prop := if q.rows < q.cols then Tidy q.turned L.turn else Tidy q L

theorem turned_eq {q q' : Board} (h : q.Ok) (h' : q'.Ok) (ht : Turned q q') : q' = q.turned := by
  have hs : Shape q.cols q.rows (matOf q.cols q.rows fun i j => q.num (j, i)) := matOf_shape _
  have ok : q.turned.Ok := ⟨h.cols_pos, h.rows_pos, hs.1, hs.2⟩
  refine board_ext h' ok ht.rows ht.cols fun x => ?_
  obtain ⟨i, j⟩ := x
  by_cases k : i < q.cols ∧ j < q.rows
  · rw [ht.num]
    show _ = (get2 (matOf q.cols q.rows fun i j => q.num (j, i)) i j).getD 0
    rw [matOf_get _ k.1 k.2]; rfl
  · rw [num_out h' (by rw [ht.rows, ht.cols]; omega), num_out ok (by show q.cols ≤ i ∨ q.rows ≤ j; omega)]

theorem Agree.turn {m n : Nat} {L L' : Links} (h : Agree m n L L') : Agree n m L.turn L'.turn := ⟨fun i j a b => h.v j i b a, fun i j a b => h.h j i b a⟩

/-- what is printed -/
structure Prints (g : Grid) (all : Bool) (k : Int) (bs : List Grid) : Prop where
  nodup : bs.Nodup
  sound : ∀ b ∈ bs, b.Ok ∧ b.toBoard = g.toBoard ∧ IsSolution g.toBoard b.links ∧ (all = false → TidyFor g.toBoard b.links) ∧ (0 ≤ k → (blanks g.toBoard b.links : Int) ≤ k)
  complete : ∀ L, IsSolution g.toBoard L → (all = false → TidyFor g.toBoard L) → (0 ≤ k → (blanks g.toBoard L : Int) ≤ k) →
    ∃ b ∈ bs, (∀ i j, i < g.rows → j + 1 < g.cols → b.links.h i j = L.h i j) ∧ ∀ i j, i + 1 < g.rows → j < g.cols → b.links.v i j = L.v i j

theorem run_of {g q : Grid} {tr all : Bool} {k : Int} {D : Dd 2} {Ls : List (List Nat)} {bs : List Grid} (ht : g.turn = some q) (htr : decide (g.rows < g.cols) = tr) (hD : diagram q.toBoard all k = some D)
    (h1 : ∃ fuel steps, D.iterate fuel steps = some Ls) (h2 : ∀ fuel steps L, D.iterate fuel steps = some L → L = Ls) (hm : Ls.mapM (q.answer tr) = some bs) (m : Int) :
    (∃ fuel steps r, g.run all k m fuel steps = some r) ∧ ∀ fuel steps r, g.run all k m fuel steps = some r → r = bs.take m.toNat := by
  have hout : m ≠ 0 → outLoop q tr m Ls 0 = some (bs.take m.toNat) := fun h0 => by
    by_cases hp : 0 < m
    · exact outLoop_eq hp hm 0 (by omega)
    · rw [outLoop_neg (by omega), show m.toNat = 0 by omega, List.take_zero]
  obtain ⟨f, st, hi⟩ := h1
  have hrun : ∀ fuel steps, g.run all k m fuel steps = if m = 0 then some [] else (D.iterate fuel steps).bind fun L => outLoop q tr m L 0 := fun fuel steps => by
    unfold Grid.run
    rw [ht, Option.bind_some, hD, Option.bind_some, htr]
  simp only [hrun]
  by_cases h0 : m = 0
  · rw [h0]
    simp
  · simp only [if_neg h0]
    refine ⟨⟨f, st, _, by rw [hi]; exact hout h0⟩, fun fuel steps r hr => ?_⟩
    cases e : D.iterate fuel steps with
    | none => rw [e] at hr; cases hr
    | some L =>
      rw [e, Option.bind_some, h2 _ _ _ e, hout h0] at hr
      cases hr; rfl

/-- **C71.** `ddnumlin` without limit of the number of answers prints boards `bs` with the given numbers, and with `-m` the first `m` of them. Without repetition they are exactly the solutions with at most `k` blank boxes (any number, if `k` is negative), restricted to those without detours unless `-a` is given. -/
theorem _root_.TdZdd.C71_run {g : Grid} (hg : g.Ok) (hr : 2 ≤ g.rows) (hc : 2 ≤ g.cols) (hs : ∀ i j, i < g.rows → j < g.cols → min g.rows g.cols + g.num (i, j) ≤ 255) (all : Bool) {k : Int} (hk : k ≤ 65535) :
    ∃ bs, Prints g all k bs ∧ ∀ m, (∃ fuel steps r, g.run all k m fuel steps = some r) ∧ ∀ fuel steps r, g.run all k m fuel steps = some r → r = bs.take m.toNat := by
  by_cases ht : g.rows < g.cols
  · obtain ⟨q, e, hq, hT, hl⟩ := Grid.transpose_ok hg hr
    have hqc : q.cols = g.rows := hT.cols
    have hqr : q.rows = g.cols := hT.rows
    obtain ⟨D, Ls, bs, hD, h1, h2, hm, nd, hS, hC⟩ := core hq (by omega) (fun i j hi hj => by
      have := hs j i (by omega) (by omega)
      rw [show q.num (i, j) = g.num (j, i) from hT.num i j]; omega) all hk
    obtain ⟨bs', em, t1, t2⟩ := mapM_exists (f := Grid.transpose) (P := fun b b' => b'.Ok ∧ Turned b.toBoard b'.toBoard ∧ b'.links = b.links.turn) fun b (hb : b ∈ bs) => by
      obtain ⟨b', o1, o2, o3, o4⟩ := Grid.transpose_ok (hS b hb).1 (by rw [(hS b hb).2.1]; omega)
      exact ⟨b', o1, o2, o3, o4⟩
    have qe : q.toBoard = g.toBoard.turned := turned_eq hg.board hq.board hT
    have back : ∀ b' : Grid, ∀ b ∈ bs, b'.Ok → Turned b.toBoard b'.toBoard → b'.toBoard = g.toBoard := fun b' b hb o ht' => by
      rw [(hS b hb).2.1] at ht'
      refine board_ext o.board hg.board (ht'.rows.trans hqc) (ht'.cols.trans hqr) fun x => ?_
      obtain ⟨i, j⟩ := x
      rw [ht'.num]
      exact hT.num j i
    refine ⟨bs', ⟨mapM_nodup nd em fun b hb c hc' d e1 e2 => ?_, fun b' hb' => ?_, fun L hL hTi hB => ?_⟩, run_of (tr := true) (q := q) ?_ (decide_eq_true ht) hD h1 h2 ?_⟩
    · obtain ⟨d1, f1, _, _, l1⟩ := Grid.transpose_ok (hS b hb).1 (by rw [(hS b hb).2.1]; omega)
      obtain ⟨d2, f2, _, _, l2⟩ := Grid.transpose_ok (hS c hc').1 (by rw [(hS c hc').2.1]; omega)
      rw [e1] at f1
      rw [e2] at f2
      cases f1; cases f2
      have hl : b.links = c.links := by
        have := congrArg Links.turn (l1.symm.trans l2)
        exact this
      exact grid_ext (hS b hb).1 (hS c hc').1 ((hS b hb).2.1.trans (hS c hc').2.1.symm) (by rw [hl]; exact ⟨fun _ _ _ _ => rfl, fun _ _ _ _ => rfl⟩)
    · obtain ⟨b, hb, _, o, tb, lb⟩ := t1 b' hb'
      obtain ⟨s1, s2, s3⟩ := (hS b hb).2.2
      have lt : b'.links.turn = b.links := by rw [lb]; rfl
      refine ⟨o, back b' b hb o tb, ?_, fun ha => ?_, fun h0 => ?_⟩
      · rw [lb]; exact s1.turn hT.symm
      · unfold TidyFor
        rw [if_pos ht, lt, ← qe]
        exact s2 ha
      · rw [lb, blanks_turn hT.symm]; exact s3 h0
    · obtain ⟨b, hb, hA⟩ := hC L.turn ⟨hL.turn hT, fun ha => by
        have := hTi ha
        unfold TidyFor at this
        rw [if_pos ht, ← qe] at this
        exact this, fun h0 => by rw [blanks_turn hT]; exact hB h0⟩
      obtain ⟨b', hb', _, o, tb, lb⟩ := t2 b hb
      have := hA.turn
      rw [← lb, hqr, hqc] at this
      exact ⟨b', hb', this.h, this.v⟩
    · unfold Grid.turn; rw [if_pos ht]; exact e
    · have comp : ∀ (L : List (List Nat)) (bs bs' : List Grid), L.mapM (q.answer false) = some bs → bs.mapM Grid.transpose = some bs' → L.mapM (q.answer true) = some bs' := by
        have h1 : ∀ s, q.answer true s = (q.answer false s).bind Grid.transpose := fun s => by
          unfold Grid.answer
          cases q.setLinks s with
          | none => rfl
          | some a =>
            rw [Option.bind_some, Option.bind_some]
            cases a.makeVerticalLinks with
            | none => rfl
            | some c => rfl
        intro L
        induction L with
        | nil =>
          intro bs bs' h h'
          rw [List.mapM_nil] at h
          cases h
          exact h'
        | cons s L ih =>
          intro bs bs' h h'
          rw [List.mapM_cons] at h ⊢
          cases e1 : q.answer false s with
          | none => rw [e1] at h; cases h
          | some b =>
            cases e2 : L.mapM (q.answer false) with
            | none => rw [e1, e2] at h; cases h
            | some bs1 =>
              rw [e1, e2] at h
              cases h
              rw [List.mapM_cons] at h'
              cases e3 : b.transpose with
              | none => rw [e3] at h'; cases h'
              | some b' =>
                cases e4 : bs1.mapM Grid.transpose with
                | none => rw [e3, e4] at h'; cases h'
                | some bs2 =>
                  rw [e3, e4] at h'
                  cases h'
                  rw [h1, e1, Option.bind_some, e3, ih bs1 bs2 e2 e4]; rfl
      exact comp Ls bs bs' hm em
  · obtain ⟨D, Ls, bs, hD, h1, h2, hm, nd, hS, hC⟩ := core hg hc (fun i j hi hj => by have := hs i j hi hj; omega) all hk
    have hTF : ∀ L, TidyFor g.toBoard L ↔ Tidy g.toBoard L := fun L => by unfold TidyFor; rw [if_neg ht]
    refine ⟨bs, ⟨nd, fun b hb => ?_, fun L hL hTi hB => ?_⟩, run_of (tr := false) (q := g) ?_ (decide_eq_false ht) hD h1 h2 hm⟩
    · obtain ⟨o, t, s1, s2, s3⟩ := hS b hb
      exact ⟨o, t, s1, fun ha => (hTF _).2 (s2 ha), s3⟩
    · obtain ⟨b, hb, hA⟩ := hC L ⟨hL, fun ha => (hTF _).1 (hTi ha), hB⟩
      exact ⟨b, hb, hA.h, hA.v⟩
    · unfold Grid.turn; rw [if_neg ht]

/-- **C71.** A puzzle without limit of the blank boxes is solved if it has a solution, with and without `-a`. -/
theorem _root_.TdZdd.C71_solves {g : Grid} (hg : g.Ok) (hr : 2 ≤ g.rows) (hc : 2 ≤ g.cols) (hs : ∀ i j, i < g.rows → j < g.cols → min g.rows g.cols + g.num (i, j) ≤ 255) (all : Bool) {k m : Int} (hk : k < 0) (hm : 0 < m)
    {fuel steps : Nat} {r : List Grid} (h : g.run all k m fuel steps = some r) : r ≠ [] ↔ ∃ L, IsSolution g.toBoard L := by
  obtain ⟨bs, hP, hrun⟩ := C71_run hg hr hc hs all (k := k) (by omega)
  rw [(hrun m).2 _ _ _ h]
  have : bs.take m.toNat ≠ [] ↔ bs ≠ [] := by
    cases bs with
    | nil => simp
    | cons b bs => rw [show m.toNat = (m.toNat - 1) + 1 by omega, List.take_succ_cons]; simp
  rw [this]
  constructor
  · intro h
    obtain ⟨b, hb⟩ := List.exists_mem_of_ne_nil _ h
    exact ⟨_, (hP.sound b hb).2.2.1⟩
  · rintro ⟨L, hL⟩ e
    have hex : ∃ L', IsSolution g.toBoard L' ∧ TidyFor g.toBoard L' := by
      by_cases ht : g.rows < g.cols
      · obtain ⟨q, _, hq, hT, _⟩ := Grid.transpose_ok hg hr
        obtain ⟨L', h1, h2⟩ := (hL.turn hT).tidy
        refine ⟨L'.turn, h1.turn hT.symm, ?_⟩
        unfold TidyFor
        rw [if_pos ht, ← turned_eq hg.board hq.board hT]
        exact h2
      · obtain ⟨L', h1, h2⟩ := hL.tidy
        exact ⟨L', h1, by unfold TidyFor; rw [if_neg ht]; exact h2⟩
    obtain ⟨L', h1, h2⟩ := hex
    obtain ⟨b, hb, _⟩ := hP.complete L' h1 (fun _ => h2) fun h => by omega
    rw [e] at hb
    exact nomatch hb

/-- **C71.** A puzzle with exactly one solution, without limit of the blank boxes: it is printed. -/
theorem _root_.TdZdd.C71_unique {g : Grid} (hg : g.Ok) (hr : 2 ≤ g.rows) (hc : 2 ≤ g.cols) (hs : ∀ i j, i < g.rows → j < g.cols → min g.rows g.cols + g.num (i, j) ≤ 255) (all : Bool) {k m : Int} (hk : k < 0) (hm : 0 < m)
    {fuel steps : Nat} {r : List Grid} (h : g.run all k m fuel steps = some r) {L : Links} (hL : IsSolution g.toBoard L) (hu : ∀ L', IsSolution g.toBoard L' → Agree g.rows g.cols L' L) :
    ∃ b, r = [b] ∧ b.toBoard = g.toBoard ∧ Agree g.rows g.cols b.links L := by
  have hne := (C71_solves hg hr hc hs all hk hm h).2 ⟨L, hL⟩
  obtain ⟨bs, hP, hrun⟩ := C71_run hg hr hc hs all (k := k) (by omega)
  have e := (hrun m).2 _ _ _ h
  have hsub : ∀ b ∈ r, b ∈ bs := fun b hb => List.mem_of_mem_take (e ▸ hb)
  have nd : r.Nodup := by rw [e]; exact hP.nodup.sublist (List.take_sublist _ _)
  have hA : ∀ b ∈ r, b.toBoard = g.toBoard ∧ Agree g.rows g.cols b.links L := fun b hb => ⟨(hP.sound b (hsub b hb)).2.1, hu _ (hP.sound b (hsub b hb)).2.2.1⟩
  have eq : ∀ b ∈ r, ∀ c ∈ r, b = c := fun b hb c hc' => by
    refine grid_ext (hP.sound b (hsub b hb)).1 (hP.sound c (hsub c hc')).1 ((hA b hb).1.trans (hA c hc').1.symm) ?_
    rw [(hA b hb).1]
    exact (hA b hb).2.trans (hA c hc').2.symm
  cases r with
  | nil => exact absurd rfl hne
  | cons b r =>
    cases r with
    | nil => exact ⟨b, rfl, (hA b (by simp)).1, (hA b (by simp)).2⟩
    | cons c r =>
      have := eq b (by simp) c (by simp)
      rw [this] at nd
      simp at nd

/-- **C71.** A board with one row and more columns is not solved: `transpose` accesses the first row of the empty `vlink`. -/
theorem _root_.TdZdd.C71_row_false {g : Grid} (hg : g.Ok) (hr : g.rows = 1) (hc : 2 ≤ g.cols) (all : Bool) (k m : Int) (fuel steps : Nat) : g.run all k m fuel steps = none := by
  unfold Grid.run Grid.turn
  rw [if_pos (by omega), Grid.transpose_row hg hr]; rfl

section column

variable {S : Type} {sp : DdSpec 2 S}

theorem reach_zero (h : sp.root.1 = 0) {i : Int} {s : S} (hr : Reach sp i s) : i = 0 := by
  induction hr with
  | root => exact h
  | step _ hn _ ih => omega

theorem desc_zero (h : sp.root.1 = 0) : Desc sp :=
  ⟨by omega, fun _ hn hr => by have := reach_zero h hr; omega, fun _ hn hr => by have := reach_zero h hr; omega⟩

theorem not_mem_zero (h : sp.root.1 = 0) (n : Nat) (a : Asg 2) : ¬ ZddMem sp n a := by
  unfold ZddMem
  rw [h]
  exact zddMemAt_zero

end column

/-- **C71.** For a board with one column, nothing is printed (although there may be a solution, `C69_column_false`). -/
theorem _root_.TdZdd.C71_column {g : Grid} (hg : g.Ok) (hc : g.cols = 1) (hs : ∀ i, i < g.rows → 1 + g.num (i, 0) ≤ 255) (all : Bool) (k m : Int) :
    (∃ fuel steps r, g.run all k m fuel steps = some r) ∧ ∀ fuel steps r, g.run all k m fuel steps = some r → r = [] := by
  have hsm : Numlin.Small g.toBoard := small_of hg.board fun i j hi hj => by
    have : j = 0 := by omega
    subst this
    have := hs i hi
    omega
  have ht : g.top = 0 := by unfold Board.top; rw [hc]; rfl
  have zN : (numlinZdd g.toBoard k).root.1 = 0 := by
    show (rootOf g.toBoard (0, []) (Numlin.root g.toBoard)).1 = 0
    rw [Numlin.root_eq hg.board hsm]
    show ((g.top : Nat) : Int) = 0
    rw [ht]; rfl
  have zC : (constraintZdd g.toBoard).root.1 = 0 := by
    show ((g.top : Nat) : Int) = 0
    rw [ht]; rfl
  have zD : (degreeZdd g.toBoard).root.1 = 0 := by
    have e : Degree.root g.toBoard = some (List.map (fun j => if g.num (0, j) > 0 then 1 else 0) (List.range g.cols)) := mapM_some _ fun j hj => by
      obtain ⟨x, hx⟩ := (show Shape g.rows g.cols g.number from ⟨hg.board.len, hg.board.width⟩).get (i := 0) (j := j) hg.board.rows_pos (List.mem_range.1 hj)
      change g.num? 0 j = some x at hx
      unfold Board.num
      rw [hx]; rfl
    show (rootOf g.toBoard [] (Degree.root g.toBoard)).1 = 0
    rw [e]
    show ((g.top : Nat) : Int) = 0
    rw [ht]; rfl
  have lN : LawfulC (numlinZdd g.toBoard k) := lawfulC_of_eq (desc_zero zN) fun n s t => by simp [numlinZdd]
  have lC : LawfulC (constraintZdd g.toBoard) := lawfulC_of_eq (desc_zero zC) fun n s t => by simp [constraintZdd]
  have lD : LawfulC (degreeZdd g.toBoard) := lawfulC_of_eq (desc_zero zD) fun n s t => by simp [degreeZdd]
  have hD : ∃ D, diagram g.toBoard all k = some D ∧ Has g.top (fun _ => False) D := by
    unfold diagram
    cases all with
    | true =>
      rw [if_pos rfl]
      obtain ⟨D, e, h⟩ := Queens.made_has (F := fun _ => False) (C26_zddLookahead _ lD) (fun _ _ => rfl) (ahead_le lD.toDesc degree_root_le) (fun a => (C21_zddLookahead _ lD.toDesc _ degree_root_le a).trans
        ⟨not_mem_zero zD _ a, False.elim⟩)
      obtain ⟨D', e', h'⟩ := Queens.cutBy_has (G := fun _ => False) h false (C26_zddLookahead _ lN) (fun _ _ => rfl) (ahead_le lN.toDesc numlin_root_le) (fun a h => h.elim)
      exact ⟨D', by rw [e]; exact e', h'.congr fun a => ⟨fun h => h.1, False.elim⟩⟩
    | false =>
      rw [if_neg Bool.false_ne_true]
      have lI := C26_zddIntersection _ _ lC lN
      have hle := inter_le lC.toDesc lN.toDesc constraint_root_le (n := g.top)
      exact Queens.made_has (C26_zddLookahead _ lI) (fun _ _ => by show ((0 : Nat) ||| 0) = 0; rfl) (ahead_le lI.toDesc hle) (fun a => ((C21_zddLookahead _ lI.toDesc _ hle a).trans
        (C18_zddIntersection _ _ lC.toDesc lN.toDesc _ constraint_root_le numlin_root_le a)).trans ⟨fun h => not_mem_zero zC _ a h.1, False.elim⟩)
  obtain ⟨D, e, h⟩ := hD
  obtain ⟨⟨f, st, Ls, hL⟩, hall⟩ := C33_iteration D h.wf
  have hnil : ∀ fuel steps L, D.iterate fuel steps = some L → L = [] := fun fuel steps L hi => by
    obtain ⟨_, hsh, hmem⟩ := hall fuel steps L hi
    cases L with
    | nil => rfl
    | cons s L =>
      have hm := hsh s List.mem_cons_self
      exact ((h.mem _).1 ((hmem g.top h.le s hm.1 fun i hi => ⟨(hm.2 i hi).1, by have := (hm.2 i hi).2; have := h.le; omega⟩).1 List.mem_cons_self)).elim
  have hpos := hg.board.rows_pos
  have := run_of (g := g) (q := g) (tr := false) (all := all) (k := k) (D := D) (Ls := []) (bs := []) (by unfold Grid.turn; rw [if_neg (by omega)]) (decide_eq_false (by omega)) e ⟨f, st, by rw [hL, hnil _ _ _ hL]⟩ hnil (by rw [List.mapM_nil]; rfl) m
  simpa using this

/-! ### Examples -/

/-- two rows and three columns; it is turned -/
def wide : Grid := { Grid.init 2 3 with number := [[1, 0, 2], [1, 0, 2]] }

theorem wide_ok : wide.Ok := ⟨⟨by decide, by decide, by decide, by decide⟩, ⟨by decide, by decide⟩, ⟨by decide, by decide⟩⟩

theorem wide_small : ∀ i j, i < wide.rows → j < wide.cols → min wide.rows wide.cols + wide.num (i, j) ≤ 255 :=
  have : ∀ i, i < 2 → ∀ j, j < 3 → min wide.rows wide.cols + wide.num (i, j) ≤ 255 := by decide
  fun i j hi hj => this i hi j hj

-- `1`s and `2`s are joined straight, or (with `-a`) one pair round the middle column
set_option maxRecDepth 100000 in
example : wide.run false (-1) 5 100 100 = some [{ wide with vlink := [[true, false, true]] }] ∧
    wide.run true (-1) 5 100 100 = some [{ wide with hlink := [[true, false], [true, false]], vlink := [[false, true, true]] }, { wide with vlink := [[true, false, true]] }, { wide with hlink := [[false, true], [false, true]], vlink := [[true, true, false]] }] ∧
    wide.run true (-1) 2 100 100 = some [{ wide with hlink := [[true, false], [true, false]], vlink := [[false, true, true]] }, { wide with vlink := [[true, false, true]] }] := by
  decide +kernel

example : ∃ bs, Prints wide true (-1) bs := (C71_run wide_ok (by decide) (by decide) wide_small true (by decide)).imp fun _ h => h.1

example : (Grid.init 1 3).run true (-1) 5 100 100 = none := C71_row_false ⟨⟨by decide, by decide, by decide, by decide⟩, ⟨by decide, by decide⟩, ⟨by decide, by decide⟩⟩ rfl (by decide) _ _ _ _ _

-- two equal numbers one above the other: there is a solution, but it is not found
example : (⟨⟨2, 1, [[1], [1]]⟩, [[], []], [[false]]⟩ : Grid).run true (-1) 5 100 100 = some [] := by decide +kernel

end TdZdd.Nl
