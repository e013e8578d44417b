import Verif.NumlinAnswer
import Verif.Props.NumlinTidy
import Verif.Props.QueensApp
import Verif.Props.Iterator
import Verif.StructureProofs

/-! Proofs about the application `ddnumlin`. -/

namespace TdZdd.Nl

variable {q : Board}

/-- the sets of lines that the diagram describes -/
def Good (q : Board) (all : Bool) (k : Int) (L : Links) : Prop :=
  IsSolution q L ∧ (all = false → Tidy q L) ∧ (0 ≤ k → (blanks q L : Int) ≤ k)

theorem blanks_congr {L L' : Links} (hA : Agree q.rows q.cols L L') : blanks q L = blanks q L' := by
  rw [blanks_eq, blanks_eq]
  refine sumTo_congr fun i hi => sumTo_congr fun j hj => ?_
  rw [hA.deg hi hj]

theorem Good.congr {all : Bool} {k : Int} {L L' : Links} (hA : Agree q.rows q.cols L L') (h : Good q all k L) : Good q all k L' :=
  ⟨h.1.congr hA, fun e => (h.2.1 e).congr hA, fun e => by rw [← blanks_congr hA]; exact h.2.2 e⟩

theorem Agree.trans {m n : Nat} {L L' L'' : Links} (h : Agree m n L L') (h' : Agree m n L' L'') : Agree m n L L'' :=
  ⟨fun i j a b => (h.h i j a b).trans (h'.h i j a b), fun i j a b => (h.v i j a b).trans (h'.v i j a b)⟩

theorem degree_root_le : (degreeZdd q).root.1 ≤ (q.top : Nat) := by
  show (rootOf q _ _).1 ≤ _
  unfold rootOf
  split
  · show (-2 : Int) ≤ _; omega
  · exact Int.le_refl _

theorem numlin_root_le {k : Int} : (numlinZdd q k).root.1 ≤ (q.top : Nat) := by
  show (rootOf q _ _).1 ≤ _
  unfold rootOf
  split
  · show (-2 : Int) ≤ _; omega
  · exact Int.le_refl _

theorem constraint_root_le : (constraintZdd q).root.1 ≤ (q.top : Nat) := by
  show ((q.top : Int)) ≤ _
  exact Int.le_refl _

theorem ahead_le {S : Type} {sp : DdSpec 2 S} {n : Nat} (h : Desc sp) (hn : sp.root.1 ≤ n) : (zddLookahead sp).root.1 ≤ (n : Int) := by
  have := zddLookahead_root_le h
  omega

theorem inter_le {S1 S2 : Type} {s1 : DdSpec 2 S1} {s2 : DdSpec 2 S2} {n : Nat} (h1 : Desc s1) (h2 : Desc s2) (l1 : s1.root.1 ≤ n) : (zddIntersection s1 s2).root.1 ≤ (n : Int) := by
  obtain ⟨r, hr, _, _, hle, _⟩ := inter_root h1 h2
  rw [hr]
  by_cases h0 : r.1 = 0
  · omega
  · have := hle h0; omega

theorem diagram_has (hq : q.Ok) (hn : 2 ≤ q.cols) (hs : ∀ i j, i < q.rows → j < q.cols → q.cols + q.num (i, j) ≤ 255) (all : Bool) {k : Int} (hk : k ≤ 65535) :
    ∃ D, diagram q all k = some D ∧ Has q.top (fun a => ∃ v, Good q all k ⟨hOf q a, v⟩) D := by
  have lN := C69_lawful hq hn hs hk
  unfold diagram
  cases all with
  | true =>
    rw [if_pos rfl]
    have lD := C68_lawful hq hn
    obtain ⟨D, e, h⟩ := Queens.made_has (C26_zddLookahead _ lD) (fun _ _ => rfl) (ahead_le lD.toDesc degree_root_le) (fun a => (C21_zddLookahead _ lD.toDesc _ degree_root_le a).trans (C68_degree hq hn a))
    obtain ⟨D', e', h'⟩ := Queens.cutBy_has h false (C26_zddLookahead _ lN) (fun _ _ => rfl) (ahead_le lN.toDesc numlin_root_le) (fun a _ => (C21_zddLookahead _ lN.toDesc _ numlin_root_le a).trans (C69_numlin hq hn hs hk a))
    refine ⟨D', by rw [e]; exact e', h'.congr fun a => ⟨?_, ?_⟩⟩
    · rintro ⟨_, v, h1, h2⟩
      exact ⟨v, h1, (fun h => nomatch h), h2⟩
    · rintro ⟨v, h1, _, h2⟩
      exact ⟨⟨v, h1.degrees⟩, v, h1, h2⟩
  | false =>
    rw [if_neg Bool.false_ne_true]
    have lC := C70_lawful hq hn
    have lI := C26_zddIntersection _ _ lC lN
    have hle := inter_le lC.toDesc lN.toDesc constraint_root_le (n := q.top)
    obtain ⟨D, e, h⟩ := Queens.made_has (C26_zddLookahead _ lI) (fun _ _ => by show ((0 : Nat) ||| 0) = 0; rfl) (ahead_le lI.toDesc hle) (fun a => ((C21_zddLookahead _ lI.toDesc _ hle a).trans
      (C18_zddIntersection _ _ lC.toDesc lN.toDesc _ constraint_root_le numlin_root_le a)).trans (C70_both hq hn hs hk a))
    refine ⟨D, e, h.congr fun a => ⟨?_, ?_⟩⟩
    · rintro ⟨v, h1, h2, h3⟩
      exact ⟨v, h1, fun _ => h2, h3⟩
    · rintro ⟨v, h1, h2, h3⟩
      exact ⟨v, h1, h2 rfl, h3⟩

theorem good_lines {all : Bool} {k : Int} {a : Asg 2} {v : Nat → Nat → Bool} (h : Good q all k ⟨hOf q a, v⟩) : Good q all k (lines q a) :=
  have hA : Agree q.rows q.cols ⟨hOf q a, v⟩ (lines q a) := ⟨fun _ _ _ _ => rfl, fun i j hi hj => vdet_unique (degOk_unfold.2 h.1.degrees) i j hi hj⟩
  h.congr hA

theorem board_ext {q' : Board} (h : q.Ok) (h' : q'.Ok) (hr : q.rows = q'.rows) (hc : q.cols = q'.cols) (hn : ∀ x, q.num x = q'.num x) : q = q' := by
  have s : Shape q.rows q.cols q.number := ⟨h.len, h.width⟩
  have s' : Shape q.rows q.cols q'.number := by rw [hr, hc]; exact ⟨h'.len, h'.width⟩
  have e : q.number = q'.number := s.ext s' fun i j hi hj => by
    obtain ⟨x, hx⟩ := s.get hi hj
    obtain ⟨y, hy⟩ := s'.get hi hj
    have := hn (i, j)
    change (get2 q.number i j).getD 0 = (get2 q'.number i j).getD 0 at this
    rw [hx, hy] at this ⊢
    exact congrArg some this
  cases q; cases q'
  simp only at hr hc e
  subst hr hc e
  rfl

theorem grid_ext {b b' : Grid} (h : b.Ok) (h' : b'.Ok) (e : b.toBoard = b'.toBoard) (hA : Agree b.rows b.cols b.links b'.links) : b = b' := by
  have hr : b.rows = b'.rows := by rw [e]
  have hc : b.cols = b'.cols := by rw [e]
  have e1 : b.hlink = b'.hlink := h.hlink.ext (by rw [hr, hc]; exact h'.hlink) fun i j hi hj => by
    obtain ⟨x, hx⟩ := h.hlink.get hi hj
    obtain ⟨y, hy⟩ := h'.hlink.get (i := i) (j := j) (by omega) (by omega)
    have := hA.h i j hi (by omega)
    change (get2 b.hlink i j).getD false = (get2 b'.hlink i j).getD false at this
    rw [hx, hy] at this ⊢
    exact congrArg some this
  have e2 : b.vlink = b'.vlink := h.vlink.ext (by rw [hr, hc]; exact h'.vlink) fun i j hi hj => by
    obtain ⟨x, hx⟩ := h.vlink.get hi hj
    obtain ⟨y, hy⟩ := h'.vlink.get (i := i) (j := j) (by omega) (by omega)
    have := hA.v i j (by omega) hj
    change (get2 b.vlink i j).getD false = (get2 b'.vlink i j).getD false at this
    rw [hx, hy] at this ⊢
    exact congrArg some this
  cases b; cases b'
  simp only at e e1 e2
  subst e e1 e2
  rfl

theorem asgS_eq (s : List Nat) : asgS s = TdZdd.asgOf s := by
  funext l
  unfold asgS TdZdd.asgOf
  by_cases h : l ∈ s
  · rw [if_pos h, if_pos (by simpa using h)]
  · rw [if_neg h, if_neg (by simpa using h)]

/-- the level of a box is that of its line -/
theorem level_box (hn : 2 ≤ q.cols) {l : Nat} (h1 : 1 ≤ l) (h2 : l ≤ q.top) : ∃ i j, i < q.rows ∧ j + 1 < q.cols ∧ ∀ a, hOf q a i j = (a l == 1) := by
  have hw : 0 < q.cols - 1 := by omega
  have e := Nat.div_add_mod (q.top - l) (q.cols - 1)
  have hj := Nat.mod_lt (q.top - l) hw
  have hi : (q.top - l) / (q.cols - 1) < q.rows := by
    rw [Nat.div_lt_iff_lt_mul hw]
    unfold Board.top at h2 ⊢
    omega
  rw [Nat.mul_comm] at e
  have hlev : q.top - ((q.top - l) / (q.cols - 1) * (q.cols - 1) + (q.top - l) % (q.cols - 1)) = l := by omega
  have hlt : (q.top - l) % (q.cols - 1) + 1 < q.cols := by omega
  refine ⟨_, _, hi, hlt, fun a => ?_⟩
  unfold hOf
  rw [hlev, decide_eq_true (⟨hi, hlt⟩ : _ ∧ _), Bool.true_and]

/-- equal lines are equal sets -/
theorem set_inj (hn : 2 ≤ q.cols) {s t : List Nat} (hs : s.Pairwise (· > ·)) (ht : t.Pairwise (· > ·)) (bs : ∀ l ∈ s, 1 ≤ l ∧ l ≤ q.top) (bt : ∀ l ∈ t, 1 ≤ l ∧ l ≤ q.top)
    (h : ∀ i j, i < q.rows → j + 1 < q.cols → hOf q (asgS s) i j = hOf q (asgS t) i j) : s = t := by
  have key : ∀ l, 1 ≤ l → l ≤ q.top → (l ∈ s ↔ l ∈ t) := fun l h1 h2 => by
    obtain ⟨i, j, hi, hj, e⟩ := level_box hn h1 h2
    have := h i j hi hj
    rw [e, e, asgS_eq, asgS_eq] at this
    unfold TdZdd.asgOf at this
    by_cases c1 : l ∈ s <;> by_cases c2 : l ∈ t <;> simp_all
  exact pairwise_gt_ext hs ht fun l => ⟨fun h => (key l (bs l h).1 (bs l h).2).1 h, fun h => (key l (bt l h).1 (bt l h).2).2 h⟩

/-- the set of a family of lines -/
def setOf (q : Board) (L : Links) : List Nat := ((List.range q.top).map fun p => q.top - p).filter fun l => asgOf q L l == 1

theorem setOf_ok (q : Board) (L : Links) : (setOf q L).Pairwise (· > ·) ∧ (∀ l ∈ setOf q L, 1 ≤ l ∧ l ≤ q.top) ∧ ∀ i j, i < q.rows → j + 1 < q.cols → hOf q (asgS (setOf q L)) i j = L.h i j := by
  refine ⟨?_, fun l hl => ?_, fun i j hi hj => ?_⟩
  · refine List.Pairwise.filter _ ?_
    rw [List.pairwise_map]
    refine List.Pairwise.imp_of_mem ?_ (List.pairwise_lt_range (n := q.top))
    intro a b ha hb h
    have := List.mem_range.1 ha
    have := List.mem_range.1 hb
    omega
  · obtain ⟨p, hp, rfl⟩ := List.mem_map.1 (List.mem_filter.1 hl).1
    have := List.mem_range.1 hp
    omega
  · have hlt : i * (q.cols - 1) + j < q.top := by
      unfold Board.top
      calc i * (q.cols - 1) + j < i * (q.cols - 1) + (q.cols - 1) := by omega
        _ = (i + 1) * (q.cols - 1) := by rw [Nat.add_mul, Nat.one_mul]
        _ ≤ _ := Nat.mul_le_mul_right _ hi
    rw [← hOf_asgOf (L := L) hi hj]
    unfold hOf
    congr 1
    rw [asgS_eq]
    unfold TdZdd.asgOf setOf
    generalize hl : q.top - (i * (q.cols - 1) + j) = l
    have hm : l ∈ (List.range q.top).map (fun p => q.top - p) := List.mem_map.2 ⟨_, List.mem_range.2 hlt, hl⟩
    by_cases c : asgOf q L l = 1
    · rw [if_pos (List.mem_filter.2 ⟨hm, by rw [c]; rfl⟩), c]
    · rw [if_neg fun h => c (by simpa using (List.mem_filter.1 h).2)]
      revert c
      generalize asgOf q L l = b
      revert b
      decide

/-- the loop of `output` prints the first `m` boards -/
theorem outLoop_eq {g : Grid} {tr : Bool} {m : Int} (hm : 0 < m) : ∀ {L : List (List Nat)} {bs : List Grid}, L.mapM (g.answer tr) = some bs → ∀ c : Nat, (c : Int) < m →
    outLoop g tr m L c = some (bs.take (m.toNat - c))
  | [], bs, h, c, _ => by
    rw [List.mapM_nil] at h
    cases h
    rw [List.take_nil]; rfl
  | s :: L, bs, h, c, hc => by
    rw [List.mapM_cons] at h
    cases e1 : g.answer tr s with
    | none => rw [e1] at h; cases h
    | some b =>
      cases e2 : L.mapM (g.answer tr) with
      | none => rw [e1, e2] at h; cases h
      | some bs' =>
        rw [e1, e2] at h
        cases h
        unfold outLoop
        rw [if_pos (by omega), e1, Option.bind_some]
        by_cases k : ((c + 1 : Nat) : Int) = m
        · rw [if_pos k, show m.toNat - c = 1 by omega, List.take_succ_cons, List.take_zero]
        · rw [if_neg k, outLoop_eq hm e2 (c + 1) (by omega), show m.toNat - c = (m.toNat - (c + 1)) + 1 by omega, List.take_succ_cons, Option.map_some]

theorem outLoop_neg {g : Grid} {tr : Bool} {m : Int} (hm : m < 0) (L : List (List Nat)) : outLoop g tr m L 0 = some [] := by
  cases L with
  | nil => rfl
  | cons s L => unfold outLoop; rw [if_neg (by omega)]

theorem mapM_exists {α β : Type} {f : α → Option β} {P : α → β → Prop} : ∀ {L : List α}, (∀ x ∈ L, ∃ y, f x = some y ∧ P x y) → ∃ ys, L.mapM f = some ys ∧ (∀ y ∈ ys, ∃ x ∈ L, f x = some y ∧ P x y) ∧
    ∀ x ∈ L, ∃ y ∈ ys, f x = some y ∧ P x y
  | [], _ => ⟨[], rfl, by simp, by simp⟩
  | x :: L, h => by
    obtain ⟨y, e, p⟩ := h x List.mem_cons_self
    obtain ⟨ys, e', p1, p2⟩ := mapM_exists fun x hx => h x (List.mem_cons_of_mem _ hx)
    refine ⟨y :: ys, by rw [List.mapM_cons, e, e']; rfl, fun z hz => ?_, fun z hz => ?_⟩
    · rcases List.mem_cons.1 hz with rfl | hz
      · exact ⟨x, List.mem_cons_self, e, p⟩
      · obtain ⟨w, h1, h2⟩ := p1 z hz
        exact ⟨w, List.mem_cons_of_mem _ h1, h2⟩
    · rcases List.mem_cons.1 hz with rfl | hz
      · exact ⟨y, List.mem_cons_self, e, p⟩
      · obtain ⟨w, h1, h2⟩ := p2 z hz
        exact ⟨w, List.mem_cons_of_mem _ h1, h2⟩

theorem mapM_mem {α β : Type} {f : α → Option β} : ∀ {L : List α} {ys : List β} {y : β}, L.mapM f = some ys → y ∈ ys → ∃ x ∈ L, f x = some y
  | [], ys, y, h, hy => by
    rw [List.mapM_nil] at h
    cases h
    exact nomatch hy
  | x :: L, ys, y, h, hy => by
    rw [List.mapM_cons] at h
    cases e1 : f x with
    | none => rw [e1] at h; cases h
    | some z =>
      cases e2 : L.mapM f with
      | none => rw [e1, e2] at h; cases h
      | some ys' =>
        rw [e1, e2] at h
        cases h
        rcases List.mem_cons.1 hy with rfl | hy
        · exact ⟨x, List.mem_cons_self, e1⟩
        · obtain ⟨w, h1, h2⟩ := mapM_mem e2 hy
          exact ⟨w, List.mem_cons_of_mem _ h1, h2⟩

theorem mapM_nodup {α β : Type} {f : α → Option β} : ∀ {L : List α} {ys : List β}, L.Nodup → L.mapM f = some ys → (∀ x ∈ L, ∀ x' ∈ L, ∀ y, f x = some y → f x' = some y → x = x') → ys.Nodup
  | [], ys, _, h, _ => by cases h; exact List.nodup_nil
  | x :: L, ys, hL, h, hi => by
    rw [List.mapM_cons] at h
    cases e1 : f x with
    | none => rw [e1] at h; cases h
    | some y =>
      cases e2 : L.mapM f with
      | none => rw [e1, e2] at h; cases h
      | some ys' =>
        rw [e1, e2] at h
        cases h
        have hL' := List.nodup_cons.1 hL
        refine List.nodup_cons.2 ⟨fun hm => ?_, mapM_nodup hL'.2 e2 fun x hx x' hx' => hi x (List.mem_cons_of_mem _ hx) x' (List.mem_cons_of_mem _ hx')⟩
        obtain ⟨x', hx', e⟩ : ∃ x' ∈ L, f x' = some y := mapM_mem e2 hm
        exact hL'.1 (hi x List.mem_cons_self x' (List.mem_cons_of_mem _ hx') y e1 e ▸ hx')

/-- The answers on the board of the diagram, without transposition. -/
theorem core {q : Grid} (hq : q.Ok) (hn : 2 ≤ q.cols) (hs : ∀ i j, i < q.rows → j < q.cols → q.cols + q.num (i, j) ≤ 255) (all : Bool) {k : Int} (hk : k ≤ 65535) :
    ∃ D Ls bs, diagram q.toBoard all k = some D ∧ (∃ fuel steps, D.iterate fuel steps = some Ls) ∧ (∀ fuel steps L, D.iterate fuel steps = some L → L = Ls) ∧
      Ls.mapM (q.answer false) = some bs ∧ bs.Nodup ∧ (∀ b ∈ bs, b.Ok ∧ b.toBoard = q.toBoard ∧ Good q.toBoard all k b.links) ∧
      ∀ L, Good q.toBoard all k L → ∃ b ∈ bs, Agree q.rows q.cols b.links L := by
  obtain ⟨D, e, h⟩ := diagram_has hq.board hn hs all hk
  obtain ⟨⟨f, st, Ls, hL⟩, hall⟩ := C33_iteration D h.wf
  obtain ⟨nd, hsh, hmem⟩ := hall f st Ls hL
  have hle := h.le
  have hb : ∀ s ∈ Ls, ∀ l ∈ s, 1 ≤ l ∧ l ≤ q.top := fun s h l hl => by
    have := (hsh s h).2 l hl
    omega
  obtain ⟨bs, eb, b1, b2⟩ := mapM_exists (f := q.answer false) (P := fun s b => b.Ok ∧ b.toBoard = q.toBoard ∧
    (∀ i j, b.links.h i j = (lines q.toBoard (asgS s)).h i j) ∧ (∀ i j, b.links.v i j = (lines q.toBoard (asgS s)).v i j)) fun s (_ : s ∈ Ls) => Grid.answer_eq hq s
  refine ⟨D, Ls, bs, e, ⟨f, st, hL⟩, fun f' st' L h' => iterate_unique h' hL, eb, mapM_nodup nd eb fun s hs' t ht b e1 e2 => ?_, fun b hbm => ?_, fun L hG => ?_⟩
  · refine set_inj (q := q.toBoard) hn (hsh s hs').1 (hsh t ht).1 (hb s hs') (hb t ht) fun i j _ _ => ?_
    obtain ⟨c, h1, _, _, h2, _⟩ := Grid.answer_eq hq s
    obtain ⟨d, h3, _, _, h4, _⟩ := Grid.answer_eq hq t
    rw [e1] at h1
    rw [e2] at h3
    cases h1; cases h3
    exact (h2 i j).symm.trans (h4 i j)
  · obtain ⟨s, hs', _, o, t, h1, h2⟩ := b1 b hbm
    obtain ⟨v, hv⟩ := (h.mem _).1 ((hmem q.top hle s (hsh s hs').1 (hb s hs')).1 hs')
    rw [← asgS_eq] at hv
    exact ⟨o, t, (good_lines hv).congr ⟨fun i j _ _ => (h1 i j).symm, fun i j _ _ => (h2 i j).symm⟩⟩
  · obtain ⟨p1, p2, p3⟩ := setOf_ok q.toBoard L
    have hA : Agree q.rows q.cols L ⟨hOf q.toBoard (asgS (setOf q.toBoard L)), L.v⟩ := ⟨fun i j hi hj => (p3 i j hi hj).symm, fun _ _ _ _ => rfl⟩
    have hG' := hG.congr (q := q.toBoard) hA
    have hm : setOf q.toBoard L ∈ Ls := (hmem q.top hle _ p1 p2).2 ((h.mem _).2 ⟨L.v, by rw [← asgS_eq]; exact hG'⟩)
    obtain ⟨b, hbm, _, o, t, h1, h2⟩ := b2 _ hm
    refine ⟨b, hbm, ⟨fun i j hi hj => (h1 i j).trans (p3 i j hi hj), fun i j hi hj => (h2 i j).trans ?_⟩⟩
    exact (vdet_unique (degOk_unfold.2 hG'.1.degrees) i j hi hj).symm

end TdZdd.Nl
