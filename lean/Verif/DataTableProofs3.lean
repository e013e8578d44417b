import Verif.DataTableProofs2

/-! Proofs about `DataTable`: programs. -/

namespace TdZdd

namespace DTab

variable {T : Type}

abbrev Env (T : Type) := Nat → Option (List (List T))

/-- the tables hold the lists of rows, in separate arrays, and there are no other arrays and rows -/
structure Inv (s : St T) (w : Cells T) (env : Env T) : Prop where
  mem : Mem s w
  dead : ∀ x, env x = none → s.tab x = none
  alive : ∀ x L, env x = some L → ∃ v, s.tab x = some v ∧ Rep s w v L
  sep : ∀ x y v u, x ≠ y → s.tab x = some v → s.tab y = some u → v.arr ≠ 0 → v.arr ≠ u.arr
  own : ∀ a, s.blk a ≠ none → ∃ x v, s.tab x = some v ∧ v.arr = a

theorem Inv.of_tab {s : St T} {w : Cells T} {env : Env T} (h : Inv s w env) {x : Nat} {v : Vec} (hv : s.tab x = some v) : ∃ L, env x = some L ∧ Rep s w v L := by
  cases e : env x with
  | none => rw [h.dead x e] at hv; cases hv
  | some L =>
    obtain ⟨v', h1, h2⟩ := h.alive x L e
    rw [hv] at h1
    cases h1
    exact ⟨L, rfl, h2⟩

theorem Inv.blk_arr {s : St T} {w : Cells T} {env : Env T} (h : Inv s w env) {x : Nat} {v : Vec} (hv : s.tab x = some v) (ha : v.arr ≠ 0) : s.blk v.arr ≠ none := by
  obtain ⟨L, _, hr, _⟩ := h.of_tab hv
  rcases hr with ⟨e, _⟩ | ⟨_, _, _, _, hb⟩
  · exact absurd e ha
  · rw [hb]; simp

/-- the arrays of the other tables are not touched -/
theorem Inv.others {s : St T} {w : Cells T} {env : Env T} (h : Inv s w env) {x : Nat} {v v' : Vec} {s' : St T} {L : List (List T)}
    (hv : s.tab x = some v ∨ s.tab x = none ∧ v.arr = 0) (ht : Trans s w v s' v' L) {y : Nat} {u : Vec} (hy : y ≠ x) (hu : s.tab y = some u) (h0 : u.arr ≠ 0) :
    u.arr ≠ v.arr ∧ u.arr ≠ v'.arr := by
  have h1 : u.arr ≠ v.arr := by
    rcases hv with hv | hv
    · exact h.sep y x u v hy hu hv h0
    · rw [hv.2]; exact h0
  refine ⟨h1, fun e => ?_⟩
  have h2 := h.mem.lt u.arr (h.blk_arr hu h0)
  rcases ht.arr with f | f | f
  · exact h1 (e.trans f)
  · exact h0 (e.trans f)
  · omega

theorem Inv.other_rep {s : St T} {w : Cells T} {env : Env T} (h : Inv s w env) {x : Nat} {v v' : Vec} {s' : St T} {L : List (List T)}
    (hv : s.tab x = some v ∨ s.tab x = none ∧ v.arr = 0) (ht : Trans s w v s' v' L) {y : Nat} {u : Vec} {M : List (List T)} (hy : y ≠ x) (hu : s.tab y = some u)
    (hr : Rep s w u M) : Rep s' (after w v v' L) u M := by
  obtain ⟨r1, r2⟩ := hr
  rcases r1 with r1 | ⟨a, b, c, e, f⟩
  · exact ⟨.inl r1, fun _ h => absurd r1.1 h⟩
  · obtain ⟨g1, g2⟩ := h.others hv ht hy hu a
    refine ⟨.inr ⟨a, b, c, e, by rw [ht.frame _ g1 g2]; exact f⟩, fun j h0 => ?_⟩
    unfold after
    rw [if_neg (fun hh => g2 hh.1), if_neg g1]
    exact r2 j h0

theorem Inv.put {s : St T} {w : Cells T} {env : Env T} (h : Inv s w env) {x : Nat} {v v' : Vec} {s' : St T} {L : List (List T)}
    (hv : s.tab x = some v ∨ s.tab x = none ∧ v.arr = 0) (ht : Trans s w v s' v' L) : Inv (s'.put x (some v')) (after w v v' L) (TdZdd.upd env x (some L)) := by
  have hm := ht.mem h.mem
  refine ⟨⟨hm.holds, hm.pos, hm.lt, hm.raw⟩, fun y hy => ?_, fun y M hy => ?_, fun y z u t hyz hu hz h0 => ?_, fun a ha => ?_⟩
  · unfold St.put
    dsimp only
    by_cases e : y = x
    · subst e; rw [upd_same] at hy; cases hy
    · rw [upd_ne _ _ e] at hy ⊢; rw [ht.tab]; exact h.dead y hy
  · unfold St.put
    dsimp only
    by_cases e : y = x
    · subst e; rw [upd_same] at hy ⊢; cases hy; exact ⟨_, rfl, ht.rep⟩
    · rw [upd_ne _ _ e] at hy ⊢
      obtain ⟨u, h1, h2⟩ := h.alive y M hy
      exact ⟨u, by rw [ht.tab]; exact h1, h.other_rep hv ht e h1 h2⟩
  · unfold St.put at hu hz
    dsimp only at hu hz
    rw [ht.tab] at hu hz
    by_cases e1 : y = x
    · subst e1
      rw [upd_same] at hu
      cases hu
      rw [upd_ne _ _ (Ne.symm hyz)] at hz
      by_cases hu0 : t.arr = 0
      · rw [hu0]; exact h0
      · exact Ne.symm (h.others hv ht (Ne.symm hyz) hz hu0).2
    · rw [upd_ne _ _ e1] at hu
      by_cases e2 : z = x
      · subst e2
        rw [upd_same] at hz
        cases hz
        exact (h.others hv ht e1 hu h0).2
      · rw [upd_ne _ _ e2] at hz
        exact h.sep y z u t hyz hu hz h0
  · unfold St.put at ha ⊢
    dsimp only at ha ⊢
    rw [ht.tab]
    by_cases e : a = v'.arr
    · exact ⟨x, v', upd_same _ _ _, e.symm⟩
    · by_cases e2 : a = v.arr
      · subst e2
        exact absurd (ht.freed e) ha
      · rw [ht.frame a e2 e] at ha
        obtain ⟨y, u, h1, h2⟩ := h.own a ha
        refine ⟨y, u, ?_, h2⟩
        by_cases e3 : y = x
        · subst e3
          rcases hv with hv | hv
          · rw [h1] at hv; cases hv; exact absurd h2.symm e2
          · rw [h1] at hv; cases hv.1
        · rw [upd_ne _ _ e3]; exact h1

/-- an empty table disappears -/
theorem Inv.drop {s : St T} {w : Cells T} {env : Env T} (h : Inv s w env) {x : Nat} {v : Vec} (hv : s.tab x = some v) (h0 : v.arr = 0) :
    Inv (s.put x none) w (TdZdd.upd env x none) := by
  have hm := h.mem
  refine ⟨⟨hm.holds, hm.pos, hm.lt, hm.raw⟩, fun y hy => ?_, fun y M hy => ?_, fun y z u t hyz hu hz h0 => ?_, fun a ha => ?_⟩
  · unfold St.put
    dsimp only
    by_cases e : y = x
    · rw [e, upd_same]
    · rw [upd_ne _ _ e] at hy ⊢; exact h.dead y hy
  · unfold St.put
    dsimp only
    by_cases e : y = x
    · rw [e, upd_same] at hy; cases hy
    · rw [upd_ne _ _ e] at hy ⊢; exact h.alive y M hy
  · unfold St.put at hu hz
    dsimp only at hu hz
    by_cases e1 : y = x
    · rw [e1, upd_same] at hu; cases hu
    · by_cases e2 : z = x
      · rw [e2, upd_same] at hz; cases hz
      · rw [upd_ne _ _ e1] at hu
        rw [upd_ne _ _ e2] at hz
        exact h.sep y z u t hyz hu hz h0
  · obtain ⟨y, u, h1, h2⟩ := h.own a ha
    refine ⟨y, u, ?_, h2⟩
    unfold St.put
    dsimp only
    by_cases e : y = x
    · rw [e, hv] at h1
      cases h1
      exact absurd (h.mem.lt a ha).1 (by omega)
    · rw [upd_ne _ _ e]; exact h1

/-- one row is replaced -/
theorem Inv.set {s s' : St T} {w : Cells T} {env : Env T} (h : Inv s w env) {x i : Nat} {v : Vec} {L : List (List T)} {l : List T} (hv : s.tab x = some v) (hx : env x = some L)
    (hi : i < L.length) (hs : Same s s') (hw : Holds s'.inn (w.upd v.arr i (some l))) : Inv s' (w.upd v.arr i (some l)) (TdZdd.upd env x (some (L.set i l))) := by
  obtain ⟨s1, s2, s3⟩ := hs
  obtain ⟨v', hv', hr⟩ := h.alive x L hx
  rw [hv] at hv'
  cases hv'
  have hvs : v.arr ≠ 0 ∧ 0 < v.cap ∧ v.size = L.length ∧ L.length ≤ v.cap ∧ s.blk v.arr = some v.cap := by
    rcases hr.1 with ⟨_, _, _, e⟩ | e
    · rw [e] at hi; cases hi
    · exact e
  refine ⟨⟨hw, by rw [s1]; exact h.mem.pos, fun a ha => ?_, fun b j hb => ?_⟩, fun y hy => ?_, fun y M hy => ?_, fun y z u t hyz hu hz h0 => ?_, fun a ha => ?_⟩
  · rw [s1]; rw [s2] at ha; exact h.mem.lt a ha
  · rw [s2] at hb
    unfold Cells.upd
    by_cases q : b = v.arr ∧ j = i
    · rw [q.1, hvs.2.2.2.2] at hb; cases hb
    · rw [if_neg q]; exact h.mem.raw b j hb
  · rw [s3]
    by_cases e : y = x
    · rw [e, upd_same] at hy; cases hy
    · rw [upd_ne _ _ e] at hy; exact h.dead y hy
  · rw [s3]
    by_cases e : y = x
    · subst e
      rw [upd_same] at hy
      cases hy
      refine ⟨v, hv, ?_, fun j h0 => ?_⟩
      · rw [s2]
        exact .inr ⟨hvs.1, hvs.2.1, by rw [List.length_set]; exact hvs.2.2.1, by rw [List.length_set]; exact hvs.2.2.2.1, hvs.2.2.2.2⟩
      · unfold Cells.upd
        by_cases q : j = i
        · subst q
          rw [if_pos ⟨rfl, rfl⟩, List.getElem?_set_self hi]
        · rw [if_neg (fun hh => q hh.2), List.getElem?_set_ne (fun e => q e.symm), hr.2 j h0]
    · rw [upd_ne _ _ e] at hy
      obtain ⟨u, h1, h2, h3⟩ := h.alive y M hy
      refine ⟨u, h1, by rw [s2]; exact h2, fun j h0 => ?_⟩
      unfold Cells.upd
      rw [if_neg (fun hh => h.sep y x u v e h1 hv h0 hh.1)]
      exact h3 j h0
  · rw [s3] at hu hz; exact h.sep y z u t hyz hu hz h0
  · rw [s2] at ha; rw [s3]; exact h.own a ha

theorem at_spec {s : St T} {w : Cells T} {env : Env T} (h : Inv s w env) {x i : Nat} {L : List (List T)} (hx : env x = some L) (hi : i < L.length) :
    ∃ v, s.tab x = some v ∧ s.at x i = some (code v.arr i) ∧ w v.arr i = some L[i] := by
  obtain ⟨v, hv, hr⟩ := h.alive x L hx
  have hvs : v.arr ≠ 0 ∧ 0 < v.cap ∧ v.size = L.length ∧ L.length ≤ v.cap ∧ s.blk v.arr = some v.cap := by
    rcases hr.1 with ⟨_, _, _, e⟩ | e
    · rw [e] at hi; cases hi
    · exact e
  refine ⟨v, hv, ?_, by rw [hr.2 i hvs.1, List.getElem?_eq_getElem hi]⟩
  unfold St.at
  rw [hv, Option.bind_some, if_pos (by omega), cell_some hvs.2.2.2.2 (by omega)]

theorem len_spec {s : St T} {w : Cells T} (d : T) {a i : Nat} {l : List T} (h : Holds s.inn w) (hw : w a i = some l) : s.len d (code a i) = some l.length := by
  obtain ⟨s', e⟩ := row_read (d := d) (op := .size (code a i)) (r := .num l.length) h fun env he => by
    dsimp only [seqStep]; rw [he, hw]; rfl
  unfold St.len
  rw [e]; rfl

theorem total_spec {s : St T} {w : Cells T} {env : Env T} (d : T) (h : Inv s w env) {x : Nat} {L : List (List T)} (hx : env x = some L) :
    ∀ (c i k : Nat), i + c = L.length → total s d x c i k = some (k + ((L.drop i).map List.length).sum)
  | 0, i, k, hc => by rw [List.drop_eq_nil_of_le (by omega)]; rfl
  | c + 1, i, k, hc => by
    obtain ⟨v, _, e, hw⟩ := at_spec h hx (show i < L.length by omega)
    unfold total
    rw [e, Option.bind_some, len_spec d h.mem.holds hw, Option.bind_some, total_spec d h hx c (i + 1) _ (by omega), List.drop_eq_getElem_cons (by omega : i < L.length)]
    simp only [List.map_cons, List.sum_cons]
    rw [Nat.add_assoc]

theorem rowElems_spec {s : St T} {w : Cells T} (d : T) {a i : Nat} {l : List T} (h : Holds s.inn w) (hw : w a i = some l) :
    ∀ (c j : Nat), j + c = l.length → rowElems s d (code a i) c j = some (l.drop j)
  | 0, j, hc => by rw [List.drop_eq_nil_of_le (by omega)]; rfl
  | c + 1, j, hc => by
    obtain ⟨s', e⟩ := row_read (d := d) (op := .get (code a i) j) (r := .val (l[j]'(by omega))) h fun env he => by
      dsimp only [seqStep]; rw [he, hw, Option.bind_some, List.getElem?_eq_getElem (by omega)]; rfl
    unfold rowElems
    rw [e, Option.bind_some]
    dsimp only
    rw [rowElems_spec d h hw c (j + 1) (by omega), List.drop_eq_getElem_cons (by omega : j < l.length)]
    rfl

theorem elems_spec {s : St T} {w : Cells T} {env : Env T} (d : T) (h : Inv s w env) {x : Nat} {L : List (List T)} (hx : env x = some L) :
    ∀ (c i : Nat), i + c = L.length → elems s d x c i = some (L.drop i)
  | 0, i, hc => by rw [List.drop_eq_nil_of_le (by omega)]; rfl
  | c + 1, i, hc => by
    obtain ⟨v, _, e, hw⟩ := at_spec h hx (show i < L.length by omega)
    unfold elems
    rw [e, Option.bind_some, len_spec d h.mem.holds hw, Option.bind_some, rowElems_spec d h.mem.holds hw _ 0 (by omega), Option.bind_some,
      elems_spec d h hx c (i + 1) (by omega), List.drop_eq_getElem_cons (by omega : i < L.length)]
    rfl

theorem step_spec (d : T) {s : St T} {w : Cells T} {env env' : Env T} {op : Op T} {r : Out T} (h : Inv s w env) (hs : seqOp d env op = some (env', r)) :
    ∃ s' w', step d s op = some (s', r) ∧ Inv s' w' env' := by
  cases op with
  | new x n =>
    dsimp only [seqOp, become] at hs
    cases hx : env x with
    | some L => rw [hx] at hs; cases hs
    | none =>
      rw [hx] at hs
      cases hs
      have hv := h.dead x hx
      obtain ⟨s', v', e, ht⟩ := resize_spec d h.mem rep_null n
      refine ⟨s'.put x (some v'), after w ⟨0, 0, 0⟩ v' (resized [] n), by dsimp only [step]; rw [hv, e]; rfl, ?_⟩
      have := h.put (.inr ⟨hv, rfl⟩) ht
      simpa [resized] using this
  | copy x y =>
    dsimp only [seqOp, become] at hs
    cases hy : env y with
    | none => rw [hy] at hs; cases hs
    | some L =>
    cases hx : env x with
    | some L => rw [hy, hx] at hs; cases hs
    | none =>
      rw [hy, hx] at hs
      cases hs
      have hv := h.dead x hx
      obtain ⟨o, ho, hr⟩ := h.alive y L hy
      obtain ⟨s', v', e, ht⟩ := copy_spec d h.mem hr
      exact ⟨s'.put x (some v'), after w ⟨0, 0, 0⟩ v' L, by dsimp only [step]; rw [ho, hv, Option.bind_some, e]; rfl, h.put (.inr ⟨hv, rfl⟩) ht⟩
  | assign x y =>
    dsimp only [seqOp, become] at hs
    by_cases hxy : x = y
    · rw [if_pos hxy] at hs; cases hs
    rw [if_neg hxy] at hs
    cases hx : env x with
    | none => rw [hx] at hs; cases hs
    | some L0 =>
    cases hy : env y with
    | none => rw [hx, hy] at hs; cases hs
    | some L =>
      rw [hx, hy] at hs
      cases hs
      obtain ⟨v, hv, hr⟩ := h.alive x L0 hx
      obtain ⟨o, ho, hro⟩ := h.alive y L hy
      obtain ⟨s1, e1, g1⟩ := clear_spec d h.mem hr
      have e1' : resize d s v 0 = some (s1, ⟨0, 0, 0⟩) := by unfold resize; rw [if_pos rfl]; exact e1
      have ho2 : ∀ q : Vec, TdZdd.upd s1.tab x (some q) y = some o := fun q => by rw [upd_ne _ _ (Ne.symm hxy), g1.tab]; exact ho
      have hro1 := h.other_rep (.inl hv) g1 (Ne.symm hxy) ho hro
      have hos := hro.1.size
      by_cases hl : L = []
      · subst hl
        have hos : o.size = 0 := hos
        refine ⟨s1.put x (some ⟨0, 0, 0⟩), _, ?_, h.put (.inl hv) g1⟩
        dsimp only [step]
        simp only [hv, e1', Option.bind_some, St.put, upd_upd, ho2, hos]
        simp only [reserve, Nat.lt_irrefl, if_false, Option.bind_some, upd_upd, ho2, hos, copyAll, Option.map_some]
      · have hlp : 0 < L.length := List.length_pos_iff.2 hl
        have hop : 0 < o.size := by omega
        let s2 := s1.put x (some ⟨o.size, o.size, s1.fresh⟩)
        have hm1 := g1.mem h.mem
        have hm2 : Mem s2 (after w v ⟨0, 0, 0⟩ []) := ⟨hm1.holds, hm1.pos, hm1.lt, hm1.raw⟩
        obtain ⟨s', e2, ht⟩ := copyAll_new d hm2 (o := o) (L := L) hro1 hl
        have ht1 : Trans s1 (after w v ⟨0, 0, 0⟩ []) ⟨0, 0, 0⟩ { s' with tab := s1.tab } ⟨o.size, o.size, s1.fresh⟩ L :=
          ⟨ht.holds, rfl, ht.mono, ht.zero, ht.lt, ht.frame, ht.freed, ht.arr, ht.shape⟩
        have hfin := h.put (.inl hv) (g1.trans h.mem ht1)
        have hse : ({ s' with tab := s1.tab } : St T).put x (some ⟨o.size, o.size, s1.fresh⟩) = s' := by
          unfold St.put
          have : s'.tab = TdZdd.upd s1.tab x (some ⟨o.size, o.size, s1.fresh⟩) := ht.tab
          dsimp only
          rw [← this]
        rw [hse] at hfin
        refine ⟨s', _, ?_, hfin⟩
        dsimp only [step]
        simp only [hv, e1', Option.bind_some, St.put, upd_upd, ho2]
        simp only [reserve, hop, if_true, if_false, ne_eq, not_true_eq_false, Option.bind_some, upd_upd, alloc, ho2]
        have e3 : copyAll d o s1.fresh o.size 0
            ⟨s1.fresh + 1, TdZdd.upd s1.blk s1.fresh (some o.size), s1.inn, TdZdd.upd s1.tab x (some ⟨o.size, o.size, s1.fresh⟩)⟩ = some s' := e2
        rw [e3]
        rfl
  | destroy x =>
    dsimp only [seqOp] at hs
    cases hx : env x with
    | none => rw [hx] at hs; cases hs
    | some L =>
      rw [hx] at hs
      cases hs
      obtain ⟨v, hv, hr⟩ := h.alive x L hx
      obtain ⟨s1, e1, g1⟩ := clear_spec d h.mem hr
      have h1 := (h.put (.inl hv) g1).drop (x := x) (v := ⟨0, 0, 0⟩) (upd_same _ _ _) rfl
      unfold St.put at h1
      rw [upd_upd] at h1
      dsimp only at h1
      rw [upd_upd] at h1
      exact ⟨_, _, by dsimp only [step]; rw [hv, Option.bind_some, e1]; rfl, h1⟩
  | init x n =>
    dsimp only [seqOp, become] at hs
    cases hx : env x with
    | none => rw [hx] at hs; cases hs
    | some L =>
      rw [hx] at hs
      cases hs
      obtain ⟨v, hv, hr⟩ := h.alive x L hx
      obtain ⟨s1, e1, g1⟩ := clear_spec d h.mem hr
      obtain ⟨s2, v2, e2, g2⟩ := resize_spec d (g1.mem h.mem) g1.rep n
      refine ⟨s2.put x (some v2), after w v v2 (resized [] n), by dsimp only [step]; rw [hv, Option.bind_some, e1, Option.bind_some, e2]; rfl, ?_⟩
      have := h.put (.inl hv) (g1.trans h.mem g2)
      simpa [resized] using this
  | setNumRows x n =>
    dsimp only [seqOp, become] at hs
    cases hx : env x with
    | none => rw [hx] at hs; cases hs
    | some L =>
      rw [hx] at hs
      cases hs
      obtain ⟨v, hv, hr⟩ := h.alive x L hx
      obtain ⟨s2, v2, e2, g2⟩ := resize_spec d h.mem hr n
      exact ⟨s2.put x (some v2), _, by dsimp only [step]; rw [hv, Option.bind_some, e2]; rfl, h.put (.inl hv) g2⟩
  | initRow x i n =>
    dsimp only [seqOp, become] at hs
    cases hx : env x with
    | none => rw [hx] at hs; cases hs
    | some L =>
      rw [hx, Option.bind_some] at hs
      by_cases hi : i < L.length
      · rw [if_pos hi] at hs
        cases hs
        obtain ⟨v, hv, ea, hw⟩ := at_spec h hx hi
        obtain ⟨s1, e1, g1, g2⟩ := row_write (d := d) (op := .clear (code v.arr i)) (a := v.arr) (i := i) (v := some []) (r := .unit) h.mem.holds fun env he => by
          dsimp only [seqStep]; rw [he, hw]; rfl
        obtain ⟨s2, e2, g3, g4⟩ := row_write (d := d) (op := .resize (code v.arr i) n) (a := v.arr) (i := i) (v := some (List.replicate n d)) (r := .unit) g2 fun env he => by
          dsimp only [seqStep]
          rw [he]
          unfold Cells.upd
          rw [if_pos ⟨rfl, rfl⟩]
          simp
        refine ⟨s2, w.upd v.arr i (some (List.replicate n d)), by dsimp only [step]; rw [ea, Option.bind_some, e1, Option.bind_some, e2]; rfl,
          h.set hv hx hi (g1.trans g3) (g4.congr fun b j => ?_)⟩
        unfold Cells.upd
        by_cases q : b = v.arr ∧ j = i
        · rw [if_pos q, if_pos q]
        · rw [if_neg q, if_neg q, if_neg q]
      · rw [if_neg hi] at hs; cases hs
  | addColumn x i =>
    dsimp only [seqOp, become] at hs
    cases hx : env x with
    | none => rw [hx] at hs; cases hs
    | some L =>
      rw [hx, Option.bind_some] at hs
      by_cases hi : i < L.length
      · rw [List.getElem?_eq_getElem hi] at hs
        cases hs
        obtain ⟨v, hv, ea, hw⟩ := at_spec h hx hi
        obtain ⟨s1, e1, g1, g2⟩ := row_write (d := d) (op := .push (code v.arr i) d) (a := v.arr) (i := i) (v := some (L[i] ++ [d])) (r := .unit) h.mem.holds fun env he => by
          dsimp only [seqStep]; rw [he, hw]; rfl
        have hlen := len_spec d (a := v.arr) (i := i) (l := L[i] ++ [d]) g2 (by unfold Cells.upd; rw [if_pos ⟨rfl, rfl⟩])
        refine ⟨s1, _, ?_, h.set hv hx hi g1 g2⟩
        dsimp only [step]
        rw [ea, Option.bind_some, e1, Option.bind_some]
        dsimp only
        rw [hlen]
        simp
      · rw [List.getElem?_eq_none (by omega)] at hs; cases hs
  | numRows x =>
    dsimp only [seqOp] at hs
    cases hx : env x with
    | none => rw [hx] at hs; cases hs
    | some L =>
      rw [hx] at hs
      cases hs
      obtain ⟨v, hv, hr⟩ := h.alive x L hx
      exact ⟨s, w, by dsimp only [step]; rw [hv, Option.map_some, hr.1.size], h⟩
  | rowSize x i =>
    dsimp only [seqOp] at hs
    cases hx : env x with
    | none => rw [hx] at hs; cases hs
    | some L =>
      rw [hx, Option.bind_some] at hs
      by_cases hi : i < L.length
      · rw [List.getElem?_eq_getElem hi] at hs
        cases hs
        obtain ⟨v, hv, ea, hw⟩ := at_spec h hx hi
        exact ⟨s, w, by dsimp only [step]; rw [ea, Option.bind_some, len_spec d h.mem.holds hw]; rfl, h⟩
      · rw [List.getElem?_eq_none (by omega)] at hs; cases hs
  | totalSize x =>
    dsimp only [seqOp] at hs
    cases hx : env x with
    | none => rw [hx] at hs; cases hs
    | some L =>
      rw [hx] at hs
      cases hs
      obtain ⟨v, hv, hr⟩ := h.alive x L hx
      exact ⟨s, w, by dsimp only [step]; rw [hv, Option.bind_some, total_spec d h hx _ 0 0 (by rw [hr.1.size]; omega)]; simp, h⟩
  | get x i j =>
    dsimp only [seqOp] at hs
    cases hx : env x with
    | none => rw [hx] at hs; cases hs
    | some L =>
      rw [hx, Option.bind_some] at hs
      by_cases hi : i < L.length
      · rw [List.getElem?_eq_getElem hi, Option.bind_some] at hs
        by_cases hj : j < L[i].length
        · rw [List.getElem?_eq_getElem hj] at hs
          cases hs
          obtain ⟨v, hv, ea, hw⟩ := at_spec h hx hi
          obtain ⟨s', e⟩ := row_read (d := d) (op := .get (code v.arr i) j) (r := .val L[i][j]) h.mem.holds fun env he => by
            dsimp only [seqStep]; rw [he, hw, Option.bind_some, List.getElem?_eq_getElem hj]; rfl
          exact ⟨s, w, by dsimp only [step]; rw [ea, Option.bind_some, e]; rfl, h⟩
        · rw [List.getElem?_eq_none (by omega)] at hs; cases hs
      · rw [List.getElem?_eq_none (by omega)] at hs; cases hs
  | set x i j t =>
    dsimp only [seqOp, become] at hs
    cases hx : env x with
    | none => rw [hx] at hs; cases hs
    | some L =>
      rw [hx, Option.bind_some] at hs
      by_cases hi : i < L.length
      · rw [List.getElem?_eq_getElem hi, Option.bind_some] at hs
        by_cases hj : j < L[i].length
        · rw [if_pos hj] at hs
          cases hs
          obtain ⟨v, hv, ea, hw⟩ := at_spec h hx hi
          obtain ⟨s1, e1, g1, g2⟩ := row_write (d := d) (op := .set (code v.arr i) j t) (a := v.arr) (i := i) (v := some (L[i].set j t)) (r := .unit) h.mem.holds fun env he => by
            dsimp only [seqStep]; rw [he, hw, Option.bind_some, if_pos hj]
          exact ⟨s1, _, by dsimp only [step]; rw [ea, Option.bind_some, e1]; rfl, h.set hv hx hi g1 g2⟩
        · rw [if_neg hj] at hs; cases hs
      · rw [List.getElem?_eq_none (by omega)] at hs; cases hs
  | rows x =>
    dsimp only [seqOp] at hs
    cases hx : env x with
    | none => rw [hx] at hs; cases hs
    | some L =>
      rw [hx] at hs
      cases hs
      obtain ⟨v, hv, hr⟩ := h.alive x L hx
      exact ⟨s, w, by dsimp only [step]; rw [hv, Option.bind_some, elems_spec d h hx _ 0 (by rw [hr.1.size]; omega)]; rfl, h⟩

theorem run_spec (d : T) : ∀ (ops : List (Op T)) {s : St T} {w : Cells T} {env env' : Env T} {rs : List (Out T)}, Inv s w env → seqOps d env ops = some (env', rs) →
    ∃ s' w', run d s ops = some (s', rs) ∧ Inv s' w' env'
  | [], s, w, env, env', rs, h, hs => by cases hs; exact ⟨s, w, rfl, h⟩
  | op :: ops, s, w, env, env', rs, h, hs => by
    unfold seqOps at hs
    cases e : seqOp d env op with
    | none => rw [e] at hs; cases hs
    | some r =>
      rw [e, Option.bind_some] at hs
      cases e2 : seqOps d r.1 ops with
      | none => rw [e2] at hs; cases hs
      | some q =>
        rw [e2] at hs
        cases hs
        obtain ⟨s1, w1, h1, h2⟩ := step_spec d h (env' := r.1) (r := r.2) e
        obtain ⟨s2, w2, h3, h4⟩ := run_spec d ops h2 (env' := q.1) (rs := q.2) e2
        exact ⟨s2, w2, by unfold run; rw [h1, Option.bind_some, h3]; rfl, h4⟩

theorem inv_empty : Inv (St.empty : St T) (fun _ _ => none) fun _ => none :=
  ⟨⟨⟨fun _ => none, vecInv_empty, fun _ _ => rfl, fun _ h => absurd rfl h⟩, Nat.one_pos, fun _ h => absurd rfl h, fun _ _ _ => rfl⟩, fun _ _ => rfl, fun _ _ h => (nomatch h),
    fun _ _ _ _ _ h => (nomatch h), fun _ h => absurd rfl h⟩

end DTab

end TdZdd
