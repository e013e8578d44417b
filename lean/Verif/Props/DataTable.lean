import Verif.DataTableProofs3

/-!
# Property C104: `DataTable`, a vector of vectors
-/

namespace TdZdd

namespace DTab

variable {T : Type}

/-- C104: every program that is allowed on lists of lists runs without undefined behaviour on tables and gives the same results. At the end each table has the right number
of rows in an array of `capacity` cells, each of these cells holds the vector of a row (whose size and elements are as in the list), and the cells behind are raw memory. -/
theorem _root_.TdZdd.C104_sequence (d : T) (ops : List (Op T)) (env : Nat → Option (List (List T))) (rs : List (Out T)) (h : seqOps d (fun _ => none) ops = some (env, rs)) :
    ∃ st, run d St.empty ops = some (st, rs) ∧ ∀ x, (st.tab x = none ↔ env x = none) ∧ ∀ v, st.tab x = some v → ∃ L, env x = some L ∧ v.size = L.length ∧ v.size ≤ v.cap ∧
      (v.arr ≠ 0 → st.blk v.arr = some v.cap) ∧ (v.arr = 0 → v.cap = 0) ∧
      (∀ i (hi : i < L.length), ∃ u, st.inn.vec (code v.arr i) = some u ∧ u.size = L[i].length ∧ ∀ j, j < u.size → st.inn.ram.read u.arr j = L[i][j]?) ∧
      ∀ i, L.length ≤ i → st.inn.vec (code v.arr i) = none := by
  obtain ⟨st, w, e, hi⟩ := run_spec d ops inv_empty h
  refine ⟨st, e, fun x => ⟨⟨fun hv => ?_, hi.dead x⟩, fun v hv => ?_⟩⟩
  · cases he : env x with
    | none => rfl
    | some l => obtain ⟨v, g, _⟩ := hi.alive x l he; rw [hv] at g; cases g
  · obtain ⟨L, g1, g2⟩ := hi.of_tab hv
    obtain ⟨f1, f2, f3, f4, f5⟩ := g2.facts hi.mem
    refine ⟨L, g1, f1, by omega, fun h0 => ?_, fun h0 => ?_, fun i hl => ?_, fun i hl => ?_⟩
    · rcases g2.1 with ⟨a, _⟩ | ⟨_, _, _, _, f⟩
      · exact absurd a h0
      · exact f
    · rcases g2.1 with ⟨_, a, _⟩ | ⟨a, _⟩
      · exact a
      · exact absurd h0 a
    · obtain ⟨ev, k1, k2, _⟩ := hi.mem.holds
      obtain ⟨u, q1, q2⟩ := k1.alive (code v.arr i) L[i] (by rw [k2, f4, List.getElem?_eq_getElem hl])
      refine ⟨u, q1, q2.size, fun j hj => ?_⟩
      have hj' : j < L[i].length := by rw [← q2.size]; exact hj
      rw [q2.read hj', List.getElem?_eq_getElem hj']
    · exact hi.mem.holds.dead (by rw [f4, List.getElem?_eq_none hl])

/-- C104, memory: different tables have different arrays of rows and different rows have different arrays of elements; there are no other arrays and no other rows. When no
table is alive, all rows have been destructed and both kinds of arrays have been released. -/
theorem _root_.TdZdd.C104_memory (d : T) (ops : List (Op T)) (env : Nat → Option (List (List T))) (rs : List (Out T)) (h : seqOps d (fun _ => none) ops = some (env, rs)) :
    ∃ st, run d St.empty ops = some (st, rs) ∧
      (∀ x y v u, x ≠ y → st.tab x = some v → st.tab y = some u → v.arr ≠ 0 → v.arr ≠ u.arr) ∧
      (∀ x y v u, x ≠ y → st.inn.vec x = some v → st.inn.vec y = some u → v.arr ≠ 0 → v.arr ≠ u.arr) ∧
      (∀ a, st.blk a ≠ none → ∃ x v, st.tab x = some v ∧ v.arr = a) ∧
      (∀ y, st.inn.vec y ≠ none → ∃ x v i, st.tab x = some v ∧ i < v.size ∧ y = code v.arr i) ∧
      (∀ a, st.inn.ram.blk a ≠ none → ∃ y u, st.inn.vec y = some u ∧ u.arr = a) ∧
      ((∀ x, env x = none) → (∀ a, st.blk a = none) ∧ (∀ y, st.inn.vec y = none) ∧ ∀ a, st.inn.ram.blk a = none) := by
  obtain ⟨st, w, e, hi⟩ := run_spec d ops inv_empty h
  obtain ⟨ev, k1, k2, k3⟩ := hi.mem.holds
  have hrows : ∀ y, st.inn.vec y ≠ none → ∃ x v i, st.tab x = some v ∧ i < v.size ∧ y = code v.arr i := by
    intro y hy
    obtain ⟨b, i, rfl⟩ := k3 y fun e => hy (k1.dead y e)
    have hw : w b i ≠ none := fun e => hy (hi.mem.holds.dead e)
    have hb : st.blk b ≠ none := fun e => hw (hi.mem.raw b i e)
    obtain ⟨x, v, hv, rfl⟩ := hi.own b hb
    obtain ⟨L, g1, g2⟩ := hi.of_tab hv
    obtain ⟨f1, _, _, f4, _⟩ := g2.facts hi.mem
    refine ⟨x, v, i, hv, ?_, rfl⟩
    rcases Nat.lt_or_ge i v.size with q | q
    · exact q
    · exact absurd (by rw [f4, List.getElem?_eq_none (by omega)]) hw
  have hnone : (∀ x, env x = none) → ∀ y, st.inn.vec y = none := fun hn y => by
    cases hy : st.inn.vec y with
    | none => rfl
    | some u =>
      obtain ⟨x, v, _, hv, _⟩ := hrows y (by rw [hy]; simp)
      rw [hi.dead x (hn x)] at hv
      cases hv
  refine ⟨st, e, hi.sep, k1.sep, hi.own, hrows, k1.own, fun hn => ⟨fun a => ?_, hnone hn, fun a => ?_⟩⟩
  · cases hb : st.blk a with
    | none => rfl
    | some n =>
      obtain ⟨x, v, hv, _⟩ := hi.own a (by rw [hb]; simp)
      rw [hi.dead x (hn x)] at hv
      cases hv
  · cases hb : st.inn.ram.blk a with
    | none => rfl
    | some n =>
      obtain ⟨y, u, hu, _⟩ := k1.own a (by rw [hb]; simp)
      rw [hnone hn y] at hu
      cases hu

/-- C104, what the code gets wrong: assigning a table to itself empties it, whatever it contains; all its memory is released. -/
theorem _root_.TdZdd.C104_self_assign (d : T) (ops : List (Op T)) (env : Nat → Option (List (List T))) (rs : List (Out T)) (h : seqOps d (fun _ => none) ops = some (env, rs))
    (x : Nat) (L : List (List T)) (hx : env x = some L) :
    (run d St.empty (ops ++ [.assign x x, .rows x])).map (·.2) = some (rs ++ [.unit, .rows []]) ∧
      (L ≠ [] → (run d St.empty (ops ++ [.rows x])).map (·.2) ≠ some (rs ++ [.rows []])) := by
  obtain ⟨st, w, e, hi⟩ := run_spec d ops inv_empty h
  have happ : ∀ (l : List (Op T)) (s s' : St T) (q : List (Out T)) (m : List (Op T)), run d s l = some (s', q) → run d s (l ++ m) = (run d s' m).map fun p => (p.1, q ++ p.2) := by
    intro l
    induction l with
    | nil =>
      intro s s' q m hl
      cases hl
      cases hm : run d s m with
      | none => rw [List.nil_append, hm]; rfl
      | some p => rw [List.nil_append, hm]; rfl
    | cons op l ih =>
      intro s s' q m hl
      have hu : ∀ (s : St T) (op : Op T) (l : List (Op T)), run d s (op :: l) = (step d s op).bind fun r => (run d r.1 l).map fun q => (q.1, r.2 :: q.2) := fun _ _ _ => rfl
      rw [List.cons_append, hu]
      rw [hu] at hl
      cases e1 : step d s op with
      | none => rw [e1] at hl; cases hl
      | some r =>
        rw [e1, Option.bind_some] at hl
        cases e2 : run d r.1 l with
        | none => rw [e2] at hl; cases hl
        | some p =>
          rw [e2] at hl
          cases hl
          rw [Option.bind_some, ih r.1 p.1 p.2 m e2]
          cases run d p.1 m <;> rfl
  constructor
  · obtain ⟨v, hv, hr⟩ := hi.alive x L hx
    obtain ⟨s1, e1, g1⟩ := clear_spec d hi.mem hr
    have e1' : resize d st v 0 = some (s1, ⟨0, 0, 0⟩) := by unfold resize; rw [if_pos rfl]; exact e1
    have hstep : step d st (.assign x x) = some (s1.put x (some ⟨0, 0, 0⟩), .unit) := by
      dsimp only [step]
      simp only [hv, e1', Option.bind_some, St.put, upd_same, upd_upd]
      simp only [reserve, Nat.lt_irrefl, if_false, Option.bind_some, upd_upd, copyAll, Option.map_some]
    obtain ⟨s2, w2, e2, _⟩ := step_spec d (hi.put (.inl hv) g1) (op := .rows x) (env' := TdZdd.upd env x (some [])) (r := .rows [])
      (by dsimp only [seqOp]; rw [upd_same]; rfl)
    rw [happ ops _ st rs _ e]
    unfold run
    rw [hstep, Option.bind_some]
    unfold run
    dsimp only
    rw [e2]
    rfl
  · intro hl hc
    obtain ⟨s2, w2, e2, _⟩ := step_spec d hi (op := .rows x) (env' := env) (r := .rows L) (by dsimp only [seqOp]; rw [hx]; rfl)
    rw [happ ops _ st rs _ e] at hc
    unfold run at hc
    rw [e2] at hc
    have := List.append_cancel_left (Option.some.inj hc)
    cases this
    exact hl rfl

/-- C104, bounds: accesses to rows and elements that do not exist fail an assertion. -/
theorem _root_.TdZdd.C104_bounds (d : T) (ops : List (Op T)) (env : Nat → Option (List (List T))) (rs : List (Out T)) (h : seqOps d (fun _ => none) ops = some (env, rs))
    (x : Nat) (L : List (List T)) (hx : env x = some L) : ∃ st, run d St.empty ops = some (st, rs) ∧
      (∀ i j t, L.length ≤ i → step d st (.get x i j) = none ∧ step d st (.set x i j t) = none ∧ step d st (.initRow x i j) = none ∧ step d st (.addColumn x i) = none ∧
        step d st (.rowSize x i) = none) ∧
      ∀ i j t (hi : i < L.length), L[i].length ≤ j → step d st (.get x i j) = none ∧ step d st (.set x i j t) = none := by
  obtain ⟨st, w, e, hi⟩ := run_spec d ops inv_empty h
  obtain ⟨v, hv, hr⟩ := hi.alive x L hx
  have hsz := hr.1.size
  refine ⟨st, e, fun i j t hl => ?_, fun i j t hl hj => ?_⟩
  · have hat : st.at x i = none := by unfold St.at; rw [hv, Option.bind_some, if_neg (by omega)]
    dsimp only [step]
    rw [hat]
    exact ⟨rfl, rfl, rfl, rfl, rfl⟩
  · obtain ⟨v', hv', ea, hw⟩ := at_spec hi hx hl
    obtain ⟨ev, k1, k2, _⟩ := hi.mem.holds
    obtain ⟨u, q1, q2⟩ := k1.alive (code v'.arr i) L[i] (by rw [k2, hw])
    have hu := q2.size
    dsimp only [step]
    rw [ea]
    simp only [Option.bind_some, St.row, vStep, VSt.modify, q1]
    rw [if_neg (by omega), if_neg (by omega)]
    exact ⟨rfl, rfl⟩

theorem rowText_succ (sh : T → List Char) : ∀ (l : List T) (j : Nat), rowText sh (j + 1) l = l.flatMap fun t => [',', ' '] ++ sh t
  | [], _ => rfl
  | t :: l, j => by unfold rowText; rw [if_pos (by omega), rowText_succ sh l (j + 1), List.flatMap_cons]

theorem intercalate_flat {α : Type} (sep : List α) : ∀ (l : List (List α)) (a : List α), List.intercalate sep (a :: l) = a ++ l.flatMap fun t => sep ++ t
  | [], a => by simp [List.intercalate]
  | b :: l, a => by rw [List.intercalate_cons_cons, intercalate_flat sep l b, List.flatMap_cons]; simp

theorem rowText_eq (sh : T → List Char) (l : List T) : rowText sh 0 l = List.intercalate [',', ' '] (l.map sh) := by
  cases l with
  | nil => rfl
  | cons t l =>
    unfold rowText
    rw [if_neg (by omega), rowText_succ, List.map_cons, intercalate_flat, List.flatMap_map, List.nil_append]

theorem text_eq (sh : T → List Char) : ∀ (L : List (List T)) (i : Nat),
    text sh i L = (L.zipIdx i).flatMap fun p => (toString p.2).toList ++ [':', ' '] ++ List.intercalate [',', ' '] (p.1.map sh) ++ ['\n']
  | [], _ => rfl
  | l :: L, i => by unfold text; rw [rowText_eq, text_eq sh L (i + 1), List.zipIdx_cons, List.flatMap_cons]

/-- C104, text: `operator<<` writes one line for each row, with its number and its elements separated by commas. -/
theorem _root_.TdZdd.C104_text (d : T) (sh : T → List Char) (ops : List (Op T)) (env : Nat → Option (List (List T))) (rs : List (Out T))
    (h : seqOps d (fun _ => none) ops = some (env, rs)) (x : Nat) (L : List (List T)) (hx : env x = some L) :
    ∃ st v, run d St.empty ops = some (st, rs) ∧ st.tab x = some v ∧ (elems st d x v.size 0).map (text sh 0) =
      some (L.zipIdx.flatMap fun p => (toString p.2).toList ++ [':', ' '] ++ List.intercalate [',', ' '] (p.1.map sh) ++ ['\n']) := by
  obtain ⟨st, w, e, hi⟩ := run_spec d ops inv_empty h
  obtain ⟨v, hv, hr⟩ := hi.alive x L hx
  refine ⟨st, v, e, hv, ?_⟩
  rw [elems_spec d hi hx _ 0 (by rw [hr.1.size]; omega), Option.map_some, List.drop_zero, text_eq]

/-! ## Examples -/

/-- a program with two tables -/
def exOps : List (Op Nat) :=
  [.new 0 2, .initRow 0 1 2, .set 0 1 0 5, .addColumn 0 1, .setNumRows 0 4, .addColumn 0 3, .copy 1 0, .set 1 1 1 6, .setNumRows 1 2, .rows 0, .rows 1, .totalSize 0,
    .assign 0 1, .rows 0, .get 0 1 1, .init 1 1, .rows 1]

def exOut : List (Out Nat) :=
  [.unit, .unit, .unit, .num 2, .unit, .num 0, .unit, .unit, .unit, .rows [[], [5, 0, 0], [], [0]], .rows [[], [5, 6, 0]], .num 4, .unit, .rows [[], [5, 6, 0]], .val 6, .unit,
    .rows [[]]]

/-- the hypotheses of the theorems are met, and the tables give the same results -/
theorem ex_seq : (seqOps 0 (fun _ => none) exOps).map (·.2) = some exOut := by decide +kernel

theorem ex_run : (run 0 St.empty exOps).map (·.2) = some exOut := by decide +kernel

/-- after both tables have been destructed nothing is left; blocks 1 to 9 of both kinds are looked at -/
theorem ex_free : ((run 0 St.empty (exOps ++ [.destroy 0, .destroy 1])).map fun r =>
    ((List.range 10).all fun a => (r.1.blk a).isNone && (r.1.inn.ram.blk a).isNone, decide (1 < r.1.fresh), decide (1 < r.1.inn.ram.fresh))) = some (true, true, true) := by decide +kernel

theorem ex_self : (run 0 St.empty (exOps ++ [.assign 0 0, .rows 0])).map (·.2) = some (exOut ++ [.unit, .rows []]) := by decide +kernel

theorem ex_bounds : (run 0 St.empty (exOps ++ [.get 0 2 0])).isNone ∧ (run 0 St.empty (exOps ++ [.get 0 1 3])).isNone := by decide +kernel

theorem ex_text : text (fun n : Nat => (toString n).toList) 0 [[], [5, 6, 0]] = "0: \n1: 5, 6, 0\n".toList := by decide +kernel

end DTab

end TdZdd
