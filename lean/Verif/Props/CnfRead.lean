import Verif.CnfReadProofs
import Verif.Props.CnfApp

/-!
# Property C77: the reader of the DIMACS format

`File e text nv nc xs` says that the text consists of remarks, a header with the numbers `nv` of variables and `nc` of clauses, the numbers `xs`, and the rest `e`. `numbers cs` are the numbers of the clauses `cs`, each of them followed by 0.

The code reads a variable that has not been initialised at the end of every text. The parameter `gar` of the model says what that gives: `gar (some 0) = some 0` means that the variable still has its last value 0.
-/

namespace TdZdd

namespace Cnf

theorem over_int {nv : Nat} {cs : List Clause} (h : Over nv cs) (h2 : nv ≤ 2147483647) : ∀ c ∈ cs, ∀ x ∈ c, x ≠ 0 ∧ x ≠ -2147483648 ∧ (x.natAbs : Int) ≤ nv := by
  intro c hc x hx
  have := h c hc x hx
  omega

theorem numbers_int {nv : Nat} {cs : List Clause} (h : Over nv cs) (h2 : nv ≤ 2147483647) : ∀ x ∈ numbers cs, -2147483648 ≤ x ∧ x ≤ 2147483647 := by
  intro x hx
  obtain ⟨c, hc, hx⟩ := List.mem_flatMap.1 hx
  rcases List.mem_append.1 hx with g | g
  · have := h c hc x g; omega
  · rw [List.mem_singleton] at g; omega

theorem numbers_last {cs : List Clause} (h : cs ≠ []) : (numbers cs).getLast? = some 0 := by
  obtain ⟨ds, d, rfl⟩ : ∃ ds d, cs = ds ++ [d] := ⟨cs.dropLast, cs.getLast h, (List.dropLast_concat_getLast h).symm⟩
  simp [numbers]

/-- the two loops on a file -/
theorem read_file {gar : Option Int → Option Int} {e text : List Char} {nv nc : Nat} {xs : List Int} (hf : File e text nv nc xs) (v1 : 1 ≤ nv) (v2 : nv ≤ 2147483647) (c1 : 1 ≤ nc) (c2 : nc ≤ 2147483647)
    (hx : ∀ x ∈ xs, -2147483648 ≤ x ∧ x ≤ 2147483647) :
    ∃ fuel b s, ∃ eo : Bool, 2 ≤ fuel ∧ Gz.Blank s ∧ (eo = true → s ++ e = []) ∧
      readDimacs gar text = ((feed nv nc xs [] [] 0).bind fun r => readClauses gar nv nc fuel (xs.getLast?.or none) r.1 r.2.1 r.2.2 ⟨b, s ++ e, eo, false⟩).bind fun r =>
        if (r.2 : Int) < nc then .thrown .few else .ok (nv, r.1) := by
  cases hf with
  | @intro r h t _ _ _ hr hh hn =>
    obtain ⟨b1, e1⟩ := header_at (t := t) hr hh v2 c2 (fuel := (r ++ (h ++ '\n' :: t)).length + 3) (line := []) (b := []) (by rw [List.length_append]; omega)
    obtain ⟨fuel, b, s, eo, q1, q2, q3, q4⟩ := clauses_nums (gar := gar) (nv := nv) (nc := nc) hn (fuel := t.length + 3) (last := none) (c := []) (cnf := []) (mm := 0) (b := b1) (eo := false) (by intro h; cases h) (by omega) hx
    refine ⟨fuel, b, s, eo, q1, q2, q3, ?_⟩
    unfold readDimacs
    rw [show IStr.ofText (r ++ (h ++ '\n' :: t)) = IStr.at' [] (r ++ (h ++ '\n' :: t)) from rfl, e1]
    show (if (nv : Int) < 1 ∨ (nc : Int) < 1 then _ else _) = _
    rw [if_neg (by omega)]
    show (readClauses gar nv nc (t.length + 3) none [] [] 0 ⟨b1, t, false, false⟩).bind _ = _
    rw [q4]
    rfl

theorem read_clauses {gar : Option Int → Option Int} {e text : List Char} {nv nc : Nat} {cs : List Clause} (hf : File e text nv nc (numbers cs)) (h : Over nv cs) (v1 : 1 ≤ nv) (v2 : nv ≤ 2147483647) (c1 : 1 ≤ nc)
    (c2 : nc ≤ 2147483647) (hc : (solid cs).length ≤ nc) :
    ∃ fuel b s, ∃ eo : Bool, 2 ≤ fuel ∧ Gz.Blank s ∧ (eo = true → s ++ e = []) ∧
      readDimacs gar text = (readClauses gar nv nc fuel ((numbers cs).getLast?.or none) [] ((solid cs).filterMap tidy) (solid cs).length ⟨b, s ++ e, eo, false⟩).bind fun r =>
        if (r.2 : Int) < nc then .thrown .few else .ok (nv, r.1) := by
  obtain ⟨fuel, b, s, eo, q1, q2, q3, q4⟩ := read_file (gar := gar) hf v1 v2 c1 c2 (numbers_int h v2)
  refine ⟨fuel, b, s, eo, q1, q2, q3, ?_⟩
  have := feed_clauses (nv := nv) (nc := nc) (xs := []) (cnf := []) (mm := 0) (over_int h v2) (by omega)
  rw [List.append_nil, feed, List.nil_append, Nat.zero_add] at this
  rw [q4, this]
  rfl

theorem read_prepare {gar : Option Int → Option Int} {e text : List Char} {nv nc : Nat} {cs : List Clause} (hf : File e text nv nc (numbers cs)) (h : Over nv cs) (v1 : 1 ≤ nv) (v2 : nv ≤ 2147483647) (c1 : 1 ≤ nc)
    (c2 : nc ≤ 2147483647) (hc : (solid cs).length ≤ nc) (he : Stop e ∨ e = [] ∧ cs ≠ [] ∧ gar (some 0) = some 0) :
    load gar text = if (solid cs).length < nc then .thrown .few else .ok (nv, prepare (solid cs)) := by
  obtain ⟨fuel, b, s, eo, q1, q2, q3, q4⟩ := read_clauses (gar := gar) hf h v1 v2 c1 c2 hc
  have key : readClauses gar nv nc fuel ((numbers cs).getLast?.or none) [] ((solid cs).filterMap tidy) (solid cs).length ⟨b, s ++ e, eo, false⟩ = .ok ((solid cs).filterMap tidy, (solid cs).length) := by
    rcases he with he | ⟨rfl, hne, hg⟩
    · rw [clauses_stop q2 he q3 q1, if_pos rfl]
    · rw [List.append_nil] at q3 ⊢
      rw [clauses_end q2 q3 q1, numbers_last hne]
      show (gar (some 0)).elim _ _ = _
      rw [hg]
      rfl
  unfold load
  rw [q4, key]
  show (if (((solid cs).length : Nat) : Int) < nc then Out.thrown Err.few else Out.ok (nv, (solid cs).filterMap tidy)).bind _ = _
  by_cases hl : (solid cs).length < nc
  · rw [if_pos hl, if_pos (by omega)]; rfl
  · rw [if_neg hl, if_neg (by omega)]; rfl

theorem over_solid {nv : Nat} {cs : List Clause} (h : Over nv cs) : Over nv (solid cs) := fun c hc => h c ((List.mem_filter.1 hc).1)

/-- C77: every file with the right number of clauses is read, and the result has one clause for each set of literals of a clause in the file that is no tautology. The file may end after the last 0, or continue with something that is no number, as
`%`. (Empty clauses are not counted; so a file in which the header counts them is rejected, see `C77_few`.) -/
theorem _root_.TdZdd.C77_read (gar : Option Int → Option Int) (e text : List Char) (nv nc : Nat) (cs : List Clause) (hf : File e text nv nc (numbers cs)) (h : Over nv cs) (v1 : 1 ≤ nv) (v2 : nv ≤ 2147483647) (c1 : 1 ≤ nc)
    (c2 : nc ≤ 2147483647) (hc : (cs.filter (· ≠ [])).length = nc) (he : Stop e ∨ e = [] ∧ gar (some 0) = some 0) :
    ∃ ds, load gar text = .ok (nv, ds) ∧ Kinds (cs.filter (· ≠ [])) ds := by
  have hc' : (solid cs).length = nc := hc
  have hne : cs ≠ [] := by rintro rfl; simp [solid] at hc'; omega
  have he' : Stop e ∨ e = [] ∧ cs ≠ [] ∧ gar (some 0) = some 0 := he.imp id fun h => ⟨h.1, hne, h.2⟩
  refine ⟨prepare (solid cs), ?_, prepare_kinds (over_solid h)⟩
  rw [read_prepare hf h v1 v2 c1 c2 (by omega) he', if_neg (by omega)]

/-- C77: if there are fewer clauses than the header says, the file is rejected. Empty clauses do not count. -/
theorem _root_.TdZdd.C77_few (gar : Option Int → Option Int) (e text : List Char) (nv nc : Nat) (cs : List Clause) (hf : File e text nv nc (numbers cs)) (h : Over nv cs) (v1 : 1 ≤ nv) (v2 : nv ≤ 2147483647)
    (c2 : nc ≤ 2147483647) (hc : (cs.filter (· ≠ [])).length < nc) (he : Stop e ∨ e = [] ∧ cs ≠ [] ∧ gar (some 0) = some 0) : load gar text = .thrown .few := by
  have hc' : (solid cs).length < nc := hc
  rw [read_prepare hf h v1 v2 (by omega) c2 (by omega) he, if_pos hc']

theorem split_many {nc : Nat} : ∀ {cs : List Clause}, nc < (solid cs).length → ∃ cs1 x c cs2, cs = cs1 ++ (x :: c) :: cs2 ∧ (solid cs1).length = nc := by
  intro cs
  induction cs generalizing nc with
  | nil => intro h; cases h
  | cons c cs ih =>
    intro h
    cases c with
    | nil =>
      have e2 : solid ([] :: cs) = solid cs := by simp [solid]
      rw [e2] at h
      obtain ⟨cs1, x, c, cs2, rfl, g⟩ := ih h
      exact ⟨[] :: cs1, x, c, cs2, rfl, by rw [← g]; simp [solid]⟩
    | cons y c =>
      have e2 : ∀ cs, solid ((y :: c) :: cs) = (y :: c) :: solid cs := fun cs => by simp [solid]
      rw [e2, List.length_cons] at h
      match nc, h with
      | 0, _ => exact ⟨[], y, c, cs, rfl, rfl⟩
      | nc + 1, h =>
        obtain ⟨cs1, x, d, cs2, rfl, g⟩ := ih (nc := nc) (by omega)
        exact ⟨(y :: c) :: cs1, x, d, cs2, rfl, by rw [e2, List.length_cons, g]⟩

/-- C77: if there are more clauses than the header says, the file is rejected, whatever follows. -/
theorem _root_.TdZdd.C77_many (gar : Option Int → Option Int) (e text : List Char) (nv nc : Nat) (cs : List Clause) (xs : List Int) (hf : File e text nv nc (numbers cs ++ xs)) (h : Over nv cs) (v1 : 1 ≤ nv) (v2 : nv ≤ 2147483647)
    (c1 : 1 ≤ nc) (c2 : nc ≤ 2147483647) (hx : ∀ x ∈ xs, -2147483648 ≤ x ∧ x ≤ 2147483647) (hc : nc < (cs.filter (· ≠ [])).length) : load gar text = .thrown .many := by
  obtain ⟨fuel, b, s, eo, _, _, _, q4⟩ := read_file (gar := gar) hf v1 v2 c1 c2 (by
    intro x hm
    rcases List.mem_append.1 hm with g | g
    · exact numbers_int h v2 x g
    · exact hx x g)
  have hc' : nc < (solid cs).length := hc
  obtain ⟨cs1, x, c, cs2, rfl, g⟩ := split_many hc'
  have h1 : Over nv cs1 := fun d hd => h d (List.mem_append_left _ hd)
  have h2 := over_int h v2 (x :: c) (by simp) x List.mem_cons_self
  have e1 : numbers (cs1 ++ (x :: c) :: cs2) ++ xs = numbers cs1 ++ (x :: (c ++ (0 :: (numbers cs2 ++ xs)))) := by simp [numbers]
  have key : feed nv nc (numbers (cs1 ++ (x :: c) :: cs2) ++ xs) [] [] 0 = .thrown .many := by
    rw [e1, feed_clauses (over_int h1 v2) (by omega), feed, if_neg h2.1, if_neg h2.2.1, if_neg (by omega), if_pos (by omega)]
  unfold load
  rw [q4, key]
  rfl

theorem read_lit {gar : Option Int → Option Int} {e text : List Char} {nv nc : Nat} {cs : List Clause} {c : Clause} {x : Int} {xs : List Int} (hf : File e text nv nc (numbers cs ++ (c ++ x :: xs))) (h : Over nv cs) (h' : Over nv [c])
    (v1 : 1 ≤ nv) (v2 : nv ≤ 2147483647) (c2 : nc ≤ 2147483647) (hx : ∀ y ∈ x :: xs, -2147483648 ≤ y ∧ y ≤ 2147483647) (hc : (solid cs).length < nc) (x0 : x ≠ 0) (xv : (x.natAbs : Int) > nv) :
    load gar text = if x = -2147483648 then .ub else .thrown .range := by
  have hi : ∀ y ∈ numbers cs ++ (c ++ x :: xs), -2147483648 ≤ y ∧ y ≤ 2147483647 := by
    intro y hm
    rcases List.mem_append.1 hm with g | g
    · exact numbers_int h v2 y g
    · rcases List.mem_append.1 g with g | g
      · have := h' c List.mem_cons_self y g; omega
      · exact hx y g
  obtain ⟨fuel, b, s, eo, _, _, _, q4⟩ := read_file (gar := gar) hf v1 v2 (by omega) c2 hi
  have key : feed nv nc (numbers cs ++ (c ++ x :: xs)) [] [] 0 = if x = -2147483648 then .ub else .thrown .range := by
    rw [feed_clauses (over_int h v2) (by omega), feed_lits (over_int h' v2 c List.mem_cons_self) (by omega), feed, if_neg x0, if_pos xv]
  unfold load
  rw [q4, key]
  by_cases g : x = -2147483648
  · rw [if_pos g, if_pos g]; rfl
  · rw [if_neg g, if_neg g]; rfl

/-- C77: a literal of a variable that is not declared is rejected, whatever follows. -/
theorem _root_.TdZdd.C77_range (gar : Option Int → Option Int) (e text : List Char) (nv nc : Nat) (cs : List Clause) (c : Clause) (x : Int) (xs : List Int) (hf : File e text nv nc (numbers cs ++ (c ++ x :: xs))) (h : Over nv cs)
    (h' : Over nv [c]) (v1 : 1 ≤ nv) (v2 : nv ≤ 2147483647) (c2 : nc ≤ 2147483647) (hx : ∀ y ∈ x :: xs, -2147483648 ≤ y ∧ y ≤ 2147483647) (hc : (cs.filter (· ≠ [])).length < nc) (x0 : nv < x.natAbs) (x1 : x ≠ -2147483648) :
    load gar text = .thrown .range := by
  rw [read_lit hf h h' v1 v2 c2 hx hc (by omega) (by omega), if_neg x1]

/-- C77: the literal `-2147483648` is not rejected: `std::abs` is undefined. -/
theorem _root_.TdZdd.C77_min_false (gar : Option Int → Option Int) (e text : List Char) (nv nc : Nat) (cs : List Clause) (c : Clause) (xs : List Int) (hf : File e text nv nc (numbers cs ++ (c ++ (-2147483648) :: xs))) (h : Over nv cs)
    (h' : Over nv [c]) (v1 : 1 ≤ nv) (v2 : nv ≤ 2147483647) (c2 : nc ≤ 2147483647) (hx : ∀ y ∈ xs, -2147483648 ≤ y ∧ y ≤ 2147483647) (hc : (cs.filter (· ≠ [])).length < nc) : load gar text = .ub := by
  rw [read_lit hf h h' v1 v2 c2 (fun y hy => (List.mem_cons.1 hy).elim (fun g => by omega) (hx y)) hc (by omega) (by omega), if_pos rfl]

/-- C77: every file that ends after its clauses makes the code read a variable that has not been initialised. If that is undefined, so is the result; if the variable then holds a literal, the file is rejected. -/
theorem _root_.TdZdd.C77_uninit_false (gar : Option Int → Option Int) (text : List Char) (nv nc : Nat) (cs : List Clause) (hf : File [] text nv nc (numbers cs)) (h : Over nv cs) (v1 : 1 ≤ nv) (v2 : nv ≤ 2147483647) (c1 : 1 ≤ nc)
    (c2 : nc ≤ 2147483647) (hc : (cs.filter (· ≠ [])).length = nc) :
    (gar (some 0) = none → load gar text = .ub) ∧ ∀ x : Int, x ≠ 0 → x.natAbs ≤ nv → gar (some 0) = some x → load gar text = .thrown .many := by
  have hc' : (solid cs).length = nc := hc
  have hne : cs ≠ [] := by rintro rfl; simp [solid] at hc'; omega
  obtain ⟨fuel, b, s, eo, q1, q2, q3, q4⟩ := read_clauses (gar := gar) hf h v1 v2 c1 c2 (by omega)
  rw [List.append_nil] at q3 q4
  rw [clauses_end q2 q3 q1, numbers_last hne] at q4
  constructor
  · intro hg
    unfold load
    rw [q4, show (some (0 : Int)).or none = some 0 from rfl, hg]
    rfl
  · intro x x0 xv hg
    unfold load
    rw [q4, show (some (0 : Int)).or none = some 0 from rfl, hg, Option.elim_some, if_neg x0, if_neg (by omega), if_neg (by omega), if_pos (by omega)]
    rfl

/-- C77: a text without a header is rejected. -/
theorem _root_.TdZdd.C77_header (gar : Option Int → Option Int) (r l : List Char) (hr : Remarks r) (hl : '\n' ∉ l) (hp : ∀ t, l ≠ 'p' :: t) : load gar (r ++ l) = .thrown .header := by
  obtain ⟨f, line, b, q1, q2, q3⟩ := header_remarks hr (fuel := (r ++ l).length + 3) (line := []) (b := []) (t := l) (nv := 0) (nc := 0) (by rw [List.length_append]; omega)
  rw [List.length_append] at q1
  have key : ∃ s, readHeader f line 0 0 (IStr.at' b l) = .ok (0, 0, s) := by
    match f, (show 3 ≤ f by omega) with
    | f + 3, _ =>
      have t1 : l.takeWhile (· ≠ '\n') = l ∧ l.dropWhile (· ≠ '\n') = [] := by
        clear q1 q3 hp q2
        induction l with
        | nil => exact ⟨rfl, rfl⟩
        | cons c l ih =>
          have g1 : decide (c ≠ '\n') = true := decide_eq_true fun e => hl (e ▸ List.mem_cons_self)
          have g2 := ih fun g => hl (List.mem_cons_of_mem _ g)
          exact ⟨by rw [List.takeWhile_cons, if_pos g1, g2.1], by rw [List.dropWhile_cons, if_pos g1, g2.2]⟩
      have e1 : getline line (IStr.at' b l) = (l, ⟨l.reverse ++ b, [], true, l.isEmpty⟩) := by
        unfold getline
        rw [if_neg (by exact Bool.false_ne_true)]
        dsimp only
        rw [t1.1, t1.2]
      rw [readHeader, if_neg (by exact Bool.false_ne_true), e1]
      dsimp only
      rw [scan_other hp]
      dsimp only
      rw [readHeader]
      by_cases hfail : l.isEmpty = true
      · rw [if_pos hfail]; exact ⟨_, rfl⟩
      · rw [if_neg hfail]
        have e2 : getline l ⟨l.reverse ++ b, [], true, l.isEmpty⟩ = (l, ⟨l.reverse ++ b, [], true, true⟩) := rfl
        rw [e2]
        dsimp only
        rw [scan_other hp]
        dsimp only
        rw [readHeader, if_pos rfl]
        exact ⟨_, rfl⟩
  obtain ⟨s, e⟩ := key
  unfold load readDimacs
  rw [show IStr.ofText (r ++ l) = IStr.at' [] (r ++ l) from rfl, q3, e]
  rfl

/-- C77: a header without variables or without clauses is rejected, whatever follows. -/
theorem _root_.TdZdd.C77_zero (gar : Option Int → Option Int) (r h t : List Char) (nv nc : Nat) (hr : Remarks r) (hh : Header h nv nc) (v2 : nv ≤ 2147483647) (c2 : nc ≤ 2147483647) (h0 : nv = 0 ∨ nc = 0) :
    load gar (r ++ (h ++ '\n' :: t)) = .thrown .header := by
  obtain ⟨b1, e1⟩ := header_at (t := t) hr hh v2 c2 (fuel := (r ++ (h ++ '\n' :: t)).length + 3) (line := []) (b := []) (by rw [List.length_append]; omega)
  unfold load readDimacs
  rw [show IStr.ofText (r ++ (h ++ '\n' :: t)) = IStr.at' [] (r ++ (h ++ '\n' :: t)) from rfl, e1]
  show (if (nv : Int) < 1 ∨ (nc : Int) < 1 then Out.thrown Err.header else _).bind _ = _
  rw [if_pos (by omega)]
  rfl

/-- C77: for every file with the right number of clauses, `cnf2ztdd2bdd` ends, prints the number of different clauses that are no tautologies, and writes exactly one line for each truth assignment that satisfies all clauses. -/
theorem _root_.TdZdd.C77_app (gar : Option Int → Option Int) (hash : Cudd → Nat) (e text : List Char) (nv : Nat) (cs : List Clause) (hf : File e text nv cs.length (numbers cs)) (h : Over nv cs) (hne : cs ≠ []) (h0 : ∀ c ∈ cs, c ≠ [])
    (v1 : 1 ≤ nv) (v2 : nv ≤ 2147483647) (c2 : cs.length ≤ 2147483647) (he : Stop e ∨ e = [] ∧ gar (some 0) = some 0) :
    (∃ fuel steps r, cnf2ztdd2bdd gar hash text fuel steps = .ok r) ∧
    ∀ fuel steps card f out, cnf2ztdd2bdd gar hash text fuel steps = .ok (card, f, out) →
      (∃ ds, Kinds cs ds ∧ card = toString ds.length) ∧
      ∃ L : List (List Bool), L.Nodup ∧ (∀ x, x ∈ L ↔ x.length = nv ∧ Sat (truth x) cs) ∧ out = L.flatMap modelText := by
  have e0 : solid cs = cs := List.filter_eq_self.2 fun c hc => decide_eq_true (h0 c hc)
  have he' : Stop e ∨ e = [] ∧ cs ≠ [] ∧ gar (some 0) = some 0 := he.imp id fun h => ⟨h.1, hne, h.2⟩
  have e1 := read_prepare hf h v1 v2 (List.length_pos_iff.2 hne) c2 (by rw [e0]; exact Nat.le_refl _) he'
  rw [e0, if_neg (Nat.lt_irrefl _)] at e1
  have e2 : ∀ fuel steps, cnf2ztdd2bdd gar hash text fuel steps = (run hash nv cs fuel steps).elim .ub .ok := by
    intro fuel steps
    unfold cnf2ztdd2bdd
    rw [e1]
    rfl
  obtain ⟨⟨fuel, steps, r, er⟩, ha⟩ := C76_app hash nv cs h
  refine ⟨⟨fuel, steps, r, by rw [e2, er]; rfl⟩, ?_⟩
  intro fuel steps card f out eo
  rw [e2] at eo
  cases er : run hash nv cs fuel steps with
  | none => rw [er] at eo; cases eo
  | some r =>
    rw [er] at eo
    cases eo
    obtain ⟨a1, _, a3⟩ := ha fuel steps card f out er
    exact ⟨a1, a3⟩

/-! ## Examples -/

/-- the variable keeps its value -/
def keeps (last : Option Int) : Option Int := some (last.getD 0)

/-- a file with a remark and two clauses -/
def sample : List Char := "c x\np cnf 2 2\n1 -2 0\n2 0\n".toList

example : File [] sample 2 2 (numbers [[1, -2], [2]]) := by
  have d1 : Gz.Numeral ['1'] 1 := Gz.Numeral.single (by decide) (by decide)
  have d2 : Gz.Numeral ['2'] 2 := Gz.Numeral.single (by decide) (by decide)
  have d0 : Gz.Numeral ['0'] 0 := Gz.Numeral.single (by decide) (by decide)
  have b1 : Gz.Blank [' '] := by unfold Gz.Blank; decide
  have b2 : Gz.Blank ['\n'] := by unfold Gz.Blank; decide
  have bn : Gz.Blank [] := by unfold Gz.Blank; decide
  have nd : ∀ {c : Char} {r : List Char}, ¬ ('0' ≤ c ∧ c ≤ '9') → NoDigit (c :: r) := fun h c r' e => by cases e; exact h
  have n0 : NoDigit [] := fun c r' e => by cases e
  exact File.intro (r := "c x\n".toList) (h := "p cnf 2 2".toList) (b := "1 -2 0\n2 0\n".toList)
    (Remarks.line (l := "c x".toList) (t := []) (by decide) (fun r h => absurd (List.cons.inj h).1 (by decide)) .done)
    (Header.intro (s := [' ']) (s' := [' ']) (x := ['2']) (s'' := [' ']) (y := ['2']) (e := []) ⟨b1, by decide⟩ ⟨b1, by decide⟩ d2 ⟨b1, by decide⟩ (by simp) d2 (by simp) n0)
    (Nums.num (s := []) (x := ['1']) (r := " -2 0\n2 0\n".toList) bn (.pos d1) (nd (by decide))
      (Nums.num (s := [' ']) (x := ['-', '2']) (r := " 0\n2 0\n".toList) b1 (.neg d2) (nd (by decide))
        (Nums.num (s := [' ']) (x := ['0']) (r := "\n2 0\n".toList) b1 (.pos d0) (nd (by decide))
          (Nums.num (s := ['\n']) (x := ['2']) (r := " 0\n".toList) b2 (.pos d2) (nd (by decide))
            (Nums.num (s := [' ']) (x := ['0']) (r := "\n".toList) b1 (.pos d0) (nd (by decide))
              (Nums.done (s := ['\n']) b2))))))

example : Over 2 [[1, -2], [2]] := by decide

example : load keeps sample = .ok (2, [[2], [1, -2]]) := by decide +kernel

example : load (fun _ => none) sample = .ub := by decide +kernel

/-- the format of SATLIB -/
example : load (fun _ => none) "p cnf 3 2\n1 -3 0\n2 0\n%\n0\n".toList = .ok (3, [[2], [1, -3]]) := by decide +kernel

example : load keeps "p cnf 2 3\n1 -2 0\n2 0\n0\n".toList = .thrown .few ∧ load keeps "p cnf 2 1\n1 -2 0\n2 0\n".toList = .thrown .many ∧ load keeps "p cnf 2 1\n1 -3 0\n".toList = .thrown .range ∧
    load keeps "p cnf 2 1\n-2147483648 0\n".toList = .ub ∧ load keeps "c p cnf 2 1\n1 0\n".toList = .thrown .header ∧ load keeps "p cnf 0 1\n0\n".toList = .thrown .header := by decide +kernel

example : (match cnf2ztdd2bdd keeps (fun _ => 0) sample 20 20 with | .ok r => some (r.1, String.ofList r.2.2) | _ => none) = some ("2", "+1 +2\n") := by decide +kernel

end Cnf

end TdZdd
