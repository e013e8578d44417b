import Verif.CnfRead
import Verif.CnfReadSpec
import Verif.GraphillionProofs
import Verif.CnfZtddProofs3

/-!
# The reader of the DIMACS format on well-formed texts
-/

namespace TdZdd

namespace Cnf

open IStr Gz

/-! ## Lines -/

theorem split_line {l t : List Char} (h : '\n' ∉ l) : (l ++ '\n' :: t).takeWhile (· ≠ '\n') = l ∧ (l ++ '\n' :: t).dropWhile (· ≠ '\n') = '\n' :: t := by
  induction l with
  | nil => exact ⟨by simp, by simp⟩
  | cons c l ih =>
    have h1 : c ≠ '\n' := fun e => h (e ▸ List.mem_cons_self)
    have h2 := ih fun g => h (List.mem_cons_of_mem _ g)
    have h3 : (decide (c ≠ '\n')) = true := decide_eq_true h1
    constructor
    · rw [List.cons_append, List.takeWhile_cons, if_pos h3, h2.1]
    · rw [List.cons_append, List.dropWhile_cons, if_pos h3, h2.2]

theorem getline_at {line b l t : List Char} (h : '\n' ∉ l) : ∃ b', getline line (at' b (l ++ '\n' :: t)) = (l, at' b' t) := by
  refine ⟨'\n' :: (l.reverse ++ b), ?_⟩
  unfold getline
  rw [if_neg (by exact Bool.false_ne_true)]
  dsimp only
  rw [(split_line h).1, (split_line h).2]

theorem cstr_app {a b : List Char} (h : ∀ c ∈ a, c ≠ '\x00') : cstr (a ++ b) = a ++ cstr b := by
  unfold cstr
  induction a with
  | nil => rfl
  | cons c a ih =>
    have : decide (c ≠ '\x00') = true := decide_eq_true (h c List.mem_cons_self)
    rw [List.cons_append, List.takeWhile_cons, if_pos this, ih fun d hd => h d (List.mem_cons_of_mem _ hd)]
    rfl

theorem cstr_head {l : List Char} {c : Char} {r : List Char} (h : cstr l = c :: r) : ∃ r', l = c :: r' := by
  unfold cstr at h
  cases l with
  | nil => cases h
  | cons d l =>
    rw [List.takeWhile_cons] at h
    split at h
    · cases h; exact ⟨l, rfl⟩
    · cases h

theorem scan_other {l : List Char} (h : ∀ r, l ≠ 'p' :: r) : scanHeader (cstr l) = [] := by
  unfold scanHeader
  have : scanWord ['p'] (cstr l) = none := by
    unfold scanWord
    rw [if_neg]
    intro g
    cases e : cstr l with
    | nil => rw [e] at g; cases g
    | cons c r =>
      rw [e] at g
      have hc : 'p' = c := by simpa using g
      obtain ⟨r', hr⟩ := cstr_head e
      exact h r' (by rw [hr, hc])
  rw [this]
  rfl

theorem dropSpace {s t : List Char} (hs : Blank s) (ht : ∀ c r, t = c :: r → space c = false) : (s ++ t).dropWhile space = t := by
  induction s with
  | nil =>
    cases t with
    | nil => rfl
    | cons c t => rw [List.nil_append, List.dropWhile_cons, if_neg (by rw [ht c t rfl]; exact Bool.false_ne_true)]
  | cons c s ih =>
    rw [List.cons_append, List.dropWhile_cons, if_pos (hs.sp c List.mem_cons_self), ih fun d hd => hs d (List.mem_cons_of_mem _ hd)]

theorem scanNum_at {s x r : List Char} {v : Nat} (hs : Blank s) (hx : Numeral x v) (hr : NoDigit r) : scanNum (s ++ (x ++ r)) = some ((v : Int), r) := by
  obtain ⟨h1, h2, h3⟩ := hx.spec
  cases x with
  | nil => exact absurd rfl h1
  | cons c x =>
    have hc := h2 c List.mem_cons_self
    have hd : (c :: x ++ r).dropWhile digit = r ∧ (c :: x ++ r).takeWhile digit = c :: x := by
      have := takeWhile_app (ds := c :: x) (r := r) h2 fun d r' e => by
        cases g : digit d with
        | false => rfl
        | true => exact absurd (digit_iff.1 g) (hr d r' e)
      exact ⟨this.2, this.1⟩
    have e : (s ++ (c :: x ++ r)).dropWhile space = c :: x ++ r := dropSpace hs fun d r' e => by
      rw [List.cons_append] at e
      cases e
      exact digit_space hc
    have n1 : c ≠ '-' := by rintro rfl; revert hc; decide
    have n2 : c ≠ '+' := by rintro rfl; revert hc; decide
    unfold scanNum
    rw [e]
    have q1 : ¬ (c :: x ++ r).head? = some '-' := by
      rw [List.cons_append, List.head?_cons]
      intro g; cases g; exact n1 rfl
    have q2 : ¬ (c :: x ++ r).head? = some '+' := by
      rw [List.cons_append, List.head?_cons]
      intro g; cases g; exact n2 rfl
    dsimp only
    have q3 : ¬ ((c :: x ++ r).head? = some '-' ∨ (c :: x ++ r).head? = some '+') := fun g => g.elim q1 q2
    simp only [if_neg q3, if_neg q1, hd.1, hd.2, h3]
    rw [if_neg (by simp)]

theorem blank_zero {s : List Char} (h : Blank s) : ∀ c ∈ s, c ≠ '\x00' := by
  intro c hc e
  have := h c hc
  rw [e] at this
  revert this
  decide

theorem numeral_zero {x : List Char} {v : Nat} (h : Numeral x v) : ∀ c ∈ x, c ≠ '\x00' := by
  intro c hc e
  have := h.spec.2.1 c hc
  rw [e] at this
  revert this
  decide

theorem noDigit_cstr {e : List Char} (h : NoDigit e) : NoDigit (cstr e) := by
  intro c r g
  obtain ⟨r', hr⟩ := cstr_head g
  exact h c r' hr

theorem noDigit_blank {s t : List Char} (h : Blank s) (hne : s ≠ []) : NoDigit (s ++ t) := by
  intro c r' e hd
  have := (stops_blank (t := t) h hne).nd c r' e
  rw [digit_iff.2 hd] at this
  cases this

theorem scan_header {h : List Char} {nv nc : Nat} (hh : Header h nv nc) : scanHeader (cstr h) = [(nv : Int), (nc : Int)] := by
  cases hh with
  | @intro s s' x s'' y e _ _ g1 g2 g3 g4 g5 g6 g7 g8 =>
    have e1 : cstr ('p' :: (s ++ ('c' :: 'n' :: 'f' :: (s' ++ (x ++ (s'' ++ (y ++ e))))))) = 'p' :: (s ++ ('c' :: 'n' :: 'f' :: (s' ++ (x ++ (s'' ++ (y ++ cstr e)))))) := by
      rw [show 'p' :: (s ++ ('c' :: 'n' :: 'f' :: (s' ++ (x ++ (s'' ++ (y ++ e)))))) = ['p'] ++ (s ++ (['c', 'n', 'f'] ++ (s' ++ (x ++ (s'' ++ (y ++ e)))))) from rfl]
      rw [cstr_app (by decide), cstr_app (blank_zero g1.1), cstr_app (by decide), cstr_app (blank_zero g2.1), cstr_app (numeral_zero g3), cstr_app (blank_zero g4.1), cstr_app (numeral_zero g6)]
      rfl
    rw [e1]
    have e2 : ∀ t : List Char, scanWord ['p'] ('p' :: t) = some t := fun t => by simp [scanWord]
    have e3 : ∀ t : List Char, scanWord ['c', 'n', 'f'] ('c' :: 'n' :: 'f' :: t) = some t := fun t => by simp [scanWord]
    have e4 : (s ++ ('c' :: 'n' :: 'f' :: (s' ++ (x ++ (s'' ++ (y ++ cstr e)))))).dropWhile space = 'c' :: 'n' :: 'f' :: (s' ++ (x ++ (s'' ++ (y ++ cstr e)))) := dropSpace g1.1 fun c r q => by cases q; rfl
    unfold scanHeader
    rw [e2, Option.bind_some, e4, e3, Option.bind_some, scanNum_at g2.1 g3 (noDigit_blank g4.1 g5), Option.elim_some, scanNum_at g4.1 g6 (noDigit_cstr g8), Option.elim_some]

theorem header_line {h : List Char} {nv nc : Nat} (hh : Header h nv nc) : '\n' ∉ h := by
  cases hh with
  | intro g1 g2 g3 g4 g5 g6 g7 g8 =>
    have nd : ∀ {x : List Char} {v : Nat}, Numeral x v → '\n' ∉ x := fun hx hm => by
      have := hx.spec.2.1 _ hm
      revert this
      decide
    intro hm
    simp only [List.mem_cons, List.mem_append] at hm
    rcases hm with q | q | q | q | q | q | q | q | q | q
    · revert q; decide
    · exact g1.2 q
    · revert q; decide
    · revert q; decide
    · revert q; decide
    · exact g2.2 q
    · exact nd g3 q
    · exact g4.2 q
    · exact nd g6 q
    · exact g7 q

/-- the first loop on a text that begins with remarks -/
theorem header_remarks {r : List Char} (hr : Remarks r) : ∀ {fuel : Nat} {line b t : List Char} {nv nc : Int}, r.length ≤ fuel →
    ∃ fuel' line' b', fuel ≤ fuel' + r.length ∧ fuel' ≤ fuel ∧ readHeader fuel line nv nc (at' b (r ++ t)) = readHeader fuel' line' nv nc (at' b' t) := by
  induction hr with
  | done => intro fuel line b t nv nc _; exact ⟨fuel, line, b, by simp, Nat.le_refl _, rfl⟩
  | @line l t' h1 h2 _ ih =>
    intro fuel line b t nv nc hf
    rw [List.length_append, List.length_cons] at hf
    match fuel, hf with
    | fuel + 1, hf =>
      obtain ⟨b1, e1⟩ := getline_at (line := line) (b := b) (t := t' ++ t) h1
      obtain ⟨f2, l2, b2, q1, q2, e2⟩ := ih (fuel := fuel) (line := l) (b := b1) (t := t) (nv := nv) (nc := nc) (by omega)
      refine ⟨f2, l2, b2, ?_, by omega, ?_⟩
      · rw [List.length_append, List.length_cons]; omega
      · rw [readHeader, if_neg (by exact Bool.false_ne_true), show (l ++ '\n' :: t') ++ t = l ++ '\n' :: (t' ++ t) by simp, e1]
        dsimp only
        rw [scan_other h2]
        exact e2

theorem header_at {r h t : List Char} {nv nc : Nat} (hr : Remarks r) (hh : Header h nv nc) (h1 : nv ≤ 2147483647) (h2 : nc ≤ 2147483647) {fuel : Nat} {line b : List Char} (hf : r.length < fuel) :
    ∃ b', readHeader fuel line 0 0 (at' b (r ++ (h ++ '\n' :: t))) = .ok ((nv : Int), (nc : Int), at' b' t) := by
  obtain ⟨f, l, b1, q1, q2, e⟩ := header_remarks hr (fuel := fuel) (line := line) (b := b) (t := h ++ '\n' :: t) (nv := 0) (nc := 0) (by omega)
  rw [e]
  match f, (show 0 < f by omega) with
  | f + 1, _ =>
    obtain ⟨b2, e2⟩ := getline_at (line := l) (b := b1) (t := t) (header_line hh)
    refine ⟨b2, ?_⟩
    rw [readHeader, if_neg (by exact Bool.false_ne_true), e2]
    dsimp only
    rw [scan_header hh]
    dsimp only
    rw [if_pos ⟨⟨by omega, by omega⟩, ⟨by omega, by omega⟩⟩]

/-! ## Clauses -/

/-- the second loop on numbers -/
def feed (nv nc : Int) : List Int → Clause → List Clause → Nat → Out (Clause × List Clause × Nat)
  | [], c, cnf, mm => .ok (c, cnf, mm)
  | x :: xs, c, cnf, mm =>
    if x = 0 then (if c = [] then feed nv nc xs [] cnf mm else feed nv nc xs [] (cnf ++ (tidy c).toList) (mm + 1))
    else if x = -2147483648 then .ub
    else if (x.natAbs : Int) > nv then .thrown .range
    else if (mm : Int) ≥ nc then .thrown .many
    else feed nv nc xs (c ++ [x]) cnf mm

theorem num_at {b s x r : List Char} {v : Int} (hs : Blank s) (hx : Integer x v) (h1 : -2147483648 ≤ v) (h2 : v ≤ 2147483647) (hr : NoDigit r) :
    ∃ b', num (-2147483648) 2147483647 (at' b (s ++ (x ++ r))) = (some v, ⟨b', r, r.isEmpty, false⟩) := by
  have hr' : ∀ c r', r = c :: r' → digit c = false := fun c r' e => by
    cases g : digit c with
    | false => rfl
    | true => exact absurd (digit_iff.1 g) (hr c r' e)
  cases hx with
  | pos hn =>
    obtain ⟨g1, g2, g3⟩ := hn.spec
    obtain ⟨b', e⟩ := num_pos_gen (b := b) (lo := -2147483648) (hi := 2147483647) hs.sp g1 g2 hr' (by omega) (by omega)
    exact ⟨b', by rw [e, g3]⟩
  | neg hn =>
    obtain ⟨g1, g2, g3⟩ := hn.spec
    obtain ⟨b', e⟩ := num_neg_gen (b := b) (lo := -2147483648) (hi := 2147483647) hs.sp g1 g2 hr' (by omega) (by omega)
    exact ⟨b', by rw [List.cons_append, e, g3]⟩

theorem integer_len {x : List Char} {v : Int} (h : Integer x v) : 0 < x.length := by
  cases h with
  | pos hn => exact List.length_pos_iff.2 hn.spec.1
  | neg hn => simp

/-- the second loop on a text with numbers -/
theorem clauses_nums {gar : Option Int → Option Int} {nv nc : Int} {e t : List Char} {xs : List Int} (h : Nums e t xs) :
    ∀ {fuel : Nat} {last : Option Int} {c : Clause} {cnf : List Clause} {mm : Nat} {b : List Char} {eo : Bool}, (eo = true → t = []) → t.length + 2 ≤ fuel → (∀ x ∈ xs, -2147483648 ≤ x ∧ x ≤ 2147483647) →
    ∃ fuel' b' s, ∃ eo' : Bool, 2 ≤ fuel' ∧ Blank s ∧ (eo' = true → s ++ e = []) ∧
      readClauses gar nv nc fuel last c cnf mm ⟨b, t, eo, false⟩ = (feed nv nc xs c cnf mm).bind fun r => readClauses gar nv nc fuel' (xs.getLast?.or last) r.1 r.2.1 r.2.2 ⟨b', s ++ e, eo', false⟩ := by
  induction h with
  | @done s hs =>
    intro fuel last c cnf mm b eo heo hf _
    refine ⟨fuel, b, s, eo, by omega, hs, heo, ?_⟩
    rfl
  | @num s x r v vs hs hx hr hn ih =>
    intro fuel last c cnf mm b eo heo hf hb
    have hlen := integer_len hx
    rw [List.length_append, List.length_append] at hf
    have he : eo = false := by
      cases eo with
      | false => rfl
      | true =>
        have := congrArg List.length (heo rfl)
        rw [List.length_append, List.length_append, List.length_nil] at this
        omega
    subst he
    have hv := hb v List.mem_cons_self
    obtain ⟨b1, e1⟩ := num_at (b := b) hs hx hv.1 hv.2 hr
    have hl : (v :: vs).getLast?.or last = vs.getLast?.or (some v) := by
      cases vs with
      | nil => rfl
      | cons w vs => rw [List.getLast?_cons_cons]; cases g : (w :: vs).getLast? with
        | none => exact absurd (List.getLast?_eq_none_iff.1 g) (by simp)
        | some y => rfl
    have ih' := fun c cnf mm => ih (fuel := fuel - 1) (last := some v) (c := c) (cnf := cnf) (mm := mm) (b := b1) (eo := r.isEmpty) (fun g => List.isEmpty_iff.1 g) (by omega) fun y hy => hb y (List.mem_cons_of_mem _ hy)
    match fuel, hf with
    | fuel + 1, hf =>
      rw [hl]
      have step : readClauses gar nv nc (fuel + 1) last c cnf mm ⟨b, s ++ (x ++ r), false, false⟩ =
          if v = 0 then (if c = [] then readClauses gar nv nc fuel (some v) [] cnf mm ⟨b1, r, r.isEmpty, false⟩ else readClauses gar nv nc fuel (some v) [] (cnf ++ (tidy c).toList) (mm + 1) ⟨b1, r, r.isEmpty, false⟩)
          else if v = -2147483648 then .ub else if (v.natAbs : Int) > nv then .thrown .range else if (mm : Int) ≥ nc then .thrown .many
          else readClauses gar nv nc fuel (some v) (c ++ [v]) cnf mm ⟨b1, r, r.isEmpty, false⟩ := by
        rw [readClauses, if_neg (by exact Bool.false_ne_true)]
        dsimp only
        rw [e1]
        rfl
      rw [step, feed]
      by_cases v0 : v = 0
      · rw [if_pos v0, if_pos v0]
        by_cases c0 : c = []
        · rw [if_pos c0, if_pos c0]; exact ih' _ _ _
        · rw [if_neg c0, if_neg c0]; exact ih' _ _ _
      · rw [if_neg v0, if_neg v0]
        by_cases v1 : v = -2147483648
        · rw [if_pos v1, if_pos v1]; exact ⟨2, [], [], false, Nat.le_refl _, fun _ h => absurd h List.not_mem_nil, fun h => absurd h (by decide), rfl⟩
        · rw [if_neg v1, if_neg v1]
          by_cases v2 : (v.natAbs : Int) > nv
          · rw [if_pos v2, if_pos v2]; exact ⟨2, [], [], false, Nat.le_refl _, fun _ h => absurd h List.not_mem_nil, fun h => absurd h (by decide), rfl⟩
          · rw [if_neg v2, if_neg v2]
            by_cases v3 : (mm : Int) ≥ nc
            · rw [if_pos v3, if_pos v3]; exact ⟨2, [], [], false, Nat.le_refl _, fun _ h => absurd h List.not_mem_nil, fun h => absurd h (by decide), rfl⟩
            · rw [if_neg v3, if_neg v3]; exact ih' _ _ _

/-- the end of the text -/
theorem clauses_end {gar : Option Int → Option Int} {nv nc : Int} {fuel : Nat} {last : Option Int} {c : Clause} {cnf : List Clause} {mm : Nat} {b s : List Char} {eo : Bool} (hs : Blank s) (heo : eo = true → s = []) (hf : 2 ≤ fuel) :
    readClauses gar nv nc fuel last c cnf mm ⟨b, s, eo, false⟩ = (gar last).elim .ub fun x =>
      if x = 0 then (if c = [] then .ok (cnf, mm) else .ok (cnf ++ (tidy c).toList, mm + 1))
      else if x = -2147483648 then .ub else if (x.natAbs : Int) > nv then .thrown .range else if (mm : Int) ≥ nc then .thrown .many else .ok (cnf, mm) := by
  have hn : ∃ s', num (-2147483648) 2147483647 ⟨b, s, eo, false⟩ = (none, s') ∧ s'.fail = true := by
    cases eo with
    | true => exact ⟨_, rfl, rfl⟩
    | false =>
      refine ⟨⟨s.reverse ++ b, [], true, true⟩, ?_, rfl⟩
      unfold num
      have := spaces_app (b := b) (t := []) hs.sp
      rw [List.append_nil] at this
      rw [this]
      rfl
  obtain ⟨s', e, hfail⟩ := hn
  match fuel, hf with
  | fuel + 2, _ =>
    have stop : ∀ l c cnf mm, readClauses gar nv nc (fuel + 1) l c cnf mm s' = .ok (cnf, mm) := fun l c cnf mm => by
      rw [readClauses, if_pos hfail]
    rw [readClauses, if_neg (by exact Bool.false_ne_true)]
    dsimp only
    rw [e]
    simp only [stop]
    rfl

theorem stop_num {e : List Char} (h : Stop e) {s b : List Char} (hs : Blank s) : ∃ s', num (-2147483648) 2147483647 (at' b (s ++ e)) = (some 0, s') ∧ s'.fail = true := by
  obtain ⟨c, r, rfl, h1, h2, h3, h4⟩ := h
  have hsp : space c = false := by
    cases g : space c with
    | false => rfl
    | true => exact absurd (fun d hd => by rw [List.mem_singleton] at hd; subst hd; exact blank_iff.1 g) h1
  have hd : ¬ digit c = true := fun g => h2 (digit_iff.1 g)
  have e1 : (c :: r).takeWhile digit = [] := by rw [List.takeWhile_cons, if_neg hd]
  have e2 : (c :: r).dropWhile digit = c :: r := by rw [List.dropWhile_cons, if_neg hd]
  unfold num
  rw [spaces_app hs.sp, spaces_stop hsp]
  have e3 : (decide (c = '-') || decide (c = '+')) = false := by rw [decide_eq_false h3, decide_eq_false h4]; rfl
  simp only [Bool.or_self, Bool.false_eq_true, ↓reduceIte, e3, e1, e2]
  exact ⟨_, rfl, rfl⟩

/-- the end of the numbers -/
theorem clauses_stop {gar : Option Int → Option Int} {nv nc : Int} {fuel : Nat} {last : Option Int} {c : Clause} {cnf : List Clause} {mm : Nat} {b s e : List Char} {eo : Bool} (hs : Blank s) (he : Stop e) (heo : eo = true → s ++ e = []) (hf : 2 ≤ fuel) :
    readClauses gar nv nc fuel last c cnf mm ⟨b, s ++ e, eo, false⟩ = if c = [] then .ok (cnf, mm) else .ok (cnf ++ (tidy c).toList, mm + 1) := by
  have h0 : eo = false := by
    cases eo with
    | false => rfl
    | true =>
      obtain ⟨c, r, rfl, _⟩ := he
      have := heo rfl
      simp at this
  subst h0
  obtain ⟨s', e1, hfail⟩ := stop_num he hs (b := b)
  match fuel, hf with
  | fuel + 2, _ =>
    have stop : ∀ l c cnf mm, readClauses gar nv nc (fuel + 1) l c cnf mm s' = .ok (cnf, mm) := fun l c cnf mm => by
      rw [readClauses, if_pos hfail]
    rw [readClauses, if_neg (by exact Bool.false_ne_true)]
    dsimp only
    rw [e1]
    simp only [stop]
    rfl

/-- numbers that are no zeros -/
theorem feed_lits {nv nc : Int} {ys : List Int} : ∀ {c : Clause} {xs : List Int} {cnf : List Clause} {mm : Nat}, (∀ x ∈ c, x ≠ 0 ∧ x ≠ -2147483648 ∧ (x.natAbs : Int) ≤ nv) → (mm : Int) < nc →
    feed nv nc (c ++ xs) ys cnf mm = feed nv nc xs (ys ++ c) cnf mm := by
  intro c
  induction c generalizing ys with
  | nil => intro xs cnf mm _ _; rw [List.append_nil]; rfl
  | cons x c ih =>
    intro xs cnf mm h hm
    obtain ⟨h1, h2, h3⟩ := h x List.mem_cons_self
    rw [List.cons_append, feed, if_neg h1, if_neg h2, if_neg (by omega), if_neg (by omega), ih (fun y hy => h y (List.mem_cons_of_mem _ hy)) hm, List.append_assoc]
    rfl

/-- the clauses that are not empty -/
def solid (cs : List Clause) : List Clause := cs.filter (· ≠ [])

theorem feed_clauses {nv nc : Int} : ∀ {cs : List Clause} {xs : List Int} {cnf : List Clause} {mm : Nat}, (∀ c ∈ cs, ∀ x ∈ c, x ≠ 0 ∧ x ≠ -2147483648 ∧ (x.natAbs : Int) ≤ nv) → ((mm + (solid cs).length : Nat) : Int) ≤ nc →
    feed nv nc (numbers cs ++ xs) [] cnf mm = feed nv nc xs [] (cnf ++ (solid cs).filterMap tidy) (mm + (solid cs).length) := by
  intro cs
  induction cs with
  | nil => intro xs cnf mm _ _; simp [numbers, solid]
  | cons c cs ih =>
    intro xs cnf mm h hm
    have h' := fun d hd => h d (List.mem_cons_of_mem _ hd)
    have e : numbers (c :: cs) ++ xs = c ++ (0 :: (numbers cs ++ xs)) := by simp [numbers]
    rw [e]
    by_cases c0 : c = []
    · subst c0
      have e2 : solid ([] :: cs) = solid cs := by simp [solid]
      rw [e2] at hm ⊢
      rw [List.nil_append, feed, if_pos rfl, if_pos rfl, ih h' hm]
    · have e2 : solid (c :: cs) = c :: solid cs := by simp [solid, c0]
      rw [e2] at hm ⊢
      rw [List.length_cons] at hm ⊢
      rw [feed_lits (h c List.mem_cons_self) (by omega), List.nil_append, feed, if_pos rfl, if_neg c0, ih h' (by omega)]
      have e3 : (cnf ++ (tidy c).toList) ++ (solid cs).filterMap tidy = cnf ++ (c :: solid cs).filterMap tidy := by
        rw [List.append_assoc]
        congr 1
        cases g : tidy c <;> simp [g]
      rw [e3]
      congr 1
      omega

end Cnf

end TdZdd
