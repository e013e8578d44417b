import Verif.Readers
import Verif.ReadersSpec
import Verif.GraphillionProofs

/-! Proofs about the readers of `Graph` -/

namespace TdZdd

namespace Rd

open Gz IStr

theorem space_ok {c : Char} (h : space c = true) : badChar c = false := by
  have := blank_iff.1 h
  simp only [List.mem_cons, List.not_mem_nil, or_false] at this
  rcases this with rfl | rfl | rfl | rfl | rfl | rfl <;> decide

theorem ink_space {c : Char} (h : ¬ Blank [c]) : space c = false := by
  cases hs : space c with
  | false => rfl
  | true => exact absurd (fun x hx => by rw [List.mem_singleton] at hx; subst hx; exact blank_iff.1 hs) h

theorem ascii_ok {c : Char} (h : c.toNat < 128) : badChar c = false := by
  unfold badChar
  rw [decide_eq_false (by omega), Bool.false_and]

/-! ### `readEdges` -/

/-- the state after the words `ts` of a line -/
def st (ts : List (List Char)) (es : List (List Char × List Char)) : ReSt := ⟨[], (ts[0]?).getD [], (ts[1]?).getD [], es⟩

/-- the end of a line with the words `ts` -/
def fin (ts : List (List Char)) (es : List (List Char × List Char)) : Res (List (List Char × List Char)) :=
  match ts with
  | [] => .ok es
  | [x, y] => .ok (es ++ [(x, y)])
  | _ => .thrown

theorem loop_word {w r : List Char} (hw1 : ∀ c ∈ w, ¬ Blank [c]) (hw2 : ∀ c ∈ w, c.toNat < 128) : ∀ {s : ReSt}, reLoop (w ++ r) s = reLoop r { s with v := s.v ++ w } := by
  induction w with
  | nil => intro s; rw [List.nil_append, List.append_nil]
  | cons c w ih =>
    intro s
    rw [List.cons_append, reLoop]
    unfold reChar
    rw [ascii_ok (hw2 c (List.mem_cons_self ..)), ink_space (hw1 c (List.mem_cons_self ..))]
    simp only [Bool.false_eq_true, if_false]
    show reLoop (w ++ r) _ = _
    rw [ih (fun x hx => hw1 x (List.mem_cons_of_mem _ hx)) (fun x hx => hw2 x (List.mem_cons_of_mem _ hx))]
    simp

theorem loop_blank {s r : List Char} (hs : Blank s) (hn : '\n' ∉ s) {ts : List (List Char)} {es : List (List Char × List Char)} : reLoop (s ++ r) (st ts es) = reLoop r (st ts es) := by
  induction s with
  | nil => rfl
  | cons c s ih =>
    rw [List.mem_cons, not_or] at hn
    have hc := hs.sp c (List.mem_cons_self ..)
    rw [List.cons_append, reLoop]
    unfold reChar reStore
    rw [space_ok hc, hc, if_neg Bool.false_ne_true, if_pos rfl, if_pos (show (st ts es).v = [] from rfl)]
    show (if c = '\n' then reNewline (st ts es) else .ok (st ts es)).bind _ = _
    rw [if_neg (fun h => hn.1 h.symm)]
    exact ih (fun x hx => hs x (List.mem_cons_of_mem _ hx)) hn.2

/-- white space ends a word -/
theorem loop_store {c : Char} {r w : List Char} (hc : space c = true) (hw : w ≠ []) {ts : List (List Char)} {es : List (List Char × List Char)} (hts : ∀ x ∈ ts, x ≠ []) :
    reLoop (c :: r) { st ts es with v := w } = if 2 ≤ ts.length then .thrown else reLoop (c :: r) (st (ts ++ [w]) es) := by
  have hch : ∀ s : ReSt, reLoop (c :: r) s = ((reStore s).bind fun s => if c = '\n' then reNewline s else .ok s).bind fun s => reLoop r s := by
    intro s
    rw [reLoop]
    unfold reChar
    rw [space_ok hc, hc, if_neg Bool.false_ne_true, if_pos rfl]
  rw [hch, hch]
  have e2 : reStore (st (ts ++ [w]) es) = .ok (st (ts ++ [w]) es) := by unfold reStore; rw [if_pos (show (st (ts ++ [w]) es).v = [] from rfl)]
  rw [e2]
  match ts, hts with
  | [], _ =>
    have : reStore { st [] es with v := w } = .ok (st ([] ++ [w]) es) := by unfold reStore; rw [if_neg hw]; rfl
    rw [this]
    rfl
  | [x], h =>
    have hx : x ≠ [] := h x (by simp)
    have : reStore { st [x] es with v := w } = .ok (st ([x] ++ [w]) es) := by
      unfold reStore
      rw [if_neg hw, if_neg (show ¬ (st [x] es).v1 = [] from hx)]
      rfl
    rw [this]
    rfl
  | x :: y :: ts, h =>
    have hx : x ≠ [] := h x (by simp)
    have hy : y ≠ [] := h y (by simp)
    have : reStore { st (x :: y :: ts) es with v := w } = .thrown := by
      unfold reStore
      rw [if_neg hw, if_neg (show ¬ (st (x :: y :: ts) es).v1 = [] from hx), if_neg (show ¬ (st (x :: y :: ts) es).v2 = [] from hy)]
    rw [this, if_pos (by simp)]
    rfl

theorem loop_newline {t : List Char} {ts : List (List Char)} {es : List (List Char × List Char)} (hts : ∀ x ∈ ts, x ≠ []) (hl : ts.length ≤ 2) :
    reLoop ('\n' :: t) (st ts es) = (fin ts es).bind fun es => reLoop t (st [] es) := by
  have hch : ∀ ts, reLoop ('\n' :: t) (st ts es) = (reNewline (st ts es)).bind fun s => reLoop t s := by
    intro ts
    rw [reLoop]
    rfl
  rw [hch]
  match ts, hts, hl with
  | [], _, _ => rfl
  | [x], h, _ =>
    have hx : x ≠ [] := h x (by simp)
    have : reNewline (st [x] es) = .thrown := by
      unfold reNewline
      rw [if_neg (fun h => h.2 rfl), if_pos (show (st [x] es).v1 ≠ [] from hx)]
    rw [this]
    rfl
  | [x, y], h, _ =>
    have hx : x ≠ [] := h x (by simp)
    have hy : y ≠ [] := h y (by simp)
    have : reNewline (st [x, y] es) = .ok (st [] (es ++ [(x, y)])) := by
      unfold reNewline
      rw [if_pos ⟨(show (st [x, y] es).v1 ≠ [] from hx), (show (st [x, y] es).v2 ≠ [] from hy)⟩]
      rfl
    rw [this]
    rfl

theorem fin_long {ts : List (List Char)} {es : List (List Char × List Char)} (h : 3 ≤ ts.length) : fin ts es = .thrown := by
  match ts, h with
  | _ :: _ :: _ :: _, _ => rfl

theorem loop_line {l : List Char} {ws : List (List Char)} (h : Words l ws) : ∀ {t : List Char} {ts : List (List Char)} {es : List (List Char × List Char)}, '\n' ∉ l → (∀ x ∈ ts, x ≠ []) → ts.length ≤ 2 →
    reLoop (l ++ '\n' :: t) (st ts es) = (fin (ts ++ ws) es).bind fun es => reLoop t (st [] es) := by
  induction h with
  | done hs =>
    intro t ts es hn hts hl
    rw [loop_blank hs hn, loop_newline hts hl, List.append_nil]
  | cons hs hw hc _ ih =>
    rename_i s w r ws _
    intro t ts es hn hts hl
    rw [List.mem_append, List.mem_append, not_or, not_or] at hn
    rw [List.append_assoc, loop_blank hs hn.1, List.append_assoc, loop_word hw.ink hw.ascii]
    have hcut : ∃ c r', r ++ '\n' :: t = c :: r' ∧ space c = true := by
      cases r with
      | nil => exact ⟨'\n', t, rfl, by decide⟩
      | cons c r => exact ⟨c, r ++ '\n' :: t, rfl, (hc c r rfl).sp c (by simp)⟩
    obtain ⟨c, r', e, hsp⟩ := hcut
    have hih := ih (t := t) (ts := ts ++ [w]) (es := es) hn.2.2
    rw [e] at hih ⊢
    show reLoop (c :: r') { st ts es with v := [] ++ w } = _
    rw [List.nil_append, loop_store hsp hw.ne hts]
    by_cases h2 : 2 ≤ ts.length
    · rw [if_pos h2, fin_long (by rw [List.length_append, List.length_cons]; omega)]
      rfl
    · rw [if_neg h2, hih ?_ ?_, List.append_assoc]
      · rfl
      · intro x hx
        rcases List.mem_append.1 hx with hx | hx
        · exact hts x hx
        · rw [List.mem_singleton] at hx; subst hx; exact hw.ne
      · rw [List.length_append]; simp; omega

/-- the lines one after the other -/
def finAll : List (List (List Char)) → List (List Char × List Char) → Res (List (List Char × List Char))
  | [], es => .ok es
  | ws :: wss, es => (fin ws es).bind fun es => finAll wss es

theorem readEdges_eq {ls : List (List Char × List (List Char))} : ∀ {es : List (List Char × List Char)}, (∀ p ∈ ls, '\n' ∉ p.1 ∧ Words p.1 p.2) →
    readEdges (unlines (ls.map (·.1))) es = finAll (ls.map (·.2)) es := by
  unfold readEdges
  induction ls with
  | nil =>
    intro es _
    rfl
  | cons p ls ih =>
    intro es h
    have hp := h p (List.mem_cons_self ..)
    show (reLoop (unlines (p.1 :: ls.map (·.1))) (st [] es)).bind _ = _
    have e : unlines (p.1 :: ls.map (·.1)) = p.1 ++ '\n' :: unlines (ls.map (·.1)) := by
      unfold unlines
      rw [List.flatMap_cons, List.append_assoc]
      rfl
    rw [e, loop_line hp.2 hp.1 (by simp) (by simp), List.nil_append]
    show _ = (fin p.2 es).bind fun es => finAll (ls.map (·.2)) es
    cases fin p.2 es with
    | thrown => rfl
    | ub => rfl
    | ok es' => exact ih fun q hq => h q (List.mem_cons_of_mem _ hq)

/-! ### `readAdjacencyList` and `readVertexGroups` -/

theorem nlSpaces_blank {s t : List Char} (hs : Blank s) : ∀ {n : Nat} {b : List Char}, nlSpaces n b (s ++ t) = nlSpaces (n + s.count '\n') (s.reverse ++ b) t := by
  induction s with
  | nil => intro n b; rfl
  | cons c s ih =>
    intro n b
    have hc := hs.sp c (List.mem_cons_self ..)
    rw [List.cons_append, nlSpaces, space_ok hc, hc, if_neg Bool.false_ne_true, if_pos rfl, ih fun x hx => hs x (List.mem_cons_of_mem _ hx)]
    rw [List.count_cons, List.reverse_cons, List.append_assoc]
    have : (if c = '\n' then n + 1 else n) + s.count '\n' = n + (s.count '\n' + if (c == '\n') = true then 1 else 0) := by
      by_cases h : c = '\n'
      · subst h; simp; omega
      · rw [if_neg h, if_neg (by simpa using h)]; omega
    rw [this]
    rfl

variable {α : Type} {f : α → Nat → Int → α}

theorem nlNum_blank {s t : List Char} (hs : Blank s) {n : Nat} {b : List Char} : nlNum n (at' b (s ++ t)) = nlNum (n + s.count '\n') (at' (s.reverse ++ b) t) := by
  unfold nlNum
  show (nlSpaces n b (s ++ t)).bind _ = (nlSpaces (n + s.count '\n') (s.reverse ++ b) t).bind _
  rw [nlSpaces_blank hs]

theorem nlLoop_blank {s t : List Char} (hs : Blank s) {fuel n : Nat} {b : List Char} {x : α} : nlLoop f fuel n (at' b (s ++ t)) x = nlLoop f fuel (n + s.count '\n') (at' (s.reverse ++ b) t) x := by
  cases fuel with
  | zero => rfl
  | succ fuel =>
    rw [nlLoop, nlLoop, if_neg Bool.false_ne_true, if_neg Bool.false_ne_true, nlNum_blank hs]

theorem nlLoop_end {fuel n : Nat} {b : List Char} {x : α} : nlLoop f (fuel + 1) n (at' b []) x = .ok x := rfl

theorem nlLoop_eof {fuel n : Nat} {b : List Char} {x : α} : nlLoop f (fuel + 1) n ⟨b, [], true, false⟩ x = .ok x := rfl

theorem num_int {b x r : List Char} {v : Int} (hx : Integer x v) (h1 : -2147483648 ≤ v) (h2 : v ≤ 2147483647) (hr : Cut r) :
    (∃ c x', x = c :: x' ∧ space c = false ∧ badChar c = false) ∧ ∃ b', num (-2147483648) 2147483647 (at' b (x ++ r)) = (some v, ⟨b', r, r.isEmpty, false⟩) := by
  have hnd : ∀ c r', r = c :: r' → digit c = false := by
    intro c r' e
    have hs := (hr c r' e).sp c (by simp)
    cases hd : digit c with
    | false => rfl
    | true => rw [digit_space hd] at hs; exact absurd hs (by decide)
  cases hx with
  | pos hn =>
    obtain ⟨g1, g2, g3⟩ := hn.spec
    refine ⟨?_, ?_⟩
    · cases x with
      | nil => exact absurd rfl g1
      | cons c x =>
        have hd := g2 c (List.mem_cons_self ..)
        refine ⟨c, x, rfl, digit_space hd, ascii_ok ?_⟩
        unfold digit at hd
        rw [Bool.and_eq_true, decide_eq_true_eq, decide_eq_true_eq] at hd
        omega
    · rw [← g3]
      exact num_pos_gen (s := []) (by simp) g1 g2 hnd (by omega) (by rw [g3]; exact h2)
  | neg hn =>
    obtain ⟨g1, g2, g3⟩ := hn.spec
    refine ⟨⟨'-', _, rfl, by decide, by decide⟩, ?_⟩
    rw [← g3]
    exact num_neg_gen (s := []) (by simp) g1 g2 hnd (by rw [g3]; exact h1) (by omega)

theorem nlLoop_int {fuel n : Nat} {b x r : List Char} {v : Int} {y : α} (hx : Integer x v) (h1 : -2147483648 ≤ v) (h2 : v ≤ 2147483647) (hr : Cut r) :
    ∃ b', nlLoop f (fuel + 1) n (at' b (x ++ r)) y = nlLoop f fuel n ⟨b', r, r.isEmpty, false⟩ (f y n v) := by
  obtain ⟨⟨c, x', rfl, hsp, hok⟩, b', e⟩ := num_int (b := b) hx h1 h2 hr
  refine ⟨b', ?_⟩
  rw [nlLoop, if_neg Bool.false_ne_true]
  have : nlNum n (at' b (c :: x' ++ r)) = .ok (n, some v, ⟨b', r, r.isEmpty, false⟩) := by
    unfold nlNum
    have e2 : nlSpaces n b (c :: x' ++ r) = .ok (n, b, c :: x' ++ r) := by
      rw [List.cons_append, nlSpaces, hok, hsp]
      rfl
    show (nlSpaces n b (c :: x' ++ r)).bind _ = _
    rw [e2]
    show (match num (-2147483648) 2147483647 (at' b (c :: x' ++ r)) with
      | (some v, s) => Res.ok (n, some v, s)
      | (none, _) => Res.ub) = _
    rw [e]
  rw [this]
  rfl

/-- a line that is followed by a new-line character -/
theorem nlLoop_line {l : List Char} {vs : List Int} (h : Ints l vs) : ∀ {fuel n : Nat} {b t : List Char} {x : α}, '\n' ∉ l → (∀ v ∈ vs, -2147483648 ≤ v ∧ v ≤ 2147483647) → (l ++ '\n' :: t).length + 1 ≤ fuel →
    ∃ fuel' b', t.length + 1 ≤ fuel' ∧ nlLoop f fuel n (at' b (l ++ '\n' :: t)) x = nlLoop f fuel' (n + 1) (at' b' t) (vs.foldl (fun x v => f x n v) x) := by
  induction h with
  | done hs =>
    rename_i s
    intro fuel n b t x hn _ hf
    have hs' : Blank (s ++ ['\n']) := by
      intro c hc
      rcases List.mem_append.1 hc with hc | hc
      · exact hs c hc
      · rw [List.mem_singleton] at hc; subst hc; decide
    refine ⟨fuel, (s ++ ['\n']).reverse ++ b, by simp only [List.length_append, List.length_cons] at hf; omega, ?_⟩
    have := nlLoop_blank (f := f) (t := t) hs' (fuel := fuel) (n := n) (b := b) (x := x)
    rw [List.append_assoc] at this
    rw [show s ++ '\n' :: t = s ++ (['\n'] ++ t) from rfl, this, List.count_append, List.count_eq_zero.2 hn]
    rfl
  | cons hs hx hc _ ih =>
    rename_i s y r v vs _
    intro fuel n b t x hn hv hf
    rw [List.mem_append, List.mem_append, not_or, not_or] at hn
    have h1 := hv v (List.mem_cons_self ..)
    have hy : 1 ≤ y.length := by
      obtain ⟨⟨c, x', rfl, _⟩, _⟩ := num_int (b := b) hx h1.1 h1.2 hc
      simp
    simp only [List.length_append, List.length_cons] at hf
    cases fuel with
    | zero => omega
    | succ fuel =>
      have hc' : Cut (r ++ '\n' :: t) := by
        cases r with
        | nil => intro c r' e; rw [List.nil_append] at e; injection e with e1 e2; subst e1; unfold Blank; decide
        | cons c r => intro c' r' e; rw [List.cons_append] at e; injection e with e1 e2; subst e1; exact hc c r rfl
      obtain ⟨b', e⟩ := nlLoop_int (f := f) (fuel := fuel) (n := n) (b := s.reverse ++ b) (y := x) hx h1.1 h1.2 hc'
      have hne : (r ++ '\n' :: t).isEmpty = false := by cases r <;> rfl
      rw [hne] at e
      obtain ⟨fuel', b'', hf', e'⟩ := ih (fuel := fuel) (n := n) (b := b') (t := t) (x := f x n v) hn.2.2 (fun w hw => hv w (List.mem_cons_of_mem _ hw))
        (by simp only [List.length_append, List.length_cons]; omega)
      refine ⟨fuel', b'', hf', ?_⟩
      rw [List.append_assoc, nlLoop_blank hs, List.count_eq_zero.2 hn.1, List.append_assoc, Nat.add_zero n, e, e']
      rfl

/-- a line at the end of the file -/
theorem nlLoop_last {l : List Char} {vs : List Int} (h : Ints l vs) : ∀ {fuel n : Nat} {b : List Char} {x : α}, '\n' ∉ l → (∀ v ∈ vs, -2147483648 ≤ v ∧ v ≤ 2147483647) → l.length + 1 ≤ fuel →
    nlLoop f fuel n (at' b l) x = .ok (vs.foldl (fun x v => f x n v) x) := by
  induction h with
  | done hs =>
    rename_i s
    intro fuel n b x hn _ hf
    have := nlLoop_blank (f := f) (t := []) hs (fuel := fuel) (n := n) (b := b) (x := x)
    rw [List.append_nil] at this
    rw [this]
    cases fuel with
    | zero => omega
    | succ fuel => rfl
  | cons hs hx hc hr ih =>
    rename_i s y r v vs
    intro fuel n b x hn hv hf
    rw [List.mem_append, List.mem_append, not_or, not_or] at hn
    have h1 := hv v (List.mem_cons_self ..)
    have hy : 1 ≤ y.length := by
      obtain ⟨⟨c, x', rfl, _⟩, _⟩ := num_int (b := b) hx h1.1 h1.2 hc
      simp
    simp only [List.length_append] at hf
    cases fuel with
    | zero => omega
    | succ fuel =>
      obtain ⟨b', e⟩ := nlLoop_int (f := f) (fuel := fuel) (n := n) (b := s.reverse ++ b) (y := x) hx h1.1 h1.2 hc
      rw [nlLoop_blank hs, List.count_eq_zero.2 hn.1, Nat.add_zero n, e]
      cases r with
      | nil =>
        cases hvs : vs with
        | nil =>
          cases fuel with
          | zero => simp only [List.length_nil] at hf; omega
          | succ fuel => rfl
        | cons w ws =>
          -- no number in an empty text
          subst hvs
          exfalso
          generalize he : ([] : List Char) = z at hr
          cases hr with
          | cons _ hx' _ _ =>
            have hw := hv w (by simp)
            obtain ⟨⟨c, x', rfl, _⟩, _⟩ := num_int (b := b) hx' hw.1 hw.2 ‹Cut _›
            have := congrArg List.length he
            simp at this
      | cons c r => exact ih hn.2.2 (fun w hw => hv w (List.mem_cons_of_mem _ hw)) (by simp only [List.length_cons] at hf ⊢; omega)

/-- the calls of `f` for the numbers of a file -/
def calls (f : α → Nat → Int → α) : Nat → List (List Int) → α → α
  | _, [], x => x
  | n, vs :: vss, x => calls f (n + 1) vss (vs.foldl (fun x v => f x n v) x)

theorem nlLoop_all {ls : List (List Char × List Int)} {l : List Char} {vs : List Int} (hl : '\n' ∉ l) (hvs : Ints l vs) (hv : ∀ v ∈ vs, -2147483648 ≤ v ∧ v ≤ 2147483647) :
    ∀ {fuel n : Nat} {b : List Char} {x : α}, (∀ p ∈ ls, '\n' ∉ p.1 ∧ Ints p.1 p.2 ∧ ∀ v ∈ p.2, -2147483648 ≤ v ∧ v ≤ 2147483647) → (unlines (ls.map (·.1)) ++ l).length + 1 ≤ fuel →
      nlLoop f fuel n (at' b (unlines (ls.map (·.1)) ++ l)) x = .ok (calls f n (ls.map (·.2) ++ [vs]) x) := by
  induction ls with
  | nil =>
    intro fuel n b x _ hf
    exact nlLoop_last hvs hl hv hf
  | cons p ls ih =>
    intro fuel n b x h hf
    have hp := h p (List.mem_cons_self ..)
    have e : unlines ((p :: ls).map (·.1)) ++ l = p.1 ++ '\n' :: (unlines (ls.map (·.1)) ++ l) := by
      unfold unlines
      rw [List.map_cons, List.flatMap_cons, List.append_assoc, List.append_assoc]
      rfl
    rw [e] at hf ⊢
    obtain ⟨fuel', b', hf', e'⟩ := nlLoop_line (f := f) hp.2.1 (n := n) (b := b) (x := x) hp.1 hp.2.2 hf
    rw [e', ih (fun q hq => h q (List.mem_cons_of_mem _ hq)) hf']
    rfl

end Rd

end TdZdd
