import Verif.MessagesProofs2

/-! # Proofs about the messages: dots and rows of marks -/

namespace TdZdd

namespace Msg

/-- the dots after `begin` -/
def dotText : Nat → List Char
  | 0 => []
  | d + 1 => ' ' :: List.replicate (d + 1) '.'

/-- handler `u` has a line open, has made `k` of `n` steps and has written `d` dots since `st0` -/
structure Dotted (E : Env) (u n : Nat) (st0 : St) (k d : Nat) (st : St) : Prop where
  enabled : st.enabled = true
  user : st.lastUser = some u
  col : 0 < st.column
  total : (st.h u).totalSteps = n
  step : (st.h u).stepCount = k
  dot : (st.h u).dotCount = d
  stepping : (st.h u).stepping = false
  time : ∃ i, (st.h u).dotTime = E.time i
  out : st.out = st0.out ++ by' u (dotText d)
  name : (st.h u).name = (st0.h u).name
  line : (st.h u).beginLine = (st0.h u).beginLine
  lineno : st.lineno = st0.lineno
  level : st.indentLevel = st0.indentLevel

theorem set_same (st : St) (u : Nat) (f : Handler → Handler) : (st.set u f).h u = f (st.h u) := if_pos rfl

theorem dotText_succ (d : Nat) : dotText (d + 1) = dotText d ++ (if d = 0 then [' ', '.'] else ['.']) := by
  cases d with
  | zero => rfl
  | succ d =>
    rw [if_neg (by omega)]
    show ' ' :: List.replicate (d + 1 + 1) '.' = ' ' :: (List.replicate (d + 1) '.' ++ ['.'])
    rw [List.replicate_succ' (n := d + 1)]

theorem oneDot_dotted {E : Env} {u n k d : Nat} {st0 st : St} (h : Dotted E u n st0 k d st) : Dotted E u n st0 k (d + 1) (oneDot E u st) := by
  have key : ∃ t c, 0 < c ∧ t = (if d = 0 then [' ', '.'] else ['.']) ∧
      put u (if (st.h u).dotCount = 0 then put u st ' ' else st) '.' = { st with out := st.out ++ by' u t, column := c } := by
    by_cases hd : d = 0
    · have hd' : (st.h u).dotCount = 0 := by rw [h.dot, hd]; rfl
      refine ⟨[' ', '.'], st.column + 1 + 1, by have := h.col; omega, (if_pos hd).symm, ?_⟩
      rw [if_pos hd', put_plain h.enabled h.user h.col (by decide)]
      rw [put_plain (by exact h.enabled) (by exact h.user) (by show 0 < st.column + 1; have := h.col; omega) (by decide)]
      simp [by']
    · have hd' : ¬ (st.h u).dotCount = 0 := by rw [h.dot]; omega
      refine ⟨['.'], st.column + 1, by have := h.col; omega, (if_neg hd).symm, ?_⟩
      rw [if_neg hd', put_plain h.enabled h.user h.col (by decide)]
      simp [by']
  obtain ⟨t, c, hc, ht, e⟩ := key
  unfold oneDot
  dsimp only
  rw [e]
  have hu := set_same { st with out := st.out ++ by' u t, column := c } u fun x => { x with dotCount := x.dotCount + 1, dotTime := E.time st.tick }
  refine ⟨h.enabled, h.user, hc, ?_, ?_, ?_, ?_, ⟨st.tick, ?_⟩, ?_, ?_, ?_, h.lineno, h.level⟩
  · exact (congrArg Handler.totalSteps hu).trans h.total
  · exact (congrArg Handler.stepCount hu).trans h.step
  · refine (congrArg Handler.dotCount hu).trans ?_
    show (st.h u).dotCount + 1 = _
    rw [h.dot]; simp
  · exact (congrArg Handler.stepping hu).trans h.stepping
  · exact congrArg Handler.dotTime hu
  · show st.out ++ by' u t = _
    rw [h.out, dotText_succ, ht]; simp [by']
  · exact (congrArg Handler.name hu).trans h.name
  · exact (congrArg Handler.beginLine hu).trans h.line

/-- the number of dots after `k` of `n` steps: `10 * k / n`, rounded up -/
def dotsAt (n k : Nat) : Nat := (10 * k + n - 1) / n

theorem lt_dotsAt {n k d : Nat} (hn : 0 < n) : d < dotsAt n k ↔ d * n < 10 * k := by
  unfold dotsAt
  rw [← Nat.succ_le_iff, Nat.le_div_iff_mul_le hn, Nat.succ_mul]
  omega

theorem dots_dotted {E : Env} {u n k : Nat} {st0 : St} (hn : 0 < n) (hk : k ≤ n) (hb : 11 * n ≤ 2147483647) : ∀ (fuel d : Nat) {st : St},
    Dotted E u n st0 k d st → d ≤ dotsAt n k → dotsAt n k ≤ d + fuel → ∃ st', dots E u fuel st = some st' ∧ Dotted E u n st0 k (dotsAt n k) st' := by
  have hi : ∀ {d : Nat}, d ≤ dotsAt n k → int32 ((d : Int) * (n : Int)) = some ((d * n : Nat) : Int) ∧ int32 ((k : Int) * 10) = some ((10 * k : Nat) : Int) := by
    intro d hd
    have h1 : d * n < 10 * k + n := by
      by_cases h0 : d = 0
      · rw [h0, Nat.zero_mul]; omega
      · have := (lt_dotsAt (k := k) hn (d := d - 1)).1 (by omega)
        rw [Nat.sub_mul] at this
        have : n ≤ d * n := Nat.le_mul_of_pos_left n (by omega)
        omega
    have e1 : (d : Int) * (n : Int) = ((d * n : Nat) : Int) := (Int.natCast_mul d n).symm
    have e2 : (k : Int) * 10 = ((10 * k : Nat) : Int) := by omega
    unfold int32
    rw [e1, e2, if_pos (by omega), if_pos (by omega)]
    exact ⟨rfl, rfl⟩
  intro fuel
  induction fuel with
  | zero =>
    intro d st h h1 h2
    have e : d = dotsAt n k := by omega
    subst e
    refine ⟨st, ?_, h⟩
    unfold dots
    rw [h.total, h.dot, h.step, (hi h1).1, (hi h1).2]
    show (if _ < _ then _ else _) = _
    rw [if_neg (fun hlt => absurd ((lt_dotsAt (k := k) (d := dotsAt n k) hn).2 (by omega)) (Nat.lt_irrefl _))]
  | succ fuel ih =>
    intro d st h h1 h2
    unfold dots
    rw [h.total, h.dot, h.step, (hi h1).1, (hi h1).2]
    show ∃ st', (if _ < _ then _ else _) = _ ∧ _
    by_cases hlt : d < dotsAt n k
    · rw [if_pos (by have := (lt_dotsAt hn).1 hlt; omega)]
      exact ih (d + 1) (oneDot_dotted h) hlt (by omega)
    · have e : d = dotsAt n k := by omega
      subst e
      rw [if_neg (fun hlt' => hlt ((lt_dotsAt hn).2 (by omega)))]
      exact ⟨st, rfl, h⟩

theorem dotsAt_le {n k : Nat} (hn : 0 < n) : dotsAt n k ≤ 10 * k := by
  cases h : dotsAt n k with
  | zero => omega
  | succ d =>
    have := (lt_dotsAt (k := k) hn (d := d)).1 (by omega)
    have := Nat.le_mul_of_pos_right d hn
    omega

theorem dotsAt_mono {n k : Nat} (hn : 0 < n) : dotsAt n k ≤ dotsAt n (k + 1) := Nat.div_le_div_right (by omega)

theorem dotsAt_all {n : Nat} (hn : 0 < n) : dotsAt n n = 10 := by
  have h1 := (lt_dotsAt (k := n) hn (d := 9)).2 (by omega)
  have h2 : ¬ 10 < dotsAt n n := fun h => by have := (lt_dotsAt hn).1 h; omega
  omega

theorem step_dotted {E : Env} {u n k : Nat} {st0 st : St} {c : Char} (hn : 0 < n) (hk : k < n) (hb : 11 * n ≤ 2147483647) (ht : ∀ i j, E.time i ≤ E.time j + 4)
    (h : Dotted E u n st0 k (dotsAt n k) st) : ∃ st', step E st u c = some st' ∧ Dotted E u n st0 (k + 1) (dotsAt n (k + 1)) st' := by
  unfold step
  rw [if_neg (by rw [h.enabled]; exact fun h => nomatch h)]
  have h1 : startStepping E u st = st.used 1 := by
    unfold startStepping
    obtain ⟨i, hi⟩ := h.time
    rw [if_pos h.stepping, if_neg (by rw [hi]; have := ht st.tick i; omega)]
  rw [h1]
  dsimp only
  rw [if_neg (by show ¬ (st.h u).stepping = true; rw [h.stepping]; exact fun h => nomatch h)]
  have h2 : Dotted E u n st0 (k + 1) (dotsAt n k) (countStep u (st.used 1)) := by
    obtain ⟨i, hi⟩ := h.time
    have hu := set_same (st.used 1) u fun x => { x with stepCount := x.stepCount + 1 }
    refine ⟨h.enabled, h.user, h.col, ?_, ?_, ?_, ?_, ⟨i, ?_⟩, h.out, ?_, ?_, h.lineno, h.level⟩
    · exact (congrArg Handler.totalSteps hu).trans h.total
    · refine (congrArg Handler.stepCount hu).trans ?_
      show (st.h u).stepCount + 1 = _
      rw [h.step]; simp
    · exact (congrArg Handler.dotCount hu).trans h.dot
    · exact (congrArg Handler.stepping hu).trans h.stepping
    · exact (congrArg Handler.dotTime hu).trans hi
    · exact (congrArg Handler.name hu).trans h.name
    · exact (congrArg Handler.beginLine hu).trans h.line
  rw [h2.step]
  exact dots_dotted hn (by omega) hb _ _ h2 (dotsAt_mono hn) (by have := dotsAt_le (k := k + 1) hn; omega)

theorem steps_dotted {E : Env} {u n : Nat} {st0 : St} (hn : 0 < n) (hb : 11 * n ≤ 2147483647) (ht : ∀ i j, E.time i ≤ E.time j + 4) : ∀ (l : List Char) {k : Nat} {st : St},
    k + l.length ≤ n → Dotted E u n st0 k (dotsAt n k) st → ∃ st', run E st (l.map (.step u)) = some st' ∧ Dotted E u n st0 (k + l.length) (dotsAt n (k + l.length)) st'
  | [], k, st, _, h => ⟨st, rfl, h⟩
  | c :: l, k, st, hk, h => by
    rw [List.length_cons] at hk
    obtain ⟨s1, e1, h1⟩ := step_dotted (c := c) hn (by omega) hb ht h
    obtain ⟨s2, e2, h2⟩ := steps_dotted hn hb ht l (k := k + 1) (by omega) h1
    refine ⟨s2, ?_, by rw [List.length_cons, show k + (l.length + 1) = k + 1 + l.length from by omega]; exact h2⟩
    unfold run at e2 ⊢
    rw [List.map_cons, List.foldlM_cons]
    show (Msg.step E st u c).bind _ = _
    rw [e1]
    exact e2

theorem setSteps_dotted {E : Env} {u n : Nat} {st : St} (he : st.enabled = true) (hu : st.lastUser = some u) (hc : 0 < st.column) :
    Dotted E u n st 0 0 (setSteps E st u n) := by
  unfold setSteps
  rw [if_neg (by rw [he]; exact fun h => nomatch h)]
  have hx := set_same st u fun x => { x with totalSteps := n, stepCount := 0, dotCount := 0, dotTime := E.time st.tick, stepping := false }
  exact ⟨he, hu, hc, congrArg Handler.totalSteps hx, congrArg Handler.stepCount hx, congrArg Handler.dotCount hx, congrArg Handler.stepping hx,
    ⟨st.tick, congrArg Handler.dotTime hx⟩, by simp [dotText, by', St.used, St.set], (congrArg Handler.name hx).trans rfl, (congrArg Handler.beginLine hx).trans rfl, rfl, rfl⟩

/-! ### Definedness -/

/-- the counters of handler `u` after at most `k` of `n` steps -/
structure Count (u n k : Nat) (st : St) : Prop where
  total : (st.h u).totalSteps = n
  step0 : 0 ≤ (st.h u).stepCount
  step : (st.h u).stepCount ≤ k
  dot0 : 0 ≤ (st.h u).dotCount
  dot : (st.h u).dotCount * n < 10 * (st.h u).stepCount + n

theorem Count.congr {u n k : Nat} {st st' : St} (h : Count u n k st) (e : st'.h = st.h) : Count u n k st' := by
  obtain ⟨h1, h2, h3, h4, h5⟩ := h
  rw [← e] at h1 h2 h3 h4 h5
  exact ⟨h1, h2, h3, h4, h5⟩

theorem oneDot_count {E : Env} {u n k : Nat} {st : St} (h : Count u n k st) (hlt : (st.h u).dotCount * n < 10 * (st.h u).stepCount) :
    Count u n k (oneDot E u st) ∧ ((oneDot E u st).h u).dotCount = (st.h u).dotCount + 1 ∧ ((oneDot E u st).h u).stepCount = (st.h u).stepCount := by
  unfold oneDot
  dsimp only
  have hp : (put u (if (st.h u).dotCount = 0 then put u st ' ' else st) '.').h = st.h := by
    rw [(put_h u _ _).1]
    split
    · exact (put_h u _ _).1
    · rfl
  generalize put u (if (st.h u).dotCount = 0 then put u st ' ' else st) '.' = s at hp
  have hu : ((s.set u fun x => { x with dotCount := x.dotCount + 1, dotTime := E.time s.tick }).used 1).h u =
      { st.h u with dotCount := (st.h u).dotCount + 1, dotTime := E.time s.tick } := by
    rw [← hp]; exact set_same s u fun x => { x with dotCount := x.dotCount + 1, dotTime := E.time s.tick }
  generalize ((s.set u fun x => { x with dotCount := x.dotCount + 1, dotTime := E.time s.tick }).used 1) = s' at hu
  have h1 : (s'.h u).dotCount = (st.h u).dotCount + 1 := by rw [hu]
  have h2 : (s'.h u).stepCount = (st.h u).stepCount := by rw [hu]
  have h3 : (s'.h u).totalSteps = (st.h u).totalSteps := by rw [hu]
  refine ⟨⟨h3.trans h.total, by rw [h2]; exact h.step0, by rw [h2]; exact h.step, by rw [h1]; have := h.dot0; omega, ?_⟩, h1, h2⟩
  rw [h1, h2, Int.add_mul]
  omega

theorem dots_count {E : Env} {u n k : Nat} (hn : 0 < n) (hk : k ≤ n) (hb : 100 * n ≤ 2147483647) : ∀ (fuel : Nat) {st : St}, Count u n k st →
    10 * (st.h u).stepCount ≤ (st.h u).dotCount + fuel → ∃ st', dots E u fuel st = some st' ∧ Count u n k st' := by
  have hmul : ∀ {d : Int}, 0 ≤ d → d ≤ d * (n : Int) := by
    intro d hd
    have := Int.mul_le_mul_of_nonneg_left (show (1 : Int) ≤ (n : Int) by omega) hd
    omega
  have hi : ∀ {st : St}, Count u n k st → int32 ((st.h u).dotCount * (st.h u).totalSteps) = some ((st.h u).dotCount * n) ∧
      int32 ((st.h u).stepCount * 10) = some (10 * (st.h u).stepCount) := by
    intro st h
    have h1 := hmul h.dot0
    have h2 := h.dot
    have h3 := h.dot0
    have h4 := h.step
    have h5 := h.step0
    unfold int32
    rw [h.total, if_pos (by omega), if_pos (by omega), Int.mul_comm _ 10]
    exact ⟨rfl, rfl⟩
  intro fuel
  induction fuel with
  | zero =>
    intro st h hf
    refine ⟨st, ?_, h⟩
    unfold dots
    rw [(hi h).1, (hi h).2]
    show (if _ < _ then _ else _) = _
    have := hmul h.dot0
    rw [if_neg (by omega)]
  | succ fuel ih =>
    intro st h hf
    unfold dots
    rw [(hi h).1, (hi h).2]
    show ∃ st', (if _ < _ then _ else _) = _ ∧ _
    by_cases hlt : (st.h u).dotCount * n < 10 * (st.h u).stepCount
    · rw [if_pos hlt]
      obtain ⟨h1, h2, h3⟩ := oneDot_count (E := E) h hlt
      exact ih h1 (by rw [h2, h3]; omega)
    · rw [if_neg hlt]; exact ⟨st, rfl, h⟩

theorem countStep_count {u n k : Nat} {st : St} (h : Count u n k st) : Count u n (k + 1) (countStep u st) := by
  have hu : (countStep u st).h u = { st.h u with stepCount := (st.h u).stepCount + 1 } := set_same _ _ _
  have h1 := h.total; have h2 := h.step0; have h3 := h.step; have h4 := h.dot0; have h5 := h.dot
  refine ⟨?_, ?_, ?_, ?_, ?_⟩ <;> rw [hu]
  · exact h1
  · show 0 ≤ (st.h u).stepCount + 1; omega
  · show (st.h u).stepCount + 1 ≤ _; omega
  · exact h4
  · show (st.h u).dotCount * n < 10 * ((st.h u).stepCount + 1) + n; omega

theorem endRow_some {E : Env} {u : Nat} {st : St} (h0 : 0 ≤ (st.h u).stepCount) (h1 : (st.h u).stepCount * 100 ≤ 2147483647) (h2 : (st.h u).totalSteps ≠ 0) :
    ∃ st', endRow E u st = some st' := by
  unfold endRow
  have e : int32 ((st.h u).stepCount * 100) = some ((st.h u).stepCount * 100) := by
    unfold int32; rw [if_pos (by omega)]
  by_cases h : st.column - (st.h u).indent ≥ 50
  · rw [if_pos h, e, Option.bind_some, if_neg h2]; exact ⟨_, rfl⟩
  · rw [if_neg h]; exact ⟨_, rfl⟩

theorem step_count {E : Env} {u n k : Nat} {st : St} (hn : 0 < n) (hk : k < n) (hb : 100 * n ≤ 2147483647) (h : Count u n k st) (c : Char) :
    ∃ st', step E st u c = some st' ∧ Count u n (k + 1) st' := by
  have hup : ∀ {st}, Count u n k st → Count u n (k + 1) st := fun h => ⟨h.total, h.step0, by have := h.step; omega, h.dot0, h.dot⟩
  unfold step
  by_cases he : st.enabled = false
  · rw [if_pos he]; exact ⟨st, rfl, hup h⟩
  rw [if_neg he]
  have h1 : Count u n k (startStepping E u st) := by
    unfold startStepping
    split
    · split
      · have hu : ((put u (st.used 1) '\n').set u fun x => { x with stepping := true }).h u = { st.h u with stepping := true } := by
          refine (set_same _ _ _).trans ?_
          rw [(put_h u _ _).1]; rfl
        refine ⟨?_, ?_, ?_, ?_, ?_⟩ <;> rw [hu]
        · exact h.total
        · exact h.step0
        · exact h.step
        · exact h.dot0
        · exact h.dot
      · exact h.congr rfl
    · exact h
  generalize startStepping E u st = s1 at h1
  dsimp only
  split
  · have h2 : Count u n k (put u (redraw u s1) c) := by
      refine h1.congr ?_
      rw [(put_h u _ _).1]
      unfold redraw
      split
      · rw [(puts_h u _ _).1, (put_h u _ _).1]
      · rfl
    have h3 := countStep_count h2
    generalize countStep u (put u (redraw u s1) c) = s2 at h3
    have h4 := h3.step; have h5 := h3.step0
    obtain ⟨s3, e3⟩ := endRow_some (E := E) (u := u) (st := s2) (by omega) (by omega) (by rw [h3.total]; omega)
    refine ⟨s3, e3, h3.congr ?_⟩
    rcases endRow_cases e3 with rfl | ⟨p, t, rfl⟩
    · rfl
    · exact ((puts_h u t _).1).trans (puts_h u p _).1
  · have h3 := countStep_count h1
    refine dots_count hn (by omega) hb _ h3 ?_
    have := h3.dot0; have := h3.step0
    omega

theorem dots_zero {E : Env} {u : Nat} : ∀ (fuel : Nat) {st : St}, (st.h u).totalSteps = 0 → 0 < (st.h u).stepCount → dots E u fuel st = none
  | 0, st, h0, h1 => by
    unfold dots
    rw [h0, Int.mul_zero]
    show (int32 ((st.h u).stepCount * 10)).bind (fun b => if 0 < b then none else some st) = none
    unfold int32
    split
    · show (if 0 < _ then none else some st) = none
      rw [if_pos (by omega)]
    · rfl
  | fuel + 1, st, h0, h1 => by
    unfold dots
    rw [h0, Int.mul_zero]
    show (int32 ((st.h u).stepCount * 10)).bind (fun b => if 0 < b then dots E u fuel (oneDot E u st) else some st) = none
    unfold int32
    split
    · show (if 0 < _ then _ else some st) = none
      rw [if_pos (by omega)]
      have hp : (put u (if (st.h u).dotCount = 0 then put u st ' ' else st) '.').h = st.h := by
        rw [(put_h u _ _).1]
        split
        · exact (put_h u _ _).1
        · rfl
      have hu : ∃ d t, (oneDot E u st).h u = { st.h u with dotCount := d, dotTime := t } := by
        refine ⟨(st.h u).dotCount + 1, E.time (put u (if (st.h u).dotCount = 0 then put u st ' ' else st) '.').tick, ?_⟩
        unfold oneDot
        dsimp only
        generalize put u (if (st.h u).dotCount = 0 then put u st ' ' else st) '.' = s at hp
        rw [← hp]
        exact set_same s u fun x => { x with dotCount := x.dotCount + 1, dotTime := E.time s.tick }
      obtain ⟨d, t, hu⟩ := hu
      exact dots_zero fuel (by rw [hu]; exact h0) (by rw [hu]; exact h1)
    · rfl

end Msg

end TdZdd
