import Verif.MessagesProofs3

/-!
# Property C93: the messages
-/

namespace TdZdd

open Msg

/-- C93: while messages are switched off, no operation writes anything or changes the shared counters. -/
theorem C93_disabled {E : Env} {st st' : St} (h : st.enabled = false) {op : Op} (hop : ∀ f, op ≠ .showMessages f) (e : exec E st op = some st') :
    st'.out = st.out ∧ st'.lineno = st.lineno ∧ st'.column = st.column ∧ st'.indentLevel = st.indentLevel := by
  have hputs : ∀ (s : List Char) (u : Nat), puts u st s = st := by
    intro s u
    induction s with
    | nil => rfl
    | cons c s ih =>
      show puts u (put u st c) s = st
      have : put u st c = st := by unfold put; rw [if_pos h]
      rw [this]; exact ih
  have hfin : ∀ u m i, finish E st u m i = st := by intro u m i; unfold finish; rw [if_pos h]
  cases op with
  | construct u => cases e; exact ⟨rfl, rfl, rfl, rfl⟩
  | showMessages f => exact absurd rfl (hop f)
  | write u s => cases e; rw [hputs]; exact ⟨rfl, rfl, rfl, rfl⟩
  | start u s => cases e; unfold start; rw [if_pos h]; exact ⟨rfl, rfl, rfl, rfl⟩
  | setSteps u n => cases e; unfold setSteps; rw [if_pos h]; exact ⟨rfl, rfl, rfl, rfl⟩
  | step u d => simp only [exec, step, h, if_true, Option.some.injEq] at e; cases e; exact ⟨rfl, rfl, rfl, rfl⟩
  | finish u m i => cases e; rw [hfin]; exact ⟨rfl, rfl, rfl, rfl⟩
  | finishSize u n => cases e; unfold finishSize; rw [if_pos h]; exact ⟨rfl, rfl, rfl, rfl⟩
  | destruct u => cases e; unfold destruct; rw [hfin, ite_self]; exact ⟨rfl, rfl, rfl, rfl⟩

/-- C93: whatever the handlers do, the text consists of lines of single handlers: an even number of blanks, then a character that is no space; no line is empty.
`lineno` and `column` are the position. -/
theorem C93_layout {E : Env} {l : List Op} {st : St} (e : run E .init l = some st) :
    ∃ (ls : List (List (Nat × Char) × Nat)) (cur : List (Nat × Char)),
      st.out = ls.flatMap (fun x => x.1 ++ [(x.2, '\n')]) ++ cur ∧ (∀ x ∈ ls, ∃ v, LineOf v x.1) ∧ (cur = [] ∨ ∃ v, LineOf v cur) ∧
      st.lineno = 1 + ls.length ∧ st.column = cur.length := by
  obtain ⟨ls, cur, h⟩ := (run_ok l init_ok e).1
  exact ⟨ls, cur, h.out, h.done, h.last.imp_right fun ⟨v, _, hv⟩ => ⟨v, hv⟩, h.lineno, h.column⟩

/-- the states of programs that construct a handler only where no open handler is -/
inductive MsgReach (E : Env) : St → Prop
  | init : MsgReach E .init
  | step {st st' : St} {op : Op} : MsgReach E st → (∀ u, op = .construct u → (st.h u).name = []) → exec E st op = some st' → MsgReach E st'

/-- C93: the level of indentation is the number of handlers that have begun and not ended. -/
theorem C93_nesting {E : Env} {st : St} (h : MsgReach E st) :
    ∃ L : List Nat, L.Nodup ∧ (∀ u, u ∈ L ↔ (st.h u).name ≠ []) ∧ st.indentLevel = L.length := by
  induction h with
  | init => exact ⟨[], List.nodup_nil, fun u => ⟨fun h => (nomatch h), fun h => absurd rfl h⟩, rfl⟩
  | step _ hl e ih => exact exec_nest ih hl e

/-- C93: a handler that is destroyed while messages are switched off leaves the following messages indented. -/
theorem C93_leak (E : Env) : ∃ st, run E .init [.showMessages true, .construct 0, .start 0 "a".toList, .showMessages false, .destruct 0, .showMessages true] = some st ∧
    st.indentLevel = 1 := ⟨_, rfl, rfl⟩

/-- the text of the stream -/
def textOf (st : St) : List Char := st.out.map (·.2)

namespace Msg

theorem text_by (u : Nat) (s : List Char) : (by' u s).map (·.2) = s := by
  unfold by'
  rw [List.map_map]
  exact List.map_id' _

/-- a newline, if a line is open -/
def brk (st : St) : List Char := if st.column ≠ 0 then ['\n'] else []

theorem newline_text (u : Nat) (st : St) : textOf (newline u st) = textOf st ++ brk st := by
  unfold newline textOf brk
  by_cases h : st.column = 0 <;> simp [h]

/-- what holds after `begin` -/
structure Begun (u : Nat) (s : List Char) (lev : Int) (st : St) : Prop where
  enabled : st.enabled = true
  user : st.lastUser = some u
  col : 0 < st.column
  name : (st.h u).name = s
  line : (st.h u).beginLine = st.lineno
  level : st.indentLevel = lev

theorem startNew_text {E : Env} {st : St} {u : Nat} {c : Char} {t : List Char} (he : st.enabled = true) (hc : isSpace c.toUpper = false) (ht : '\n' ∉ t) :
    textOf (startNew E st u (c :: t)) = textOf st ++ brk st ++ List.replicate (st.indentLevel * 2).toNat ' ' ++ c.toUpper :: t ∧
    Begun u (c :: t) (st.indentLevel + 1) (startNew E st u (c :: t)) := by
  unfold startNew
  dsimp only
  rw [if_neg (List.cons_ne_nil c t)]
  generalize hs1 : (st.set u fun x => { x with name := c :: t, indent := st.indentLevel * 2 }) = s1
  have hx : s1.h u = { st.h u with name := c :: t, indent := st.indentLevel * 2 } := by rw [← hs1]; exact set_same _ _ _
  have h1 : s1.enabled = true := by rw [← hs1]; exact he
  have h2 : textOf s1 = textOf st := by rw [← hs1]; rfl
  have h3 : brk s1 = brk st := by rw [← hs1]; rfl
  have h4 : s1.indentLevel = st.indentLevel := by rw [← hs1]; rfl
  have hn : capitalize (s1.h u).name = c.toUpper :: t := by rw [hx]; rfl
  rw [hn]
  have e : puts u s1 ('\n' :: c.toUpper :: t) = puts u (newline u s1) (c.toUpper :: t) := by
    show puts u (put u s1 '\n') _ = _
    rw [put_newline h1]
  rw [e, puts_first (st := newline u s1) h1 rfl rfl hc ht]
  generalize hs2 : ({ newline u s1 with
    out := (newline u s1).out ++ by' u (List.replicate ((newline u s1).h u).indent.toNat ' ' ++ c.toUpper :: t),
    column := (((newline u s1).h u).indent.toNat : Int) + 1 + t.length } : St) = s2
  have g1 : s2.enabled = true := by rw [← hs2]; exact h1
  have g2 : s2.lastUser = some u := by rw [← hs2]; rfl
  have g3 : 0 < s2.column := by rw [← hs2]; show (0 : Int) < (((newline u s1).h u).indent.toNat : Int) + 1 + t.length; omega
  have g4 : s2.h u = s1.h u := by rw [← hs2]; rfl
  have g5 : s2.indentLevel = st.indentLevel := by rw [← hs2]; exact h4
  have g6 : textOf s2 = textOf st ++ brk st ++ List.replicate (st.indentLevel * 2).toNat ' ' ++ c.toUpper :: t := by
    rw [← hs2]
    show List.map _ (_ ++ _) = _
    rw [List.map_append, text_by]
    show textOf (newline u s1) ++ _ = _
    rw [newline_text, h2, h3]
    show _ ++ (List.replicate (s1.h u).indent.toNat ' ' ++ _) = _
    rw [hx]
    simp
  unfold setSteps
  rw [if_neg (by show ¬ s2.enabled = false; rw [g1]; exact fun h => nomatch h)]
  have hy : ((s2.nest 1).set u fun x => { x with indent := (s2.nest 1).indentLevel * 2, beginLine := (s2.nest 1).lineno }).h u =
      { s2.h u with indent := (s2.nest 1).indentLevel * 2, beginLine := s2.lineno } := set_same _ _ _
  generalize hs3 : ((s2.nest 1).set u fun x => { x with indent := (s2.nest 1).indentLevel * 2, beginLine := (s2.nest 1).lineno }) = s3 at hy
  have hz := set_same s3 u fun x => { x with totalSteps := 10, stepCount := 0, dotCount := 0, dotTime := E.time s3.tick, stepping := false }
  refine ⟨?_, ?_, ?_, ?_, ?_, ?_, ?_⟩
  · show textOf s3 = _
    rw [← hs3]; exact g6
  · show s3.enabled = true
    rw [← hs3]; exact g1
  · show s3.lastUser = _
    rw [← hs3]; exact g2
  · show 0 < s3.column
    rw [← hs3]; exact g3
  · refine (congrArg Handler.name hz).trans ?_
    show (s3.h u).name = _
    rw [hy, g4, hx]
  · refine (congrArg Handler.beginLine hz).trans ?_
    show (s3.h u).beginLine = s3.lineno
    rw [hy, ← hs3]; rfl
  · show s3.indentLevel = _
    rw [← hs3]
    show s2.indentLevel + 1 = _
    rw [g5]

theorem puts_line {u : Nat} {st : St} {s : List Char} (he : st.enabled = true) (hu : st.lastUser = some u) (hc : 0 < st.column) (hn : '\n' ∉ s) :
    textOf (puts u st s) = textOf st ++ s ∧ (puts u st s).lastUser = some u ∧ 0 < (puts u st s).column ∧ (puts u st s).enabled = true ∧ (puts u st s).lineno = st.lineno := by
  rw [puts_plain he hu hc hn]
  refine ⟨?_, hu, ?_, he, rfl⟩
  · show List.map _ (_ ++ _) = _
    rw [List.map_append, text_by]; rfl
  · show 0 < st.column + (s.length : Int); omega

theorem puts_last {u : Nat} {st : St} {s : List Char} (he : st.enabled = true) (hu : st.lastUser = some u) (hc : 0 < st.column) (hn : '\n' ∉ s) :
    textOf (puts u st (s ++ ['\n'])) = textOf st ++ s ++ ['\n'] ∧ (puts u st (s ++ ['\n'])).column = 0 ∧ (puts u st (s ++ ['\n'])).lineno = st.lineno + 1 := by
  obtain ⟨h1, h2, h3, h4, h5⟩ := puts_line he hu hc hn
  rw [puts_append]
  generalize puts u st s = s1 at *
  show textOf (put u s1 '\n') = _ ∧ (put u s1 '\n').column = 0 ∧ (put u s1 '\n').lineno = _
  rw [put_newline h4]
  refine ⟨?_, rfl, ?_⟩
  · rw [newline_text, h1]
    unfold brk
    rw [if_pos (by omega)]
  · unfold newline
    rw [decide_eq_true (p := s1.column ≠ 0) (by omega)]
    show s1.lineno + 1 = _
    rw [h5]

/-- what `end` says about the result in the line of `begin` -/
def shortInfo (msg info : List Char) : List Char := if info ≠ [] then ' ' :: info else if msg = [] then " done".toList else ' ' :: msg

/-- what `end` says in a line of its own -/
def longInfo (name msg : List Char) : List Char := if msg = [] then "Done ".toList ++ name else capitalize msg

end Msg

/-- C93: `begin` starts a new line, indented by two blanks for each open handler, with the name. -/
theorem C93_begin {E : Env} {st : St} {u : Nat} {c : Char} {t : List Char} (he : st.enabled = true) (hn : (st.h u).name = []) (hc : isSpace c.toUpper = false) (ht : '\n' ∉ t) :
    textOf (start E st u (c :: t)) = textOf st ++ brk st ++ List.replicate (st.indentLevel * 2).toNat ' ' ++ c.toUpper :: t ∧
    (start E st u (c :: t)).indentLevel = st.indentLevel + 1 ∧ ((start E st u (c :: t)).h u).name = c :: t := by
  unfold start
  rw [if_neg (by rw [he]; exact fun h => nomatch h), if_neg (fun h => h hn)]
  have := startNew_text (E := E) (u := u) he hc ht
  exact ⟨this.1, this.2.level, this.2.name⟩

/-- C93: `end` in the line of `begin` completes this line. -/
theorem C93_end_line {E : Env} {st : St} {u : Nat} {msg info : List Char} (he : st.enabled = true) (hn : (st.h u).name ≠ []) (hl : (st.h u).beginLine = st.lineno)
    (hu : st.lastUser = some u) (hc : 0 < st.column) (h1 : '\n' ∉ msg) (h2 : '\n' ∉ info) (h3 : '\n' ∉ E.usage st.tick) :
    textOf (finish E st u msg info) = textOf st ++ shortInfo msg info ++ " in ".toList ++ E.usage st.tick ++ ".\n".toList ∧
    (finish E st u msg info).column = 0 ∧ (finish E st u msg info).indentLevel = st.indentLevel - 1 ∧ ((finish E st u msg info).h u).name = [] := by
  have hs : '\n' ∉ shortInfo msg info := by
    unfold shortInfo
    split
    · intro h; rcases List.mem_cons.1 h with h | h
      · cases h
      · exact h2 h
    · split
      · decide
      · intro h; rcases List.mem_cons.1 h with h | h
        · cases h
        · exact h1 h
  have hin : '\n' ∉ " in ".toList ++ E.usage st.tick ++ ['.'] := by
    intro h
    rcases List.mem_append.1 h with h | h
    · rcases List.mem_append.1 h with h | h
      · exact absurd h (by decide)
      · exact h3 h
    · exact absurd h (by decide)
  obtain ⟨a1, a2, a3, a4, a5⟩ := puts_line (u := u) (st := st.used 1) he hu hc hs
  obtain ⟨b1, b2, b3⟩ := puts_last a4 a2 a3 hin
  have hname := finish_name (E := E) (msg := msg) (info := info) he hn u
  refine ⟨?_, ?_, hname.2, by rw [hname.1, if_pos rfl]⟩
  · unfold finish
    rw [if_neg (by rw [he]; exact fun h => nomatch h), if_neg hn]
    dsimp only
    rw [if_pos hl]
    show textOf (puts u (puts u (st.used 1) (shortInfo msg info)) (" in ".toList ++ E.usage st.tick ++ ".\n".toList)) = _
    have e : " in ".toList ++ E.usage st.tick ++ ".\n".toList = " in ".toList ++ E.usage st.tick ++ ['.'] ++ ['\n'] := by
      rw [List.append_assoc _ ['.']]; rfl
    rw [e, b1, a1]
    show textOf st ++ _ ++ _ ++ _ = _
    simp [List.append_assoc]
  · unfold finish
    rw [if_neg (by rw [he]; exact fun h => nomatch h), if_neg hn]
    dsimp only
    rw [if_pos hl]
    show (puts u (puts u (st.used 1) (shortInfo msg info)) (" in ".toList ++ E.usage st.tick ++ ".\n".toList)).column = _
    have e : " in ".toList ++ E.usage st.tick ++ ".\n".toList = " in ".toList ++ E.usage st.tick ++ ['.'] ++ ['\n'] := by
      rw [List.append_assoc _ ['.']]; rfl
    rw [e, b2]

/-- C93: `end` after other lines writes a line of its own, with the indentation of the line of `begin`. -/
theorem C93_end_block {E : Env} {st : St} {u : Nat} {msg info : List Char} (he : st.enabled = true) (hn : (st.h u).name ≠ []) (hl : (st.h u).beginLine ≠ st.lineno)
    (hm : ∀ c t, msg = c :: t → isSpace c.toUpper = false ∧ '\n' ∉ t) (h1 : '\n' ∉ (st.h u).name) (h2 : '\n' ∉ info) (h3 : '\n' ∉ E.usage st.tick) :
    textOf (finish E st u msg info) = textOf st ++ brk st ++ List.replicate ((st.indentLevel - 1) * 2).toNat ' ' ++ longInfo (st.h u).name msg ++
      (if info ≠ [] then ' ' :: info else []) ++ " in ".toList ++ E.usage st.tick ++ ".\n".toList ∧
    (finish E st u msg info).column = 0 ∧ (finish E st u msg info).indentLevel = st.indentLevel - 1 ∧ ((finish E st u msg info).h u).name = [] := by
  have hlong : ∃ c t, longInfo (st.h u).name msg = c :: t ∧ isSpace c = false ∧ '\n' ∉ t := by
    unfold longInfo
    cases msg with
    | nil =>
      refine ⟨'D', "one ".toList ++ (st.h u).name, rfl, rfl, fun h => ?_⟩
      rcases List.mem_append.1 h with h | h
      · exact absurd h (by decide)
      · exact h1 h
    | cons c t => exact ⟨c.toUpper, t, rfl, (hm c t rfl).1, (hm c t rfl).2⟩
  obtain ⟨c, t, e0, hc, ht⟩ := hlong
  have hin : '\n' ∉ (if info ≠ [] then ' ' :: info else []) ++ " in ".toList ++ E.usage st.tick ++ ['.'] := by
    intro h
    rcases List.mem_append.1 h with h | h
    · rcases List.mem_append.1 h with h | h
      · rcases List.mem_append.1 h with h | h
        · split at h
          · rcases List.mem_cons.1 h with h | h
            · cases h
            · exact h2 h
          · cases h
        · exact absurd h (by decide)
      · exact h3 h
    · exact absurd h (by decide)
  generalize hs1 : outdent (st.used 1) u = s1
  have hx : (s1.h u).indent = (st.indentLevel - 1) * 2 := by rw [← hs1]; exact congrArg Handler.indent (set_same _ _ _)
  have g1 : s1.enabled = true := by rw [← hs1]; exact he
  have g2 : textOf s1 = textOf st := by rw [← hs1]; rfl
  have g3 : brk s1 = brk st := by rw [← hs1]; rfl
  have e1 : puts u s1 ('\n' :: c :: t) = puts u (newline u s1) (c :: t) := by
    show puts u (put u s1 '\n') _ = _
    rw [put_newline g1]
  rw [puts_first (st := newline u s1) g1 rfl rfl hc ht] at e1
  generalize hs2 : ({ newline u s1 with
    out := (newline u s1).out ++ by' u (List.replicate ((newline u s1).h u).indent.toNat ' ' ++ c :: t),
    column := (((newline u s1).h u).indent.toNat : Int) + 1 + t.length } : St) = s2 at e1
  have k1 : s2.enabled = true := by rw [← hs2]; exact g1
  have k2 : s2.lastUser = some u := by rw [← hs2]; rfl
  have k3 : 0 < s2.column := by rw [← hs2]; show (0 : Int) < (((newline u s1).h u).indent.toNat : Int) + 1 + t.length; omega
  have k4 : textOf s2 = textOf st ++ brk st ++ List.replicate ((st.indentLevel - 1) * 2).toNat ' ' ++ c :: t := by
    rw [← hs2]
    show List.map _ (_ ++ _) = _
    rw [List.map_append, text_by]
    show textOf (newline u s1) ++ _ = _
    rw [newline_text, g2, g3]
    show _ ++ (List.replicate (s1.h u).indent.toNat ' ' ++ _) = _
    rw [hx]
    simp
  obtain ⟨b1, b2, b3⟩ := puts_last k1 k2 k3 hin
  have hname := finish_name (E := E) (msg := msg) (info := info) he hn u
  have hfin : finish E st u msg info =
      (puts u s2 ((if info ≠ [] then ' ' :: info else []) ++ " in ".toList ++ E.usage st.tick ++ ['.'] ++ ['\n'])).set u fun x => { x with name := [] } := by
    unfold finish
    rw [if_neg (by rw [he]; exact fun h => nomatch h), if_neg hn]
    dsimp only
    rw [if_neg hl]
    refine congrArg (fun s : St => s.set u fun x => { x with name := [] }) ?_
    unfold finishBlock
    dsimp only
    have e2 : (if msg = [] then "\nDone ".toList ++ ((st.used 1).h u).name else '\n' :: capitalize msg) = '\n' :: c :: t := by
      rw [← e0]
      unfold longInfo
      split
      · rfl
      · rfl
    rw [e2, hs1, e1]
    have e3 : ∀ s : St, puts u s [] = s := fun _ => rfl
    have e4 : " in ".toList ++ E.usage st.tick ++ ".\n".toList = " in ".toList ++ E.usage st.tick ++ ['.'] ++ ['\n'] := by
      rw [List.append_assoc _ ['.']]; rfl
    rw [e4]
    by_cases hi : info ≠ []
    · rw [if_pos hi, if_pos hi, ← puts_append]
      simp [List.append_assoc]
    · rw [if_neg hi, if_neg hi]
      simp [List.append_assoc]
  refine ⟨?_, ?_, hname.2, by rw [hname.1, if_pos rfl]⟩
  · rw [hfin]
    show textOf (puts u s2 _) = _
    rw [b1, k4, e0]
    have e4 : ".\n".toList = ['.'] ++ ['\n'] := rfl
    rw [e4]
    simp only [List.append_assoc]
  · rw [hfin]
    exact b2

/-- C93: after `k` of `n` steps without longer pauses there are `10 * k / n` dots, rounded up; after all steps there are ten. -/
theorem C93_dots {E : Env} {u n : Nat} {st : St} (hn : 0 < n) (hb : 11 * n ≤ 2147483647) (ht : ∀ i j, E.time i ≤ E.time j + 4)
    (he : st.enabled = true) (hu : st.lastUser = some u) (hc : 0 < st.column) {l : List Char} (hl : l.length ≤ n) :
    ∃ st' d, run E (setSteps E st u n) (l.map (.step u)) = some st' ∧ textOf st' = textOf st ++ dotText d ∧
      10 * l.length ≤ d * n ∧ d * n < 10 * l.length + n ∧ (l.length = n → d = 10) := by
  obtain ⟨st', e, h⟩ := steps_dotted (E := E) (u := u) (n := n) (st0 := st) hn hb ht l (k := 0) (by omega)
    (by rw [show dotsAt n 0 = 0 from Nat.div_eq_of_lt (by omega)]; exact setSteps_dotted he hu hc)
  rw [Nat.zero_add] at h
  refine ⟨st', dotsAt n l.length, e, ?_, ?_, ?_, fun hl => by rw [hl, dotsAt_all hn]⟩
  · show List.map _ st'.out = _
    rw [h.out, List.map_append, text_by]; rfl
  · exact Nat.le_of_not_lt fun h => absurd ((lt_dotsAt hn).2 h) (Nat.lt_irrefl _)
  · cases hd : dotsAt n l.length with
    | zero => rw [Nat.zero_mul]; omega
    | succ d =>
      have := (lt_dotsAt (k := l.length) hn (d := d)).1 (by omega)
      rw [Nat.succ_mul]; omega

theorem Msg.newline_digits (m : Nat) : '\n' ∉ digits m := by
  intro h
  unfold digits at h
  rw [show toString ((m : Nat) : Int) = m.repr from rfl, Nat.toList_repr] at h
  exact absurd (Nat.isDigit_of_mem_toDigits (by decide) (by decide) h) (by decide)

/-- C93: the messages of one operation of `DdStructure` (`begin`, `setSteps(n)`, `n` steps, `end(size)`) without longer pauses are one line. -/
theorem C93_line {E : Env} {st : St} {u n m : Nat} {c : Char} {t : List Char} (he : st.enabled = true) (hnm : (st.h u).name = []) (hc : isSpace c.toUpper = false) (htn : '\n' ∉ t)
    (hn : 0 < n) (hb : 11 * n ≤ 2147483647) (ht : ∀ i j, E.time i ≤ E.time j + 4) (hus : ∀ i, '\n' ∉ E.usage i) {l : List Char} (hl : l.length = n) :
    ∃ st' k, run E st ([.start u (c :: t), .setSteps u n] ++ l.map (.step u) ++ [.finishSize u m]) = some st' ∧
      textOf st' = textOf st ++ brk st ++ List.replicate (st.indentLevel * 2).toNat ' ' ++ c.toUpper :: t ++ " .......... <".toList ++ digits m ++ "> in ".toList ++
        E.usage k ++ ".\n".toList ∧
      st'.column = 0 ∧ st'.indentLevel = st.indentLevel := by
  have h1 : start E st u (c :: t) = startNew E st u (c :: t) := by
    unfold start
    rw [if_neg (by rw [he]; exact fun h => nomatch h), if_neg (fun h => h hnm)]
  obtain ⟨e1, b⟩ := startNew_text (E := E) (u := u) he hc htn
  generalize hs1 : startNew E st u (c :: t) = s1 at *
  obtain ⟨s2, e2, d⟩ := steps_dotted (E := E) (u := u) (n := n) (st0 := s1) hn hb ht l (k := 0) (by omega)
    (by rw [show dotsAt n 0 = 0 from Nat.div_eq_of_lt (by omega)]; exact setSteps_dotted b.enabled b.user b.col)
  rw [Nat.zero_add, hl, dotsAt_all hn] at d
  have hne : (s2.h u).name ≠ [] := by rw [d.name, b.name]; exact List.cons_ne_nil _ _
  have hdig : '\n' ∉ ('<' :: digits m) ++ ['>'] := by
    intro h
    rcases List.mem_append.1 h with h | h
    · rcases List.mem_cons.1 h with h | h
      · cases h
      · exact newline_digits m h
    · exact absurd h (by decide)
  obtain ⟨f1, f2, f3, _⟩ := C93_end_line (msg := []) (info := ('<' :: digits m) ++ ['>']) d.enabled hne (by rw [d.line, b.line, d.lineno]) d.user d.col (by simp) hdig (hus _)
  refine ⟨finish E s2 u [] (('<' :: digits m) ++ ['>']), s2.tick, ?_, ?_, f2, ?_⟩
  · unfold run at e2 ⊢
    rw [List.foldlM_append, List.foldlM_append]
    show ((some (setSteps E (start E st u (c :: t)) u n)).bind fun x => (l.map (.step u)).foldlM (exec E) x).bind _ = _
    rw [h1, Option.bind_some, e2, Option.bind_some]
    show some (finishSize E s2 u m) = _
    unfold finishSize
    rw [if_neg (by rw [d.enabled]; exact fun h => nomatch h)]
  · rw [f1]
    have : textOf s2 = textOf s1 ++ dotText 10 := by
      show List.map _ s2.out = _
      rw [d.out, List.map_append, text_by]; rfl
    rw [this, e1]
    unfold shortInfo
    rw [if_pos (by simp)]
    have e3 : " .......... <".toList = dotText 10 ++ [' ', '<'] := by decide
    have e4 : "> in ".toList = ['>'] ++ " in ".toList := by decide
    rw [e3, e4]
    simp only [List.append_assoc, List.cons_append, List.nil_append]
  · rw [f3, d.level, b.level]; omega

/-- C93: the steps are defined, whatever the clock says and whatever is written in between. -/
theorem C93_defined {E : Env} {u n : Nat} {st : St} (hn : 0 < n) (hb : 100 * n ≤ 2147483647) (he : st.enabled = true) {l : List Op}
    (hl : ∀ op ∈ l, (∃ c, op = .step u c) ∨ (∃ v s, op = .write v s) ∨ ∃ f, op = .showMessages f) (hk : (l.filter fun op => match op with | .step _ _ => true | _ => false).length ≤ n) :
    ∃ st', run E (setSteps E st u n) l = some st' := by
  have h0 : Count u n 0 (setSteps E st u n) := by
    unfold setSteps
    rw [if_neg (by rw [he]; exact fun h => nomatch h)]
    have hx := set_same st u fun x => { x with totalSteps := n, stepCount := 0, dotCount := 0, dotTime := E.time st.tick, stepping := false }
    have e1 : _ = (n : Int) := congrArg Handler.totalSteps hx
    have e2 : _ = (0 : Int) := congrArg Handler.stepCount hx
    have e3 : _ = (0 : Int) := congrArg Handler.dotCount hx
    refine ⟨e1, Int.le_of_eq e2.symm, Int.le_of_eq e2, Int.le_of_eq e3.symm, ?_⟩
    show (_ : Int) * _ < _
    rw [show (((st.set u fun x => { x with totalSteps := n, stepCount := 0, dotCount := 0, dotTime := E.time st.tick, stepping := false }).used 1).h u).dotCount = 0 from e3,
      show (((st.set u fun x => { x with totalSteps := n, stepCount := 0, dotCount := 0, dotTime := E.time st.tick, stepping := false }).used 1).h u).stepCount = 0 from e2]
    omega
  generalize setSteps E st u n = s at h0
  have key : ∀ (l : List Op) (k : Nat) (s : St), (∀ op ∈ l, (∃ c, op = .step u c) ∨ (∃ v s, op = .write v s) ∨ ∃ f, op = .showMessages f) →
      k + (l.filter fun op => match op with | .step _ _ => true | _ => false).length ≤ n → Count u n k s → ∃ st', run E s l = some st' := by
    intro l
    induction l with
    | nil => intro k s _ _ _; exact ⟨s, rfl⟩
    | cons op l ih =>
      intro k s hl hk h
      have hl' := fun o ho => hl o (List.mem_cons_of_mem _ ho)
      have hrun : ∀ {s1}, exec E s op = some s1 → run E s (op :: l) = run E s1 l := by
        intro s1 e
        unfold run
        rw [List.foldlM_cons, e]
        rfl
      rcases hl op (List.mem_cons_self ..) with ⟨c, rfl⟩ | ⟨v, t, rfl⟩ | ⟨f, rfl⟩
      · rw [List.filter_cons_of_pos rfl, List.length_cons] at hk
        obtain ⟨s1, e1, h1⟩ := step_count (E := E) hn (show k < n by omega) hb h c
        rw [hrun (s1 := s1) e1]
        exact ih (k + 1) s1 hl' (by omega) h1
      · rw [hrun rfl]
        rw [List.filter_cons_of_neg (by simp)] at hk
        exact ih k _ hl' hk (h.congr (puts_h v t s).1)
      · rw [hrun rfl]
        rw [List.filter_cons_of_neg (by simp)] at hk
        exact ih k _ hl' hk (h.congr rfl)
  exact key l 0 s hl (by omega) h0

/-- C93: after `setSteps(0)` the loop of `step` does not stop (or `dotCount` overflows): no number of turns is enough. -/
theorem C93_no_steps {E : Env} {u : Nat} {st : St} (h : (st.h u).totalSteps = 0) (hs : 0 < (st.h u).stepCount) (fuel : Nat) : dots E u fuel st = none :=
  dots_zero fuel h hs

namespace Msg

/-- what a step writes in the mode with rows of marks: the mark, after the marks of the row so far if they have to be drawn again -/
def rowText (st : St) (u : Nat) (dot : Char) : List Char :=
  if st.column - (st.h u).indent = (st.h u).stepCount % 50 then [dot]
  else brk st ++ List.replicate (st.h u).indent.toNat ' ' ++ List.replicate ((st.h u).stepCount % 50).toNat '-' ++ [dot]

theorem tmod_eq {a : Int} (h : 0 ≤ a) : a.tmod 50 = a % 50 := Int.tmod_eq_emod_of_nonneg h

/-- the state before `endRow` -/
theorem row_text {st : St} {u : Nat} {dot : Char} (he : st.enabled = true) (hi : 0 ≤ (st.h u).indent) (hs : 0 ≤ (st.h u).stepCount) (hd : isSpace dot = false)
    (hu : st.lastUser = some u ∨ st.column - (st.h u).indent ≠ (st.h u).stepCount % 50) (hc : 0 ≤ st.column) :
    ∃ s, countStep u (put u (redraw u st) dot) = s ∧ textOf s = textOf st ++ rowText st u dot ∧ s.lastUser = some u ∧
      s.column = (st.h u).indent + (st.h u).stepCount % 50 + 1 ∧ s.enabled = true ∧ s.tick = st.tick ∧ (s.h u).indent = (st.h u).indent ∧
      (s.h u).stepCount = (st.h u).stepCount + 1 ∧ (s.h u).totalSteps = (st.h u).totalSteps ∧ (s.h u).stepping = (st.h u).stepping := by
  have hdn : dot ≠ '\n' := by rintro rfl; cases hd
  have hr0 : 0 ≤ (st.h u).stepCount % 50 := Int.emod_nonneg _ (by decide)
  -- the state before the mark
  have key : ∃ s, put u (redraw u st) dot = s ∧ textOf s = textOf st ++ rowText st u dot ∧ s.lastUser = some u ∧
      s.column = (st.h u).indent + (st.h u).stepCount % 50 + 1 ∧ s.enabled = true ∧ s.tick = st.tick ∧ s.h = st.h := by
    unfold redraw rowText
    rw [tmod_eq hs]
    by_cases h : st.column - (st.h u).indent = (st.h u).stepCount % 50
    · have hu : st.lastUser = some u := hu.resolve_right (fun hn => hn h)
      rw [if_neg (fun hn => hn h.symm), if_pos h]
      by_cases h0 : st.column = 0
      · rw [put_first he hu h0 hd]
        have hz : (st.h u).indent = 0 := by omega
        refine ⟨_, rfl, ?_, hu, ?_, he, rfl, rfl⟩
        · show List.map _ (_ ++ _) = _
          rw [List.map_append, text_by, hz]; rfl
        · show (((st.h u).indent.toNat : Int) + 1) = _
          omega
      · rw [put_plain he hu (by omega) hdn]
        refine ⟨_, rfl, ?_, hu, ?_, he, rfl, rfl⟩
        · show List.map _ (_ ++ _) = _
          rw [List.map_append]; rfl
        · show st.column + 1 = _
          omega
    · rw [if_pos (fun hn => h hn.symm), if_neg h, put_newline he]
      have e1 : put u (puts u (newline u st) (List.replicate ((st.h u).stepCount % 50).toNat '-')) dot =
          puts u (newline u st) (List.replicate ((st.h u).stepCount % 50).toNat '-' ++ [dot]) := by
        rw [puts_append]; rfl
      rw [e1]
      have hl : ((((st.h u).stepCount % 50).toNat : Nat) : Int) = (st.h u).stepCount % 50 := Int.toNat_of_nonneg hr0
      have hil : (((st.h u).indent.toNat : Nat) : Int) = (st.h u).indent := Int.toNat_of_nonneg hi
      generalize ((st.h u).stepCount % 50).toNat = r at *
      have hcons : ∃ c t, List.replicate r '-' ++ [dot] = c :: t ∧ isSpace c = false ∧ '\n' ∉ t ∧ t.length = r := by
        cases r with
        | zero => exact ⟨dot, [], rfl, hd, by simp, rfl⟩
        | succ r =>
          refine ⟨'-', List.replicate r '-' ++ [dot], rfl, rfl, fun hm => ?_, by simp⟩
          rcases List.mem_append.1 hm with hm | hm
          · exact absurd (List.eq_of_mem_replicate hm) (by decide)
          · exact hdn (List.mem_singleton.1 hm).symm
      obtain ⟨c, t, e2, g1, g2, g3⟩ := hcons
      rw [e2, puts_first (st := newline u st) he rfl rfl g1 g2]
      refine ⟨_, rfl, ?_, rfl, ?_, he, rfl, rfl⟩
      · show List.map _ (_ ++ _) = _
        rw [List.map_append, text_by]
        show textOf (newline u st) ++ _ = _
        rw [newline_text, ← e2]
        show _ ++ (List.replicate (st.h u).indent.toNat ' ' ++ _) = _
        simp only [List.append_assoc]
      · show (((st.h u).indent.toNat : Int) + 1 + t.length) = _
        omega
  obtain ⟨s, e, k1, k2, k3, k4, k5, k6⟩ := key
  rw [e]
  refine ⟨_, rfl, k1, k2, k3, k4, k5, ?_⟩
  have hx : ((countStep u s).h u) = { s.h u with stepCount := (s.h u).stepCount + 1 } := set_same _ _ _
  rw [hx, k6]
  exact ⟨rfl, rfl, rfl, rfl⟩

end Msg

/-- C93: in the mode with rows of marks, a step adds its mark to the row; the row is drawn again if something else has been written. -/
theorem C93_row {E : Env} {st : St} {u : Nat} {dot : Char} (he : st.enabled = true) (hm : (st.h u).stepping = true) (hi : 0 ≤ (st.h u).indent) (hs : 0 ≤ (st.h u).stepCount)
    (hd : isSpace dot = false) (hc : 0 ≤ st.column) (hu : st.lastUser = some u ∨ st.column - (st.h u).indent ≠ (st.h u).stepCount % 50) (hr : (st.h u).stepCount % 50 ≠ 49) :
    ∃ st', step E st u dot = some st' ∧ textOf st' = textOf st ++ rowText st u dot ∧ st'.lastUser = some u ∧ (st'.h u).stepCount = (st.h u).stepCount + 1 ∧
      (st'.h u).stepping = true ∧ (st'.h u).indent = (st.h u).indent ∧ st'.column - (st'.h u).indent = (st'.h u).stepCount % 50 := by
  obtain ⟨s, e, k1, k2, k3, k4, k5, k6, k7, k8, k9⟩ := row_text he hi hs hd hu hc
  refine ⟨s, ?_, k1, k2, k7, by rw [k9, hm], k6, by omega⟩
  unfold step
  rw [if_neg (by rw [he]; exact fun h => nomatch h)]
  have e1 : startStepping E u st = st := by unfold startStepping; rw [if_neg (by rw [hm]; exact fun h => nomatch h)]
  dsimp only
  rw [e1, if_pos hm, e]
  unfold endRow
  rw [if_neg (by omega)]

/-- C93: the fiftieth mark completes the row: the percentage of the steps and the usage of time and memory follow, and the line ends. -/
theorem C93_row_end {E : Env} {st : St} {u : Nat} {dot : Char} (he : st.enabled = true) (hm : (st.h u).stepping = true) (hi : 0 ≤ (st.h u).indent) (hs : 0 ≤ (st.h u).stepCount)
    (hd : isSpace dot = false) (hc : 0 ≤ st.column) (hu : st.lastUser = some u ∨ st.column - (st.h u).indent ≠ (st.h u).stepCount % 50) (hr : (st.h u).stepCount % 50 = 49)
    (hb : ((st.h u).stepCount + 1) * 100 ≤ 2147483647) (ht : 0 < (st.h u).totalSteps) (h1 : ∀ i, '\n' ∉ E.usage i) :
    ∃ st', step E st u dot = some st' ∧
      textOf st' = textOf st ++ rowText st u dot ++ padded (((st.h u).stepCount + 1) * 100 / (st.h u).totalSteps) ++ "% (".toList ++ E.usage st.tick ++ ", ".toList ++
        E.usage (st.tick + 1) ++ ")\n".toList ∧
      st'.column = 0 ∧ (st'.h u).stepCount = (st.h u).stepCount + 1 := by
  obtain ⟨s, e, k1, k2, k3, k4, k5, k6, k7, k8, k9⟩ := row_text he hi hs hd hu hc
  have hpos : 0 < s.column := by omega
  have hpad : ∀ m : Nat, '\n' ∉ padded m := by
    intro m h
    unfold padded at h
    rcases List.mem_append.1 h with h | h
    · exact absurd (List.eq_of_mem_replicate h) (by decide)
    · exact newline_digits m h
  have hq : ((((st.h u).stepCount + 1) * 100 / (st.h u).totalSteps).toNat : Int) = ((st.h u).stepCount + 1) * 100 / (st.h u).totalSteps :=
    Int.toNat_of_nonneg (Int.ediv_nonneg (by omega) (by omega))
  generalize hqq : ((st.h u).stepCount + 1) * 100 / (st.h u).totalSteps = q at *
  have hp : '\n' ∉ padded q := by rw [← hq]; exact hpad _
  have hall : '\n' ∉ padded q ++ "% (".toList ++ E.usage s.tick ++ ", ".toList ++ E.usage (s.tick + 1) ++ [')'] := by
    intro h
    rcases List.mem_append.1 h with h | h
    · rcases List.mem_append.1 h with h | h
      · rcases List.mem_append.1 h with h | h
        · rcases List.mem_append.1 h with h | h
          · rcases List.mem_append.1 h with h | h
            · exact hp h
            · exact absurd h (by decide)
          · exact h1 _ h
        · exact absurd h (by decide)
      · exact h1 _ h
    · exact absurd h (by decide)
  have hput : ∀ w1 w2 : List Char, puts u (puts u s (padded q)) ("% (".toList ++ w1 ++ ", ".toList ++ w2 ++ ")\n".toList) =
      puts u s (padded q ++ "% (".toList ++ w1 ++ ", ".toList ++ w2 ++ [')'] ++ ['\n']) := by
    intro w1 w2
    rw [← puts_append, show ")\n".toList = [')'] ++ ['\n'] from rfl]
    simp only [List.append_assoc]
  have htxt : ∀ w1 w2 : List Char, padded q ++ "% (".toList ++ w1 ++ ", ".toList ++ w2 ++ ")\n".toList =
      padded q ++ "% (".toList ++ w1 ++ ", ".toList ++ w2 ++ [')'] ++ ['\n'] := by
    intro w1 w2
    rw [show ")\n".toList = [')'] ++ ['\n'] from rfl]
    simp only [List.append_assoc]
  have hstep : step E st u dot = some ((puts u (puts u s (padded q)) ("% (".toList ++ E.usage s.tick ++ ", ".toList ++ E.usage (s.tick + 1) ++ ")\n".toList)).used 2) := by
    unfold step
    rw [if_neg (by rw [he]; exact fun h => nomatch h)]
    have e1 : startStepping E u st = st := by unfold startStepping; rw [if_neg (by rw [hm]; exact fun h => nomatch h)]
    dsimp only
    rw [e1, if_pos hm, e]
    unfold endRow
    have e2 : int32 ((s.h u).stepCount * 100) = some ((s.h u).stepCount * 100) := by unfold int32; rw [if_pos (by omega)]
    have e3 : ((s.h u).stepCount * 100).tdiv (s.h u).totalSteps = q := by
      rw [k7, k8, Int.tdiv_eq_ediv_of_nonneg (by omega), hqq]
    have e4 : ¬ (s.h u).totalSteps = 0 := by omega
    rw [if_pos (by omega), e2, Option.bind_some, if_neg e4, e3]
  rw [hput] at hstep
  have ht := htxt (E.usage st.tick) (E.usage (st.tick + 1))
  rw [k5] at hall hstep
  generalize padded q ++ "% (".toList ++ E.usage st.tick ++ ", ".toList ++ E.usage (st.tick + 1) ++ [')'] = T at *
  obtain ⟨b1, b2, _⟩ := puts_last k4 k2 hpos hall
  have b3 := (puts_h u (T ++ ['\n']) s).1
  refine ⟨_, hstep, ?_, ?_, ?_⟩
  · have : textOf ((puts u s (T ++ ['\n'])).used 2) = textOf (puts u s (T ++ ['\n'])) := rfl
    rw [this, b1, k1]
    rw [List.append_assoc _ T, ← ht]
    simp only [List.append_assoc]
  · exact b2
  · have : ((puts u s (T ++ ['\n'])).used 2).h = (puts u s (T ++ ['\n'])).h := rfl
    rw [this, b3, k7]

/-- a clock that shows ten seconds more each time -/
def Msg.slow : Env := { time := fun k => 10 * k, usage := fun _ => "1s".toList }

/-- C93: it is not true that a row is drawn again whenever something else has been written: a text of another handler that ends in the column of the next mark
is taken for the row. The mark stands in a new line by itself then. -/
theorem C93_row_false : ∃ st, run slow .init [.showMessages true, .construct 0, .start 0 "a".toList, .setSteps 0 100, .step 0 '-', .construct 1, .write 1 "x".toList, .step 0 '-'] = some st ∧
    (st.h 0).stepping = true ∧ (st.h 0).stepCount = 2 ∧ st.column - (st.h 0).indent = 1 ∧ textOf st = "A\n  -\n  x\n  -".toList := by
  refine ⟨_, rfl, ?_, ?_, ?_, ?_⟩ <;> decide +kernel

/-! ### examples -/

/-- a clock that stands still -/
def Msg.quick : Env := { time := fun _ => 0, usage := fun _ => "1s".toList }

/-- a state with an open outer handler -/
def Msg.opened : St := start quick (construct { St.init with enabled := true } 0) 0 "outer".toList

-- C93_layout, C93_begin, C93_line, C93_end_block: one operation inside another one
example : (run quick .init ([.showMessages true, .construct 0, .start 0 "outer".toList, .construct 1] ++
    [.start 1 "inner".toList, .setSteps 1 3, .step 1 '-', .step 1 '-', .step 1 '-', .finishSize 1 52, .destruct 1, .finish 0 [] [], .destruct 0])).map textOf =
    some "Outer\n  Inner .......... <52> in 1s.\nDone outer in 1s.\n".toList := by decide +kernel

-- C93_end_line: `end` in the line of `begin`
example : textOf (finish quick opened 0 [] []) = "Outer done in 1s.\n".toList := by decide +kernel

-- C93_end_block: something has been written in between
example : textOf (finish quick (puts 1 (construct opened 1) "text".toList) 0 [] "<7>".toList) = "Outer\n  text\nDone outer <7> in 1s.\n".toList := by decide +kernel

-- C93_end_block, with a message: the destructor of an open handler
example : textOf (destruct quick (puts 1 (construct opened 1) "text".toList) 0) = "Outer\n  text\nAborted in 1s.\n".toList := by decide +kernel

-- C93_disabled
example : opened.enabled = true ∧ (∃ st, run quick { opened with enabled := false } [.start 1 "x".toList] = some st ∧ textOf st = textOf opened) := by
  refine ⟨rfl, _, rfl, ?_⟩; decide +kernel

-- C93_dots: two of three steps, seven dots
example : (run quick (setSteps quick opened 0 3) [.step 0 '-', .step 0 '-']).map textOf = some "Outer .......".toList := by decide +kernel

-- C93_defined, C93_row: the row is drawn again, since another handler has written a line
example : (run slow (setSteps slow opened 0 3) [.step 0 '-', .write 1 "x".toList, .step 0 '+', .step 0 '*']).map textOf = some "Outer\n  -\nx\n  -+*".toList := by decide +kernel

-- C93_row_end: a complete row
example : (run slow (setSteps slow opened 0 60) (List.replicate 51 (.step 0 '-'))).map textOf =
    some ("Outer\n  --------------------------------------------------".toList ++ " 83% (1s, 1s)\n  -".toList) := by decide +kernel

-- C93_no_steps: no step has been announced
example : ((countStep 0 (setSteps quick opened 0 0)).h 0).totalSteps = 0 ∧ 0 < ((countStep 0 (setSteps quick opened 0 0)).h 0).stepCount := by decide +kernel

end TdZdd
