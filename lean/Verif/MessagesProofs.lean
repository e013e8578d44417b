import Verif.Messages

/-! # Proofs about the messages: layout of the lines, nesting -/

namespace TdZdd

namespace Msg

/-- a line, written by `u`: `2 * k` blanks, a character that is no space, and the rest of the line -/
def LineOf (u : Nat) (l : List (Nat × Char)) : Prop :=
  ∃ (k : Nat) (c : Char) (s : List Char), l = List.replicate (2 * k) (u, ' ') ++ (u, c) :: s.map (fun x => (u, x)) ∧ isSpace c = false ∧ '\n' ∉ s

/-- the text consists of lines (each ended by some object) and perhaps an unfinished line of `u` -/
structure Layout (out : List (Nat × Char)) (lineno column : Int) (u : Option Nat) (ls : List (List (Nat × Char) × Nat)) (cur : List (Nat × Char)) : Prop where
  out : out = ls.flatMap (fun x => x.1 ++ [(x.2, '\n')]) ++ cur
  done : ∀ x ∈ ls, ∃ v, LineOf v x.1
  last : cur = [] ∨ ∃ v, u = some v ∧ LineOf v cur
  lineno : lineno = 1 + ls.length
  column : column = cur.length

def Inv (st : St) : Prop := ∃ done cur, Layout st.out st.lineno st.column st.lastUser done cur

def Even (st : St) : Prop := ∀ u, ∃ k : Int, (st.h u).indent = 2 * k

theorem LineOf.length {u : Nat} {l : List (Nat × Char)} (h : LineOf u l) : l ≠ [] := by
  obtain ⟨k, c, s, rfl, _⟩ := h
  simp

theorem newUser_h (st : St) (u : Nat) : (newUser st u).h = st.h ∧ (newUser st u).indentLevel = st.indentLevel ∧ (newUser st u).enabled = st.enabled ∧
    (newUser st u).tick = st.tick := by
  unfold newUser
  split
  · split <;> exact ⟨rfl, rfl, rfl, rfl⟩
  · exact ⟨rfl, rfl, rfl, rfl⟩

theorem newUser_last (st : St) (u : Nat) : (newUser st u).lastUser = some u := by
  unfold newUser
  by_cases h : st.lastUser ≠ some u
  · rw [if_pos h]; split <;> rfl
  · rw [if_neg h]; exact Decidable.not_not.1 h

theorem newUser_inv {st : St} (h : Inv st) (u : Nat) : Inv (newUser st u) := by
  obtain ⟨done, cur, hl⟩ := h
  unfold newUser
  by_cases h1 : st.lastUser ≠ some u
  · rw [if_pos h1]
    by_cases h2 : st.column ≠ 0
    · rw [if_pos h2]
      refine ⟨done ++ [(cur, u)], [], ?_⟩
      have hc : cur ≠ [] := by
        rintro rfl; exact h2 hl.column
      obtain ⟨v, _, hv⟩ := hl.last.resolve_left hc
      refine ⟨?_, ?_, .inl rfl, ?_, rfl⟩
      · show st.out ++ _ = _
        rw [hl.out]; simp
      · intro x hx
        rcases List.mem_append.1 hx with hx | hx
        · exact hl.done x hx
        · rw [List.mem_singleton.1 hx]; exact ⟨v, hv⟩
      · show st.lineno + 1 = _
        rw [hl.lineno, List.length_append]
        simp; omega
    · rw [if_neg h2]
      have hc : cur = [] := by
        have := hl.column
        have h0 : st.column = 0 := Decidable.not_not.1 h2
        rw [h0] at this
        exact List.length_eq_zero_iff.1 (by omega)
      exact ⟨done, cur, hl.out, hl.done, .inl hc, hl.lineno, hl.column⟩
  · rw [if_neg h1]; exact ⟨done, cur, hl⟩

theorem put_h (u : Nat) (st : St) (c : Char) : (put u st c).h = st.h ∧ (put u st c).indentLevel = st.indentLevel ∧ (put u st c).enabled = st.enabled ∧
    (put u st c).tick = st.tick := by
  have hn := newUser_h st u
  unfold put
  by_cases h0 : st.enabled = false
  · rw [if_pos h0]; exact ⟨rfl, rfl, rfl, rfl⟩
  · rw [if_neg h0]
    dsimp only
    by_cases h1 : (newUser st u).column = 0 ∧ isSpace c = true
    · rw [if_pos h1]; exact hn
    · rw [if_neg h1]
      by_cases h2 : (newUser st u).column = 0
      · rw [if_pos h2]
        split <;> exact hn
      · rw [if_neg h2]
        split <;> exact hn

theorem put_inv {u : Nat} {st : St} (h : Inv st) (he : Even st) (c : Char) : Inv (put u st c) := by
  have hh := newUser_h st u
  have hu := newUser_last st u
  have hi := newUser_inv h u
  unfold put
  by_cases h0 : st.enabled = false
  · rw [if_pos h0]; exact h
  · rw [if_neg h0]
    dsimp only
    rw [show Even st ↔ Even (newUser st u) from by unfold Even; rw [hh.1]] at he
    generalize newUser st u = s at *
    obtain ⟨done, cur, hl⟩ := hi
    by_cases h1 : s.column = 0 ∧ isSpace c = true
    · rw [if_pos h1]; exact ⟨done, cur, hl⟩
    · rw [if_neg h1]
      by_cases h2 : s.column = 0
      · rw [if_pos h2]
        have hc : cur = [] := by
          have := hl.column
          rw [h2] at this
          exact List.length_eq_zero_iff.1 (by omega)
        have hs : isSpace c = false := by
          cases hs : isSpace c with
          | false => rfl
          | true => exact absurd ⟨h2, hs⟩ h1
        have hcn : c ≠ '\n' := by rintro rfl; cases hs
        rw [if_neg hcn]
        obtain ⟨k, hk⟩ := he u
        refine ⟨done, indentText u (s.h u).indent ++ [(u, c)], ?_, hl.done, .inr ⟨u, hu, k.toNat, c, [], ?_, hs, by simp⟩, hl.lineno, ?_⟩
        · show (s.out ++ _) ++ _ = _
          rw [hl.out, hc]; simp
        · unfold indentText
          rw [hk, show (2 * k).toNat = 2 * k.toNat from by omega]
          rfl
        · show ((s.h u).indent.toNat : Int) + 1 = _
          simp [indentText]
      · rw [if_neg h2]
        have hc : cur ≠ [] := by
          rintro rfl; exact h2 hl.column
        obtain ⟨v, hv, hline⟩ := hl.last.resolve_left hc
        rw [hu] at hv
        cases hv
        by_cases hn : c = '\n'
        · rw [if_pos hn]
          refine ⟨done ++ [(cur, u)], [], ?_, ?_, .inl rfl, ?_, rfl⟩
          · show s.out ++ _ = _
            rw [hl.out, hn]; simp
          · intro x hx
            rcases List.mem_append.1 hx with hx | hx
            · exact hl.done x hx
            · rw [List.mem_singleton.1 hx]; exact ⟨u, hline⟩
          · show s.lineno + 1 = _
            rw [hl.lineno, List.length_append]
            simp; omega
        · rw [if_neg hn]
          obtain ⟨k, d, t, e1, e2, e3⟩ := hline
          refine ⟨done, cur ++ [(u, c)], ?_, hl.done, .inr ⟨u, hu, k, d, t ++ [c], ?_, e2, ?_⟩, hl.lineno, ?_⟩
          · show s.out ++ _ = _
            rw [hl.out]; simp
          · rw [e1]; simp
          · intro hm
            rcases List.mem_append.1 hm with hm | hm
            · exact e3 hm
            · exact hn (List.mem_singleton.1 hm).symm
          · show s.column + 1 = _
            rw [hl.column]; simp

theorem puts_h (u : Nat) : ∀ (s : List Char) (st : St), (puts u st s).h = st.h ∧ (puts u st s).indentLevel = st.indentLevel ∧
    (puts u st s).enabled = st.enabled ∧ (puts u st s).tick = st.tick
  | [], _ => ⟨rfl, rfl, rfl, rfl⟩
  | c :: s, st => by
    have h1 := puts_h u s (put u st c)
    have h2 := put_h u st c
    exact ⟨h1.1.trans h2.1, h1.2.1.trans h2.2.1, h1.2.2.1.trans h2.2.2.1, h1.2.2.2.trans h2.2.2.2⟩

theorem puts_append (u : Nat) (st : St) (a b : List Char) : puts u st (a ++ b) = puts u (puts u st a) b := List.foldl_append

/-- both parts of the invariant -/
def Ok (st : St) : Prop := Inv st ∧ Even st

theorem puts_ok {u : Nat} : ∀ (s : List Char) {st : St}, Ok st → Ok (puts u st s)
  | [], _, h => h
  | c :: s, st, h => puts_ok s ⟨put_inv h.1 h.2 c, by unfold Even; rw [(put_h u st c).1]; exact h.2⟩

theorem put_ok {u : Nat} {st : St} (c : Char) (h : Ok st) : Ok (put u st c) := puts_ok [c] h

theorem set_ok {st : St} (h : Ok st) (u : Nat) {f : Handler → Handler} (hx : ∀ x : Handler, (∃ k : Int, x.indent = 2 * k) → ∃ k : Int, (f x).indent = 2 * k) :
    Ok (st.set u f) := by
  refine ⟨h.1, fun v => ?_⟩
  show ∃ k : Int, (if v = u then f (st.h v) else st.h v).indent = 2 * k
  split
  · exact hx _ (h.2 v)
  · exact h.2 v

theorem used_ok {st : St} (h : Ok st) (t : Nat) : Ok (st.used t) := h

theorem nest_ok {st : St} (h : Ok st) (t : Int) : Ok (st.nest t) := h

theorem setSteps_ok {E : Env} {st : St} (h : Ok st) (u : Nat) (n : Int) : Ok (setSteps E st u n) := by
  unfold setSteps
  split
  · exact h
  · refine used_ok (set_ok h u ?_) _
    exact fun _ hx => hx

theorem outdent_ok {st : St} (h : Ok st) (u : Nat) : Ok (outdent st u) := set_ok (nest_ok h _) u fun _ _ => ⟨_, Int.mul_comm _ _⟩

theorem finish_ok {E : Env} {st : St} (h : Ok st) (u : Nat) (msg info : List Char) : Ok (finish E st u msg info) := by
  unfold finish
  split
  · exact h
  split
  · exact h
  refine set_ok ?_ u fun _ hx => hx
  split
  · exact outdent_ok (puts_ok _ (puts_ok _ (used_ok h _))) u
  · unfold finishBlock
    refine puts_ok _ ?_
    split
    · exact puts_ok _ (puts_ok _ (outdent_ok (used_ok h _) u))
    · exact puts_ok _ (outdent_ok (used_ok h _) u)

theorem finishSize_ok {E : Env} {st : St} (h : Ok st) (u n : Nat) : Ok (finishSize E st u n) := by
  unfold finishSize
  split
  · exact h
  · exact finish_ok h _ _ _

theorem startNew_ok {E : Env} {st : St} (h : Ok st) (u : Nat) (s : List Char) : Ok (startNew E st u s) := by
  unfold startNew
  exact setSteps_ok (set_ok (nest_ok (puts_ok _ (set_ok h u fun _ _ => ⟨_, Int.mul_comm _ _⟩)) _) u fun _ _ => ⟨_, Int.mul_comm _ _⟩) _ _

theorem start_ok {E : Env} {st : St} (h : Ok st) (u : Nat) (s : List Char) : Ok (start E st u s) := by
  unfold start
  split
  · exact h
  refine startNew_ok ?_ _ _
  split
  · exact finish_ok h _ _ _
  · exact h

theorem oneDot_ok {E : Env} {u : Nat} {st : St} (h : Ok st) : Ok (oneDot E u st) := by
  unfold oneDot
  refine used_ok (set_ok (put_ok _ ?_) u ?_) _
  rotate_left
  · exact fun _ hx => hx
  split
  · exact put_ok _ h
  · exact h

theorem dots_cases {E : Env} {u fuel : Nat} {st st' : St} (e : dots E u fuel st = some st') :
    st' = st ∨ ∃ k, fuel = k + 1 ∧ dots E u k (oneDot E u st) = some st' := by
  cases fuel with
  | zero =>
    unfold dots at e
    obtain ⟨a, _, e⟩ := Option.bind_eq_some_iff.1 e
    obtain ⟨b, _, e⟩ := Option.bind_eq_some_iff.1 e
    split at e
    · cases e
    · exact .inl (Option.some.inj e).symm
  | succ k =>
    unfold dots at e
    obtain ⟨a, _, e⟩ := Option.bind_eq_some_iff.1 e
    obtain ⟨b, _, e⟩ := Option.bind_eq_some_iff.1 e
    split at e
    · exact .inr ⟨k, rfl, e⟩
    · exact .inl (Option.some.inj e).symm

theorem dots_ok {E : Env} {u : Nat} : ∀ (fuel : Nat) {st st' : St}, Ok st → dots E u fuel st = some st' → Ok st' := by
  intro fuel
  induction fuel with
  | zero =>
    intro st st' h e
    rcases dots_cases e with rfl | ⟨k, hk, _⟩
    · exact h
    · cases hk
  | succ k ih =>
    intro st st' h e
    rcases dots_cases e with rfl | ⟨k', hk, e⟩
    · exact h
    · cases hk; exact ih (oneDot_ok h) e

theorem startStepping_ok {E : Env} {u : Nat} {st : St} (h : Ok st) : Ok (startStepping E u st) := by
  unfold startStepping
  split
  · split
    · exact set_ok (put_ok _ (used_ok h _)) u fun _ hx => hx
    · exact used_ok h _
  · exact h

theorem redraw_ok {u : Nat} {st : St} (h : Ok st) : Ok (redraw u st) := by
  unfold redraw
  split
  · exact puts_ok _ (put_ok _ h)
  · exact h

theorem countStep_ok {u : Nat} {st : St} (h : Ok st) : Ok (countStep u st) := set_ok h u fun _ hx => hx

theorem endRow_cases {E : Env} {u : Nat} {st st' : St} (e : endRow E u st = some st') :
    st' = st ∨ ∃ p s, st' = (puts u (puts u st p) s).used 2 := by
  unfold endRow at e
  split at e
  · obtain ⟨a, _, e⟩ := Option.bind_eq_some_iff.1 e
    split at e
    · cases e
    · exact .inr ⟨_, _, (Option.some.inj e).symm⟩
  · exact .inl (Option.some.inj e).symm

theorem endRow_ok {E : Env} {u : Nat} {st st' : St} (h : Ok st) (e : endRow E u st = some st') : Ok st' := by
  rcases endRow_cases e with rfl | ⟨p, s, rfl⟩
  · exact h
  · exact used_ok (puts_ok _ (puts_ok _ h)) _

theorem step_ok {E : Env} {st st' : St} {u : Nat} {dot : Char} (h : Ok st) (e : step E st u dot = some st') : Ok st' := by
  unfold step at e
  split at e
  · cases e; exact h
  have h1 := startStepping_ok (E := E) (u := u) h
  dsimp only at e
  split at e
  · exact endRow_ok (countStep_ok (put_ok _ (redraw_ok h1))) e
  · exact dots_ok _ (countStep_ok h1) e

theorem exec_ok {E : Env} {st st' : St} {op : Op} (h : Ok st) (e : exec E st op = some st') : Ok st' := by
  cases op with
  | construct u => cases e; exact set_ok h u fun _ _ => ⟨_, Int.mul_comm _ _⟩
  | showMessages f => cases e; exact h
  | write u s => cases e; exact puts_ok _ h
  | start u s => cases e; exact start_ok h u s
  | setSteps u n => cases e; exact setSteps_ok h u n
  | step u d => exact step_ok h e
  | finish u m i => cases e; exact finish_ok h u m i
  | finishSize u n => cases e; exact finishSize_ok h u n
  | destruct u =>
    cases e
    unfold destruct
    split
    · exact finish_ok h _ _ _
    · exact h

theorem init_ok : Ok St.init := ⟨⟨[], [], rfl, (fun _ h => nomatch h), .inl rfl, rfl, rfl⟩, fun _ => ⟨0, rfl⟩⟩

theorem run_ok {E : Env} : ∀ (l : List Op) {st st' : St}, Ok st → run E st l = some st' → Ok st'
  | [], st, st', h, e => by cases e; exact h
  | op :: l, st, st', h, e => by
    unfold run at e
    rw [List.foldlM_cons] at e
    cases h1 : exec E st op with
    | none => rw [h1] at e; cases e
    | some s1 =>
      rw [h1] at e
      exact run_ok l (exec_ok h h1) e

end Msg

end TdZdd
