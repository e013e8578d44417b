import Verif.MessagesProofs

/-! # Proofs about the messages: nesting, texts, dots -/

namespace TdZdd

namespace Msg

/-! ### Nesting -/

/-- `indentLevel` is the number of open handlers -/
def Nest (st : St) : Prop := ∃ L : List Nat, L.Nodup ∧ (∀ u, u ∈ L ↔ (st.h u).name ≠ []) ∧ st.indentLevel = L.length

theorem Nest.congr {st st' : St} (h : Nest st) (hn : ∀ u, (st'.h u).name = (st.h u).name) (hl : st'.indentLevel = st.indentLevel) : Nest st' := by
  obtain ⟨L, h1, h2, h3⟩ := h
  exact ⟨L, h1, fun u => by rw [hn]; exact h2 u, by rw [hl]; exact h3⟩

theorem set_name {st : St} {u : Nat} {f : Handler → Handler} (hf : ∀ x, (f x).name = x.name) (v : Nat) : ((st.set u f).h v).name = (st.h v).name := by
  show (if v = u then f (st.h v) else st.h v).name = _
  split
  · exact hf _
  · rfl

theorem puts_name {u : Nat} {st : St} {s : List Char} (v : Nat) : ((puts u st s).h v).name = (st.h v).name := by rw [(puts_h u s st).1]

theorem put_name {u : Nat} {st : St} {c : Char} (v : Nat) : ((put u st c).h v).name = (st.h v).name := by rw [(put_h u st c).1]

theorem setSteps_name {E : Env} {st : St} {u : Nat} {n : Int} (v : Nat) : ((setSteps E st u n).h v).name = (st.h v).name ∧
    (setSteps E st u n).indentLevel = st.indentLevel := by
  unfold setSteps
  split
  · exact ⟨rfl, rfl⟩
  · exact ⟨(set_name (st := st) (u := u) (f := fun x => { x with totalSteps := n, stepCount := 0, dotCount := 0, dotTime := E.time st.tick, stepping := false }) (fun _ => rfl) v), rfl⟩

theorem outdent_name {st : St} {u : Nat} (v : Nat) : ((outdent st u).h v).name = (st.h v).name ∧ (outdent st u).indentLevel = st.indentLevel - 1 :=
  ⟨set_name (by intro _; rfl) v, rfl⟩

theorem finishLine_name {u : Nat} {st : St} {msg info usage : List Char} (v : Nat) : ((finishLine u st msg info usage).h v).name = (st.h v).name ∧
    (finishLine u st msg info usage).indentLevel = st.indentLevel - 1 := by
  unfold finishLine
  refine ⟨by rw [(outdent_name v).1, puts_name, puts_name], ?_⟩
  rw [(outdent_name v).2, (puts_h u _ _).2.1, (puts_h u _ _).2.1]

theorem finishBlock_name {u : Nat} {st : St} {msg info usage : List Char} (v : Nat) : ((finishBlock u st msg info usage).h v).name = (st.h v).name ∧
    (finishBlock u st msg info usage).indentLevel = st.indentLevel - 1 := by
  unfold finishBlock
  dsimp only
  rw [puts_name, (puts_h u _ _).2.1]
  split
  · exact ⟨by rw [puts_name, puts_name, (outdent_name v).1], by rw [(puts_h u _ _).2.1, (puts_h u _ _).2.1, (outdent_name v).2]⟩
  · exact ⟨by rw [puts_name, (outdent_name v).1], by rw [(puts_h u _ _).2.1, (outdent_name v).2]⟩

theorem finish_name {E : Env} {st : St} {u : Nat} {msg info : List Char} (he : st.enabled = true) (hn : (st.h u).name ≠ []) (v : Nat) :
    ((finish E st u msg info).h v).name = (if v = u then [] else (st.h v).name) ∧ (finish E st u msg info).indentLevel = st.indentLevel - 1 := by
  unfold finish
  rw [if_neg (by rw [he]; exact fun h => nomatch h), if_neg hn]
  dsimp only
  have h1 : ∀ b : Prop, [Decidable b] → ∀ v, ((if b then finishLine u (st.used 1) msg info (E.usage st.tick) else finishBlock u (st.used 1) msg info (E.usage st.tick)).h v).name = (st.h v).name ∧
      (if b then finishLine u (st.used 1) msg info (E.usage st.tick) else finishBlock u (st.used 1) msg info (E.usage st.tick)).indentLevel = st.indentLevel - 1 := by
    intro b _ v
    split
    · exact finishLine_name v
    · exact finishBlock_name v
  refine ⟨?_, (h1 _ v).2⟩
  show (if v = u then _ else _ : Handler).name = _
  split
  · rfl
  · exact (h1 _ v).1

theorem finish_nest {E : Env} {st : St} (h : Nest st) (u : Nat) (msg info : List Char) : Nest (finish E st u msg info) := by
  by_cases he : st.enabled = true
  · by_cases hn : (st.h u).name = []
    · unfold finish
      rw [if_neg (by rw [he]; exact fun h => nomatch h), if_pos hn]; exact h
    · obtain ⟨L, h1, h2, h3⟩ := h
      have hf := finish_name (E := E) (msg := msg) (info := info) he hn
      refine ⟨L.erase u, h1.erase u, fun v => ?_, ?_⟩
      · rw [(hf v).1, h1.mem_erase_iff, h2 v]
        by_cases e : v = u
        · rw [if_pos e]; exact ⟨fun h => absurd e h.1, fun h => absurd rfl h⟩
        · rw [if_neg e]; exact ⟨fun h => h.2, fun h => ⟨e, h⟩⟩
      · rw [(hf u).2, h3, List.length_erase_of_mem ((h2 u).2 hn)]
        have : 0 < L.length := List.length_pos_of_mem ((h2 u).2 hn)
        omega
  · unfold finish
    rw [if_pos (by simpa using he)]; exact h

theorem finish_closed {E : Env} {st : St} (he : st.enabled = true) (u : Nat) (msg info : List Char) : ((finish E st u msg info).h u).name = [] := by
  by_cases hn : (st.h u).name = []
  · unfold finish
    rw [if_neg (by rw [he]; exact fun h => nomatch h), if_pos hn]; exact hn
  · rw [(finish_name he hn u).1, if_pos rfl]

theorem startNew_name {E : Env} {st : St} {u : Nat} {s : List Char} (v : Nat) :
    ((startNew E st u s).h v).name = (if v = u then if s = [] then "level-".toList ++ digits st.indentLevel else s else (st.h v).name) ∧
    (startNew E st u s).indentLevel = st.indentLevel + 1 := by
  unfold startNew
  dsimp only
  rw [(setSteps_name v).1, (setSteps_name v).2]
  refine ⟨?_, ?_⟩
  · refine (set_name (by intro _; rfl) v).trans ?_
    show ((puts u _ _).h v).name = _
    rw [puts_name]
    show (if v = u then _ else _ : Handler).name = _
    split <;> rfl
  · show (puts u _ _).indentLevel + 1 = _
    rw [(puts_h u _ _).2.1]
    rfl

theorem startNew_nest {E : Env} {st : St} (h : Nest st) {u : Nat} (hn : (st.h u).name = []) (s : List Char) : Nest (startNew E st u s) := by
  obtain ⟨L, h1, h2, h3⟩ := h
  have hu : u ∉ L := fun hm => (h2 u).1 hm hn
  refine ⟨u :: L, List.nodup_cons.2 ⟨hu, h1⟩, fun v => ?_, ?_⟩
  · rw [(startNew_name v).1, List.mem_cons]
    by_cases e : v = u
    · rw [if_pos e]
      refine ⟨fun _ => ?_, fun _ => .inl e⟩
      split
      · exact fun h => nomatch h
      · assumption
    · rw [if_neg e, h2 v]
      exact ⟨fun h => h.resolve_left e, .inr⟩
  · rw [(startNew_name u).2, h3, List.length_cons]
    omega

theorem start_nest {E : Env} {st : St} (h : Nest st) (u : Nat) (s : List Char) : Nest (start E st u s) := by
  unfold start
  by_cases he : st.enabled = false
  · rw [if_pos he]; exact h
  · rw [if_neg he]
    by_cases hn : (st.h u).name ≠ []
    · rw [if_pos hn]
      exact startNew_nest (finish_nest h _ _ _) (finish_closed (by simpa using he) _ _ _) _
    · rw [if_neg hn]
      exact startNew_nest h (Decidable.not_not.1 hn) _

/-- name and level are kept -/
def Keep (st st' : St) : Prop := (∀ u, (st'.h u).name = (st.h u).name) ∧ st'.indentLevel = st.indentLevel

theorem Keep.refl (st : St) : Keep st st := ⟨fun _ => rfl, rfl⟩

theorem Keep.trans {a b c : St} (h1 : Keep a b) (h2 : Keep b c) : Keep a c := ⟨fun u => (h2.1 u).trans (h1.1 u), h2.2.trans h1.2⟩

theorem Keep.put (u : Nat) (st : St) (c : Char) : Keep st (put u st c) := ⟨fun _ => put_name _, (put_h u st c).2.1⟩

theorem Keep.puts (u : Nat) (st : St) (s : List Char) : Keep st (puts u st s) := ⟨fun _ => puts_name _, (puts_h u s st).2.1⟩

theorem Keep.set (st : St) (u : Nat) {f : Handler → Handler} (hf : ∀ x, (f x).name = x.name) : Keep st (st.set u f) := ⟨set_name hf, rfl⟩

theorem Keep.used (st : St) (n : Nat) : Keep st (st.used n) := ⟨fun _ => rfl, rfl⟩

theorem Keep.countStep (u : Nat) (st : St) : Keep st (countStep u st) := ⟨set_name (fun _ => rfl), rfl⟩

theorem Keep.oneDot (E : Env) (u : Nat) (st : St) : Keep st (oneDot E u st) := by
  unfold Msg.oneDot
  dsimp only
  have h1 : Keep st (if (st.h u).dotCount = 0 then Msg.put u st ' ' else st) := by
    split
    · exact .put _ _ _
    · exact .refl _
  exact (h1.trans (.put _ _ _)).trans ((Keep.set _ _ (by intro _; rfl)).trans (.used _ _))

theorem Keep.dots {E : Env} {u : Nat} : ∀ (fuel : Nat) {st st' : St}, dots E u fuel st = some st' → Keep st st' := by
  intro fuel
  induction fuel with
  | zero =>
    intro st st' e
    rcases dots_cases e with rfl | ⟨k, hk, _⟩
    · exact .refl _
    · cases hk
  | succ k ih =>
    intro st st' e
    rcases dots_cases e with rfl | ⟨k', hk, e⟩
    · exact .refl _
    · cases hk; exact (Keep.oneDot _ _ _).trans (ih e)

theorem Keep.step {E : Env} {st st' : St} {u : Nat} {dot : Char} (e : step E st u dot = some st') : Keep st st' := by
  unfold Msg.step at e
  split at e
  · cases e; exact .refl _
  have h1 : Keep st (startStepping E u st) := by
    unfold startStepping
    split
    · split
      · exact ((Keep.used _ _).trans (.put _ _ _)).trans (.set _ _ (by intro _; rfl))
      · exact .used _ _
    · exact .refl _
  dsimp only at e
  split at e
  · have h2 : Keep (startStepping E u st) (redraw u (startStepping E u st)) := by
      unfold redraw
      split
      · exact (Keep.put _ _ _).trans (.puts _ _ _)
      · exact .refl _
    refine ((h1.trans h2).trans (.put u _ dot)).trans (Keep.trans (Keep.countStep u _) ?_)
    rcases endRow_cases e with rfl | ⟨p, s, rfl⟩
    · exact .refl _
    · exact ((Keep.puts _ _ _).trans (.puts _ _ _)).trans (.used _ _)
  · exact h1.trans ((Keep.countStep u _).trans (.dots _ e))

/-- objects are constructed in storage where no open object is -/
def Legal (st : St) (op : Op) : Prop := ∀ u, op = .construct u → (st.h u).name = []

theorem exec_nest {E : Env} {st st' : St} {op : Op} (h : Nest st) (hl : Legal st op) (e : exec E st op = some st') : Nest st' := by
  cases op with
  | construct u =>
    cases e
    refine h.congr (fun v => ?_) rfl
    show (if v = u then _ else _ : Handler).name = _
    split
    next hv => rw [hv, hl u rfl]; rfl
    next => rfl
  | showMessages f => cases e; exact h
  | write u s => cases e; exact h.congr (Keep.puts _ _ _).1 (Keep.puts _ _ _).2
  | start u s => cases e; exact start_nest h u s
  | setSteps u n => cases e; exact h.congr (fun v => (setSteps_name v).1) (setSteps_name u).2
  | step u d => exact h.congr (Keep.step e).1 (Keep.step e).2
  | finish u m i => cases e; exact finish_nest h u m i
  | finishSize u n =>
    cases e
    unfold finishSize
    split
    · exact h
    · exact finish_nest h _ _ _
  | destruct u =>
    cases e
    unfold destruct
    split
    · exact finish_nest h _ _ _
    · exact h

/-! ### Texts -/

/-- characters written by `u` -/
def by' (u : Nat) (s : List Char) : List (Nat × Char) := s.map fun c => (u, c)

theorem put_plain {u : Nat} {st : St} {c : Char} (he : st.enabled = true) (hu : st.lastUser = some u) (hc : 0 < st.column) (hn : c ≠ '\n') :
    put u st c = { st with out := st.out ++ [(u, c)], column := st.column + 1 } := by
  unfold put
  have h1 : newUser st u = st := by unfold newUser; rw [if_neg (fun h => h hu)]
  rw [if_neg (by rw [he]; exact fun h => nomatch h)]
  dsimp only
  have h2 : ¬ st.column = 0 := by omega
  rw [h1, if_neg (fun h => h2 h.1), if_neg h2, if_neg hn]

theorem put_first {u : Nat} {st : St} {c : Char} (he : st.enabled = true) (hu : st.lastUser = some u) (hc : st.column = 0) (hn : isSpace c = false) :
    put u st c = { st with out := st.out ++ by' u (List.replicate (st.h u).indent.toNat ' ' ++ [c]), column := (st.h u).indent.toNat + 1 } := by
  unfold put
  have h1 : newUser st u = st := by unfold newUser; rw [if_neg (fun h => h hu)]
  have h2 : c ≠ '\n' := by rintro rfl; cases hn
  rw [if_neg (by rw [he]; exact fun h => nomatch h)]
  dsimp only
  rw [h1, if_neg (fun h => by rw [hn] at h; cases h.2), if_pos hc, if_neg h2]
  simp [by', indentText]

/-- the state after a newline -/
def newline (u : Nat) (st : St) : St :=
  let b : Bool := decide (st.column ≠ 0)
  { st with lastUser := some u, column := 0, out := st.out ++ (if b then [(u, '\n')] else []), lineno := st.lineno + (if b then 1 else 0) }

theorem put_newline {u : Nat} {st : St} (he : st.enabled = true) : put u st '\n' = newline u st := by
  unfold newline
  unfold put
  rw [if_neg (by rw [he]; exact fun h => nomatch h)]
  dsimp only
  by_cases hu : st.lastUser = some u
  · have h1 : newUser st u = st := by unfold newUser; rw [if_neg (fun h => h hu)]
    rw [h1]
    by_cases hc : st.column = 0
    · rw [if_pos ⟨hc, rfl⟩]
      simp [← hu, hc]
      cases st; simp_all
    · rw [if_neg (fun h => hc h.1), if_neg hc, if_pos rfl]
      simp [hc, ← hu]
  · by_cases hc : st.column = 0
    · have h1 : newUser st u = { st with lastUser := some u } := by unfold newUser; rw [if_pos hu, if_neg (fun h => h hc)]
      rw [h1, if_pos ⟨hc, rfl⟩]
      simp [hc]
    · have h1 : newUser st u = { st with out := st.out ++ [(u, '\n')], lineno := st.lineno + 1, column := 0, lastUser := some u } := by
        unfold newUser; rw [if_pos hu, if_pos hc]
      rw [h1, if_pos ⟨rfl, rfl⟩]
      simp [hc]

theorem puts_plain {u : Nat} : ∀ {s : List Char} {st : St}, st.enabled = true → st.lastUser = some u → 0 < st.column → '\n' ∉ s →
    puts u st s = { st with out := st.out ++ by' u s, column := st.column + s.length }
  | [], st, _, _, _, _ => by simp [puts, by']
  | c :: s, st, he, hu, hc, hn => by
    show puts u (put u st c) s = _
    rw [put_plain he hu hc (fun h => hn (by rw [h]; exact List.mem_cons_self ..))]
    rw [puts_plain (st := { st with out := st.out ++ [(u, c)], column := st.column + 1 }) he hu (by show 0 < st.column + 1; omega)
      (fun h => hn (List.mem_cons_of_mem _ h))]
    simp [by']
    omega

theorem puts_first {u : Nat} {c : Char} {s : List Char} {st : St} (he : st.enabled = true) (hu : st.lastUser = some u) (hc : st.column = 0) (hs : isSpace c = false) (hn : '\n' ∉ s) :
    puts u st (c :: s) = { st with out := st.out ++ by' u (List.replicate (st.h u).indent.toNat ' ' ++ c :: s), column := (st.h u).indent.toNat + 1 + s.length } := by
  show puts u (put u st c) s = _
  rw [put_first he hu hc hs, puts_plain]
  · simp [by']
  · exact he
  · exact hu
  · show (0 : Int) < (st.h u).indent.toNat + 1; omega
  · exact hn

/-- a text that ends with a newline leaves the column 0 -/
theorem puts_end {u : Nat} {s : List Char} {st : St} (he : st.enabled = true) : (puts u st (s ++ ['\n'])).column = 0 := by
  rw [puts_append]
  show (put u _ '\n').column = 0
  rw [put_newline (by rw [(puts_h u s st).2.2.1]; exact he)]
  rfl

end Msg

end TdZdd
