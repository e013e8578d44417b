import Verif.AppArgs
import Verif.GraphillionProofs

/-! Proofs about the command lines of the applications -/

namespace TdZdd

namespace Args

/-! ## maps -/

theorem at'_nil {K : Type} (k : Str) (d : K) : at' ([] : List (Str × K)) k d = d := rfl

theorem at'_cons {K : Type} (p : Str × K) (m : List (Str × K)) (k : Str) (d : K) : at' (p :: m) k d = if p.1 = k then p.2 else at' m k d := by
  unfold at'
  rw [List.find?_cons]
  by_cases h : p.1 = k
  · rw [if_pos h, decide_eq_true h]; rfl
  · rw [if_neg h, decide_eq_false h]

theorem count_cons {K : Type} (p : Str × K) (m : List (Str × K)) (k : Str) : count (p :: m) k = true ↔ p.1 = k ∨ count m k = true := by
  unfold count
  rw [List.any_cons, Bool.or_eq_true, decide_eq_true_eq]

theorem at'_not {K : Type} {m : List (Str × K)} {k : Str} {d : K} (h : ¬count m k = true) : at' m k d = d := by
  induction m with
  | nil => rfl
  | cons p m ih =>
    rw [count_cons] at h
    rw [at'_cons, if_neg fun e => h (.inl e), ih fun e => h (.inr e)]

theorem at'_append {K : Type} (m : List (Str × K)) (v : Str) (c : K) (k : Str) (d : K) (h : ¬count m v = true) : at' (m ++ [(v, c)]) k d = if k = v then c else at' m k d := by
  induction m with
  | nil =>
    rw [List.nil_append, at'_cons]
    by_cases e : k = v
    · rw [if_pos e, if_pos e.symm]
    · rw [if_neg e, if_neg fun e' => e e'.symm]
  | cons p m ih =>
    rw [count_cons] at h
    rw [List.cons_append, at'_cons, at'_cons, ih fun e => h (.inr e)]
    by_cases e : k = v
    · rw [if_pos e, if_pos e, if_neg fun e' => h (.inl (e'.trans e))]
    · rw [if_neg e, if_neg e]

theorem at'_map {K : Type} (m : List (Str × K)) (v : Str) (c : K) (k : Str) (d : K) (h : count m v = true) :
    at' (m.map fun p => if p.1 = v then (v, c) else p) k d = if k = v then c else at' m k d := by
  induction m with
  | nil => exact absurd h (by unfold count; simp)
  | cons p m ih =>
    rw [List.map_cons, at'_cons, at'_cons]
    by_cases e : p.1 = v
    · rw [if_pos e]
      dsimp only
      by_cases ek : k = v
      · rw [if_pos ek.symm, if_pos ek]
      · rw [if_neg fun e' => ek e'.symm, if_neg ek, if_neg fun e' => ek (e'.symm.trans e)]
        by_cases hm : count m v = true
        · rw [ih hm, if_neg ek]
        · have : m.map (fun p => if p.1 = v then (v, c) else p) = m.map id :=
            List.map_congr_left fun q hq => if_neg fun e' => hm (List.any_eq_true.2 ⟨q, hq, by simp [e']⟩)
          rw [this, List.map_id]
    · rw [if_neg e]
      have hm : count m v = true := by
        rw [count_cons] at h
        exact h.resolve_left e
      rw [ih hm]
      by_cases ek : k = v
      · rw [if_pos ek, if_pos ek, if_neg fun e' => e (e'.trans ek)]
      · rw [if_neg ek, if_neg ek]

theorem setName_eq {K : Type} (m : List (Str × K)) (v : Str) (c : K) : setName m v c = if count m v = true then m.map fun p => if p.1 = v then (v, c) else p else m ++ [(v, c)] := rfl

theorem at'_setName {K : Type} (m : List (Str × K)) (v : Str) (c : K) (k : Str) (d : K) : at' (setName m v c) k d = if k = v then c else at' m k d := by
  rw [setName_eq]
  by_cases h : count m v = true
  · rw [if_pos h, at'_map _ _ _ _ _ h]
  · rw [if_neg h, at'_append _ _ _ _ _ h]

theorem count_iff {K : Type} {m : List (Str × K)} {k : Str} : count m k = true ↔ ∃ p ∈ m, p.1 = k := by
  unfold count
  rw [List.any_eq_true]
  exact ⟨fun ⟨p, hp, h⟩ => ⟨p, hp, of_decide_eq_true h⟩, fun ⟨p, hp, h⟩ => ⟨p, hp, decide_eq_true h⟩⟩

theorem count_setName {K : Type} (m : List (Str × K)) (v : Str) (c : K) (k : Str) : count (setName m v c) k = true ↔ k = v ∨ count m k = true := by
  rw [setName_eq]
  by_cases h : count m v = true
  · rw [if_pos h]
    rw [count_iff, count_iff]
    constructor
    · rintro ⟨p, hp, e⟩
      obtain ⟨q, hq, rfl⟩ := List.mem_map.1 hp
      by_cases eq : q.1 = v
      · rw [if_pos eq] at e; exact .inl e.symm
      · rw [if_neg eq] at e; exact .inr ⟨q, hq, e⟩
    · rintro (e | ⟨q, hq, e⟩)
      · obtain ⟨q, hq, eq⟩ := count_iff.1 h
        exact ⟨_, List.mem_map.2 ⟨q, hq, rfl⟩, by rw [if_pos eq]; exact e.symm⟩
      · refine ⟨_, List.mem_map.2 ⟨q, hq, rfl⟩, ?_⟩
        by_cases eq : q.1 = v
        · rw [if_pos eq]; exact eq.symm.trans e
        · rw [if_neg eq]; exact e
  · rw [if_neg h, count_iff, count_iff]
    constructor
    · rintro ⟨p, hp, e⟩
      rcases List.mem_append.1 hp with hp | hp
      · exact .inr ⟨p, hp, e⟩
      · rw [List.mem_singleton] at hp; subst hp; exact .inl e.symm
    · rintro (e | ⟨q, hq, e⟩)
      · exact ⟨_, List.mem_append.2 (.inr (List.mem_singleton.2 rfl)), e.symm⟩
      · exact ⟨q, List.mem_append.2 (.inl hq), e⟩

theorem keys_foldl (ks : List Str) : ∀ (m : List (Str × Bool)) (k : Str), (count (ks.foldl (fun m k => setName m k false) m) k = true ↔ k ∈ ks ∨ count m k = true) ∧
    (at' m k false = false → at' (ks.foldl (fun m k => setName m k false) m) k false = false) := by
  induction ks with
  | nil => intro m k; exact ⟨by simp, id⟩
  | cons x ks ih =>
    intro m k
    rw [List.foldl_cons]
    refine ⟨?_, fun h => (ih _ k).2 ?_⟩
    · rw [(ih _ k).1, count_setName, List.mem_cons]
      constructor
      · rintro (h | h | h)
        · exact .inl (.inr h)
        · exact .inl (.inl h)
        · exact .inr h
      · rintro ((h | h) | h)
        · exact .inr (.inl h)
        · exact .inl h
        · exact .inr (.inr h)
    · rw [at'_setName]
      split
      · rfl
      · exact h

/-! ## the grammar of the command lines -/

/-- one element of a command line: `-f`, `-v a` for an option with a number, `-t x` for an option with a word, a file name -/
inductive Tok where
  | flag (f : Str)
  | num (v a : Str)
  | str (t x : Str)
  | file (s : Str)
deriving DecidableEq

/-- its arguments -/
def Tok.text : Tok → List Str
  | .flag f => ['-' :: f]
  | .num v a => ['-' :: v, a]
  | .str t x => ['-' :: t, x]
  | .file s => [s]

/-- the command lines: `keys`, `two`, `strs` and `conv` as in `App`; `used` are the options with a value that have been given before, and there is room for `n` more file names. An option with a value that is given once more is a flag. -/
inductive Line (app : App) : (used : List Str) → (n : Nat) → List Tok → Prop
  | nil {used n} : Line app used n []
  | flag {used n f ts} : (f ∈ app.keys ∨ f ∈ used) → Line app used n ts → Line app used n (.flag f :: ts)
  | num {used n v a ts} : v ++ " <n>".toList ∈ app.keys → v ∉ used → (app.conv a).isSome → Line app (v :: used) n ts → Line app used n (.num v a :: ts)
  | str {used n t x ts} : app.strs = true → t ++ ' ' :: x ∈ app.keys → t ++ " <n>".toList ∉ app.keys → t ∉ used → Line app (t :: used) n ts → Line app used n (.str t x :: ts)
  | file {used n s ts} : s ≠ [] → app.isOpt s = false → Line app used n ts → Line app used (n + 1) (.file s :: ts)
  | blank {used n ts} : Line app used (n + 1) ts → Line app used (n + 1) (.file [] :: ts)

/-- a requirement on the keys of an application: none is empty or begins with a space, none has two spaces, and none is the beginning of another one before the space -/
def App.Good (app : App) : Prop :=
  (∀ k ∈ app.keys, k ≠ [] ∧ k.head? ≠ some ' ') ∧ (∀ k ∈ app.keys, (k.filter (· = ' ')).length ≤ 1) ∧ ∀ k ∈ app.keys, ∀ k' ∈ app.keys, ¬(k ++ [' ']) <+: k'

instance (app : App) : Decidable app.Good := by unfold App.Good; exact inferInstance

/-- the change that an element makes -/
def Tok.act (app : App) (st : St) : Tok → St
  | .flag f => st.on f
  | .num v a => (st.on v).setNum v ((app.conv a).getD 0)
  | .str t x => (st.on t).setStr t x
  | .file s => if s = [] then st else { st with files := st.files ++ [s] }

/-- the keys of `opt` are those of the application and the options with values that have been given -/
def Inv (app : App) (used : List Str) (st : St) : Prop :=
  (∀ k, count st.opt k = true ↔ k ∈ app.keys ∨ k ∈ used) ∧ ∀ u ∈ used, ' ' ∉ u ∧ u ≠ []

theorem App.Good.name {app : App} (hg : app.Good) {v x : Str} (h : v ++ ' ' :: x ∈ app.keys) : ' ' ∉ v ∧ v ≠ [] ∧ v ∉ app.keys := by
  refine ⟨fun hv => ?_, fun e => ?_, fun hv => ?_⟩
  · have := hg.2.1 _ h
    rw [List.filter_append, List.length_append, List.filter_cons_of_pos (by simp), List.length_cons] at this
    have h1 : 0 < (v.filter (· = ' ')).length := List.length_pos_iff.2 (List.ne_nil_of_mem (List.mem_filter.2 ⟨hv, by simp⟩))
    omega
  · subst e
    exact (hg.1 _ h).2 rfl
  · exact hg.2.2 _ hv _ h ⟨x, by simp⟩

theorem dash_isOpt {app : App} {f : Str} (h : f ≠ []) : app.isOpt ('-' :: f) = true := by
  have : 2 ≤ ('-' :: f).length := by
    have := List.length_pos_iff.2 h
    rw [List.length_cons]; omega
  unfold App.isOpt
  rw [decide_eq_true this]
  simp

theorem Inv.on {app : App} {used : List Str} {st : St} (h : Inv app used st) (v : Str) (hv : ' ' ∉ v ∧ v ≠ []) : ∀ n s, Inv app (v :: used) { st with opt := setName st.opt v true, num := n, str := s } := by
  intro n s
  refine ⟨fun k => ?_, fun u hu => ?_⟩
  · dsimp only
    rw [count_setName, h.1, List.mem_cons]
    constructor
    · rintro (h | h | h)
      · exact .inr (.inl h)
      · exact .inl h
      · exact .inr (.inr h)
    · rintro (h | h | h)
      · exact .inr (.inl h)
      · exact .inl h
      · exact .inr (.inr h)
  · rcases List.mem_cons.1 hu with rfl | hu
    · exact hv
    · exact h.2 u hu

theorem Inv.on' {app : App} {used : List Str} {st : St} (h : Inv app used st) (v : Str) (hv : v ∈ app.keys ∨ v ∈ used) : Inv app used (st.on v) := by
  refine ⟨fun k => ?_, h.2⟩
  unfold St.on
  dsimp only
  rw [count_setName, h.1]
  constructor
  · rintro (rfl | h)
    · exact hv
    · exact h
  · exact .inr

theorem Inv.space {app : App} {used : List Str} {st : St} (h : Inv app used st) {k : Str} (hk : ' ' ∈ k) : count st.opt k = true ↔ k ∈ app.keys := by
  rw [h.1]
  exact ⟨fun h' => h'.elim id fun h' => absurd hk (h.2 k h').1, .inl⟩

theorem flag_ne {app : App} (hg : app.Good) {used : List Str} {st : St} (h : Inv app used st) {f : Str} (hf : f ∈ app.keys ∨ f ∈ used) : f ≠ [] :=
  hf.elim (fun hf => (hg.1 f hf).1) fun hf => (h.2 f hf).2

theorem loop_cons (app : App) (a : Str) (rest : List Str) (st : St) : app.loop (a :: rest) st =
    if app.isOpt a then
      if count st.opt a.tail then app.loop rest (st.on a.tail)
      else match rest with
        | [] => .thrown
        | b :: rest' =>
          if count st.opt (a.tail ++ " <n>".toList) then
            match app.conv b with
            | none => .ub
            | some x => app.loop rest' ((st.on a.tail).setNum a.tail x)
          else if app.strs && count st.opt (a.tail ++ ' ' :: b) then app.loop rest' ((st.on a.tail).setStr a.tail b)
          else .thrown
    else
      match app.file st a with
      | .ok st' => app.loop rest st'
      | .thrown => .thrown
      | .ub => .ub := by
  cases rest <;> rfl

/-- the loop on a command line of the grammar; `Inv` holds at the end -/
theorem loop_line {app : App} (hg : app.Good) {used : List Str} {n : Nat} {ts : List Tok} (h : Line app used n ts) : ∀ (st : St) (rest : List Str), Inv app used st → st.files.length + n = app.files →
    app.loop (ts.flatMap Tok.text ++ rest) st = app.loop rest (ts.foldl (Tok.act app) st) := by
  induction h with
  | nil => intro st rest _ _; rfl
  | @flag used n f ts hf _ ih =>
    intro st rest hi hn
    rw [List.flatMap_cons, List.foldl_cons, ← ih (Tok.act app st (.flag f)) rest (hi.on' f hf) hn]
    show app.loop (('-' :: f) :: (ts.flatMap Tok.text ++ rest)) st = _
    rw [loop_cons, List.tail_cons, if_pos (dash_isOpt (flag_ne hg hi hf)), if_pos ((hi.1 f).2 hf)]
    rfl
  | @num used n v a ts hv hu ha _ ih =>
    intro st rest hi hn
    obtain ⟨h1, h2, h3⟩ := hg.name (x := "<n>".toList) hv
    rw [List.flatMap_cons, List.foldl_cons, ← ih (Tok.act app st (.num v a)) rest (hi.on v ⟨h1, h2⟩ _ _) hn]
    show app.loop (('-' :: v) :: a :: (ts.flatMap Tok.text ++ rest)) st = _
    obtain ⟨x, hx⟩ := Option.isSome_iff_exists.1 ha
    rw [loop_cons, List.tail_cons, if_pos (dash_isOpt h2), if_neg (fun e => ((hi.1 v).1 e).elim h3 hu)]
    dsimp only
    rw [if_pos (show count st.opt (v ++ " <n>".toList) = true from (hi.1 _).2 (.inl hv)), hx, Tok.act, hx]
    rfl
  | @str used n t x ts hs ht hn' hu _ ih =>
    intro st rest hi hn
    obtain ⟨h1, h2, h3⟩ := hg.name ht
    rw [List.flatMap_cons, List.foldl_cons, ← ih (Tok.act app st (.str t x)) rest (hi.on t ⟨h1, h2⟩ _ _) hn]
    show app.loop (('-' :: t) :: x :: (ts.flatMap Tok.text ++ rest)) st = _
    rw [loop_cons, List.tail_cons, if_pos (dash_isOpt h2), if_neg (fun e => ((hi.1 t).1 e).elim h3 hu)]
    dsimp only
    rw [if_neg (fun e => hn' ((hi.space (List.mem_append.2 (.inr (by simp)))).1 e)), if_pos (by rw [hs, (hi.1 _).2 (.inl ht)]; rfl)]
    rfl
  | @file used n s ts hs ho _ ih =>
    intro st rest hi hn
    have e : Tok.act app st (.file s) = { st with files := st.files ++ [s] } := if_neg hs
    rw [List.flatMap_cons, List.foldl_cons, e, ← ih { st with files := st.files ++ [s] } rest ⟨hi.1, hi.2⟩ (by simp only [List.length_append, List.length_singleton]; omega)]
    show app.loop (s :: (ts.flatMap Tok.text ++ rest)) st = _
    have hl : st.files.length < app.files := by omega
    rw [loop_cons, if_neg (by rw [ho]; exact Bool.false_ne_true), App.file, if_pos hl, if_neg hs]
  | @blank used n ts _ ih =>
    intro st rest hi hn
    have e : Tok.act app st (.file []) = st := by rw [Tok.act, if_pos rfl]
    rw [List.flatMap_cons, List.foldl_cons, e, ← ih _ rest hi hn]
    show app.loop ([] :: (ts.flatMap Tok.text ++ rest)) st = _
    have hl : st.files.length < app.files := by omega
    have ho : app.isOpt [] = false := rfl
    rw [loop_cons, if_neg (by rw [ho]; exact Bool.false_ne_true), App.file, if_pos hl, if_pos rfl]

/-- the options with a value that have been given -/
def names : List Tok → List Str
  | [] => []
  | .num v _ :: ts => v :: names ts
  | .str t _ :: ts => t :: names ts
  | _ :: ts => names ts

theorem inv_foldl {app : App} (hg : app.Good) {used : List Str} {n : Nat} {ts : List Tok} (h : Line app used n ts) : ∀ (st : St), Inv app used st →
    ∃ used', (∀ k, k ∈ used' ↔ k ∈ used ∨ k ∈ names ts) ∧ Inv app used' (ts.foldl (Tok.act app) st) := by
  induction h with
  | nil => intro st hi; exact ⟨_, fun k => by simp [names], hi⟩
  | @flag used n f ts hf _ ih => intro st hi; exact ih _ (hi.on' f hf)
  | @num used n v a ts hv hu ha _ ih =>
    intro st hi
    obtain ⟨h1, h2, h3⟩ := hg.name (x := "<n>".toList) hv
    obtain ⟨used', h4, h5⟩ := ih _ (hi.on v ⟨h1, h2⟩ (setName st.num v ((app.conv a).getD 0)) st.str)
    refine ⟨used', fun k => ?_, h5⟩
    rw [h4, names, List.mem_cons, List.mem_cons]
    constructor
    · rintro ((h | h) | h)
      · exact .inr (.inl h)
      · exact .inl h
      · exact .inr (.inr h)
    · rintro (h | h | h)
      · exact .inl (.inr h)
      · exact .inl (.inl h)
      · exact .inr h
  | @str used n t x ts hs ht hn' hu _ ih =>
    intro st hi
    obtain ⟨h1, h2, h3⟩ := hg.name ht
    obtain ⟨used', h4, h5⟩ := ih _ (hi.on t ⟨h1, h2⟩ st.num (setName st.str t x))
    refine ⟨used', fun k => ?_, h5⟩
    rw [h4, names, List.mem_cons, List.mem_cons]
    constructor
    · rintro ((h | h) | h)
      · exact .inr (.inl h)
      · exact .inl h
      · exact .inr (.inr h)
    · rintro (h | h | h)
      · exact .inl (.inr h)
      · exact .inl (.inl h)
      · exact .inr h
  | @file used n s ts hs ho _ ih =>
    intro st hi
    have e : Tok.act app st (.file s) = { st with files := st.files ++ [s] } := if_neg hs
    rw [List.foldl_cons, e]
    exact ih _ ⟨hi.1, hi.2⟩
  | @blank used n ts _ ih =>
    intro st hi
    have e : Tok.act app st (.file []) = st := by rw [Tok.act, if_pos rfl]
    rw [List.foldl_cons, e]
    exact ih _ hi

theorem inv_init (app : App) (num : List (Str × Int)) (str : List (Str × Str)) : Inv app [] (app.init num str) := by
  refine ⟨fun k => ?_, fun u hu => nomatch hu⟩
  unfold App.init
  dsimp only
  rw [(keys_foldl _ _ _).1]
  simp [count]

/-- every command line that is accepted belongs to the grammar -/
theorem line_of_loop {app : App} : ∀ (m : Nat) (args : List Str), args.length ≤ m → ∀ (used : List Str) (st st' : St), Inv app used st → app.Good → st.files.length ≤ app.files → app.loop args st = .ok st' →
    ∃ ts, args = ts.flatMap Tok.text ∧ Line app used (app.files - st.files.length) ts ∧ st' = ts.foldl (Tok.act app) st := by
  intro m
  induction m with
  | zero =>
    intro args hm used st st' hi hg hf h
    obtain rfl : args = [] := List.length_eq_zero_iff.1 (by omega)
    rw [App.loop] at h
    injection h with h
    exact ⟨[], rfl, .nil, h.symm⟩
  | succ m ih =>
    intro args hm used st st' hi hg hf h
    cases args with
    | nil =>
      rw [App.loop] at h
      injection h with h
      exact ⟨[], rfl, .nil, h.symm⟩
    | cons a rest =>
      have hm' : rest.length ≤ m := by rw [List.length_cons] at hm; omega
      by_cases ho : app.isOpt a = true
      · obtain ⟨s, rfl⟩ : ∃ s, a = '-' :: s := by
          unfold App.isOpt at ho
          cases a with
          | nil => exact absurd ho (by simp)
          | cons c s =>
            rw [Bool.and_eq_true, decide_eq_true_eq, List.head?_cons] at ho
            exact ⟨s, by rw [Option.some.inj ho.1]⟩
        rw [loop_cons, if_pos ho, List.tail_cons] at h
        by_cases hc : count st.opt s = true
        · rw [if_pos hc] at h
          have hs := (hi.1 s).1 hc
          obtain ⟨ts, h1, h2, h3⟩ := ih rest hm' used (st.on s) st' (hi.on' s hs) hg hf h
          exact ⟨.flag s :: ts, by rw [h1, List.flatMap_cons]; rfl, .flag hs h2, h3⟩
        · rw [if_neg hc] at h
          have hu : s ∉ used := fun e => hc ((hi.1 s).2 (.inr e))
          cases rest with
          | nil => nomatch h
          | cons b rest =>
            dsimp only at h
            have hm'' : rest.length ≤ m := by rw [List.length_cons] at hm'; omega
            by_cases hn : count st.opt (s ++ " <n>".toList) = true
            · rw [if_pos hn] at h
              have hv : s ++ " <n>".toList ∈ app.keys := (hi.space (List.mem_append.2 (.inr (by simp)))).1 hn
              cases hx : app.conv b with
              | none => rw [hx] at h; nomatch h
              | some x =>
                rw [hx] at h
                obtain ⟨q1, q2, q3⟩ := hg.name (x := "<n>".toList) hv
                obtain ⟨ts, h1, h2, h3⟩ := ih rest hm'' (s :: used) ((st.on s).setNum s x) st' (hi.on s ⟨q1, q2⟩ _ _) hg hf h
                refine ⟨.num s b :: ts, by rw [h1, List.flatMap_cons]; rfl, .num hv hu (by rw [hx]; rfl) h2, ?_⟩
                rw [List.foldl_cons, Tok.act, hx]
                exact h3
            · rw [if_neg hn] at h
              by_cases hx : (app.strs && count st.opt (s ++ ' ' :: b)) = true
              · rw [if_pos hx] at h
                rw [Bool.and_eq_true] at hx
                have hv : s ++ ' ' :: b ∈ app.keys := (hi.space (List.mem_append.2 (.inr (by simp)))).1 hx.2
                obtain ⟨q1, q2, q3⟩ := hg.name hv
                obtain ⟨ts, h1, h2, h3⟩ := ih rest hm'' (s :: used) ((st.on s).setStr s b) st' (hi.on s ⟨q1, q2⟩ _ _) hg hf h
                exact ⟨.str s b :: ts, by rw [h1, List.flatMap_cons]; rfl, .str hx.1 hv (fun e => hn ((hi.1 _).2 (.inl e))) hu h2, h3⟩
              · rw [if_neg hx] at h
                nomatch h
      · rw [loop_cons, if_neg ho, App.file] at h
        by_cases hl : st.files.length < app.files
        · rw [if_pos hl] at h
          dsimp only at h
          by_cases hs : a = []
          · subst hs
            rw [if_pos rfl] at h
            obtain ⟨ts, h1, h2, h3⟩ := ih rest hm' used st st' hi hg hf h
            obtain ⟨n, hn⟩ : ∃ n, app.files - st.files.length = n + 1 := ⟨app.files - st.files.length - 1, by omega⟩
            refine ⟨.file [] :: ts, by rw [h1, List.flatMap_cons]; rfl, ?_, ?_⟩
            · rw [hn] at h2 ⊢
              exact .blank h2
            · rw [List.foldl_cons, Tok.act, if_pos rfl]
              exact h3
          · rw [if_neg hs] at h
            have hlen : (st.files ++ [a]).length = st.files.length + 1 := by simp
            obtain ⟨ts, h1, h2, h3⟩ := ih rest hm' used { st with files := st.files ++ [a] } st' ⟨hi.1, hi.2⟩ hg (by dsimp only; omega) h
            dsimp only at h2
            rw [hlen] at h2
            refine ⟨.file a :: ts, by rw [h1, List.flatMap_cons]; rfl, ?_, ?_⟩
            · have : app.files - st.files.length = (app.files - (st.files.length + 1)) + 1 := by omega
              rw [this]
              exact .file hs (Bool.eq_false_iff.2 ho) h2
            · rw [List.foldl_cons, Tok.act, if_neg hs]
              exact h3
        · rw [if_neg hl] at h
          nomatch h

/-! ## what the options mean -/

/-- the option has been given -/
def Given (ts : List Tok) (k : Str) : Prop := .flag k ∈ ts ∨ (∃ a, .num k a ∈ ts) ∨ ∃ x, .str k x ∈ ts

/-- the file names -/
def fileOf : Tok → Option Str
  | .file s => if s = [] then none else some s
  | _ => none

theorem opt_foldl (app : App) (ts : List Tok) : ∀ (st : St) (k : Str), at' (ts.foldl (Tok.act app) st).opt k false = true ↔ at' st.opt k false = true ∨ Given ts k := by
  induction ts with
  | nil => intro st k; simp [Given]
  | cons t ts ih =>
    intro st k
    rw [List.foldl_cons, ih]
    have step : at' (Tok.act app st t).opt k false = true ↔ at' st.opt k false = true ∨ Given [t] k := by
      cases t with
      | flag f =>
        show at' (setName st.opt f true) k false = true ↔ _
        rw [at'_setName]
        unfold Given
        by_cases e : k = f
        · subst e; rw [if_pos rfl]; simp
        · rw [if_neg e]; simp [e]
      | num f a =>
        show at' (setName st.opt f true) k false = true ↔ _
        rw [at'_setName]
        unfold Given
        by_cases e : k = f
        · subst e; rw [if_pos rfl]; simp
        · rw [if_neg e]; simp [e]
      | str f a =>
        show at' (setName st.opt f true) k false = true ↔ _
        rw [at'_setName]
        unfold Given
        by_cases e : k = f
        · subst e; rw [if_pos rfl]; simp
        · rw [if_neg e]; simp [e]
      | file s =>
        have : (Tok.act app st (.file s)).opt = st.opt := by
          rw [Tok.act]
          split <;> rfl
        rw [this]
        unfold Given
        simp
    rw [step, or_assoc]
    refine or_congr Iff.rfl ?_
    unfold Given
    constructor
    · rintro (h | h)
      · rcases h with h | ⟨a, h⟩ | ⟨x, h⟩
        · rw [List.mem_singleton] at h; exact .inl (h ▸ List.mem_cons_self ..)
        · rw [List.mem_singleton] at h; exact .inr (.inl ⟨a, h ▸ List.mem_cons_self ..⟩)
        · rw [List.mem_singleton] at h; exact .inr (.inr ⟨x, h ▸ List.mem_cons_self ..⟩)
      · rcases h with h | ⟨a, h⟩ | ⟨x, h⟩
        · exact .inl (List.mem_cons_of_mem _ h)
        · exact .inr (.inl ⟨a, List.mem_cons_of_mem _ h⟩)
        · exact .inr (.inr ⟨x, List.mem_cons_of_mem _ h⟩)
    · rintro (h | ⟨a, h⟩ | ⟨x, h⟩)
      · rcases List.mem_cons.1 h with h | h
        · exact .inl (.inl (List.mem_singleton.2 h))
        · exact .inr (.inl h)
      · rcases List.mem_cons.1 h with h | h
        · exact .inl (.inr (.inl ⟨a, List.mem_singleton.2 h⟩))
        · exact .inr (.inr (.inl ⟨a, h⟩))
      · rcases List.mem_cons.1 h with h | h
        · exact .inl (.inr (.inr ⟨x, List.mem_singleton.2 h⟩))
        · exact .inr (.inr (.inr ⟨x, h⟩))

theorem act_num (app : App) (st : St) (t : Tok) (v : Str) (d : Int) (h : ∀ a, t ≠ .num v a) : at' (Tok.act app st t).num v d = at' st.num v d := by
  cases t with
  | flag f => rfl
  | num f a =>
    show at' (setName st.num f _) v d = _
    rw [at'_setName, if_neg fun e => h a (by rw [e])]
  | str f a => rfl
  | file s => rw [Tok.act]; split <;> rfl

theorem num_none (app : App) (v : Str) (d : Int) (ts : List Tok) : ∀ (st : St), (∀ a, .num v a ∉ ts) → at' (ts.foldl (Tok.act app) st).num v d = at' st.num v d := by
  induction ts with
  | nil => intro st _; rfl
  | cons t ts ih =>
    intro st h
    rw [List.foldl_cons, ih _ fun a ha => h a (List.mem_cons_of_mem _ ha), act_num _ _ _ _ _ fun a e => h a (e ▸ List.mem_cons_self ..)]

theorem act_str (app : App) (st : St) (t : Tok) (v : Str) (d : Str) (h : ∀ a, t ≠ .str v a) : at' (Tok.act app st t).str v d = at' st.str v d := by
  cases t with
  | flag f => rfl
  | str f a =>
    show at' (setName st.str f _) v d = _
    rw [at'_setName, if_neg fun e => h a (by rw [e])]
  | num f a => rfl
  | file s => rw [Tok.act]; split <;> rfl

theorem str_none (app : App) (v : Str) (d : Str) (ts : List Tok) : ∀ (st : St), (∀ a, .str v a ∉ ts) → at' (ts.foldl (Tok.act app) st).str v d = at' st.str v d := by
  induction ts with
  | nil => intro st _; rfl
  | cons t ts ih =>
    intro st h
    rw [List.foldl_cons, ih _ fun a ha => h a (List.mem_cons_of_mem _ ha), act_str _ _ _ _ _ fun a e => h a (e ▸ List.mem_cons_self ..)]

/-- an option with a value that has been given before does not take a value -/
theorem line_used {app : App} {used : List Str} {n : Nat} {ts : List Tok} (h : Line app used n ts) : ∀ v ∈ used, (∀ a, .num v a ∉ ts) ∧ ∀ x, .str v x ∉ ts := by
  induction h with
  | nil => intro v _; exact ⟨fun a h => (nomatch h), fun a h => (nomatch h)⟩
  | @flag used n f ts hf _ ih =>
    intro v hv
    exact ⟨fun a h => (List.mem_cons.1 h).elim (fun e => nomatch e) ((ih v hv).1 a), fun a h => (List.mem_cons.1 h).elim (fun e => nomatch e) ((ih v hv).2 a)⟩
  | @num used n w b ts _ hu _ _ ih =>
    intro v hv
    have := ih v (List.mem_cons_of_mem _ hv)
    exact ⟨fun a h => (List.mem_cons.1 h).elim (fun e => by injection e with e; exact hu (e ▸ hv)) (this.1 a), fun a h => (List.mem_cons.1 h).elim (fun e => nomatch e) (this.2 a)⟩
  | @str used n w b ts _ _ _ hu _ ih =>
    intro v hv
    have := ih v (List.mem_cons_of_mem _ hv)
    exact ⟨fun a h => (List.mem_cons.1 h).elim (fun e => nomatch e) (this.1 a), fun a h => (List.mem_cons.1 h).elim (fun e => by injection e with e; exact hu (e ▸ hv)) (this.2 a)⟩
  | file _ _ _ ih =>
    intro v hv
    exact ⟨fun a h => (List.mem_cons.1 h).elim (fun e => nomatch e) ((ih v hv).1 a), fun a h => (List.mem_cons.1 h).elim (fun e => nomatch e) ((ih v hv).2 a)⟩
  | blank _ ih =>
    intro v hv
    exact ⟨fun a h => (List.mem_cons.1 h).elim (fun e => nomatch e) ((ih v hv).1 a), fun a h => (List.mem_cons.1 h).elim (fun e => nomatch e) ((ih v hv).2 a)⟩

theorem num_some {app : App} {used : List Str} {n : Nat} {ts : List Tok} (h : Line app used n ts) (d : Int) : ∀ (st : St) (v a : Str) (x : Int), .num v a ∈ ts → app.conv a = some x →
    at' (ts.foldl (Tok.act app) st).num v d = x := by
  induction h with
  | nil => intro st v a x h; nomatch h
  | @flag used n f ts hf _ ih => intro st v a x h hx; exact ih _ v a x ((List.mem_cons.1 h).resolve_left fun e => nomatch e) hx
  | @num used n w b ts _ hu _ hl ih =>
    intro st v a x h hx
    rw [List.foldl_cons]
    rcases List.mem_cons.1 h with e | h
    · injection e with e1 e2
      subst e1 e2
      rw [num_none _ _ _ _ _ (line_used hl _ (List.mem_cons_self ..)).1]
      show at' (setName st.num v _) v d = _
      rw [at'_setName, if_pos rfl, hx]
      rfl
    · exact ih _ v a x h hx
  | @str used n w b ts _ _ _ hu _ ih => intro st v a x h hx; exact ih _ v a x ((List.mem_cons.1 h).resolve_left fun e => nomatch e) hx
  | file _ _ _ ih => intro st v a x h hx; exact ih _ v a x ((List.mem_cons.1 h).resolve_left fun e => nomatch e) hx
  | blank _ ih => intro st v a x h hx; exact ih _ v a x ((List.mem_cons.1 h).resolve_left fun e => nomatch e) hx

theorem str_some {app : App} {used : List Str} {n : Nat} {ts : List Tok} (h : Line app used n ts) (d : Str) : ∀ (st : St) (v a : Str), .str v a ∈ ts → at' (ts.foldl (Tok.act app) st).str v d = a := by
  induction h with
  | nil => intro st v a h; nomatch h
  | @flag used n f ts hf _ ih => intro st v a h; exact ih _ v a ((List.mem_cons.1 h).resolve_left fun e => nomatch e)
  | @num used n w b ts _ hu _ hl ih => intro st v a h; exact ih _ v a ((List.mem_cons.1 h).resolve_left fun e => nomatch e)
  | @str used n w b ts _ _ _ hu hl ih =>
    intro st v a h
    rw [List.foldl_cons]
    rcases List.mem_cons.1 h with e | h
    · injection e with e1 e2
      subst e1 e2
      rw [str_none _ _ _ _ _ (line_used hl _ (List.mem_cons_self ..)).2]
      show at' (setName st.str v _) v d = _
      rw [at'_setName, if_pos rfl]
    · exact ih _ v a h
  | file _ _ _ ih => intro st v a h; exact ih _ v a ((List.mem_cons.1 h).resolve_left fun e => nomatch e)
  | blank _ ih => intro st v a h; exact ih _ v a ((List.mem_cons.1 h).resolve_left fun e => nomatch e)

theorem files_foldl (app : App) (ts : List Tok) : ∀ (st : St), (ts.foldl (Tok.act app) st).files = st.files ++ ts.filterMap fileOf := by
  induction ts with
  | nil => intro st; simp
  | cons t ts ih =>
    intro st
    rw [List.foldl_cons, ih]
    cases t with
    | flag f => rfl
    | num v a => rfl
    | str v a => rfl
    | file s =>
      rw [Tok.act]
      by_cases e : s = []
      · rw [if_pos e, List.filterMap_cons_none (by simp [fileOf, e])]
      · rw [if_neg e, List.filterMap_cons_some (b := s) (by simp [fileOf, e])]
        simp

/-- a flag is a key or an option with a value -/
theorem line_flag {app : App} {used : List Str} {n : Nat} {ts : List Tok} (h : Line app used n ts) : ∀ f, .flag f ∈ ts → f ∈ app.keys ∨ f ∈ used ∨ (∃ a, .num f a ∈ ts) ∨ ∃ x, .str f x ∈ ts := by
  induction h with
  | nil => intro f h; nomatch h
  | @flag used n g ts hf _ ih =>
    intro f h
    rcases List.mem_cons.1 h with e | h
    · injection e with e
      subst e
      exact hf.elim .inl fun h => .inr (.inl h)
    · rcases ih f h with h | h | ⟨a, h⟩ | ⟨x, h⟩
      · exact .inl h
      · exact .inr (.inl h)
      · exact .inr (.inr (.inl ⟨a, List.mem_cons_of_mem _ h⟩))
      · exact .inr (.inr (.inr ⟨x, List.mem_cons_of_mem _ h⟩))
  | @num used n w b ts _ hu _ hl ih =>
    intro f h
    rcases ih f ((List.mem_cons.1 h).resolve_left fun e => nomatch e) with h | h | ⟨a, h⟩ | ⟨x, h⟩
    · exact .inl h
    · rcases List.mem_cons.1 h with rfl | h
      · exact .inr (.inr (.inl ⟨b, List.mem_cons_self ..⟩))
      · exact .inr (.inl h)
    · exact .inr (.inr (.inl ⟨a, List.mem_cons_of_mem _ h⟩))
    · exact .inr (.inr (.inr ⟨x, List.mem_cons_of_mem _ h⟩))
  | @str used n w b ts _ _ _ hu hl ih =>
    intro f h
    rcases ih f ((List.mem_cons.1 h).resolve_left fun e => nomatch e) with h | h | ⟨a, h⟩ | ⟨x, h⟩
    · exact .inl h
    · rcases List.mem_cons.1 h with rfl | h
      · exact .inr (.inr (.inr ⟨b, List.mem_cons_self ..⟩))
      · exact .inr (.inl h)
    · exact .inr (.inr (.inl ⟨a, List.mem_cons_of_mem _ h⟩))
    · exact .inr (.inr (.inr ⟨x, List.mem_cons_of_mem _ h⟩))
  | file _ _ _ ih =>
    intro f h
    rcases ih f ((List.mem_cons.1 h).resolve_left fun e => nomatch e) with h | h | ⟨a, h⟩ | ⟨x, h⟩
    · exact .inl h
    · exact .inr (.inl h)
    · exact .inr (.inr (.inl ⟨a, List.mem_cons_of_mem _ h⟩))
    · exact .inr (.inr (.inr ⟨x, List.mem_cons_of_mem _ h⟩))
  | blank _ ih =>
    intro f h
    rcases ih f ((List.mem_cons.1 h).resolve_left fun e => nomatch e) with h | h | ⟨a, h⟩ | ⟨x, h⟩
    · exact .inl h
    · exact .inr (.inl h)
    · exact .inr (.inr (.inl ⟨a, List.mem_cons_of_mem _ h⟩))
    · exact .inr (.inr (.inr ⟨x, List.mem_cons_of_mem _ h⟩))

/-- the elements of a command line are those of the application -/
theorem line_elem {app : App} {used : List Str} {n : Nat} {ts : List Tok} (h : Line app used n ts) :
    (∀ v a, .num v a ∈ ts → v ++ " <n>".toList ∈ app.keys ∧ (app.conv a).isSome) ∧ ∀ t x, .str t x ∈ ts → t ++ ' ' :: x ∈ app.keys ∧ t ++ " <n>".toList ∉ app.keys := by
  induction h with
  | nil => exact ⟨fun _ _ h => (nomatch h), fun _ _ h => (nomatch h)⟩
  | @flag used n f ts hf _ ih =>
    exact ⟨fun v a h => ih.1 v a ((List.mem_cons.1 h).resolve_left fun e => nomatch e), fun v a h => ih.2 v a ((List.mem_cons.1 h).resolve_left fun e => nomatch e)⟩
  | @num used n w b ts hw hu hb hl ih =>
    refine ⟨fun v a h => ?_, fun v a h => ih.2 v a ((List.mem_cons.1 h).resolve_left fun e => nomatch e)⟩
    rcases List.mem_cons.1 h with e | h
    · injection e with e1 e2
      subst e1 e2
      exact ⟨hw, hb⟩
    · exact ih.1 v a h
  | @str used n w b ts _ hw hn hu hl ih =>
    refine ⟨fun v a h => ih.1 v a ((List.mem_cons.1 h).resolve_left fun e => nomatch e), fun v a h => ?_⟩
    rcases List.mem_cons.1 h with e | h
    · injection e with e1 e2
      subst e1 e2
      exact ⟨hw, hn⟩
    · exact ih.2 v a h
  | file _ _ _ ih => exact ⟨fun v a h => ih.1 v a ((List.mem_cons.1 h).resolve_left fun e => nomatch e), fun v a h => ih.2 v a ((List.mem_cons.1 h).resolve_left fun e => nomatch e)⟩
  | blank _ ih => exact ⟨fun v a h => ih.1 v a ((List.mem_cons.1 h).resolve_left fun e => nomatch e), fun v a h => ih.2 v a ((List.mem_cons.1 h).resolve_left fun e => nomatch e)⟩

end Args

end TdZdd
