import Verif.AppArgsProofs

/-!
# C85: the command lines of the applications

`Line` is the grammar of the command lines that an application accepts, and `Reads` is what they mean. Options and file names may come in any order. An option with a value (`-lb 3`, `-t cycle`) takes its value only the first time; the applications take it
for a flag if it is given once more, and the second value for a file name.
-/

namespace TdZdd

namespace Args

open Gz IStr

theorem good_ddpaths : ddpaths.Good := by decide +kernel

theorem good_graphillion : graphillion.Good := by decide +kernel

theorem good_cnfbdd : cnfbdd.Good := by decide +kernel

theorem good_cnf2ztdd2bdd : cnf2ztdd2bdd.Good := by decide +kernel

theorem good_ddnumlin : ddnumlin.Good := by decide +kernel

/-- the maps and the file names for a command line: an option is on if it has been given, a value is the one that has been given, and all other values are the initial ones -/
structure Reads (app : App) (num₀ : List (Str × Int)) (str₀ : List (Str × Str)) (ts : List Tok) (st : St) : Prop where
  opt : ∀ k, at' st.opt k false = true ↔ Given ts k
  num : ∀ v a x d, .num v a ∈ ts → app.conv a = some x → at' st.num v d = x
  noNum : ∀ v d, (∀ a, .num v a ∉ ts) → at' st.num v d = at' num₀ v d
  str : ∀ t x d, .str t x ∈ ts → at' st.str t d = x
  noStr : ∀ t d, (∀ x, .str t x ∉ ts) → at' st.str t d = at' str₀ t d
  files : st.files = ts.filterMap fileOf

theorem reads_foldl {app : App} {num : List (Str × Int)} {str : List (Str × Str)} {n : Nat} {ts : List Tok} (h : Line app [] n ts) : Reads app num str ts (ts.foldl (Tok.act app) (app.init num str)) where
  opt k := by
    rw [opt_foldl]
    have : at' (app.init num str).opt k false = false := (keys_foldl app.keys [] k).2 rfl
    rw [this]
    exact ⟨fun h => h.elim (fun e => nomatch e) id, .inr⟩
  num v a x d h1 h2 := num_some h d _ v a x h1 h2
  noNum v d h1 := num_none app v d ts _ h1
  str t x d h1 := str_some h d _ t x h1
  noStr v d h1 := str_none app v d ts _ h1
  files := by rw [files_foldl]; rfl

theorem init_files {app : App} {num : List (Str × Int)} {str : List (Str × Str)} : (app.init num str).files.length + app.files = app.files := Nat.zero_add _

/-- the loop and the rest of the arguments, after a command line of the grammar -/
theorem loop_prefix {app : App} (hg : app.Good) {num : List (Str × Int)} {str : List (Str × Str)} {ts : List Tok} (h : Line app [] app.files ts) (rest : List Str) :
    app.loop (ts.flatMap Tok.text ++ rest) (app.init num str) = app.loop rest (ts.foldl (Tok.act app) (app.init num str)) :=
  loop_line hg h _ rest (inv_init app num str) init_files

/-- **C85**: a command line of the grammar is accepted, and the maps have the values that have been given. -/
theorem _root_.TdZdd.C85_read {app : App} (hg : app.Good) (num : List (Str × Int)) (str : List (Str × Str)) {ts : List Tok} (h : Line app [] app.files ts) (hf : app.need = true → ts.filterMap fileOf ≠ []) :
    ∃ st, app.parse num str (ts.flatMap Tok.text) = .ok st ∧ Reads app num str ts st := by
  have hr := reads_foldl (num := num) (str := str) h
  refine ⟨_, ?_, hr⟩
  have := loop_prefix hg (num := num) (str := str) h []
  rw [List.append_nil, App.loop] at this
  unfold App.parse
  rw [this]
  show (if _ then _ else _) = _
  rw [if_neg]
  rw [hr.files, Bool.and_eq_true, List.isEmpty_iff]
  exact fun e => hf e.1 e.2

/-- **C85**: nothing else is accepted. -/
theorem _root_.TdZdd.C85_accept {app : App} (hg : app.Good) {num : List (Str × Int)} {str : List (Str × Str)} {args : List Str} {st : St} (h : app.parse num str args = .ok st) :
    ∃ ts, args = ts.flatMap Tok.text ∧ Line app [] app.files ts ∧ (app.need = true → ts.filterMap fileOf ≠ []) ∧ Reads app num str ts st := by
  unfold App.parse at h
  cases hl : app.loop args (app.init num str) with
  | thrown => rw [hl] at h; nomatch h
  | ub => rw [hl] at h; nomatch h
  | ok st1 =>
    rw [hl] at h
    replace h : (if app.need && st1.files.isEmpty then Res.thrown else .ok st1) = .ok st := h
    obtain ⟨ts, h1, h2, h3⟩ := line_of_loop args.length args (Nat.le_refl _) [] _ st1 (inv_init app num str) hg (Nat.zero_le _) hl
    replace h2 : Line app [] app.files ts := h2
    have hr := reads_foldl (num := num) (str := str) h2
    rw [← h3] at hr
    by_cases hn : (app.need && st1.files.isEmpty) = true
    · rw [if_pos hn] at h; nomatch h
    · rw [if_neg hn] at h
      injection h with h
      subst h
      refine ⟨ts, h1, h2, fun e1 e2 => hn ?_, hr⟩
      rw [e1, hr.files, e2]
      rfl

theorem names_iff {k : Str} : ∀ {ts : List Tok}, k ∈ names ts ↔ (∃ a, .num k a ∈ ts) ∨ ∃ x, .str k x ∈ ts
  | [] => by simp [names]
  | .flag f :: ts => by
    have e : names (.flag f :: ts) = names ts := rfl
    rw [e, names_iff]
    simp
  | .file f :: ts => by
    have e : names (.file f :: ts) = names ts := rfl
    rw [e, names_iff]
    simp
  | .num v a :: ts => by
    rw [names, List.mem_cons, names_iff]
    constructor
    · rintro (rfl | ⟨b, h⟩ | ⟨x, h⟩)
      · exact .inl ⟨a, List.mem_cons_self ..⟩
      · exact .inl ⟨b, List.mem_cons_of_mem _ h⟩
      · exact .inr ⟨x, List.mem_cons_of_mem _ h⟩
    · rintro (⟨b, h⟩ | ⟨x, h⟩)
      · rcases List.mem_cons.1 h with e | h
        · injection e with e; exact .inl e
        · exact .inr (.inl ⟨b, h⟩)
      · exact .inr (.inr ⟨x, (List.mem_cons.1 h).resolve_left fun e => nomatch e⟩)
  | .str v a :: ts => by
    rw [names, List.mem_cons, names_iff]
    constructor
    · rintro (rfl | ⟨b, h⟩ | ⟨x, h⟩)
      · exact .inr ⟨a, List.mem_cons_self ..⟩
      · exact .inl ⟨b, List.mem_cons_of_mem _ h⟩
      · exact .inr ⟨x, List.mem_cons_of_mem _ h⟩
    · rintro (⟨b, h⟩ | ⟨x, h⟩)
      · exact .inr (.inl ⟨b, (List.mem_cons.1 h).resolve_left fun e => nomatch e⟩)
      · rcases List.mem_cons.1 h with e | h
        · injection e with e; exact .inl e
        · exact .inr (.inr ⟨x, h⟩)

/-- **C85**: an unknown option is an error wherever it is; so is an option whose value is missing or not one of the words that the option has. -/
theorem _root_.TdZdd.C85_unknown {app : App} (hg : app.Good) (num : List (Str × Int)) (str : List (Str × Str)) {ts : List Tok} (h : Line app [] app.files ts) {s : Str} {rest : List Str} (ho : app.isOpt ('-' :: s) = true)
    (hk : s ∉ app.keys) (hu : s ∉ names ts) (hv : ∀ b r, rest = b :: r → s ++ " <n>".toList ∉ app.keys ∧ (app.strs = true → s ++ ' ' :: b ∉ app.keys)) :
    app.parse num str (ts.flatMap Tok.text ++ ('-' :: s) :: rest) = .thrown := by
  unfold App.parse
  rw [loop_prefix hg h]
  obtain ⟨used, hused, hi⟩ := inv_foldl hg h _ (inv_init app num str)
  rw [loop_cons, List.tail_cons, if_pos ho, if_neg]
  · cases rest with
    | nil => rfl
    | cons b r =>
      obtain ⟨h1, h2⟩ := hv b r rfl
      dsimp only
      rw [if_neg fun e => h1 ((hi.space (List.mem_append.2 (.inr (by simp)))).1 e), if_neg]
      · rfl
      · rw [Bool.and_eq_true]
        exact fun e => h2 e.1 ((hi.space (List.mem_append.2 (.inr (by simp)))).1 e.2)
  · intro e
    rcases (hi.1 s).1 e with e | e
    · exact hk e
    · exact ((hused s).1 e).elim (fun e => nomatch e) hu

/-- **C85**: one file name more than the application takes is an error. -/
theorem _root_.TdZdd.C85_too_many {app : App} (hg : app.Good) (num : List (Str × Int)) (str : List (Str × Str)) {ts : List Tok} (h : Line app [] app.files ts) (hf : (ts.filterMap fileOf).length = app.files) {a : Str} (ha : app.isOpt a = false)
    (rest : List Str) : app.parse num str (ts.flatMap Tok.text ++ a :: rest) = .thrown := by
  unfold App.parse
  rw [loop_prefix hg h, loop_cons, if_neg (by rw [ha]; exact Bool.false_ne_true), App.file, (reads_foldl (num := num) (str := str) h).files, if_neg (by omega)]
  rfl

/-- **C85**: a command line without a file name is an error if the application needs one. -/
theorem _root_.TdZdd.C85_missing {app : App} (hg : app.Good) (num : List (Str × Int)) (str : List (Str × Str)) {ts : List Tok} (h : Line app [] app.files ts) (hn : app.need = true) (hf : ts.filterMap fileOf = []) :
    app.parse num str (ts.flatMap Tok.text) = .thrown := by
  have := loop_prefix hg (num := num) (str := str) h []
  rw [List.append_nil, App.loop] at this
  unfold App.parse
  rw [this]
  show (if _ then _ else _) = _
  rw [if_pos]
  rw [hn, (reads_foldl (num := num) (str := str) h).files, hf]
  rfl

/-- **C85**: a value for which `atoi` is not defined (a number that is not an `int`) makes the program undefined. -/
theorem _root_.TdZdd.C85_ub {app : App} (hg : app.Good) (num : List (Str × Int)) (str : List (Str × Str)) {ts : List Tok} (h : Line app [] app.files ts) {v a : Str} (hv : v ++ " <n>".toList ∈ app.keys) (hu : v ∉ names ts) (ha : app.conv a = none)
    (rest : List Str) : app.parse num str (ts.flatMap Tok.text ++ ('-' :: v) :: a :: rest) = .ub := by
  unfold App.parse
  rw [loop_prefix hg h]
  obtain ⟨used, hused, hi⟩ := inv_foldl hg h _ (inv_init app num str)
  obtain ⟨h1, h2, h3⟩ := hg.name (x := "<n>".toList) hv
  rw [loop_cons, List.tail_cons, if_pos (dash_isOpt h2), if_neg]
  · dsimp only
    rw [if_pos ((hi.space (List.mem_append.2 (.inr (by simp)))).2 hv), ha]
    rfl
  · intro e
    rcases (hi.1 v).1 e with e | e
    · exact h3 e
    · exact ((hused v).1 e).elim (fun e => nomatch e) hu

/-! ## numbers -/

theorem dropWhile_blank {s t : List Char} (hs : ∀ c ∈ s, space c = true) (ht : t.dropWhile space = t) : (s ++ t).dropWhile space = t := by
  induction s with
  | nil => exact ht
  | cons c s ih =>
    rw [List.cons_append, List.dropWhile_cons, if_pos (hs c (List.mem_cons_self ..))]
    exact ih fun x hx => hs x (List.mem_cons_of_mem _ hx)

theorem takeWhile_app {p : Char → Bool} {ds r : List Char} (h : ∀ c ∈ ds, p c = true) (hr : ∀ c r', r = c :: r' → p c = false) : (ds ++ r).takeWhile p = ds := by
  induction ds with
  | nil =>
    cases r with
    | nil => rfl
    | cons c r => rw [List.nil_append, List.takeWhile_cons, hr c r rfl]; rfl
  | cons c ds ih =>
    rw [List.cons_append, List.takeWhile_cons, if_pos (h c (List.mem_cons_self ..)), ih fun x hx => h x (List.mem_cons_of_mem _ hx)]

theorem digit_not {c : Char} (h : digit c = true) : space c = false ∧ c ≠ '-' ∧ c ≠ '+' := by
  unfold digit at h
  rw [Bool.and_eq_true, decide_eq_true_eq, decide_eq_true_eq] at h
  refine ⟨?_, ?_, ?_⟩
  · have : c ≠ ' ' := by rintro rfl; exact absurd h.1 (by decide)
    unfold space
    rw [decide_eq_false this, Bool.false_or, Bool.and_eq_false_iff]
    exact .inr (decide_eq_false (by omega))
  · rintro rfl; exact absurd h.1 (by decide)
  · rintro rfl; exact absurd h.1 (by decide)

theorem sign_digit {c : Char} {r : List Char} (h : digit c = true) : sign (c :: r) = (false, c :: r) := by
  obtain ⟨_, h1, h2⟩ := digit_not h
  unfold sign
  split
  · rename_i e; injection e with e; exact absurd e h1
  · rename_i e; injection e with e; exact absurd e h2
  · rfl

/-- the sign and the digits of an integer between white space and another text -/
theorem sign_integer {s i r : List Char} {x : Int} (hs : Blank s) (hi : Integer i x) : ∃ b ds v, sign ((s ++ (i ++ r)).dropWhile space) = (b, ds ++ r) ∧ Numeral ds v ∧ x = (if b then -(v : Int) else v) ∧ (i = ds ∨ i = '-' :: ds) := by
  cases hi with
  | @pos _ v hn =>
    obtain ⟨h1, h2, h3⟩ := hn.spec
    refine ⟨false, i, v, ?_, hn, rfl, .inl rfl⟩
    cases i with
    | nil => exact absurd rfl h1
    | cons c ds =>
      have hc := h2 c (List.mem_cons_self ..)
      rw [dropWhile_blank hs.sp, List.cons_append, sign_digit hc]
      rw [List.cons_append, List.dropWhile_cons, (digit_not hc).1]
      rfl
  | @neg ds v hn =>
    refine ⟨true, ds, v, ?_, hn, rfl, .inr rfl⟩
    rw [dropWhile_blank hs.sp]
    · rfl
    · rw [List.cons_append, List.dropWhile_cons]
      rfl

theorem atoi_le {s : Str} {x : Int} (h : atoi s = some x) : x ≤ 2147483647 := by
  unfold atoi at h
  dsimp only at h
  generalize (if (sign (List.dropWhile space s)).fst = true then -(digitsVal (List.takeWhile digit (sign (List.dropWhile space s)).snd) : Int) else digitsVal (List.takeWhile digit (sign (List.dropWhile space s)).snd)) = y at h
  by_cases hy : -2147483648 ≤ y ∧ y ≤ 2147483647
  · rw [if_pos hy] at h
    injection h with h
    omega
  · rw [if_neg hy] at h; nomatch h

/-- **C85**: `atoi` reads a decimal integer if it is an `int`; white space before it and any text after it are skipped. It is undefined for other integers. -/
theorem _root_.TdZdd.C85_atoi {s i r : List Char} {x : Int} (hs : Blank s) (hi : Integer i x) (hr : ∀ c r', r = c :: r' → ¬('0' ≤ c ∧ c ≤ '9')) :
    atoi (s ++ (i ++ r)) = if -2 ^ 31 ≤ x ∧ x < 2 ^ 31 then some x else none := by
  obtain ⟨b, ds, v, h1, h2, h3, _⟩ := sign_integer (r := r) hs hi
  obtain ⟨h4, h5, h6⟩ := h2.spec
  unfold atoi
  rw [h1]
  dsimp only
  rw [takeWhile_app h5 fun c r' e => Bool.eq_false_iff.2 fun hd => hr c r' e (digit_iff.1 hd), h6, ← h3]
  by_cases hx : -2147483648 ≤ x ∧ x ≤ 2147483647
  · rw [if_pos hx, if_pos (by omega)]
  · rw [if_neg hx, if_neg (by omega)]

/-- **C85**: a text without a number is a 0. -/
theorem _root_.TdZdd.C85_atoi_none {c : Char} {r : List Char} (hb : ¬Blank [c]) (hd : ¬('0' ≤ c ∧ c ≤ '9')) (hm : c ≠ '-') (hp : c ≠ '+') : atoi (c :: r) = some 0 := by
  have h1 : space c = false := Bool.eq_false_iff.2 fun h => hb fun x hx => by rw [List.mem_singleton] at hx; subst hx; exact blank_iff.1 h
  have h2 : digit c = false := Bool.eq_false_iff.2 fun h => hd (digit_iff.1 h)
  have h3 : sign (c :: r) = (false, c :: r) := by
    unfold sign
    split
    · rename_i e; injection e with e; exact absurd e hm
    · rename_i e; injection e with e; exact absurd e hp
    · rfl
  unfold atoi
  rw [List.dropWhile_cons, h1]
  simp only [Bool.false_eq_true, if_false, h3, List.takeWhile_cons, h2]
  decide

theorem digitOf_lt {c : Char} : digitOf c < 10 ↔ digit c = true := by
  unfold digitOf
  constructor
  · intro h
    by_cases hd : digit c = true
    · exact hd
    · rw [if_neg hd] at h
      split at h
      · omega
      · split at h <;> omega
  · intro hd
    rw [if_pos hd]
    unfold digit at hd
    rw [Bool.and_eq_true, decide_eq_true_eq, decide_eq_true_eq] at hd
    omega

theorem valueIn_ten {ds r : List Char} (h : ∀ c ∈ ds, digit c = true) (hr : ∀ c r', r = c :: r' → digit c = false) : valueIn 10 (ds ++ r) = digitsVal ds := by
  unfold valueIn
  rw [takeWhile_app (fun c hc => decide_eq_true (digitOf_lt.2 (h c hc))) fun c r' e => decide_eq_false fun hd => Bool.eq_false_iff.1 (hr c r' e) (digitOf_lt.1 hd)]
  unfold digitsVal
  generalize 0 = a
  induction ds generalizing a with
  | nil => rfl
  | cons c ds ih =>
    rw [List.foldl_cons, List.foldl_cons, ih fun x hx => h x (List.mem_cons_of_mem _ hx)]
    unfold digitOf
    rw [if_pos (h c (List.mem_cons_self ..))]

/-- **C85**: `strtol` reads a decimal integer that does not begin with 0; numbers that are too large are replaced by the largest or the least `long`. -/
theorem _root_.TdZdd.C85_strtol {s i r : List Char} {x : Int} (hs : Blank s) (hi : Integer i x) (h0 : i.head? ≠ some '0' ∧ i.take 2 ≠ ['-', '0']) (hr : ∀ c r', r = c :: r' → ¬('0' ≤ c ∧ c ≤ '9')) :
    strtol (s ++ (i ++ r)) = some (if x < -2 ^ 63 then -2 ^ 63 else if 2 ^ 63 - 1 < x then 2 ^ 63 - 1 else x) := by
  obtain ⟨b, ds, v, h1, h2, h3, h7⟩ := sign_integer (r := r) hs hi
  obtain ⟨h4, h5, h6⟩ := h2.spec
  unfold strtol
  rw [h1]
  dsimp only
  have hv : autoBase (ds ++ r) = v := by
    rw [← h6, ← valueIn_ten h5 fun c r' e => Bool.eq_false_iff.2 fun hd => hr c r' e (digit_iff.1 hd)]
    cases ds with
    | nil => exact absurd rfl h4
    | cons c ds =>
      have hc : c ≠ '0' := by
        rintro rfl
        rcases h7 with rfl | rfl
        · exact h0.1 rfl
        · exact h0.2 rfl
      rw [List.cons_append]
      unfold autoBase
      split
      · rename_i e; injection e with e; exact absurd e hc
      · rename_i e; injection e with e; exact absurd e hc
      · rfl
  rw [hv, ← h3]
  rfl

example : atoi "12x".toList = some 12 ∧ atoi " -7".toList = some (-7) ∧ atoi "abc".toList = some 0 ∧ atoi "2147483648".toList = none ∧ strtol "010".toList = some 8 ∧ strtol "-0x1F".toList = some (-31) ∧ strtol "0x".toList = some 0 ∧
    strtol "99999999999999999999".toList = some 9223372036854775807 := by decide +kernel

/-! ## the options of the applications -/

/-- an option without a value is on iff it has been given -/
theorem Reads.flag {app : App} (hg : app.Good) {num : List (Str × Int)} {str : List (Str × Str)} {ts : List Tok} {st : St} {n : Nat} (hl : Line app [] n ts) (h : Reads app num str ts st) (k : String) (hk : k.toList ∈ app.keys) :
    st.has k = true ↔ .flag k.toList ∈ ts := by
  unfold St.has
  rw [h.opt]
  refine ⟨fun e => ?_, .inl⟩
  rcases e with e | ⟨a, e⟩ | ⟨x, e⟩
  · exact e
  · exact absurd hk (hg.name (x := "<n>".toList) ((line_elem hl).1 _ _ e).1).2.2
  · exact absurd hk (hg.name ((line_elem hl).2 _ _ e).1).2.2

/-- a number has been given, and this is the value of the option -/
def NumGiven (app : App) (ts : List Tok) (k : String) (o : Option Int) : Prop :=
  (∀ a, .num k.toList a ∈ ts → o = app.conv a) ∧ ((∀ a, .num k.toList a ∉ ts) → o = none)

theorem Reads.numOf {app : App} (hg : app.Good) {num : List (Str × Int)} {str : List (Str × Str)} {ts : List Tok} {st : St} {n : Nat} (hl : Line app [] n ts) (h : Reads app num str ts st) (k : String) (hk : k.toList ++ " <n>".toList ∈ app.keys) :
    NumGiven app ts k (st.numOf k) := by
  unfold NumGiven St.numOf St.has
  refine ⟨fun a ha => ?_, fun hn => ?_⟩
  · rw [if_pos ((h.opt _).2 (.inr (.inl ⟨a, ha⟩)))]
    obtain ⟨x, hx⟩ := Option.isSome_iff_exists.1 ((line_elem hl).1 _ _ ha).2
    rw [h.num _ _ x _ ha hx, hx]
  · refine if_neg fun e => ?_
    rcases (h.opt _).1 e with e | ⟨a, e⟩ | ⟨x, e⟩
    · rcases line_flag hl _ e with e | e | ⟨a, e⟩ | ⟨x, e⟩
      · exact (hg.name (x := "<n>".toList) hk).2.2 e
      · nomatch e
      · exact hn a e
      · exact ((line_elem hl).2 _ _ e).2 hk
    · exact hn a e
    · exact ((line_elem hl).2 _ _ e).2 hk

/-- **C85**: the options of `ddpaths`, as the model of the application takes them. -/
theorem _root_.TdZdd.C85_ddpaths {args : List Str} {st : St} (h : ddpaths.parse limits [("t".toList, "path".toList)] args = .ok st) :
    ∃ ts o, args = ts.flatMap Tok.text ∧ Line ddpaths [] 2 ts ∧ ddpathsOpts st = some o ∧ (o.hamilton ↔ .flag "hamilton".toList ∈ ts) ∧ (o.slow ↔ .flag "slow".toList ∈ ts) ∧ (o.nola ↔ .flag "nola".toList ∈ ts) ∧ (o.p ↔ .flag "p".toList ∈ ts) ∧
      (o.dc ↔ .flag "dc".toList ∈ ts) ∧ (o.nored ↔ .flag "nored".toList ∈ ts) ∧ NumGiven ddpaths ts "lb" o.lb ∧ NumGiven ddpaths ts "ub" o.ub ∧ (∀ a, .num "uec".toList a ∈ ts → atoi a = some o.uec) ∧ ((∀ a, .num "uec".toList a ∉ ts) → o.uec = -1) ∧
      (∀ x, .str "t".toList x ∈ ts → kindOf x = some o.kind) ∧ ((∀ x, .str "t".toList x ∉ ts) → o.kind = .path) ∧ st.files = ts.filterMap fileOf ∧ st.files ≠ [] := by
  obtain ⟨ts, h1, h2, h3, hr⟩ := C85_accept good_ddpaths h
  have hk : ∃ k, kindOf (at' st.str "t".toList []) = some k ∧ (∀ x, .str "t".toList x ∈ ts → kindOf x = some k) ∧ ((∀ x, .str "t".toList x ∉ ts) → k = .path) := by
    by_cases hx : ∃ x, Tok.str "t".toList x ∈ ts
    · obtain ⟨x, hx⟩ := hx
      have hkx : ∃ k, kindOf x = some k := by
        have := ((line_elem h2).2 _ _ hx).1
        have hall : ∀ k ∈ ddpaths.keys, k.take 2 = "t ".toList → (kindOf (k.drop 2)).isSome := by decide +kernel
        exact Option.isSome_iff_exists.1 (hall _ this rfl)
      obtain ⟨k, hk⟩ := hkx
      refine ⟨k, by rw [hr.str _ _ _ hx, hk], fun y hy => ?_, fun hn => absurd hx (hn x)⟩
      rw [← hr.str _ _ [] hy, hr.str _ _ _ hx, hk]
    · have hn : ∀ x, Tok.str "t".toList x ∉ ts := fun x e => hx ⟨x, e⟩
      exact ⟨.path, by rw [hr.noStr _ _ hn]; decide +kernel, fun x e => absurd e (hn x), fun _ => rfl⟩
  obtain ⟨k, k1, k2, k3⟩ := hk
  refine ⟨ts, _, h1, h2, by unfold ddpathsOpts; rw [k1]; rfl, hr.flag good_ddpaths h2 "hamilton" (by decide +kernel), hr.flag good_ddpaths h2 "slow" (by decide +kernel), hr.flag good_ddpaths h2 "nola" (by decide +kernel),
    hr.flag good_ddpaths h2 "p" (by decide +kernel), hr.flag good_ddpaths h2 "dc" (by decide +kernel), hr.flag good_ddpaths h2 "nored" (by decide +kernel), hr.numOf good_ddpaths h2 "lb" (by decide +kernel), hr.numOf good_ddpaths h2 "ub" (by decide +kernel),
    fun a ha => ?_, fun hn => (hr.noNum _ 0 hn).trans (show at' limits "uec".toList 0 = -1 by decide +kernel), k2, k3, hr.files, by rw [hr.files]; exact h3 rfl⟩
  obtain ⟨x, hx⟩ := Option.isSome_iff_exists.1 ((line_elem h2).1 _ _ ha).2
  exact (hx : atoi a = some x).trans (congrArg some (hr.num _ _ x _ ha hx).symm)

/-- **C85**: the options of `graphillion_example`, as the model of the application takes them. -/
theorem _root_.TdZdd.C85_graphillion {args : List Str} {st : St} (h : graphillion.parse limits [] args = .ok st) :
    ∃ ts, args = ts.flatMap Tok.text ∧ Line graphillion [] 2 ts ∧ ((graphillionOpts st).path ↔ .flag "path".toList ∈ ts) ∧ ((graphillionOpts st).matching ↔ .flag "matching".toList ∈ ts) ∧ ((graphillionOpts st).spanning ↔ .flag "spanning".toList ∈ ts) ∧
      ((graphillionOpts st).noloop ↔ .flag "noloop".toList ∈ ts) ∧ ((graphillionOpts st).st ↔ .flag "st".toList ∈ ts) ∧ ((graphillionOpts st).nola ↔ .flag "nola".toList ∈ ts) ∧ ((graphillionOpts st).a ↔ .flag "a".toList ∈ ts) ∧
      NumGiven graphillion ts "uec" (graphillionOpts st).uec ∧ NumGiven graphillion ts "lb" (graphillionOpts st).lb ∧ NumGiven graphillion ts "ub" (graphillionOpts st).ub ∧ st.files = ts.filterMap fileOf := by
  obtain ⟨ts, h1, h2, h3, hr⟩ := C85_accept good_graphillion h
  exact ⟨ts, h1, h2, hr.flag good_graphillion h2 "path" (by decide +kernel), hr.flag good_graphillion h2 "matching" (by decide +kernel), hr.flag good_graphillion h2 "spanning" (by decide +kernel), hr.flag good_graphillion h2 "noloop" (by decide +kernel),
    hr.flag good_graphillion h2 "st" (by decide +kernel), hr.flag good_graphillion h2 "nola" (by decide +kernel), hr.flag good_graphillion h2 "a" (by decide +kernel), hr.numOf good_graphillion h2 "uec" (by decide +kernel),
    hr.numOf good_graphillion h2 "lb" (by decide +kernel), hr.numOf good_graphillion h2 "ub" (by decide +kernel), hr.files⟩

/-- **C85**: the options of `cnfbdd`, as the model of the application takes them: the limit is that of `-limit` if it is not negative, 0 with `-b`, and the largest `int` without either. -/
theorem _root_.TdZdd.C85_cnfbdd {args : List Str} {st : St} (h : cnfbdd.parse [] [] args = .ok st) :
    ∃ ts, args = ts.flatMap Tok.text ∧ Line cnfbdd [] 2 ts ∧ ((cnfbddOpts st).sort ↔ .flag "s".toList ∈ ts) ∧ ((cnfbddOpts st).useMap ↔ .flag "c".toList ∉ ts) ∧ ((cnfbddOpts st).limit = none ↔ .flag "n".toList ∈ ts) ∧
      (.flag "n".toList ∉ ts → .flag "b".toList ∈ ts → (cnfbddOpts st).limit = some 0) ∧ (.flag "n".toList ∉ ts → .flag "b".toList ∉ ts → (∀ a, .num "limit".toList a ∉ ts) → (cnfbddOpts st).limit = some 2147483647) ∧
      (.flag "n".toList ∉ ts → .flag "b".toList ∉ ts → ∀ a x, .num "limit".toList a ∈ ts → atoi a = some x → 0 ≤ x → (cnfbddOpts st).limit = some x.toNat) ∧ st.files = ts.filterMap fileOf ∧ st.files ≠ [] := by
  obtain ⟨ts, h1, h2, h3, hr⟩ := C85_accept good_cnfbdd h
  have hs := hr.flag good_cnfbdd h2 "s" (by decide +kernel)
  have hc := hr.flag good_cnfbdd h2 "c" (by decide +kernel)
  have hn := hr.flag good_cnfbdd h2 "n" (by decide +kernel)
  have hb := hr.flag good_cnfbdd h2 "b" (by decide +kernel)
  have hm := hr.numOf good_cnfbdd h2 "limit" (by decide +kernel)
  refine ⟨ts, h1, h2, hs, ?_, ?_, fun n b => ?_, fun n b l => ?_, fun n b a x ha hx h0 => ?_, hr.files, by rw [hr.files]; exact h3 rfl⟩
  · show (!st.has "c") = true ↔ _
    rw [← hc]
    cases st.has "c" <;> simp
  · show (if st.has "n" then none else some _) = none ↔ _
    rw [← hn]
    cases st.has "n" <;> simp
  · show (if st.has "n" then none else some _) = _
    rw [if_neg fun e => n (hn.1 e), if_pos (hb.2 b)]
  · show (if st.has "n" then none else some _) = _
    rw [if_neg fun e => n (hn.1 e), if_neg fun e => b (hb.1 e), hm.2 l]
    rfl
  · show (if st.has "n" then none else some _) = _
    rw [if_neg fun e => n (hn.1 e), if_neg fun e => b (hb.1 e), hm.1 a ha]
    show some ((((atoi a).getD 2147483647) % 18446744073709551616).toNat) = _
    have hx' := atoi_le hx
    rw [hx, Option.getD_some, Int.emod_eq_of_lt h0 (by omega)]

/-- **C85**: the options of `ddnumlin`: `-a`, the number of blank boxes if it is an `int`, and the number of solutions. -/
theorem _root_.TdZdd.C85_ddnumlin {args : List Str} {st : St} (h : ddnumlin.parse [] [] args = .ok st) :
    ∃ ts, args = ts.flatMap Tok.text ∧ Line ddnumlin [] 1 ts ∧ ((ddnumlinOpts st).1 ↔ .flag "a".toList ∈ ts) ∧ ((∀ a, .num "k".toList a ∉ ts) → (ddnumlinOpts st).2.1 = -1) ∧ ((∀ a, .num "m".toList a ∉ ts) → (ddnumlinOpts st).2.2 = 10) ∧
      (∀ a x, .num "k".toList a ∈ ts → strtol a = some x → -2147483648 ≤ x → x ≤ 2147483647 → (ddnumlinOpts st).2.1 = x) ∧ (∀ a x, .num "m".toList a ∈ ts → strtol a = some x → (ddnumlinOpts st).2.2 = x) ∧ ∃ f, st.files = [f] ∧ .file f ∈ ts := by
  obtain ⟨ts, h1, h2, h3, hr⟩ := C85_accept good_ddnumlin h
  have hk := hr.numOf good_ddnumlin h2 "k" (by decide +kernel)
  have hm := hr.numOf good_ddnumlin h2 "m" (by decide +kernel)
  refine ⟨ts, h1, h2, hr.flag good_ddnumlin h2 "a" (by decide +kernel), fun hn => ?_, fun hn => ?_, fun a x ha hx hlo hhi => ?_, fun a x ha hx => ?_, ?_⟩
  · show ((st.numOf "k").getD (-1)).bmod 4294967296 = _
    rw [hk.2 hn]
    rfl
  · show (st.numOf "m").getD 10 = _
    rw [hm.2 hn]
    rfl
  · show ((st.numOf "k").getD (-1)).bmod 4294967296 = _
    rw [hk.1 a ha, show ddnumlin.conv a = some x from hx, Option.getD_some]
    exact Int.bmod_eq_of_le (by omega) (by omega)
  · show (st.numOf "m").getD 10 = _
    rw [hm.1 a ha, show ddnumlin.conv a = some x from hx]
    rfl
  · have hlen : ∀ {used n} {ts : List Tok}, Line ddnumlin used n ts → (ts.filterMap fileOf).length ≤ n := by
      intro used n ts hl
      induction hl with
      | nil => exact Nat.zero_le _
      | flag _ _ ih => exact ih
      | num _ _ _ _ ih => exact ih
      | str _ _ _ _ _ ih => exact ih
      | file hs _ _ ih =>
        rw [List.filterMap_cons_some (by rw [fileOf, if_neg hs]), List.length_cons]
        omega
      | blank _ ih => exact ih
    have hl : (ts.filterMap fileOf).length ≤ 1 := hlen h2
    have hne := h3 rfl
    rw [hr.files]
    cases e : ts.filterMap fileOf with
    | nil => exact absurd e hne
    | cons f fs =>
      rw [e] at hl
      have : fs = [] := List.length_eq_zero_iff.1 (by rw [List.length_cons] at hl; omega)
      subst this
      refine ⟨f, rfl, ?_⟩
      have hf : f ∈ ts.filterMap fileOf := by rw [e]; exact List.mem_cons_self ..
      obtain ⟨t, ht, hft⟩ := List.mem_filterMap.1 hf
      cases t with
      | file s =>
        rw [fileOf] at hft
        split at hft
        · nomatch hft
        · injection hft with hft; exact hft ▸ ht
      | flag _ => nomatch hft
      | num _ _ => nomatch hft
      | str _ _ => nomatch hft

/-! ## `ddqueens` -/

theorem queensLoop_ok : ∀ {args : List Str} {m m' : List (Str × Bool)} {n n' : Int}, queensLoop args (m, n) = .ok (m', n') → (∀ k, count m k = true ↔ k ∈ queensKeys) →
    (∀ a ∈ args, a.head? = some '-' → a.tail ∈ queensKeys) ∧ (∀ k, at' m' k false = true ↔ at' m k false = true ∨ '-' :: k ∈ args) ∧
    ((∀ a ∈ args, a.head? = some '-') ∧ n' = n ∨ n = 0 ∧ ∃ zs a, (args.filter fun a => !decide (a.head? = some '-')) = zs ++ [a] ∧ (∀ z ∈ zs, atoi z = some 0) ∧ atoi a = some n')
  | [], m, m', n, n', h, _ => by
    rw [queensLoop] at h
    injection h with h
    injection h with h1 h2
    subst h1 h2
    exact ⟨fun a h => (nomatch h), fun k => by simp, .inl ⟨fun a h => (nomatch h), rfl⟩⟩
  | a :: rest, m, m', n, n', h, hm => by
    rw [queensLoop] at h
    by_cases ha : a.head? = some '-'
    · rw [if_pos ha] at h
      by_cases hc : count m a.tail = true
      · rw [if_pos hc] at h
        have hk := (hm _).1 hc
        obtain ⟨h1, h2, h3⟩ := queensLoop_ok h fun k => by
          rw [count_setName, hm]
          exact ⟨fun e => e.elim (fun e => e ▸ hk) id, .inr⟩
        have haeq : a = '-' :: a.tail := by
          cases a with
          | nil => nomatch ha
          | cons c s => rw [List.head?_cons] at ha; rw [Option.some.inj ha]; rfl
        refine ⟨fun b hb e => (List.mem_cons.1 hb).elim (fun e' => e' ▸ hk) fun hb => h1 b hb e, fun k => ?_, ?_⟩
        · rw [h2 k, at'_setName, List.mem_cons]
          by_cases e : k = a.tail
          · rw [if_pos e]
            exact ⟨fun _ => .inr (.inl (by rw [e, ← haeq])), fun _ => .inl rfl⟩
          · rw [if_neg e]
            have : '-' :: k ≠ a := fun e' => e (by rw [← e']; rfl)
            constructor
            · rintro (h | h)
              · exact .inl h
              · exact .inr (.inr h)
            · rintro (h | h | h)
              · exact .inl h
              · exact absurd h this
              · exact .inr h
        · rcases h3 with ⟨h3, h4⟩ | ⟨h3, zs, b, h4⟩
          · exact .inl ⟨fun b hb => (List.mem_cons.1 hb).elim (fun e => e ▸ ha) (h3 b), h4⟩
          · refine .inr ⟨h3, zs, b, ?_, h4.2⟩
            rw [List.filter_cons_of_neg (by rw [decide_eq_true ha]; decide)]
            exact h4.1
      · rw [if_neg hc] at h; nomatch h
    · rw [if_neg ha] at h
      have hf : ((a :: rest).filter fun a => !decide (a.head? = some '-')) = a :: rest.filter fun a => !decide (a.head? = some '-') := List.filter_cons_of_pos (by rw [decide_eq_false ha]; rfl)
      by_cases hn : n = 0
      · subst hn
        rw [if_pos rfl] at h
        cases hx : atoi a with
        | none => rw [hx] at h; nomatch h
        | some x =>
          rw [hx] at h
          obtain ⟨h1, h2, h3⟩ := queensLoop_ok h hm
          refine ⟨fun b hb e => (List.mem_cons.1 hb).elim (fun e' => absurd (e' ▸ e) ha) fun hb => h1 b hb e, fun k => ?_, .inr ⟨rfl, ?_⟩⟩
          · rw [h2 k, List.mem_cons]
            refine or_congr Iff.rfl ⟨.inr, fun e => e.elim (fun e => absurd (e ▸ rfl) ha) id⟩
          · rcases h3 with ⟨h3, rfl⟩ | ⟨h3, zs, b, h4, h5, h6⟩
            · refine ⟨[], a, ?_, fun z hz => (nomatch hz), hx⟩
              rw [hf, List.filter_eq_nil_iff.2 fun b hb => by rw [decide_eq_true (h3 b hb)]; decide]
              rfl
            · refine ⟨a :: zs, b, by rw [hf, h4]; rfl, fun z hz => ?_, h6⟩
              rcases List.mem_cons.1 hz with rfl | hz
              · rw [hx, h3]
              · exact h5 z hz
      · rw [if_neg hn] at h; nomatch h

theorem queensLoop_of : ∀ {args : List Str} {m : List (Str × Bool)} {n : Int}, (∀ k, count m k = true ↔ k ∈ queensKeys) → (∀ a ∈ args, a.head? = some '-' → a.tail ∈ queensKeys) →
    (∀ a ∈ args, a.head? = some '-') → ∃ m', queensLoop args (m, n) = .ok (m', n)
  | [], m, n, _, _, _ => ⟨m, rfl⟩
  | a :: rest, m, n, hm, hk, hd => by
    have ha := hd a (List.mem_cons_self ..)
    have hk' := hk a (List.mem_cons_self ..) ha
    obtain ⟨m', h⟩ := queensLoop_of (args := rest) (m := setName m a.tail true) (n := n) (fun k => by
        rw [count_setName, hm]
        exact ⟨fun e => e.elim (fun e => e ▸ hk') id, .inr⟩) (fun b hb => hk b (List.mem_cons_of_mem _ hb)) fun b hb => hd b (List.mem_cons_of_mem _ hb)
    exact ⟨m', by rw [queensLoop, if_pos ha, if_pos ((hm _).2 hk')]; exact h⟩

theorem queensLoop_size : ∀ {args : List Str} {m : List (Str × Bool)} {zs : List Str} {a : Str} {n : Int}, (∀ k, count m k = true ↔ k ∈ queensKeys) → (∀ a ∈ args, a.head? = some '-' → a.tail ∈ queensKeys) →
    (args.filter fun a => !decide (a.head? = some '-')) = zs ++ [a] → (∀ z ∈ zs, atoi z = some 0) → atoi a = some n → ∃ m', queensLoop args (m, 0) = .ok (m', n)
  | [], m, zs, a, n, _, _, hf, _, _ => by
    have := congrArg List.length hf
    rw [List.length_append, List.length_singleton] at this
    exact absurd this (by simp)
  | b :: rest, m, zs, a, n, hm, hk, hf, hz, ha => by
    have hk' : ∀ c ∈ rest, c.head? = some '-' → c.tail ∈ queensKeys := fun c hc => hk c (List.mem_cons_of_mem _ hc)
    by_cases hb : b.head? = some '-'
    · have hkb := hk b (List.mem_cons_self ..) hb
      rw [List.filter_cons_of_neg (by rw [decide_eq_true hb]; decide)] at hf
      obtain ⟨m', h⟩ := queensLoop_size (m := setName m b.tail true) (fun k => by
        rw [count_setName, hm]
        exact ⟨fun e => e.elim (fun e => e ▸ hkb) id, .inr⟩) hk' hf hz ha
      exact ⟨m', by rw [queensLoop, if_pos hb, if_pos ((hm _).2 hkb)]; exact h⟩
    · rw [List.filter_cons_of_pos (by rw [decide_eq_false hb]; rfl)] at hf
      cases zs with
      | nil =>
        injection hf with e1 e2
        subst e1
        obtain ⟨m', h⟩ := queensLoop_of (args := rest) (m := m) (n := n) hm hk' fun c hc => by
          have := List.filter_eq_nil_iff.1 e2 c hc
          rw [Bool.not_eq_true', decide_eq_false_iff_not] at this
          exact Classical.not_not.1 this
        exact ⟨m', by rw [queensLoop, if_neg hb, if_pos rfl, ha]; exact h⟩
      | cons z zs =>
        injection hf with e1 e2
        subst e1
        obtain ⟨m', h⟩ := queensLoop_size hm hk' e2 (fun z hz' => hz z (List.mem_cons_of_mem _ hz')) ha
        exact ⟨m', by rw [queensLoop, if_neg hb, if_pos rfl, hz b (List.mem_cons_self ..)]; exact h⟩

theorem queens_keys (k : Str) : count (queensKeys.foldl (fun m k => setName m k false) ([] : List (Str × Bool))) k = true ↔ k ∈ queensKeys := by
  rw [(keys_foldl _ _ _).1]
  simp [count]

/-- **C85**: `ddqueens` is started for the size `n` iff every argument that begins with `-` is one of its options and the other arguments are a positive number `n`, possibly after zeros; the options that are on are those that have been given. -/
theorem _root_.TdZdd.C85_queens {args : List Str} {n : Int} : (∃ m, queens args = .ok (m, n)) ↔
    1 ≤ n ∧ (∀ a ∈ args, a.head? = some '-' → a.tail ∈ queensKeys) ∧ ∃ zs a, (args.filter fun a => !decide (a.head? = some '-')) = zs ++ [a] ∧ (∀ z ∈ zs, atoi z = some 0) ∧ atoi a = some n := by
  unfold queens
  constructor
  · rintro ⟨m, h⟩
    cases hl : queensLoop args (queensKeys.foldl (fun m k => setName m k false) [], 0) with
    | thrown => rw [hl] at h; nomatch h
    | ub => rw [hl] at h; nomatch h
    | ok st =>
      rw [hl] at h
      replace h : (if st.2 < 1 then Res.thrown else .ok st) = .ok (m, n) := h
      by_cases h1 : st.2 < 1
      · rw [if_pos h1] at h; nomatch h
      · rw [if_neg h1] at h
        injection h with h
        subst h
        obtain ⟨h2, _, h3⟩ := queensLoop_ok hl queens_keys
        dsimp only at h1
        refine ⟨by omega, h2, ?_⟩
        rcases h3 with ⟨_, h3⟩ | ⟨_, h3⟩
        · omega
        · exact h3
  · rintro ⟨h1, h2, zs, a, h3, h4, h5⟩
    obtain ⟨m, h⟩ := queensLoop_size queens_keys h2 h3 h4 h5
    refine ⟨m, ?_⟩
    rw [h]
    exact if_neg (by dsimp only; omega)

/-- **C85**: the options of `ddqueens` that are on are those that have been given. -/
theorem _root_.TdZdd.C85_queens_options {args : List Str} {m : List (Str × Bool)} {n : Int} (h : queens args = .ok (m, n)) (k : Str) : at' m k false = true ↔ '-' :: k ∈ args := by
  unfold queens at h
  cases hl : queensLoop args (queensKeys.foldl (fun m k => setName m k false) [], 0) with
  | thrown => rw [hl] at h; nomatch h
  | ub => rw [hl] at h; nomatch h
  | ok st =>
    rw [hl] at h
    replace h : (if st.2 < 1 then Res.thrown else .ok st) = .ok (m, n) := h
    by_cases h1 : st.2 < 1
    · rw [if_pos h1] at h; nomatch h
    · rw [if_neg h1] at h
      injection h with h
      subst h
      rw [(queensLoop_ok hl queens_keys).2.1 k, (keys_foldl queensKeys [] k).2 rfl]
      exact ⟨fun e => e.elim (fun e => nomatch e) id, .inr⟩

/-! ## examples -/

/-- the arguments -/
def line (l : List String) : List Str := l.map String.toList

/-- what is shown of the result: file names and options -/
def shown {α : Type} (f : St → α) (r : Res St) : Option (List Str × α) :=
  match r with
  | .ok st => some (st.files, f st)
  | _ => none

example : (["-t", "cycle", "-nola", "g.dat", "-lb", "3", "-dc"].map String.toList) = [Tok.str "t".toList "cycle".toList, .flag "nola".toList, .file "g.dat".toList, .num "lb".toList "3".toList, .flag "dc".toList].flatMap Tok.text := by decide +kernel

example : Line ddpaths [] 2 [.str "t".toList "cycle".toList, .flag "nola".toList, .file "g.dat".toList, .num "lb".toList "3".toList, .flag "dc".toList] :=
  .str rfl (by decide +kernel) (by decide +kernel) (by decide) (.flag (.inl (by decide +kernel)) (.file (by decide) (by decide +kernel) (.num (by decide +kernel) (by decide +kernel) (by decide +kernel) (.flag (.inl (by decide +kernel)) .nil))))

example : shown (fun st => (ddpathsOpts st).map fun o => o.kind) (ddpaths.parse limits [("t".toList, "path".toList)] (line ["-t", "cycle", "-nola", "g.dat", "-lb", "3", "-dc"])) = some (line ["g.dat"], some .cycle) ∧
    shown (fun st => (ddpathsOpts st).map fun o => [o.nola, o.dc, o.p]) (ddpaths.parse limits [("t".toList, "path".toList)] (line ["-t", "cycle", "-nola", "g.dat", "-lb", "3", "-dc"])) = some (line ["g.dat"], some [true, true, false]) ∧
    shown (fun st => (ddpathsOpts st).map fun o => [o.lb, o.ub, some o.uec]) (ddpaths.parse limits [("t".toList, "path".toList)] (line ["-t", "cycle", "-nola", "g.dat", "-lb", "3", "-dc"])) = some (line ["g.dat"], some [some 3, none, some (-1)]) := by decide +kernel

-- the errors: an unknown option, a value that is missing, an unknown word, a third file name, no file name; `-` is a file name for `ddpaths` and an unknown option for `graphillion_example`
example : [["-x", "g"], ["g", "-lb"], ["-t", "tree", "g"], ["a", "b", "c"], ["-dc"], ["-"]].map (fun l => shown (fun _ => ()) (ddpaths.parse limits [("t".toList, "path".toList)] (line l))) = [none, none, none, none, none, some (line ["-"], ())] ∧
    [["-"], [], ["-import"]].map (fun l => shown (fun _ => ()) (graphillion.parse limits [] (line l))) = [none, some ([], ()), some ([], ())] := by decide +kernel

example : shown (fun st => ((cnfbddOpts st).sort, (cnfbddOpts st).useMap, (cnfbddOpts st).limit)) (cnfbdd.parse [] [] (line ["-limit", "-1", "in", "-c"])) = some (line ["in"], false, false, some 18446744073709551615) ∧
    shown ddnumlinOpts (ddnumlin.parse [] [] (line ["-k", "010", "b.dat", "-m", "-1"])) = some (line ["b.dat"], false, 8, -1) := by decide +kernel

example : ∃ m, queens (line ["0", "-p", "8", "-rook"]) = .ok (m, 8) :=
  C85_queens.2 ⟨by decide, by decide +kernel, line ["0"], "8".toList, by decide +kernel, by decide +kernel, by decide +kernel⟩

/-- **Violated: the last value of an option should count, or an option that is given twice should be an error.** `ddpaths -lb 3 -lb 5 g` is accepted with the bound 3; the 5 is taken for the graph file and the graph file for the vertex groups. The same
happens in `cnfbdd` and `ddnumlin`, and for `-t`. -/
theorem _root_.TdZdd.C85_repeat_false :
    shown (fun st => (ddpathsOpts st).map fun o => o.lb) (ddpaths.parse limits [("t".toList, "path".toList)] (line ["-lb", "3", "-lb", "5", "g"])) = some (line ["5", "g"], some (some 3)) ∧
    shown (fun st => (ddpathsOpts st).map fun o => o.kind) (ddpaths.parse limits [("t".toList, "path".toList)] (line ["-t", "cc", "-t", "cycle", "g"])) = some (line ["cycle", "g"], some .cc) ∧
    shown (fun st => (cnfbddOpts st).limit) (cnfbdd.parse [] [] (line ["-limit", "3", "-limit", "5", "in"])) = some (line ["5", "in"], some 3) := by decide +kernel

/-- **Violated: an argument that is not an option of the application should be an error.** `ddpaths "-t cycle" g` (one argument with a space) and `ddpaths "-lb <n>" g` are accepted, and neither the type nor the bound is set. -/
theorem _root_.TdZdd.C85_word_false :
    shown (fun st => (ddpathsOpts st).map fun o => o.kind) (ddpaths.parse limits [("t".toList, "path".toList)] (line ["-t cycle", "g"])) = some (line ["g"], some .path) ∧
    shown (fun st => (ddpathsOpts st).map fun o => o.lb) (ddpaths.parse limits [("t".toList, "path".toList)] (line ["-lb <n>", "g"])) = some (line ["g"], some none) := by decide +kernel

end Args

end TdZdd
