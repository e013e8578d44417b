import Verif.Demangle

/-!
# C94: names of types

A readable type name is a sequence of paths `q1::q2::...::x` separated by single characters; each part of a path consists of letters, digits and texts in
parentheses. The result has the last part of each path only, without the parentheses.
-/

namespace TdZdd

open Demangle

namespace Demangle

/-- a piece of a part of a path -/
inductive Piece
  | word (s : List Char)
  | paren (s : List Char)

/-- the text of a piece -/
def Piece.text : Piece → List Char
  | .word s => s
  | .paren s => '(' :: s ++ [')']

/-- what is left of a piece -/
def Piece.kept : Piece → List Char
  | .word s => s
  | .paren _ => []

/-- words consist of letters and digits; there is no closing parenthesis inside -/
def Piece.Ok : Piece → Prop
  | .word s => ∀ c ∈ s, isAlnum c = true
  | .paren s => ')' ∉ s

/-- a path: the parts followed by `::`, and the last part -/
structure Path where
  quals : List (List Piece)
  last : List Piece

/-- the text of a part -/
def partText (l : List Piece) : List Char := l.flatMap Piece.text

/-- the text of a path -/
def Path.text (p : Path) : List Char := (p.quals.flatMap fun q => partText q ++ [':', ':']) ++ partText p.last

/-- the last part without parentheses -/
def Path.kept (p : Path) : List Char := p.last.flatMap Piece.kept

/-- all pieces are correct -/
def Path.Ok (p : Path) : Prop := (∀ q ∈ p.quals, ∀ x ∈ q, x.Ok) ∧ ∀ x ∈ p.last, x.Ok

/-- a character between two paths -/
def isSep (c : Char) : Prop := isAlnum c = false ∧ c ≠ ':' ∧ c ≠ '('

/-- the text of a whole name -/
def nameText (p : Path) (l : List (Char × Path)) : List Char := p.text ++ l.flatMap fun x => x.1 :: x.2.text

theorem names_cons_cons (pre cur : List Char) (c d : Char) (s : List Char) : names pre cur (c :: d :: s) =
    if isAlnum c = true then names pre (cur ++ [c]) (d :: s)
    else if c = ':' ∧ d = ':' then names pre [] s
    else if c = '(' then names pre cur (afterParen (d :: s))
    else names (pre ++ cur ++ [c]) [] (d :: s) := by rw [names]

theorem names_word (pre : List Char) : ∀ (w cur s : List Char), (∀ c ∈ w, isAlnum c = true) → names pre cur (w ++ s) = names pre (cur ++ w) s
  | [], cur, s, _ => by simp
  | [c], cur, [], h => by rw [List.append_nil, names, names]; simp
  | [c], cur, d :: s, h => by
    show names pre cur (c :: d :: s) = _
    rw [names_cons_cons, if_pos (h c (List.mem_cons_self ..))]
  | c :: d :: w, cur, s, h => by
    show names pre cur (c :: d :: (w ++ s)) = _
    rw [names_cons_cons, if_pos (h c (List.mem_cons_self ..))]
    have := names_word pre (d :: w) (cur ++ [c]) s (fun x hx => h x (List.mem_cons_of_mem _ hx))
    rw [← List.cons_append, this]
    simp

theorem afterParen_append : ∀ {w : List Char} (s : List Char), ')' ∉ w → afterParen (w ++ ')' :: s) = s
  | [], s, _ => by show afterParen (')' :: s) = s; unfold afterParen; rw [if_pos rfl]
  | c :: w, s, h => by
    show afterParen (c :: (w ++ ')' :: s)) = s
    unfold afterParen
    rw [if_neg (fun e => h (by rw [e]; exact List.mem_cons_self ..)), afterParen_append s (fun hm => h (List.mem_cons_of_mem _ hm))]

theorem names_paren (pre cur w s : List Char) (h : ')' ∉ w) : names pre cur ('(' :: w ++ [')'] ++ s) = names pre cur s := by
  have e : '(' :: w ++ [')'] ++ s = '(' :: (w ++ ')' :: s) := by simp
  rw [e]
  have hl : ∃ d t, w ++ ')' :: s = d :: t := by
    cases w with
    | nil => exact ⟨_, _, rfl⟩
    | cons d w => exact ⟨_, _, rfl⟩
  obtain ⟨d, t, e⟩ := hl
  rw [e, names_cons_cons, if_neg (by decide), if_neg (fun h => absurd h.1 (by decide)), if_pos rfl, ← e, afterParen_append s h]

theorem names_part (pre : List Char) : ∀ (l : List Piece) (cur s : List Char), (∀ x ∈ l, x.Ok) → names pre cur (partText l ++ s) = names pre (cur ++ l.flatMap Piece.kept) s
  | [], cur, s, _ => by simp [partText]
  | x :: l, cur, s, h => by
    have ih := names_part pre l (cur ++ x.kept) s (fun y hy => h y (List.mem_cons_of_mem _ hy))
    have hx := h x (List.mem_cons_self ..)
    have e : partText (x :: l) ++ s = x.text ++ (partText l ++ s) := by simp [partText]
    rw [e, List.flatMap_cons, ← List.append_assoc cur, ← ih]
    cases x with
    | word w => exact names_word pre w cur _ hx
    | paren w =>
      rw [show Piece.kept (.paren w) = [] from rfl, List.append_nil]
      exact names_paren pre cur w _ hx

theorem names_quals (pre : List Char) : ∀ (l : List (List Piece)) (cur s : List Char), (∀ q ∈ l, ∀ x ∈ q, x.Ok) →
    ∃ cur', names pre cur ((l.flatMap fun q => partText q ++ [':', ':']) ++ s) = names pre cur' s ∧ (cur = [] → cur' = [])
  | [], cur, s, _ => ⟨cur, by simp, id⟩
  | q :: l, cur, s, h => by
    obtain ⟨cur', e, hc⟩ := names_quals pre l [] s (fun y hy => h y (List.mem_cons_of_mem _ hy))
    refine ⟨cur', ?_, fun _ => hc rfl⟩
    rw [List.flatMap_cons, List.append_assoc, List.append_assoc, names_part pre q cur _ (h q (List.mem_cons_self ..))]
    show names pre _ (':' :: ':' :: _) = _
    rw [names_cons_cons, if_neg (by decide), if_pos ⟨rfl, rfl⟩]
    exact e

theorem names_path (pre s : List Char) {p : Path} (h : p.Ok) : names pre [] (p.text ++ s) = names pre p.kept s := by
  obtain ⟨cur, e, hc⟩ := names_quals pre p.quals [] (partText p.last ++ s) h.1
  unfold Path.text
  rw [List.append_assoc, e, hc rfl, names_part pre p.last [] s h.2]
  rfl

theorem names_rest : ∀ (l : List (Char × Path)) (pre cur : List Char), (∀ x ∈ l, isSep x.1 ∧ x.2.Ok) →
    names pre cur (l.flatMap fun x => x.1 :: x.2.text) = pre ++ cur ++ l.flatMap fun x => x.1 :: x.2.kept
  | [], pre, cur, _ => by rw [List.flatMap_nil, names]; simp
  | (c, p) :: l, pre, cur, h => by
    obtain ⟨⟨h1, h2, h3⟩, h4⟩ := h _ (List.mem_cons_self ..)
    have ih := names_rest l (pre ++ cur ++ [c]) p.kept (fun y hy => h y (List.mem_cons_of_mem _ hy))
    have hp := names_path (pre ++ cur ++ [c]) (l.flatMap fun x => x.1 :: x.2.text) h4
    rw [ih] at hp
    rw [List.flatMap_cons, List.flatMap_cons]
    show names pre cur (c :: (p.text ++ _)) = _
    generalize hr : p.text ++ (l.flatMap fun x => x.1 :: x.2.text) = r at *
    have e : names pre cur (c :: r) = names (pre ++ cur ++ [c]) [] r := by
      cases r with
      | nil => rw [names, names]; simp
      | cons d r =>
        rw [names_cons_cons, if_neg (by rw [h1]; exact fun h => nomatch h), if_neg (fun h => h2 h.1), if_neg h3]
    rw [e, hp]
    simp

end Demangle

/-- C94: `isspace` holds exactly for the codes 9 to 13 and 32, `isalnum` exactly for the ASCII letters and digits. -/
theorem C94_classes (c : Char) : (isBlank c = true ↔ c.toNat = 32 ∨ 9 ≤ c.toNat ∧ c.toNat ≤ 13) ∧
    (isAlnum c = true ↔ 48 ≤ c.toNat ∧ c.toNat ≤ 57 ∨ 65 ≤ c.toNat ∧ c.toNat ≤ 90 ∨ 97 ≤ c.toNat ∧ c.toNat ≤ 122) := by
  have key : ∀ d : Char, c = d ↔ c.toNat = d.toNat := fun d => ⟨fun h => by rw [h], fun h => Char.toNat_inj.1 h⟩
  constructor
  · unfold isBlank
    simp only [Bool.or_eq_true, decide_eq_true_eq, key]
    show ((((((c.toNat = 32) ∨ c.toNat = 9) ∨ c.toNat = 10) ∨ c.toNat = 11) ∨ c.toNat = 12) ∨ c.toNat = 13) ↔ _
    omega
  · unfold isAlnum
    simp only [Bool.or_eq_true, Bool.and_eq_true, decide_eq_true_eq]
    show ((48 ≤ c.toNat ∧ c.toNat ≤ 57) ∨ (65 ≤ c.toNat ∧ c.toNat ≤ 90)) ∨ (97 ≤ c.toNat ∧ c.toNat ≤ 122) ↔ _
    omega

/-- C94: of a name that consists of paths, the last part of each path is left. -/
theorem C94_typename {p : Path} {l : List (Char × Path)} (hp : p.Ok) (hl : ∀ x ∈ l, isSep x.1 ∧ x.2.Ok) {d : Option (List Char)} {name : List Char}
    (hd : demangle d name = nameText p l) : typeName d name = p.kept ++ l.flatMap fun x => x.1 :: x.2.kept := by
  unfold typeName nameText at *
  rw [hd, names_path [] _ hp, names_rest l [] _ hl]
  rfl

/-- C94: a blank is left out exactly if the character before it is not a letter or digit; nothing else is left out. -/
theorem C94_blanks (s name : List Char) : demangle (some s) name =
    ((none :: s.map some).zip s).filterMap fun x => if isBlank x.2 = true ∧ x.1.any (fun c => !isAlnum c) = true then none else some x.2 := by
  show strip false s = _
  have key : ∀ (s : List Char) (o : Option Char), strip (o.any fun c => !isAlnum c) s =
      ((o :: s.map some).zip s).filterMap fun x => if isBlank x.2 = true ∧ x.1.any (fun c => !isAlnum c) = true then none else some x.2 := by
    intro s
    induction s with
    | nil => intro o; cases o.any fun c => !isAlnum c <;> rfl
    | cons c s ih =>
      intro o
      have h1 := ih (some c)
      rw [List.map_cons, List.zip_cons_cons]
      by_cases h : isBlank c = true ∧ o.any (fun c => !isAlnum c) = true
      · rw [List.filterMap_cons_none (by rw [if_pos h]), ← h1, h.2]
        have hb : isAlnum c = false := by
          have := h.1
          unfold isBlank at this
          simp only [Bool.or_eq_true, decide_eq_true_eq] at this
          rcases this with ((((rfl | rfl) | rfl) | rfl) | rfl) | rfl <;> decide
        show strip true (c :: s) = strip (!isAlnum c) s
        rw [hb]
        conv => lhs; unfold strip
        rw [if_pos ⟨rfl, h.1⟩]
        rfl
      · rw [List.filterMap_cons_some (by rw [if_neg h]), ← h1]
        conv => lhs; unfold strip
        rw [if_neg (fun g => h ⟨g.2, g.1⟩)]
        rfl
  exact key s none

/-- C94: a name that cannot be made readable is taken as it is: only parentheses and `::` could be changed. -/
theorem C94_mangled {name : List Char} (h : ∀ c ∈ name, isAlnum c = true ∨ c = '_') : typeName none name = name := by
  have key : ∀ (s pre cur : List Char), (∀ c ∈ s, isAlnum c = true ∨ c = '_') → names pre cur s = pre ++ cur ++ s := by
    intro s
    induction s with
    | nil => intro pre cur _; rw [names]; simp
    | cons c s ih =>
      intro pre cur h
      have ih := fun pre cur => ih pre cur fun x hx => h x (List.mem_cons_of_mem _ hx)
      cases s with
      | nil => rw [names]
      | cons d s =>
        rw [names_cons_cons]
        by_cases hc : isAlnum c = true
        · rw [if_pos hc, ih]; simp
        · have hu : c = '_' := (h c (List.mem_cons_self ..)).resolve_left hc
          rw [if_neg hc, if_neg (fun g => by rw [hu] at g; exact absurd g.1 (by decide)), if_neg (by rw [hu]; decide), ih]
          simp
  exact key name [] [] h

/-- C94: it is not true that every identifier in front of `::` is left out: the underscore is not a letter for `isalnum`. -/
theorem C94_underscore_false : ¬ ∀ q x : List Char, (∀ c ∈ q, isAlnum c = true ∨ c = '_') → (∀ c ∈ x, isAlnum c = true ∨ c = '_') → ∀ name,
    typeName (some (q ++ "::".toList ++ x)) name = x := fun h =>
  absurd (h "my_lib".toList "Spec".toList (by decide) (by decide) []) (by decide +kernel)

-- C94_typename
example : typeName (some "std::pair<tdzdd::(anonymous namespace)::Foo, unsigned int>".toList) [] = "pair<Foo,unsigned int>".toList := by decide +kernel
example : nameText ⟨[[.word "tdzdd".toList], [.paren "anonymous namespace".toList]], [.word "Foo".toList]⟩ [('<', ⟨[], [.word "int".toList]⟩), ('>', ⟨[], []⟩)] =
    "tdzdd::(anonymous namespace)::Foo<int>".toList := by decide +kernel
-- a function type loses its parameters
example : typeName (some "std::function<void (int)>".toList) [] = "function<void >".toList := by decide +kernel
-- C94_blanks
example : demangle (some "A<B,  C < D > >".toList) [] = "A<B,C <D >>".toList := by decide +kernel
-- C94_mangled
example : typeName none "N5tdzdd3FooE".toList = "N5tdzdd3FooE".toList := by decide +kernel
-- C94_underscore_false
example : typeName (some "my_lib::Spec".toList) [] = "my_Spec".toList := by decide +kernel

end TdZdd
