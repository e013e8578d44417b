import Verif.CnfPicture
import Verif.CnfBddTab
import Verif.StateTextProofs

/-! # Proofs about the picture of a formula -/

namespace TdZdd

namespace CnfPic

open Cnf CnfB

/-- what a mark says about a variable and a clause -/
def Shown (c : Clause) (v : Nat) : Mark → Prop
  | .pos => (v : Int) ∈ c
  | .neg => -(v : Int) ∈ c
  | .point => (v : Int) ∉ c ∧ -(v : Int) ∉ c ∧ (∃ x ∈ c, x.natAbs < v) ∧ ∃ x ∈ c, v < x.natAbs
  | .blank => (∀ x ∈ c, v < x.natAbs) ∨ ∀ x ∈ c, x.natAbs < v

variable {nv : Nat}

theorem fill_spec : ∀ {c : Clause} {x : List Int}, (c.Pairwise fun x y => x.natAbs < y.natAbs) → (∀ t ∈ c, t.natAbs < x.length) →
    ∃ y, fill c x = some y ∧ (∀ t ∈ c, y[t.natAbs]? = some t) ∧ ∀ v, (∀ t ∈ c, t.natAbs ≠ v) → y[v]? = x[v]? := by
  intro c
  induction c with
  | nil => intro x _ _; exact ⟨x, rfl, fun t ht => (nomatch ht), fun _ _ => rfl⟩
  | cons t c ih =>
    intro x hp hb
    rw [List.pairwise_cons] at hp
    have ht := hb t List.mem_cons_self
    obtain ⟨y, e, h1, h2⟩ := ih (x := x.set t.natAbs t) hp.2 (fun s hs => by rw [List.length_set]; exact hb s (List.mem_cons_of_mem _ hs))
    refine ⟨y, ?_, ?_, ?_⟩
    · show (if t.natAbs < x.length then fill c (x.set t.natAbs t) else none) = _
      rw [if_pos ht, e]
    · intro s hs
      cases List.mem_cons.1 hs with
      | inl h =>
        rw [h, h2 t.natAbs (fun u hu => by have := hp.1 u hu; omega), List.getElem?_set_self ht]
      | inr h => exact h1 s h
    · intro v hv
      rw [h2 v fun s hs => hv s (List.mem_cons_of_mem _ hs), List.getElem?_set_ne (hv t List.mem_cons_self)]

theorem ends {c : Clause} (hp : c.Pairwise fun x y => x.natAbs < y.natAbs) (hne : c ≠ []) :
    ∃ f l, c.head? = some f ∧ c.getLast? = some l ∧ f ∈ c ∧ l ∈ c ∧ ∀ x ∈ c, f.natAbs ≤ x.natAbs ∧ x.natAbs ≤ l.natAbs := by
  induction c with
  | nil => exact absurd rfl hne
  | cons t c ih =>
    rw [List.pairwise_cons] at hp
    cases c with
    | nil =>
      refine ⟨t, t, rfl, rfl, List.mem_cons_self, List.mem_cons_self, ?_⟩
      intro x hx
      rw [List.mem_singleton.1 hx]
      omega
    | cons s c =>
      obtain ⟨f, l, _, e2, _, h2, h3⟩ := ih hp.2 (List.cons_ne_nil _ _)
      refine ⟨t, l, rfl, ?_, List.mem_cons_self, List.mem_cons_of_mem _ h2, ?_⟩
      · rw [List.getLast?_cons_cons]; exact e2
      · intro x hx
        cases List.mem_cons.1 hx with
        | inl h => rw [h]; have := hp.1 l h2; omega
        | inr h => have := hp.1 x h; have := h3 x h; omega

theorem same_var {c : Clause} (hp : c.Pairwise fun x y => x.natAbs < y.natAbs) : ∀ {x y : Int}, x ∈ c → y ∈ c → x.natAbs = y.natAbs → x = y := by
  induction c with
  | nil => intro x y hx; exact nomatch hx
  | cons t c ih =>
    rw [List.pairwise_cons] at hp
    intro x y hx hy e
    cases List.mem_cons.1 hx with
    | inl h =>
      cases List.mem_cons.1 hy with
      | inl g => rw [h, g]
      | inr g => have := hp.1 y g; rw [h] at e; omega
    | inr h =>
      cases List.mem_cons.1 hy with
      | inl g => have := hp.1 x h; rw [g] at e; omega
      | inr g => exact ih hp.2 h g e

theorem shown_unique {c : Clause} (hp : c.Pairwise fun x y => x.natAbs < y.natAbs) (hne : c ≠ []) {v : Nat} (hv : 1 ≤ v) {m m' : Mark} (h : Shown c v m) (h' : Shown c v m') : m = m' := by
  obtain ⟨z, hz⟩ := List.exists_mem_of_ne_nil c hne
  have pn : (v : Int) ∈ c → -(v : Int) ∈ c → False := fun a b => by
    have := same_var hp a b (by omega)
    omega
  have pb : ∀ x ∈ c, x.natAbs = v → ((∀ x ∈ c, v < x.natAbs) ∨ ∀ x ∈ c, x.natAbs < v) → False := by
    intro x hx e g
    cases g with
    | inl g => have := g x hx; omega
    | inr g => have := g x hx; omega
  have qb : (∃ x ∈ c, x.natAbs < v) → (∃ x ∈ c, v < x.natAbs) → ((∀ x ∈ c, v < x.natAbs) ∨ ∀ x ∈ c, x.natAbs < v) → False := by
    rintro ⟨x, hx, e⟩ ⟨y, hy, e'⟩ g
    cases g with
    | inl g => have := g x hx; omega
    | inr g => have := g y hy; omega
  cases m <;> cases m' <;> first
    | rfl
    | exact (pn h h').elim
    | exact (pn h' h).elim
    | exact (pb _ h (by omega) h').elim
    | exact (pb _ h' (by omega) h).elim
    | exact (h.1 h').elim
    | exact (h'.1 h).elim
    | exact (h.2.1 h').elim
    | exact (h'.2.1 h).elim
    | exact (qb h.2.2.1 h.2.2.2 h').elim
    | exact (qb h'.2.2.1 h'.2.2.2 h).elim

theorem cells_spec {j a b : Nat} {x : List Int} : ∀ {n v : Nat}, (∀ w, v ≤ w → w < v + n → ∃ m, mark x a b w = some m) →
    ∃ r, cells j x a b n v = some r ∧ ∀ l, l ∈ r ↔ ∃ w m, v ≤ w ∧ w < v + n ∧ mark x a b w = some m ∧ l = .cell j w m := by
  intro n
  induction n with
  | zero =>
    intro v _
    refine ⟨[], rfl, fun l => ⟨fun h => (nomatch h), ?_⟩⟩
    rintro ⟨w, m, h1, h2, _⟩
    omega
  | succ n ih =>
    intro v h
    obtain ⟨m, hm⟩ := h v (Nat.le_refl _) (by omega)
    obtain ⟨r, e, hr⟩ := ih (v := v + 1) fun w h1 h2 => h w (by omega) (by omega)
    refine ⟨.cell j v m :: r, ?_, ?_⟩
    · show (mark x a b v).bind (fun m => (cells j x a b n (v + 1)).bind fun r => some (.cell j v m :: r)) = _
      rw [hm, e]
      rfl
    · intro l
      rw [List.mem_cons, hr]
      constructor
      · rintro (h | ⟨w, m', h1, h2, h3, h4⟩)
        · exact ⟨v, m, Nat.le_refl _, by omega, hm, h⟩
        · exact ⟨w, m', by omega, by omega, h3, h4⟩
      · rintro ⟨w, m', h1, h2, h3, h4⟩
        by_cases e : w = v
        · rw [e, hm] at h3
          cases h3
          rw [e] at h4
          exact Or.inl h4
        · exact Or.inr ⟨w, m', by omega, by omega, h3, h4⟩

theorem mark_spec {c : Clause} {f l : Int} (hf : f ∈ c) (hl : l ∈ c) (hb : ∀ x ∈ c, f.natAbs ≤ x.natAbs ∧ x.natAbs ≤ l.natAbs) {y : List Int}
    (h1 : ∀ t ∈ c, y[t.natAbs]? = some t) (h2 : ∀ v, (∀ t ∈ c, t.natAbs ≠ v) → y[v]? = (List.replicate (nv + 1) (0 : Int))[v]?) {v : Nat} (v1 : 1 ≤ v) (v2 : v ≤ nv) :
    ∃ m, mark y f.natAbs l.natAbs v = some m ∧ Shown c v m := by
  unfold mark
  by_cases g : v < f.natAbs ∨ l.natAbs < v
  · rw [if_pos g]
    refine ⟨.blank, rfl, ?_⟩
    cases g with
    | inl g => exact Or.inl fun x hx => by have := hb x hx; omega
    | inr g => exact Or.inr fun x hx => by have := hb x hx; omega
  · rw [if_neg g]
    by_cases k : ∃ t ∈ c, t.natAbs = v
    · obtain ⟨t, ht, e⟩ := k
      have := h1 t ht
      rw [e] at this
      rw [this]
      by_cases p : t > 0
      · refine ⟨.pos, by show some (if t > 0 then Mark.pos else if t < 0 then .neg else .point) = _; rw [if_pos p], ?_⟩
        show (v : Int) ∈ c
        have : (v : Int) = t := by omega
        rw [this]; exact ht
      · refine ⟨.neg, ?_, ?_⟩
        · show some (if t > 0 then Mark.pos else if t < 0 then .neg else .point) = _
          have q : t < 0 := by omega
          rw [if_neg p, if_pos q]
        · show -(v : Int) ∈ c
          have : -(v : Int) = t := by omega
          rw [this]; exact ht
    · have k' : ∀ t ∈ c, t.natAbs ≠ v := fun t ht e => k ⟨t, ht, e⟩
      rw [h2 v k', List.getElem?_replicate]
      have q : v < nv + 1 := by omega
      rw [if_pos q]
      refine ⟨.point, rfl, fun h => k' _ h (by omega), fun h => k' _ h (by omega), ⟨f, hf, ?_⟩, l, hl, ?_⟩
      · have := k' f hf; omega
      · have := k' l hl; omega

/-- no line is an edge of the map or the first line -/
def NoLink (ls : List Line) : Prop := (∀ j v k, Line.link j v k ∉ ls) ∧ ∀ t, Line.head t ∉ ls

theorem clause_spec {j : Nat} {c : Clause} (ho : InOrder nv 1 c) (hne : c ≠ []) :
    ∃ r, clause nv j c = some r ∧ NoLink r ∧ ∀ j' v m, Line.cell j' v m ∈ r ↔ j' = j ∧ 1 ≤ v ∧ v ≤ nv ∧ Shown c v m := by
  obtain ⟨f, l, e1, e2, hf, hl, hb⟩ := ends ho.incr hne
  obtain ⟨y, e3, h1, h2⟩ := fill_spec (x := List.replicate (nv + 1) 0) ho.incr (fun t ht => by rw [List.length_replicate]; have := ho.var t ht; omega)
  have hm : ∀ w, 1 ≤ w → w < 1 + nv → ∃ m, mark y f.natAbs l.natAbs w = some m ∧ Shown c w m := fun w a b => mark_spec hf hl hb h1 h2 a (by omega)
  obtain ⟨r, e4, hr⟩ := cells_spec (j := j) (a := f.natAbs) (b := l.natAbs) (x := y) (n := nv) (v := 1) fun w a b => by obtain ⟨m, h, _⟩ := hm w a b; exact ⟨m, h⟩
  refine ⟨.row j :: r ++ [.path j 0 f.natAbs false] ++ (if f.natAbs < l.natAbs then [.path j f.natAbs l.natAbs true] else []) ++ (if l.natAbs < nv then [.path j l.natAbs nv false] else []), ?_, ?_, ?_⟩
  · unfold clause
    rw [e1, e2]
    show (fill c (List.replicate (nv + 1) 0)).bind _ = _
    rw [e3]
    show (cells j y f.natAbs l.natAbs nv 1).bind _ = _
    rw [e4]
    rfl
  · constructor
    · intro j' v k h
      simp only [List.mem_append, List.mem_cons, List.not_mem_nil, or_false] at h
      rcases h with (((h | h) | h) | h) | h
      · cases h
      · obtain ⟨_, _, _, _, _, h⟩ := (hr _).1 h
        cases h
      · cases h
      · split at h
        · rw [List.mem_singleton] at h; cases h
        · cases h
      · split at h
        · rw [List.mem_singleton] at h; cases h
        · cases h
    · intro t h
      simp only [List.mem_append, List.mem_cons, List.not_mem_nil, or_false] at h
      rcases h with (((h | h) | h) | h) | h
      · cases h
      · obtain ⟨_, _, _, _, _, h⟩ := (hr _).1 h
        cases h
      · cases h
      · split at h
        · rw [List.mem_singleton] at h; cases h
        · cases h
      · split at h
        · rw [List.mem_singleton] at h; cases h
        · cases h
  · intro j' v m
    constructor
    · intro h
      simp only [List.mem_append, List.mem_cons, List.not_mem_nil, or_false] at h
      rcases h with (((h | h) | h) | h) | h
      · cases h
      · obtain ⟨w, m', a, b, g, h⟩ := (hr _).1 h
        cases h
        obtain ⟨m'', g', s⟩ := hm v a b
        rw [g] at g'
        cases g'
        exact ⟨rfl, a, by omega, s⟩
      · cases h
      · split at h
        · rw [List.mem_singleton] at h; cases h
        · cases h
      · split at h
        · rw [List.mem_singleton] at h; cases h
        · cases h
    · rintro ⟨rfl, a, b, s⟩
      obtain ⟨m', g, s'⟩ := hm v a (by omega)
      rw [shown_unique ho.incr hne a s s']
      refine List.mem_append_left _ (List.mem_append_left _ (List.mem_append_left _ (List.mem_cons_of_mem _ ((hr _).2 ⟨v, m', a, by omega, g, rfl⟩))))

theorem clauses_spec : ∀ {cnf : List Clause} {j : Nat}, Good nv cnf →
    ∃ r, clauses nv j cnf = some r ∧ NoLink r ∧ ∀ j' v m, Line.cell j' v m ∈ r ↔ ∃ k c, cnf[k]? = some c ∧ j' = j + k ∧ 1 ≤ v ∧ v ≤ nv ∧ Shown c v m := by
  intro cnf
  induction cnf with
  | nil =>
    intro j _
    refine ⟨[], rfl, ⟨fun _ _ _ h => (nomatch h), fun _ h => (nomatch h)⟩, fun j' v m => ⟨fun h => (nomatch h), ?_⟩⟩
    rintro ⟨k, c, h, _⟩
    cases h
  | cons c cs ih =>
    intro j h
    obtain ⟨r, e, n1, hr⟩ := clause_spec (j := j) (h.ord c List.mem_cons_self) (h.ne c List.mem_cons_self)
    obtain ⟨s, e', n2, hs⟩ := ih (j := j + 1) ⟨fun d hd => h.ne d (List.mem_cons_of_mem _ hd), fun d hd => h.ord d (List.mem_cons_of_mem _ hd)⟩
    refine ⟨r ++ s, ?_, ?_, ?_⟩
    · show (clause nv j c).bind (fun r => (clauses nv (j + 1) cs).bind fun s => some (r ++ s)) = _
      rw [e, e']
      rfl
    · constructor
      · intro a b d g
        cases List.mem_append.1 g with
        | inl g => exact n1.1 _ _ _ g
        | inr g => exact n2.1 _ _ _ g
      · intro t g
        cases List.mem_append.1 g with
        | inl g => exact n1.2 _ g
        | inr g => exact n2.2 _ g
    · intro j' v m
      rw [List.mem_append, hr, hs]
      constructor
      · rintro (⟨a, b⟩ | ⟨k, d, a, b, g⟩)
        · exact ⟨0, c, rfl, a, b⟩
        · exact ⟨k + 1, d, a, by omega, g⟩
      · rintro ⟨k, d, a, b, g⟩
        cases k with
        | zero => cases a; exact Or.inl ⟨b, g⟩
        | succ k => exact Or.inr ⟨k, d, a, by omega, g⟩

theorem linksAt_spec {cm : CMap} {i : Nat} {l : Line} : ∀ {n j : Nat}, l ∈ linksAt nv cm i n j ↔ ∃ j', j ≤ j' ∧ j' < j + n ∧ cm i j' ≠ j' ∧ l = .link j' (nv - i + 1) (cm i j') := by
  intro n
  induction n with
  | zero =>
    intro j
    refine ⟨fun h => (nomatch h), ?_⟩
    rintro ⟨j', a, b, _⟩
    omega
  | succ n ih =>
    intro j
    show l ∈ (if cm i j ≠ j then [.link j (nv - i + 1) (cm i j)] else []) ++ linksAt nv cm i n (j + 1) ↔ _
    rw [List.mem_append, ih]
    constructor
    · rintro (h | ⟨j', a, b, g⟩)
      · split at h
        · rename_i g
          exact ⟨j, Nat.le_refl _, by omega, g, List.mem_singleton.1 h⟩
        · cases h
      · exact ⟨j', by omega, by omega, g⟩
    · rintro ⟨j', a, b, g, e⟩
      by_cases q : j' = j
      · rw [q] at g e
        left
        rw [if_pos g, e]
        exact List.mem_singleton.2 rfl
      · exact Or.inr ⟨j', by omega, by omega, g, e⟩

theorem links_spec {nc : Nat} {cm : CMap} {l : Line} : ∀ {i : Nat}, l ∈ links nv nc cm i ↔ ∃ i' j, 1 ≤ i' ∧ i' ≤ i ∧ 1 ≤ j ∧ j ≤ nc ∧ cm i' j ≠ j ∧ l = .link j (nv - i' + 1) (cm i' j) := by
  intro i
  induction i with
  | zero =>
    refine ⟨fun h => (nomatch h), ?_⟩
    rintro ⟨i', j, a, b, _⟩
    omega
  | succ i ih =>
    show l ∈ linksAt nv cm (i + 1) nc 1 ++ links nv nc cm i ↔ _
    rw [List.mem_append, ih, linksAt_spec]
    constructor
    · rintro (⟨j, a, b, g⟩ | ⟨i', j, a, b, g⟩)
      · exact ⟨i + 1, j, by omega, by omega, a, by omega, g⟩
      · exact ⟨i', j, a, by omega, g⟩
    · rintro ⟨i', j, a, b, a', b', g⟩
      by_cases q : i' = i + 1
      · subst q
        exact Or.inl ⟨j, a', by omega, g⟩
      · exact Or.inr ⟨i', j, a, by omega, a', b', g⟩

/-- the lines of the picture -/
theorem dump_spec {cnf : List Clause} (h : Good nv cnf) (cm : CMap) (title : List Char) : ∃ ls, dump nv cnf cm title = some ls ∧
    (∀ j v m, Line.cell j v m ∈ ls ↔ ∃ k c, cnf[k]? = some c ∧ j = k + 1 ∧ 1 ≤ v ∧ v ≤ nv ∧ Shown c v m) ∧
    (∀ j v k, Line.link j v k ∈ ls ↔ 1 ≤ j ∧ j ≤ cnf.length ∧ 1 ≤ v ∧ v ≤ nv ∧ k = cm (nv - v + 1) j ∧ k ≠ j) ∧
    ∀ t, Line.head t ∈ ls → t = title := by
  obtain ⟨r, e, hn, hr⟩ := clauses_spec (j := 1) h
  refine ⟨_, by unfold dump; rw [e]; rfl, ?_, ?_, ?_⟩
  · intro j v m
    have hl : Line.cell j v m ∉ links nv cnf.length cm nv := fun g => by
      obtain ⟨_, _, _, _, _, _, _, g⟩ := links_spec.1 g
      cases g
    simp only [List.mem_append, List.mem_cons, List.mem_map, List.not_mem_nil, or_false, hl, hr, reduceCtorEq, and_false, exists_false, false_or]
    constructor
    · rintro ⟨k, c, a, b, g⟩; exact ⟨k, c, a, by omega, g⟩
    · rintro ⟨k, c, a, b, g⟩; exact ⟨k, c, a, by omega, g⟩
  · intro j v k
    have hl : Line.link j v k ∉ r := hn.1 j v k
    simp only [List.mem_append, List.mem_cons, List.mem_map, List.not_mem_nil, or_false, hl, links_spec, reduceCtorEq, and_false, exists_false, false_or]
    constructor
    · rintro ⟨i, j', a, b, a', b', g, q⟩
      cases q
      have : nv - (nv - i + 1) + 1 = i := by omega
      rw [this]
      exact ⟨a', b', by omega, by omega, rfl, g⟩
    · rintro ⟨a, b, a', b', rfl, g⟩
      have : nv - (nv - v + 1) + 1 = v := by omega
      exact ⟨nv - v + 1, j, by omega, by omega, a, b, g, by rw [this]⟩

  · intro t
    have hl : Line.head t ∉ links nv cnf.length cm nv := fun g => by
      obtain ⟨_, _, _, _, _, _, _, g⟩ := links_spec.1 g
      cases g
    simp only [List.mem_append, List.mem_cons, List.mem_map, List.not_mem_nil, or_false, hl, hn.2 t, reduceCtorEq, and_false, exists_false]
    intro g
    exact Line.head.inj g

/-! ## The text of a line -/

theorem num_eq (n : Nat) : num n = Lab.number n := rfl

theorem num_cut {a b : Nat} {r r' : List Char} (h : Lab.Sep r) (h' : Lab.Sep r') (e : num a ++ r = num b ++ r') : a = b ∧ r = r' := by
  obtain ⟨e1, e2⟩ := Lab.number_delim (s := (a : Int)) (s' := (b : Int)) h h' e
  exact ⟨by omega, e2⟩

theorem name_cut {j v j' v' : Nat} {r r' : List Char} (h : Lab.Sep r) (h' : Lab.Sep r') (e : name j v ++ r = name j' v' ++ r') : j = j' ∧ v = v' ∧ r = r' := by
  unfold name at e
  rw [List.cons_append, List.cons_append, List.append_assoc, List.append_assoc] at e
  obtain ⟨e1, e2⟩ := num_cut (Lab.Sep.cons rfl) (Lab.Sep.cons rfl) (List.cons.inj e).2
  obtain ⟨e3, e4⟩ := num_cut h h' (List.cons.inj e2).2
  exact ⟨e1, e3, e4⟩

theorem num_not_c {n : Nat} {r r' : List Char} (e : num n ++ r = 'c' :: r') : False := by
  cases g : num n with
  | nil =>
    have : (toString n).length = 0 := by rw [← String.length_toList]; show (num n).length = 0; rw [g]; rfl
    have h2 : 0 < (Nat.toDigits 10 n).length := Nat.length_toDigits_pos
    have h3 : num n = Nat.toDigits 10 n := by simp [num, Nat.repr]
    rw [← h3, g] at h2
    exact absurd h2 (by decide)
  | cons c cs =>
    rw [g] at e
    have hc : c = 'c' := (List.cons.inj e).1
    have := Lab.number_all n c (by rw [← num_eq, g]; exact List.mem_cons_self)
    rw [hc] at this
    exact absurd this (by decide)

theorem sep_mark {v : Nat} {m : Mark} : Lab.Sep (m.text v) := by
  cases m <;> exact Lab.Sep.cons rfl

theorem mark_inj {v : Nat} {m m' : Mark} (e : m.text v = m'.text v) : m = m' := by
  have q : ∀ a : Mark, (a.text v)[9]? = some (match a with | .pos => '+' | .neg => '-' | _ => '"') := fun a => by cases a <;> rfl
  have q' := q m
  rw [e, q m'] at q'
  cases m <;> cases m' <;> first
    | rfl
    | exact absurd (Option.some.inj q') (by decide)
    | exact absurd (show Mark.text 0 .blank = Mark.text 0 .point from e) (by decide)
    | exact absurd (show Mark.text 0 .point = Mark.text 0 .blank from e) (by decide)

/-- A line that reads like one of a variable in a clause is one. -/
theorem cell_text {l : Line} {j v : Nat} {m : Mark} (hv : 1 ≤ v) (e : l.text = (Line.cell j v m).text) : l = .cell j v m := by
  have two : ∀ {r r' : List Char}, "  ".toList ++ r = "  ".toList ++ r' → r = r' := fun h => List.append_cancel_left h
  have e0 : (Line.cell j v m).text = "  ".toList ++ (name j v ++ m.text v) := List.append_assoc _ _ _
  rw [e0] at e
  have hl : (m.text v)[2]? = some 'l' := by cases m <;> rfl
  cases l with
  | head t => exact absurd (List.cons.inj e).1 (by decide)
  | corner => exact absurd (List.cons.inj (two (r := _ :: _) e)).1 (by decide)
  | var w l =>
    unfold Line.text at e
    simp only [List.append_assoc] at e
    exact (num_not_c (two e)).elim
  | spine n => exact absurd (List.cons.inj (List.cons.inj (List.cons.inj e).2).2).1 (by decide)
  | row i =>
    unfold Line.text at e
    simp only [List.append_assoc] at e
    obtain ⟨_, h, _⟩ := name_cut (Lab.Sep.cons rfl) sep_mark (two e)
    omega
  | cell i w k =>
    unfold Line.text at e
    simp only [List.append_assoc] at e
    obtain ⟨rfl, rfl, h⟩ := name_cut sep_mark sep_mark (two e)
    rw [mark_inj h]
  | path i a b bold =>
    unfold Line.text at e
    simp only [List.append_assoc] at e
    generalize b - a = n at e
    cases n with
    | zero =>
      cases bold
      · obtain ⟨_, _, h⟩ := name_cut (Lab.Sep.cons rfl) sep_mark (two e)
        rw [← h] at hl
        exact absurd (Option.some.inj hl) (by decide)
      · obtain ⟨_, _, h⟩ := name_cut (Lab.Sep.cons rfl) sep_mark (two e)
        rw [← h] at hl
        exact absurd (Option.some.inj hl) (by decide)
    | succ n =>
      rw [List.range_succ_eq_map, List.flatMap_cons, List.append_assoc, List.append_assoc] at e
      obtain ⟨_, _, h⟩ := name_cut (Lab.Sep.cons rfl) sep_mark (two e)
      rw [← h] at hl
      exact absurd (Option.some.inj hl) (by decide)
  | rank w n => exact absurd (List.cons.inj (List.cons.inj (List.cons.inj e).2).2).1 (by decide)
  | link i w k =>
    unfold Line.text at e
    simp only [List.append_assoc] at e
    obtain ⟨_, _, h⟩ := name_cut (Lab.Sep.cons rfl) sep_mark (two e)
    rw [← h] at hl
    exact absurd (Option.some.inj hl) (by decide)
  | tail => exact absurd (List.cons.inj e).1 (by decide)

/-! ## Lines of a text -/

theorem num_nl (n : Nat) : '\n' ∉ num n := fun h => absurd (Lab.number_all n _ h) (by decide)

theorem name_nl (j v : Nat) : '\n' ∉ name j v := by
  unfold name
  simp only [List.mem_cons, List.mem_append, num_nl, or_false, false_or]
  decide

/-- a line ends with its only end of line -/
def OneLine (t : List Char) : Prop := ∃ b, t = b ++ ['\n'] ∧ '\n' ∉ b

theorem OneLine.pre {a t : List Char} (ha : '\n' ∉ a) (h : OneLine t) : OneLine (a ++ t) := by
  obtain ⟨b, rfl, hb⟩ := h
  refine ⟨a ++ b, by rw [List.append_assoc], fun h => ?_⟩
  cases List.mem_append.1 h with
  | inl h => exact ha h
  | inr h => exact hb h

theorem flat_nl {α : Type} {f : α → List Char} (h : ∀ x, '\n' ∉ f x) (l : List α) : '\n' ∉ l.flatMap f := fun g => by
  obtain ⟨x, _, hx⟩ := List.mem_flatMap.1 g
  exact h x hx

theorem app_nl {a b : List Char} (ha : '\n' ∉ a) (hb : '\n' ∉ b) : '\n' ∉ a ++ b := fun h => by
  cases List.mem_append.1 h with
  | inl h => exact ha h
  | inr h => exact hb h

theorem text_line {l : Line} (h : ∀ t, l = .head t → '\n' ∉ t) : OneLine l.text := by
  have lit : ∀ b : List Char, '\n' ∉ b → OneLine (b ++ ['\n']) := fun b hb => ⟨b, rfl, hb⟩
  cases l with
  | head t => exact .pre (app_nl (by decide) (h t rfl)) (lit "\" {".toList (by decide))
  | corner => exact lit "  0 [shape=none,label=\"\"];".toList (by decide)
  | var v l => exact .pre (app_nl (app_nl (app_nl (by decide) (num_nl _)) (by decide)) (num_nl _)) (lit "\",shape=none];".toList (by decide))
  | spine n => exact .pre (app_nl (by decide) (flat_nl (fun _ => app_nl (by decide) (num_nl _)) _)) (lit " [style=invis];".toList (by decide))
  | row j => exact .pre (app_nl (app_nl (app_nl (by decide) (name_nl _ _)) (by decide)) (num_nl _)) (lit "\",shape=none];".toList (by decide))
  | cell j v m =>
    refine .pre (app_nl (by decide) (name_nl _ _)) ?_
    cases m
    · exact lit " [label=\"\",shape=none];".toList (by decide)
    · exact .pre (app_nl (by decide) (num_nl _)) (lit "\",style=filled,fillcolor=gray,fontcolor=black];".toList (by decide))
    · exact .pre (app_nl (by decide) (num_nl _)) (lit "\",style=filled,fillcolor=white,fontcolor=black];".toList (by decide))
    · exact lit " [label=\"\",shape=point];".toList (by decide)
  | path j a b bold =>
    refine .pre (app_nl (app_nl (by decide) (name_nl _ _)) (flat_nl (fun _ => app_nl (by decide) (name_nl _ _)) _)) ?_
    cases bold
    · exact lit " [style=invis];".toList (by decide)
    · exact lit " [style=bold,dir=none];".toList (by decide)
  | rank v n => exact .pre (app_nl (app_nl (by decide) (num_nl _)) (flat_nl (fun _ => app_nl (by decide) (name_nl _ _)) _)) (lit "};".toList (by decide))
  | link j v k => exact .pre (app_nl (app_nl (app_nl (by decide) (name_nl _ _)) (by decide)) (name_nl _ _)) (lit " [color=navy];".toList (by decide))
  | tail => exact lit "}".toList (by decide)

theorem cut_line : ∀ {b b' r r' : List Char}, '\n' ∉ b → '\n' ∉ b' → b ++ '\n' :: r = b' ++ '\n' :: r' → b = b' ∧ r = r' := by
  intro b
  induction b with
  | nil =>
    intro b' r r' _ h' e
    cases b' with
    | nil => exact ⟨rfl, (List.cons.inj e).2⟩
    | cons c b' => exact (h' ((List.cons.inj e).1 ▸ List.mem_cons_self)).elim
  | cons c b ih =>
    intro b' r r' h h' e
    cases b' with
    | nil => exact (h ((List.cons.inj e).1 ▸ List.mem_cons_self)).elim
    | cons d b' =>
      obtain ⟨e1, e2⟩ := List.cons.inj e
      obtain ⟨e3, e4⟩ := ih (fun g => h (List.mem_cons_of_mem _ g)) (fun g => h' (List.mem_cons_of_mem _ g)) e2
      exact ⟨by rw [e1, e3], e4⟩

/-- A text has one list of lines. -/
theorem text_cut : ∀ {ls ls' : List Line}, (∀ l ∈ ls, OneLine l.text) → (∀ l ∈ ls', OneLine l.text) → text ls = text ls' → ls.map Line.text = ls'.map Line.text := by
  intro ls
  induction ls with
  | nil =>
    intro ls' _ h' e
    cases ls' with
    | nil => rfl
    | cons l ls' =>
      obtain ⟨b, hb, _⟩ := h' l List.mem_cons_self
      have : text (l :: ls') = l.text ++ text ls' := List.flatMap_cons
      rw [this, hb, List.append_assoc] at e
      cases b <;> exact nomatch e
  | cons l ls ih =>
    intro ls' h h' e
    obtain ⟨b, hb, nb⟩ := h l List.mem_cons_self
    have e1 : text (l :: ls) = l.text ++ text ls := List.flatMap_cons
    rw [e1, hb, List.append_assoc] at e
    cases ls' with
    | nil => cases b <;> exact nomatch e
    | cons l' ls' =>
      obtain ⟨b', hb', nb'⟩ := h' l' List.mem_cons_self
      have e2 : text (l' :: ls') = l'.text ++ text ls' := List.flatMap_cons
      rw [e2, hb', List.append_assoc] at e
      obtain ⟨e3, e4⟩ := cut_line nb nb' e
      rw [List.map_cons, List.map_cons, ih (fun x hx => h x (List.mem_cons_of_mem _ hx)) (fun x hx => h' x (List.mem_cons_of_mem _ hx)) e4, hb, hb', e3]

theorem sorted_ext : ∀ {c d : Clause}, (c.Pairwise fun x y => x.natAbs < y.natAbs) → (d.Pairwise fun x y => x.natAbs < y.natAbs) → (∀ x, x ∈ c ↔ x ∈ d) → c = d := by
  intro c
  induction c with
  | nil =>
    intro d _ _ h
    cases d with
    | nil => rfl
    | cons s d => exact nomatch (h s).2 List.mem_cons_self
  | cons t c ih =>
    intro d hc hd h
    cases d with
    | nil => exact nomatch (h t).1 List.mem_cons_self
    | cons s d =>
      rw [List.pairwise_cons] at hc hd
      have e : t = s := by
        cases List.mem_cons.1 ((h t).1 List.mem_cons_self) with
        | inl g => exact g
        | inr g =>
          cases List.mem_cons.1 ((h s).2 List.mem_cons_self) with
          | inl k => exact k.symm
          | inr k => have := hd.1 t g; have := hc.1 s k; omega
      subst e
      rw [ih hc.2 hd.2 fun x => ⟨fun g => ?_, fun g => ?_⟩]
      · cases List.mem_cons.1 ((h x).1 (List.mem_cons_of_mem _ g)) with
        | inl k => have := hc.1 x g; rw [k] at this; omega
        | inr k => exact k
      · cases List.mem_cons.1 ((h x).2 (List.mem_cons_of_mem _ g)) with
        | inl k => have := hd.1 x g; rw [k] at this; omega
        | inr k => exact k

end CnfPic

end TdZdd
