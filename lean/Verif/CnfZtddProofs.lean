import Verif.CnfZtdd
import Verif.SpecInv

/-! The specification `CnfToZtdd` represents the clauses of its list. -/

namespace TdZdd

namespace Cnf

/-! ## Sequences of clauses -/

/-- the elements `first .. first + len - 1` -/
def seg (cnf : List Clause) (first len : Nat) : List Clause := (cnf.drop first).take len

theorem seg_split {cnf : List Clause} {first len half : Nat} {a : Clause} (h : cnf[first + half]? = some a) (hl : half < len) :
    seg cnf first len = seg cnf first half ++ a :: seg cnf (first + half + 1) (len - half - 1) := by
  obtain ⟨d, rfl⟩ : ∃ d, len = half + (d + 1) := ⟨len - half - 1, by omega⟩
  have e : half + (d + 1) - half - 1 = d := by omega
  unfold seg
  rw [e, List.take_add, List.drop_drop]
  obtain ⟨h1, h2⟩ := List.getElem?_eq_some_iff.1 h
  rw [List.drop_eq_getElem_cons h1, List.take_succ_cons, h2]

theorem takeWhile_cut {α : Type} {p : α → Bool} {A B : List α} {x : α} (h : p x = false) : (A ++ x :: B).takeWhile p = A.takeWhile p := by
  induction A with
  | nil => rw [List.nil_append, List.takeWhile_cons, h]; rfl
  | cons y A ih =>
    rw [List.cons_append, List.takeWhile_cons, List.takeWhile_cons, ih]

theorem takeWhile_over {α : Type} {p : α → Bool} {A B : List α} {x : α} (hA : ∀ y ∈ A, p y = true) (h : p x = true) : (A ++ x :: B).takeWhile p = A ++ x :: B.takeWhile p := by
  induction A with
  | nil => rw [List.nil_append, List.takeWhile_cons, h]; rfl
  | cons y A ih =>
    rw [List.cons_append, List.takeWhile_cons, hA y List.mem_cons_self, ih fun z hz => hA z (List.mem_cons_of_mem _ hz)]
    rfl

/-- `std::lower_bound` finds the first element of a partitioned range that does not satisfy the predicate. -/
theorem lowerBound_eq {p : Clause → Bool} {cnf : List Clause} : ∀ {fuel first len : Nat}, len ≤ fuel → first + len ≤ cnf.length →
    (seg cnf first len).Pairwise (fun x y => p y = true → p x = true) → lowerBound p cnf fuel first len = some (first + ((seg cnf first len).takeWhile p).length) := by
  intro fuel
  induction fuel with
  | zero =>
    intro first len h _ _
    obtain rfl : len = 0 := by omega
    rw [lowerBound]
    unfold seg
    rw [List.take_zero]
    rfl
  | succ fuel ih =>
    intro first len h hc hp
    match len with
    | 0 =>
      rw [lowerBound]
      unfold seg
      rw [List.take_zero]
      rfl
    | len + 1 =>
      rw [lowerBound]
      have hh : (len + 1) / 2 < len + 1 := by omega
      generalize (len + 1) / 2 = half at hh ⊢
      have hlt : first + half < cnf.length := by omega
      have hx : cnf[first + half]? = some cnf[first + half] := List.getElem?_eq_getElem hlt
      generalize cnf[first + half] = x at hx
      rw [hx, Option.bind_some]
      have es := seg_split hx hh
      rw [es] at hp
      obtain ⟨p1, p2, p3⟩ := List.pairwise_append.1 hp
      obtain ⟨p4, p5⟩ := List.pairwise_cons.1 p2
      by_cases hpx : p x = true
      · rw [if_pos hpx, ih (by omega) (by omega) p5, es, takeWhile_over (fun y hy => p3 y hy x List.mem_cons_self hpx) hpx]
        rw [List.length_append, List.length_cons]
        have : (seg cnf first half).length = half := by
          unfold seg
          rw [List.length_take, List.length_drop]
          omega
        rw [this]
        congr 1
        omega
      · rw [if_neg hpx, ih (by omega) (by omega) p1, es, takeWhile_cut (by simpa using hpx)]

theorem seg_take {cnf : List Clause} {first len k : Nat} (h : k ≤ len) : seg cnf first k = (seg cnf first len).take k := by
  unfold seg
  rw [List.take_take, Nat.min_eq_left h]

theorem seg_drop {cnf : List Clause} {first len k : Nat} : seg cnf (first + k) (len - k) = (seg cnf first len).drop k := by
  unfold seg
  rw [List.drop_take, List.drop_drop]

theorem take_takeWhile {α : Type} {p : α → Bool} {l : List α} : l.take (l.takeWhile p).length = l.takeWhile p := by
  induction l with
  | nil => rfl
  | cons x l ih =>
    rw [List.takeWhile_cons]
    by_cases h : p x = true
    · rw [if_pos h, List.length_cons, List.take_succ_cons, ih]
    · rw [if_neg h]; rfl

theorem drop_takeWhile {α : Type} {p : α → Bool} {l : List α} : l.drop (l.takeWhile p).length = l.dropWhile p := by
  induction l with
  | nil => rfl
  | cons x l ih =>
    rw [List.takeWhile_cons, List.dropWhile_cons]
    by_cases h : p x = true
    · rw [if_pos h, if_pos h, List.length_cons, List.drop_succ_cons, ih]
    · rw [if_neg h, if_neg h]; rfl

/-! ## The order of the clauses -/

/-- the literals left in the clauses of a state -/
def ZSt.rest (cnf : List Clause) (s : ZSt) : List Clause := (s.rng cnf).map (·.drop s.pos)

/-- `searcher` for the literals left -/
def front (b : Int) (r : Clause) : Bool := r.head?.elim true fun x => if x = -b then decide (x < b) else decide (x.natAbs > b.natAbs)

theorem searcher_eq {pos : Nat} {b : Int} {a : Clause} : searcher pos b a = front b (a.drop pos) := by
  unfold searcher front
  rw [List.head?_drop]

/-- a clause in order: the variables are those of `lo..nv` and increase -/
structure InOrder (nv lo : Nat) (c : Clause) : Prop where
  incr : c.Pairwise fun x y => x.natAbs < y.natAbs
  var : ∀ x ∈ c, lo ≤ x.natAbs ∧ x.natAbs ≤ nv

/-- a strictly sorted list of clauses in order -/
structure Sorted (nv lo : Nat) (R : List Clause) : Prop where
  lt : R.Pairwise fun a b => clauseLt a b = true
  ok : ∀ c ∈ R, InOrder nv lo c

theorem front_neg {v : Nat} {r : Clause} (hv : 1 ≤ v) : front (-(v : Int)) r = true ↔ ∀ x ∈ r.head?, v < x.natAbs := by
  unfold front
  cases r with
  | nil => simp
  | cons x r =>
    simp only [List.head?_cons, Option.elim_some, Option.mem_some_iff]
    constructor
    · intro h y hy
      subst hy
      split at h
      · have := of_decide_eq_true h; omega
      · have := of_decide_eq_true h; omega
    · intro h
      have := h x rfl
      rw [if_neg (by omega)]
      exact decide_eq_true (by omega)

theorem front_pos {v : Nat} {r : Clause} (hv : 1 ≤ v) : front (v : Int) r = true ↔ ∀ x ∈ r.head?, v < x.natAbs ∨ x = -(v : Int) := by
  unfold front
  cases r with
  | nil => simp
  | cons x r =>
    simp only [List.head?_cons, Option.elim_some, Option.mem_some_iff]
    constructor
    · intro h y hy
      subst hy
      split at h
      · right; assumption
      · have := of_decide_eq_true h; omega
    · intro h
      have := h x rfl
      by_cases e : x = -(v : Int)
      · rw [if_pos e]; exact decide_eq_true (by omega)
      · rw [if_neg e]; exact decide_eq_true (by omega)

theorem lt_heads {x y : Int} {a b : Clause} (h : clauseLt (x :: a) (y :: b) = true) : y.natAbs < x.natAbs ∨ (x = -y ∧ x < y) ∨ (x = y ∧ clauseLt a b = true) := by
  rw [clauseLt] at h
  split at h
  · exact .inr (.inl ⟨by assumption, of_decide_eq_true h⟩)
  · split at h
    · exact .inl (of_decide_eq_true h)
    · exact .inr (.inr ⟨by omega, h⟩)

theorem lt_nil {a : Clause} : clauseLt a [] = false := by
  cases a <;> rfl

theorem front_mono {b : Int} {r t : Clause} (h : clauseLt r t = true) (ht : front b t = true) : front b r = true := by
  cases r with
  | nil => rfl
  | cons x r =>
    cases t with
    | nil => rw [lt_nil] at h; cases h
    | cons y t =>
      unfold front at ht ⊢
      simp only [List.head?_cons, Option.elim_some] at ht ⊢
      have := lt_heads h
      split at ht
      · have h1 := of_decide_eq_true ht
        split
        · exact decide_eq_true (by omega)
        · exact decide_eq_true (by omega)
      · have h1 := of_decide_eq_true ht
        split
        · exact decide_eq_true (by omega)
        · exact decide_eq_true (by omega)

/-! ## The steps on the literals left -/

/-- the literals left after a step -/
def after (v : Nat) (b : Nat) (R : List Clause) : List Clause :=
  if b = 0 then R.takeWhile (front (-(v : Int)))
  else if b = 1 then ((R.dropWhile (front (-(v : Int)))).takeWhile (front (v : Int))).map List.tail
  else (R.dropWhile (front (v : Int))).map List.tail

/-- a state inside of the list -/
structure Inside (cnf : List Clause) (s : ZSt) : Prop where
  le : s.beg ≤ s.fin
  fin : s.fin ≤ cnf.length

theorem rest_lb {cnf : List Clause} {s : ZSt} {b : Int} (hs : Inside cnf s) (hR : (s.rest cnf).Pairwise fun a b => clauseLt a b = true) :
    ∃ k, lowerBound (searcher s.pos b) cnf (s.fin - s.beg) s.beg (s.fin - s.beg) = some k ∧ s.beg ≤ k ∧ k ≤ s.fin ∧
      (ZSt.rest cnf ⟨s.beg, k, s.pos⟩) = (s.rest cnf).takeWhile (front b) ∧ (ZSt.rest cnf ⟨k, s.fin, s.pos⟩) = (s.rest cnf).dropWhile (front b) := by
  have h1 := hs.le
  have h2 := hs.fin
  have hp : (seg cnf s.beg (s.fin - s.beg)).Pairwise (fun x y => searcher s.pos b y = true → searcher s.pos b x = true) := by
    have := List.pairwise_map.1 hR
    refine this.imp ?_
    intro x y h
    rw [searcher_eq, searcher_eq]
    exact front_mono h
  have hlen : (seg cnf s.beg (s.fin - s.beg)).length = s.fin - s.beg := by
    unfold seg
    rw [List.length_take, List.length_drop]
    omega
  have hk : ((seg cnf s.beg (s.fin - s.beg)).takeWhile (searcher s.pos b)).length ≤ s.fin - s.beg := by
    have := (List.takeWhile_sublist (l := seg cnf s.beg (s.fin - s.beg)) (searcher s.pos b)).length_le
    omega
  have hf : (searcher s.pos b) = (front b) ∘ (·.drop s.pos) := funext fun a => searcher_eq
  refine ⟨_, lowerBound_eq (Nat.le_refl _) (by omega) hp, by omega, by omega, ?_, ?_⟩
  · show ((cnf.drop s.beg).take (_ - s.beg)).map _ = _
    rw [Nat.add_sub_cancel_left]
    show (seg cnf s.beg _).map _ = _
    rw [seg_take hk, take_takeWhile]
    show _ = ((seg cnf s.beg (s.fin - s.beg)).map _).takeWhile _
    rw [List.takeWhile_map, ← hf]
  · show (seg cnf _ _).map _ = _
    generalize hm : ((seg cnf s.beg (s.fin - s.beg)).takeWhile (searcher s.pos b)).length = m at hk
    have e : s.fin - (s.beg + m) = s.fin - s.beg - m := by omega
    dsimp only
    rw [e, seg_drop, ← hm, drop_takeWhile]
    show _ = ((seg cnf s.beg (s.fin - s.beg)).map _).dropWhile _
    rw [List.dropWhile_map, ← hf]

theorem mem_take {α : Type} {q : α → Bool} {l : List α} (h : l.Pairwise fun x y => q y = true → q x = true) {y : α} : y ∈ l.takeWhile q ↔ y ∈ l ∧ q y = true := by
  induction l with
  | nil => simp
  | cons x l ih =>
    obtain ⟨h1, h2⟩ := List.pairwise_cons.1 h
    rw [List.takeWhile_cons]
    by_cases hx : q x = true
    · rw [if_pos hx, List.mem_cons, ih h2, List.mem_cons]
      exact ⟨fun g => g.elim (fun e => ⟨.inl e, e ▸ hx⟩) fun g => ⟨.inr g.1, g.2⟩, fun g => g.1.elim .inl fun e => .inr ⟨e, g.2⟩⟩
    · rw [if_neg hx]
      refine ⟨fun g => absurd g List.not_mem_nil, fun g => absurd ?_ hx⟩
      rcases List.mem_cons.1 g.1 with e | e
      · exact e ▸ g.2
      · exact h1 y e g.2

theorem mem_drop {α : Type} {q : α → Bool} {l : List α} (h : l.Pairwise fun x y => q y = true → q x = true) {y : α} : y ∈ l.dropWhile q ↔ y ∈ l ∧ q y = false := by
  induction l with
  | nil => simp
  | cons x l ih =>
    obtain ⟨h1, h2⟩ := List.pairwise_cons.1 h
    rw [List.dropWhile_cons]
    by_cases hx : q x = true
    · rw [if_pos hx, ih h2, List.mem_cons]
      refine ⟨fun g => ⟨.inr g.1, g.2⟩, fun g => ⟨g.1.resolve_left fun e => ?_, g.2⟩⟩
      rw [e, hx] at g
      exact absurd g.2 (by decide)
    · rw [if_neg hx]
      refine ⟨fun g => ⟨g, ?_⟩, fun g => g.1⟩
      rcases List.mem_cons.1 g with e | e
      · subst e; simpa using hx
      · cases hy : q y with
        | false => rfl
        | true => exact absurd (h1 y e hy) hx

theorem Sorted.front {nv lo : Nat} {R : List Clause} (h : Sorted nv lo R) (b : Int) : R.Pairwise fun x y => Cnf.front b y = true → Cnf.front b x = true :=
  h.lt.imp fun g => front_mono g

theorem head_ge {nv lo : Nat} {r : Clause} (h : InOrder nv lo r) : ∀ x ∈ r.head?, lo ≤ x.natAbs := by
  intro x hx
  cases r with
  | nil => cases hx
  | cons y r =>
    rw [List.head?_cons, Option.mem_some_iff] at hx
    subst hx
    exact (h.var _ List.mem_cons_self).1

theorem mem_after0 {nv v : Nat} {R : List Clause} (h : Sorted nv v R) (hv : 1 ≤ v) {r : Clause} : r ∈ after v 0 R ↔ r ∈ R ∧ ∀ x ∈ r.head?, v < x.natAbs := by
  unfold after
  rw [if_pos rfl, mem_take (h.front _), front_neg hv]

theorem eq_cons_tail {r : Clause} {x : Int} (h : x ∈ r.head?) : r = x :: r.tail := by
  cases r with
  | nil => cases h
  | cons y r =>
    rw [List.head?_cons, Option.mem_some_iff] at h
    subst h
    rfl

theorem front_both {nv v : Nat} {r : Clause} (hr : InOrder nv v r) (hv : 1 ≤ v) : (front (-(v : Int)) r = false ∧ front (v : Int) r = true ↔ r = -(v : Int) :: r.tail) := by
  cases r with
  | nil => simp [front]
  | cons x r =>
    have h1 := front_neg (r := x :: r) hv
    have h2 := front_pos (r := x :: r) hv
    have h3 := head_ge hr x rfl
    simp only [List.head?_cons, Option.mem_some_iff, forall_eq'] at h1 h2
    rw [h2, List.tail_cons, List.cons.injEq, and_iff_left rfl, ← Bool.not_eq_true, h1]
    omega

theorem front_none {nv v : Nat} {r : Clause} (hr : InOrder nv v r) (hv : 1 ≤ v) : (front (v : Int) r = false ↔ r = (v : Int) :: r.tail) := by
  cases r with
  | nil => simp [front]
  | cons x r =>
    have h2 := front_pos (r := x :: r) hv
    have h3 := head_ge hr x rfl
    simp only [List.head?_cons, Option.mem_some_iff, forall_eq'] at h2
    rw [List.tail_cons, List.cons.injEq, and_iff_left rfl, ← Bool.not_eq_true, h2]
    omega

theorem mem_mid {nv v : Nat} {R : List Clause} (h : Sorted nv v R) (hv : 1 ≤ v) {r : Clause} :
    r ∈ (R.dropWhile (front (-(v : Int)))).takeWhile (front (v : Int)) ↔ r ∈ R ∧ r = -(v : Int) :: r.tail := by
  rw [mem_take ((h.front _).sublist (List.dropWhile_sublist _)), mem_drop (h.front _)]
  constructor
  · intro g; exact ⟨g.1.1, (front_both (h.ok _ g.1.1) hv).1 ⟨g.1.2, g.2⟩⟩
  · intro g
    have := (front_both (h.ok _ g.1) hv).2 g.2
    exact ⟨⟨g.1, this.1⟩, this.2⟩

theorem mem_end {nv v : Nat} {R : List Clause} (h : Sorted nv v R) (hv : 1 ≤ v) {r : Clause} : r ∈ R.dropWhile (front (v : Int)) ↔ r ∈ R ∧ r = (v : Int) :: r.tail := by
  rw [mem_drop (h.front _)]
  exact ⟨fun g => ⟨g.1, (front_none (h.ok _ g.1) hv).1 g.2⟩, fun g => ⟨g.1, (front_none (h.ok _ g.1) hv).2 g.2⟩⟩

theorem mem_after1 {nv v : Nat} {R : List Clause} (h : Sorted nv v R) (hv : 1 ≤ v) {r : Clause} : r ∈ after v 1 R ↔ -(v : Int) :: r ∈ R := by
  unfold after
  rw [if_neg (by decide), if_pos rfl, List.mem_map]
  constructor
  · rintro ⟨c, hc, rfl⟩
    obtain ⟨h1, h2⟩ := (mem_mid h hv).1 hc
    rw [← h2]; exact h1
  · intro g
    exact ⟨_, (mem_mid h hv).2 ⟨g, rfl⟩, rfl⟩

theorem mem_after2 {nv v : Nat} {R : List Clause} (h : Sorted nv v R) (hv : 1 ≤ v) {r : Clause} : r ∈ after v 2 R ↔ (v : Int) :: r ∈ R := by
  unfold after
  rw [if_neg (by decide), if_neg (by decide), List.mem_map]
  constructor
  · rintro ⟨c, hc, rfl⟩
    obtain ⟨h1, h2⟩ := (mem_end h hv).1 hc
    rw [← h2]; exact h1
  · intro g
    exact ⟨_, (mem_end h hv).2 ⟨g, rfl⟩, rfl⟩

theorem InOrder.tail {nv lo : Nat} {x : Int} {c : Clause} (h : InOrder nv lo (x :: c)) : InOrder nv (x.natAbs + 1) c := by
  obtain ⟨h1, h2⟩ := List.pairwise_cons.1 h.incr
  exact ⟨h2, fun y hy => ⟨h1 y hy, (h.var y (List.mem_cons_of_mem _ hy)).2⟩⟩

theorem InOrder.above {nv lo v : Nat} {c : Clause} (h : InOrder nv lo c) (hv : ∀ x ∈ c.head?, v < x.natAbs) : InOrder nv (v + 1) c := by
  cases c with
  | nil => exact ⟨.nil, fun _ g => absurd g List.not_mem_nil⟩
  | cons x c =>
    have h0 := hv x rfl
    refine ⟨h.incr, fun y hy => ⟨?_, (h.var y hy).2⟩⟩
    rcases List.mem_cons.1 hy with rfl | hy
    · omega
    · have := (List.pairwise_cons.1 h.incr).1 y hy
      omega

theorem lt_tail {x : Int} {a b : Clause} (h : clauseLt (x :: a) (x :: b) = true) : clauseLt a b = true := by
  rcases lt_heads h with h | h | h
  · omega
  · omega
  · exact h.2

theorem sorted_tails {R : List Clause} {x : Int} (h : R.Pairwise fun a b => clauseLt a b = true) (he : ∀ r ∈ R, r = x :: r.tail) : (R.map List.tail).Pairwise fun a b => clauseLt a b = true := by
  rw [List.pairwise_map]
  refine h.imp_of_mem ?_
  intro a b ha hb g
  rw [he a ha, he b hb] at g
  exact lt_tail g

theorem sorted_after {nv v : Nat} {R : List Clause} (h : Sorted nv v R) (hv : 1 ≤ v) (b : Fin 3) : Sorted nv (v + 1) (after v b.val R) := by
  match b with
  | 0 =>
    refine ⟨?_, fun c hc => ?_⟩
    · show (after v 0 R).Pairwise _
      unfold after
      rw [if_pos rfl]
      exact h.lt.sublist (List.takeWhile_sublist _)
    · obtain ⟨h1, h2⟩ := (mem_after0 h hv).1 hc
      exact (h.ok c h1).above h2
  | 1 =>
    refine ⟨?_, fun c hc => ?_⟩
    · show (after v 1 R).Pairwise _
      unfold after
      rw [if_neg (by decide), if_pos rfl]
      exact sorted_tails (x := -(v : Int)) (h.lt.sublist ((List.takeWhile_sublist _).trans (List.dropWhile_sublist _))) fun r hr => ((mem_mid h hv).1 hr).2
    · have := (h.ok _ ((mem_after1 h hv).1 hc)).tail
      have e : (-(v : Int)).natAbs = v := by omega
      rw [e] at this
      exact this
  | 2 =>
    refine ⟨?_, fun c hc => ?_⟩
    · show (after v 2 R).Pairwise _
      unfold after
      rw [if_neg (by decide), if_neg (by decide)]
      exact sorted_tails (x := (v : Int)) (h.lt.sublist (List.dropWhile_sublist _)) fun r hr => ((mem_end h hv).1 hr).2
    · exact (h.ok _ ((mem_after2 h hv).1 hc)).tail

/-- `getChild` moves to the part of the list with the literals `after`. -/
theorem narrow_eq {nv v : Nat} {cnf : List Clause} {s : ZSt} (hs : Inside cnf s) (hR : Sorted nv v (s.rest cnf)) (hv : 1 ≤ v) (hp : ∀ c ∈ s.rng cnf, s.pos ≤ c.length) (b : Fin 3) :
    ∃ t, narrow cnf s (v : Int) b.val = some t ∧ Inside cnf t ∧ t.rest cnf = after v b.val (s.rest cnf) ∧ ∀ c ∈ t.rng cnf, t.pos ≤ c.length := by
  have tails : ∀ beg fin, (ZSt.rest cnf ⟨beg, fin, s.pos + 1⟩) = (ZSt.rest cnf ⟨beg, fin, s.pos⟩).map List.tail := by
    intro beg fin
    unfold ZSt.rest
    rw [List.map_map]
    refine List.map_congr_left fun c _ => ?_
    show c.drop (s.pos + 1) = (c.drop s.pos).tail
    rw [List.tail_drop]
  have lens : ∀ (beg fin : Nat) (x : Int), (∀ r ∈ ZSt.rest cnf ⟨beg, fin, s.pos⟩, r = x :: r.tail) → ∀ c ∈ ZSt.rng cnf ⟨beg, fin, s.pos + 1⟩, s.pos + 1 ≤ c.length := by
    intro beg fin x h c hc
    have : c.drop s.pos = x :: (c.drop s.pos).tail := h _ (List.mem_map.2 ⟨c, hc, rfl⟩)
    have := congrArg List.length this
    rw [List.length_drop, List.length_cons] at this
    omega
  obtain ⟨k, k1, k2, k3, k4, k5⟩ := rest_lb (b := -(v : Int)) hs hR.lt
  match b with
  | 0 =>
    refine ⟨⟨s.beg, k, s.pos⟩, ?_, ⟨k2, Nat.le_trans k3 hs.fin⟩, ?_, ?_⟩
    · show narrow cnf s v 0 = _
      unfold narrow
      dsimp only
      rw [if_pos rfl, k1]
      rfl
    · show _ = after v 0 _
      unfold after
      rw [if_pos rfl, k4]
    · intro c hc
      refine hp c ?_
      unfold ZSt.rng at hc ⊢
      dsimp only at hc
      exact (List.take_sublist_take_left (by omega)).subset hc
  | 1 =>
    have hs2 : Inside cnf ⟨k, s.fin, s.pos⟩ := ⟨k3, hs.fin⟩
    obtain ⟨m, m1, m2, m3, m4, _⟩ := rest_lb (b := (v : Int)) hs2 (by rw [k5]; exact hR.lt.sublist (List.dropWhile_sublist _))
    dsimp only at m1 m2 m3 m4
    rw [k5] at m4
    refine ⟨⟨k, m, s.pos + 1⟩, ?_, ⟨m2, Nat.le_trans m3 hs.fin⟩, ?_, ?_⟩
    · show narrow cnf s v 1 = _
      unfold narrow
      dsimp only
      rw [if_neg (by decide), if_pos rfl, k1, Option.bind_some, m1]
      rfl
    · show _ = after v 1 _
      unfold after
      rw [if_neg (by decide), if_pos rfl, tails, m4]
    · refine lens k m (-(v : Int)) fun r hr => ?_
      rw [m4] at hr
      exact ((mem_mid hR hv).1 hr).2
  | 2 =>
    obtain ⟨m, m1, m2, m3, _, m5⟩ := rest_lb (b := (v : Int)) hs hR.lt
    refine ⟨⟨m, s.fin, s.pos + 1⟩, ?_, ⟨m3, hs.fin⟩, ?_, ?_⟩
    · show narrow cnf s v 2 = _
      unfold narrow
      dsimp only
      rw [if_neg (by decide), if_neg (by decide), m1]
      rfl
    · show _ = after v 2 _
      unfold after
      rw [if_neg (by decide), if_neg (by decide), tails, m5]
    · refine lens m s.fin (v : Int) fun r hr => ?_
      rw [m5] at hr
      exact ((mem_end hR hv).1 hr).2

/-! ## Levels -/

/-- the level of the literals left -/
def code (nv : Nat) (R : List Clause) : Int :=
  if R = [] then 0 else if R = [[]] then -1 else (nv : Int) + 1 - (((R.getLast?.bind List.head?).getD 0).natAbs : Int)

theorem last_cons {nv lo : Nat} {R : List Clause} (h : Sorted nv lo R) (h0 : R ≠ []) (h1 : R ≠ [[]]) : ∃ A x c, R = A ++ [x :: c] := by
  rcases List.eq_nil_or_concat R with e | ⟨A, d, e⟩
  · exact absurd e h0
  · rw [List.concat_eq_append] at e
    subst e
    cases d with
    | cons x c => exact ⟨A, x, c, rfl⟩
    | nil =>
      cases A with
      | nil => exact absurd rfl h1
      | cons b A =>
        have := (List.pairwise_cons.1 h.lt).1 [] (by simp)
        rw [lt_nil] at this
        cases this

theorem code_last {nv : Nat} {A : List Clause} {x : Int} {c : Clause} : code nv (A ++ [x :: c]) = (nv : Int) + 1 - x.natAbs := by
  unfold code
  rw [if_neg (by simp), if_neg (by cases A <;> simp), List.getLast?_concat]
  rfl

/-- the variables at the beginning of the clauses are at least that of the last one -/
theorem head_last {nv lo : Nat} {A : List Clause} {x : Int} {c : Clause} (h : Sorted nv lo (A ++ [x :: c])) : ∀ r ∈ A ++ [x :: c], ∀ y ∈ r.head?, x.natAbs ≤ y.natAbs := by
  intro r hr y hy
  rcases List.mem_append.1 hr with hr | hr
  · have := (List.pairwise_append.1 h.lt).2.2 r hr (x :: c) List.mem_cons_self
    rw [eq_cons_tail hy] at this
    rcases lt_heads this with h | h | h <;> omega
  · rw [List.mem_singleton] at hr
    subst hr
    rw [List.head?_cons, Option.mem_some_iff] at hy
    omega

end Cnf

end TdZdd
