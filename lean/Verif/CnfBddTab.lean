import Verif.CnfBddMap
import Verif.CnfZtddProofs

/-! The tables of clauses, and the sets that are computed by `getChild`. -/

namespace TdZdd

namespace CnfB

open Cnf

/-! ## Tables -/

/-- clause number `j` is `c` -/
def At (cnf : List Clause) (j : Nat) (c : Clause) : Prop := ∃ k, cnf[k]? = some c ∧ j = k + 1

theorem At.mem {cnf : List Clause} {j : Nat} {c : Clause} (h : At cnf j c) : c ∈ cnf := by
  obtain ⟨k, h, _⟩ := h
  exact List.mem_of_getElem? h

theorem At.unique {cnf : List Clause} {j : Nat} {c d : Clause} (h : At cnf j c) (h' : At cnf j d) : c = d := by
  obtain ⟨k, h, e⟩ := h
  obtain ⟨k', h', e'⟩ := h'
  rw [show k' = k by omega, h] at h'
  exact Option.some.inj h'

theorem At.range {cnf : List Clause} {j : Nat} {c : Clause} (h : At cnf j c) : 1 ≤ j ∧ j ≤ cnf.length := by
  obtain ⟨k, h, e⟩ := h
  have := (List.getElem?_eq_some_iff.1 h).1
  omega

theorem exists_at {cnf : List Clause} {c : Clause} (h : c ∈ cnf) : ∃ j, At cnf j c := by
  obtain ⟨k, h⟩ := List.mem_iff_getElem?.1 h
  exact ⟨k + 1, k, h, rfl⟩

theorem mem_pushed {nv level : Nat} {sel : Clause → List Int} {j : Nat} {cs : List Clause} : ∀ {j0 : Nat}, j ∈ pushed nv sel level j0 cs ↔ ∃ k c, cs[k]? = some c ∧ j = j0 + k ∧ ∃ x ∈ sel c, lev nv x = level := by
  induction cs with
  | nil => intro j0; simp [pushed]
  | cons c cs ih =>
    intro j0
    rw [pushed, List.mem_append, ih, List.mem_map]
    constructor
    · rintro (⟨x, h, e⟩ | ⟨k, d, h1, h2, h3⟩)
      · obtain ⟨h, g⟩ := List.mem_filter.1 h
        exact ⟨0, c, rfl, e.symm, x, h, of_decide_eq_true g⟩
      · exact ⟨k + 1, d, h1, by omega, h3⟩
    · rintro ⟨k, d, h1, h2, h3⟩
      cases k with
      | zero =>
        cases h1
        obtain ⟨x, h, g⟩ := h3
        exact .inl ⟨x, List.mem_filter.2 ⟨h, decide_eq_true g⟩, h2.symm⟩
      | succ k => exact .inr ⟨k, d, h1, by omega, h3⟩

theorem pushed_sorted {nv level : Nat} {sel : Clause → List Int} {cs : List Clause} : ∀ {j0 : Nat}, (∀ c ∈ cs, (sel c).Pairwise fun x y => lev nv x ≠ lev nv y) → (pushed nv sel level j0 cs).Pairwise (· < ·) := by
  induction cs with
  | nil => intro j0 _; exact .nil
  | cons c cs ih =>
    intro j0 h
    rw [pushed, List.pairwise_append]
    refine ⟨?_, ih fun c hc => h c (List.mem_cons_of_mem _ hc), ?_⟩
    · rw [List.pairwise_map]
      have h1 := h c List.mem_cons_self
      refine (h1.filter _).imp_of_mem ?_
      intro x y hx hy hne
      have ex := of_decide_eq_true (List.mem_filter.1 hx).2
      have ey := of_decide_eq_true (List.mem_filter.1 hy).2
      exact absurd (ex.trans ey.symm) hne
    · intro x hx y hy
      obtain ⟨_, _, rfl⟩ := List.mem_map.1 hx
      obtain ⟨k, c, _, e, _⟩ := mem_pushed.1 hy
      omega

/-- clauses with at least one literal, and with increasing variables -/
structure Good (nv : Nat) (cnf : List Clause) : Prop where
  ne : ∀ c ∈ cnf, c ≠ []
  ord : ∀ c ∈ cnf, InOrder nv 1 c

variable {nv : Nat} {cnf : List Clause}

theorem Good.distinct (h : Good nv cnf) {c : Clause} (hc : c ∈ cnf) : c.Pairwise fun x y => lev nv x > lev nv y := by
  refine (h.ord c hc).incr.imp_of_mem ?_
  intro x y hx hy hlt
  have h1 := (h.ord c hc).var x hx
  have h2 := (h.ord c hc).var y hy
  unfold lev
  omega

/-- the clauses that get satisfied at a level -/
def satBy (nv : Nat) (cnf : List Clause) (b : Bool) (level : Nat) : List Nat := if b then posi nv cnf level else nega nv cnf level

theorem mem_satBy {b : Bool} {level j : Nat} : j ∈ satBy nv cnf b level ↔ ∃ c, At cnf j c ∧ ∃ x ∈ c, lev nv x = level ∧ decide (0 < x) = b := by
  have key : ∀ (p : Int → Bool), j ∈ pushed nv (fun c => c.filter p) level 1 cnf ↔ ∃ c, At cnf j c ∧ ∃ x ∈ c, lev nv x = level ∧ p x = true := by
    intro p
    rw [mem_pushed]
    constructor
    · rintro ⟨k, c, h1, h2, x, hx, e⟩
      obtain ⟨hx, hp⟩ := List.mem_filter.1 hx
      exact ⟨c, ⟨k, h1, by omega⟩, x, hx, e, hp⟩
    · rintro ⟨c, ⟨k, h1, h2⟩, x, hx, e, hp⟩
      exact ⟨k, c, h1, by omega, x, List.mem_filter.2 ⟨hx, hp⟩, e⟩
  cases b
  · rw [satBy, if_neg Bool.false_ne_true, nega, key]
    simp
  · rw [satBy, if_pos rfl, posi, key]

theorem satBy_sorted (h : Good nv cnf) {b : Bool} {level : Nat} : (satBy nv cnf b level).Pairwise (· < ·) := by
  have key : ∀ (p : Int → Bool), (pushed nv (fun c => c.filter p) level 1 cnf).Pairwise (· < ·) := by
    intro p
    refine pushed_sorted fun c hc => ((h.distinct hc).filter _).imp ?_
    intro x y h e
    omega
  cases b
  · exact key _
  · exact key _

theorem mem_enter {level j : Nat} : j ∈ enter nv cnf level ↔ ∃ c x, At cnf j c ∧ c.head? = some x ∧ lev nv x = level := by
  rw [enter, mem_pushed]
  constructor
  · rintro ⟨k, c, h1, h2, x, hx, e⟩
    exact ⟨c, x, ⟨k, h1, by omega⟩, Option.mem_toList.1 hx, e⟩
  · rintro ⟨c, x, ⟨k, h1, h2⟩, hx, e⟩
    exact ⟨k, c, h1, by omega, x, Option.mem_toList.2 hx, e⟩

theorem enter_sorted {level : Nat} : (enter nv cnf level).Pairwise (· < ·) := by
  refine pushed_sorted fun c _ => ?_
  cases c.head? with
  | none => exact .nil
  | some x => exact List.pairwise_singleton _ _

theorem mem_leave {level j : Nat} : j ∈ leave nv cnf level ↔ ∃ c x, At cnf j c ∧ c.getLast? = some x ∧ lev nv x = level := by
  rw [leave, mem_pushed]
  constructor
  · rintro ⟨k, c, h1, h2, x, hx, e⟩
    exact ⟨c, x, ⟨k, h1, by omega⟩, Option.mem_toList.1 hx, e⟩
  · rintro ⟨c, x, ⟨k, h1, h2⟩, hx, e⟩
    exact ⟨k, c, h1, by omega, x, Option.mem_toList.2 hx, e⟩

/-- the level at which a clause is entered -/
def entry (nv : Nat) (c : Clause) : Nat := c.head?.elim 0 (lev nv)

theorem mem_enter' (h : Good nv cnf) {level j : Nat} {c : Clause} (hj : At cnf j c) : j ∈ enter nv cnf level ↔ entry nv c = level := by
  rw [mem_enter]
  have hne := h.ne c hj.mem
  cases c with
  | nil => exact absurd rfl hne
  | cons x c =>
    constructor
    · rintro ⟨d, y, hd, e, g⟩
      rw [← hj.unique hd] at e
      cases e
      exact g
    · intro g
      exact ⟨_, x, hj, rfl, g⟩

theorem lev_le_entry (h : Good nv cnf) {c : Clause} (hc : c ∈ cnf) {x : Int} (hx : x ∈ c) : lev nv x ≤ entry nv c := by
  have := h.distinct hc
  cases c with
  | nil => cases hx
  | cons y c =>
    show lev nv x ≤ lev nv y
    rcases List.mem_cons.1 hx with rfl | hx
    · exact Nat.le_refl _
    · exact Nat.le_of_lt ((List.pairwise_cons.1 this).1 x hx)

theorem lev_pos (h : Good nv cnf) {c : Clause} (hc : c ∈ cnf) {x : Int} (hx : x ∈ c) : 1 ≤ lev nv x ∧ lev nv x ≤ nv := by
  have := (h.ord c hc).var x hx
  unfold lev
  omega

theorem entry_le (h : Good nv cnf) {c : Clause} (hc : c ∈ cnf) : 1 ≤ entry nv c ∧ entry nv c ≤ nv := by
  have hne := h.ne c hc
  cases c with
  | nil => exact absurd rfl hne
  | cons x c => exact lev_pos h hc List.mem_cons_self

/-- A clause leaves at the level of its last literal. -/
theorem leave_le (h : Good nv cnf) {level j : Nat} {c : Clause} (hj : At cnf j c) (hl : j ∈ leave nv cnf level) {x : Int} (hx : x ∈ c) : level ≤ lev nv x := by
  obtain ⟨d, y, hd, e, g⟩ := mem_leave.1 hl
  rw [← hj.unique hd] at e
  obtain ⟨ys, rfl⟩ := List.getLast?_eq_some_iff.1 e
  have := List.pairwise_append.1 (h.distinct hj.mem)
  rcases List.mem_append.1 hx with hx | hx
  · have := this.2.2 x hx y List.mem_cons_self
    omega
  · rw [List.mem_singleton.1 hx]
    omega

theorem leave_entry (h : Good nv cnf) {level j : Nat} {c : Clause} (hj : At cnf j c) (hl : j ∈ leave nv cnf level) : level ≤ entry nv c := by
  obtain ⟨d, y, hd, e, g⟩ := mem_leave.1 hl
  rw [← hj.unique hd] at e
  have := lev_le_entry h hj.mem (List.mem_of_getLast? e)
  omega

theorem completing_le {c : Clause} (hc : c ∈ cnf) : completing nv cnf ≤ entry nv c - 1 := by
  have key : ∀ (cs : List Clause) (m : Nat), cs.foldl (fun m c => min m (c.head?.elim 0 (lev nv) - 1)) m ≤ m ∧ ∀ c ∈ cs, cs.foldl (fun m c => min m (c.head?.elim 0 (lev nv) - 1)) m ≤ entry nv c - 1 := by
    intro cs
    induction cs with
    | nil => intro m; exact ⟨Nat.le_refl _, fun c h => nomatch h⟩
    | cons d cs ih =>
      intro m
      rw [List.foldl_cons]
      obtain ⟨i1, i2⟩ := ih (min m (d.head?.elim 0 (lev nv) - 1))
      refine ⟨by omega, ?_⟩
      intro c hc
      rcases List.mem_cons.1 hc with rfl | hc
      · show _ ≤ c.head?.elim 0 (lev nv) - 1
        omega
      · exact i2 c hc
  exact (key cnf nv).2 c hc

/-! ## Sets -/

theorem emit_spec {x : Nat} {P : Nat → Prop} {c : List Nat} {K : List Nat → List Nat} (hc : c.Pairwise (· < ·)) (hP : ∀ y, P y → x < y)
    (hK : ∀ c' : List Nat, c'.Pairwise (· < ·) → ∃ w : List Nat, K c' = w.map short ∧ w.Pairwise (· < ·) ∧ ∀ y, y ∈ w ↔ P y ∧ y ∉ c') :
    ∃ w : List Nat, combine.emit x (c.dropWhile fun z => decide (z < x)) K = w.map short ∧ w.Pairwise (· < ·) ∧ ∀ y, y ∈ w ↔ (y = x ∨ P y) ∧ y ∉ c := by
  have e := List.takeWhile_append_dropWhile (p := fun z => decide (z < x)) (l := c)
  have hA := List.all_takeWhile (p := fun z => decide (z < x)) (l := c)
  have hD := List.head?_dropWhile_not (p := fun z => decide (z < x)) (l := c)
  generalize c.takeWhile (fun z => decide (z < x)) = A at e hA
  generalize c.dropWhile (fun z => decide (z < x)) = D at e hD
  subst e
  have hAx : ∀ z ∈ A, z < x := fun z hz => of_decide_eq_true (List.all_eq_true.1 hA z hz)
  have hs := (List.pairwise_append.1 hc).2.1
  have hm : ∀ y, x ≤ y → (y ∈ A ++ D ↔ y ∈ D) := by
    intro y hy
    rw [List.mem_append]
    exact ⟨fun h => h.resolve_left fun h => by have := hAx y h; omega, .inr⟩
  have hge : ∀ y, y = x ∨ P y → x ≤ y := by
    rintro y (h | h)
    · omega
    · have := hP y h; omega
  suffices ∃ w : List Nat, combine.emit x D K = w.map short ∧ w.Pairwise (· < ·) ∧ ∀ y, y ∈ w ↔ (y = x ∨ P y) ∧ y ∉ D by
    obtain ⟨w, w1, w2, w3⟩ := this
    refine ⟨w, w1, w2, fun y => ?_⟩
    rw [w3]
    constructor
    · rintro ⟨h1, h2⟩; exact ⟨h1, fun h => h2 ((hm y (hge y h1)).1 h)⟩
    · rintro ⟨h1, h2⟩; exact ⟨h1, fun h => h2 ((hm y (hge y h1)).2 h)⟩
  have hcons : ∀ D : List Nat, D.Pairwise (· < ·) → x ∉ D → ∃ w : List Nat, short x :: K D = w.map short ∧ w.Pairwise (· < ·) ∧ ∀ y, y ∈ w ↔ (y = x ∨ P y) ∧ y ∉ D := by
    intro D hs hx
    obtain ⟨w, w1, w2, w3⟩ := hK D hs
    refine ⟨x :: w, by rw [List.map_cons, w1], List.pairwise_cons.2 ⟨fun y hy => hP y ((w3 y).1 hy).1, w2⟩, fun y => ?_⟩
    rw [List.mem_cons, w3]
    constructor
    · rintro (h | ⟨h1, h2⟩)
      · exact ⟨.inl h, h ▸ hx⟩
      · exact ⟨.inr h1, h2⟩
    · rintro ⟨h1 | h1, h2⟩
      · exact .inl h1
      · exact .inr ⟨h1, h2⟩
  unfold combine.emit
  cases D with
  | nil => exact hcons [] .nil fun h => nomatch h
  | cons z D =>
    have hz : x ≤ z := by
      have hD : (!decide (z < x)) = true := by simpa using hD
      simpa using hD
    have hzD := List.pairwise_cons.1 hs
    dsimp only
    split
    · rename_i e
      subst e
      obtain ⟨w, w1, w2, w3⟩ := hK D hzD.2
      refine ⟨w, w1, w2, fun y => ?_⟩
      rw [w3, List.mem_cons]
      constructor
      · rintro ⟨h1, h2⟩
        have := hP y h1
        exact ⟨.inr h1, fun h => h.elim (by omega) h2⟩
      · rintro ⟨h1 | h1, h2⟩
        · exact absurd (.inl h1) h2
        · exact ⟨h1, fun h => h2 (.inr h)⟩
    · rename_i ne
      refine hcons (z :: D) hs fun h => ?_
      rcases List.mem_cons.1 h with h | h
      · exact ne h.symm
      · have := hzD.1 x h; omega

/-- `{a} + {b} - {c}` -/
theorem combine_spec : ∀ (n : Nat) (a b c : List Nat), a.Pairwise (· < ·) → b.Pairwise (· < ·) → c.Pairwise (· < ·) → a.length + b.length ≤ n →
    ∃ w : List Nat, combine n a b c = w.map short ∧ w.Pairwise (· < ·) ∧ ∀ y, y ∈ w ↔ (y ∈ a ∨ y ∈ b) ∧ y ∉ c := by
  intro n
  induction n with
  | zero =>
    intro a b c _ _ _ h
    cases a with
    | cons => simp at h
    | nil =>
    cases b with
    | cons => simp at h
    | nil => exact ⟨[], rfl, .nil, fun y => by simp⟩
  | succ n ih =>
    intro a b c ha hb hc h
    cases a with
    | nil =>
      cases b with
      | nil => exact ⟨[], rfl, .nil, fun y => by simp⟩
      | cons y b =>
        obtain ⟨b1, b2⟩ := List.pairwise_cons.1 hb
        rw [combine]
        obtain ⟨w, w1, w2, w3⟩ := emit_spec (x := y) (P := fun z => z ∈ ([] : List Nat) ∨ z ∈ b) hc (fun z hz => b1 z (hz.resolve_left (fun h => nomatch h))) fun c' hc' => ih [] b c' .nil b2 hc' (by simp at h ⊢; omega)
        refine ⟨w, w1, w2, fun z => ?_⟩
        rw [w3, List.mem_cons]
        simp
    | cons x a =>
      obtain ⟨a1, a2⟩ := List.pairwise_cons.1 ha
      cases b with
      | nil =>
        rw [combine]
        obtain ⟨w, w1, w2, w3⟩ := emit_spec (x := x) (P := fun z => z ∈ a ∨ z ∈ ([] : List Nat)) hc (fun z hz => a1 z (hz.resolve_right (fun h => nomatch h))) fun c' hc' => ih a [] c' a2 .nil hc' (by simp at h ⊢; omega)
        refine ⟨w, w1, w2, fun z => ?_⟩
        rw [w3, List.mem_cons]
        simp
      | cons y b =>
        obtain ⟨b1, b2⟩ := List.pairwise_cons.1 hb
        rw [combine]
        split
        · rename_i hxy
          obtain ⟨w, w1, w2, w3⟩ := emit_spec (x := x) (P := fun z => z ∈ a ∨ z ∈ y :: b) hc (fun z hz => by
            rcases hz with hz | hz
            · exact a1 z hz
            · rcases List.mem_cons.1 hz with rfl | hz
              · exact hxy
              · have := b1 z hz; omega) fun c' hc' => ih a (y :: b) c' a2 hb hc' (by simp at h ⊢; omega)
          refine ⟨w, w1, w2, fun z => ?_⟩
          rw [w3, List.mem_cons (l := a), or_assoc]
        · rename_i hxy
          split
          · rename_i e
            subst e
            obtain ⟨w, w1, w2, w3⟩ := emit_spec (x := x) (P := fun z => z ∈ a ∨ z ∈ b) hc (fun z hz => hz.elim (a1 z) (b1 z)) fun c' hc' => ih a b c' a2 b2 hc' (by simp at h ⊢; omega)
            refine ⟨w, w1, w2, fun z => ?_⟩
            rw [w3, List.mem_cons, List.mem_cons]
            constructor
            · rintro ⟨h | h | h, g⟩
              · exact ⟨.inl (.inl h), g⟩
              · exact ⟨.inl (.inr h), g⟩
              · exact ⟨.inr (.inr h), g⟩
            · rintro ⟨(h | h) | h | h, g⟩
              · exact ⟨.inl h, g⟩
              · exact ⟨.inr (.inl h), g⟩
              · exact ⟨.inl h, g⟩
              · exact ⟨.inr (.inr h), g⟩
          · rename_i ne
            obtain ⟨w, w1, w2, w3⟩ := emit_spec (x := y) (P := fun z => z ∈ x :: a ∨ z ∈ b) hc (fun z hz => by
              rcases hz with hz | hz
              · rcases List.mem_cons.1 hz with rfl | hz
                · omega
                · have := a1 z hz; omega
              · exact b1 z hz) fun c' hc' => ih (x :: a) b c' ha b2 hc' (by simp at h ⊢; omega)
            refine ⟨w, w1, w2, fun z => ?_⟩
            rw [w3, List.mem_cons (l := b)]
            constructor
            · rintro ⟨h | h | h, g⟩
              · exact ⟨.inr (.inl h), g⟩
              · exact ⟨.inl h, g⟩
              · exact ⟨.inr (.inr h), g⟩
            · rintro ⟨h | h | h, g⟩
              · exact ⟨.inr (.inl h), g⟩
              · exact ⟨.inl h, g⟩
              · exact ⟨.inr (.inr h), g⟩

theorem mem_addTo {e y : Nat} {l : List Nat} : y ∈ addTo e l ↔ y = e ∨ y ∈ l := by
  induction l with
  | nil => simp [addTo]
  | cons x l ih =>
    rw [addTo]
    split
    · rw [List.mem_cons]
    · split
      · rename_i h
        subst h
        simp
      · rw [List.mem_cons, ih, List.mem_cons]
        constructor
        · rintro (h | h | h)
          · exact .inr (.inl h)
          · exact .inl h
          · exact .inr (.inr h)
        · rintro (h | h | h)
          · exact .inr (.inl h)
          · exact .inl h
          · exact .inr (.inr h)

theorem addTo_sorted {e : Nat} {l : List Nat} (h : l.Pairwise (· < ·)) : (addTo e l).Pairwise (· < ·) := by
  induction l with
  | nil => exact List.pairwise_singleton _ _
  | cons x l ih =>
    obtain ⟨h1, h2⟩ := List.pairwise_cons.1 h
    rw [addTo]
    split
    · rename_i g
      refine List.pairwise_cons.2 ⟨fun y hy => ?_, h⟩
      rcases List.mem_cons.1 hy with rfl | hy
      · exact g
      · have := h1 y hy; omega
    · split
      · exact h
      · refine List.pairwise_cons.2 ⟨fun y hy => ?_, ih h2⟩
        rcases mem_addTo.1 hy with rfl | hy
        · omega
        · exact h1 y hy

theorem toSet_spec {w : List Nat} : (toSet w).Pairwise (· < ·) ∧ ∀ y, y ∈ toSet w ↔ y ∈ w := by
  have key : ∀ (w l : List Nat), l.Pairwise (· < ·) → (w.foldl (fun l e => addTo e l) l).Pairwise (· < ·) ∧ ∀ y, y ∈ w.foldl (fun l e => addTo e l) l ↔ y ∈ l ∨ y ∈ w := by
    intro w
    induction w with
    | nil => intro l h; exact ⟨h, fun y => by simp⟩
    | cons e w ih =>
      intro l h
      obtain ⟨i1, i2⟩ := ih (addTo e l) (addTo_sorted h)
      refine ⟨i1, fun y => ?_⟩
      rw [List.foldl_cons, i2, mem_addTo, List.mem_cons]
      constructor
      · rintro ((h | h) | h)
        · exact .inr (.inl h)
        · exact .inl h
        · exact .inr (.inr h)
      · rintro (h | h | h)
        · exact .inl (.inr h)
        · exact .inl (.inl h)
        · exact .inr h
  obtain ⟨k1, k2⟩ := key w [] .nil
  exact ⟨k1, fun y => by rw [toSet, k2]; simp⟩

theorem sorted_ext {a : List Nat} : ∀ {b : List Nat}, a.Pairwise (· < ·) → b.Pairwise (· < ·) → (∀ y, y ∈ a ↔ y ∈ b) → a = b := by
  induction a with
  | nil =>
    intro b _ _ h
    cases b with
    | nil => rfl
    | cons y b => exact nomatch (h y).2 List.mem_cons_self
  | cons x a ih =>
    intro b ha hb h
    obtain ⟨a1, a2⟩ := List.pairwise_cons.1 ha
    cases b with
    | nil => exact nomatch (h x).1 List.mem_cons_self
    | cons y b =>
      obtain ⟨b1, b2⟩ := List.pairwise_cons.1 hb
      have e : x = y := by
        rcases List.mem_cons.1 ((h x).1 List.mem_cons_self) with h1 | h1
        · exact h1
        · rcases List.mem_cons.1 ((h y).2 List.mem_cons_self) with h2 | h2
          · exact h2.symm
          · have := a1 y h2; have := b1 x h1; omega
      subst e
      rw [ih a2 b2 fun z => ?_]
      constructor
      · intro hz
        have := a1 z hz
        exact (List.mem_cons.1 ((h z).1 (List.mem_cons_of_mem _ hz))).resolve_left (by omega)
      · intro hz
        have := b1 z hz
        exact (List.mem_cons.1 ((h z).2 (List.mem_cons_of_mem _ hz))).resolve_left (by omega)

theorem toSet_id {w : List Nat} (h : w.Pairwise (· < ·)) : toSet w = w := sorted_ext toSet_spec.1 h toSet_spec.2

/-- the set of clauses after a step -/
def Stepped (nv : Nat) (cnf : List Clause) (b : Bool) (level : Nat) (S T : List Nat) : Prop :=
  ∀ y, y ∈ T ↔ (y ∈ S ∨ y ∈ enter nv cnf level) ∧ y ∉ satBy nv cnf b level

theorem short_id {w : List Nat} (h : ∀ y ∈ w, y ≤ 65535) : w.map short = w := by
  induction w with
  | nil => rfl
  | cons x w ih =>
    rw [List.map_cons, ih fun y hy => h y (List.mem_cons_of_mem _ hy)]
    have := h x List.mem_cons_self
    rw [short, Nat.mod_eq_of_lt (by omega)]

/-- the contents of `work` -/
theorem work_spec (h : Good nv cnf) (hn : cnf.length ≤ 65535) {S : List Nat} (hS : S.Pairwise (· < ·)) (hv : ∀ j ∈ S, ∃ c, At cnf j c) (b : Bool) (level : Nat) :
    (combine (S.length + (enter nv cnf level).length) S (enter nv cnf level) (satBy nv cnf b level)).Pairwise (· < ·) ∧
    Stepped nv cnf b level S (combine (S.length + (enter nv cnf level).length) S (enter nv cnf level) (satBy nv cnf b level)) := by
  obtain ⟨w, w1, w2, w3⟩ := combine_spec _ S (enter nv cnf level) (satBy nv cnf b level) hS enter_sorted (satBy_sorted h) (Nat.le_refl _)
  have : w.map short = w := by
    refine short_id fun y hy => ?_
    have : ∃ c, At cnf y c := by
      rcases ((w3 y).1 hy).1 with hy | hy
      · exact hv y hy
      · obtain ⟨c, _, h, _⟩ := mem_enter.1 hy
        exact ⟨c, h⟩
    obtain ⟨c, hc⟩ := this
    have := hc.range
    omega
  rw [w1, this]
  exact ⟨w2, w3⟩

end CnfB

end TdZdd
