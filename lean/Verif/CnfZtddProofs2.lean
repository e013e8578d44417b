import Verif.CnfZtddProofs

/-! The meaning of the states of `CnfToZtdd`. -/

namespace TdZdd

namespace Cnf

/-- the literal of a level -/
def lit (nv j : Nat) (b : Fin 3) : Clause := if b = 0 then [] else if b = 1 then [-((nv : Int) + 1 - j)] else [(nv : Int) + 1 - j]

/-- the clause of an assignment on the levels `n..1` -/
def word (nv : Nat) (a : Asg 3) : Nat → Clause
  | 0 => []
  | n + 1 => lit nv (n + 1) (a (n + 1)) ++ word nv a n

theorem lit_var {nv j : Nat} {b : Fin 3} (hj : j ≤ nv) {x : Int} (h : x ∈ lit nv j b) : x.natAbs = nv + 1 - j := by
  unfold lit at h
  split at h
  · cases h
  · split at h <;> (rw [List.mem_singleton] at h; omega)

theorem word_var {nv : Nat} {a : Asg 3} : ∀ {n : Nat} {x : Int}, n ≤ nv → x ∈ word nv a n → nv + 1 - n ≤ x.natAbs := by
  intro n
  induction n with
  | zero => intro x _ h; cases h
  | succ n ih =>
    intro x hn h
    rcases List.mem_append.1 h with h | h
    · have := lit_var hn h; omega
    · have := ih (by omega) h; omega

theorem head_mem {r : Clause} {x : Int} (h : x ∈ r.head?) : x ∈ r := by
  rw [eq_cons_tail h]; exact List.mem_cons_self

/-- Above the variables at the beginning of the clauses, the assignment is 0. -/
theorem word_mem {nv k : Nat} {a : Asg 3} {R : List Clause} (hR : ∀ r ∈ R, ∀ x ∈ r.head?, nv + 1 - k ≤ x.natAbs) : ∀ {m : Nat}, k ≤ m → m ≤ nv →
    (word nv a m ∈ R ↔ (∀ j, k < j → j ≤ m → (a j).val = 0) ∧ word nv a k ∈ R) := by
  intro m
  induction m with
  | zero =>
    intro h _
    obtain rfl : k = 0 := by omega
    exact ⟨fun h => ⟨fun j h1 h2 => by omega, h⟩, fun h => h.2⟩
  | succ m ih =>
    intro h hm
    by_cases e : k = m + 1
    · subst e
      exact ⟨fun h => ⟨fun j h1 h2 => by omega, h⟩, fun h => h.2⟩
    · by_cases h0 : a (m + 1) = 0
      · have : word nv a (m + 1) = word nv a m := by rw [word, h0]; rfl
        rw [this, ih (by omega) (by omega)]
        constructor
        · rintro ⟨h1, h2⟩
          refine ⟨fun j j1 j2 => ?_, h2⟩
          by_cases ej : j = m + 1
          · rw [ej, h0]; rfl
          · exact h1 j j1 (by omega)
        · rintro ⟨h1, h2⟩
          exact ⟨fun j j1 j2 => h1 j j1 (by omega), h2⟩
      · constructor
        · intro g
          exfalso
          obtain ⟨x, hx⟩ : ∃ x, lit nv (m + 1) (a (m + 1)) = [x] := by
            unfold lit
            rw [if_neg h0]
            split <;> exact ⟨_, rfl⟩
          have h2 : x ∈ (word nv a (m + 1)).head? := by rw [word, hx]; rfl
          have h3 := hR _ g x h2
          have h4 := lit_var (b := a (m + 1)) hm (by rw [hx]; exact List.mem_singleton.2 rfl : x ∈ _)
          omega
        · rintro ⟨h1, _⟩
          exact absurd (Fin.ext (h1 (m + 1) (by omega) (Nat.le_refl _))) h0

theorem word_nil {nv : Nat} {a : Asg 3} : ∀ {m : Nat}, word nv a m = [] ↔ ∀ j, 1 ≤ j → j ≤ m → (a j).val = 0 := by
  intro m
  induction m with
  | zero => exact ⟨fun _ j h1 h2 => by omega, fun _ => rfl⟩
  | succ m ih =>
    rw [word, List.append_eq_nil_iff, ih]
    have : lit nv (m + 1) (a (m + 1)) = [] ↔ (a (m + 1)).val = 0 := by
      unfold lit
      split
      · rename_i h; rw [h]; simp
      · rename_i h
        split <;> simp only [List.cons_ne_self, false_iff] <;> exact fun e => h (Fin.ext e)
    rw [this]
    constructor
    · rintro ⟨h1, h2⟩ j j1 j2
      by_cases e : j = m + 1
      · rw [e]; exact h1
      · exact h2 j j1 (by omega)
    · intro h
      exact ⟨h _ (by omega) (Nat.le_refl _), fun j j1 j2 => h j j1 (by omega)⟩

/-- one step of the clause of an assignment -/
theorem word_after {nv m : Nat} {a : Asg 3} {R : List Clause} (hm : m + 1 ≤ nv) (hR : Sorted nv (nv - m) R) : word nv a (m + 1) ∈ R ↔ word nv a m ∈ after (nv - m) (a (m + 1)).val R := by
  have e : (nv : Int) + 1 - ((m + 1 : Nat) : Int) = ((nv - m : Nat) : Int) := by omega
  have hv : 1 ≤ nv - m := by omega
  rw [word]
  generalize a (m + 1) = b
  match b with
  | 0 =>
    show [] ++ word nv a m ∈ R ↔ word nv a m ∈ after (nv - m) 0 R
    rw [List.nil_append, mem_after0 hR hv]
    refine ⟨fun h => ⟨h, fun x hx => ?_⟩, fun h => h.1⟩
    have := word_var (by omega) (head_mem hx)
    omega
  | 1 =>
    show [-((nv : Int) + 1 - ((m + 1 : Nat) : Int))] ++ word nv a m ∈ R ↔ word nv a m ∈ after (nv - m) 1 R
    rw [e, mem_after1 hR hv]
    rfl
  | 2 =>
    show [(nv : Int) + 1 - ((m + 1 : Nat) : Int)] ++ word nv a m ∈ R ↔ word nv a m ∈ after (nv - m) 2 R
    rw [e, mem_after2 hR hv]
    rfl

/-- states at the level `n` -/
structure Inv (nv : Nat) (cnf : List Clause) (n : Nat) (s : ZSt) : Prop where
  inside : Inside cnf s
  le : n ≤ nv
  sorted : Sorted nv (nv + 1 - n) (s.rest cnf)
  pos : ∀ c ∈ s.rng cnf, s.pos ≤ c.length
  code : code nv (s.rest cnf) = n

theorem rest_length {cnf : List Clause} {s : ZSt} (h : Inside cnf s) : (s.rest cnf).length = s.fin - s.beg := by
  have h1 := h.le
  have h2 := h.fin
  unfold ZSt.rest ZSt.rng
  rw [List.length_map, List.length_take, List.length_drop]
  omega

theorem rng_get {cnf : List Clause} {s : ZSt} {i : Nat} (hi : i < s.fin - s.beg) : (s.rng cnf)[i]? = cnf[s.beg + i]? := by
  unfold ZSt.rng
  rw [List.getElem?_take_of_lt hi, List.getElem?_drop]

/-- the level of the new state -/
theorem nextLevel_eq {nv n lo : Nat} {cnf : List Clause} {t : ZSt} (hi : Inside cnf t) (hn : n ≤ nv) (hlo : lo = nv + 1 - n + 1) (hs : Sorted nv lo (t.rest cnf)) :
    nextLevel nv cnf n t = some (code nv (t.rest cnf)) := by
  have hl := rest_length hi
  have h1 := hi.le
  have h2 := hi.fin
  unfold nextLevel
  by_cases e : t.beg = t.fin
  · rw [if_pos e]
    have : t.rest cnf = [] := List.eq_nil_of_length_eq_zero (by omega)
    rw [this]
    rfl
  · rw [if_neg e]
    have hb : t.beg < cnf.length := by omega
    rw [List.getElem?_eq_getElem hb, Option.bind_some]
    have hb0 : (t.rest cnf)[0]? = some (cnf[t.beg].drop t.pos) := by
      unfold ZSt.rest
      rw [List.getElem?_map, rng_get (by omega)]
      show (cnf[t.beg]?).map _ = _
      rw [List.getElem?_eq_getElem hb]
      rfl
    by_cases h3 : t.beg = t.fin - 1 ∧ cnf[t.beg].length ≤ t.pos
    · rw [if_pos h3]
      have : t.rest cnf = [[]] := by
        have hl1 : (t.rest cnf).length = 1 := by omega
        obtain ⟨r, hr⟩ := List.length_eq_one_iff.1 hl1
        rw [hr] at hb0 ⊢
        have := Option.some.inj hb0
        rw [this, List.drop_eq_nil_of_le h3.2]
      rw [this]
      rfl
    · rw [if_neg h3]
      have hne : t.rest cnf ≠ [] := fun h => by rw [h] at hl; simp at hl; omega
      have hne2 : t.rest cnf ≠ [[]] := by
        intro h
        rw [h] at hl hb0
        have : t.fin - t.beg = 1 := hl.symm
        refine h3 ⟨by omega, ?_⟩
        have := Option.some.inj hb0
        exact List.drop_eq_nil_iff.1 this.symm
      obtain ⟨A, x, c, hA⟩ := last_cons hs hne hne2
      have hx := (hs.ok (x :: c) (by rw [hA]; simp)).var x List.mem_cons_self
      have hf : t.fin - 1 < cnf.length := by omega
      have hlast : (t.rest cnf)[t.fin - 1 - t.beg]? = some (cnf[t.fin - 1].drop t.pos) := by
        unfold ZSt.rest
        rw [List.getElem?_map, rng_get (by omega), show t.beg + (t.fin - 1 - t.beg) = t.fin - 1 by omega, List.getElem?_eq_getElem hf]
        rfl
      rw [hA] at hl hlast
      rw [List.length_append, List.length_singleton] at hl
      rw [List.getElem?_append_right (by omega), show t.fin - 1 - t.beg - A.length = 0 by omega] at hlast
      have hd := Option.some.inj hlast
      have hget : (cnf[t.fin - 1])[t.pos]? = some x := by
        rw [← List.head?_drop, ← hd]; rfl
      rw [List.getElem?_eq_getElem hf, hA, code_last]
      show ((cnf[t.fin - 1])[t.pos]?).bind _ = _
      rw [hget, Option.bind_some]
      unfold levelOfVar
      rw [if_pos (by omega)]
      show (if _ < _ then _ else _) = _
      rw [if_pos (by omega)]
      congr 1
      omega

theorem child_eq {nv : Nat} {cnf : List Clause} {n : Nat} {s : ZSt} (hn : 0 < n) (h : Inv nv cnf n s) (b : Fin 3) :
    ∃ t, (zSpec nv cnf).child s n b = (code nv (t.rest cnf), t) ∧ Inside cnf t ∧ t.rest cnf = after (nv + 1 - n) b.val (s.rest cnf) ∧ (∀ c ∈ t.rng cnf, t.pos ≤ c.length) ∧
      Sorted nv (nv + 1 - n + 1) (t.rest cnf) := by
  have hle := h.le
  have hv : 1 ≤ nv + 1 - n := by omega
  obtain ⟨t, t1, t2, t3, t4⟩ := narrow_eq h.inside h.sorted hv h.pos b
  have hs : Sorted nv (nv + 1 - n + 1) (t.rest cnf) := by rw [t3]; exact sorted_after h.sorted hv b
  refine ⟨t, ?_, t2, t3, t4, hs⟩
  show (getChild nv cnf s n b.val).getD _ = _
  unfold getChild
  have hlt : s.beg < s.fin := by
    have h1 := h.inside.le
    have h2 := rest_length h.inside
    by_cases e : s.beg < s.fin
    · exact e
    · have : s.rest cnf = [] := List.eq_nil_of_length_eq_zero (by omega)
      have h3 := h.code
      rw [this] at h3
      have : (0 : Int) = n := h3
      omega
  rw [if_pos ⟨hlt, hn, hle⟩, show (nv : Int) - n + 1 = ((nv + 1 - n : Nat) : Int) by omega, t1, Option.bind_some, nextLevel_eq t2 hle rfl hs]
  rfl

theorem code_cases {nv lo : Nat} {R : List Clause} (h : Sorted nv lo R) (hlo : 1 ≤ lo) :
    (R = [] ∧ code nv R = 0) ∨ (R = [[]] ∧ code nv R = -1) ∨ ∃ k : Nat, 0 < k ∧ k ≤ nv + 1 - lo ∧ code nv R = k ∧ k ≤ nv ∧ ∀ r ∈ R, ∀ x ∈ r.head?, nv + 1 - k ≤ x.natAbs := by
  by_cases h0 : R = []
  · subst h0; exact .inl ⟨rfl, rfl⟩
  · by_cases h1 : R = [[]]
    · subst h1; exact .inr (.inl ⟨rfl, rfl⟩)
    · obtain ⟨A, x, c, rfl⟩ := last_cons h h0 h1
      have hx := (h.ok (x :: c) (by simp)).var x List.mem_cons_self
      refine .inr (.inr ⟨nv + 1 - x.natAbs, by omega, by omega, ?_, by omega, fun r hr y hy => ?_⟩)
      · rw [code_last]; omega
      · have := head_last h r hr y hy
        omega

theorem Sorted.raise {nv lo k : Nat} {R : List Clause} (h : Sorted nv lo R) (hk : k ≤ nv) (hh : ∀ r ∈ R, ∀ x ∈ r.head?, nv + 1 - k ≤ x.natAbs) : Sorted nv (nv + 1 - k) R := by
  refine ⟨h.lt, fun c hc => ?_⟩
  have h1 := (h.ok c hc).above (v := nv - k) (fun x hx => by have := hh c hc x hx; omega)
  rw [show nv + 1 - k = nv - k + 1 by omega]
  exact h1

/-- All about a step -/
theorem step {nv : Nat} {cnf : List Clause} (n : Nat) (s : ZSt) (b : Fin 3) (hn : 0 < n) (h : Inv nv cnf n s) :
    (((zSpec nv cnf).child s n b).1 = 0 ∧ ∀ a, a n = b → ¬ word nv a n ∈ s.rest cnf) ∨
      (((zSpec nv cnf).child s n b).1 = -1 ∧ ∀ a, a n = b → (word nv a n ∈ s.rest cnf ↔ ∀ j, 1 ≤ j → j < n → (a j).val = 0)) ∨
      ∃ k : Nat, 0 < k ∧ ((zSpec nv cnf).child s n b).1 = k ∧ k < n ∧ Inv nv cnf k ((zSpec nv cnf).child s n b).2 ∧
        ∀ a, a n = b → (word nv a n ∈ s.rest cnf ↔ (∀ j, k < j → j < n → (a j).val = 0) ∧ word nv a k ∈ (((zSpec nv cnf).child s n b).2.rest cnf)) := by
  obtain ⟨t, h1, h2, h3, h4, h5⟩ := child_eq hn h b
  have hle := h.le
  rw [h1]
  dsimp only
  obtain ⟨m, rfl⟩ : ∃ m, n = m + 1 := ⟨n - 1, by omega⟩
  have hw : ∀ a, a (m + 1) = b → (word nv a (m + 1) ∈ s.rest cnf ↔ word nv a m ∈ t.rest cnf) := by
    intro a e
    have h6 := h.sorted
    rw [show nv + 1 - (m + 1) = nv - m by omega] at h6 h3
    rw [word_after hle h6, e, h3]
  rcases code_cases h5 (by omega) with ⟨e, c⟩ | ⟨e, c⟩ | ⟨k, k1, k2, c, k3, k4⟩
  · refine .inl ⟨c, fun a ha g => ?_⟩
    rw [hw a ha, e] at g
    cases g
  · refine .inr (.inl ⟨c, fun a ha => ?_⟩)
    rw [hw a ha, e, List.mem_singleton, word_nil]
    exact ⟨fun g j j1 j2 => g j j1 (by omega), fun g j j1 j2 => g j j1 (by omega)⟩
  · refine .inr (.inr ⟨k, k1, c, by omega, ⟨h2, k3, h5.raise k3 k4, h4, c⟩, fun a ha => ?_⟩)
    rw [hw a ha, word_mem k4 (by omega) (by omega)]
    exact ⟨fun g => ⟨fun j j1 j2 => g.1 j j1 (by omega), g.2⟩, fun g => ⟨fun j j1 j2 => g.1 j j1 (by omega), g.2⟩⟩

/-- `operator==` compares the literals left. -/
theorem same_iff {cnf : List Clause} {s t : ZSt} (hs : Inside cnf s) (ht : Inside cnf t) (ps : ∀ c ∈ s.rng cnf, s.pos ≤ c.length) (pt : ∀ c ∈ t.rng cnf, t.pos ≤ c.length) :
    sameState cnf s t = true ↔ s.rest cnf = t.rest cnf := by
  have h1 := hs.le
  have h2 := ht.le
  have e1 := rest_length hs
  have e2 := rest_length ht
  have key : ∀ (A B : List Clause), A.length = B.length → (∀ c ∈ A, s.pos ≤ c.length) → (∀ c ∈ B, t.pos ≤ c.length) →
      (((A.zip B).all fun p => decide ((p.1.length : Int) - s.pos = p.2.length - t.pos) && decide (p.1.drop s.pos = p.2.drop t.pos)) = true ↔ A.map (·.drop s.pos) = B.map (·.drop t.pos)) := by
    intro A
    induction A with
    | nil =>
      intro B e _ _
      obtain rfl : B = [] := List.eq_nil_of_length_eq_zero e.symm
      simp
    | cons x A ih =>
      intro B e hA hB
      cases B with
      | nil => cases e
      | cons y B =>
        have hx := hA x List.mem_cons_self
        have hy := hB y List.mem_cons_self
        have := ih B (by simpa using e) (fun c hc => hA c (List.mem_cons_of_mem _ hc)) (fun c hc => hB c (List.mem_cons_of_mem _ hc))
        rw [List.zip_cons_cons, List.all_cons, Bool.and_eq_true, this, List.map_cons, List.map_cons, List.cons.injEq, Bool.and_eq_true, decide_eq_true_eq, decide_eq_true_eq]
        constructor
        · rintro ⟨⟨_, h⟩, g⟩; exact ⟨h, g⟩
        · rintro ⟨h, g⟩
          refine ⟨⟨?_, h⟩, g⟩
          have := congrArg List.length h
          rw [List.length_drop, List.length_drop] at this
          show (x.length : Int) - s.pos = y.length - t.pos
          omega
  unfold sameState
  rw [Bool.and_eq_true, decide_eq_true_eq]
  unfold ZSt.rest at e1 e2
  rw [List.length_map] at e1 e2
  constructor
  · rintro ⟨g1, g2⟩
    exact (key _ _ (by omega) ps pt).1 g2
  · intro g
    have := congrArg List.length g
    rw [rest_length hs, rest_length ht] at this
    exact ⟨by omega, (key _ _ (by omega) ps pt).2 g⟩

theorem hash_rest {cnf : List Clause} {s : ZSt} : hashState cnf s = (s.rest cnf).foldl (fun h c => c.foldl (fun (h : Nat) (x : Int) => (((h : Int) + x) * 314159257 % 18446744073709551616).toNat) h) 0 := by
  unfold hashState ZSt.rest
  rw [List.foldl_map]

end Cnf

end TdZdd
