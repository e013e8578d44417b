import Verif.MySmallSet

/-! Proofs about `MySmallSet`: one set. -/

namespace TdZdd

theorem aGet_at {A : List (Option Int)} {v : Int} {r : List (Option Int)} {i : Nat} (h : i = A.length) : aGet (A ++ some v :: r) i = some v := by
  unfold aGet; subst h; simp

theorem aGet_lt {es : List Int} {r : List (Option Int)} {i : Nat} (h : i < es.length) : aGet (es.map some ++ r) i = some es[i] := by
  unfold aGet
  rw [List.getElem?_append_left (by simpa using h)]
  simp [h]

theorem aSet_at {A : List (Option Int)} {x : Option Int} {r : List (Option Int)} {i : Nat} (h : i = A.length) (v : Int) : aSet (A ++ x :: r) i v = some (A ++ some v :: r) := by
  unfold aSet
  subst h
  rw [if_pos (by simp), List.set_append]
  simp

/-- moving entries one position down -/
theorem aShift_spec : ∀ (H : List Int) (P : List (Option Int)) (j : Option Int) (rest : List (Option Int)),
    ∃ j', aShift H.length P.length (P ++ j :: (H.map some ++ rest)) = some (P ++ H.map some ++ j' :: rest)
  | [], P, j, rest => ⟨j, by simp [aShift]⟩
  | v :: H, P, j, rest => by
    obtain ⟨j', e⟩ := aShift_spec H (P ++ [some v]) (some v) rest
    refine ⟨j', ?_⟩
    rw [List.length_cons]
    unfold aShift
    have h1 : aGet (P ++ j :: ((v :: H).map some ++ rest)) (P.length + 1) = some v := by
      have := aGet_at (A := P ++ [j]) (v := v) (r := H.map some ++ rest) (i := P.length + 1) (by simp)
      simpa using this
    rw [h1, Option.bind_some, aSet_at rfl v, Option.bind_some]
    have h2 : P ++ some v :: ((v :: H).map some ++ rest) = (P ++ [some v]) ++ some v :: (H.map some ++ rest) := by simp
    have h3 : P.length + 1 = (P ++ [some v]).length := by simp
    rw [h2, h3, e]
    simp

/-- `add`: the elements `H` behind the current position are greater than `e` and have been moved -/
theorem ssAddLoop_spec (e : Int) (rest : List (Option Int)) : ∀ (k : Nat) (A H : List Int) (j : Option Int), A.length = k → A.Pairwise (· < ·) →
    (e ∈ A → ∃ j', ssAddLoop e (k + H.length) k (A.map some ++ j :: (H.map some ++ rest)) = some ((A ++ H).map some ++ j' :: rest, k + H.length)) ∧
    (e ∉ A → ∃ lo hi, A = lo ++ hi ∧ (∀ a ∈ lo, a < e) ∧ (∀ a ∈ hi, e < a) ∧
      ssAddLoop e (k + H.length) k (A.map some ++ j :: (H.map some ++ rest)) = some ((lo ++ e :: (hi ++ H)).map some ++ rest, k + H.length + 1)) := by
  intro k
  induction k with
  | zero =>
    intro A H j hA _
    have : A = [] := List.length_eq_zero_iff.1 hA
    subst this
    refine ⟨fun h => (by cases h), fun _ => ⟨[], [], rfl, fun _ h => (by cases h), fun _ h => (by cases h), ?_⟩⟩
    unfold ssAddLoop
    have := aSet_at (A := []) (x := j) (r := H.map some ++ rest) (i := 0) rfl e
    rw [List.nil_append, List.nil_append] at this
    rw [List.map_nil, List.nil_append, this]
    simp
  | succ k ih =>
    intro A H j hA hs
    rcases List.eq_nil_or_concat A with h0 | ⟨A', v, h0⟩
    · rw [h0] at hA; cases hA
    · rw [List.concat_eq_append] at h0
      subst h0
      have hA' : A'.length = k := by simpa using hA
      rw [List.pairwise_append] at hs
      obtain ⟨s1, _, s3⟩ := hs
      have hread : aGet ((A' ++ [v]).map some ++ j :: (H.map some ++ rest)) k = some v := by
        have := aGet_at (A := A'.map some) (v := v) (r := j :: (H.map some ++ rest)) (i := k) (by simp [hA'])
        simpa using this
      have hwrite : ∀ w, aSet ((A' ++ [v]).map some ++ j :: (H.map some ++ rest)) (k + 1) w = some ((A' ++ [v]).map some ++ some w :: (H.map some ++ rest)) :=
        fun w => aSet_at (by simp [hA']) w
      unfold ssAddLoop
      rw [hread]
      dsimp only [Option.bind_some]
      by_cases h1 : e ≤ v
      · rw [if_pos h1]
        by_cases h2 : e = v
        · rw [if_pos h2]
          subst h2
          refine ⟨fun _ => ?_, fun h => absurd (by simp) h⟩
          obtain ⟨j', e'⟩ := aShift_spec H ((A' ++ [e]).map some) j rest
          have h3 : k + 1 + H.length - (k + 1) = H.length := by omega
          have h4 : ((A' ++ [e]).map some).length = k + 1 := by simp [hA']
          rw [h4] at e'
          rw [h3, e']
          exact ⟨j', by simp⟩
        · rw [if_neg h2, hwrite, Option.bind_some]
          have h3 : (A' ++ [v]).map some ++ some v :: (H.map some ++ rest) = A'.map some ++ some v :: ((v :: H).map some ++ rest) := by simp
          have h4 : k + 1 + H.length = k + (v :: H).length := by simp; omega
          obtain ⟨i1, i2⟩ := ih A' (v :: H) (some v) hA' s1
          rw [h3, h4]
          refine ⟨fun hm => ?_, fun hm => ?_⟩
          · have hm' : e ∈ A' := by
              rcases List.mem_append.1 hm with hm | hm
              · exact hm
              · exact absurd (List.mem_singleton.1 hm) h2
            obtain ⟨j', e'⟩ := i1 hm'
            exact ⟨j', by rw [e']; simp⟩
          · have hm' : e ∉ A' := fun h => hm (List.mem_append.2 (.inl h))
            obtain ⟨lo, hi, q1, q2, q3, q4⟩ := i2 hm'
            refine ⟨lo, hi ++ [v], by rw [q1, List.append_assoc], q2, fun a ha => ?_, by rw [q4]; simp⟩
            rcases List.mem_append.1 ha with ha | ha
            · exact q3 a ha
            · rw [List.mem_singleton.1 ha]; omega
      · rw [if_neg h1, hwrite]
        have hlt : ∀ a ∈ A' ++ [v], a < e := by
          intro a ha
          rcases List.mem_append.1 ha with ha | ha
          · have := s3 a ha v (by simp); omega
          · rw [List.mem_singleton.1 ha]; omega
        refine ⟨fun hm => ?_, fun _ => ⟨A' ++ [v], [], by simp, hlt, fun _ h => (by cases h), by simp⟩⟩
        have := hlt e hm
        omega

/-- bisection -/
theorem lowerBound_spec {es : List Int} {rest : List (Option Int)} (hs : es.Pairwise (· < ·)) (e : Int) : ∀ (k first len : Nat), len ≤ k → first + len ≤ es.length →
    (∀ i (h : i < es.length), i < first → es[i] < e) → (∀ i (h : i < es.length), first + len ≤ i → e ≤ es[i]) →
    ∃ p, lowerBound (es.map some ++ rest) e k first len = some p ∧ p ≤ es.length ∧ (∀ i (h : i < es.length), i < p → es[i] < e) ∧ (∀ i (h : i < es.length), p ≤ i → e ≤ es[i]) := by
  have mono : ∀ i j (hi : i < es.length) (hj : j < es.length), i ≤ j → es[i] ≤ es[j] := by
    intro i j hi hj hij
    by_cases h : i = j
    · subst h; omega
    · have := List.pairwise_iff_getElem.1 hs i j hi hj (by omega); omega
  intro k
  induction k with
  | zero =>
    intro first len hk hl h1 h2
    have : len = 0 := by omega
    subst this
    exact ⟨first, by unfold lowerBound; rfl, hl, h1, h2⟩
  | succ k ih =>
    intro first len hk hl h1 h2
    cases len with
    | zero => exact ⟨first, by unfold lowerBound; rfl, hl, h1, h2⟩
    | succ len =>
      unfold lowerBound
      dsimp only
      have hm : first + (len + 1) / 2 < es.length := by omega
      rw [aGet_lt hm]
      dsimp only [Option.bind_some]
      by_cases hc : es[first + (len + 1) / 2] < e
      · rw [if_pos hc]
        exact ih _ _ (by omega) (by omega) (fun i h hi => by have := mono i _ h hm (by omega); omega) (fun i h hi => h2 i h (by omega))
      · rw [if_neg hc]
        exact ih _ _ (by omega) (by omega) (fun i h hi => h1 i h hi) (fun i h hi => by have := mono _ i hm h (by omega); omega)

/-- the result of the bisection as a partition of the elements -/
theorem lowerBound_split {es : List Int} {rest : List (Option Int)} (hs : es.Pairwise (· < ·)) (e : Int) :
    ∃ lo hi, es = lo ++ hi ∧ lowerBound (es.map some ++ rest) e es.length 0 es.length = some lo.length ∧ (∀ a ∈ lo, a < e) ∧ (∀ a ∈ hi, e ≤ a) := by
  obtain ⟨p, h1, h2, h3, h4⟩ := lowerBound_spec (rest := rest) hs e es.length 0 es.length (Nat.le_refl _) (by omega) (fun i h hi => by omega) (fun i h hi => by omega)
  refine ⟨es.take p, es.drop p, (List.take_append_drop p es).symm, by rw [h1, List.length_take, Nat.min_eq_left h2], fun a ha => ?_, fun a ha => ?_⟩
  · obtain ⟨i, hi, rfl⟩ := List.mem_iff_getElem.1 ha
    rw [List.getElem_take]
    exact h3 i _ (by rw [List.length_take] at hi; omega)
  · obtain ⟨i, hi, rfl⟩ := List.mem_iff_getElem.1 ha
    rw [List.getElem_drop]
    exact h4 _ _ (by omega)

/-- the set `s` has the elements `es` in ascending order -/
structure SsRep (s : SSet) (es : List Int) : Prop where
  arr : ∃ rest, s.arr = es.map some ++ rest
  size : s.size = es.length
  sorted : es.Pairwise (· < ·)

theorem sorted_nodup {es : List Int} (h : es.Pairwise (· < ·)) : es.Nodup := h.imp fun h => by omega

theorem ssAdd_spec {s : SSet} {es : List Int} (k : SsRep s es) (e : Int) (hc : s.N = 0 ∨ es.length < s.N - 1) (hr : es.length < s.arr.length) :
    ∃ s' es', ssAdd s e = some (s', false) ∧ SsRep s' es' ∧ s'.N = s.N ∧ s'.arr.length = s.arr.length ∧ (e ∈ es → es' = es) ∧ (e ∉ es → es'.Perm (e :: es)) := by
  obtain ⟨rest, ha⟩ := k.arr
  cases rest with
  | nil => rw [ha] at hr; simp at hr
  | cons j rest =>
    obtain ⟨h1, h2⟩ := ssAddLoop_spec e rest es.length es [] j rfl k.sorted
    simp only [List.map_nil, List.nil_append, List.length_nil, Nat.add_zero, List.append_nil] at h1 h2
    unfold ssAdd
    rw [if_neg (by rw [k.size]; omega), k.size, ha]
    by_cases hm : e ∈ es
    · obtain ⟨j', e'⟩ := h1 hm
      rw [e']
      exact ⟨_, es, rfl, ⟨⟨_, rfl⟩, rfl, k.sorted⟩, rfl, by simp, fun _ => rfl, fun h => absurd hm h⟩
    · obtain ⟨lo, hi, q1, q2, q3, q4⟩ := h2 hm
      rw [q4]
      have hs := k.sorted
      rw [q1, List.pairwise_append] at hs
      refine ⟨_, lo ++ e :: hi, rfl, ⟨⟨_, rfl⟩, by rw [q1]; simp; omega, ?_⟩, rfl, by rw [q1]; simp; omega, fun h => absurd h hm, fun _ => by rw [q1]; exact List.perm_middle⟩
      rw [List.pairwise_append, List.pairwise_cons]
      refine ⟨hs.1, ⟨q3, hs.2.1⟩, fun a ha b hb => ?_⟩
      rcases List.mem_cons.1 hb with rfl | hb
      · exact q2 a ha
      · exact hs.2.2 a ha b hb

theorem ssRemove_spec {s : SSet} {es : List Int} (k : SsRep s es) (e : Int) :
    ∃ s', ssRemove s e = some s' ∧ SsRep s' (es.filter fun a => decide (a ≠ e)) ∧ s'.N = s.N ∧ s'.arr.length = s.arr.length := by
  obtain ⟨rest, ha⟩ := k.arr
  obtain ⟨lo, hi, q1, q2, q3, q4⟩ := lowerBound_split (rest := rest) k.sorted e
  have hlo : lo.filter (fun a => decide (a ≠ e)) = lo := List.filter_eq_self.2 fun a ha => by have := q3 a ha; simp; omega
  unfold ssRemove
  rw [k.size, ha, q2, Option.bind_some]
  have hs := k.sorted
  rw [q1, List.pairwise_append] at hs
  cases hi with
  | nil =>
    rw [List.append_nil] at q1
    subst q1
    rw [if_pos rfl, hlo]
    exact ⟨s, rfl, ⟨⟨rest, ha⟩, k.size, k.sorted⟩, rfl, by rw [ha]⟩
  | cons v hi =>
    have hhi : hi.filter (fun a => decide (a ≠ e)) = hi := List.filter_eq_self.2 fun a ha => by
      have h1 := (List.pairwise_cons.1 hs.2.1).1 a ha
      have h2 := q4 v (List.mem_cons_self ..)
      simp
      omega
    have hg : aGet (es.map some ++ rest) lo.length = some v := by
      rw [q1]
      have := aGet_at (A := lo.map some) (v := v) (r := hi.map some ++ rest) (i := lo.length) (by simp)
      simpa using this
    rw [if_neg (by rw [q1]; simp), hg]
    dsimp only [Option.bind_some]
    by_cases hv : v ≠ e
    · rw [if_pos hv, q1, List.filter_append, hlo, List.filter_cons_of_pos (by simpa using hv), hhi, ← q1]
      exact ⟨s, rfl, ⟨⟨rest, ha⟩, k.size, k.sorted⟩, rfl, by rw [ha]⟩
    · rw [if_neg hv]
      obtain ⟨j', e'⟩ := aShift_spec hi (lo.map some) (some v) rest
      have h1 : es.map some ++ rest = lo.map some ++ some v :: (hi.map some ++ rest) := by rw [q1]; simp
      have h2 : es.length - 1 - lo.length = hi.length := by rw [q1]; simp
      have h3 : es.filter (fun a => decide (a ≠ e)) = lo ++ hi := by
        rw [q1, List.filter_append, hlo, List.filter_cons_of_neg (by simpa using hv), hhi]
      rw [List.length_map] at e'
      rw [h1, h2, e', h3]
      refine ⟨_, rfl, ⟨⟨j' :: rest, by simp⟩, by rw [q1]; simp, ?_⟩, rfl, by simp; omega⟩
      rw [List.pairwise_append]
      exact ⟨hs.1, (List.pairwise_cons.1 hs.2.1).2, fun a ha b hb => hs.2.2 a ha b (List.mem_cons_of_mem _ hb)⟩

theorem ssIncludes_spec {s : SSet} {es : List Int} (k : SsRep s es) (e : Int) : ssIncludes s e = some (decide (e ∈ es)) := by
  obtain ⟨rest, ha⟩ := k.arr
  obtain ⟨lo, hi, q1, q2, q3, q4⟩ := lowerBound_split (rest := rest) k.sorted e
  have hlo : e ∉ lo := fun h => by have := q3 e h; omega
  unfold ssIncludes
  rw [k.size, ha, q2, Option.bind_some]
  have hs := k.sorted
  rw [q1, List.pairwise_append] at hs
  cases hi with
  | nil =>
    rw [List.append_nil] at q1
    subst q1
    rw [if_pos rfl]
    simp [hlo]
  | cons v hi =>
    have hhi : e ∉ hi := fun h => by
      have h1 := (List.pairwise_cons.1 hs.2.1).1 e h
      have h2 := q4 v (List.mem_cons_self ..)
      omega
    have hg : aGet (es.map some ++ rest) lo.length = some v := by
      rw [q1]
      have := aGet_at (A := lo.map some) (v := v) (r := hi.map some ++ rest) (i := lo.length) (by simp)
      simpa using this
    have hv := q4 v (List.mem_cons_self ..)
    rw [if_neg (by rw [q1]; simp), hg, Option.map_some, q1]
    congr 1
    rw [Bool.eq_iff_iff]
    simp only [Bool.not_eq_true', decide_eq_false_iff_not, decide_eq_true_eq, List.mem_append, List.mem_cons]
    constructor
    · intro h; exact .inr (.inl (by omega))
    · rintro (h | h | h)
      · exact absurd h hlo
      · omega
      · exact absurd h hhi

theorem SsRep.get {s : SSet} {es : List Int} (k : SsRep s es) {i : Nat} (h : i < es.length) : aGet s.arr i = some es[i] := by
  obtain ⟨rest, ha⟩ := k.arr
  rw [ha, aGet_lt h]

theorem ssEquals_spec {s : SSet} {es : List Int} (k : SsRep s es) : ∀ (c : List Int) (p : Nat), p ≤ es.length → ssEquals s p c = some (decide (es.drop p = c))
  | [], p, hp => by
    unfold ssEquals
    rw [k.size]
    congr 1
    rw [decide_eq_decide, List.drop_eq_nil_iff]
    omega
  | q :: c, p, hp => by
    unfold ssEquals
    rw [k.size]
    by_cases h : p = es.length
    · rw [if_pos h, h, List.drop_length]; rfl
    · have hlt : p < es.length := by omega
      rw [if_neg h, k.get hlt, List.drop_eq_getElem_cons hlt]
      dsimp only [Option.bind_some]
      by_cases hv : es[p] = q
      · rw [if_neg (by simpa using hv), ssEquals_spec k c (p + 1) (by omega)]
        simp only [List.cons.injEq, hv, true_and]
      · rw [if_pos hv]
        simp only [List.cons.injEq, hv, false_and, decide_false]

theorem ssIntersects_spec {s : SSet} {es : List Int} (k : SsRep s es) : ∀ (n p : Nat) (c : List Int), c.Pairwise (· ≤ ·) → p ≤ es.length → es.length - p + c.length ≤ n →
    ssIntersects s n p c = some (c.any ((es.drop p).contains ·)) := by
  intro n
  induction n with
  | zero =>
    intro p c hc hp hn
    have : c = [] := List.length_eq_zero_iff.1 (by omega)
    subst this
    unfold ssIntersects
    rfl
  | succ n ih =>
    intro p c hc hp hn
    cases c with
    | nil => unfold ssIntersects; rfl
    | cons q c =>
      unfold ssIntersects
      rw [k.size]
      by_cases h : p = es.length
      · rw [if_pos h, h, List.drop_length]; simp
      · have hlt : p < es.length := by omega
        obtain ⟨c1, c2⟩ := List.pairwise_cons.1 hc
        have hsp : ∀ b ∈ es.drop (p + 1), es[p] < b := by
          have := k.sorted.sublist (List.drop_sublist p es)
          rw [List.drop_eq_getElem_cons hlt] at this
          exact (List.pairwise_cons.1 this).1
        rw [if_neg h]
        dsimp only
        rw [k.get hlt]
        dsimp only [Option.bind_some]
        rw [List.length_cons] at hn
        by_cases h1 : es[p] = q
        · rw [if_pos h1, List.drop_eq_getElem_cons hlt]
          simp [h1]
        · rw [if_neg h1]
          by_cases h2 : es[p] < q
          · rw [if_pos h2, ih _ _ hc (by omega) (by rw [List.length_cons]; omega), List.drop_eq_getElem_cons hlt]
            congr 1
            rw [Bool.eq_iff_iff]
            simp only [List.any_eq_true, List.contains_iff_mem, List.mem_cons]
            have hne : ∀ x, (x = q ∨ x ∈ c) → x ≠ es[p] := by
              rintro x (rfl | hx)
              · omega
              · have := c1 x hx; omega
            constructor
            · rintro ⟨x, hx, hm⟩; exact ⟨x, hx, .inr hm⟩
            · rintro ⟨x, hx, hm | hm⟩
              · exact absurd hm (hne x hx)
              · exact ⟨x, hx, hm⟩
          · rw [if_neg h2, ih _ _ c2 hp (by omega)]
            congr 1
            rw [List.any_cons]
            have hq : (es.drop p).contains q = false := by
              rw [List.drop_eq_getElem_cons hlt, Bool.eq_false_iff]
              intro hm
              rw [List.contains_iff_mem, List.mem_cons] at hm
              rcases hm with hm | hm
              · omega
              · have := hsp q hm; omega
            rw [hq, Bool.false_or]

theorem ssContainsAll_spec {s : SSet} {es : List Int} (k : SsRep s es) : ∀ (n p : Nat) (c : List Int), c.Pairwise (· < ·) → p ≤ es.length → es.length - p + c.length ≤ n →
    ssContainsAll s n p c = some (c.all ((es.drop p).contains ·)) := by
  intro n
  induction n with
  | zero =>
    intro p c hc hp hn
    have : c = [] := List.length_eq_zero_iff.1 (by omega)
    subst this
    unfold ssContainsAll
    rfl
  | succ n ih =>
    intro p c hc hp hn
    cases c with
    | nil => unfold ssContainsAll; rfl
    | cons q c =>
      unfold ssContainsAll
      rw [k.size]
      by_cases h : p = es.length
      · rw [if_pos h, h, List.drop_length]; simp
      · have hlt : p < es.length := by omega
        obtain ⟨c1, c2⟩ := List.pairwise_cons.1 hc
        have hsp : ∀ b ∈ es.drop (p + 1), es[p] < b := by
          have := k.sorted.sublist (List.drop_sublist p es)
          rw [List.drop_eq_getElem_cons hlt] at this
          exact (List.pairwise_cons.1 this).1
        rw [if_neg h]
        dsimp only
        rw [k.get hlt]
        dsimp only [Option.bind_some]
        rw [List.length_cons] at hn
        by_cases h1 : q < es[p]
        · rw [if_pos h1, List.all_cons]
          have hq : (es.drop p).contains q = false := by
            rw [List.drop_eq_getElem_cons hlt, Bool.eq_false_iff]
            intro hm
            rw [List.contains_iff_mem, List.mem_cons] at hm
            rcases hm with hm | hm
            · omega
            · have := hsp q hm; omega
          rw [hq, Bool.false_and]
        · rw [if_neg h1]
          have key : ∀ l : List Int, (∀ x ∈ l, es[p] < x) → l.all ((es.drop p).contains ·) = l.all ((es.drop (p + 1)).contains ·) := by
            intro l hl
            rw [List.drop_eq_getElem_cons hlt, Bool.eq_iff_iff]
            simp only [List.all_eq_true, List.contains_iff_mem, List.mem_cons]
            constructor
            · intro g x hx
              rcases g x hx with hm | hm
              · have := hl x hx; omega
              · exact hm
            · intro g x hx
              exact .inr (g x hx)
          by_cases h2 : es[p] < q
          · rw [if_pos h2, ih _ _ hc (by omega) (by rw [List.length_cons]; omega)]
            congr 1
            refine (key _ fun x hx => ?_).symm
            rcases List.mem_cons.1 hx with rfl | hx
            · exact h2
            · have := c1 x hx; omega
          · rw [if_neg h2, ih _ _ c2 (by omega) (by omega), List.all_cons]
            congr 1
            have hq : (es.drop p).contains q = true := by
              rw [List.drop_eq_getElem_cons hlt, List.contains_iff_mem]
              exact List.mem_cons.2 (.inl (by omega))
            rw [hq, Bool.true_and, key c fun x hx => by have := c1 x hx; omega]

theorem ssElems_spec {s : SSet} {es : List Int} (k : SsRep s es) : ∀ (n p : Nat), n + p = es.length → ssElems s n p = some (es.drop p)
  | 0, p, h => by
    unfold ssElems
    rw [List.drop_eq_nil_iff.2 (by omega)]
  | n + 1, p, h => by
    unfold ssElems
    have hlt : p < es.length := by omega
    rw [k.get hlt]
    dsimp only [Option.bind_some]
    rw [ssElems_spec k n (p + 1) (by omega), List.drop_eq_getElem_cons hlt]
    rfl

theorem ssRevElems_spec {s : SSet} {es : List Int} (k : SsRep s es) : ∀ (n : Nat), n ≤ es.length → ssRevElems s n = some (es.take n).reverse
  | 0, h => rfl
  | n + 1, h => by
    unfold ssRevElems
    have hlt : n < es.length := by omega
    rw [k.get hlt]
    dsimp only [Option.bind_some]
    rw [ssRevElems_spec k n (by omega), List.take_succ_eq_append_getElem hlt, List.reverse_append]
    rfl

theorem ssEqLoop_spec {s t : SSet} {es fs : List Int} (k : SsRep s es) (k' : SsRep t fs) (hl : es.length = fs.length) : ∀ (n p : Nat), n + p = es.length →
    ssEqLoop s t n p = some (decide (es.drop p = fs.drop p))
  | 0, p, h => by
    unfold ssEqLoop
    rw [List.drop_eq_nil_iff.2 (by omega), List.drop_eq_nil_iff.2 (by omega)]
    rfl
  | n + 1, p, h => by
    unfold ssEqLoop
    have h1 : p < es.length := by omega
    have h2 : p < fs.length := by omega
    rw [k.get h1, k'.get h2, List.drop_eq_getElem_cons h1, List.drop_eq_getElem_cons h2]
    dsimp only [Option.bind_some]
    by_cases hv : es[p] = fs[p]
    · rw [if_neg (by simpa using hv), ssEqLoop_spec k k' hl n (p + 1) (by omega)]
      simp only [List.cons.injEq, hv, true_and]
    · rw [if_pos hv]
      simp only [List.cons.injEq, hv, false_and, decide_false]

theorem ssEq_spec {s t : SSet} {es fs : List Int} (k : SsRep s es) (k' : SsRep t fs) : ssEq s t = some (decide (es = fs)) := by
  unfold ssEq
  rw [k.size, k'.size]
  by_cases h : es.length = fs.length
  · rw [if_neg (by simpa using h), ssEqLoop_spec k k' h _ 0 (by omega)]
    rfl
  · rw [if_pos h]
    congr 1
    symm
    rw [decide_eq_false_iff_not]
    rintro rfl
    exact h rfl

end TdZdd
