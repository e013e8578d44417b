import Verif.MySmallSetProofs
import Verif.BuilderProofs2

/-! Proofs about `MySmallSet`: programs. -/

namespace TdZdd

/-- the set `s` stands for `f` -/
structure SsOk (s : SSet) (f : FSet) : Prop where
  rep : ∃ es, SsRep s es ∧ es.Perm f.els
  len : f.els.length ≤ f.cap
  pool : f.throws = false → s.N = 0 ∧ s.arr.length = f.cap
  fix : f.throws = true → 0 < s.N ∧ s.arr.length = s.N ∧ f.cap = s.N - 1

theorem perm_mem {es l : List Int} (h : es.Perm l) (e : Int) : decide (e ∈ es) = decide (e ∈ l) := by rw [decide_eq_decide]; exact h.mem_iff

theorem perm_contains {es l : List Int} (h : es.Perm l) (e : Int) : es.contains e = l.contains e := by
  rw [Bool.eq_iff_iff, List.contains_iff_mem, List.contains_iff_mem]; exact h.mem_iff

theorem perm_any {es l : List Int} (h : es.Perm l) (c : List Int) : c.any (es.contains ·) = c.any (l.contains ·) := by
  congr 1; funext e; exact perm_contains h e

theorem perm_all {es l : List Int} (h : es.Perm l) (c : List Int) : c.all (es.contains ·) = c.all (l.contains ·) := by
  congr 1; funext e; exact perm_contains h e

theorem ascend_perm : ∀ l : List Int, (FSet.ascend l).Perm l
  | [] => List.Perm.nil
  | a :: l => by
    unfold FSet.ascend
    refine List.perm_middle.trans ((?_ : List.Perm _ _).trans ((ascend_perm l).cons a))
    refine List.Perm.cons a ?_
    have : (FSet.ascend l).filter (fun b => decide (a < b)) = (FSet.ascend l).filter (fun b => !decide (b ≤ a)) := by
      congr 1
      funext b
      by_cases h : b ≤ a
      · simp [h]
      · simp [h]; omega
    rw [this]
    exact List.filter_append_perm _ _

theorem ascend_sorted : ∀ l : List Int, (FSet.ascend l).Pairwise (· ≤ ·)
  | [] => List.Pairwise.nil
  | a :: l => by
    unfold FSet.ascend
    rw [List.pairwise_append, List.pairwise_cons]
    have h := ascend_sorted l
    refine ⟨h.filter _, ⟨fun b hb => ?_, h.filter _⟩, fun b hb c hc => ?_⟩
    · have := (List.mem_filter.1 hb).2
      simp at this
      omega
    · have h1 := (List.mem_filter.1 hb).2
      simp at h1
      rcases List.mem_cons.1 hc with rfl | hc
      · exact h1
      · have h2 := (List.mem_filter.1 hc).2
        simp at h2
        omega

/-- the elements in ascending order -/
theorem sort_perm {es l : List Int} (h : es.Perm l) (hs : es.Pairwise (· < ·)) : FSet.ascend l = es :=
  List.Perm.eq_of_pairwise (le := (· ≤ ·)) (fun a b _ _ h1 h2 => by omega) (ascend_sorted l) (hs.imp fun h => by omega) ((ascend_perm l).trans h.symm)

/-- two ascending lists are equal iff they have the same elements -/
theorem sorted_eq_iff {es c l : List Int} (h : es.Perm l) (hs : es.Pairwise (· < ·)) (hc : c.Pairwise (· < ·)) :
    decide (es = c) = (l.all (c.contains ·) && c.all (l.contains ·)) := by
  rw [Bool.eq_iff_iff, Bool.and_eq_true, List.all_eq_true, List.all_eq_true, decide_eq_true_eq]
  simp only [List.contains_iff_mem]
  constructor
  · rintro rfl
    exact ⟨fun x hx => h.mem_iff.2 hx, fun x hx => h.mem_iff.1 hx⟩
  · rintro ⟨h1, h2⟩
    refine List.Perm.eq_of_pairwise (le := (· < ·)) (fun a b _ _ h1 h2 => by omega) hs hc ?_
    rw [List.perm_ext_iff_of_nodup (sorted_nodup hs) (sorted_nodup hc)]
    exact fun a => ⟨fun ha => h1 a (h.mem_iff.1 ha), fun ha => h.mem_iff.2 (h2 a ha)⟩

theorem ssOk_add {s : SSet} {f : FSet} (k : SsOk s f) (e : Int) (h : f.els.length < f.cap) : ∃ s', ssAdd s e = some (s', false) ∧ SsOk s' { f with els := FSet.insert f.els e } := by
  obtain ⟨es, r, hp⟩ := k.rep
  have hl := hp.length_eq
  have hc : s.N = 0 ∨ es.length < s.N - 1 := by
    cases ht : f.throws with
    | false => exact .inl (k.pool ht).1
    | true => have := k.fix ht; exact .inr (by omega)
  have hr : es.length < s.arr.length := by
    cases ht : f.throws with
    | false => have := k.pool ht; omega
    | true => have := k.fix ht; omega
  obtain ⟨s', es', h1, h2, h3, h4, h5, h6⟩ := ssAdd_spec r e hc hr
  refine ⟨s', h1, ⟨es', h2, ?_⟩, ?_, fun ht => by rw [h3, h4]; exact k.pool ht, fun ht => by rw [h3, h4]; exact k.fix ht⟩
  · show es'.Perm (FSet.insert f.els e)
    unfold FSet.insert
    by_cases hm : e ∈ f.els
    · rw [if_pos hm, h5 (hp.mem_iff.2 hm)]; exact hp
    · rw [if_neg hm]
      exact (h6 fun h => hm (hp.mem_iff.1 h)).trans (hp.cons e)
  · show (FSet.insert f.els e).length ≤ f.cap
    unfold FSet.insert
    split
    · exact k.len
    · rw [List.length_cons]; omega

theorem insert_length (l : List Int) (e : Int) : (FSet.insert l e).length ≤ l.length + 1 := by
  unfold FSet.insert; split <;> simp

theorem ssAddAll_spec : ∀ (c : List Int) {s : SSet} {f : FSet}, SsOk s f → f.els.length + c.length ≤ f.cap →
    ∃ s', ssAddAll s c = some s' ∧ SsOk s' { f with els := c.foldl FSet.insert f.els }
  | [], s, f, k, _ => ⟨s, rfl, k⟩
  | e :: c, s, f, k, h => by
    rw [List.length_cons] at h
    obtain ⟨s1, e1, k1⟩ := ssOk_add k e (by omega)
    have := insert_length f.els e
    obtain ⟨s2, e2, k2⟩ := ssAddAll_spec c k1 (by dsimp only; omega)
    refine ⟨s2, ?_, k2⟩
    unfold ssAddAll
    rw [e1]
    exact e2

theorem ssOk_pool (n : Nat) : SsOk (SSet.onPool n) ⟨false, n, []⟩ :=
  ⟨⟨[], ⟨⟨_, rfl⟩, rfl, List.Pairwise.nil⟩, List.Perm.nil⟩, Nat.zero_le _, fun _ => ⟨rfl, by simp [SSet.onPool]⟩, fun h => by cases h⟩

theorem ssOk_new {N : Nat} (h : N ≠ 0) : SsOk (SSet.mk0 N) ⟨true, N - 1, []⟩ :=
  ⟨⟨[], ⟨⟨_, rfl⟩, rfl, List.Pairwise.nil⟩, List.Perm.nil⟩, Nat.zero_le _, fun h => (by cases h), fun _ => ⟨by show 0 < N; omega, by simp [SSet.mk0], rfl⟩⟩

/-- all variables -/
def SsInv (st : Nat → Option SSet) (ft : Nat → Option FSet) : Prop :=
  ∀ x, match ft x with
    | none => st x = none
    | some f => ∃ s, st x = some s ∧ SsOk s f

theorem SsInv.none {st : Nat → Option SSet} {ft : Nat → Option FSet} (k : SsInv st ft) {x : Nat} (h : ft x = none) : st x = none := by
  have := k x; rw [h] at this; exact this

theorem SsInv.some {st : Nat → Option SSet} {ft : Nat → Option FSet} (k : SsInv st ft) {x : Nat} {f : FSet} (h : ft x = some f) : ∃ s, st x = some s ∧ SsOk s f := by
  have := k x; rw [h] at this; exact this

theorem SsInv.put {st : Nat → Option SSet} {ft : Nat → Option FSet} (k : SsInv st ft) (x : Nat) {s : SSet} {f : FSet} (h : SsOk s f) :
    SsInv (upd st x (Option.some s)) (upd ft x (Option.some f)) := by
  intro y
  by_cases e : y = x
  · subst e
    rw [upd_same, upd_same]
    exact ⟨s, rfl, h⟩
  · rw [upd_ne _ _ e, upd_ne _ _ e]
    exact k y

theorem SsInv.del {st : Nat → Option SSet} {ft : Nat → Option FSet} (k : SsInv st ft) (x : Nat) : SsInv (upd st x Option.none) (upd ft x Option.none) := by
  intro y
  by_cases e : y = x
  · subst e
    rw [upd_same, upd_same]
  · rw [upd_ne _ _ e, upd_ne _ _ e]
    exact k y

theorem ssStep_spec {st : Nat → Option SSet} {ft : Nat → Option FSet} (k : SsInv st ft) {op : SsOp} {ft' : Nat → Option FSet} {r : SsRes} (h : fsStep ft op = some (ft', r)) :
    ∃ st', ssStep st op = some (st', r) ∧ SsInv st' ft' := by
  cases op with
  | new x N =>
    dsimp only [fsStep] at h
    dsimp only [ssStep]
    cases hx : ft x with
    | some f => rw [hx] at h; simp at h
    | none =>
      rw [hx] at h
      by_cases hN : N = 0
      · rw [if_pos (.inr hN)] at h; cases h
      · rw [if_neg (by simp [hN])] at h
        cases h
        rw [k.none hx, if_neg (by simp [hN])]
        exact ⟨_, rfl, k.put x (ssOk_new hN)⟩
  | newPool x n =>
    dsimp only [fsStep] at h
    dsimp only [ssStep]
    cases hx : ft x with
    | some f => rw [hx] at h; cases h
    | none =>
      rw [hx, if_neg (by simp)] at h
      cases h
      rw [k.none hx, if_neg (by simp)]
      exact ⟨_, rfl, k.put x (ssOk_pool n)⟩
  | newCopy x c =>
    dsimp only [fsStep] at h
    dsimp only [ssStep]
    cases hx : ft x with
    | some f => rw [hx] at h; cases h
    | none =>
      rw [hx, if_neg (by simp)] at h
      cases h
      obtain ⟨s, e, hs⟩ := ssAddAll_spec c (ssOk_pool c.length) (by simp)
      rw [k.none hx, if_neg (by simp), e]
      exact ⟨_, rfl, k.put x hs⟩
  | copy x y =>
    dsimp only [fsStep] at h
    dsimp only [ssStep]
    cases hy : ft y with
    | none => rw [hy] at h; cases h
    | some f =>
      obtain ⟨s, e, hs⟩ := k.some hy
      rw [hy, Option.bind_some] at h
      cases hx : ft x with
      | some f => rw [hx] at h; simp at h
      | none =>
        cases ht : f.throws with
        | false => rw [if_pos (.inr ht)] at h; cases h
        | true =>
          rw [hx, if_neg (by simp [ht])] at h
          cases h
          have := (hs.fix ht).1
          rw [e, Option.bind_some, k.none hx, if_neg (by simp; omega)]
          exact ⟨_, rfl, k.put x hs⟩
  | destroy x =>
    dsimp only [fsStep] at h
    dsimp only [ssStep]
    cases hx : ft x with
    | none => rw [hx] at h; cases h
    | some f =>
      obtain ⟨s, e, hs⟩ := k.some hx
      rw [hx] at h
      cases h
      rw [e]
      exact ⟨_, rfl, k.del x⟩
  | clear x =>
    dsimp only [fsStep] at h
    dsimp only [ssStep]
    cases hx : ft x with
    | none => rw [hx] at h; cases h
    | some f =>
      obtain ⟨s, e, hs⟩ := k.some hx
      rw [hx] at h
      cases h
      rw [e]
      exact ⟨_, rfl, k.put x ⟨⟨[], ⟨⟨_, rfl⟩, rfl, List.Pairwise.nil⟩, List.Perm.nil⟩, Nat.zero_le _, hs.pool, hs.fix⟩⟩
  | add x a =>
    dsimp only [fsStep] at h
    dsimp only [ssStep]
    cases hx : ft x with
    | none => rw [hx] at h; cases h
    | some f =>
      obtain ⟨s, e, hs⟩ := k.some hx
      rw [hx, Option.bind_some] at h
      rw [e, Option.bind_some]
      by_cases hc : f.els.length < f.cap
      · rw [if_pos hc] at h
        cases h
        obtain ⟨s', e', hs'⟩ := ssOk_add hs a hc
        rw [e']
        exact ⟨_, rfl, k.put x hs'⟩
      · rw [if_neg hc] at h
        cases ht : f.throws with
        | false => rw [if_neg (by simp [ht])] at h; cases h
        | true =>
          rw [if_pos ht] at h
          cases h
          obtain ⟨es, hr, hp⟩ := hs.rep
          have h1 := hs.fix ht
          have h2 := hp.length_eq
          have h3 := hr.size
          unfold ssAdd
          rw [if_pos ⟨h1.1, by omega⟩]
          refine ⟨_, rfl, ?_⟩
          have := k.put x hs
          rw [← hx, upd_self] at this
          exact this
  | remove x a =>
    dsimp only [fsStep] at h
    dsimp only [ssStep]
    cases hx : ft x with
    | none => rw [hx] at h; cases h
    | some f =>
      obtain ⟨s, e, hs⟩ := k.some hx
      rw [hx] at h
      cases h
      obtain ⟨es, hr, hp⟩ := hs.rep
      obtain ⟨s', e', h1, h2, h3⟩ := ssRemove_spec hr a
      rw [e, Option.bind_some, e']
      refine ⟨_, rfl, k.put x ⟨⟨_, h1, hp.filter _⟩, Nat.le_trans (List.length_filter_le ..) hs.len, fun ht => ?_, fun ht => ?_⟩⟩
      · rw [h2, h3]; exact hs.pool ht
      · rw [h2, h3]; exact hs.fix ht
  | includes x a =>
    dsimp only [fsStep] at h
    dsimp only [ssStep]
    cases hx : ft x with
    | none => rw [hx] at h; cases h
    | some f =>
      obtain ⟨s, e, hs⟩ := k.some hx
      rw [hx] at h
      cases h
      obtain ⟨es, hr, hp⟩ := hs.rep
      rw [e, Option.bind_some, ssIncludes_spec hr, perm_mem hp]
      exact ⟨_, rfl, k⟩
  | size x =>
    dsimp only [fsStep] at h
    dsimp only [ssStep]
    cases hx : ft x with
    | none => rw [hx] at h; cases h
    | some f =>
      obtain ⟨s, e, hs⟩ := k.some hx
      rw [hx] at h
      cases h
      obtain ⟨es, hr, hp⟩ := hs.rep
      rw [e, Option.map_some, hr.size, hp.length_eq]
      exact ⟨_, rfl, k⟩
  | isEmpty x =>
    dsimp only [fsStep] at h
    dsimp only [ssStep]
    cases hx : ft x with
    | none => rw [hx] at h; cases h
    | some f =>
      obtain ⟨s, e, hs⟩ := k.some hx
      rw [hx] at h
      cases h
      obtain ⟨es, hr, hp⟩ := hs.rep
      rw [e, Option.map_some, hr.size, hp.length_eq, show decide (f.els.length = 0) = f.els.isEmpty by cases f.els <;> simp]
      exact ⟨_, rfl, k⟩
  | equals x c =>
    dsimp only [fsStep] at h
    dsimp only [ssStep]
    cases hx : ft x with
    | none => rw [hx] at h; cases h
    | some f =>
      obtain ⟨s, e, hs⟩ := k.some hx
      rw [hx, Option.bind_some] at h
      by_cases hc : c.Pairwise (· < ·)
      · rw [if_pos hc] at h
        cases h
        obtain ⟨es, hr, hp⟩ := hs.rep
        rw [e, Option.bind_some, ssEquals_spec hr c 0 (Nat.zero_le _), List.drop_zero, sorted_eq_iff hp hr.sorted hc]
        exact ⟨_, rfl, k⟩
      · rw [if_neg hc] at h; cases h
  | intersects x c =>
    dsimp only [fsStep] at h
    dsimp only [ssStep]
    cases hx : ft x with
    | none => rw [hx] at h; cases h
    | some f =>
      obtain ⟨s, e, hs⟩ := k.some hx
      rw [hx, Option.bind_some] at h
      by_cases hc : c.Pairwise (· ≤ ·)
      · rw [if_pos hc] at h
        cases h
        obtain ⟨es, hr, hp⟩ := hs.rep
        rw [e, Option.bind_some, hr.size, ssIntersects_spec hr _ 0 c hc (Nat.zero_le _) (by omega), List.drop_zero, perm_any hp]
        exact ⟨_, rfl, k⟩
      · rw [if_neg hc] at h; cases h
  | containsAll x c =>
    dsimp only [fsStep] at h
    dsimp only [ssStep]
    cases hx : ft x with
    | none => rw [hx] at h; cases h
    | some f =>
      obtain ⟨s, e, hs⟩ := k.some hx
      rw [hx, Option.bind_some] at h
      by_cases hc : c.Pairwise (· < ·)
      · rw [if_pos hc] at h
        cases h
        obtain ⟨es, hr, hp⟩ := hs.rep
        rw [e, Option.bind_some, hr.size, ssContainsAll_spec hr _ 0 c hc (Nat.zero_le _) (by omega), List.drop_zero, perm_all hp]
        exact ⟨_, rfl, k⟩
      · rw [if_neg hc] at h; cases h
  | elems x =>
    dsimp only [fsStep] at h
    dsimp only [ssStep]
    cases hx : ft x with
    | none => rw [hx] at h; cases h
    | some f =>
      obtain ⟨s, e, hs⟩ := k.some hx
      rw [hx] at h
      cases h
      obtain ⟨es, hr, hp⟩ := hs.rep
      rw [e, Option.bind_some, hr.size, ssElems_spec hr _ 0 rfl, List.drop_zero, sort_perm hp hr.sorted]
      exact ⟨_, rfl, k⟩
  | revElems x =>
    dsimp only [fsStep] at h
    dsimp only [ssStep]
    cases hx : ft x with
    | none => rw [hx] at h; cases h
    | some f =>
      obtain ⟨s, e, hs⟩ := k.some hx
      rw [hx] at h
      cases h
      obtain ⟨es, hr, hp⟩ := hs.rep
      rw [e, Option.bind_some, hr.size, ssRevElems_spec hr _ (Nat.le_refl _), List.take_length, sort_perm hp hr.sorted]
      exact ⟨_, rfl, k⟩
  | get x i =>
    dsimp only [fsStep] at h
    dsimp only [ssStep]
    cases hx : ft x with
    | none => rw [hx] at h; cases h
    | some f =>
      obtain ⟨s, e, hs⟩ := k.some hx
      obtain ⟨es, hr, hp⟩ := hs.rep
      rw [hx, Option.bind_some, sort_perm hp hr.sorted] at h
      cases hi : es[i]? with
      | none => rw [hi] at h; cases h
      | some v =>
        rw [hi] at h
        cases h
        obtain ⟨h1, rfl⟩ := List.getElem?_eq_some_iff.1 hi
        rw [e, Option.bind_some, hr.get h1]
        exact ⟨_, rfl, k⟩
  | eq x y =>
    dsimp only [fsStep] at h
    dsimp only [ssStep]
    cases hx : ft x with
    | none => rw [hx] at h; cases h
    | some f =>
      cases hy : ft y with
      | none => rw [hx, hy] at h; cases h
      | some g =>
        obtain ⟨s, e, hs⟩ := k.some hx
        obtain ⟨t, e', ht⟩ := k.some hy
        obtain ⟨es, hr, hp⟩ := hs.rep
        obtain ⟨fs, hr', hp'⟩ := ht.rep
        rw [hx, hy] at h
        cases h
        have h1 : (f.els.all (fs.contains ·) && fs.all (f.els.contains ·)) = (f.els.all (g.els.contains ·) && g.els.all (f.els.contains ·)) := by
          rw [perm_all hp', hp'.all_eq]
        rw [e, e', Option.bind_some, Option.bind_some, ssEq_spec hr hr', sorted_eq_iff hp hr.sorted hr'.sorted, h1]
        exact ⟨_, rfl, k⟩

theorem ssRun_spec : ∀ (ops : List SsOp) {st : Nat → Option SSet} {ft : Nat → Option FSet}, SsInv st ft → ∀ {ft' : Nat → Option FSet} {rs : List SsRes},
    fsRun ft ops = some (ft', rs) → ∃ st', ssRun st ops = some (st', rs) ∧ SsInv st' ft'
  | [], st, ft, k, ft', rs, h => by
    cases h
    exact ⟨st, rfl, k⟩
  | op :: ops, st, ft, k, ft', rs, h => by
    unfold fsRun at h
    cases h1 : fsStep ft op with
    | none => rw [h1] at h; cases h
    | some q =>
      rw [h1, Option.bind_some] at h
      cases h2 : fsRun q.1 ops with
      | none => rw [h2] at h; cases h
      | some q2 =>
        rw [h2] at h
        cases h
        obtain ⟨st1, e1, k1⟩ := ssStep_spec k (r := q.2) h1
        obtain ⟨st2, e2, k2⟩ := ssRun_spec ops k1 h2
        refine ⟨st2, ?_, k2⟩
        unfold ssRun
        rw [e1, Option.bind_some, e2]
        rfl

end TdZdd
