import Verif.LinearProofs3

/-! # Property C39: `LinearConstraints` -/

namespace TdZdd

open Lin

section
variable {R : TRange} {n : Nat} {cs act : List LinArg} {L0 L : LinCon}

theorem Lin.lists_ok (h : Lists act L0.lists) (hid : L0.constraintId = act.length) : LsOk L0.constraintId L0.lists where
  idx l t ht := by
    obtain ⟨c, w, hc, _⟩ := (h.mem l t).1 ht
    rw [hid]; exact (List.getElem?_eq_some_iff.1 hc).1
  asc := h.asc
  final l t ht hf k hk := by
    rintro ⟨s, hs, e⟩
    obtain ⟨c, w, hc, _, _, _, _, _, _, h7⟩ := (h.mem l t).1 ht
    obtain ⟨c', w', hc', hw', _⟩ := (h.mem k s).1 hs
    rw [e, hc] at hc'
    cases hc'
    exact h7.1 hf k hk ⟨w', hw'⟩

open Classical in
theorem Lin.at_iff (h : Lists act L0.lists) (l id : Nat) : At L0.lists l id ↔ ∃ c, act[id]? = some c ∧ HasKey c.expr l := by
  constructor
  · rintro ⟨t, ht, e⟩
    obtain ⟨c, w, hc, hw, _⟩ := (h.mem l t).1 ht
    exact ⟨c, e ▸ hc, w, hw⟩
  · rintro ⟨c, hc, w, hw⟩
    exact ⟨⟨id, w, minS c.expr l, maxS c.expr l, c.lb, c.ub, decide (∀ k, k < l → ¬ HasKey c.expr k)⟩,
      (h.mem l _).2 ⟨c, w, hc, hw, rfl, rfl, rfl, rfl, rfl, decide_eq_true_iff⟩, rfl⟩

/-- the finished object -/
theorem Lin.sys_of (h : AddInv R n cs L0 act) (hf : L0.isFalse = false) :
    ∃ L slot, lcUpdate L0 = some L ∧ L.n = n ∧ L.isFalse = false ∧ Sys R n act L slot := by
  have hid := h.cid
  have hl := h.lists
  obtain ⟨L, slot, e, u1, u2, u3, u4, u5⟩ := update_inv (lists_ok hl hid)
  rw [h.n_eq] at u1 u3 u4 u5
  have below : ∀ (id : Nat) c l, act[id]? = some c → Lo c l → Below L0.lists l id := by
    rintro id c l hc ⟨k, hk, w, hw⟩
    exact ⟨k, ((h.ok c (List.mem_of_getElem? hc)).keys _ hw).1, hk, (at_iff hl k id).2 ⟨c, hc, w, hw⟩⟩
  have above : ∀ (id : Nat) c l, 1 ≤ l → act[id]? = some c → Hi c (l - 1) → ∃ j, l ≤ j ∧ j ≤ n ∧ At L0.lists j id := by
    rintro id c l hl1 hc ⟨k, hk, w, hw⟩
    exact ⟨k, by omega, ((h.ok c (List.mem_of_getElem? hc)).keys _ hw).2, (at_iff hl k id).2 ⟨c, hc, w, hw⟩⟩
  refine ⟨L, slot, e, u1, by rw [u2, hf], h.ok, ?_, ?_, ?_, ?_⟩
  · intro l h1 h2 t
    rw [u3 l h1 h2, List.mem_map]
    constructor
    · rintro ⟨s, hs, rfl⟩
      obtain ⟨c, w, hc, r1, r2, r3, r4, r5, r6, r7⟩ := (hl.mem l s).1 hs
      exact ⟨s.index, c, w, hc, r1, rfl, r2, r3, r4, r5, r6, r7⟩
    · rintro ⟨id, c, w, hc, r1, r2, r3, r4, r5, r6, r7, r8⟩
      refine ⟨{ t with index := id }, (hl.mem l _).2 ⟨c, w, hc, r1, r3, r4, r5, r6, r7, r8⟩, ?_⟩
      dsimp only
      rw [← r2]
  · intro l h1 h2
    rw [u3 l h1 h2, List.pairwise_map]
    refine List.Pairwise.imp_of_mem ?_ (hl.asc l)
    intro s t hs ht hst e'
    have hb : ∀ s ∈ L0.lists l, Below L0.lists l s.index ∧ ∃ j, l ≤ j ∧ j ≤ n ∧ At L0.lists j s.index :=
      fun s hs => ⟨⟨l, h1, Nat.le_refl _, s, hs, rfl⟩, l, Nat.le_refl _, h2, s, hs, rfl⟩
    have := u5 l s.index t.index h1 h2 (hb s hs).1 (hb t ht).1 (hb s hs).2 (hb t ht).2 e'
    omega
  · intro id c hc hlo
    exact u4 id (below id c n hc hlo)
  · intro l h1 h2 id c id' c' hc hc' hlo hlo' hhi hhi' heq
    exact u5 l id id' h1 h2 (below id c l hc hlo) (below id' c' l hc' hlo') (above id c l h1 hc hhi) (above id' c' l h1 hc' hhi') heq

theorem Lin.child_eq {v : List Int} {l : Nat} {b : Fin 2} {ok : Bool} {v' : List Int} (h : lcScan R (decide (b.val ≠ 0)) (L.lists l) v = some (ok, v')) :
    (lcSpec R L).child v l b = (if ok = true then (if 1 ≤ (l : Int) - 1 then (l : Int) - 1 else -1) else 0, v') := by
  show (match lcScan R (decide (b.val ≠ 0)) (L.lists l) v with
    | none => ((l : Int), v)
    | some (false, v') => (0, v')
    | some (true, v') => (if 1 ≤ (l : Int) - 1 then (l : Int) - 1 else -1, v')) = _
  rw [h]
  cases ok <;> rfl

theorem Lin.root_inv {slot : Nat → Nat} (h : Sys R n act L slot) : VInv R act L slot n (List.replicate L.arraySize 0) := by
  have hhi : ∀ (id : Nat) c, act[id]? = some c → Hi c n → False := by
    rintro id c hc ⟨k, hk, w, hw⟩
    have := ((h.okc hc).keys _ hw).2
    dsimp only at this; omega
  refine ⟨List.length_replicate, fun k _ => ?_, fun id c hc _ hh => (hhi id c hc hh).elim, fun id c hc _ hh => (hhi id c hc hh).elim⟩
  rw [List.getD_eq_getElem?_getD, List.getElem?_replicate]
  split <;> rfl

theorem Lin.reach_inv {slot : Nat → Nat} (hn : L.n = n) (h : Sys R n act L slot) {l : Nat} {v : List Int} (h0 : 0 < l)
    (hr : Reach (lcSpec R L) (l : Int) v) : l ≤ n ∧ VInv R act L slot l v := by
  generalize hl : (l : Int) = l' at hr
  induction hr generalizing l with
  | root =>
    have hl' : (l : Int) = if L.isFalse = true then (0 : Int) else L.n := hl
    split at hl'
    · omega
    · have e : l = n := by omega
      subst e
      exact ⟨Nat.le_refl _, root_inv h⟩
  | @step m s b hm hr ih =>
    obtain ⟨h1, h2⟩ := ih hm rfl
    obtain ⟨m, rfl⟩ : ∃ k, m = k + 1 := ⟨m - 1, by omega⟩
    obtain ⟨ok, v', e, h3, _⟩ := h.step h1 h2 (decide (b.val ≠ 0))
    rw [child_eq e] at hl ⊢
    dsimp only at hl ⊢
    cases ok with
    | false => simp only [Bool.false_eq_true, if_false] at hl; omega
    | true =>
      simp only [if_true] at hl
      have e1 : l = m := by split at hl <;> omega
      subst e1
      exact ⟨by omega, h3 rfl⟩

theorem Lin.dense {slot : Nat → Nat} (hn : L.n = n) (h1 : 1 ≤ n) (h : Sys R n act L slot) : Dense (lcSpec R L) n where
  pos := h1
  root := by
    show (if L.isFalse = true then (0 : Int) else L.n) = 0 ∨ (if L.isFalse = true then (0 : Int) else L.n) = n
    split <;> simp [hn]
  child := by
    intro l s b h0 hr
    obtain ⟨h2, h3⟩ := reach_inv hn h h0 hr
    obtain ⟨m, rfl⟩ : ∃ k, l = k + 1 := ⟨l - 1, by omega⟩
    obtain ⟨ok, v', e, _, _⟩ := h.step h2 h3 (decide (b.val ≠ 0))
    rw [child_eq e]
    cases ok with
    | false => exact .inl rfl
    | true =>
      right
      simp only [if_true]
      split <;> split <;> omega

theorem Lin.sat {slot : Nat → Nat} (h : Sys R n act L slot) (a : Asg 2) : ∀ (l : Nat) (v : List Int), 0 < l → l ≤ n → VInv R act L slot l v →
    (BddSatAt (lcSpec R L) (l : Int) v a ↔ Todo act slot l v a) := by
  intro l
  induction l with
  | zero => intro v h0; omega
  | succ m ih =>
    intro v h0 hm hv
    rw [bddSatAt_pos h0]
    obtain ⟨ok, v', e, h3, h4⟩ := h.step hm hv (decide ((a (m + 1)).val ≠ 0))
    rw [child_eq e, h4 a rfl]
    cases ok with
    | false =>
      simp only [Bool.false_eq_true, if_false, false_and, iff_false]
      exact bddSatAt_zero
    | true =>
      simp only [if_true, true_and]
      by_cases hm0 : m = 0
      · subst hm0
        rw [if_neg (by omega)]
        refine ⟨fun _ id c hc ⟨k, hk, w, hw⟩ => ?_, fun _ => bddSatAt_neg (by omega)⟩
        have := ((h.okc hc).keys _ hw).1
        dsimp only at this; omega
      · rw [if_pos (by omega), show ((m + 1 : Nat) : Int) - 1 = (m : Int) from by omega]
        exact ih v' (by omega) (by omega) (h3 rfl)

end

/-- C39: the constructor, `addConstraint` and `update` have no undefined behaviour, the specification keeps the contract of a
specification (in particular no step is undefined), and it accepts a 0/1 vector exactly if all constraints hold, in both readings. -/
theorem C39_linear (R : TRange) (n : Nat) (hn : 1 ≤ n) (cs : List LinArg)
    (hasc : ∀ c ∈ cs, c.expr.Pairwise fun p q => p.1 < q.1) (hkeys : ∀ c ∈ cs, ∀ p ∈ c.expr, 1 ≤ p.1 ∧ p.1 ≤ n)
    (hbd : ∀ c ∈ cs, R.lo ≤ c.lb ∧ c.ub ≤ R.hi)
    (hsum : ∀ c ∈ cs, R.lo ≤ (c.expr.map fun p => if p.2 < 0 then p.2 else 0).sum ∧ (c.expr.map fun p => if 0 < p.2 then p.2 else 0).sum ≤ R.hi) :
    ∃ L, lcBuild R n cs = some L ∧ LawfulC (lcSpec R L) ∧ NoMerge (lcSpec R L) ∧ ∀ a : Asg 2,
      (BddSat (lcSpec R L) a ↔ ∀ c ∈ cs, c.lb ≤ (c.expr.map fun p => p.2 * ((a p.1).val : Int)).sum ∧
        (c.expr.map fun p => p.2 * ((a p.1).val : Int)).sum ≤ c.ub) ∧
      (ZddMem (lcSpec R L) n a ↔ ∀ c ∈ cs, c.lb ≤ (c.expr.map fun p => p.2 * ((a p.1).val : Int)).sum ∧
        (c.expr.map fun p => p.2 * ((a p.1).val : Int)).sum ≤ c.ub) := by
  obtain ⟨L0, act, e0, h0⟩ := all_inv (R := R) (n := n) cs [] (init_inv R n)
    fun c hc => ⟨hasc c hc, hkeys c hc, (hbd c hc).1, (hbd c hc).2, (hsum c hc).1, (hsum c hc).2⟩
  rw [List.nil_append] at h0
  unfold lcBuild
  rw [e0, Option.bind_some]
  by_cases hf : L0.isFalse = true
  · -- an unsatisfiable constraint was found: nothing else is guaranteed, the root is the 0-terminal
    obtain ⟨L, slot, e, u1, u2, _⟩ := update_inv (lists_ok h0.lists h0.cid)
    have hL : L.isFalse = true := by rw [u2, hf]
    have hroot : (lcSpec R L).root.1 = 0 := by
      show (if L.isFalse = true then (0 : Int) else L.n) = 0
      rw [if_pos hL]
    have hnr : ∀ {l : Nat} {s : List Int}, 0 < l → ¬ Reach (lcSpec R L) (l : Int) s := by
      intro l s hl hr
      generalize hl' : (l : Int) = l' at hr
      induction hr generalizing l with
      | root => rw [hroot] at hl'; omega
      | @step m s b hm hr ih => exact ih hm rfl
    have hd : Desc (lcSpec R L) := ⟨by rw [hroot]; decide, fun _ h0 hr => (hnr h0 hr).elim, fun _ h0 hr => (hnr h0 hr).elim⟩
    refine ⟨L, e, lawfulC_of_eq hd fun n s t => by simp [lcSpec], fun _ _ => rfl, fun a => ?_⟩
    have hno := h0.fls hf a
    constructor
    · refine ⟨fun h => ?_, fun h => absurd h hno⟩
      unfold BddSat at h; rw [hroot] at h; exact absurd h bddSatAt_zero
    · refine ⟨fun h => ?_, fun h => absurd h hno⟩
      unfold ZddMem at h; rw [hroot] at h; exact absurd h zddMemAt_zero
  · obtain ⟨L, slot, e, hLn, hLf, hsys⟩ := sys_of h0 (by simpa using hf)
    have hd := dense hLn hn hsys
    refine ⟨L, e, lawfulC_of_eq hd.desc fun n s t => by simp [lcSpec], fun _ _ => rfl, fun a => ?_⟩
    rw [hd.mem_iff a, and_self]
    have hr : (lcSpec R L).root = ((n : Int), List.replicate L.arraySize 0) := by
      show (if L.isFalse = true then (0 : Int) else L.n, _) = _
      rw [hLf, hLn]; rfl
    show BddSatAt _ (lcSpec R L).root.1 (lcSpec R L).root.2 a ↔ _
    rw [hr, sat hsys a n _ hn (Nat.le_refl _) (root_inv hsys)]
    refine Iff.trans ?_ (h0.tru (by simpa using hf) a).symm
    have hnh : ∀ c ∈ act, ¬ Hi c n := by
      rintro c hc ⟨k, hk, w, hw⟩
      have := ((hsys.ok c hc).keys _ hw).2
      dsimp only at this; omega
    constructor
    · intro ht c hc
      obtain ⟨id, hid⟩ := List.mem_iff_getElem?.1 hc
      have hlo : Lo c n := by
        cases hx : c.expr with
        | nil => exact absurd hx (h0.ne c hc)
        | cons p e' =>
          have hp : p ∈ c.expr := hx ▸ List.mem_cons_self ..
          exact ⟨p.1, ((hsys.ok c hc).keys p hp).2, p.2, hp⟩
      have := ht id c hid hlo
      have hb : base slot n (List.replicate L.arraySize 0) id c = 0 := if_neg fun x => hnh c hc x.2
      rw [hb, Int.zero_add, rest_full fun p hp => ((hsys.ok c hc).keys p hp).2] at this
      exact this
    · intro hh id c hc _
      have hm := List.mem_of_getElem? hc
      have hb : base slot n (List.replicate L.arraySize 0) id c = 0 := if_neg fun x => hnh c hm x.2
      rw [hb, Int.zero_add, rest_full fun p hp => ((hsys.ok c hm).keys p hp).2]
      exact hh c hm

/-- C39, the conditions on the variables are needed: a variable above `n` makes `addConstraint` write outside of `checklists`. -/
theorem C39_key_above (R : TRange) (n k : Nat) (w lb ub : Int) (hk : n < k) (hw : 0 < w) (hlb : 0 < lb) (hub : lb ≤ ub)
    (hm : lb ≤ w) (h0 : R.lo ≤ 0) (hhi : w ≤ R.hi) : lcAdd R (lcInit n) ⟨[(k, w)], lb, ub⟩ = none := by
  have hc : R.chk (0 + w) = some w := by rw [Int.zero_add]; exact Lin.chk_some (by omega) hhi
  simp only [lcAdd, lcInit, lcBounds, Bool.false_eq_true, if_false, if_pos hw, hc, Option.bind_some]
  rw [if_neg (by omega), if_neg (by omega)]
  simp only [List.isEmpty_cons, Bool.false_eq_true, if_false, lcPush, if_pos hk, Option.map_none]

/-! ### Examples -/

/-- `T = int`, `x1 + x2 - 2 x3 = 0` and `x2 + x4 >= 1`: the hypotheses of `C39_linear` hold, the family is neither empty nor full -/
def linEx : List LinArg := [⟨[(1, 1), (2, 1), (3, -2)], 0, 0⟩, ⟨[(2, 1), (4, 1)], 1, 2 ^ 31 - 1⟩]

example : (∀ c ∈ linEx, c.expr.Pairwise fun p q => p.1 < q.1) ∧ (∀ c ∈ linEx, ∀ p ∈ c.expr, 1 ≤ p.1 ∧ p.1 ≤ 4) ∧
    (∀ c ∈ linEx, -2 ^ 31 ≤ c.lb ∧ c.ub ≤ 2 ^ 31 - 1) ∧
    (∀ c ∈ linEx, -2 ^ 31 ≤ (c.expr.map fun p => if p.2 < 0 then p.2 else 0).sum ∧
      (c.expr.map fun p => if 0 < p.2 then p.2 else 0).sum ≤ 2 ^ 31 - 1) := by decide
/-- two slots are used, one per constraint -/
example : (lcBuild ⟨-2 ^ 31, 2 ^ 31 - 1⟩ 4 linEx).map (fun L => (L.arraySize, (L.lists 2).map (·.index), L.isFalse)) =
    some (2, [1, 0], false) := by decide
/-- slot reuse: two constraints over disjoint ranges of levels share one slot -/
example : (lcBuild ⟨-2 ^ 31, 2 ^ 31 - 1⟩ 4 [⟨[(1, 1), (2, 1)], 1, 1⟩, ⟨[(3, 1), (4, 1)], 1, 1⟩]).map (·.arraySize) = some 1 := by decide

end TdZdd
