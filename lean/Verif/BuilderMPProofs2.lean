import Verif.BuilderMPProofs1
import Verif.BuilderPerm

/-! Parallel builders, part 2: the first loop numbers the nodes like the sequential builder. -/

namespace TdZdd

variable {N : Nat} {S : Type}

/-- `*srcPtr(p)` for a node with the given code -/
def bmId (i base : Nat) (code : Int) : NodeId :=
  if code ≤ 0 then (if code = 0 then .zero else ⟨i, base + (-code).toNat - 1⟩) else ⟨i, base + code.toNat - 1⟩

/-- the entry of the sequential builder's list for a node with the given code -/
def toDone (i base : Nat) (e : SNode N S × Int) : S × NodeId :=
  (e.1.2.2, if 0 < e.2 then ⟨i, base + e.2.toNat - 1⟩ else .one)

/-- the first loop without pruning -/
def bmCode0 (sp : DdSpec N S) (i : Nat) (a : BmCodes N S) (p : SNode N S) : Option (BmCodes N S) :=
  match a.uniq.find? (fun e => sp.eqv i e.2 p.2.2) with
  | none => some { j := a.j + 1, done := a.done ++ [(p, (a.j : Int) + 1)], uniq := (a.done.length, p.2.2) :: a.uniq }
  | some e =>
    match a.done[e.1]? with
    | none => none
    | some q => some { a with done := a.done ++ [(p, -q.2)] }

theorem bmCode_eq {sp : DdSpec N S} (hm : NoMerge sp) (i : Nat) : bmCode sp i = bmCode0 sp i := by
  funext a p
  unfold bmCode bmCode0
  cases a.uniq.find? fun e => sp.eqv i e.2 p.2.2 with
  | none => rfl
  | some e =>
    dsimp only
    cases a.done[e.1]? with
    | none => rfl
    | some q => dsimp only; rw [hm, if_neg (by decide), if_neg (by decide)]

theorem bmCodeSub_eq {sp : DdSpec N S} (hm : NoMerge sp) (i : Nat) : bmCodeSub sp i = bmCode0 sp i := by
  funext a p
  unfold bmCodeSub bmCode0
  cases a.uniq.find? fun e => sp.eqv i e.2 p.2.2 with
  | none => rfl
  | some e =>
    dsimp only
    cases a.done[e.1]? with
    | none => rfl
    | some q => dsimp only; rw [hm, if_neg (by decide), if_neg (by decide)]

/-- writing all source pointers -/
def wrAll (i base : Nat) (st : BSt N S) (l : List (SNode N S × Int)) : Option (BSt N S) :=
  l.foldlM (fun st e => st.write e.1.1 e.1.2.1 (bmId i base e.2)) st

structure GRel (i base : Nat) (D0 : List (S × NodeId)) (old : List (Nat × S)) (st0 : BSt N S)
    (items : List (SNode N S)) (c : BmCodes N S) (a : P1 N S) : Prop where
  m : a.m = base + c.j
  done : a.done = D0 ++ c.done.map (toDone i base)
  uniq : a.uniq = c.uniq.map (fun e => (D0.length + e.1, e.2)) ++ old
  pos : ∀ e ∈ c.uniq, ∃ q, c.done[e.1]? = some q ∧ 0 < q.2
  st : wrAll i base st0 c.done = some a.st
  news : (c.done.filterMap fun e => if 0 < e.2 then some e.2.toNat else none) = List.range' 1 c.j
  its : c.done.map (·.1) = items
  mem : ∀ e ∈ c.uniq, ∃ p ∈ items, p.2.2 = e.2

theorem grel_step {sp sp' : DdSpec N S} (hm : NoMerge sp') {i base : Nat} {D0 : List (S × NodeId)} {old : List (Nat × S)}
    {st0 : BSt N S} {items : List (SNode N S)} {c : BmCodes N S} {a a' : P1 N S} (h : GRel i base D0 old st0 items c a)
    {p : SNode N S} (hold : ∀ e ∈ old, sp'.eqv i e.2 p.2.2 = false)
    (heq : ∀ q ∈ items, sp.eqv i q.2.2 p.2.2 = sp'.eqv i q.2.2 p.2.2)
    (hs : phase1Step sp' i a p = some a') :
    ∃ c', bmCode0 sp i c p = some c' ∧ GRel i base D0 old st0 (items ++ [p]) c' a' := by
  obtain ⟨st, m, done, uniq⟩ := a
  obtain ⟨h1, h2, h3, h4, h5, h6, h7, h8⟩ := h
  dsimp only at h1 h2 h3 h5
  subst h1; subst h2; subst h3
  have e0 : old.find? (fun e => sp'.eqv i e.2 p.2.2) = none := by
    rw [List.find?_eq_none]; intro e he; rw [hold e he]; simp
  have e1 : ((c.uniq.map (fun e => (D0.length + e.1, e.2)) ++ old).find? fun e => sp'.eqv i e.2 p.2.2) =
      (c.uniq.find? fun e => sp.eqv i e.2 p.2.2).map fun e => (D0.length + e.1, e.2) := by
    rw [List.find?_append, e0, Option.or_none, List.find?_map]
    refine congrArg _ ?_
    have : ∀ (l : List (Nat × S)), (∀ e ∈ l, ∃ p ∈ items, p.2.2 = e.2) →
        l.find? ((fun e : Nat × S => sp'.eqv i e.2 p.2.2) ∘ fun e : Nat × S => (D0.length + e.1, e.2)) =
          l.find? fun e => sp.eqv i e.2 p.2.2 := by
      intro l
      induction l with
      | nil => intro _; rfl
      | cons e l ih =>
        intro hl
        obtain ⟨q, hq, e2⟩ := hl e (by simp)
        rw [List.find?_cons, List.find?_cons, ih (fun e he => hl e (by simp [he])), ← e2, heq q hq]
        simp only [Function.comp_apply, ← e2]
    exact this _ h8
  have hlen : (D0 ++ c.done.map (toDone i base)).length = D0.length + c.done.length := by simp
  unfold phase1Step at hs
  dsimp only at hs
  rw [e1] at hs
  unfold bmCode0
  cases hf : c.uniq.find? fun e => sp.eqv i e.2 p.2.2 with
  | none =>
    rw [hf] at hs
    dsimp only [Option.map] at hs
    cases hw : st.write p.1 p.2.1 ⟨i, base + c.j⟩ with
    | none => rw [hw] at hs; cases hs
    | some st' =>
      rw [hw] at hs
      cases hs
      have hid : bmId i base ((c.j : Int) + 1) = ⟨i, base + c.j⟩ := by
        unfold bmId; rw [if_neg (by omega)]; congr 1
      refine ⟨_, rfl, ⟨by dsimp only; omega, ?_, ?_, ?_, ?_, ?_, by simp [h7], ?_⟩⟩
      · dsimp only
        rw [List.map_append, List.append_assoc]
        refine congrArg _ (congrArg _ ?_)
        simp only [List.map_cons, List.map_nil, toDone]
        rw [if_pos (by omega)]
        congr 3
      · dsimp only
        rw [hlen]; rfl
      · intro e he
        rcases List.mem_cons.1 he with rfl | he
        · exact ⟨(p, (c.j : Int) + 1), by simp, by dsimp only; omega⟩
        · obtain ⟨q, hq1, hq2⟩ := h4 e he
          exact ⟨q, by dsimp only; rw [List.getElem?_append_left (getElem?_lt hq1)]; exact hq1, hq2⟩
      · dsimp only
        unfold wrAll
        rw [List.foldlM_append]
        show Option.bind (wrAll i base st0 c.done) _ = _
        rw [h5]
        simp only [Option.bind, List.foldlM_cons, List.foldlM_nil, hid, hw]
        rfl
      · dsimp only
        rw [List.filterMap_append, h6, List.range'_1_concat]
        simp only [List.filterMap_cons, List.filterMap_nil]
        rw [if_pos (by omega)]
        simp only
        congr 2; omega
      · intro e he
        rcases List.mem_cons.1 he with rfl | he
        · exact ⟨p, by simp, rfl⟩
        · obtain ⟨q, hq1, hq2⟩ := h8 e he
          exact ⟨q, by simp [hq1], hq2⟩
  | some e =>
    rw [hf] at hs
    dsimp only [Option.map] at hs
    rw [hm, if_neg (by decide), if_neg (by decide)] at hs
    obtain ⟨q, hq1, hq2⟩ := h4 e (List.mem_of_find?_eq_some hf)
    have e3 : (D0 ++ c.done.map (toDone i base))[D0.length + e.1]? = some (toDone i base q) := by
      rw [List.getElem?_append_right (by omega), Nat.add_sub_cancel_left, List.getElem?_map, hq1]; rfl
    rw [e3] at hs
    dsimp only at hs
    have hid : bmId i base (-q.2) = (toDone i base q).2 := by
      unfold bmId toDone
      rw [if_pos (by omega), if_neg (by omega), Int.neg_neg]
      dsimp only
      rw [if_pos hq2]
    cases hw : st.write p.1 p.2.1 (toDone i base q).2 with
    | none => rw [hw] at hs; cases hs
    | some st' =>
      rw [hw] at hs
      cases hs
      dsimp only
      rw [hq1]
      refine ⟨_, rfl, ⟨rfl, ?_, rfl, ?_, ?_, ?_, by simp [h7], ?_⟩⟩
      · dsimp only
        rw [List.map_append, List.append_assoc]
        refine congrArg _ (congrArg _ ?_)
        simp only [List.map_cons, List.map_nil, toDone]
        rw [if_neg (by omega)]
      · intro e he
        obtain ⟨q, hq1, hq2⟩ := h4 e he
        exact ⟨q, by dsimp only; rw [List.getElem?_append_left (getElem?_lt hq1)]; exact hq1, hq2⟩
      · dsimp only
        unfold wrAll
        rw [List.foldlM_append]
        show Option.bind (wrAll i base st0 c.done) _ = _
        rw [h5]
        simp only [Option.bind, List.foldlM_cons, List.foldlM_nil, hid, hw]
        rfl
      · dsimp only
        rw [List.filterMap_append, h6]
        simp only [List.filterMap_cons, List.filterMap_nil]
        rw [if_neg (by omega)]
        simp
      · intro e he
        obtain ⟨q, hq1, hq2⟩ := h8 e he
        exact ⟨q, by simp [hq1], hq2⟩

theorem grel_fold {sp sp' : DdSpec N S} (hm : NoMerge sp') {i base : Nat} {D0 : List (S × NodeId)} {old : List (Nat × S)}
    {st0 : BSt N S} : ∀ (l items : List (SNode N S)) (c : BmCodes N S) (a a' : P1 N S), GRel i base D0 old st0 items c a →
    (∀ e ∈ old, ∀ p ∈ l, sp'.eqv i e.2 p.2.2 = false) →
    (∀ q ∈ items ++ l, ∀ p ∈ l, sp.eqv i q.2.2 p.2.2 = sp'.eqv i q.2.2 p.2.2) →
    l.foldlM (phase1Step sp' i) a = some a' →
    ∃ c', l.foldlM (bmCode0 sp i) c = some c' ∧ GRel i base D0 old st0 (items ++ l) c' a' := by
  intro l
  induction l with
  | nil => intro items c a a' h _ _ hs; cases hs; exact ⟨c, rfl, by rw [List.append_nil]; exact h⟩
  | cons p l ih =>
    intro items c a a' h hold heq hs
    rw [List.foldlM_cons] at hs
    obtain ⟨a1, h1, h2⟩ := Option.bind_eq_some_iff.1 hs
    obtain ⟨c1, h3, h4⟩ := grel_step hm h (fun e he => hold e he p (by simp))
      (fun q hq => heq q (by simp [hq]) p (by simp)) h1
    obtain ⟨c2, h5, h6⟩ := ih (items ++ [p]) c1 a1 a' h4 (fun e he p' hp' => hold e he p' (by simp [hp']))
      (fun q hq p' hp' => heq q (by simpa using hq) p' (by simp [hp'])) h2
    refine ⟨c2, ?_, by simpa using h6⟩
    rw [List.foldlM_cons, h3]; exact h5

/-! ### All groups -/

/-- the nodes of all groups with thread, first column and code -/
def bmFlat (thr : Nat → Nat) (l : List (Nat × Nat × BmCodes N S)) : List (Nat × Nat × (SNode N S × Int)) :=
  l.flatMap fun t => t.2.2.done.map fun e => (thr t.1, t.2.1, e)

theorem bmEffs_flat (sp : DdSpec N S) (key : Nat → S → Nat) (groups : Nat → Nat) (i gi : Nat) (thr : Nat → Nat)
    (l : List (Nat × Nat × BmCodes N S)) : bmEffs sp key groups i gi thr l =
      (bmFlat thr l).flatMap fun z => bmItem sp key groups i gi z.1 z.2.1 z.2.2 := by
  unfold bmEffs bmFlat
  induction l with
  | nil => rfl
  | cons t l ih =>
    rw [List.flatMap_cons, List.flatMap_cons, List.flatMap_append, ih, List.flatMap_map]

/-- writing the source pointers of all groups -/
def wrFlat (i : Nat) (st : BSt N S) (l : List (Nat × Nat × (SNode N S × Int))) : Option (BSt N S) :=
  l.foldlM (fun st z => st.write z.2.2.1.1 z.2.2.1.2.1 (bmId i z.2.1 z.2.2.2)) st

theorem groups_fold {sp sp' : DdSpec N S} (hm : NoMerge sp') {threads i : Nat} (thr : Nat → Nat)
    {tab : Nat → Nat → Nat → List (SNode N S)} :
    ∀ (xs : List Nat) (a a' : P1 N S), xs.Nodup →
    (∀ e ∈ a.uniq, ∀ x ∈ xs, ∀ p ∈ bmGroup threads tab x i, sp'.eqv i e.2 p.2.2 = false) →
    (∀ x ∈ xs, ∀ q ∈ bmGroup threads tab x i, ∀ p ∈ bmGroup threads tab x i,
      sp.eqv i q.2.2 p.2.2 = sp'.eqv i q.2.2 p.2.2) →
    (∀ x ∈ xs, ∀ x' ∈ xs, x ≠ x' → ∀ q ∈ bmGroup threads tab x i, ∀ p ∈ bmGroup threads tab x' i,
      sp'.eqv i q.2.2 p.2.2 = false) →
    (xs.flatMap fun x => bmGroup threads tab x i).foldlM (phase1Step sp' i) a = some a' →
    ∃ cs, xs.mapM (bmCodes (bmCode0 sp i) threads i tab) = some cs ∧ a'.m = a.m + bmTotal cs ∧
      a'.done = a.done ++ (bmFlat thr (bmBases a.m cs)).map (fun z => toDone i z.2.1 z.2.2) ∧
      wrFlat i a.st (bmFlat thr (bmBases a.m cs)) = some a'.st ∧
      (bmFlat thr (bmBases a.m cs)).filterMap (fun z => if 0 < z.2.2.2 then some (z.2.1 + z.2.2.2.toNat - 1) else none) =
        List.range' a.m (bmTotal cs) ∧
      (bmFlat thr (bmBases a.m cs)).map (fun z => z.2.2.1) = xs.flatMap (fun x => bmGroup threads tab x i) ∧
      (∀ z ∈ bmFlat thr (bmBases a.m cs), ∃ x, z.1 = thr x) := by
  intro xs
  induction xs with
  | nil =>
    intro a a' _ _ _ _ hs
    cases hs
    exact ⟨[], rfl, rfl, by simp [bmBases, bmFlat], rfl, rfl, rfl, fun z hz => by cases hz⟩
  | cons x xs ih =>
    intro a a' hnd hold heq hsep hs
    rw [List.flatMap_cons, List.foldlM_append] at hs
    obtain ⟨a1, h1, h2⟩ := Option.bind_eq_some_iff.1 hs
    have g0 : GRel i a.m a.done a.uniq a.st [] ⟨0, [], []⟩ a :=
      ⟨rfl, by simp, by simp, by simp, rfl, rfl, rfl, by simp⟩
    obtain ⟨c, hc, g⟩ := grel_fold (sp := sp) hm _ [] _ a a1 g0 (fun e he => hold e he x (by simp))
      (fun q hq p hp => heq x (by simp) q (by simpa using hq) p hp) h1
    rw [List.nil_append] at g
    have hxs := List.nodup_cons.1 hnd
    have h2' := ih a1 a' hxs.2 (by
        intro e he x' hx' p hp
        rw [g.uniq] at he
        rcases List.mem_append.1 he with he | he
        · obtain ⟨e', he', rfl⟩ := List.mem_map.1 he
          obtain ⟨q, hq, e2⟩ := g.mem e' he'
          dsimp only
          rw [← e2]
          exact hsep x (by simp) x' (by simp [hx']) (fun e => hxs.1 (by rw [e]; exact hx')) q hq p hp
        · exact hold e he x' (by simp [hx']) p hp)
      (fun x' hx' => heq x' (by simp [hx']))
      (fun x1 h1 x2 h2 => hsep x1 (by simp [h1]) x2 (by simp [h2])) h2
    obtain ⟨cs, k1, k2, k3, k4, k5, k6, k7⟩ := h2'
    rw [g.m] at k2 k3 k4 k5 k6 k7
    have eB : bmBases a.m ((x, c) :: cs) = (x, a.m, c) :: bmBases (a.m + c.j) cs := rfl
    have eF : bmFlat thr (bmBases a.m ((x, c) :: cs)) = c.done.map (fun e => (thr x, a.m, e)) ++
        bmFlat thr (bmBases (a.m + c.j) cs) := by
      rw [eB]; unfold bmFlat; rw [List.flatMap_cons]
    have eT : bmTotal ((x, c) :: cs) = c.j + bmTotal cs := by simp [bmTotal]
    refine ⟨(x, c) :: cs, ?_, ?_, ?_, ?_, ?_, ?_, ?_⟩
    · rw [List.mapM_cons]
      have e1 : bmCodes (bmCode0 sp i) threads i tab x = some (x, c) := by
        unfold bmCodes; rw [hc]; rfl
      rw [e1, k1]; rfl
    · rw [k2, eT]; omega
    · rw [k3, g.done, eF, List.map_append, List.map_map, List.append_assoc]; rfl
    · rw [eF]
      unfold wrFlat
      rw [List.foldlM_append, List.foldlM_map]
      show Option.bind (wrAll i a.m a.st c.done) _ = _
      rw [g.st]
      exact k4
    · rw [eF, eT, List.filterMap_append, k5, List.filterMap_map]
      have e1 : (c.done.filterMap ((fun z : Nat × Nat × (SNode N S × Int) => if 0 < z.2.2.2 then some (z.2.1 + z.2.2.2.toNat - 1) else none) ∘
          fun e => (thr x, a.m, e))) = (c.done.filterMap fun e => if 0 < e.2 then some e.2.toNat else none).map
            fun k => a.m + k - 1 := by
        rw [List.map_filterMap]
        congr 1
        funext e
        simp only [Function.comp_apply]
        split <;> rfl
      rw [e1, g.news, ← List.range'_append_1]
      congr 1
      refine List.ext_getElem (by simp) fun k h1 h2 => ?_
      simp
      omega
    · rw [eF, List.map_append, List.map_map, k6, List.flatMap_cons]
      congr 1
      exact g.its
    · intro z hz
      rw [eF] at hz
      rcases List.mem_append.1 hz with hz | hz
      · obtain ⟨e, _, rfl⟩ := List.mem_map.1 hz
        exact ⟨x, rfl⟩
      · exact k7 z hz

end TdZdd
