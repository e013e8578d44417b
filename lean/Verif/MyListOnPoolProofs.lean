import Verif.MyListOnPool
import Verif.MemoryPoolProofs3

/-! Proofs about `MyListOnPool`. -/

namespace TdZdd

/-- the link `q` leads to the elements `es` -/
def LinkRep (val : Nat → Nat → Option Nat) : Nat → List Nat → Prop
  | q, [] => q = 0
  | q, h :: hs => q = h + 1 ∧ ∃ q', val h 0 = some q' ∧ LinkRep val q' hs

theorem LinkRep.congr {v v' : Nat → Nat → Option Nat} : ∀ {es : List Nat} {q : Nat}, LinkRep v q es → (∀ h ∈ es, v' h 0 = v h 0) → LinkRep v' q es
  | [], _, h, _ => h
  | e :: es, q, ⟨h1, q', h2, h3⟩, h => ⟨h1, q', by rw [h e (List.mem_cons_self ..)]; exact h2, h3.congr fun x hx => h x (List.mem_cons_of_mem _ hx)⟩

theorem LinkRep.zero {v : Nat → Nat → Option Nat} {es : List Nat} {q : Nat} (h : LinkRep v q es) : q = 0 ↔ es = [] := by
  cases es with
  | nil => exact ⟨fun _ => rfl, fun _ => h⟩
  | cons e es => exact ⟨fun e0 => by have := h.1; omega, fun e0 => by cases e0⟩

/-- the lists on pools with separate arrays stand for the stacks -/
structure PoInv (st : PoSt PsSt) (t : SpSt) : Prop where
  pool : st.pools.pool = t.ps.pool
  size : st.pools.size = t.ps.size.map fun n => 8 * workCells n
  num : st.num = t.ps.size.length
  val : ∀ h j w, t.ps.val h j = some w → st.pools.val h (j + 1) = some w
  live : ∀ x P h, t.ps.pool x = some P → h ∈ P.live → h < t.ps.size.length
  dead : ∀ x, t.list x = none → st.list x = none
  alive : ∀ x es, t.list x = some es → ∃ l, st.list x = some l ∧ l.size = es.length ∧ LinkRep st.pools.val l.front es ∧ ∀ h ∈ es, h < t.ps.size.length

theorem PoInv.put {st : PoSt PsSt} {t : SpSt} (k : PoInv st t) (x : Nat) (o : Option PoL) (O : Option (List Nat)) (hn : O = none → o = none)
    (hs : ∀ es, O = some es → ∃ l, o = some l ∧ l.size = es.length ∧ LinkRep st.pools.val l.front es ∧ ∀ h ∈ es, h < t.ps.size.length) :
    PoInv { st with list := upd st.list x o } { t with list := upd t.list x O } := by
  refine ⟨k.pool, k.size, k.num, k.val, k.live, fun y hy => ?_, fun y es hy => ?_⟩
  · dsimp only at hy ⊢
    by_cases e : y = x
    · subst e
      rw [upd_same] at hy ⊢
      exact hn hy
    · rw [upd_ne _ _ e] at hy ⊢
      exact k.dead y hy
  · dsimp only at hy ⊢
    by_cases e : y = x
    · subst e
      rw [upd_same] at hy ⊢
      exact hs es hy
    · rw [upd_ne _ _ e] at hy ⊢
      exact k.alive y es hy

theorem PoInv.putNil {st : PoSt PsSt} {t : SpSt} (k : PoInv st t) (x : Nat) :
    PoInv { st with list := upd st.list x (some PoL.init) } { t with list := upd t.list x (some []) } :=
  k.put x _ _ (fun e => by cases e) (fun es e => by cases e; exact ⟨_, rfl, rfl, rfl, fun _ h => by cases h⟩)

theorem PsSt.has_iff {ps : PsSt} {p h : Nat} : ps.has p h = true ↔ ∃ P, ps.pool p = some P ∧ h ∈ P.live := by
  unfold PsSt.has
  cases ps.pool p with
  | none => simp
  | some P => simp

/-- reading a link -/
theorem poNext_spec {st : PoSt PsSt} {t : SpSt} (k : PoInv st t) {p h q : Nat} (hh : t.ps.has p h = true) (hq : st.pools.val h 0 = some q) :
    poNext psStep st.pools p (h + 1) = some (st.pools, q) := by
  obtain ⟨P, h1, h2⟩ := PsSt.has_iff.1 hh
  have hl := k.live p P h h1 h2
  unfold poNext poLoad
  rw [if_neg (by omega)]
  dsimp only [psStep]
  rw [k.pool, h1, Option.bind_some, k.size, List.getElem?_map, Nat.add_sub_cancel, List.getElem?_eq_getElem hl]
  dsimp only [Option.map_some, Option.bind_some]
  rw [if_pos ⟨h2, by unfold workCells; omega⟩, hq]
  rfl

theorem poIter_spec {st : PoSt PsSt} {t : SpSt} (k : PoInv st t) {p : Nat} : ∀ {es : List Nat} {q : Nat}, LinkRep st.pools.val q es → es.all (t.ps.has p) = true →
    poIter psStep es.length st.pools p q = some (st.pools, es)
  | [], q, h, _ => by
    unfold poIter
    rw [if_pos (show q = 0 from h)]
  | e :: es, q, ⟨h1, q', h2, h3⟩, ha => by
    rw [List.all_cons, Bool.and_eq_true] at ha
    unfold poIter
    rw [if_neg (by omega)]
    dsimp only [List.length_cons]
    rw [h1, poNext_spec k ha.1 h2, Option.bind_some]
    dsimp only
    rw [poIter_spec k h3 ha.2]
    rfl

/-- operations on pools other than allocation, reading and writing change only the pools, and do not add allocations -/
theorem psStep_pool {ps ps' : PsSt} {op : PlOp} {r : PlRes} (h1 : ∀ x n, op ≠ .alloc x n) (h2 : ∀ x h i w, op ≠ .store x h i w) (h3 : ∀ x h i, op ≠ .load x h i)
    (h : psStep ps op = some (ps', r)) :
    (∀ s : PsSt, s.pool = ps.pool → psStep s op = some ({ s with pool := ps'.pool }, r)) ∧ ps'.size = ps.size ∧ ps'.val = ps.val ∧
      ∀ n, (∀ x P h, ps.pool x = some P → h ∈ P.live → h < n) → ∀ x P h, ps'.pool x = some P → h ∈ P.live → h < n := by
  have one : ∀ (f : Nat → Option PsPool) (x : Nat) (o : Option PsPool) (n : Nat), (∀ x P h, f x = some P → h ∈ P.live → h < n) →
      (∀ P h, o = some P → h ∈ P.live → h < n) → ∀ y P h, upd f x o y = some P → h ∈ P.live → h < n := by
    intro f x o n hf ho y P h hy hh
    by_cases e : y = x
    · rw [e, upd_same] at hy
      exact ho P h hy hh
    · rw [upd_ne _ _ e] at hy
      exact hf y P h hy hh
  cases op with
  | alloc x n => exact absurd rfl (h1 x n)
  | store x hd i w => exact absurd rfl (h2 x hd i w)
  | load x hd i => exact absurd rfl (h3 x hd i)
  | new x =>
    dsimp only [psStep] at h ⊢
    cases hx : ps.pool x with
    | some P => rw [hx] at h; cases h
    | none =>
      rw [hx, if_neg (by simp)] at h
      cases h
      refine ⟨fun s hs => by rw [hs, hx]; rfl, rfl, rfl, fun n hn => one _ _ _ _ hn fun P h e hh => ?_⟩
      cases e
      cases hh
  | copy x y =>
    dsimp only [psStep] at h ⊢
    cases hy : ps.pool y with
    | none => rw [hy] at h; cases h
    | some P =>
      cases hx : ps.pool x with
      | some P => rw [hx, hy] at h; cases h
      | none =>
        rw [hx, hy, Option.bind_some, if_neg (by simp)] at h
        cases h
        refine ⟨fun s hs => by rw [hs, hx, hy]; rfl, rfl, rfl, fun n hn => one _ _ _ _ hn fun P h e hh => ?_⟩
        cases e
        cases hh
  | move x y =>
    dsimp only [psStep] at h ⊢
    cases hy : ps.pool y with
    | none => rw [hy] at h; cases h
    | some P =>
      cases hx : ps.pool x with
      | some P => rw [hx, hy] at h; cases h
      | none =>
        rw [hx, hy, Option.bind_some, if_neg (by simp)] at h
        cases h
        refine ⟨fun s hs => by rw [hs, hx, hy]; rfl, rfl, rfl, fun n hn => one _ _ _ _ (one _ _ _ _ hn fun P h e hh => by cases e) fun P' h e hh => ?_⟩
        cases e
        exact hn y P h hy hh
  | destroy x =>
    dsimp only [psStep] at h ⊢
    cases hx : ps.pool x with
    | none => rw [hx] at h; cases h
    | some P =>
      rw [hx] at h
      cases h
      exact ⟨fun s hs => by rw [hs, hx]; rfl, rfl, rfl, fun n hn => one _ _ _ _ hn fun P h e hh => by cases e⟩
  | clear x =>
    dsimp only [psStep] at h ⊢
    cases hx : ps.pool x with
    | none => rw [hx] at h; cases h
    | some P =>
      rw [hx] at h
      cases h
      exact ⟨fun s hs => by rw [hs, hx]; rfl, rfl, rfl, fun n hn => one _ _ _ _ hn fun P h e hh => by cases e; cases hh⟩
  | reuse x =>
    dsimp only [psStep] at h ⊢
    cases hx : ps.pool x with
    | none => rw [hx] at h; cases h
    | some P =>
      rw [hx, Option.bind_some] at h
      by_cases hl : P.large
      · rw [if_pos hl] at h; cases h
      · rw [if_neg hl] at h
        cases h
        exact ⟨fun s hs => by rw [hs, hx, Option.bind_some, if_neg hl], rfl, rfl, fun n hn => one _ _ _ _ hn fun P h e hh => by cases e; cases hh⟩
  | splice x y =>
    dsimp only [psStep] at h ⊢
    cases hx : ps.pool x with
    | none => rw [hx] at h; cases h
    | some P =>
      cases hy : ps.pool y with
      | none => rw [hx, hy] at h; cases h
      | some O =>
        rw [hx, hy, Option.bind_some, Option.bind_some] at h
        by_cases e : x = y
        · rw [if_pos e] at h; cases h
        · rw [if_neg e] at h
          cases h
          refine ⟨fun s hs => by rw [hs, hx, hy, Option.bind_some, Option.bind_some, if_neg e], rfl, rfl,
            fun n hn => one _ _ _ _ (one _ _ _ _ hn fun P' h e hh => ?_) fun P h e hh => by cases e; cases hh⟩
          cases e
          rcases List.mem_append.1 hh with hh | hh
          · exact hn y O h hy hh
          · exact hn x P h hx hh
  | isEmpty x =>
    dsimp only [psStep] at h ⊢
    cases hx : ps.pool x with
    | none => rw [hx] at h; cases h
    | some P =>
      rw [hx] at h
      cases h
      exact ⟨fun s hs => by rw [hs, hx]; cases s; cases hs; rfl, rfl, rfl, fun n hn => hn⟩

theorem poStep_spec {st : PoSt PsSt} {t : SpSt} (k : PoInv st t) {op : PoOp} {t' : SpSt} {r : LRes Nat} (h : spStep t op = some (t', r)) :
    ∃ st', poStep psStep st op = some (st', r) ∧ PoInv st' t' := by
  have pools : ∀ pop : PlOp, (∀ x n, pop ≠ .alloc x n) → (∀ x h i w, pop ≠ .store x h i w) → (∀ x h i, pop ≠ .load x h i) →
      ((psStep t.ps pop).map fun r => (({ t with ps := r.1 } : SpSt), r.2.toL)) = some (t', r) → ∃ st', poStep psStep st (.pool pop) = some (st', r) ∧ PoInv st' t' := by
    intro pop h1 h2 h3 h
    cases e : psStep t.ps pop with
    | none => rw [e] at h; cases h
    | some q =>
      obtain ⟨ps', r'⟩ := q
      rw [e] at h
      cases h
      obtain ⟨g1, g2, g3, g4⟩ := psStep_pool h1 h2 h3 e
      refine ⟨{ st with pools := { st.pools with pool := ps'.pool } }, ?_, rfl, ?_, ?_, ?_, ?_, k.dead, ?_⟩
      · dsimp only [poStep]
        rw [g1 _ k.pool]
        rfl
      · dsimp only; rw [g2]; exact k.size
      · dsimp only; rw [g2]; exact k.num
      · dsimp only; rw [g3]; exact k.val
      · dsimp only; rw [g2]; exact g4 _ k.live
      · dsimp only; rw [g2]; exact k.alive
  cases op with
  | pool pop =>
    cases pop with
    | alloc x n => cases h
    | store x hd i w => cases h
    | load x hd i => cases h
    | new x => exact pools _ (fun _ _ => by simp) (fun _ _ _ _ => by simp) (fun _ _ _ => by simp) h
    | copy x y => exact pools _ (fun _ _ => by simp) (fun _ _ _ _ => by simp) (fun _ _ _ => by simp) h
    | move x y => exact pools _ (fun _ _ => by simp) (fun _ _ _ _ => by simp) (fun _ _ _ => by simp) h
    | destroy x => exact pools _ (fun _ _ => by simp) (fun _ _ _ _ => by simp) (fun _ _ _ => by simp) h
    | clear x => exact pools _ (fun _ _ => by simp) (fun _ _ _ _ => by simp) (fun _ _ _ => by simp) h
    | reuse x => exact pools _ (fun _ _ => by simp) (fun _ _ _ _ => by simp) (fun _ _ _ => by simp) h
    | splice x y => exact pools _ (fun _ _ => by simp) (fun _ _ _ _ => by simp) (fun _ _ _ => by simp) h
    | isEmpty x => exact pools _ (fun _ _ => by simp) (fun _ _ _ _ => by simp) (fun _ _ _ => by simp) h
  | new x =>
    dsimp only [spStep] at h
    dsimp only [poStep]
    cases hx : t.list x with
    | some es => rw [hx] at h; cases h
    | none =>
      rw [hx] at h
      obtain ⟨rfl, rfl⟩ : _ ∧ _ := by simpa using h
      rw [k.dead x hx]
      exact ⟨_, rfl, k.putNil x⟩
  | copy x y =>
    dsimp only [spStep] at h
    dsimp only [poStep]
    cases hy : t.list y with
    | none => rw [hy] at h; cases h
    | some fs =>
      obtain ⟨o, o1, o2, o3, o4⟩ := k.alive y fs hy
      rw [hy, Option.bind_some] at h
      rw [o1, Option.bind_some]
      cases hx : t.list x with
      | some es => rw [hx] at h; cases h
      | none =>
        rw [hx, if_neg (by simp)] at h
        rw [k.dead x hx, if_neg (by simp)]
        by_cases hf : fs = []
        · rw [if_neg (by simpa using hf)] at h
          cases h
          rw [if_neg (by simpa using o3.zero.2 hf)]
          exact ⟨_, rfl, k.putNil x⟩
        · rw [if_pos hf] at h
          cases h
          rw [if_pos fun e => hf (o3.zero.1 e)]
          exact ⟨_, rfl, k⟩
  | assign x y =>
    dsimp only [spStep] at h
    dsimp only [poStep]
    cases hy : t.list y with
    | none => rw [hy] at h; cases h
    | some fs =>
      obtain ⟨o, o1, o2, o3, o4⟩ := k.alive y fs hy
      rw [hy, Option.bind_some] at h
      rw [o1, Option.bind_some]
      cases hx : t.list x with
      | none => rw [hx] at h; cases h
      | some es =>
        obtain ⟨l, l1, _⟩ := k.alive x es hx
        rw [hx, Option.bind_some] at h
        rw [l1, Option.bind_some]
        by_cases hf : fs = []
        · rw [if_neg (by simpa using hf)] at h
          cases h
          rw [if_neg (by simpa using o3.zero.2 hf)]
          exact ⟨_, rfl, k.putNil x⟩
        · rw [if_pos hf] at h
          cases h
          rw [if_pos fun e => hf (o3.zero.1 e)]
          exact ⟨_, rfl, k⟩
  | destroy x =>
    dsimp only [spStep] at h
    dsimp only [poStep]
    cases hx : t.list x with
    | none => rw [hx] at h; cases h
    | some es =>
      obtain ⟨l, l1, _⟩ := k.alive x es hx
      rw [hx] at h
      cases h
      rw [l1]
      exact ⟨_, rfl, k.put x none none (fun _ => rfl) fun _ e => by cases e⟩
  | clear x =>
    dsimp only [spStep] at h
    dsimp only [poStep]
    cases hx : t.list x with
    | none => rw [hx] at h; cases h
    | some es =>
      obtain ⟨l, l1, _⟩ := k.alive x es hx
      rw [hx] at h
      cases h
      rw [l1]
      exact ⟨_, rfl, k.putNil x⟩
  | alloc x p n =>
    dsimp only [spStep] at h
    dsimp only [poStep]
    cases hx : t.list x with
    | none => rw [hx] at h; cases h
    | some es =>
      obtain ⟨l, l1, l2, l3, l4⟩ := k.alive x es hx
      rw [hx, Option.bind_some] at h
      cases hp : t.ps.pool p with
      | none => rw [hp] at h; cases h
      | some P =>
        rw [hp, Option.bind_some] at h
        by_cases hc : n + 15 < 2 ^ 64
        · rw [if_pos hc] at h
          cases h
          have hlen : st.pools.size.length = t.ps.size.length := by rw [k.size, List.length_map]
          have hlarge : decide (40000 < 8 * workCells n) = decide (39992 < n) := by
            rw [decide_eq_decide]
            unfold workCells
            omega
          have hwc : 0 < 8 * workCells n ∧ 8 * workCells n ≤ 2 ^ 64 - 8 := by unfold workCells; omega
          have hsz : ((t.ps.size ++ [n]).map fun n => 8 * workCells n) = st.pools.size ++ [8 * workCells n] := by rw [List.map_append, k.size]; rfl
          have e1 : psStep st.pools (.alloc p (8 * workCells n)) =
              some ({ st.pools with pool := upd t.ps.pool p (some ⟨st.num :: P.live, true, P.large || decide (39992 < n)⟩), size := st.pools.size ++ [8 * workCells n] }, .unit) := by
            dsimp only [psStep]
            rw [k.pool, hp, Option.bind_some, if_pos hwc, hlarge, hlen, k.num]
          have hg : (st.pools.size ++ [8 * workCells n])[st.num]? = some (8 * workCells n) := by
            rw [k.num, ← hlen]; simp
          rw [l1, Option.bind_some, e1, Option.bind_some]
          dsimp only [psStep]
          rw [upd_same, Option.bind_some, hg, Option.bind_some, if_pos ⟨by simp, by omega⟩]
          refine ⟨_, by rw [Option.map_some, k.num], rfl, hsz.symm, by simp, fun h j w hw => ?_, fun y Q h hy hh => ?_, fun y hy => ?_, fun y fs hy => ?_⟩
          · dsimp only at hw ⊢
            have hv := k.val h j w hw
            by_cases e : h = t.ps.size.length
            · subst e
              rw [upd_same, upd_ne _ _ (by omega)]
              exact hv
            · rw [upd_ne _ _ e]
              exact hv
          · dsimp only at hy ⊢
            rw [List.length_append]
            by_cases e : y = p
            · rw [e, upd_same] at hy
              cases hy
              rcases List.mem_cons.1 hh with rfl | hh
              · simp
              · have := k.live p P h hp hh; omega
            · rw [upd_ne _ _ e] at hy
              have := k.live y Q h hy hh; omega
          · dsimp only at hy ⊢
            by_cases e : y = x
            · rw [e, upd_same] at hy; cases hy
            · rw [upd_ne _ _ e] at hy ⊢
              exact k.dead y hy
          · have keep : ∀ {q es}, LinkRep st.pools.val q es → (∀ h ∈ es, h < t.ps.size.length) →
                LinkRep (upd st.pools.val t.ps.size.length (upd (st.pools.val t.ps.size.length) 0 (some l.front))) q es := by
              intro q es h1 h2
              refine h1.congr fun h hh => ?_
              have := h2 h hh
              rw [upd_ne _ _ (by omega)]
            dsimp only at hy ⊢
            by_cases e : y = x
            · rw [e, upd_same] at hy ⊢
              cases hy
              refine ⟨_, rfl, by simp [l2], ⟨rfl, l.front, by rw [upd_same, upd_same], keep l3 l4⟩, fun h hh => ?_⟩
              rw [List.length_append]
              rcases List.mem_cons.1 hh with rfl | hh
              · simp
              · have := l4 h hh; omega
            · rw [upd_ne _ _ e] at hy ⊢
              obtain ⟨l', g1, g2, g3, g4⟩ := k.alive y fs hy
              exact ⟨l', g1, g2, keep g3 g4, fun h hh => by rw [List.length_append]; have := g4 h hh; omega⟩
        · rw [if_neg hc] at h; cases h
  | pop x p =>
    dsimp only [spStep] at h
    dsimp only [poStep]
    cases hx : t.list x with
    | none => rw [hx] at h; cases h
    | some es =>
      obtain ⟨l, l1, l2, l3, l4⟩ := k.alive x es hx
      rw [hx, Option.bind_some] at h
      cases es with
      | nil => cases h
      | cons e es =>
        dsimp only at h
        by_cases hc : t.ps.has p e = true
        · rw [if_pos hc] at h
          cases h
          obtain ⟨g1, q, g2, g3⟩ := l3
          rw [l1, Option.bind_some, g1, poNext_spec k hc g2]
          exact ⟨_, rfl, k.put x _ _ (fun e => by cases e) fun es' e' => by
            cases e'
            exact ⟨_, rfl, by simp [l2], g3, fun h hh => l4 h (List.mem_cons_of_mem _ hh)⟩⟩
        · rw [if_neg hc] at h; cases h
  | front x =>
    dsimp only [spStep] at h
    dsimp only [poStep]
    cases hx : t.list x with
    | none => rw [hx] at h; cases h
    | some es =>
      obtain ⟨l, l1, l2, l3, l4⟩ := k.alive x es hx
      rw [hx, Option.bind_some] at h
      cases es with
      | nil => cases h
      | cons e es =>
        cases h
        rw [l1, Option.bind_some, l3.1, if_neg (by omega)]
        exact ⟨_, rfl, k⟩
  | elems x p =>
    dsimp only [spStep] at h
    dsimp only [poStep]
    cases hx : t.list x with
    | none => rw [hx] at h; cases h
    | some es =>
      obtain ⟨l, l1, l2, l3, l4⟩ := k.alive x es hx
      rw [hx, Option.bind_some] at h
      by_cases hc : es.all (t.ps.has p) = true
      · rw [if_pos hc] at h
        cases h
        rw [l1, Option.bind_some, l2, poIter_spec k l3 hc]
        exact ⟨_, rfl, k⟩
      · rw [if_neg hc] at h; cases h
  | size x =>
    dsimp only [spStep] at h
    dsimp only [poStep]
    cases hx : t.list x with
    | none => rw [hx] at h; cases h
    | some es =>
      obtain ⟨l, l1, l2, l3, l4⟩ := k.alive x es hx
      rw [hx] at h
      cases h
      rw [l1, Option.map_some, l2]
      exact ⟨_, rfl, k⟩
  | isEmpty x =>
    dsimp only [spStep] at h
    dsimp only [poStep]
    cases hx : t.list x with
    | none => rw [hx] at h; cases h
    | some es =>
      obtain ⟨l, l1, l2, l3, l4⟩ := k.alive x es hx
      rw [hx] at h
      cases h
      rw [l1, Option.map_some, show decide (l.front = 0) = es.isEmpty by rw [Bool.eq_iff_iff]; simp [l3.zero]]
      exact ⟨_, rfl, k⟩
  | store x p hd j w =>
    dsimp only [spStep] at h
    dsimp only [poStep]
    cases hx : t.list x with
    | none => rw [hx] at h; cases h
    | some es =>
      rw [hx, Option.bind_some] at h
      by_cases hm : hd ∈ es
      · rw [if_pos hm] at h
        dsimp only [psStep] at h ⊢
        cases hp : t.ps.pool p with
        | none => rw [hp] at h; cases h
        | some P =>
          rw [hp, Option.bind_some] at h
          rw [k.pool, hp, Option.bind_some]
          cases hs : t.ps.size[hd]? with
          | none => rw [hs] at h; cases h
          | some n =>
            rw [hs, Option.bind_some] at h
            rw [k.size, List.getElem?_map, hs, Option.map_some, Option.bind_some]
            by_cases hc : hd ∈ P.live ∧ 8 * j < n
            · rw [if_pos hc] at h
              cases h
              rw [if_pos ⟨hc.1, by unfold workCells; omega⟩]
              have hw0 : ∀ h, upd st.pools.val hd (upd (st.pools.val hd) (j + 1) (some w)) h 0 = st.pools.val h 0 := by
                intro h
                by_cases e : h = hd
                · rw [e, upd_same, upd_ne _ _ (by omega)]
                · rw [upd_ne _ _ e]
              refine ⟨_, rfl, rfl, rfl, k.num, fun h i w' hw => ?_, k.live, k.dead, fun y fs hy => ?_⟩
              · dsimp only at hw ⊢
                by_cases e : h = hd
                · subst e
                  rw [upd_same] at hw ⊢
                  by_cases e2 : i = j
                  · subst e2
                    rw [upd_same] at hw ⊢
                    exact hw
                  · rw [upd_ne _ _ e2] at hw
                    rw [upd_ne _ _ (by omega)]
                    exact k.val h i w' hw
                · rw [upd_ne _ _ e] at hw ⊢
                  exact k.val h i w' hw
              · obtain ⟨l', g1, g2, g3, g4⟩ := k.alive y fs hy
                exact ⟨l', g1, g2, g3.congr fun h _ => hw0 h, g4⟩
            · rw [if_neg hc] at h; cases h
      · rw [if_neg hm] at h; cases h
  | load x p hd j =>
    dsimp only [spStep] at h
    dsimp only [poStep]
    cases hx : t.list x with
    | none => rw [hx] at h; cases h
    | some es =>
      rw [hx, Option.bind_some] at h
      by_cases hm : hd ∈ es
      · rw [if_pos hm] at h
        unfold poLoad
        dsimp only [psStep] at h ⊢
        cases hp : t.ps.pool p with
        | none => rw [hp] at h; cases h
        | some P =>
          rw [hp, Option.bind_some] at h
          rw [k.pool, hp, Option.bind_some]
          cases hs : t.ps.size[hd]? with
          | none => rw [hs] at h; cases h
          | some n =>
            rw [hs, Option.bind_some] at h
            rw [k.size, List.getElem?_map, hs, Option.map_some, Option.bind_some]
            by_cases hc : hd ∈ P.live ∧ 8 * j < n
            · rw [if_pos hc] at h
              rw [if_pos ⟨hc.1, by unfold workCells; omega⟩]
              cases hv : t.ps.val hd j with
              | none => rw [hv] at h; cases h
              | some w =>
                rw [hv] at h
                cases h
                rw [k.val hd j w hv]
                exact ⟨_, rfl, k⟩
            · rw [if_neg hc] at h; cases h
      · rw [if_neg hm] at h; cases h

theorem poRun_spec : ∀ (ops : List PoOp) {st : PoSt PsSt} {t : SpSt}, PoInv st t → ∀ {t' : SpSt} {rs : List (LRes Nat)}, spRun t ops = some (t', rs) →
    ∃ st', poRun psStep st ops = some (st', rs) ∧ PoInv st' t'
  | [], st, t, k, t', rs, h => by
    cases h
    exact ⟨st, rfl, k⟩
  | op :: ops, st, t, k, t', rs, h => by
    unfold spRun at h
    cases h1 : spStep t op with
    | none => rw [h1] at h; cases h
    | some q =>
      rw [h1, Option.bind_some] at h
      cases h2 : spRun q.1 ops with
      | none => rw [h2] at h; cases h
      | some q2 =>
        rw [h2] at h
        cases h
        obtain ⟨st1, e1, k1⟩ := poStep_spec k (r := q.2) h1
        obtain ⟨st2, e2, k2⟩ := poRun_spec ops k1 h2
        refine ⟨st2, ?_, k2⟩
        unfold poRun
        rw [e1, Option.bind_some, e2]
        rfl

theorem poInv_empty : PoInv (PoSt.empty PsSt.empty) SpSt.empty :=
  ⟨rfl, rfl, rfl, fun _ _ _ h => (by cases h), fun _ _ _ h => (by cases h), fun _ _ => rfl, fun _ _ h => (by cases h)⟩

/-! ## Change of the pools -/

section
variable {σ τ : Type} {f : σ → PlOp → Option (σ × PlRes)} {g : τ → PlOp → Option (τ × PlRes)} {R : σ → τ → Prop}

/-- `g` does what `f` does -/
def PoFollows (f : σ → PlOp → Option (σ × PlRes)) (g : τ → PlOp → Option (τ × PlRes)) (R : σ → τ → Prop) : Prop :=
  ∀ s t op s' r, R s t → f s op = some (s', r) → ∃ t', g t op = some (t', r) ∧ R s' t'

theorem PoFollows.load (hf : PoFollows f g R) {s : σ} {t : τ} {p h j : Nat} {s' : σ} {w : Nat} (hr : R s t) (h1 : poLoad f s p h j = some (s', w)) :
    ∃ t', poLoad g t p h j = some (t', w) ∧ R s' t' := by
  unfold poLoad at h1 ⊢
  cases e : f s (.load p h j) with
  | none => rw [e] at h1; cases h1
  | some q =>
    obtain ⟨s1, r⟩ := q
    rw [e] at h1
    obtain ⟨t1, e1, hr1⟩ := hf _ _ _ _ _ hr e
    rw [e1]
    cases r with
    | unit => cases h1
    | bool b => cases h1
    | word v =>
      cases h1
      exact ⟨t1, rfl, hr1⟩

theorem PoFollows.next (hf : PoFollows f g R) {s : σ} {t : τ} {p q : Nat} {s' : σ} {w : Nat} (hr : R s t) (h1 : poNext f s p q = some (s', w)) :
    ∃ t', poNext g t p q = some (t', w) ∧ R s' t' := by
  unfold poNext at h1 ⊢
  by_cases e : q = 0
  · rw [if_pos e] at h1; cases h1
  · rw [if_neg e] at h1 ⊢
    exact hf.load hr h1

theorem PoFollows.iter (hf : PoFollows f g R) : ∀ (k : Nat) {s : σ} {t : τ} {p q : Nat} {s' : σ} {l : List Nat}, R s t → poIter f k s p q = some (s', l) →
    ∃ t', poIter g k t p q = some (t', l) ∧ R s' t' := by
  intro k
  induction k with
  | zero =>
    intro s t p q s' l hr h1
    unfold poIter at h1 ⊢
    by_cases e : q = 0
    · rw [if_pos e] at h1 ⊢
      cases h1
      exact ⟨t, rfl, hr⟩
    · rw [if_neg e] at h1; cases h1
  | succ k ih =>
    intro s t p q s' l hr h1
    unfold poIter at h1 ⊢
    by_cases e : q = 0
    · rw [if_pos e] at h1 ⊢
      cases h1
      exact ⟨t, rfl, hr⟩
    · rw [if_neg e] at h1 ⊢
      dsimp only at h1 ⊢
      cases e1 : poNext f s p q with
      | none => rw [e1] at h1; cases h1
      | some u =>
        rw [e1, Option.bind_some] at h1
        obtain ⟨t1, g1, hr1⟩ := hf.next hr e1
        cases e2 : poIter f k u.1 p u.2 with
        | none => rw [e2] at h1; cases h1
        | some v =>
          rw [e2] at h1
          cases h1
          obtain ⟨t2, g2, hr2⟩ := ih hr1 e2
          rw [g1, Option.bind_some, g2]
          exact ⟨t2, rfl, hr2⟩

/-- the lists are the same -/
def PoSt.Rel (R : σ → τ → Prop) (s : PoSt σ) (t : PoSt τ) : Prop := R s.pools t.pools ∧ s.list = t.list ∧ s.num = t.num

theorem PoFollows.step (hf : PoFollows f g R) {s : PoSt σ} {t : PoSt τ} {op : PoOp} {s' : PoSt σ} {r : LRes Nat} (hr : s.Rel R t) (h : poStep f s op = some (s', r)) :
    ∃ t', poStep g t op = some (t', r) ∧ s'.Rel R t' := by
  obtain ⟨s1, s2, s3⟩ := s
  obtain ⟨t1, t2, t3⟩ := t
  obtain ⟨h1, h2, h3⟩ := hr
  dsimp only at h1 h2 h3
  subst h2
  subst h3
  cases op with
  | pool op =>
    dsimp only [poStep] at h ⊢
    cases e : f s1 op with
    | none => rw [e] at h; cases h
    | some q =>
      rw [e] at h
      cases h
      obtain ⟨t', e', hr'⟩ := hf _ _ _ _ q.2 h1 e
      rw [e']
      exact ⟨_, rfl, hr', rfl, rfl⟩
  | new x =>
    dsimp only [poStep] at h ⊢
    split at h
    · cases h
    · rename_i hx
      cases h
      rw [if_neg hx]
      exact ⟨_, rfl, h1, rfl, rfl⟩
  | copy x y =>
    dsimp only [poStep] at h ⊢
    cases hy : s2 y with
    | none => rw [hy] at h; cases h
    | some o =>
      rw [hy, Option.bind_some] at h
      rw [Option.bind_some]
      split at h
      · cases h
      · rename_i hx
        rw [if_neg hx]
        split at h
        · rename_i hc
          cases h
          rw [if_pos hc]
          exact ⟨_, rfl, h1, rfl, rfl⟩
        · rename_i hc
          cases h
          rw [if_neg hc]
          exact ⟨_, rfl, h1, rfl, rfl⟩
  | assign x y =>
    dsimp only [poStep] at h ⊢
    cases hy : s2 y with
    | none => rw [hy] at h; cases h
    | some o =>
      cases hx : s2 x with
      | none => rw [hy, hx] at h; cases h
      | some l =>
        rw [hy, hx, Option.bind_some, Option.bind_some] at h
        rw [Option.bind_some, Option.bind_some]
        split at h
        · rename_i hc
          cases h
          rw [if_pos hc]
          exact ⟨_, rfl, h1, rfl, rfl⟩
        · rename_i hc
          cases h
          rw [if_neg hc]
          exact ⟨_, rfl, h1, rfl, rfl⟩
  | destroy x =>
    dsimp only [poStep] at h ⊢
    cases hx : s2 x with
    | none => rw [hx] at h; cases h
    | some l =>
      rw [hx] at h
      cases h
      exact ⟨_, rfl, h1, rfl, rfl⟩
  | clear x =>
    dsimp only [poStep] at h ⊢
    cases hx : s2 x with
    | none => rw [hx] at h; cases h
    | some l =>
      rw [hx] at h
      cases h
      exact ⟨_, rfl, h1, rfl, rfl⟩
  | alloc x p n =>
    dsimp only [poStep] at h ⊢
    cases hx : s2 x with
    | none => rw [hx] at h; cases h
    | some l =>
      rw [hx, Option.bind_some] at h
      rw [Option.bind_some]
      cases e1 : f s1 (.alloc p (8 * workCells n)) with
      | none => rw [e1] at h; cases h
      | some q =>
        rw [e1, Option.bind_some] at h
        obtain ⟨u, g1, r1⟩ := hf _ _ _ _ q.2 h1 e1
        cases e2 : f q.1 (.store p s3 0 l.front) with
        | none => rw [e2] at h; cases h
        | some v =>
          rw [e2] at h
          cases h
          obtain ⟨w, g2, r2⟩ := hf _ _ _ _ v.2 r1 e2
          rw [g1, Option.bind_some, g2]
          exact ⟨_, rfl, r2, rfl, rfl⟩
  | pop x p =>
    dsimp only [poStep] at h ⊢
    cases hx : s2 x with
    | none => rw [hx] at h; cases h
    | some l =>
      rw [hx, Option.bind_some] at h
      rw [Option.bind_some]
      cases e1 : poNext f s1 p l.front with
      | none => rw [e1] at h; cases h
      | some q =>
        rw [e1] at h
        cases h
        obtain ⟨u, g1, r1⟩ := hf.next h1 e1
        rw [g1]
        exact ⟨_, rfl, r1, rfl, rfl⟩
  | front x =>
    dsimp only [poStep] at h ⊢
    cases hx : s2 x with
    | none => rw [hx] at h; cases h
    | some l =>
      rw [hx, Option.bind_some] at h
      rw [Option.bind_some]
      split at h
      · cases h
      · rename_i hc
        cases h
        rw [if_neg hc]
        exact ⟨_, rfl, h1, rfl, rfl⟩
  | elems x p =>
    dsimp only [poStep] at h ⊢
    cases hx : s2 x with
    | none => rw [hx] at h; cases h
    | some l =>
      rw [hx, Option.bind_some] at h
      rw [Option.bind_some]
      cases e1 : poIter f l.size s1 p l.front with
      | none => rw [e1] at h; cases h
      | some q =>
        rw [e1] at h
        cases h
        obtain ⟨u, g1, r1⟩ := hf.iter _ h1 e1
        rw [g1]
        exact ⟨_, rfl, r1, rfl, rfl⟩
  | size x =>
    dsimp only [poStep] at h ⊢
    cases hx : s2 x with
    | none => rw [hx] at h; cases h
    | some l =>
      rw [hx] at h
      cases h
      exact ⟨_, rfl, h1, rfl, rfl⟩
  | isEmpty x =>
    dsimp only [poStep] at h ⊢
    cases hx : s2 x with
    | none => rw [hx] at h; cases h
    | some l =>
      rw [hx] at h
      cases h
      exact ⟨_, rfl, h1, rfl, rfl⟩
  | store x p hd j w =>
    dsimp only [poStep] at h ⊢
    cases e : f s1 (.store p hd (j + 1) w) with
    | none => rw [e] at h; cases h
    | some q =>
      rw [e] at h
      cases h
      obtain ⟨t', e', hr'⟩ := hf _ _ _ _ q.2 h1 e
      rw [e']
      exact ⟨_, rfl, hr', rfl, rfl⟩
  | load x p hd j =>
    dsimp only [poStep] at h ⊢
    cases e : poLoad f s1 p hd (j + 1) with
    | none => rw [e] at h; cases h
    | some q =>
      rw [e] at h
      cases h
      obtain ⟨t', e', hr'⟩ := hf.load h1 e
      rw [e']
      exact ⟨_, rfl, hr', rfl, rfl⟩

theorem PoFollows.run (hf : PoFollows f g R) : ∀ (ops : List PoOp) {s : PoSt σ} {t : PoSt τ} {s' : PoSt σ} {rs : List (LRes Nat)}, s.Rel R t →
    poRun f s ops = some (s', rs) → ∃ t', poRun g t ops = some (t', rs) ∧ s'.Rel R t'
  | [], s, t, s', rs, hr, h => by
    cases h
    exact ⟨t, rfl, hr⟩
  | op :: ops, s, t, s', rs, hr, h => by
    unfold poRun at h
    cases h1 : poStep f s op with
    | none => rw [h1] at h; cases h
    | some q =>
      rw [h1, Option.bind_some] at h
      cases h2 : poRun f q.1 ops with
      | none => rw [h2] at h; cases h
      | some q2 =>
        rw [h2] at h
        cases h
        obtain ⟨t1, e1, k1⟩ := hf.step hr (r := q.2) h1
        obtain ⟨t2, e2, k2⟩ := PoFollows.run hf ops k1 h2
        refine ⟨t2, ?_, k2⟩
        unfold poRun
        rw [e1, Option.bind_some, e2]
        rfl

end

theorem pools_follow : PoFollows psStep plStep fun ps st => ∃ C, PlInv st ps C := by
  intro ps st op ps' r hk h
  obtain ⟨C, k⟩ := hk
  obtain ⟨st', C', e, k'⟩ := plStep_spec k h
  exact ⟨st', e, C', k'⟩

end TdZdd
