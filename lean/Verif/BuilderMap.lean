import Verif.Builder

/-!
# The builder depends on the states only through the functions of the specification

If a map between the state types commutes with all functions of two specifications, then both give the same diagram.
The same holds for a relation between the states.
-/

namespace TdZdd

variable {N : Nat} {S T : Type}

/-- `f` commutes with the functions of the specifications. -/
structure SpecMap (A : DdSpec N S) (C : DdSpec N T) (f : S → T) : Prop where
  root : C.root = (A.root.1, f A.root.2)
  child : ∀ s n b, 0 < n → C.child (f s) n b = ((A.child s n b).1, f (A.child s n b).2)
  eqv : ∀ n s s', 0 < n → C.eqv n (f s) (f s') = A.eqv n s s'
  merge : ∀ s s', C.merge (f s) (f s') = A.merge s s'

/-- The builder with the states replaced by their images -/
def BSt.map (f : S → T) (st : BSt N S) : BSt N T :=
  { numRows := st.numRows, row := st.row, gen := st.gen, root := st.root, pend := fun j => (st.pend j).map fun x => (x.1, x.2.1, f x.2.2),
    one := st.one.map f, oneSrc := st.oneSrc, sw := st.sw }

def P1.map (f : S → T) (a : P1 N S) : P1 N T :=
  { st := a.st.map f, m := a.m, done := a.done.map fun x => (f x.1, x.2), uniq := a.uniq.map fun x => (x.1, f x.2) }

def P2.map (f : S → T) (a : P2 N S) : P2 N T := { st := a.st.map f, lowest := a.lowest, allZero := a.allZero }

def P3.map (f : S → T) (a : P3 N S) : P3 N T := { st := a.st.map f, jj := a.jj, lowest := a.lowest, deadCount := a.deadCount }

theorem foldlM_map' {α β α' β' : Type} {F : α → β → Option α} {F' : α' → β' → Option α'} (g : α → α') (h : β → β')
    (hF : ∀ a x, F' (g a) (h x) = (F a x).map g) : ∀ (l : List β) (a : α), (l.map h).foldlM F' (g a) = (l.foldlM F a).map g := by
  intro l
  induction l with
  | nil => intro a; rfl
  | cons x l ih =>
    intro a
    rw [List.map_cons, List.foldlM_cons, List.foldlM_cons, hF]
    cases hx : F a x with
    | none => rfl
    | some a' => exact ih a'

theorem foldlM_map_id {α β α' : Type} {F : α → β → Option α} {F' : α' → β → Option α'} (g : α → α')
    (hF : ∀ a x, F' (g a) x = (F a x).map g) (l : List β) (a : α) : l.foldlM F' (g a) = (l.foldlM F a).map g := by
  have := foldlM_map' g (fun x : β => x) hF l a
  rwa [List.map_id'] at this

theorem writeCell_map (f : S → T) (st : BSt N S) (r c : Nat) (b : Fin N) (v : NodeId) :
    (st.map f).writeCell r c b v = (st.writeCell r c b v).map (BSt.map f) := by
  unfold BSt.writeCell
  by_cases h : r < st.numRows
  · rw [if_pos h, if_pos (show r < (st.map f).numRows from h)]
    show (match (st.row r)[c]? with | none => none | some nd => _) = _
    cases (st.row r)[c]? with
    | none => rfl
    | some nd => rfl
  · rw [if_neg h, if_neg (show ¬ r < (st.map f).numRows from h)]; rfl

theorem write_map (f : S → T) (st : BSt N S) (l : Loc N) (g : Nat) (v : NodeId) : (st.map f).write l g v = (st.write l g v).map (BSt.map f) := by
  cases l with
  | root => rfl
  | cell r c b =>
    show (if st.gen r = g then (st.map f).writeCell r c b v else none) = Option.map _ (if st.gen r = g then st.writeCell r c b v else none)
    by_cases h : st.gen r = g
    · rw [if_pos h, if_pos h, writeCell_map]
    · rw [if_neg h, if_neg h]; rfl

variable {A : DdSpec N S} {C : DdSpec N T} {f : S → T}

theorem find_map (h : SpecMap A C f) {i : Nat} (hi : 0 < i) (s : S) : ∀ u : List (Nat × S),
    (u.map fun x => (x.1, f x.2)).find? (fun e => C.eqv i e.2 (f s)) = (u.find? fun e => A.eqv i e.2 s).map fun x => (x.1, f x.2)
  | [] => rfl
  | e :: u => by
    rw [List.map_cons, List.find?_cons, List.find?_cons, h.eqv i e.2 s hi, find_map h hi s u]
    cases A.eqv i e.2 s <;> rfl

theorem phase1Step_map (h : SpecMap A C f) {i : Nat} (hi : 0 < i) (a : P1 N S) (x : Loc N × Nat × S) :
    phase1Step C i (a.map f) (x.1, x.2.1, f x.2.2) = (phase1Step A i a x).map (P1.map f) := by
  unfold phase1Step
  dsimp only [P1.map]
  rw [find_map h hi]
  cases hu : a.uniq.find? fun e => A.eqv i e.2 x.2.2 with
  | none =>
    dsimp only [Option.map]
    rw [write_map]
    cases a.st.write x.1 x.2.1 ⟨i, a.m⟩ with
    | none => rfl
    | some st' => simp [P1.map]
  | some e =>
    dsimp only [Option.map]
    rw [h.merge]
    by_cases h1 : A.merge e.2 x.2.2 = 1
    · rw [if_pos h1, if_pos h1, write_map]
      cases a.st.write x.1 x.2.1 ⟨i, a.m⟩ with
      | none => rfl
      | some st' =>
        simp only [Option.map, P1.map, Option.some.injEq, P1.mk.injEq, true_and, List.map_append, List.map_set, List.map_cons, List.map_nil, List.map_map, List.length_map]
        refine List.map_congr_left fun y hy => ?_
        by_cases hq : y.1 = e.1
        · simp [hq]
        · simp [hq]
    · rw [if_neg h1, if_neg h1]
      by_cases h2 : A.merge e.2 x.2.2 = 2
      · rw [if_pos h2, if_pos h2, write_map]
        cases a.st.write x.1 x.2.1 .zero with
        | none => rfl
        | some st' => simp [P1.map]
      · rw [if_neg h2, if_neg h2, List.getElem?_map]
        cases a.done[e.1]? with
        | none => rfl
        | some q =>
          dsimp only [Option.map]
          rw [write_map]
          cases a.st.write x.1 x.2.1 q.2 with
          | none => rfl
          | some st' => simp [P1.map]

theorem clearOnes_map (i : Nat) (st : BSt N S) : clearOnes i (st.map f) = (clearOnes i st).map (BSt.map f) := by
  unfold clearOnes
  refine foldlM_map_id (BSt.map f) (fun st x => ?_) _ { st with oneSrc := [] }
  by_cases h : x.1 < i
  · rw [if_pos h, if_pos h]; rfl
  · rw [if_neg h, if_neg h, writeCell_map]

theorem writeOne_map (st : BSt N S) (i jj : Nat) (b : Fin N) : (st.map f).writeOne i jj b = (st.writeOne i jj b).map (BSt.map f) := by
  unfold BSt.writeOne
  rw [writeCell_map]
  cases st.writeCell i jj b .one <;> rfl

theorem oneCase_map (h : SpecMap A C f) (i jj : Nat) (b : Fin N) (s : S) (st : BSt N S) :
    oneCase C i jj b (f s) (st.map f) = (oneCase A i jj b s st).map (BSt.map f) := by
  unfold oneCase
  rw [show (st.map f).oneSrc = st.oneSrc from rfl, show (st.map f).one = st.one.map f from rfl]
  cases st.oneSrc.isEmpty with
  | true =>
    rw [if_pos rfl, if_pos rfl, writeOne_map]
    cases st.writeOne i jj b <;> rfl
  | false =>
    rw [if_neg (by decide), if_neg (by decide)]
    cases st.one with
    | none => rfl
    | some o =>
      dsimp only [Option.map]
      rw [h.merge]
      by_cases h1 : A.merge o s = 1
      · rw [if_pos h1, if_pos h1, clearOnes_map]
        cases clearOnes i st with
        | none => rfl
        | some st' =>
          dsimp only [Option.map, Option.bind]
          rw [writeOne_map]
          cases st'.writeOne i jj b <;> rfl
      · rw [if_neg h1, if_neg h1]
        by_cases h2 : A.merge o s = 2
        · rw [if_pos h2, if_pos h2, writeCell_map]; rfl
        · rw [if_neg h2, if_neg h2, writeOne_map]; rfl

theorem branchStep_map (h : SpecMap A C f) {i : Nat} (hi : 0 < i) (jj : Nat) (s : S) (a : P2 N S) (b : Fin N) :
    branchStep C i jj (f s) (a.map f) b = (branchStep A i jj s a b).map (P2.map f) := by
  unfold branchStep
  dsimp only [P2.map]
  rw [h.child s i b hi]
  dsimp only
  by_cases h0 : (A.child s i b).1 = 0
  · rw [if_pos h0, if_pos h0, writeCell_map]
    cases a.st.writeCell i jj b .zero <;> rfl
  · rw [if_neg h0, if_neg h0]
    by_cases h1 : (A.child s i b).1 < 0
    · rw [if_pos h1, if_pos h1, oneCase_map h]
      cases oneCase A i jj b (A.child s i b).2 a.st <;> rfl
    · rw [if_neg h1, if_neg h1]
      by_cases h2 : (A.child s i b).1 ≤ (i : Int) - 1
      · rw [if_pos h2, if_pos h2]
        simp only [Option.map, P2.map, BSt.map, Option.some.injEq, P2.mk.injEq, BSt.mk.injEq, true_and, and_true]
        refine ⟨?_, rfl⟩
        funext j
        unfold upd
        by_cases hj : j = (A.child s i b).1.toNat
        · rw [if_pos hj, if_pos hj]; rfl
        · rw [if_neg hj, if_neg hj]
      · rw [if_neg h2, if_neg h2]; rfl

theorem phase2Step_map (h : SpecMap A C f) {i : Nat} (hi : 0 < i) (a : P3 N S) (x : S × NodeId) :
    phase2Step C i (a.map f) (f x.1, x.2) = (phase2Step A i a x).map (P3.map f) := by
  unfold phase2Step
  dsimp only [P3.map]
  by_cases h1 : x.2 = .one
  · rw [if_pos h1, if_pos h1]; rfl
  · rw [if_neg h1, if_neg h1]
    by_cases h0 : x.2 = .zero
    · rw [if_pos h0, if_pos h0, foldlM_map_id (F := fun (st : BSt N S) b => st.writeCell i a.jj b .zero) (BSt.map f) (fun st b => writeCell_map f st i a.jj b .zero)]
      cases (List.finRange N).foldlM (fun (st : BSt N S) b => st.writeCell i a.jj b .zero) a.st <;> rfl
    · rw [if_neg h0, if_neg h0]
      rw [show ({ st := a.st.map f, lowest := a.lowest, allZero := true } : P2 N T) = P2.map f { st := a.st, lowest := a.lowest, allZero := true } from rfl,
        foldlM_map_id (F := branchStep A i a.jj x.1) (P2.map f) (fun p b => branchStep_map h hi a.jj x.1 p b)]
      cases (List.finRange N).foldlM (branchStep A i a.jj x.1) { st := a.st, lowest := a.lowest, allZero := true } <;> rfl

theorem sweepRow_map (k : Nat) (a : BSt N S × (Nat → List NodeId)) (i : Nat) :
    sweepRow k (a.1.map f, a.2) i = (sweepRow k a i).map fun p => (p.1.map f, p.2) := by
  unfold sweepRow
  show Option.map _ (List.foldlM (sweepNode k i a.2) ([], []) (a.1.row i)) = _
  cases List.foldlM (sweepNode k i a.2) ([], []) (a.1.row i) <;> rfl

theorem sweep_map (k : Nat) (st : BSt N S) : sweep k (st.map f) = (sweep k st).map (BSt.map f) := by
  unfold sweep
  have h := foldlM_map_id (F := sweepRow k) (F' := sweepRow k) (fun p : BSt N S × (Nat → List NodeId) => (p.1.map f, p.2)) (fun a i => sweepRow_map k a i)
    (List.range' k (st.numRows - k)) (st, fun _ => [])
  rw [show (st.map f).numRows = st.numRows from rfl, h]
  cases List.foldlM (sweepRow k) (st, fun _ => []) (List.range' k (st.numRows - k)) with
  | none => rfl
  | some p =>
    dsimp only [Option.map, Option.bind]
    rw [show (p.1.map f).oneSrc = p.1.oneSrc from rfl, show (p.1.map f).root = p.1.root from rfl]
    cases p.1.oneSrc.mapM (sweepOne k p.2) with
    | none => rfl
    | some ones =>
      dsimp only
      cases p.1.root with
      | none => rfl
      | some root =>
        dsimp only
        cases (p.2 root.row)[root.col]? <;> rfl

theorem update_map (cur child count : Nat) (st : BSt N S) : update cur child count (st.map f) = (update cur child count st).map (BSt.map f) := by
  unfold update
  by_cases h : cur ≤ 1
  · rw [if_pos h, if_pos h]; rfl
  · rw [if_neg h, if_neg h]
    dsimp only
    rw [show (st.map f).sw = st.sw from rfl, show (st.map f).row = st.row from rfl]
    generalize (if cur ≥ st.sw.size then { st.sw with size := cur + 1 } else st.sw : Sweep) = sw
    generalize markLoop cur sw.level child (cur + 1 - child) = lev
    by_cases h1 : lev (cur - 1) ≤ sw.size ∧ lev cur ≤ sw.size
    · rw [if_pos h1, if_pos h1]
      generalize sumLoop (lev (cur - 1)) (lev cur - lev (cur - 1)) (upd sw.dead cur count) = dead
      generalize (if sw.max < sw.all + (st.row cur).length then sw.all + (st.row cur).length else sw.max) = mx
      by_cases h2 : dead (lev (cur - 1)) * 20 < mx
      · rw [if_pos h2, if_pos h2]; rfl
      · rw [if_neg h2, if_neg h2]
        exact sweep_map (f := f) _ { st with sw := { size := sw.size, level := lev, dead := dead, all := sw.all + (st.row cur).length, max := mx } }
    · rw [if_neg h1, if_neg h1]; rfl

theorem construct_map (h : SpecMap A C f) {i : Nat} (hi : 0 < i) (st : BSt N S) : construct C (st.map f) i = (construct A st i).map (BSt.map f) := by
  unfold construct
  dsimp only
  rw [show (st.map f).row = st.row from rfl, show (st.map f).pend i = (st.pend i).map fun x => (x.1, x.2.1, f x.2.2) from rfl]
  rw [show ({ st := st.map f, m := (st.row i).length, done := [], uniq := [] } : P1 N T) = P1.map f { st := st, m := (st.row i).length, done := [], uniq := [] } from rfl]
  rw [foldlM_map' (F := phase1Step A i) (P1.map f) (fun x : Loc N × Nat × S => (x.1, x.2.1, f x.2.2)) (fun a x => phase1Step_map h hi a x)]
  cases List.foldlM (phase1Step A i) { st := st, m := (st.row i).length, done := [], uniq := [] } (st.pend i) with
  | none => rfl
  | some a =>
    dsimp only [Option.map, Option.bind]
    let st1 : BSt N S := { a.st with
      row := upd a.st.row i (a.st.row i ++ List.replicate (a.m - (st.row i).length) fun _ => none),
      gen := upd a.st.gen i (a.st.gen i + 1),
      pend := upd a.st.pend i [] }
    have e : ({ st := { (a.map f).st with
          row := upd (a.map f).st.row i ((a.map f).st.row i ++ List.replicate ((a.map f).m - (st.row i).length) fun _ => none),
          gen := upd (a.map f).st.gen i ((a.map f).st.gen i + 1),
          pend := upd (a.map f).st.pend i [] }, jj := (st.row i).length, lowest := i - 1, deadCount := 0 } : P3 N T) =
        P3.map f { st := st1, jj := (st.row i).length, lowest := i - 1, deadCount := 0 } := by
      simp only [P3.map, P1.map, BSt.map, st1, P3.mk.injEq, BSt.mk.injEq, true_and, and_true]
      funext j
      unfold upd
      by_cases hj : j = i
      · rw [if_pos hj, if_pos hj]; rfl
      · rw [if_neg hj, if_neg hj]
    rw [e, show (a.map f).done = a.done.map fun x => (f x.1, x.2) from rfl,
      foldlM_map' (F := phase2Step A i) (P3.map f) (fun x : S × NodeId => (f x.1, x.2)) (fun a x => phase2Step_map h hi a x)]
    cases List.foldlM (phase2Step A i) { st := st1, jj := (st.row i).length, lowest := i - 1, deadCount := 0 } a.done with
    | none => rfl
    | some p => exact update_map _ _ _ _

theorem initBuild_map (h : SpecMap A C f) : initBuild C = (initBuild A).map f := by
  unfold initBuild
  dsimp only
  rw [h.root]
  dsimp only
  by_cases h0 : A.root.1 ≤ 0
  · rw [if_pos h0, if_pos h0]; rfl
  · rw [if_neg h0, if_neg h0]
    simp only [BSt.map, BSt.mk.injEq, true_and, and_true]
    refine ⟨?_, rfl⟩
    funext j
    unfold upd
    by_cases hj : j = A.root.1.toNat
    · rw [if_pos hj, if_pos hj]; rfl
    · rw [if_neg hj, if_neg hj]; rfl

theorem mem_levels_pos {n i : Nat} (h : i ∈ levels n) : 0 < i := by
  unfold levels at h
  obtain ⟨j, _, rfl⟩ := List.mem_map.1 h
  omega

theorem foldlM_construct_map (h : SpecMap A C f) : ∀ (l : List Nat) (st : BSt N S), (∀ i ∈ l, 0 < i) →
    l.foldlM (construct C) (st.map f) = (l.foldlM (construct A) st).map (BSt.map f) := by
  intro l
  induction l with
  | nil => intro st _; rfl
  | cons i l ih =>
    intro st hl
    rw [List.foldlM_cons, List.foldlM_cons, construct_map h (hl i (List.mem_cons_self ..))]
    cases construct A st i with
    | none => rfl
    | some st' => exact ih st' fun j hj => hl j (List.mem_cons_of_mem _ hj)

/-- Specifications whose states correspond by a map give the same diagram. -/
theorem build_map (h : SpecMap A C f) : build C = build A := by
  unfold build
  rw [initBuild_map h, foldlM_construct_map h _ _ (fun i hi => mem_levels_pos hi), show C.root.1 = A.root.1 by rw [h.root]]
  cases List.foldlM (construct A) (initBuild A) (levels A.root.1.toNat) <;> rfl

/-- Specifications whose states correspond by a relation that is kept by `get_child` and under which `equal_to` and `merge_states` agree -/
structure SpecRel (A : DdSpec N S) (C : DdSpec N T) (R : S → T → Prop) : Prop where
  root : A.root.1 = C.root.1 ∧ R A.root.2 C.root.2
  child : ∀ s t n b, 0 < n → R s t → (A.child s n b).1 = (C.child t n b).1 ∧ R (A.child s n b).2 (C.child t n b).2
  eqv : ∀ n s t s' t', 0 < n → R s t → R s' t' → A.eqv n s s' = C.eqv n t t'
  merge : ∀ s t s' t', R s t → R s' t' → A.merge s s' = C.merge t t'

/-- The specification of the pairs -/
def relSpec {R : S → T → Prop} (h : SpecRel A C R) : DdSpec N { p : S × T // R p.1 p.2 } where
  root := (A.root.1, ⟨(A.root.2, C.root.2), h.root.2⟩)
  child p n b := if hn : 0 < n then ((A.child p.1.1 n b).1, ⟨((A.child p.1.1 n b).2, (C.child p.1.2 n b).2), (h.child _ _ n b hn p.2).2⟩) else (0, p)
  eqv n p q := A.eqv n p.1.1 q.1.1
  hash _ _ := 0
  merge p q := A.merge p.1.1 q.1.1

/-- Specifications whose states correspond by a relation give the same diagram. -/
theorem build_rel {R : S → T → Prop} (h : SpecRel A C R) : build C = build A := by
  have h1 : SpecMap (relSpec h) A fun p => p.1.1 :=
    ⟨rfl, fun p n b hn => by simp [relSpec, hn], fun _ _ _ _ => rfl, fun _ _ => rfl⟩
  have h2 : SpecMap (relSpec h) C fun p => p.1.2 := by
    refine ⟨Prod.ext h.root.1.symm rfl, fun p n b hn => ?_, fun n p q hn => (h.eqv n _ _ _ _ hn p.2 q.2).symm, fun p q => (h.merge _ _ _ _ p.2 q.2).symm⟩
    have := (h.child _ _ n b hn p.2).1
    simp only [relSpec, hn, dite_true]
    exact Prod.ext this.symm rfl
  rw [build_map h2, build_map h1]

/-- They accept the same choices. -/
theorem accepts_rel {R : S → T → Prop} (hc : ∀ s t n b, 0 < n → R s t → (A.child s n b).1 = (C.child t n b).1 ∧ R (A.child s n b).2 (C.child t n b).2)
    {p : Path N} : ∀ {l : Int} {s : S} {t : T}, R s t → (Accepts A l s p ↔ Accepts C l t p) := by
  induction p with
  | nil =>
    intro l s t _
    constructor
    · intro h; cases h with | one h => exact .one h
    · intro h; cases h with | one h => exact .one h
  | cons x p ih =>
    intro l s t hr
    constructor
    · intro h
      cases h with
      | step hn h' =>
        rename_i n b
        obtain ⟨e, hr'⟩ := hc s t n b hn hr
        exact .step hn (e ▸ (ih hr').1 h')
    · intro h
      cases h with
      | step hn h' =>
        rename_i n b
        obtain ⟨e, hr'⟩ := hc s t n b hn hr
        exact .step hn (e ▸ (ih hr').2 h')

theorem bddSat_rel {R : S → T → Prop} (h0 : A.root.1 = C.root.1 ∧ R A.root.2 C.root.2)
    (hc : ∀ s t n b, 0 < n → R s t → (A.child s n b).1 = (C.child t n b).1 ∧ R (A.child s n b).2 (C.child t n b).2) (a : Asg N) :
    BddSat A a ↔ BddSat C a := by
  unfold BddSat BddSatAt
  rw [← h0.1]
  exact ⟨fun ⟨p, h1, h2⟩ => ⟨p, (accepts_rel hc h0.2).1 h1, h2⟩, fun ⟨p, h1, h2⟩ => ⟨p, (accepts_rel hc h0.2).2 h1, h2⟩⟩

theorem zddMem_rel {R : S → T → Prop} (h0 : A.root.1 = C.root.1 ∧ R A.root.2 C.root.2)
    (hc : ∀ s t n b, 0 < n → R s t → (A.child s n b).1 = (C.child t n b).1 ∧ R (A.child s n b).2 (C.child t n b).2) (n : Nat) (a : Asg N) :
    ZddMem A n a ↔ ZddMem C n a := by
  unfold ZddMem ZddMemAt
  rw [← h0.1]
  exact ⟨fun ⟨p, h1, h2⟩ => ⟨p, (accepts_rel hc h0.2).1 h1, h2⟩, fun ⟨p, h1, h2⟩ => ⟨p, (accepts_rel hc h0.2).2 h1, h2⟩⟩

/-- Every reachable state corresponds to one of the other specification at the same level. -/
theorem reach_rel {R : S → T → Prop} (h0 : A.root.1 = C.root.1 ∧ R A.root.2 C.root.2)
    (hc : ∀ s t n b, 0 < n → R s t → (A.child s n b).1 = (C.child t n b).1 ∧ R (A.child s n b).2 (C.child t n b).2) {l : Int} {t : T}
    (h : Reach C l t) : ∃ s, Reach A l s ∧ R s t := by
  induction h with
  | root => exact ⟨A.root.2, h0.1 ▸ .root, h0.2⟩
  | step b hn _ ih =>
    obtain ⟨s, hs, hr⟩ := ih
    obtain ⟨e, hr'⟩ := hc _ _ _ b hn hr
    exact ⟨_, e ▸ .step b hn hs, hr'⟩

end TdZdd
