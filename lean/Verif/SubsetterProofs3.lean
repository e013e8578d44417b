import Verif.SubsetterProofs2
import Verif.BuilderPerm

/-! Subsetter proof, part 3: `subset` is `construct` on the pairs, with the pending nodes sorted by
input node. -/

namespace TdZdd

variable {N : Nat} {S : Type} {D : Dd (N + 1)} {sp : DdSpec (N + 1) S}
  {rt : Int × (NodeId × S)}

/-! ### One unique table per column -/

/-- the two ways to run the first loop agree: `u` is `uniq` restricted to the current column -/
structure ColRel (f : NodeId) (d0 : Nat) (old : List (Nat × (NodeId × S)))
    (a a' : P1 (N + 1) (NodeId × S)) : Prop where
  st : a.st = a'.st
  m : a.m = a'.m
  done : a.done = a'.done
  uniq : a'.uniq = a.uniq ++ old
  old : ∀ e ∈ old, e.2.1 ≠ f ∧ e.1 < d0
  new : ∀ e ∈ a.uniq, e.2.1 = f ∧ d0 ≤ e.1 ∧ e.1 < a.done.length
  le : d0 ≤ a.done.length

theorem col_step {T : Table (N + 1)} {rt' : Int × (NodeId × S)} {i : Nat} {f : NodeId} {d0 : Nat}
    {old : List (Nat × (NodeId × S))} {a a' : P1 (N + 1) (NodeId × S)} (h : ColRel f d0 old a a')
    (x : Loc (N + 1) × Nat × (NodeId × S)) (hx : x.2.2.1 = f) :
    (phase1Step (pairSpec T rt' sp) i a x = none ∧ phase1Step (prodSpec D.table rt sp) i a' x = none) ∨
    ∃ b b', phase1Step (pairSpec T rt' sp) i a x = some b ∧
      phase1Step (prodSpec D.table rt sp) i a' x = some b' ∧ ColRel f d0 old b b' := by
  obtain ⟨st, m, done, uniq⟩ := a
  obtain ⟨st', m', done', uniq'⟩ := a'
  obtain ⟨h1, h2, h3, h4, hold, hnew, hle⟩ := h
  dsimp only at *
  subst h1; subst h2; subst h3; subst h4
  have e1 : (uniq ++ old).find? (fun e => (prodSpec D.table rt sp).eqv i e.2 x.2.2) =
      uniq.find? (fun e => (pairSpec T rt' sp).eqv i e.2 x.2.2) := by
    rw [List.find?_append]
    have e2 : old.find? (fun e => (prodSpec D.table rt sp).eqv i e.2 x.2.2) = none := by
      rw [List.find?_eq_none]
      intro e he
      have := (hold e he).1
      simp only [prodSpec, Bool.and_eq_true, decide_eq_true_eq]
      rintro ⟨h, _⟩
      exact this (h.trans hx)
    rw [e2, Option.or_none]
    have : ∀ l : List (Nat × (NodeId × S)), (∀ e ∈ l, e.2.1 = f) →
        l.find? (fun e => (prodSpec D.table rt sp).eqv i e.2 x.2.2) =
        l.find? (fun e => (pairSpec T rt' sp).eqv i e.2 x.2.2) := by
      intro l
      induction l with
      | nil => intro _; rfl
      | cons e l ih =>
        intro hl
        have he : (prodSpec D.table rt sp).eqv i e.2 x.2.2 = (pairSpec T rt' sp).eqv i e.2 x.2.2 := by
          simp [prodSpec, pairSpec, hl e (by simp), hx]
        rw [List.find?_cons, List.find?_cons, he, ih fun e he => hl e (by simp [he])]
    exact this uniq fun e he => (hnew e he).1
  unfold phase1Step
  dsimp only
  rw [e1]
  cases hf : uniq.find? (fun e => (pairSpec T rt' sp).eqv i e.2 x.2.2) with
  | none =>
    dsimp only
    cases hw : st.write x.1 x.2.1 ⟨i, m⟩ with
    | none => exact .inl ⟨rfl, rfl⟩
    | some st' =>
      refine .inr ⟨_, _, rfl, rfl, rfl, rfl, rfl, rfl, hold, ?_, ?_⟩
      · intro e he
        rcases List.mem_cons.1 he with rfl | he
        · exact ⟨hx, hle, by simp⟩
        · have := hnew e he
          exact ⟨this.1, this.2.1, by simp; omega⟩
      · simp; omega
  | some e =>
    have hmem := List.mem_of_find?_eq_some hf
    have hne := hnew e hmem
    dsimp only
    have em : (prodSpec D.table rt sp).merge e.2 x.2.2 = (pairSpec T rt' sp).merge e.2 x.2.2 := rfl
    rw [em]
    by_cases hm1 : (pairSpec T rt' sp).merge e.2 x.2.2 = 1
    · rw [if_pos hm1, if_pos hm1]
      cases hw : st.write x.1 x.2.1 ⟨i, m⟩ with
      | none => exact .inl ⟨rfl, rfl⟩
      | some st' =>
        refine .inr ⟨_, _, rfl, rfl, rfl, rfl, rfl, ?_, hold, ?_, ?_⟩
        · dsimp only
          rw [List.map_append]
          congr 1
          rw [List.map_congr_left (g := id), List.map_id]
          intro e' he'
          rw [if_neg]
          · rfl
          · have := (hold e' he').2; omega
        · intro e' he'
          dsimp only at he'
          obtain ⟨e2, h2, rfl⟩ := List.mem_map.1 he'
          split
          · exact ⟨hx, hle, by simp⟩
          · have := hnew e2 h2
            exact ⟨this.1, this.2.1, by simp; omega⟩
        · simp; omega
    · rw [if_neg hm1, if_neg hm1]
      by_cases hm2 : (pairSpec T rt' sp).merge e.2 x.2.2 = 2
      · rw [if_pos hm2, if_pos hm2]
        cases hw : st.write x.1 x.2.1 .zero with
        | none => exact .inl ⟨rfl, rfl⟩
        | some st' =>
          exact .inr ⟨_, _, rfl, rfl, rfl, rfl, rfl, rfl, hold, fun e he => ⟨(hnew e he).1, (hnew e he).2.1, by have := (hnew e he).2.2; simp; omega⟩,
            by simp; omega⟩
      · rw [if_neg hm2, if_neg hm2]
        cases hd : done[e.1]? with
        | none => exact .inl ⟨rfl, rfl⟩
        | some q =>
          dsimp only
          cases hw : st.write x.1 x.2.1 q.2 with
          | none => exact .inl ⟨rfl, rfl⟩
          | some st' =>
            exact .inr ⟨_, _, rfl, rfl, rfl, rfl, rfl, rfl, hold, fun e he => ⟨(hnew e he).1, (hnew e he).2.1, by have := (hnew e he).2.2; simp; omega⟩,
            by simp; omega⟩

theorem col_fold {T : Table (N + 1)} {rt' : Int × (NodeId × S)} {i : Nat} {f : NodeId} {d0 : Nat}
    {old : List (Nat × (NodeId × S))} : ∀ (l : List (Loc (N + 1) × Nat × (NodeId × S)))
    (a a' : P1 (N + 1) (NodeId × S)), ColRel f d0 old a a' → (∀ x ∈ l, x.2.2.1 = f) →
    (l.foldlM (phase1Step (pairSpec T rt' sp) i) a = none ∧
      l.foldlM (phase1Step (prodSpec D.table rt sp) i) a' = none) ∨
    ∃ b b', l.foldlM (phase1Step (pairSpec T rt' sp) i) a = some b ∧
      l.foldlM (phase1Step (prodSpec D.table rt sp) i) a' = some b' ∧ ColRel f d0 old b b' := by
  intro l
  induction l with
  | nil => intro a a' h _; exact .inr ⟨a, a', rfl, rfl, h⟩
  | cons x l ih =>
    intro a a' h hl
    rw [List.foldlM_cons, List.foldlM_cons]
    rcases col_step (D := D) (rt := rt) (sp := sp) (T := T) (rt' := rt') (i := i) h x (hl x (by simp)) with
      ⟨h1, h2⟩ | ⟨b, b', h1, h2, h3⟩
    · rw [h1, h2]; exact .inl ⟨rfl, rfl⟩
    · rw [h1, h2]
      exact ih b b' h3 fun x hx => hl x (by simp [hx])

/-- the first loop, column by column -/
theorem cols_fold {T : Table (N + 1)} {rt' : Int × (NodeId × S)} {i : Nat}
    {st : BSt (N + 1) (NodeId × S)} (hrow : ∀ x ∈ st.pend i, x.2.2.1.row = i) :
    ∀ (m : Nat) (a : P1 (N + 1) (NodeId × S)), a.uniq = [] →
    ((List.range m).foldlM (subColumn (pairSpec T rt' sp) st i) a = none ∧
      (List.range m).foldlM (fun b j => (workAt st i j).foldlM (phase1Step (prodSpec D.table rt sp) i) b) a
        = none) ∨
    ∃ b b', (List.range m).foldlM (subColumn (pairSpec T rt' sp) st i) a = some b ∧
      (List.range m).foldlM (fun b j => (workAt st i j).foldlM (phase1Step (prodSpec D.table rt sp) i) b) a
        = some b' ∧ b.st = b'.st ∧ b.m = b'.m ∧ b.done = b'.done ∧
        ∀ e ∈ b'.uniq, e.2.1.col < m ∧ e.1 < b.done.length := by
  intro m a ha
  induction m with
  | zero => exact .inr ⟨a, a, rfl, rfl, rfl, rfl, rfl, by rw [ha]; simp⟩
  | succ m ih =>
    rw [List.range_succ, List.foldlM_append, List.foldlM_append]
    rcases ih with ⟨h1, h2⟩ | ⟨b, b', h1, h2, h3, h4, h5, h6⟩
    · rw [h1, h2]; exact .inl ⟨rfl, rfl⟩
    rw [h1, h2]
    simp only [Option.bind_eq_bind, Option.bind_some, List.foldlM_cons, List.foldlM_nil]
    have hrel : ColRel ⟨i, m⟩ b.done.length b'.uniq { b with uniq := [] } b' := by
      refine ⟨h3, h4, h5, by simp, fun e he => ?_, by simp, Nat.le_refl _⟩
      have := h6 e he
      refine ⟨fun hc => ?_, this.2⟩
      have := congrArg NodeId.col hc
      dsimp only at this; omega
    have hcol : ∀ x ∈ workAt st i m, x.2.2.1 = ⟨i, m⟩ := by
      intro x hx
      obtain ⟨h, h'⟩ := List.mem_filter.1 hx
      have := hrow x h
      have h' : x.2.2.1.col = m := by simpa using h'
      rw [← this, ← h']
    rcases col_fold (D := D) (rt := rt) (sp := sp) (T := T) (rt' := rt') (i := i) _ _ _ hrel hcol with
      ⟨c1, c2⟩ | ⟨c, c', c1, c2, c3⟩
    · left
      unfold subColumn
      rw [c1, c2]; exact ⟨rfl, rfl⟩
    · right
      refine ⟨c, c', ?_, ?_, c3.st, c3.m, c3.done, fun e he => ?_⟩
      · unfold subColumn; rw [c1]; rfl
      · rw [c2]; rfl
      · have hmono : b.done.length ≤ c.done.length := c3.le
        have : c.done.length = c'.done.length := by rw [c3.done]
        rw [c3.uniq] at he
        rcases List.mem_append.1 he with he | he
        · have := c3.new e he
          exact ⟨by rw [this.1]; exact Nat.lt_succ_self m, this.2.2⟩
        · have := h6 e he; omega

/-! ### The rows of the input that are read -/

/-- the rows up to `i` of the input table are still there -/
def Upto (D : Dd (N + 1)) (T : Table (N + 1)) (i : Nat) : Prop :=
  T.numRows = D.table.numRows ∧ ∀ r, r ≤ i → T.row r = D.table.row r

variable {T : Table (N + 1)} {i : Nat}

theorem Upto.node (h : Upto D T i) {f : NodeId} (hf : f.row ≤ i) : T.node? f = D.table.node? f := by
  unfold Table.node?; rw [h.1, h.2 _ hf]

theorem downTableLoop_congr (hw : D.Wf) (hu : Upto D T i) {z : Int} (hz : 0 ≤ z) : ∀ (fuel : Nat)
    (f : NodeId), At D f → f.row ≤ i →
    downTableLoop T z fuel f = downTableLoop D.table z fuel f := by
  intro fuel
  induction fuel with
  | zero => intro f _ _; rfl
  | succ fuel ih =>
    intro f hf hle
    unfold downTableLoop
    by_cases hgt : (f.row : Int) > z
    · rw [if_pos hgt, if_pos hgt, hu.node hle]
      obtain ⟨nd, hnd, hc⟩ := hf.node hw (by omega)
      rw [hnd]
      have := hc 0
      exact ih (nd 0) this.1 (by omega)
    · rw [if_neg hgt, if_neg hgt]

theorem downTable_congr (hw : D.Wf) (hu : Upto D T i) {f : NodeId} (h : At D f) (hf : 0 < f.row)
    (hle : f.row ≤ i) (b : Fin (N + 1)) (z : Int) : downTable T f b z = downTable D.table f b z := by
  unfold downTable
  rw [hu.node hle]
  obtain ⟨nd, hnd, hc⟩ := h.node hw hf
  rw [hnd]
  dsimp only
  have := hc b
  rw [downTableLoop_congr hw hu (clampZ_nonneg z) _ _ this.1 (by omega)]

theorem syncLoop_congr (hw : D.Wf) (hd : Desc sp) (hu : Upto D T i) : ∀ (fuel : Nat) (f : NodeId)
    (n : Int × S), At D f → f.row ≤ i →
    syncLoop T sp fuel (rootCode f, f) n = syncLoop D.table sp fuel (rootCode f, f) n := by
  intro fuel
  induction fuel with
  | zero => intro f n _ _; rfl
  | succ fuel ih =>
    intro f n hf hle
    have hrc := rootCode_le f
    unfold syncLoop
    dsimp only
    by_cases hc : n.1 ≠ 0 ∧ rootCode f ≠ 0 ∧ n.1 ≠ rootCode f
    · rw [if_pos hc, if_pos hc]
      by_cases hlt' : n.1 < rootCode f
      · rw [if_pos hlt', if_pos hlt']
        by_cases hk : rootCode f < 1
        · rw [if_pos hk, if_pos hk]
        rw [if_neg hk, if_neg hk]
        have hpos : 0 < f.row := by omega
        rw [downTable_congr hw hu hf hpos hle]
        obtain ⟨g, e, h1, _, h3, _⟩ := downTable_spec hw hd hf hpos 0 n.1
        rw [e]
        exact ih g n h1 (by omega)
      · rw [if_neg hlt', if_neg hlt']
        by_cases hk : n.1 < 1
        · rw [if_pos hk, if_pos hk]
        rw [if_neg hk, if_neg hk]
        cases downSpec sp n.2 n.1 0 (rootCode f) with
        | none => rfl
        | some n' => exact ih f n' hf hle
    · rw [if_neg hc, if_neg hc]

theorem subChild_congr (hw : D.Wf) (hd : Desc sp) (hu : Upto D T i) {f : NodeId} {s : S} (hi : 0 < i)
    (h1 : Reach D.spec (i : Int) f) (h2 : Reach sp (i : Int) s) (b : Fin (N + 1)) :
    subChild T sp (f, s) i b = subChild D.table sp (f, s) i b := by
  obtain ⟨hf, hc⟩ := at_of_reach hw h1
  have hpos : 0 < f.row := by have := rootCode_le f; omega
  have hrow : f.row = i := by rw [rootCode_pos hpos] at hc; omega
  unfold subChild
  dsimp only
  rw [downTable_congr hw hu hf hpos (by omega)]
  obtain ⟨g, e, a1, a2, a3, _⟩ := downTable_spec hw hd hf hpos b ((i : Int) - 1)
  rw [e]
  dsimp only
  have hg := rootCode_le g
  obtain ⟨c', e', b1, b2, b3, _⟩ := downSpec_spec hw hd hi h2 b (z := rootCode g) (by omega)
  rw [e']
  dsimp only
  rw [syncLoop_congr hw hd hu _ g c' a1 (by omega)]
  obtain ⟨r, e'', ok⟩ := syncLoop_spec hw hd (syncFuel (rootCode g) c'.1) g c' a1 b1 (syncFuel_ok _ _)
  rw [e'']
  dsimp only
  have hle : r.1.2.row ≤ i := by
    have h1 := ok.le1
    have h2 := ok.code
    dsimp only at h1
    by_cases hp : 0 < r.1.2.row
    · rw [rootCode_pos hp] at h2; omega
    · omega
  unfold pairCode
  rw [hu.node hle]

theorem DoneRel.mem {S : Type} {sp : DdSpec N S} {i j : Nat} {ds : List (S × NodeId)} {gs : List S} (h : DoneRel sp i j ds gs) :
    ∀ x ∈ ds, x.2 = .one ∨ x.1 ∈ gs := by
  induction h with
  | nil => simp
  | skip _ ih =>
    intro x hx
    rcases List.mem_cons.1 hx with rfl | hx
    · exact .inl rfl
    · exact ih x hx
  | act _ ih =>
    intro x hx
    rcases List.mem_cons.1 hx with rfl | hx
    · exact .inr (by simp)
    · rcases ih x hx with h | h
      · exact .inl h
      · exact .inr (by simp [h])
  | dead _ _ ih =>
    intro x hx
    rcases List.mem_cons.1 hx with rfl | hx
    · exact .inr (by simp)
    · rcases ih x hx with h | h
      · exact .inl h
      · exact .inr (by simp [h])

theorem phase2Step_congr {S : Type} {sp sp' : DdSpec N S} {i : Nat} (hm : sp.merge = sp'.merge) {x : S × NodeId}
    (hx : x.2 ≠ .one → ∀ b, sp.child x.1 i b = sp'.child x.1 i b) (a : P3 N S) :
    phase2Step sp i a x = phase2Step sp' i a x := by
  unfold phase2Step
  by_cases h1 : x.2 = .one
  · rw [if_pos h1, if_pos h1]
  rw [if_neg h1, if_neg h1]
  have e : branchStep sp i a.jj x.1 = branchStep sp' i a.jj x.1 := by
    funext p b
    unfold branchStep oneCase
    rw [hx h1 b, hm]
  rw [e]

theorem foldlM_congr_mem' {α β : Type} {f g : β → α → Option β} (l : List α)
    (h : ∀ a ∈ l, ∀ b, f b a = g b a) (b : β) : l.foldlM f b = l.foldlM g b := by
  induction l generalizing b with
  | nil => rfl
  | cons a l ih =>
    simp only [List.foldlM_cons]
    rw [h a (by simp)]
    congr 1
    funext b'
    exact ih (fun a ha => h a (by simp [ha])) b'

/-! ### The first loop does not touch the pending nodes -/

/-- replace the pending nodes -/
def BSt.withPend {S : Type} (st : BSt N S) (pd : Nat → List (Loc N × Nat × S)) : BSt N S := { st with pend := pd }

def P1.withPend {S : Type} (a : P1 N S) (pd : Nat → List (Loc N × Nat × S)) : P1 N S :=
  { a with st := a.st.withPend pd }

theorem write_withPend {S : Type} (st : BSt N S) (pd : Nat → List (Loc N × Nat × S)) (l : Loc N) (g : Nat) (v : NodeId) :
    (st.withPend pd).write l g v = (st.write l g v).map fun st => st.withPend pd := by
  cases l with
  | root => rfl
  | cell r c b =>
    have e1 : (st.withPend pd).gen = st.gen := rfl
    have e2 : (st.withPend pd).numRows = st.numRows := rfl
    have e3 : (st.withPend pd).row = st.row := rfl
    simp only [BSt.write, BSt.writeCell]
    rw [e1, e2, e3]
    by_cases h : st.gen r = g
    · rw [if_pos h, if_pos h]
      by_cases h' : r < st.numRows
      · rw [if_pos h', if_pos h']
        cases (st.row r)[c]? <;> rfl
      · rw [if_neg h', if_neg h']; rfl
    · rw [if_neg h, if_neg h]; rfl

theorem phase1Step_withPend {S : Type} (sp : DdSpec N S) (i : Nat) (pd : Nat → List (Loc N × Nat × S)) (a : P1 N S)
    (x : Loc N × Nat × S) :
    phase1Step sp i (a.withPend pd) x = (phase1Step sp i a x).map fun a => a.withPend pd := by
  unfold phase1Step
  simp only [P1.withPend]
  cases a.uniq.find? (fun e => sp.eqv i e.2 x.2.2) with
  | none =>
    dsimp only
    rw [write_withPend]
    cases a.st.write x.1 x.2.1 ⟨i, a.m⟩ <;> rfl
  | some e =>
    dsimp only
    by_cases h1 : sp.merge e.2 x.2.2 = 1
    · rw [if_pos h1, if_pos h1, write_withPend]
      cases a.st.write x.1 x.2.1 ⟨i, a.m⟩ <;> rfl
    · rw [if_neg h1, if_neg h1]
      by_cases h2 : sp.merge e.2 x.2.2 = 2
      · rw [if_pos h2, if_pos h2, write_withPend]
        cases a.st.write x.1 x.2.1 .zero <;> rfl
      · rw [if_neg h2, if_neg h2]
        cases a.done[e.1]? with
        | none => rfl
        | some q =>
          dsimp only
          rw [write_withPend]
          cases a.st.write x.1 x.2.1 q.2 <;> rfl

theorem phase1_withPend {S : Type} (sp : DdSpec N S) (i : Nat) (pd : Nat → List (Loc N × Nat × S)) :
    ∀ (l : List (Loc N × Nat × S)) (a : P1 N S), l.foldlM (phase1Step sp i) (a.withPend pd) =
      (l.foldlM (phase1Step sp i) a).map fun a => a.withPend pd := by
  intro l
  induction l with
  | nil => intro a; rfl
  | cons x l ih =>
    intro a
    rw [List.foldlM_cons, List.foldlM_cons, phase1Step_withPend]
    cases phase1Step sp i a x with
    | none => rfl
    | some b => exact ih b

/-! ### The level step -/

/-- the pending nodes of a level in the order of `subset` -/
def regroup (D : Dd (N + 1)) (st : BSt (N + 1) (NodeId × S)) (i : Nat) :
    List (Loc (N + 1) × Nat × (NodeId × S)) :=
  (List.range (D.table.row i).length).flatMap fun j => workAt st i j

theorem subset_eq (hw : D.Wf) (hl : Lawful sp) (hrt : PairOk D sp D.spec.root sp.root rt)
    {top : Nat} {G : Nat → List (NodeId × S)} {st : BSt (N + 1) (NodeId × S)} (hi : 0 < i)
    (hit : i ≤ top) (h : Lv (prodSpec D.table rt sp) top G st (i + 1)) (hu : Upto D T i) 
    (htop : top < D.table.numRows) :
    (regroup D st i).Perm (st.pend i) ∧ subset sp T st i =
      construct (prodSpec D.table rt sp) { st with pend := upd st.pend i (regroup D st i) } i := by
  have hd := hl.toDesc
  -- the pending nodes belong to nodes of row i
  have hpend : ∀ x ∈ st.pend i, x.2.2.1.row = i ∧ x.2.2.1.col < (D.table.row i).length := by
    rintro ⟨l, g, f, s⟩ hx
    obtain ⟨_, _, _, hwant, _⟩ := h.inv.pd_ok hx
    have hr := want_reach h.inv hwant
    have hr1 := (prod_reach hw hd hrt hr (by dsimp only; omega)).1
    obtain ⟨hf, hc⟩ := at_of_reach hw hr1
    dsimp only at hf hc ⊢
    have hpos : 0 < f.row := by have := rootCode_le f; omega
    have hrow : f.row = i := by rw [rootCode_pos hpos] at hc; omega
    obtain ⟨nd, hnd, _⟩ := hf.node hw hpos
    unfold Table.node? at hnd
    rw [if_pos (by omega), hrow] at hnd
    exact ⟨hrow, getElem?_lt hnd⟩
  have hperm : (regroup D st i).Perm (st.pend i) :=
    group_perm (fun x : Loc (N + 1) × Nat × (NodeId × S) => x.2.2.1.col) _ _ fun x hx => (hpend x hx).2
  refine ⟨hperm, ?_⟩
  generalize hst0 : ({ st with pend := upd st.pend i (regroup D st i) } : BSt (N + 1) (NodeId × S)) = st0
  have hpd0 : ∀ j, (upd st.pend i (regroup D st i) j).Perm (st.pend j) := by
    intro j
    by_cases hj : j = i
    · subst hj; rw [upd_same]; exact hperm
    · rw [upd_ne _ _ hj]
  have h0 : Lv (prodSpec D.table rt sp) top G st0 (i + 1) := by rw [← hst0]; exact h.perm hpd0
  have hGi := h.empty i (by omega)
  obtain ⟨a0, ha0, G1, hP1⟩ := phase1 (prod_lawful hw hl hrt) hi hit h0.inv hGi
  have hrow0 : st0.row i = [] := List.eq_nil_of_length_eq_zero (by rw [h0.len i hi, hGi]; rfl)
  have hrowa : a0.st.row i = [] := List.eq_nil_of_length_eq_zero (by rw [hP1.frame.len, hrow0]; rfl)
  -- the first loop
  have hr0 : st0.pend i = regroup D st i := by rw [← hst0]; exact upd_same _ _ _
  have hst : st = st0.withPend st.pend := by rw [← hst0]; rfl
  have hfold : (List.range (D.table.row i).length).foldlM
      (fun b j => (workAt st i j).foldlM (phase1Step (prodSpec D.table rt sp) i) b)
      { st := st, m := 0, done := [], uniq := [] } = some (a0.withPend st.pend) := by
    rw [← foldlM_flatMap']
    have := phase1_withPend (prodSpec D.table rt sp) i st.pend (regroup D st i)
      { st := st0, m := 0, done := [], uniq := [] }
    rw [← hr0, ha0] at this
    rw [hr0] at this
    refine Eq.trans ?_ this
    show List.foldlM _ _ (regroup D st i) = _
    congr 1
    unfold P1.withPend
    dsimp only
    rw [← hst]
  obtain ⟨b, hb, hbst, hbm, hbd⟩ : ∃ b, (List.range (D.table.row i).length).foldlM
      (subColumn (pairSpec T (0, (.zero, sp.root.2)) sp) st i)
      { st := st, m := 0, done := [], uniq := [] } = some b ∧ b.st = a0.st.withPend st.pend ∧ b.m = a0.m ∧
      b.done = a0.done := by
    rcases cols_fold (D := D) (rt := rt) (sp := sp) (T := T) (rt' := (0, (.zero, sp.root.2))) (i := i)
      (fun x hx => (hpend x hx).1) (D.table.row i).length { st := st, m := 0, done := [], uniq := [] } rfl with
      ⟨_, h2⟩ | ⟨b, b', h1, h2, h3, h4, h5, _⟩
    · rw [hfold] at h2; cases h2
    · rw [hfold] at h2
      cases h2
      exact ⟨b, h1, h3, h4, h5⟩
  unfold subset construct
  rw [if_neg (by rw [h.numRows, hu.1]; omega)]
  rw [hr0] at ha0
  dsimp only
  rw [hu.2 i (Nat.le_refl i), hb, hrow0, hr0]
  simp only [List.length_nil]
  rw [ha0]
  simp only [Option.bind_some]
  have hpe : a0.st.pend = upd st.pend i (regroup D st i) := by rw [hP1.frame.pend, ← hst0]
  have e1 : ({ b.st with row := upd b.st.row i (List.replicate b.m fun _ => none),
                         gen := upd b.st.gen i (b.st.gen i + 1),
                         pend := upd b.st.pend i [] } : BSt (N + 1) (NodeId × S)) =
      { a0.st with row := upd a0.st.row i (a0.st.row i ++ List.replicate (a0.m - 0) fun _ => none),
                   gen := upd a0.st.gen i (a0.st.gen i + 1),
                   pend := upd a0.st.pend i [] } := by
    rw [hbst, hbm, hrowa, hpe, upd_upd]
    rfl
  rw [e1, hbd]
  congr 1
  refine foldlM_congr_mem' (f := phase2Step (pairSpec T (0, (.zero, sp.root.2)) sp) i)
    (g := phase2Step (prodSpec D.table rt sp) i) _ (fun x hx p => ?_) _
  refine phase2Step_congr (sp := pairSpec T (0, (.zero, sp.root.2)) sp)
    (sp' := prodSpec D.table rt sp) rfl (fun hne b => ?_) p
  have hx1 : x.1 ∈ G1 i := by
    rcases hP1.done.mem x hx with h | h
    · exact absurd h hne
    · exact h
  obtain ⟨_, _, hreach⟩ := hP1.inv.reach hx1
  obtain ⟨r1, r2⟩ := prod_reach hw hd hrt hreach (by omega)
  obtain ⟨⟨f, s⟩, y⟩ := x
  show (subChild T sp (f, s) i b).getD _ = (subChild D.table sp (f, s) i b).getD _
  rw [subChild_congr hw hd hu hi r1 r2 b]

/-- the whole of `zddSubset` -/
theorem zddSubset_main (hw : D.Wf) (hl : Lawful sp) (shared : Bool) :
    ∃ rt D' lab, subRoot D.table D.root sp = some rt ∧ PairOk D sp D.spec.root sp.root rt ∧
      zddSubset D sp shared = some D' ∧ Sim (prodSpec D.table rt sp) D' lab ∧
      D'.table.numRows = rt.1.toNat + 1 ∧ D'.table.row 0 = terminalRow (N + 1) ∧
      (∀ f, 0 < f.row → D'.table.Valid f → D'.Live f) ∧
      ((∃ p, Accepts (prodSpec D.table rt sp) rt.1 rt.2 p) →
        ∃ p, Accepts D'.spec D'.spec.root.1 D'.spec.root.2 p) := by
  have hd := hl.toDesc
  obtain ⟨rt, e, hrt⟩ := subRoot_spec hw hd
  have hpl := prod_lawful hw hl hrt
  have hroot : (prodSpec D.table rt sp).root = rt := rfl
  have hinit : subInit rt = initBuild (prodSpec D.table rt sp) := rfl
  by_cases hpos : 0 < rt.1
  · have htop : (prodSpec D.table rt sp).root.1 = (rt.1.toNat : Int) := by rw [hroot]; omega
    have hnr : rt.1.toNat < D.table.numRows := by
      obtain ⟨hf, hc⟩ := at_of_reach hw (hrt.at1 (by omega))
      have hp : 0 < rt.2.1.row := by have := rootCode_le rt.2.1; omega
      obtain ⟨nd, hnd, _⟩ := hf.node hw hp
      rw [rootCode_pos hp] at hc
      unfold Table.node? at hnd
      split at hnd
      · omega
      · cases hnd
    obtain ⟨i1, i2, i3⟩ := init_inv (sp := prodSpec D.table rt sp) (by rw [hroot]; exact hpos)
    have key := levels_perm hpl htop (M := Table (N + 1) × BSt (N + 1) (NodeId × S)) (fun m => m.2)
      (fun m i => Upto D m.1 i) (subsetStep sp shared) ?_ rt.1.toNat (Nat.le_refl _) (D.table, subInit rt)
      (fun _ => []) ⟨rfl, fun _ _ => rfl⟩ i1 i2 (fun _ _ => i3)
    · obtain ⟨m', h1, _, G, h2⟩ := key
      obtain ⟨D', h3, h4⟩ := finish_spec hpl h2
      refine ⟨rt, D', labOf G, e, hrt, ?_, h4⟩
      unfold zddSubset
      rw [e]
      dsimp only
      rw [h1]
      exact h3
    · rintro ⟨T, st⟩ i G hi hit hu hlv _
      obtain ⟨h1, h2⟩ := subset_eq hw hl hrt hi hit hlv hu hnr
      refine ⟨_, h1, fun st1 hst1 => ?_⟩
      refine ⟨(if shared then T else { T with row := upd T.row i [] }, st1), ?_, ?_, st1.pend,
        fun _ => .refl _, rfl⟩
      · unfold subsetStep
        dsimp only
        rw [h2, hst1]
        rfl
      · dsimp only
        split
        · exact ⟨hu.1, fun r hr => hu.2 r (by omega)⟩
        · exact ⟨hu.1, fun r hr => by dsimp only; rw [upd_ne _ _ (by omega)]; exact hu.2 r (by omega)⟩
  · -- a terminal root
    have hn : rt.1.toNat = 0 := by omega
    obtain ⟨D', lab, h1, h2⟩ := build_main hpl
    refine ⟨rt, D', lab, e, hrt, ?_, h2⟩
    rw [← h1]
    unfold zddSubset build
    rw [e, hroot]
    dsimp only
    rw [hn, hinit]
    rfl

end TdZdd
