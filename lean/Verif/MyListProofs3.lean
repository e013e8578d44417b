import Verif.MyListProofs2

/-! Proofs about `MyList`: programs. -/

namespace TdZdd

def LSt.data (st : LSt) (ps : SkSt) : LData := ⟨st.ptr, ps.size, ps.val⟩

/-- the state `st` stands for `ps`; `K x` are the blocks of the list `x` -/
structure LInv (st : LSt) (ps : SkSt) (K : Nat → List LBk) : Prop where
  fresh : 0 < st.mem.fresh
  bound : ∀ a, st.mem.blk a ≠ none → 0 < a ∧ a < st.mem.fresh
  dead : ∀ x, ps.list x = none → st.list x = none ∧ K x = []
  alive : ∀ x es, ps.list x = some es → ∃ l, st.list x = some l ∧ LOk st.mem (st.data ps) l es (K x)
  disj : ∀ x y a, a ∈ (K x).map LBk.a → a ∈ (K y).map LBk.a → x = y
  own : ∀ a, st.mem.blk a ≠ none → ∃ x, a ∈ (K x).map LBk.a
  len : st.ptr.length = ps.size.length
  future : ∀ h i, ps.size.length ≤ h → ps.val h i = none

theorem LInv.blk {st : LSt} {ps : SkSt} {K : Nat → List LBk} (k : LInv st ps K) {x a : Nat} (h : a ∈ (K x).map LBk.a) : st.mem.blk a ≠ none := by
  cases e : ps.list x with
  | none => rw [(k.dead x e).2] at h; cases h
  | some es =>
    obtain ⟨l, _, hl⟩ := k.alive x es e
    exact hl.rep.blk a h

theorem LOk.frame {m m' : LMem} {d d' : LData} {l : MyL} {es : List Nat} {bs : List LBk} (k : LOk m d l es bs) (hm : ∀ a ∈ bs.map LBk.a, m'.blk a = m.blk a)
    (hd : d.Same d' es) : LOk m' d' l es bs :=
  ⟨k.rep.congr (fun b hb => hm _ (List.mem_map.2 ⟨b, hb, rfl⟩)) (k.els ▸ hd), k.nodup, k.els, k.size⟩

theorem lOk_init (m : LMem) (d : LData) : LOk m d MyL.init [] [] := ⟨rfl, List.nodup_nil, rfl, rfl⟩

/-- a change of one list -/
theorem LInv.put {st : LSt} {ps : SkSt} {K : Nat → List LBk} (k : LInv st ps K) {x : Nat} {m' : LMem} {ptr' : List (Nat × Nat)} {size' : List Nat}
    {val' : Nat → Nat → Option Nat} {o : Option MyL} {O : Option (List Nat)} {c' : List LBk} (hf : st.mem.fresh ≤ m'.fresh)
    (hb : ∀ a, m'.blk a ≠ none → 0 < a ∧ a < m'.fresh) (hn : O = none → o = none ∧ c' = [])
    (hs : ∀ es, O = some es → ∃ l, o = some l ∧ LOk m' ⟨ptr', size', val'⟩ l es c')
    (hm : ∀ a, a ∉ (K x).map LBk.a → a < st.mem.fresh → m'.blk a = st.mem.blk a)
    (hnew : ∀ a ∈ c'.map LBk.a, a ∈ (K x).map LBk.a ∨ st.mem.fresh ≤ a)
    (hown : ∀ a, m'.blk a ≠ none → a ∈ c'.map LBk.a ∨ (a ∉ (K x).map LBk.a ∧ st.mem.blk a ≠ none)) (hlen : ptr'.length = size'.length)
    (hd : ∀ y es, y ≠ x → ps.list y = some es → (st.data ps).Same ⟨ptr', size', val'⟩ es)
    (hfut : ∀ h i, size'.length ≤ h → val' h i = none) :
    LInv ⟨m', upd st.list x o, ptr'⟩ ⟨upd ps.list x O, size', val'⟩ (upd K x c') := by
  have hlt : ∀ y a, a ∈ (K y).map LBk.a → a < st.mem.fresh := fun y a ha => (k.bound a (k.blk ha)).2
  refine ⟨Nat.lt_of_lt_of_le k.fresh hf, hb, fun y hy => ?_, fun y es hy => ?_, fun y z a hy hz => ?_, fun a ha => ?_, hlen, hfut⟩
  · dsimp only at hy ⊢
    by_cases e : y = x
    · subst e
      rw [upd_same] at hy
      rw [upd_same, upd_same]
      exact hn hy
    · rw [upd_ne _ _ e] at hy
      rw [upd_ne _ _ e, upd_ne _ _ e]
      exact k.dead y hy
  · dsimp only at hy ⊢
    by_cases e : y = x
    · subst e
      rw [upd_same] at hy
      rw [upd_same, upd_same]
      exact hs es hy
    · rw [upd_ne _ _ e] at hy
      rw [upd_ne _ _ e, upd_ne _ _ e]
      obtain ⟨l, g1, g2⟩ := k.alive y es hy
      exact ⟨l, g1, g2.frame (fun a ha => hm a (fun h => e (k.disj y x a ha h)) (hlt y a ha)) (hd y es e hy)⟩
  · by_cases e : y = x <;> by_cases e' : z = x
    · rw [e, e']
    · subst e
      rw [upd_same] at hy
      rw [upd_ne _ _ e'] at hz
      rcases hnew a hy with h | h
      · exact k.disj _ _ a h hz
      · have := hlt z a hz; omega
    · subst e'
      rw [upd_same] at hz
      rw [upd_ne _ _ e] at hy
      rcases hnew a hz with h | h
      · exact k.disj _ _ a hy h
      · have := hlt y a hy; omega
    · rw [upd_ne _ _ e] at hy
      rw [upd_ne _ _ e'] at hz
      exact k.disj _ _ a hy hz
  · rcases hown a ha with h | ⟨h, h'⟩
    · exact ⟨x, by rw [upd_same]; exact h⟩
    · obtain ⟨y, hy⟩ := k.own a h'
      have e : y ≠ x := fun e => h (e ▸ hy)
      refine ⟨y, ?_⟩
      rw [upd_ne _ _ e]
      exact hy

/-- the pointer of an element -/
def LSt.at (st : LSt) (h : Nat) : Nat × Nat := st.ptr.getD h (0, 0)

/-- the elements in a result have been allocated -/
def LRes.Known (n : Nat) (r : LRes Nat) : Prop := ∀ l, r = .ptrs l → ∀ h ∈ l, h < n

/-- the pools keep their pointers -/
theorem lStep_spec {B : Nat} (hB : 0 < B) {st : LSt} {ps : SkSt} {K : Nat → List LBk} (k : LInv st ps K) {op : LOp} {ps' : SkSt} {r : LRes Nat}
    (h : skStep ps op = some (ps', r)) :
    ∃ st' K' ext, lStep B st op = some (st', r.map st'.at) ∧ LInv st' ps' K' ∧ st'.ptr = st.ptr ++ ext ∧ r.Known st'.ptr.length := by
  have unit : ∀ n, (LRes.unit : LRes Nat).Known n := fun n l e => by cases e
  have live : ∀ {x es h}, ps.list x = some es → h ∈ es → h < st.ptr.length := by
    intro x es h hx hh
    obtain ⟨l, _, g⟩ := k.alive x es hx
    rw [g.els] at hh
    obtain ⟨_, _, _, _, _, e, _⟩ := g.rep.pos h hh
    exact (List.getElem?_eq_some_iff.1 e.ptr).1
  have initX : ∀ x, ps.list x = none → LInv ⟨st.mem, upd st.list x (some MyL.init), st.ptr⟩ ⟨upd ps.list x (some []), ps.size, ps.val⟩ (upd K x []) := by
    intro x hx
    have g2 := (k.dead x hx).2
    refine k.put (c' := []) (Nat.le_refl _) k.bound (fun e => by cases e) (fun es e => ?_) (fun _ _ _ => rfl) (fun _ h => by cases h)
      (fun a ha => .inr ⟨by rw [g2]; simp, ha⟩) k.len (fun _ _ _ _ => .refl _ _) k.future
    cases e
    exact ⟨_, rfl, lOk_init ..⟩
  have clearX : ∀ x es l, ps.list x = some es → LOk st.mem (st.data ps) l es (K x) →
      LInv ⟨st.mem.del ((K x).map LBk.a), upd st.list x (some MyL.init), st.ptr⟩ ⟨upd ps.list x (some []), ps.size, ps.val⟩ (upd K x []) := by
    intro x es l hx g2
    refine k.put (m' := st.mem.del _) (c' := []) (Nat.le_refl _) (fun a ha => k.bound a (CMem.del_some ha).2) (fun e => by cases e) (fun es e => ?_)
      (fun a ha _ => CMem.del_not ha) (fun _ h => by cases h) (fun a ha => .inr (CMem.del_some ha)) k.len (fun _ _ _ _ => .refl _ _) k.future
    cases e
    exact ⟨_, rfl, lOk_init ..⟩
  cases op with
  | new x =>
    dsimp only [skStep] at h
    dsimp only [lStep]
    cases hx : ps.list x with
    | some es => rw [hx] at h; cases h
    | none =>
      rw [hx] at h
      obtain ⟨rfl, rfl⟩ : _ ∧ _ := by simpa using h
      rw [(k.dead x hx).1]
      exact ⟨_, _, [], rfl, initX x hx, (List.append_nil _).symm, unit _⟩
  | copy x y =>
    dsimp only [skStep] at h
    dsimp only [lStep]
    cases hy : ps.list y with
    | none => rw [hy] at h; cases h
    | some fs =>
      obtain ⟨o, o1, o2⟩ := k.alive y fs hy
      rw [hy, Option.bind_some] at h
      rw [o1, Option.bind_some]
      cases hx : ps.list x with
      | some es => rw [hx] at h; cases h
      | none =>
        rw [hx] at h
        rw [(k.dead x hx).1, o2.size]
        by_cases hf : fs = []
        · subst hf
          obtain ⟨rfl, rfl⟩ : _ ∧ _ := by simpa using h
          exact ⟨_, _, [], rfl, initX x hx, (List.append_nil _).symm, unit _⟩
        · rw [if_neg (by simp), if_pos hf] at h
          cases h
          rw [if_neg (by simp), if_pos (by simpa using hf)]
          exact ⟨_, _, [], rfl, k, (List.append_nil _).symm, fun l e => by cases e⟩
  | assign x y =>
    dsimp only [skStep] at h
    dsimp only [lStep]
    cases hy : ps.list y with
    | none => rw [hy] at h; cases h
    | some fs =>
      obtain ⟨o, o1, o2⟩ := k.alive y fs hy
      rw [hy, Option.bind_some] at h
      rw [o1, Option.bind_some]
      cases hx : ps.list x with
      | none => rw [hx] at h; cases h
      | some es =>
        obtain ⟨l, g1, g2⟩ := k.alive x es hx
        rw [hx, Option.bind_some] at h
        rw [g1, Option.bind_some, o2.size]
        by_cases hf : fs = []
        · subst hf
          rw [if_neg (by simp)] at h
          cases h
          rw [if_neg (by simp), lClear_spec g2]
          exact ⟨_, _, [], rfl, clearX x es l hx g2, (List.append_nil _).symm, unit _⟩
        · rw [if_pos hf] at h
          cases h
          rw [if_pos (by simpa using hf)]
          exact ⟨_, _, [], rfl, k, (List.append_nil _).symm, fun l e => by cases e⟩
  | destroy x =>
    dsimp only [skStep] at h
    dsimp only [lStep]
    cases hx : ps.list x with
    | none => rw [hx] at h; cases h
    | some es =>
      obtain ⟨l, g1, g2⟩ := k.alive x es hx
      rw [hx] at h
      obtain ⟨rfl, rfl⟩ : _ ∧ _ := by simpa using h
      rw [g1, Option.bind_some, lClear_spec g2]
      refine ⟨_, _, [], rfl, k.put (m' := st.mem.del _) (c' := []) (Nat.le_refl _) (fun a ha => k.bound a (CMem.del_some ha).2) (fun _ => ⟨rfl, rfl⟩) (fun es e => by cases e)
        (fun a ha _ => CMem.del_not ha) (fun _ h => by cases h) (fun a ha => .inr (CMem.del_some ha)) k.len (fun _ _ _ _ => .refl _ _) k.future, (List.append_nil _).symm, unit _⟩
  | clear x =>
    dsimp only [skStep] at h
    dsimp only [lStep]
    cases hx : ps.list x with
    | none => rw [hx] at h; cases h
    | some es =>
      obtain ⟨l, g1, g2⟩ := k.alive x es hx
      rw [hx] at h
      obtain ⟨rfl, rfl⟩ : _ ∧ _ := by simpa using h
      rw [g1, Option.bind_some, lClear_spec g2]
      exact ⟨_, _, [], rfl, clearX x es l hx g2, (List.append_nil _).symm, unit _⟩
  | alloc x n =>
    dsimp only [skStep] at h
    dsimp only [lStep]
    cases hx : ps.list x with
    | none => rw [hx] at h; cases h
    | some es =>
      obtain ⟨l, g1, g2⟩ := k.alive x es hx
      rw [hx] at h
      obtain ⟨rfl, rfl⟩ : _ ∧ _ := by simpa using h
      obtain ⟨m', a, i, bs', e1, e2, e3⟩ := lAlloc_spec hB g2 k.fresh k.bound k.len (fun i => k.future _ i (Nat.le_refl _)) n
      rw [g1, Option.bind_some, e1]
      refine ⟨⟨m', upd st.list x (some ⟨(a, i), l.size + 1⟩), st.ptr ++ [(a, i + 1)]⟩, upd K x bs', [(a, i + 1)], ?_,
        k.put (m' := m') (c' := bs') e2.fresh e2.bound (fun e => by cases e) (fun es e => ?_) e2.other e2.new (fun b hb => ?_) (by simp [k.len])
        (fun y fs hy hfs h hh => ?_) (fun h i hh => k.future h i (by simp at hh; omega)), rfl, fun l' e h hh => ?_⟩
      · simp [LRes.map, LSt.at, ← k.len]
      · cases e
        exact ⟨_, rfl, e3⟩
      · by_cases hbc : b ∈ bs'.map LBk.a
        · exact .inl hbc
        · rcases e2.own b hb with h1 | h1
          · exact .inl h1
          · exact .inr ⟨fun h2 => hbc (e2.sub b h2), h1⟩
      · have h2 := live hfs hh
        have h1 : h < ps.size.length := by rw [← k.len]; exact h2
        exact ⟨List.getElem?_append_left h2, List.getElem?_append_left h1, fun _ => rfl⟩
      · cases e
        rw [List.mem_singleton] at hh
        simp [hh, k.len]
  | pop x =>
    dsimp only [skStep] at h
    dsimp only [lStep]
    cases hx : ps.list x with
    | none => rw [hx] at h; cases h
    | some es =>
      obtain ⟨l, g1, g2⟩ := k.alive x es hx
      rw [hx, Option.bind_some] at h
      cases es with
      | nil => cases h
      | cons e es =>
        cases h
        obtain ⟨m', l', bs', e1, e2, e3, e4, e5, e6⟩ := lPop_spec g2
        rw [g1, Option.bind_some, e1]
        refine ⟨_, _, [], rfl, k.put (m' := m') (c' := bs') (by rw [e2]; exact Nat.le_refl _) (fun a ha => by rw [e2]; exact k.bound a (e5 a ha).1) (fun e => by cases e)
          (fun es e => ?_) (fun a ha _ => e3 a ha) (fun a ha => .inl (e4 a ha)) (fun a ha => ?_) k.len (fun _ _ _ _ => .refl _ _) k.future, (List.append_nil _).symm, unit _⟩
        · cases e
          exact ⟨_, rfl, e6⟩
        · obtain ⟨h1, h2⟩ := e5 a ha
          by_cases h3 : a ∈ (K x).map LBk.a
          · exact .inl (h2 h3)
          · exact .inr ⟨h3, h1⟩
  | front x =>
    dsimp only [skStep] at h
    dsimp only [lStep]
    cases hx : ps.list x with
    | none => rw [hx] at h; cases h
    | some es =>
      obtain ⟨l, g1, g2⟩ := k.alive x es hx
      rw [hx, Option.bind_some] at h
      cases es with
      | nil => cases h
      | cons e es =>
        cases h
        have hne : l.front ≠ (0, 0) := fun e0 => by
          have := (bk_es_nil g2).2 ((bk_null g2.rep).1 e0)
          cases this
        rw [g1, Option.bind_some, if_neg hne]
        refine ⟨st, K, [], ?_, k, (List.append_nil _).symm, fun l' e' h hh => ?_⟩
        · have hels := g2.els
          have hrep := g2.rep
          cases hK : K x with
          | nil => rw [hK] at hels; cases hels
          | cons b bs =>
            rw [hK] at hels hrep
            obtain ⟨h1, _, _, _, q, h5, _⟩ := hrep
            rw [List.flatMap_cons] at hels
            cases hhs : b.hs with
            | nil => exact absurd hhs h5.ne
            | cons h hs =>
              rw [hhs, List.cons_append] at hels
              injection hels with he1 _
              subst he1
              have hel : ∃ s, LEl st.mem (st.data ps) b.a b.i e s := by
                rw [hhs] at h5
                cases hs with
                | nil => obtain ⟨s, e1, _⟩ := h5; exact ⟨s, e1⟩
                | cons _ _ => obtain ⟨s, e1, _⟩ := h5; exact ⟨s, e1⟩
              obtain ⟨s, e1⟩ := hel
              have : st.ptr[e]? = some (b.a, b.i + 1) := e1.ptr
              rw [h1]
              simp [LRes.map, LSt.at, this]
        · cases e'
          rw [List.mem_singleton] at hh
          subst hh
          exact live hx (List.mem_cons_self ..)
  | elems x =>
    dsimp only [skStep] at h
    dsimp only [lStep]
    cases hx : ps.list x with
    | none => rw [hx] at h; cases h
    | some es =>
      obtain ⟨l, g1, g2⟩ := k.alive x es hx
      rw [hx] at h
      obtain ⟨rfl, rfl⟩ : _ ∧ _ := by simpa using h
      have := lIter_spec g2.rep
      rw [← g2.els, ← g2.size] at this
      rw [g1, Option.bind_some, this]
      refine ⟨st, K, [], rfl, k, (List.append_nil _).symm, fun l' e' h hh => ?_⟩
      cases e'
      exact live hx hh
  | size x =>
    dsimp only [skStep] at h
    dsimp only [lStep]
    cases hx : ps.list x with
    | none => rw [hx] at h; cases h
    | some es =>
      obtain ⟨l, g1, g2⟩ := k.alive x es hx
      rw [hx] at h
      obtain ⟨rfl, rfl⟩ : _ ∧ _ := by simpa using h
      rw [g1, Option.map_some, g2.size]
      exact ⟨st, K, [], rfl, k, (List.append_nil _).symm, fun l' e' => by cases e'⟩
  | isEmpty x =>
    dsimp only [skStep] at h
    dsimp only [lStep]
    cases hx : ps.list x with
    | none => rw [hx] at h; cases h
    | some es =>
      obtain ⟨l, g1, g2⟩ := k.alive x es hx
      rw [hx] at h
      obtain ⟨rfl, rfl⟩ : _ ∧ _ := by simpa using h
      rw [g1, Option.map_some]
      have hiff : l.front = (0, 0) ↔ es = [] := (bk_null g2.rep).trans (bk_es_nil g2).symm
      refine ⟨st, K, [], ?_, k, (List.append_nil _).symm, fun l' e' => by cases e'⟩
      have : decide (l.front = (0, 0)) = es.isEmpty := by
        rw [Bool.eq_iff_iff]
        simp [hiff]
      rw [this]
      rfl
  | store x hd j w =>
    dsimp only [skStep] at h
    dsimp only [lStep]
    cases hx : ps.list x with
    | none => rw [hx] at h; cases h
    | some es =>
      obtain ⟨l, g1, g2⟩ := k.alive x es hx
      rw [hx, Option.bind_some] at h
      cases hs : ps.size[hd]? with
      | none => rw [hs] at h; cases h
      | some n =>
        rw [hs, Option.bind_some] at h
        by_cases hc : hd ∈ es ∧ 8 * j < n
        · rw [if_pos hc] at h
          obtain ⟨rfl, rfl⟩ : _ ∧ _ := by simpa using h
          have hmem := hc.1
          rw [g2.els] at hmem
          obtain ⟨b, hb, hbh, o, n', e, ho⟩ := g2.rep.pos hd hmem
          have hnn : n' = n := by
            have := e.size
            rw [show (st.data ps).size = ps.size from rfl, hs] at this
            cases this
            rfl
          subst hnn
          obtain ⟨bb, b1, b2⟩ := e.room
          obtain ⟨m', e1, e2, e3, e4⟩ := CMem.store_spec b1 (i := o + 1 + j) (by unfold numCells at b2; omega) (LWord.data w)
          have ha : b.a ∈ (K x).map LBk.a := List.mem_map.2 ⟨b, hb, rfl⟩
          rw [show st.ptr[hd]? = some (b.a, o + 1) from e.ptr, Option.bind_some]
          dsimp only
          rw [e1]
          have hblk : ∀ c, m'.blk c ≠ none → st.mem.blk c ≠ none := by
            intro c hc
            by_cases e : c = b.a
            · rw [e]; exact k.blk ha
            · rw [e4 c e] at hc; exact hc
          have hst : LOk m' ⟨st.ptr, ps.size, upd ps.val hd (upd (ps.val hd) j (some w))⟩ l es (K x) := by
            refine ⟨g2.rep.store e hc.2 (w := w) (CMem.load_of e3 (by show o + 1 + j < bb.len; unfold numCells at b2; omega) (by dsimp only; rw [upd_same])) (fun c hc => ?_)
              (fun b' hb' => ⟨_, e3, by rw [b1] at hb'; cases hb'; rfl⟩) e4 g2.nodup hmem, g2.nodup, g2.els, g2.size⟩
            unfold CMem.load
            rw [e3, b1]
            dsimp only [Option.bind_some]
            rw [upd_ne _ _ hc]
          have := k.put (x := x) (m' := m') (c' := K x) (ptr' := st.ptr) (size' := ps.size) (val' := upd ps.val hd (upd (ps.val hd) j (some w)))
            (o := st.list x) (O := ps.list x) (by rw [e2]; exact Nat.le_refl _) (fun c hc => by rw [e2]; exact k.bound c (hblk c hc)) (fun e => k.dead x e)
            (fun es' e' => ?_) (fun c hc _ => e4 c fun e => hc (e ▸ ha)) (fun c hc => .inl hc) (fun c hc => ?_) k.len (fun y fs hy hfs h' hh' => ?_) (fun h' i hh' => ?_)
          · rw [upd_self, upd_self] at this
            exact ⟨_, _, [], rfl, this, (List.append_nil _).symm, unit _⟩
          · rw [hx] at e'
            cases e'
            exact ⟨l, g1, hst⟩
          · by_cases h1 : c ∈ (K x).map LBk.a
            · exact .inl h1
            · exact .inr ⟨h1, hblk c hc⟩
          · have hne : h' ≠ hd := by
              rintro rfl
              obtain ⟨q, _, q2⟩ := k.alive y fs hfs
              rw [q2.els] at hh'
              obtain ⟨b', hb', _, o', n'', e', _⟩ := q2.rep.pos h' hh'
              exact hy (k.disj y x _ (by rw [(e'.loc e).1]; exact List.mem_map.2 ⟨b', hb', rfl⟩) ha)
            exact ⟨rfl, rfl, fun j => by dsimp only; rw [upd_ne _ _ hne]; rfl⟩
          · have h1 := (List.getElem?_eq_some_iff.1 hs).1
            rw [upd_ne _ _ (by omega)]
            exact k.future h' i hh'
        · rw [if_neg hc] at h; cases h
  | load x hd j =>
    dsimp only [skStep] at h
    dsimp only [lStep]
    cases hx : ps.list x with
    | none => rw [hx] at h; cases h
    | some es =>
      obtain ⟨l, g1, g2⟩ := k.alive x es hx
      rw [hx, Option.bind_some] at h
      cases hs : ps.size[hd]? with
      | none => rw [hs] at h; cases h
      | some n =>
        rw [hs, Option.bind_some] at h
        by_cases hc : hd ∈ es ∧ 8 * j < n
        · rw [if_pos hc] at h
          cases hv : ps.val hd j with
          | none => rw [hv] at h; cases h
          | some w =>
            rw [hv] at h
            obtain ⟨rfl, rfl⟩ : _ ∧ _ := by simpa using h
            have hmem := hc.1
            rw [g2.els] at hmem
            obtain ⟨b, hb, hbh, o, n', e, ho⟩ := g2.rep.pos hd hmem
            have hnn : n' = n := by
              have := e.size
              rw [show (st.data ps).size = ps.size from rfl, hs] at this
              cases this
              rfl
            subst hnn
            rw [show st.ptr[hd]? = some (b.a, o + 1) from e.ptr, Option.bind_some]
            dsimp only
            rw [e.val j w hc.2 hv]
            exact ⟨st, K, [], rfl, k, (List.append_nil _).symm, fun l' e' => by cases e'⟩
        · rw [if_neg hc] at h; cases h

theorem LRes.map_known {st st' : LSt} {ext : List (Nat × Nat)} (h : st'.ptr = st.ptr ++ ext) {r : LRes Nat} (hr : r.Known st.ptr.length) : r.map st.at = r.map st'.at := by
  cases r with
  | ptrs l =>
    have := hr l rfl
    refine congrArg LRes.ptrs (List.map_congr_left fun x hx => ?_)
    have hlt := this x hx
    unfold LSt.at
    rw [h]
    simp [List.getD_eq_getElem?_getD, List.getElem?_append_left hlt]
  | _ => rfl

theorem lRun_spec {B : Nat} (hB : 0 < B) : ∀ (ops : List LOp) {st : LSt} {ps : SkSt} {K : Nat → List LBk}, LInv st ps K → ∀ {ps' : SkSt} {rs : List (LRes Nat)},
    skRun ps ops = some (ps', rs) → ∃ st' K' ext, lRun B st ops = some (st', rs.map (LRes.map st'.at)) ∧ LInv st' ps' K' ∧ st'.ptr = st.ptr ++ ext
  | [], st, ps, K, k, ps', rs, h => by
    cases h
    exact ⟨st, K, [], rfl, k, (List.append_nil _).symm⟩
  | op :: ops, st, ps, K, k, ps', rs, h => by
    unfold skRun at h
    cases h1 : skStep ps op with
    | none => rw [h1] at h; cases h
    | some q =>
      obtain ⟨ps1, r1⟩ := q
      rw [h1, Option.bind_some] at h
      cases h2 : skRun ps1 ops with
      | none => dsimp only at h; rw [h2] at h; cases h
      | some q =>
        obtain ⟨ps2, rs2⟩ := q
        dsimp only at h
        rw [h2] at h
        cases h
        obtain ⟨st1, K1, x1, e1, k1, p1, w1⟩ := lStep_spec hB k h1
        obtain ⟨st2, K2, x2, e2, k2, p2⟩ := lRun_spec hB ops k1 h2
        refine ⟨st2, K2, x1 ++ x2, ?_, k2, by rw [p2, p1, List.append_assoc]⟩
        unfold lRun
        rw [e1, Option.bind_some]
        dsimp only
        rw [e2, LRes.map_known p2 w1]
        rfl

theorem lInv_empty : LInv LSt.empty SkSt.empty (fun _ => []) :=
  ⟨by decide, fun _ h => absurd rfl h, fun _ _ => ⟨rfl, rfl⟩, fun _ _ h => (by cases h), fun _ _ _ h => (by cases h), fun _ h => absurd rfl h, rfl, fun _ _ _ => rfl⟩

end TdZdd
