import Verif.TableSem

/-! What a reduction of a node table must satisfy, and what follows from it. -/

namespace TdZdd

variable {N : Nat}

/-- BDD deletion rule: all children are equal. -/
def delB (c : Node (N + 1)) : Prop := ∀ b, c b = c 0
/-- ZDD deletion rule: all children but the 0-child are the 0-terminal. -/
def delZ (c : Node (N + 1)) : Prop := ∀ b, b ≠ 0 → c b = .zero
/-- all children are the 0-terminal -/
def delQ (c : Node (N + 1)) : Prop := ∀ b, c b = .zero

instance (c : Node (N + 1)) : Decidable (delB c) := by unfold delB; infer_instance
instance (c : Node (N + 1)) : Decidable (delZ c) := by unfold delZ; infer_instance
instance (c : Node (N + 1)) : Decidable (delQ c) := by unfold delQ; infer_instance

/-- `out` is the result of reducing rows `1..n` of `T`, with new ids `nid`. -/
structure RedOf (del : Node (N + 1) → Prop) (T : Table (N + 1)) (n : Nat) (nid : NodeId → NodeId)
    (out : Table (N + 1)) : Prop where
  term : ∀ {f}, f.row = 0 → nid f = f
  node : ∀ {f nd}, 0 < f.row → f.row ≤ n → T.node? f = some nd →
    (del (nid ∘ nd) ∧ nid f = nid (nd 0)) ∨
    (¬ del (nid ∘ nd) ∧ (nid f).row = f.row ∧ out.node? (nid f) = some (nid ∘ nd))
  hit : ∀ {g nd}, 0 < g.row → out.node? g = some nd →
    g.row ≤ n ∧ ∃ f nd', f.row = g.row ∧ T.node? f = some nd' ∧ nid f = g
  nodup : out.Unique

variable {del : Node (N + 1) → Prop} {T : Table (N + 1)} {n : Nat} {nid : NodeId → NodeId}
  {out : Table (N + 1)}

theorem RedOf.zero (h : RedOf del T n nid out) : nid .zero = .zero := h.term rfl
theorem RedOf.one (h : RedOf del T n nid out) : nid .one = .one := h.term rfl

theorem RedOf.valid (h : RedOf del T n nid out) (hw : T.Wf) : ∀ (r : Nat) {f : NodeId}, f.row ≤ r →
    f.row ≤ n → T.Valid f → out.Valid (nid f) ∧ (nid f).row ≤ f.row := by
  intro r
  induction r with
  | zero =>
    intro f h0 _ hv
    rw [h.term (by omega)]
    rcases hv.row0 (by omega) with rfl | rfl
    · exact ⟨.zero, Nat.le_refl _⟩
    · exact ⟨.one, Nat.le_refl _⟩
  | succ r ih =>
    intro f h0 hn hv
    by_cases hf : f.row = 0
    · exact ih (by omega) hn hv
    · obtain ⟨nd, hnd⟩ := hv.pos (by omega)
      rcases h.node (by omega) hn hnd with ⟨_, he⟩ | ⟨_, he, ho⟩
      · have hc := hw.child (by omega) hnd 0
        have := ih (f := nd 0) (by omega) (by omega) hc.1
        rw [he]
        exact ⟨this.1, by omega⟩
      · exact ⟨Table.valid_of_node (by omega) ho, by omega⟩

/-- an output node comes from an input node with the given new id -/
theorem RedOf.hit' (h : RedOf del T n nid out) (hw : T.Wf) {g : NodeId} {nd : Node (N + 1)}
    (h0 : 0 < g.row) (hg : out.node? g = some nd) : g.row ≤ n ∧ ¬ del nd ∧
      ∃ f nd', f.row = g.row ∧ T.node? f = some nd' ∧ nid f = g ∧ nd = nid ∘ nd' := by
  obtain ⟨hn, f, nd', hr, hf, he⟩ := h.hit h0 hg
  refine ⟨hn, ?_⟩
  rcases h.node (by omega) (by omega) hf with ⟨_, h2⟩ | ⟨h1, _, h3⟩
  · have hc := hw.child (by omega) hf 0
    have := (h.valid hw _ (Nat.le_refl _) (by omega) hc.1).2
    rw [he] at h2
    rw [← h2] at this
    omega
  · rw [he, hg] at h3
    cases h3
    exact ⟨h1, f, nd', hr, hf, he, rfl⟩

theorem RedOf.wf (h : RedOf del T n nid out) (hw : T.Wf) : out.Wf := by
  intro r c nd h0 hn b
  obtain ⟨h1, _, f, nd', h3, h4, _, rfl⟩ := h.hit' hw (g := ⟨r, c⟩) h0 hn
  have hc := hw.child (f := f) (by rw [h3]; exact h0) h4 b
  have := h.valid hw _ (Nat.le_refl _) (f := nd' b) (by dsimp only at h1 h3; omega) hc.1
  refine ⟨this.1, ?_⟩
  dsimp only [Function.comp] at *
  omega

/-- BDD reduction keeps the function of every node. -/
theorem RedOf.tsat (h : RedOf delB T n nid out) (hw : T.Wf) : ∀ (r : Nat) {f : NodeId}, f.row ≤ r →
    f.row ≤ n → T.Valid f → ∀ a, (TSat out (nid f) a ↔ TSat T f a) := by
  intro r
  induction r with
  | zero =>
    intro f h0 _ hv a
    rw [h.term (by omega)]
    rcases hv.row0 (by omega) with rfl | rfl
    · exact ⟨fun h => absurd h not_tsat_zero, fun h => absurd h not_tsat_zero⟩
    · exact ⟨fun _ => tsat_one, fun _ => tsat_one⟩
  | succ r ih =>
    intro f h0 hn hv a
    by_cases hf : f.row = 0
    · exact ih (by omega) hn hv a
    · obtain ⟨nd, hnd⟩ := hv.pos (by omega)
      rw [tsat_node (by omega) hnd]
      have hc := hw.child (by omega) hnd (a f.row)
      rw [← ih (f := nd (a f.row)) (by omega) (by omega) hc.1]
      rcases h.node (by omega) hn hnd with ⟨hd, he⟩ | ⟨_, he, ho⟩
      · rw [he]
        have := hd (a f.row)
        dsimp only [Function.comp] at this
        rw [this]
      · rw [tsat_node (by omega) ho, he]
        rfl

/-- ZDD reduction keeps the family of every node. -/
theorem RedOf.tmem (h : RedOf delZ T n nid out) (hw : T.Wf) : ∀ (r : Nat) {f : NodeId}, f.row ≤ r →
    f.row ≤ n → T.Valid f → ∀ m a, f.row ≤ m → (TMem out m (nid f) a ↔ TMem T m f a) := by
  intro r
  have hwo := h.wf hw
  induction r with
  | zero =>
    intro f h0 _ hv m a _
    rw [h.term (by omega)]
    rcases hv.row0 (by omega) with rfl | rfl
    · exact ⟨fun h => absurd h not_tmem_zero, fun h => absurd h not_tmem_zero⟩
    · rw [tmem_one, tmem_one]
  | succ r ih =>
    intro f h0 hn hv m a hm
    by_cases hf : f.row = 0
    · exact ih (by omega) hn hv m a hm
    · obtain ⟨nd, hnd⟩ := hv.pos (by omega)
      have hc := fun b => hw.child (by omega) hnd b
      rw [tmem_raise hw (m := f.row) (m' := m) (Nat.le_refl _) hm, tmem_node (by omega) hnd]
      have ih' := fun b m' hm' => ih (f := nd b) (by have := hc b; omega) (by have := hc b; omega)
        (hc b).1 m' a hm'
      have hv0 := h.valid hw _ (Nat.le_refl _) hn hv
      rw [tmem_raise hwo (m := f.row) (m' := m) (by omega) hm]
      refine and_congr Iff.rfl ?_
      rw [← ih' (a f.row) (f.row - 1) (by have := hc (a f.row); omega)]
      rcases h.node (by omega) hn hnd with ⟨hd, he⟩ | ⟨_, he, ho⟩
      · rw [he]
        have hv1 := h.valid hw _ (Nat.le_refl _) (f := nd 0) (by have := hc 0; omega) (hc 0).1
        rw [tmem_raise hwo (m := f.row - 1) (m' := f.row) (by have := hc 0; omega) (by omega)]
        by_cases ha : a f.row = 0
        · rw [ha]
          constructor
          · exact fun h => h.2
          · refine fun h => ⟨fun j h1 h2 => ?_, h⟩
            have : j = f.row := by omega
            subst this
            rw [ha]; rfl
        · constructor
          · rintro ⟨h1, _⟩
            exact absurd (Fin.ext (h1 f.row (by omega) (Nat.le_refl _))) ha
          · intro h1
            have := hd _ ha
            dsimp only [Function.comp] at this
            rw [this] at h1
            exact absurd h1 not_tmem_zero
      · have e : TMem out f.row (nid f) a ↔ TMem out (nid f).row (nid f) a := by rw [he]
        rw [e, tmem_node (by omega) ho, he]
        rfl

/-- a reduction that deletes at most all-zero nodes keeps the accepted paths of every node -/
theorem RedOf.tacc (h : RedOf del T n nid out) (hw : T.Wf) (hdel : ∀ c, del c → delQ c) :
    ∀ (p : Path (N + 1)) {f : NodeId}, f.row ≤ n → T.Valid f → (TAcc out (nid f) p ↔ TAcc T f p) := by
  intro p
  induction p with
  | nil =>
    intro f hn hv
    by_cases hf : f.row = 0
    · rw [h.term hf]
      rcases hv.row0 hf with rfl | rfl
      · exact ⟨fun h => absurd h not_tacc_zero, fun h => absurd h not_tacc_zero⟩
      · rw [tacc_one, tacc_one]
    · obtain ⟨nd, hnd⟩ := hv.pos (by omega)
      rw [tacc_node (by omega) hnd]
      rcases h.node (by omega) hn hnd with ⟨hd, he⟩ | ⟨_, he, ho⟩
      · rw [he]
        have := hdel _ hd 0
        dsimp only [Function.comp] at this
        rw [this]
        constructor
        · exact fun h => absurd h not_tacc_zero
        · rintro ⟨_, _, h, _⟩; cases h
      · rw [tacc_node (by omega) ho]
        constructor <;> rintro ⟨_, _, h, _⟩ <;> cases h
  | cons x p ih =>
    intro f hn hv
    by_cases hf : f.row = 0
    · rw [h.term hf]
      rcases hv.row0 hf with rfl | rfl
      · exact ⟨fun h => absurd h not_tacc_zero, fun h => absurd h not_tacc_zero⟩
      · rw [tacc_one, tacc_one]
    · obtain ⟨nd, hnd⟩ := hv.pos (by omega)
      rw [tacc_node (by omega) hnd]
      have hc := fun b => hw.child (by omega) hnd b
      have ih' := fun b => ih (f := nd b) (by have := hc b; omega) (hc b).1
      rcases h.node (by omega) hn hnd with ⟨hd, he⟩ | ⟨_, he, ho⟩
      · rw [he]
        have hz := fun b => hdel _ hd b
        dsimp only [Function.comp] at hz
        rw [hz]
        constructor
        · exact fun h => absurd h not_tacc_zero
        · rintro ⟨b, q, h, hq⟩
          cases h
          rw [← ih' b, hz] at hq
          exact absurd hq not_tacc_zero
      · rw [tacc_node (by omega) ho, he]
        constructor
        · rintro ⟨b, q, h, hq⟩
          cases h
          exact ⟨b, p, rfl, (ih' b).1 hq⟩
        · rintro ⟨b, q, h, hq⟩
          cases h
          exact ⟨b, p, rfl, (ih' b).2 hq⟩

/-- Edges that point to deletable nodes may be redirected beforehand. -/
structure Comp (del : Node (N + 1) → Prop) (T T' : Table (N + 1)) (comp : NodeId → NodeId) : Prop where
  node : ∀ {f}, 0 < f.row → T'.node? f = (T.node? f).map (fun nd => comp ∘ nd)
  comp : ∀ {f}, comp f = f ∨ 0 < f.row ∧ ∃ nd, T'.node? f = some nd ∧ del nd ∧ comp f = nd 0

theorem RedOf.comp {T' : Table (N + 1)} {cmp : NodeId → NodeId} (h : RedOf del T' n nid out)
    (hc : Comp del T T' cmp) (hw : T.Wf)
    (hdel : ∀ c, del c → del (nid ∘ c)) : RedOf del T n nid out := by
  have key : ∀ f, f.row ≤ n → nid (cmp f) = nid f := by
    intro f hf
    rcases hc.comp (f := f) with e | ⟨h0, nd, h1, h2, h3⟩
    · rw [e]
    · rw [h3]
      rcases h.node h0 hf h1 with ⟨_, e⟩ | ⟨h4, _⟩
      · exact e.symm
      · exact absurd (hdel _ h2) h4
  refine ⟨h.term, ?_, ?_, h.nodup⟩
  · intro f nd h0 hn hnd
    have hnd' : T'.node? f = some (cmp ∘ nd) := by rw [hc.node h0, hnd]; rfl
    have e : nid ∘ (cmp ∘ nd) = nid ∘ nd := by
      funext b
      exact key (nd b) (by have := (hw.child h0 hnd b).2; omega)
    have e0 : nid ((cmp ∘ nd) 0) = nid (nd 0) := congrFun e 0
    have := h.node h0 hn hnd'
    rw [e, e0] at this
    exact this
  · intro g nd h0 hg
    obtain ⟨h1, f, nd', h2, h3, h4⟩ := h.hit h0 hg
    rw [hc.node (by omega)] at h3
    obtain ⟨nd'', h5, _⟩ := Option.map_eq_some_iff.1 h3
    exact ⟨h1, f, nd'', h2, h5, h4⟩

theorem Comp.wf {T' : Table (N + 1)} {cmp : NodeId → NodeId} (hc : Comp del T T' cmp) (hw : T.Wf) :
    T'.Wf := by
  have key : ∀ (r : Nat) {f : NodeId}, f.row ≤ r → T.Valid f → T'.Valid (cmp f) ∧ (cmp f).row ≤ f.row := by
    intro r
    induction r with
    | zero =>
      intro f h0 hv
      rcases hc.comp (f := f) with e | ⟨h, _⟩
      · rw [e]
        rcases hv.row0 (by omega) with rfl | rfl
        · exact ⟨.zero, Nat.le_refl _⟩
        · exact ⟨.one, Nat.le_refl _⟩
      · omega
    | succ r ih =>
      intro f h0 hv
      by_cases hf : f.row = 0
      · exact ih (by omega) hv
      obtain ⟨nd, hnd⟩ := hv.pos (by omega)
      have hnd' : T'.node? f = some (cmp ∘ nd) := by rw [hc.node (by omega), hnd]; rfl
      rcases hc.comp (f := f) with e | ⟨h, nd1, h1, _, h3⟩
      · rw [e]; exact ⟨Table.valid_of_node (by omega) hnd', Nat.le_refl _⟩
      · rw [hnd'] at h1; cases h1
        have hch := hw.child (by omega) hnd 0
        have := ih (f := nd 0) (by omega) hch.1
        rw [h3]
        dsimp only [Function.comp]
        exact ⟨this.1, by omega⟩
  intro r c nd h0 hn b
  rw [hc.node (f := ⟨r, c⟩) h0] at hn
  obtain ⟨nd', h1, h2⟩ := Option.map_eq_some_iff.1 hn
  have hch := hw r c nd' h0 h1 b
  have := key _ (Nat.le_refl _) hch.1
  rw [← h2]
  dsimp only [Function.comp]
  exact ⟨this.1, by omega⟩

/-- redirecting edges around all-zero nodes keeps the accepted paths -/
theorem Comp.tacc {T' : Table (N + 1)} {cmp : NodeId → NodeId} (hc : Comp delQ T T' cmp) (hw : T.Wf) :
    ∀ (p : Path (N + 1)) {f : NodeId}, T.Valid f →
      (TAcc T' f p ↔ TAcc T f p) ∧ (TAcc T' (cmp f) p ↔ TAcc T f p) := by
  intro p
  have stepc : ∀ {f : NodeId}, (TAcc T' f p ↔ TAcc T f p) → (TAcc T' (cmp f) p ↔ TAcc T f p) := by
    intro f hf
    rcases hc.comp (f := f) with e | ⟨h0, nd, h1, h2, h3⟩
    · rw [e]; exact hf
    · rw [h3, h2 0, ← hf, tacc_node h0 h1]
      constructor
      · exact fun h => absurd h not_tacc_zero
      · rintro ⟨b, q, _, h⟩
        rw [h2 b] at h
        exact absurd h not_tacc_zero
  have term : ∀ {f : NodeId}, f.row = 0 → T.Valid f → (TAcc T' f p ↔ TAcc T f p) := by
    intro f h0 hv
    rcases hv.row0 h0 with rfl | rfl
    · exact ⟨fun h => absurd h not_tacc_zero, fun h => absurd h not_tacc_zero⟩
    · rw [tacc_one, tacc_one]
  induction p with
  | nil =>
    intro f hv
    have key : TAcc T' f [] ↔ TAcc T f [] := by
      by_cases hf : f.row = 0
      · exact term hf hv
      · obtain ⟨nd, hnd⟩ := hv.pos (by omega)
        have hnd' : T'.node? f = some (cmp ∘ nd) := by rw [hc.node (by omega), hnd]; rfl
        rw [tacc_node (by omega) hnd, tacc_node (by omega) hnd']
        constructor <;> rintro ⟨_, _, h, _⟩ <;> cases h
    exact ⟨key, stepc key⟩
  | cons x p ih =>
    intro f hv
    have stepc' : ∀ {f : NodeId}, (TAcc T' f p ↔ TAcc T f p) → (TAcc T' (cmp f) p ↔ TAcc T f p) := by
      intro f hf
      rcases hc.comp (f := f) with e | ⟨h0, nd, h1, h2, h3⟩
      · rw [e]; exact hf
      · rw [h3, h2 0, ← hf, tacc_node h0 h1]
        constructor
        · exact fun h => absurd h not_tacc_zero
        · rintro ⟨b, q, _, h⟩
          rw [h2 b] at h
          exact absurd h not_tacc_zero
    have term' : ∀ {f : NodeId}, f.row = 0 → T.Valid f → (TAcc T' f p ↔ TAcc T f p) := by
      intro f h0 hv
      rcases hv.row0 h0 with rfl | rfl
      · exact ⟨fun h => absurd h not_tacc_zero, fun h => absurd h not_tacc_zero⟩
      · rw [tacc_one, tacc_one]
    have ih := fun {f : NodeId} (hv : T.Valid f) => ih stepc' term' hv
    have key : TAcc T' f (x :: p) ↔ TAcc T f (x :: p) := by
      by_cases hf : f.row = 0
      · exact term hf hv
      · obtain ⟨nd, hnd⟩ := hv.pos (by omega)
        have hnd' : T'.node? f = some (cmp ∘ nd) := by rw [hc.node (by omega), hnd]; rfl
        have hch := fun b => hw.child (by omega) hnd b
        rw [tacc_node (by omega) hnd, tacc_node (by omega) hnd']
        constructor
        · rintro ⟨b, q, h, hq⟩
          cases h
          exact ⟨b, p, rfl, (ih (hch b).1).2.1 hq⟩
        · rintro ⟨b, q, h, hq⟩
          cases h
          exact ⟨b, p, rfl, (ih (hch b).1).2.2 hq⟩
    exact ⟨key, stepc key⟩

end TdZdd
