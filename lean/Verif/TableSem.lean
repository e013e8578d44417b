import Verif.StructureProofs

/-! Meaning of single nodes of a node table, and isomorphism of unfolded diagrams. -/

namespace TdZdd

variable {N : Nat}

/-- `TAcc T f p`: the path `p` leads from `f` to the 1-terminal. -/
inductive TAcc (T : Table N) : NodeId → Path N → Prop
  | one : TAcc T .one []
  | step {f : NodeId} {nd : Node N} {b : Fin N} {p : Path N} : 0 < f.row → T.node? f = some nd →
      TAcc T (nd b) p → TAcc T f ((f.row, b) :: p)

/-- BDD reading of a node. -/
def TSat (T : Table N) (f : NodeId) (a : Asg N) : Prop := ∃ p, TAcc T f p ∧ Agrees p a

/-- ZDD reading of a node over the levels `1..m`. -/
def TMem (T : Table N) (m : Nat) (f : NodeId) (a : Asg N) : Prop :=
  ∃ p, TAcc T f p ∧ Agrees p a ∧ ∀ j, 1 ≤ j → j ≤ m → (∀ b, (j, b) ∉ p) → (a j).val = 0

/-- The diagrams below `f` and `g` unfold to the same tree. -/
inductive Iso (T1 T2 : Table N) : NodeId → NodeId → Prop
  | term {f : NodeId} : f.row = 0 → Iso T1 T2 f f
  | node {f g : NodeId} {nd1 nd2 : Node N} : 0 < f.row → f.row = g.row → T1.node? f = some nd1 →
      T2.node? g = some nd2 → (∀ b, Iso T1 T2 (nd1 b) (nd2 b)) → Iso T1 T2 f g

variable {T : Table N}

theorem Table.Valid.row0 {f : NodeId} (h : T.Valid f) (h0 : f.row = 0) : f = .zero ∨ f = .one := by
  rcases h with h | h | ⟨h, _⟩
  · exact .inl h
  · exact .inr h
  · omega

theorem Table.Valid.pos {f : NodeId} (h : T.Valid f) (h0 : 0 < f.row) : ∃ nd, T.node? f = some nd := by
  rcases h with rfl | rfl | ⟨_, h⟩
  · exact absurd h0 (by decide)
  · exact absurd h0 (by decide)
  · exact h

theorem Table.Valid.one : T.Valid .one := .inr (.inl rfl)
theorem Table.Valid.zero : T.Valid .zero := .inl rfl

theorem Table.valid_of_node {f : NodeId} {nd : Node N} (h0 : 0 < f.row) (h : T.node? f = some nd) :
    T.Valid f := .inr (.inr ⟨h0, nd, h⟩)

theorem Table.Wf.child {f : NodeId} {nd : Node N} (h : T.Wf) (h0 : 0 < f.row)
    (hn : T.node? f = some nd) (b : Fin N) : T.Valid (nd b) ∧ (nd b).row < f.row :=
  h f.row f.col nd h0 hn b

theorem not_tacc_zero {p : Path N} : ¬ TAcc T .zero p := by
  intro h
  generalize hf : NodeId.zero = f at h
  cases h with
  | one => cases hf
  | step h _ _ => subst hf; exact absurd h (by decide)

theorem tacc_one {p : Path N} : TAcc T .one p ↔ p = [] := by
  constructor
  · intro h
    generalize hf : NodeId.one = f at h
    cases h with
    | one => rfl
    | step h _ _ => subst hf; exact absurd h (by decide)
  · rintro rfl; exact .one

theorem tacc_node {f : NodeId} {nd : Node N} (h0 : 0 < f.row) (hn : T.node? f = some nd)
    {p : Path N} : TAcc T f p ↔ ∃ b q, p = (f.row, b) :: q ∧ TAcc T (nd b) q := by
  constructor
  · intro h
    cases h with
    | one => exact absurd h0 (by decide)
    | step h1 h2 h3 =>
      rw [hn] at h2; cases h2
      exact ⟨_, _, rfl, h3⟩
  · rintro ⟨b, q, rfl, h⟩; exact .step h0 hn h

/-- levels on an accepted path -/
theorem TAcc.levels (hw : T.Wf) {f : NodeId} {p : Path N} (h : TAcc T f p) :
    ∀ x ∈ p, 1 ≤ x.1 ∧ x.1 ≤ f.row := by
  induction h with
  | one => simp
  | step h0 hn _ ih =>
    intro x hx
    rcases List.mem_cons.1 hx with rfl | hx
    · exact ⟨h0, Nat.le_refl _⟩
    · have := ih x hx
      have := (hw.child h0 hn ‹_›).2
      omega

/-- the meaning of a structure as a specification is the meaning of its root node -/
theorem accepts_iff_tacc {D : Dd N} (hw : D.table.Wf) (p : Path N) : ∀ {f : NodeId},
    D.table.Valid f → (Accepts D.spec (childCode f) f p ↔ TAcc D.table f p) := by
  induction p with
  | nil =>
    intro f hv
    rcases hv with rfl | rfl | ⟨h, nd, hnd⟩
    · exact ⟨fun h => absurd h dd_accepts_zero, fun h => absurd h not_tacc_zero⟩
    · rw [dd_accepts_one, tacc_one]
    · rw [dd_accepts_pos h hnd, tacc_node h hnd]
      constructor <;> rintro ⟨_, _, h, _⟩ <;> cases h
  | cons x p ih =>
    intro f hv
    rcases hv with rfl | rfl | ⟨h, nd, hnd⟩
    · exact ⟨fun h => absurd h dd_accepts_zero, fun h => absurd h not_tacc_zero⟩
    · rw [dd_accepts_one, tacc_one]
    · rw [dd_accepts_pos h hnd, tacc_node h hnd]
      constructor
      · rintro ⟨b, q, he, hq⟩
        cases he
        exact ⟨b, p, rfl, (ih (hw.child h hnd b).1).1 hq⟩
      · rintro ⟨b, q, he, hq⟩
        cases he
        exact ⟨b, p, rfl, (ih (hw.child h hnd b).1).2 hq⟩

theorem Dd.Wf.accepts_iff {D : Dd N} (h : D.Wf) (p : Path N) :
    Accepts D.spec D.spec.root.1 D.spec.root.2 p ↔ TAcc D.table D.root p := by
  have e : D.spec.root = (childCode D.root, D.root) := by
    simp only [Dd.spec]; rw [rootCode_eq h.root]
  rw [e]
  exact accepts_iff_tacc h.table p h.root

theorem Dd.Wf.bddSat_iff {D : Dd N} (h : D.Wf) (a : Asg N) : BddSat D.spec a ↔ TSat D.table D.root a := by
  simp only [BddSat, BddSatAt, TSat, h.accepts_iff]

theorem Dd.Wf.zddMem_iff {D : Dd N} (h : D.Wf) (m : Nat) (a : Asg N) :
    ZddMem D.spec m a ↔ TMem D.table m D.root a := by
  simp only [ZddMem, ZddMemAt, TMem, h.accepts_iff]

theorem not_tsat_zero {a : Asg N} : ¬ TSat T .zero a := by
  rintro ⟨p, h, _⟩; exact not_tacc_zero h

theorem tsat_one {a : Asg N} : TSat T .one a := ⟨[], .one, by simp [Agrees]⟩

theorem tsat_node {f : NodeId} {nd : Node N} (h0 : 0 < f.row) (hn : T.node? f = some nd)
    {a : Asg N} : TSat T f a ↔ TSat T (nd (a f.row)) a := by
  constructor
  · rintro ⟨p, h, ha⟩
    obtain ⟨b, q, rfl, h'⟩ := (tacc_node h0 hn).1 h
    have hb : a f.row = b := ha (f.row, b) (by simp)
    subst hb
    exact ⟨q, h', fun x hx => ha x (by simp [hx])⟩
  · rintro ⟨q, h, ha⟩
    refine ⟨(f.row, a f.row) :: q, .step h0 hn h, ?_⟩
    intro x hx
    rcases List.mem_cons.1 hx with rfl | hx
    · rfl
    · exact ha x hx

/-- a node does not depend on the levels above it -/
theorem tsat_congr (hw : T.Wf) {f : NodeId} {a a' : Asg N} (h : ∀ j, 1 ≤ j → j ≤ f.row → a j = a' j) :
    TSat T f a → TSat T f a' := by
  rintro ⟨p, hp, ha⟩
  refine ⟨p, hp, fun x hx => ?_⟩
  have := hp.levels hw x hx
  rw [← h x.1 this.1 this.2]; exact ha x hx

theorem not_tmem_zero {m : Nat} {a : Asg N} : ¬ TMem T m .zero a := by
  rintro ⟨p, h, _⟩; exact not_tacc_zero h

theorem tmem_one {m : Nat} {a : Asg N} : TMem T m .one a ↔ ∀ j, 1 ≤ j → j ≤ m → (a j).val = 0 := by
  constructor
  · rintro ⟨p, h, _, h0⟩
    rw [tacc_one] at h
    subst h
    exact fun j h1 h2 => h0 j h1 h2 (by simp)
  · exact fun h => ⟨[], .one, by simp [Agrees], fun j h1 h2 _ => h j h1 h2⟩

/-- raising the number of variables only requires value 0 at the new levels -/
theorem tmem_raise (hw : T.Wf) {m m' : Nat} {f : NodeId} {a : Asg N} (hl : f.row ≤ m) (hmm : m ≤ m') :
    TMem T m' f a ↔ (∀ j, m < j → j ≤ m' → (a j).val = 0) ∧ TMem T m f a := by
  constructor
  · rintro ⟨p, h, ha, h0⟩
    have hlv := h.levels hw
    refine ⟨fun j h1 h2 => h0 j (by omega) h2 fun b hb => ?_, p, h, ha,
      fun j h1 h2 h3 => h0 j h1 (by omega) h3⟩
    have := (hlv _ hb).2
    simp at this; omega
  · rintro ⟨hz, p, h, ha, h0⟩
    refine ⟨p, h, ha, fun j h1 h2 h3 => ?_⟩
    by_cases hj : j ≤ m
    · exact h0 j h1 hj h3
    · exact hz j (by omega) h2

theorem tmem_node {f : NodeId} {nd : Node N} (h0 : 0 < f.row) (hn : T.node? f = some nd)
    {a : Asg N} : TMem T f.row f a ↔ TMem T (f.row - 1) (nd (a f.row)) a := by
  constructor
  · rintro ⟨p, h, ha, hz⟩
    obtain ⟨b, q, rfl, h'⟩ := (tacc_node h0 hn).1 h
    have hb : a f.row = b := ha (f.row, b) (by simp)
    subst hb
    refine ⟨q, h', fun x hx => ha x (by simp [hx]), fun j h1 h2 h3 => ?_⟩
    refine hz j h1 (by omega) fun b hb => ?_
    rcases List.mem_cons.1 hb with hb | hb
    · simp at hb; omega
    · exact h3 b hb
  · rintro ⟨q, h, ha, hz⟩
    refine ⟨(f.row, a f.row) :: q, .step h0 hn h, ?_, fun j h1 h2 h3 => ?_⟩
    · intro x hx
      rcases List.mem_cons.1 hx with rfl | hx
      · rfl
      · exact ha x hx
    · by_cases hj : j = f.row
      · subst hj; exact absurd (by simp) (h3 (a f.row))
      · exact hz j h1 (by omega) fun b hb => h3 b (by simp [hb])

theorem tmem_congr {m : Nat} (hw : T.Wf) {f : NodeId} {a a' : Asg N} (hf : f.row ≤ m)
    (h : ∀ j, 1 ≤ j → j ≤ m → a j = a' j) : TMem T m f a → TMem T m f a' := by
  rintro ⟨p, hp, ha, hz⟩
  refine ⟨p, hp, fun x hx => ?_, fun j h1 h2 h3 => ?_⟩
  · have := hp.levels hw x hx
    rw [← h x.1 this.1 (by omega)]; exact ha x hx
  · rw [← h j h1 h2]; exact hz j h1 h2 h3

/-- equal unfoldings accept the same paths -/
theorem Iso.tacc {T1 T2 : Table N} {f g : NodeId} (h : Iso T1 T2 f g) :
    ∀ p, TAcc T1 f p ↔ TAcc T2 g p := by
  induction h with
  | @term f h0 =>
    intro p
    constructor <;> intro h <;> cases h with
    | one => exact .one
    | step h1 _ _ => omega
  | @node f g nd1 nd2 h0 he h1 h2 _ ih =>
    intro p
    rw [tacc_node h0 h1, tacc_node (he ▸ h0) h2, he]
    constructor
    · rintro ⟨b, q, hp, h⟩; exact ⟨b, q, hp, (ih b q).1 h⟩
    · rintro ⟨b, q, hp, h⟩; exact ⟨b, q, hp, (ih b q).2 h⟩

theorem Iso.symm {T1 T2 : Table N} {f g : NodeId} (h : Iso T1 T2 f g) : Iso T2 T1 g f := by
  induction h with
  | term h0 => exact .term h0
  | node h0 he h1 h2 _ ih => exact .node (he ▸ h0) he.symm h2 h1 ih

theorem Iso.row {T1 T2 : Table N} {f g : NodeId} (h : Iso T1 T2 f g) : f.row = g.row := by
  cases h with
  | term _ => rfl
  | node _ he _ _ _ => exact he

theorem Iso.trans {T1 T2 T3 : Table N} {f g h : NodeId} (h1 : Iso T1 T2 f g) :
    Iso T2 T3 g h → Iso T1 T3 f h := by
  induction h1 generalizing h with
  | term h0 =>
    intro h2
    cases h2 with
    | term _ => exact .term h0
    | node h1 => omega
  | node h0 he hn1 hn2 _ ih =>
    intro h2
    cases h2 with
    | term _ => omega
    | node h3 he' hn3 hn4 hc =>
      rw [hn2] at hn3; cases hn3
      exact .node h0 (he.trans he') hn1 hn4 fun b => ih b (hc b)

/-- no two nodes of a level have the same children -/
def Table.Unique (T : Table N) : Prop :=
  ∀ f g nd, 0 < f.row → f.row = g.row → T.node? f = some nd → T.node? g = some nd → f = g

theorem Iso.eq (hu : T.Unique) {f g : NodeId} (h : Iso T T f g) : f = g := by
  induction h with
  | term _ => rfl
  | node h0 he hn1 hn2 _ ih =>
    have : _ = _ := funext ih
    subst this
    exact hu _ _ _ h0 he hn1 hn2

theorem Iso.refl (hw : T.Wf) : ∀ (r : Nat) {f : NodeId}, f.row ≤ r → T.Valid f → Iso T T f f := by
  intro r
  induction r with
  | zero => intro f hf _; exact .term (by omega)
  | succ r ih =>
    intro f hf hv
    by_cases h0 : f.row = 0
    · exact .term h0
    · obtain ⟨nd, hn⟩ := hv.pos (by omega)
      exact .node (by omega) rfl hn hn fun b => by
        have := hw.child (by omega) hn b
        exact ih (by omega) this.1

end TdZdd
