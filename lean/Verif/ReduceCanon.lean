import Verif.ReduceTheory
import Verif.ListLemmas

/-! Reduced tables are canonical and smallest. -/

namespace TdZdd

variable {N : Nat}

/-- No node is deletable and no two nodes of a level have the same children. -/
structure Canon (del : Node (N + 1) → Prop) (T : Table (N + 1)) : Prop where
  keep : ∀ {f nd}, 0 < f.row → T.node? f = some nd → ¬ del nd
  uniq : T.Unique

theorem RedOf.canon {del : Node (N + 1) → Prop} {T out : Table (N + 1)} {n : Nat} {nid : NodeId → NodeId}
    (h : RedOf del T n nid out) (hw : T.Wf) : Canon del out :=
  ⟨fun h0 hn => (h.hit' hw h0 hn).2.1, h.nodup⟩

variable {T T1 T2 : Table (N + 1)}

def zeroAsg (N : Nat) : Asg (N + 1) := fun _ => 0

/-- change an assignment at one level -/
def setAsg (a : Asg N) (r : Nat) (b : Fin N) : Asg N := fun j => if j = r then b else a j

theorem setAsg_self (a : Asg N) (r : Nat) (b : Fin N) : setAsg a r b r = b := by simp [setAsg]
theorem setAsg_ne (a : Asg N) {r j : Nat} (b : Fin N) (h : j ≠ r) : setAsg a r b j = a j := by
  simp [setAsg, h]

theorem tsat_setAsg {T : Table N} (hw : T.Wf) {f : NodeId} {a : Asg N} {r : Nat} {b : Fin N} (h : f.row < r) :
    TSat T f (setAsg a r b) ↔ TSat T f a := by
  constructor
  · exact tsat_congr hw fun j _ hj => setAsg_ne _ _ (by omega)
  · exact tsat_congr hw fun j _ hj => (setAsg_ne _ _ (by omega)).symm

theorem tmem_setAsg {T : Table N} (hw : T.Wf) {f : NodeId} {m : Nat} {a : Asg N} {r : Nat} {b : Fin N}
    (hf : f.row ≤ m) (h : m < r) : TMem T m f (setAsg a r b) ↔ TMem T m f a := by
  constructor
  · exact tmem_congr hw hf fun j _ hj => setAsg_ne _ _ (by omega)
  · exact tmem_congr hw hf fun j _ hj => (setAsg_ne _ _ (by omega)).symm

/-- BDD-equivalence of nodes -/
def EqB (T1 T2 : Table N) (f g : NodeId) : Prop := ∀ a, TSat T1 f a ↔ TSat T2 g a
/-- ZDD-equivalence of nodes over `1..m` -/
def EqZ (T1 T2 : Table N) (m : Nat) (f g : NodeId) : Prop := ∀ a, TMem T1 m f a ↔ TMem T2 m g a

theorem EqB.symm {T1 T2 : Table N} {f g : NodeId} (h : EqB T1 T2 f g) : EqB T2 T1 g f :=
  fun a => (h a).symm
theorem EqZ.symm {T1 T2 : Table N} {m : Nat} {f g : NodeId} (h : EqZ T1 T2 m f g) : EqZ T2 T1 m g f :=
  fun a => (h a).symm
theorem EqB.trans {T1 T2 T3 : Table N} {f g k : NodeId} (h : EqB T1 T2 f g) (h' : EqB T2 T3 g k) :
    EqB T1 T3 f k := fun a => (h a).trans (h' a)
theorem EqZ.trans {T1 T2 T3 : Table N} {m : Nat} {f g k : NodeId} (h : EqZ T1 T2 m f g)
    (h' : EqZ T2 T3 m g k) : EqZ T1 T3 m f k := fun a => (h a).trans (h' a)

theorem EqB.term {f g : NodeId} (h : EqB T1 T2 f g) (hf : f = .zero ∨ f = .one)
    (hg : g = .zero ∨ g = .one) : f = g := by
  have ha := h (zeroAsg N)
  rcases hf with rfl | rfl <;> rcases hg with rfl | rfl
  · rfl
  · exact absurd (ha.2 tsat_one) not_tsat_zero
  · exact absurd (ha.1 tsat_one) not_tsat_zero
  · rfl

theorem EqZ.term {f g : NodeId} {m : Nat} (h : EqZ T1 T2 m f g) (hf : f = .zero ∨ f = .one)
    (hg : g = .zero ∨ g = .one) : f = g := by
  have ha := h (zeroAsg N)
  have h1 : ∀ {T : Table (N + 1)}, TMem T m .one (zeroAsg N) := tmem_one.2 fun _ _ _ => rfl
  rcases hf with rfl | rfl <;> rcases hg with rfl | rfl
  · rfl
  · exact absurd (ha.2 h1) not_tmem_zero
  · exact absurd (ha.1 h1) not_tmem_zero
  · rfl

/-- equivalence with a lower node passes to all children (BDD) -/
theorem EqB.child_low (hw1 : T1.Wf) (hw2 : T2.Wf) {f g : NodeId} {nd : Node (N + 1)}
    (h : EqB T1 T2 f g) (h0 : 0 < f.row) (hn : T1.node? f = some nd) (hg : g.row < f.row)
    (b : Fin (N + 1)) : EqB T1 T2 (nd b) g := by
  intro a
  have := h (setAsg a f.row b)
  rw [tsat_node h0 hn, setAsg_self, tsat_setAsg hw1 (hw1.child h0 hn b).2, tsat_setAsg hw2 hg] at this
  exact this

theorem EqB.child_same (hw1 : T1.Wf) (hw2 : T2.Wf) {f g : NodeId} {nd nd' : Node (N + 1)}
    (h : EqB T1 T2 f g) (h0 : 0 < f.row) (hr : f.row = g.row) (hn : T1.node? f = some nd)
    (hn' : T2.node? g = some nd') (b : Fin (N + 1)) : EqB T1 T2 (nd b) (nd' b) := by
  intro a
  have := h (setAsg a f.row b)
  rw [tsat_node h0 hn, tsat_node (by omega) hn', ← hr, setAsg_self,
    tsat_setAsg hw1 (hw1.child h0 hn b).2, tsat_setAsg hw2 (by rw [hr]; exact (hw2.child (by omega) hn' b).2)] at this
  exact this

/-- equivalence with a lower node makes the other children empty (ZDD) -/
theorem EqZ.child_low (hw1 : T1.Wf) (hw2 : T2.Wf) {f g : NodeId} {nd : Node (N + 1)}
    (h : EqZ T1 T2 f.row f g) (h0 : 0 < f.row) (hn : T1.node? f = some nd) (hg : g.row < f.row)
    {b : Fin (N + 1)} (hb : b ≠ 0) : EqZ T1 T1 (f.row - 1) (nd b) .zero := by
  intro a
  have := h (setAsg a f.row b)
  have hc := (hw1.child h0 hn b).2
  rw [tmem_node h0 hn, setAsg_self, tmem_setAsg hw1 (by omega) (by omega),
    tmem_raise hw2 (m := f.row - 1) (m' := f.row) (by omega) (by omega)] at this
  constructor
  · intro h1
    have := (this.1 h1).1 f.row (by omega) (Nat.le_refl _)
    rw [setAsg_self] at this
    exact absurd (Fin.ext this) hb
  · exact fun h => absurd h not_tmem_zero

theorem EqZ.child_zero (hw1 : T1.Wf) (hw2 : T2.Wf) {f g : NodeId} {nd : Node (N + 1)}
    (h : EqZ T1 T2 f.row f g) (h0 : 0 < f.row) (hn : T1.node? f = some nd) (hg : g.row < f.row) :
    EqZ T1 T2 (f.row - 1) (nd 0) g := by
  intro a
  have := h (setAsg a f.row 0)
  have hc := (hw1.child h0 hn 0).2
  rw [tmem_node h0 hn, setAsg_self, tmem_setAsg hw1 (by omega) (by omega),
    tmem_raise hw2 (m := f.row - 1) (m' := f.row) (by omega) (by omega),
    tmem_setAsg hw2 (by omega) (by omega)] at this
  rw [this]
  constructor
  · exact fun h => h.2
  · refine fun h => ⟨fun j h1 h2 => ?_, h⟩
    have : j = f.row := by omega
    subst this
    rw [setAsg_self]; rfl

theorem EqZ.child_same (hw1 : T1.Wf) (hw2 : T2.Wf) {f g : NodeId} {nd nd' : Node (N + 1)}
    (h : EqZ T1 T2 f.row f g) (h0 : 0 < f.row) (hr : f.row = g.row) (hn : T1.node? f = some nd)
    (hn' : T2.node? g = some nd') (b : Fin (N + 1)) : EqZ T1 T2 (f.row - 1) (nd b) (nd' b) := by
  intro a
  have := h (setAsg a f.row b)
  have hc := (hw1.child h0 hn b).2
  have hc' := (hw2.child (by omega) hn' b).2
  rw [tmem_node h0 hn, hr, tmem_node (by omega) hn', ← hr, setAsg_self,
    tmem_setAsg hw1 (by omega) (by omega), tmem_setAsg hw2 (by omega) (by omega)] at this
  exact this

theorem EqZ.lower {m m' : Nat} (hw1 : T1.Wf) (hw2 : T2.Wf) {f g : NodeId} (h : EqZ T1 T2 m' f g)
    (hf : f.row ≤ m) (hg : g.row ≤ m) (hm : m ≤ m') : EqZ T1 T2 m f g := by
  intro a
  have := h (fun j => if j ≤ m then a j else 0)
  rw [tmem_raise hw1 hf hm, tmem_raise hw2 hg hm] at this
  have hz : ∀ j, m < j → j ≤ m' → ((fun j => if j ≤ m then a j else 0 : Asg (N + 1)) j).val = 0 := by
    intro j h1 _
    simp only
    rw [if_neg (by omega)]; rfl
  have h1 : ∀ {T : Table (N + 1)} {f : NodeId}, T.Wf → f.row ≤ m →
      (TMem T m f (fun j => if j ≤ m then a j else 0) ↔ TMem T m f a) := by
    intro T f hw hf
    constructor
    · exact tmem_congr hw hf fun j _ hj => by rw [if_pos hj]
    · exact tmem_congr hw hf fun j _ hj => by rw [if_pos hj]
  rw [h1 hw1 hf, h1 hw2 hg] at this
  constructor
  · exact fun h => (this.1 ⟨hz, h⟩).2
  · exact fun h => (this.2 ⟨hz, h⟩).2

/-- In a reduced BDD table equivalent nodes are equal. -/
theorem Canon.eqB (hw : T.Wf) (hc : Canon delB T) : ∀ (r : Nat) {f g : NodeId}, f.row + g.row ≤ r →
    T.Valid f → T.Valid g → EqB T T f g → f = g := by
  intro r
  induction r with
  | zero => intro f g hr hf hg h; exact h.term (hf.row0 (by omega)) (hg.row0 (by omega))
  | succ r ih =>
    intro f g hr hf hg h
    have low : ∀ {f g : NodeId}, f.row + g.row ≤ r + 1 → T.Valid f → T.Valid g → EqB T T f g →
        g.row < f.row → False := by
      intro f g hr hf hg h hlt
      obtain ⟨nd, hn⟩ := hf.pos (by omega)
      have key : ∀ b, nd b = g := fun b =>
        ih (by have := (hw.child (by omega) hn b).2; omega) (hw.child (by omega) hn b).1 hg
          (h.child_low hw hw (by omega) hn hlt b)
      exact hc.keep (by omega) hn fun b => by rw [key b, key 0]
    rcases Nat.lt_trichotomy f.row g.row with hlt | heq | hlt
    · exact (low (by omega) hg hf h.symm hlt).elim
    · by_cases h0 : f.row = 0
      · exact h.term (hf.row0 h0) (hg.row0 (by omega))
      · obtain ⟨nd, hn⟩ := hf.pos (by omega)
        obtain ⟨nd', hn'⟩ := hg.pos (by omega)
        have : nd = nd' := by
          funext b
          have c1 := hw.child (by omega) hn b
          have c2 := hw.child (by omega) hn' b
          exact ih (by omega) c1.1 c2.1 (h.child_same hw hw (by omega) heq hn hn' b)
        subst this
        exact hc.uniq _ _ _ (by omega) heq hn hn'
    · exact (low hr hf hg h hlt).elim

theorem Canon.lowB (hw : T1.Wf) (hw2 : T2.Wf) (hc : Canon delB T1) {f g : NodeId} (hf : T1.Valid f)
    (h : EqB T1 T2 f g) : f.row ≤ g.row := by
  apply Classical.byContradiction
  intro hlt
  obtain ⟨nd, hn⟩ := hf.pos (by omega)
  refine hc.keep (by omega) hn fun b => ?_
  have e := fun b => h.child_low hw hw2 (by omega) hn (by omega) b
  exact hc.eqB hw _ (Nat.le_refl _) (hw.child (by omega) hn b).1 (hw.child (by omega) hn 0).1
    ((e b).trans (e 0).symm)

/-- Reduced BDD tables: equivalent nodes have the same unfolding. -/
theorem Canon.isoB (hw1 : T1.Wf) (hw2 : T2.Wf) (hc1 : Canon delB T1) (hc2 : Canon delB T2) :
    ∀ (r : Nat) {f g : NodeId}, f.row ≤ r → T1.Valid f → T2.Valid g → EqB T1 T2 f g →
    Iso T1 T2 f g := by
  intro r
  induction r with
  | zero =>
    intro f g hr hf hg h
    have := hc2.lowB hw2 hw1 hg h.symm
    have := h.term (hf.row0 (by omega)) (hg.row0 (by omega))
    subst this
    exact .term (by omega)
  | succ r ih =>
    intro f g hr hf hg h
    have e1 := hc1.lowB hw1 hw2 hf h
    have e2 := hc2.lowB hw2 hw1 hg h.symm
    by_cases h0 : f.row = 0
    · exact ih (by omega) hf hg h
    · obtain ⟨nd, hn⟩ := hf.pos (by omega)
      obtain ⟨nd', hn'⟩ := hg.pos (by omega)
      refine .node (by omega) (by omega) hn hn' fun b => ?_
      have c1 := hw1.child (by omega) hn b
      have c2 := hw2.child (by omega) hn' b
      exact ih (by omega) c1.1 c2.1 (h.child_same hw1 hw2 (by omega) (by omega) hn hn' b)

/-- In a reduced ZDD table equivalent nodes are equal. -/
theorem Canon.eqZ (hw : T.Wf) (hc : Canon delZ T) : ∀ (r : Nat) {f g : NodeId}, f.row + g.row ≤ r →
    T.Valid f → T.Valid g → ∀ m, f.row ≤ m → g.row ≤ m → EqZ T T m f g → f = g := by
  intro r
  induction r with
  | zero => intro f g hr hf hg m _ _ h; exact h.term (hf.row0 (by omega)) (hg.row0 (by omega))
  | succ r ih =>
    intro f g hr hf hg m hm1 hm2 h
    have low : ∀ {f g : NodeId}, f.row + g.row ≤ r + 1 → T.Valid f → T.Valid g → f.row ≤ m →
        EqZ T T m f g → g.row < f.row → False := by
      intro f g hr hf hg hm h hlt
      obtain ⟨nd, hn⟩ := hf.pos (by omega)
      have h' := h.lower hw hw (Nat.le_refl _) (by omega) hm
      refine hc.keep (by omega) hn fun b hb => ?_
      have c := hw.child (by omega) hn b
      exact ih (by show (nd b).row + 0 ≤ r; omega) c.1 .zero (f.row - 1) (by omega) (Nat.zero_le _)
        (h'.child_low hw hw (by omega) hn hlt hb)
    rcases Nat.lt_trichotomy f.row g.row with hlt | heq | hlt
    · exact (low (by omega) hg hf hm2 h.symm hlt).elim
    · by_cases h0 : f.row = 0
      · exact h.term (hf.row0 h0) (hg.row0 (by omega))
      · obtain ⟨nd, hn⟩ := hf.pos (by omega)
        obtain ⟨nd', hn'⟩ := hg.pos (by omega)
        have h' := h.lower hw hw (Nat.le_refl f.row) (by omega) hm1
        have : nd = nd' := by
          funext b
          have c1 := hw.child (by omega) hn b
          have c2 := hw.child (by omega) hn' b
          exact ih (by omega) c1.1 c2.1 (f.row - 1) (by omega) (by omega)
            (h'.child_same hw hw (by omega) heq hn hn' b)
        subst this
        exact hc.uniq _ _ _ (by omega) heq hn hn'
    · exact (low hr hf hg hm1 h hlt).elim

theorem Canon.lowZ (hw : T1.Wf) (hw2 : T2.Wf) (hc : Canon delZ T1) {f g : NodeId} {m : Nat}
    (hf : T1.Valid f) (hm : f.row ≤ m) (h : EqZ T1 T2 m f g) : f.row ≤ g.row := by
  apply Classical.byContradiction
  intro hlt
  obtain ⟨nd, hn⟩ := hf.pos (by omega)
  have h' := h.lower hw hw2 (Nat.le_refl f.row) (by omega) hm
  refine hc.keep (by omega) hn fun b hb => ?_
  have c := hw.child (by omega) hn b
  exact hc.eqZ hw _ (Nat.le_refl _) c.1 .zero (f.row - 1) (by omega) (Nat.zero_le _)
    (h'.child_low hw hw2 (by omega) hn (by omega) hb)

theorem Canon.isoZ (hw1 : T1.Wf) (hw2 : T2.Wf) (hc1 : Canon delZ T1) (hc2 : Canon delZ T2) :
    ∀ (r : Nat) {f g : NodeId}, f.row ≤ r → T1.Valid f → T2.Valid g → ∀ m, f.row ≤ m → g.row ≤ m →
    EqZ T1 T2 m f g → Iso T1 T2 f g := by
  intro r
  induction r with
  | zero =>
    intro f g hr hf hg m hm1 hm2 h
    have := hc2.lowZ hw2 hw1 hg hm2 h.symm
    have := h.term (hf.row0 (by omega)) (hg.row0 (by omega))
    subst this
    exact .term (by omega)
  | succ r ih =>
    intro f g hr hf hg m hm1 hm2 h
    have e1 := hc1.lowZ hw1 hw2 hf hm1 h
    have e2 := hc2.lowZ hw2 hw1 hg hm2 h.symm
    by_cases h0 : f.row = 0
    · exact ih (by omega) hf hg m hm1 hm2 h
    · obtain ⟨nd, hn⟩ := hf.pos (by omega)
      obtain ⟨nd', hn'⟩ := hg.pos (by omega)
      have h' := h.lower hw1 hw2 (Nat.le_refl f.row) (by omega) hm1
      refine .node (by omega) (by omega) hn hn' fun b => ?_
      have c1 := hw1.child (by omega) hn b
      have c2 := hw2.child (by omega) hn' b
      exact ih (by omega) c1.1 c2.1 (f.row - 1) (by omega) (by omega)
        (h'.child_same hw1 hw2 (by omega) (by omega) hn hn' b)

/-! ### Minimality -/

/-- a lower-or-equal node of `T2` equivalent to the reduced node `f` lies in the same row -/
theorem Canon.matchB (hw1 : T1.Wf) (hw2 : T2.Wf) (hc : Canon delB T1) {f : NodeId} (hf : T1.Valid f) :
    ∀ (r : Nat) {g : NodeId}, g.row ≤ r → T2.Valid g → EqB T1 T2 f g →
      ∃ g', T2.Valid g' ∧ g'.row = f.row ∧ EqB T1 T2 f g' := by
  intro r
  induction r with
  | zero =>
    intro g hg hv h
    have := hc.lowB hw1 hw2 hf h
    exact ⟨g, hv, by omega, h⟩
  | succ r ih =>
    intro g hg hv h
    have := hc.lowB hw1 hw2 hf h
    by_cases he : g.row = f.row
    · exact ⟨g, hv, he, h⟩
    · obtain ⟨nd, hn⟩ := hv.pos (by omega)
      have c := hw2.child (by omega) hn 0
      exact ih (by omega) c.1 (h.symm.child_low hw2 hw1 (by omega) hn (by omega) 0).symm

theorem Canon.matchZ (hw1 : T1.Wf) (hw2 : T2.Wf) (hc : Canon delZ T1) {f : NodeId} (hf : T1.Valid f) :
    ∀ (r : Nat) {g : NodeId} (m : Nat), g.row ≤ r → T2.Valid g → f.row ≤ m → g.row ≤ m → EqZ T1 T2 m f g →
      ∃ g', T2.Valid g' ∧ g'.row = f.row ∧ EqZ T1 T2 f.row f g' := by
  intro r
  induction r with
  | zero =>
    intro g m hg hv hm1 hm2 h
    have := hc.lowZ hw1 hw2 hf hm1 h
    exact ⟨g, hv, by omega, h.lower hw1 hw2 (Nat.le_refl _) (by omega) hm1⟩
  | succ r ih =>
    intro g m hg hv hm1 hm2 h
    have := hc.lowZ hw1 hw2 hf hm1 h
    by_cases he : g.row = f.row
    · exact ⟨g, hv, he, h.lower hw1 hw2 (Nat.le_refl _) (by omega) hm1⟩
    · obtain ⟨nd, hn⟩ := hv.pos (by omega)
      have c := hw2.child (by omega) hn 0
      have h' := h.lower hw1 hw2 (m := g.row) (by omega) (Nat.le_refl _) hm2
      exact ih (g.row - 1) (by omega) c.1 (by omega) (by omega)
        (h'.symm.child_zero hw2 hw1 (by omega) hn (by omega)).symm

/-- every node of a reduced BDD that can be reached has an equivalent node in the same row of any
structure with the same function -/
theorem Canon.coverB {D1 D2 : Dd (N + 1)} (hw1 : D1.Wf) (hw2 : D2.Wf) (hc : Canon delB D1.table)
    (hr : EqB D1.table D2.table D1.root D2.root) {f : NodeId} (hl : D1.Live f) :
    D1.table.Valid f ∧ ∃ g, D2.table.Valid g ∧ g.row = f.row ∧ EqB D1.table D2.table f g := by
  induction hl with
  | root => exact ⟨hw1.root, hc.matchB hw1.table hw2.table hw1.root _ (Nat.le_refl _) hw2.root hr⟩
  | @child f nd b _ h0 hn ih =>
    obtain ⟨_, g, h1, h2, h3⟩ := ih
    have c := hw1.table.child h0 hn b
    obtain ⟨nd', hn'⟩ := h1.pos (by omega)
    have c' := hw2.table.child (by omega) hn' b
    exact ⟨c.1, hc.matchB hw1.table hw2.table c.1 _ (Nat.le_refl _) c'.1
      (h3.child_same hw1.table hw2.table h0 h2.symm hn hn' b)⟩

theorem Canon.coverZ {D1 D2 : Dd (N + 1)} {m : Nat} (hw1 : D1.Wf) (hw2 : D2.Wf) (hc : Canon delZ D1.table)
    (hm1 : D1.root.row ≤ m) (hm2 : D2.root.row ≤ m)
    (hr : EqZ D1.table D2.table m D1.root D2.root) {f : NodeId} (hl : D1.Live f) :
    D1.table.Valid f ∧ ∃ g, D2.table.Valid g ∧ g.row = f.row ∧ EqZ D1.table D2.table f.row f g := by
  induction hl with
  | root =>
    exact ⟨hw1.root, hc.matchZ hw1.table hw2.table hw1.root _ m (Nat.le_refl _) hw2.root hm1 hm2 hr⟩
  | @child f nd b _ h0 hn ih =>
    obtain ⟨_, g, h1, h2, h3⟩ := ih
    have c := hw1.table.child h0 hn b
    obtain ⟨nd', hn'⟩ := h1.pos (by omega)
    have c' := hw2.table.child (by omega) hn' b
    exact ⟨c.1, hc.matchZ hw1.table hw2.table c.1 _ (f.row - 1) (Nat.le_refl _) c'.1 (by omega)
      (by omega) (h3.child_same hw1.table hw2.table h0 h2.symm hn hn' b)⟩

theorem nodup_subset_length {α : Type} [BEq α] [LawfulBEq α] : ∀ (l l' : List α), l.Nodup →
    (∀ x ∈ l, x ∈ l') → l.length ≤ l'.length := by
  intro l
  induction l with
  | nil => intro _ _ _; exact Nat.zero_le _
  | cons x l ih =>
    intro l' hn hs
    rw [List.nodup_cons] at hn
    have hx : x ∈ l' := hs x (by simp)
    have := ih (l'.erase x) hn.2 fun y hy => by
      rw [List.mem_erase_of_ne]
      · exact hs y (by simp [hy])
      · rintro rfl; exact hn.1 hy
    rw [List.length_erase_of_mem hx] at this
    have : 0 < l'.length := List.length_pos_of_mem hx
    rw [List.length_cons]; omega

theorem pigeonhole {a b : Nat} {R : Nat → Nat → Prop} (h : ∀ i, i < a → ∃ j, j < b ∧ R i j)
    (hinj : ∀ i i' j, R i j → R i' j → i = i') : a ≤ b := by
  have hf : ∃ f : Nat → Nat, ∀ i, i < a → f i < b ∧ R i (f i) := by
    refine ⟨fun i => if hi : i < a then Classical.choose (h i hi) else 0, fun i hi => ?_⟩
    dsimp only
    rw [dif_pos hi]
    exact Classical.choose_spec (h i hi)
  obtain ⟨f, hf⟩ := hf
  have := nodup_subset_length ((List.range a).map f) (List.range b) ?_ ?_
  · simpa using this
  · unfold List.Nodup
    rw [List.pairwise_map]
    refine List.Pairwise.imp_of_mem ?_ (List.nodup_range (n := a))
    intro i j hi hj hne he
    rw [List.mem_range] at hi hj
    exact hne (hinj i j (f i) (hf i hi).2 (he ▸ (hf j hj).2))
  · intro x hx
    obtain ⟨i, hi, rfl⟩ := List.mem_map.1 hx
    exact List.mem_range.2 (hf i (List.mem_range.1 hi)).1

/-- number of nodes in a row -/
def Table.rowLen {N : Nat} (T : Table N) (i : Nat) : Nat := if i < T.numRows then (T.row i).length else 0

theorem Table.node?_isSome {N : Nat} {T : Table N} {i c : Nat} :
    (∃ nd, T.node? ⟨i, c⟩ = some nd) ↔ c < T.rowLen i := by
  unfold Table.node? Table.rowLen
  by_cases h : i < T.numRows
  · rw [if_pos h, if_pos h]
    constructor
    · rintro ⟨nd, h⟩; exact getElem?_lt h
    · exact fun h => getElem?_of_lt h
  · rw [if_neg h, if_neg h]
    simp

theorem sum_le {f g : Nat → Nat} (n : Nat) (h : ∀ i, i < n → f i ≤ g i) :
    ((List.range n).map f).sum ≤ ((List.range n).map g).sum := by
  induction n with
  | zero => simp
  | succ n ih =>
    have := ih fun i hi => h i (by omega)
    have := h n (by omega)
    simp only [List.range_succ, List.map_append, List.map_cons, List.map_nil, List.sum_append,
      List.sum_cons, List.sum_nil]
    omega

theorem sum_succ_left (f : Nat → Nat) (n : Nat) :
    ((List.range (n + 1)).map f).sum = f 0 + ((List.range n).map fun k => f (k + 1)).sum := by
  induction n with
  | zero => simp
  | succ n ih =>
    rw [List.range_succ, List.map_append, List.sum_append, ih, List.range_succ (n := n)]
    simp [Nat.add_assoc]

theorem Table.size_eq {N : Nat} (T : Table N) {R : Nat} (hR : T.numRows ≤ R + 1) :
    T.size = ((List.range R).map fun k => T.rowLen (k + 1)).sum := by
  have h1 : ∀ n, n ≤ T.numRows → ((List.range n).map fun i => (T.row i).length).sum =
      ((List.range n).map T.rowLen).sum := by
    intro n hn
    congr 1
    apply List.map_congr_left
    intro i hi
    rw [List.mem_range] at hi
    unfold Table.rowLen
    rw [if_pos (by omega)]
  have h2 : ∀ d, ((List.range (T.numRows + d)).map T.rowLen).sum =
      ((List.range T.numRows).map T.rowLen).sum := by
    intro d
    induction d with
    | zero => rfl
    | succ d ih =>
      rw [← Nat.add_assoc, List.range_succ, List.map_append, List.sum_append, ih]
      simp only [List.map_cons, List.map_nil, List.sum_cons, List.sum_nil]
      have : T.rowLen (T.numRows + d) = 0 := by unfold Table.rowLen; rw [if_neg (by omega)]
      rw [this]
      omega
  have h3 := h2 (R + 1 - T.numRows)
  rw [show T.numRows + (R + 1 - T.numRows) = R + 1 by omega, sum_succ_left] at h3
  unfold Table.size
  rw [h1 _ (Nat.le_refl _), ← h3]
  by_cases h0 : 0 < T.numRows
  · rw [show T.rowLen 0 = (T.row 0).length by unfold Table.rowLen; rw [if_pos h0]]
    omega
  · have e : ∀ i, T.rowLen i = 0 := fun i => by unfold Table.rowLen; rw [if_neg (by omega)]
    simp only [e]
    have : ((List.range R).map fun _ : Nat => 0).sum = 0 := by
      clear h3 h2 h1 hR
      induction R with
      | zero => rfl
      | succ R ih => rw [List.range_succ, List.map_append, List.sum_append, ih]; rfl
    rw [this]; omega

theorem Table.size_le_of_rows {N : Nat} {T1 T2 : Table N} (h : ∀ i, 0 < i → T1.rowLen i ≤ T2.rowLen i) :
    T1.size ≤ T2.size := by
  rw [T1.size_eq (R := T1.numRows + T2.numRows) (by omega),
    T2.size_eq (R := T1.numRows + T2.numRows) (by omega)]
  exact sum_le _ fun i _ => h (i + 1) (by omega)

/-- All non-terminal nodes of the table can be reached from the root. -/
def Dd.AllLive {N : Nat} (D : Dd N) : Prop := ∀ f nd, 0 < f.row → D.table.node? f = some nd → D.Live f

/-- A reduced BDD all of whose nodes are reachable is smallest. -/
theorem Canon.minB {D1 D2 : Dd (N + 1)} (hw1 : D1.Wf) (hw2 : D2.Wf) (hc : Canon delB D1.table)
    (hl : D1.AllLive) (hr : EqB D1.table D2.table D1.root D2.root) : D1.table.size ≤ D2.table.size := by
  refine Table.size_le_of_rows fun i hi => ?_
  refine pigeonhole (R := fun c c' => D1.table.Valid ⟨i, c⟩ ∧ EqB D1.table D2.table ⟨i, c⟩ ⟨i, c'⟩) ?_ ?_
  · intro c hc'
    obtain ⟨nd, hn⟩ := Table.node?_isSome.2 hc'
    obtain ⟨hv, g, h1, h2, h3⟩ := hc.coverB hw1 hw2 hr (hl _ _ hi hn)
    obtain ⟨nd', hn'⟩ := h1.pos (by rw [h2]; exact hi)
    have eg : g = ⟨i, g.col⟩ := by cases g; simp only at h2; subst h2; rfl
    rw [eg] at hn' h3
    exact ⟨g.col, Table.node?_isSome.1 ⟨nd', hn'⟩, hv, h3⟩
  · rintro c c' j ⟨hv, h⟩ ⟨hv', h'⟩
    have := hc.eqB hw1.table _ (Nat.le_refl _) hv hv' (h.trans h'.symm)
    exact congrArg NodeId.col this

/-- A reduced ZDD all of whose nodes are reachable is smallest. -/
theorem Canon.minZ {D1 D2 : Dd (N + 1)} {m : Nat} (hw1 : D1.Wf) (hw2 : D2.Wf) (hc : Canon delZ D1.table)
    (hl : D1.AllLive) (hm1 : D1.root.row ≤ m) (hm2 : D2.root.row ≤ m)
    (hr : EqZ D1.table D2.table m D1.root D2.root) : D1.table.size ≤ D2.table.size := by
  refine Table.size_le_of_rows fun i hi => ?_
  refine pigeonhole (R := fun c c' => D1.table.Valid ⟨i, c⟩ ∧ EqZ D1.table D2.table i ⟨i, c⟩ ⟨i, c'⟩) ?_ ?_
  · intro c hc'
    obtain ⟨nd, hn⟩ := Table.node?_isSome.2 hc'
    obtain ⟨hv, g, h1, h2, h3⟩ := hc.coverZ hw1 hw2 hm1 hm2 hr (hl _ _ hi hn)
    obtain ⟨nd', hn'⟩ := h1.pos (by rw [h2]; exact hi)
    have eg : g = ⟨i, g.col⟩ := by cases g; simp only at h2; subst h2; rfl
    rw [eg] at hn' h3
    exact ⟨g.col, Table.node?_isSome.1 ⟨nd', hn'⟩, hv, h3⟩
  · rintro c c' j ⟨hv, h⟩ ⟨hv', h'⟩
    have := hc.eqZ hw1.table _ (Nat.le_refl _) hv hv' i (Nat.le_refl _) (Nat.le_refl _) (h.trans h'.symm)
    exact congrArg NodeId.col this

section
variable {del : Node (N + 1) → Prop} {n : Nat} {nid : NodeId → NodeId} {out : Table (N + 1)}

/-- Reduction never adds nodes. -/
theorem RedOf.size_le (h : RedOf del T n nid out) : out.size ≤ T.size := by
  refine Table.size_le_of_rows fun i hi => ?_
  refine pigeonhole (R := fun c c' => nid ⟨i, c'⟩ = ⟨i, c⟩) ?_ ?_
  · intro c hc
    obtain ⟨nd, hn⟩ := Table.node?_isSome.2 hc
    obtain ⟨_, f, nd', h1, h2, h3⟩ := h.hit (g := ⟨i, c⟩) hi hn
    have ef : f = ⟨i, f.col⟩ := by cases f; simp only at h1; subst h1; rfl
    rw [ef] at h2 h3
    exact ⟨f.col, Table.node?_isSome.1 ⟨nd', h2⟩, h3⟩
  · intro c c' j h1 h2
    rw [h1] at h2
    exact congrArg NodeId.col h2

/-- new ids of reachable nodes are reachable or terminal -/
theorem RedOf.live {root : NodeId} (h : RedOf del T n nid out) (hw : T.Wf) (hn : root.row ≤ n)
    (hv : T.Valid root) (hdel : ∀ c, del c → ∀ b, c b = c 0 ∨ c b = .zero) {f : NodeId}
    (hl : Dd.Live ⟨T, root⟩ f) :
    f.row ≤ n ∧ T.Valid f ∧ (nid f = .zero ∨ Dd.Live ⟨out, nid root⟩ (nid f)) := by
  induction hl with
  | root => exact ⟨hn, hv, .inr .root⟩
  | @child f nd b hl h0 hnd ih =>
    have c := hw.child h0 hnd b
    refine ⟨by omega, c.1, ?_⟩
    rcases h.node h0 ih.1 hnd with ⟨hd, he⟩ | ⟨_, he, ho⟩
    · rcases hdel _ hd b with e | e
      · dsimp only [Function.comp] at e
        rw [e, ← he]; exact ih.2.2
      · exact .inl e
    · rcases ih.2.2 with e | e
      · rw [e] at he
        exact absurd he.symm (by have : NodeId.zero.row = 0 := rfl; omega)
      · have e' := Dd.Live.child b e (by omega) ho
        exact .inr e'

theorem RedOf.allLive {root : NodeId} (h : RedOf del T n nid out) (hw : T.Wf) (hn : root.row ≤ n)
    (hv : T.Valid root) (hdel : ∀ c, del c → ∀ b, c b = c 0 ∨ c b = .zero)
    (hl : Dd.AllLive ⟨T, root⟩) : Dd.AllLive ⟨out, nid root⟩ := by
  intro g nd h0 hg
  obtain ⟨_, f, nd', h1, h2, h3⟩ := h.hit h0 hg
  rcases (h.live hw hn hv hdel (hl f nd' (by omega) h2)).2.2 with e | e
  · rw [h3] at e; rw [e] at h0; exact absurd h0 (by decide)
  · rw [h3] at e; exact e

/-- Reducing a reduced table changes nothing but the numbering. -/
theorem RedOf.iso (h : RedOf del T n nid out) (hw : T.Wf)
    (hkeep : ∀ {f nd}, 0 < f.row → T.node? f = some nd → ¬ del nd) (hu : T.Unique)
    (hdel : ∀ (c : Node (N + 1)), (∀ b b', nid (c b) = nid (c b') → c b = c b') →
      (∀ b, nid (c b) = .zero → c b = .zero) → del (nid ∘ c) → del c) :
    ∀ (r : Nat), r ≤ n → (∀ {f : NodeId}, f.row ≤ r → T.Valid f →
      Iso T out f (nid f) ∧ ∀ {g : NodeId}, g.row ≤ r → T.Valid g → nid f = nid g → f = g) := by
  intro r
  induction r with
  | zero =>
    intro _ f hf hv
    rw [h.term (by omega)]
    refine ⟨.term (by omega), fun {g} hg hv' e => ?_⟩
    rw [h.term (f := g) (by omega)] at e
    exact e
  | succ r ih =>
    intro hrn
    have ih := @ih (by omega)
    have key : ∀ {f : NodeId}, f.row ≤ r + 1 → 0 < f.row → ∀ {nd}, T.node? f = some nd →
        (nid f).row = f.row ∧ out.node? (nid f) = some (nid ∘ nd) := by
      intro f hf h0 nd hnd
      have c := fun b => hw.child h0 hnd b
      rcases h.node h0 (by omega) hnd with ⟨hd, _⟩ | ⟨_, he⟩
      · refine absurd (hdel nd ?_ ?_ hd) (hkeep h0 hnd)
        · intro b b' e
          exact (ih (f := nd b) (by have := c b; omega) (c b).1).2 (by have := c b'; omega) (c b').1 e
        · intro b e
          exact (ih (f := nd b) (by have := c b; omega) (c b).1).2 (g := .zero) (Nat.zero_le _) .zero
            (by rw [e, h.zero])
      · exact he
    intro f hf hv
    have hrow : ∀ {g : NodeId}, g.row ≤ r + 1 → T.Valid g → (nid g).row = g.row := by
      intro g hg hv
      by_cases h0 : g.row = 0
      · rw [h.term h0]
      · obtain ⟨nd, hnd⟩ := hv.pos (by omega)
        exact (key hg (by omega) hnd).1
    constructor
    · by_cases h0 : f.row = 0
      · rw [h.term h0]; exact .term h0
      · obtain ⟨nd, hnd⟩ := hv.pos (by omega)
        have k := key hf (by omega) hnd
        refine .node (by omega) k.1.symm hnd k.2 fun b => ?_
        have c := hw.child (by omega) hnd b
        exact (ih (f := nd b) (by omega) c.1).1
    · intro g hg hv' e
      have e1 := hrow hf hv
      have e2 := hrow hg hv'
      rw [e] at e1
      by_cases h0 : f.row = 0
      · rw [h.term h0, h.term (by omega)] at e; exact e
      · obtain ⟨nd, hnd⟩ := hv.pos (by omega)
        obtain ⟨nd', hnd'⟩ := hv'.pos (by omega)
        have k := key hf (by omega) hnd
        have k' := key hg (by omega) hnd'
        rw [e, k'.2] at k
        have : nd = nd' := by
          funext b
          have e3 : nid (nd' b) = nid (nd b) := congrFun (Option.some.inj k.2) b
          have c := hw.child (by omega) hnd b
          have c' := hw.child (by omega) hnd' b
          exact (ih (f := nd b) (by omega) c.1).2 (by omega) c'.1 e3.symm
        subst this
        exact hu _ _ _ (by omega) (by omega) hnd hnd'

end

end TdZdd
