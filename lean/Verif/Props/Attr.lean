import Verif.AttrProofs6
import Verif.Props.Dump
import Verif.ReduceTop
import Verif.SampleDds

/-!
# Property C92: the attribute bit of node ids

After a sequential reduction the bit of an id says that the 0-edges lead from it to the 1-terminal.
-/

namespace TdZdd

variable {N : Nat}

/-- the 0-edges lead from `f` to the 1-terminal -/
inductive ZeroChain (T : Table (N + 1)) : NodeId → Prop
  | one : ZeroChain T .one
  | step {f : NodeId} {nd : Node (N + 1)} : 0 < f.row → T.node? f = some nd → ZeroChain T (nd 0) → ZeroChain T f

/-- `out` and `root` are the right bits for the structure `D` -/
structure RightBits (D : Dd (N + 1)) (out : NodeId → Fin (N + 1) → Bool) (root : Bool) : Prop where
  root : root = true ↔ 0 < D.root.row ∧ ZeroChain D.table D.root
  node : ∀ {f : NodeId} {nd : Node (N + 1)} (b : Fin (N + 1)), 0 < f.row → D.table.node? f = some nd →
    (out f b = true ↔ 0 < (nd b).row ∧ ZeroChain D.table (nd b))

/-- ids of terminals do not have the bit: so for a structure just built (no bits at all) and for one with the right bits -/
structure TermBits (D : Dd (N + 1)) (out : NodeId → Fin (N + 1) → Bool) (root : Bool) : Prop where
  root : D.root.row = 0 → root = false
  node : ∀ {f : NodeId} {nd : Node (N + 1)} (b : Fin (N + 1)), 0 < f.row → D.table.node? f = some nd → (nd b).row = 0 → out f b = false

namespace Attr

theorem _root_.TdZdd.ZeroChain.node {T : Table (N + 1)} {f : NodeId} (h : ZeroChain T f) (h1 : f ≠ .one) : 0 < f.row := by
  cases h with
  | one => exact absurd rfl h1
  | step h _ _ => exact h

theorem zeroChain_zero {T : Table (N + 1)} : ¬ ZeroChain T .zero := by
  intro h
  generalize e : NodeId.zero = f at h
  cases h with
  | one => cases e
  | step h0 => rw [← e] at h0; exact absurd h0 (Nat.lt_irrefl _)

theorem zeroChain_node {T : Table (N + 1)} {f : NodeId} {nd : Node (N + 1)} (h0 : 0 < f.row) (hn : T.node? f = some nd) :
    ZeroChain T f ↔ ZeroChain T (nd 0) := by
  constructor
  · intro h
    cases h with
    | one => exact absurd h0 (Nat.lt_irrefl _)
    | step _ hn' h =>
      rw [hn] at hn'
      cases hn'
      exact h
  · exact .step h0 hn

theorem Good.right {D : Dd (N + 1)} {s : Bits (N + 1)} (h : Good D s) (hw : D.Wf) : RightBits D s.output s.root := by
  obtain ⟨E, h0, hr, hn⟩ := h
  have key : ∀ (r : Nat) {f : NodeId}, f.row ≤ r → D.table.Valid f → (E f = true ↔ 0 < f.row ∧ ZeroChain D.table f) := by
    intro r
    induction r with
    | zero =>
      intro f hf _
      rw [h0 f (by omega)]
      exact ⟨fun h => (by cases h), fun h => by omega⟩
    | succ r ih =>
      intro f hf hv
      by_cases hz : f.row = 0
      · exact ih (by omega) hv
      · obtain ⟨nd, hnd⟩ := hv.pos (by omega)
        obtain ⟨hc, hlt⟩ := hw.table.child (by omega) hnd 0
        rw [(hn (by omega) hnd).1, zeroChain_node (by omega) hnd]
        unfold hasEmpty
        rw [Bool.or_eq_true, decide_eq_true_iff]
        by_cases hc0 : (nd 0).row = 0
        · rw [h0 _ hc0]
          rcases hc.row0 hc0 with e | e
          · rw [e]
            exact ⟨fun h => (by rcases h with h | h <;> cases h), fun h => absurd h.2 zeroChain_zero⟩
          · rw [e]
            exact ⟨fun _ => ⟨by omega, .one⟩, fun _ => .inl rfl⟩
        · rw [ih (by omega) hc]
          constructor
          · rintro (h | h)
            · rw [h] at hc0; exact absurd rfl hc0
            · exact ⟨by omega, h.2⟩
          · exact fun h => .inr ⟨by omega, h.2⟩
  refine ⟨by rw [hr]; exact key _ (Nat.le_refl _) hw.root, fun b hf hnd => ?_⟩
  rw [(hn hf hnd).2 b]
  exact key _ (Nat.le_refl _) (hw.table.child hf hnd b).1

theorem zeroChain_acc {T : Table (N + 1)} {f : NodeId} : ZeroChain T f ↔ ∃ p, TAcc T f p ∧ Agrees p fun _ => 0 := by
  constructor
  · intro h
    induction h with
    | one => exact ⟨[], .one, fun x hx => by cases hx⟩
    | step h0 hn _ ih =>
      obtain ⟨p, h1, h2⟩ := ih
      refine ⟨_, .step h0 hn h1, ?_⟩
      intro x hx
      rcases List.mem_cons.1 hx with e | hx
      · rw [e]
      · exact h2 x hx
  · rintro ⟨p, h, ha⟩
    induction h with
    | one => exact .one
    | @step f nd b p h0 hn _ ih =>
      have : b = 0 := (ha (f.row, b) (List.mem_cons_self ..)).symm
      subst this
      exact .step h0 hn (ih fun x hx => ha x (List.mem_cons_of_mem _ hx))

theorem _root_.TdZdd.RightBits.empty_iff {D2 : Dd (N + 1)} {out : NodeId → Fin (N + 1) → Bool} {root : Bool} (h : RightBits D2 out root) (hw' : D2.Wf) :
    hasEmpty D2.root root = true ↔ ZeroChain D2.table D2.root := by
  unfold hasEmpty
  rw [Bool.or_eq_true, decide_eq_true_iff, h.root]
  constructor
  · rintro (h | h)
    · rw [h]; exact .one
    · exact h.2
  · intro h
    by_cases h0 : D2.root.row = 0
    · rcases hw'.root.row0 h0 with e | e
      · rw [e] at h; exact absurd h zeroChain_zero
      · exact .inl e
    · exact .inr ⟨by omega, h⟩

theorem wf2 {bdd zdd : Bool} {D D' : Dd 2} (hw : D.Wf) (e : TdZdd.reduce2 bdd zdd D = some D') : D'.Wf := by
  obtain ⟨X, T', cmp, nid, e1, h1, h2, h3, h4, h5, _⟩ := reduce2_spec (bdd := bdd) (zdd := zdd) hw
  rw [e] at e1
  cases e1
  have hw' := h3.wf hw.table
  refine ⟨h4.wf hw', ?_⟩
  rw [h5]
  exact (h4.valid hw' _ (Nat.le_refl _) (Nat.le_refl _) (h3.valid hw.root)).1

theorem wfN {bdd zdd : Bool} {D D' : Dd (N + 1)} (hw : D.Wf) (e : TdZdd.reduceN bdd zdd D = some D') : D'.Wf := by
  obtain ⟨X, nid, e1, h1, h2, h3, h4⟩ := reduceN_spec (bdd := bdd) (zdd := zdd) hw
  rw [e] at e1
  cases e1
  refine ⟨h3.wf hw.table, ?_⟩
  rw [h4]
  exact (h3.valid hw.table _ (Nat.le_refl _) (Nat.le_refl _) hw.root).1

end Attr

open Attr

/-- Whatever bits the input has (terminal ids have none): the reduction is that of `Reducer.lean`, and the result has the right bits. -/
theorem C92_bits {bdd zdd : Bool} {D : Dd (N + 1)} (hw : D.Wf) {inp : NodeId → Fin (N + 1) → Bool} {root : Bool} (ht : TermBits D inp root) :
    ∃ D' s, Attr.reduce bdd zdd D inp root = some (D', s) ∧ D.reduce bdd zdd = some D' ∧ D'.Wf ∧ RightBits D' s.output s.root := by
  unfold Attr.reduce Dd.reduce
  match N, D, inp, hw, ht with
  | 1, D, inp, hw, ht =>
    obtain ⟨D', s, e, e', h⟩ := reduce2_bits (bdd := bdd) (zdd := zdd) hw ht.root ht.node
    exact ⟨D', s, e, e', wf2 hw e', h.right (wf2 hw e')⟩
  | 0, D, inp, hw, ht =>
    obtain ⟨D', s, e, e', h⟩ := reduceN_bits (bdd := bdd) (zdd := zdd) hw (inp := inp) ht.root
    exact ⟨D', s, e, e', wfN hw e', h.right (wfN hw e')⟩
  | n + 2, D, inp, hw, ht =>
    obtain ⟨D', s, e, e', h⟩ := reduceN_bits (bdd := bdd) (zdd := zdd) hw (inp := inp) ht.root
    exact ⟨D', s, e, e', wfN hw e', h.right (wfN hw e')⟩

/-- The result can be reduced again. -/
theorem C92_again {D : Dd (N + 1)} {out : NodeId → Fin (N + 1) → Bool} {root : Bool} (h : RightBits D out root) : TermBits D out root := by
  refine ⟨fun h0 => ?_, fun {f nd} b hf hn h0 => ?_⟩
  · cases hr : root with
    | false => rfl
    | true => have := (h.root.1 hr).1; omega
  · cases hr : out f b with
    | false => rfl
    | true => have := ((h.node b hf hn).1 hr).1; omega

/-- `hasEmpty()` of the root of a reduced ZDD: the family of the given structure contains the empty set. -/
theorem C92_empty {D D' : Dd (N + 1)} (hw : D.Wf) {inp : NodeId → Fin (N + 1) → Bool} {root : Bool} (ht : TermBits D inp root)
    {s : Bits (N + 1)} (e : Attr.reduce false true D inp root = some (D', s)) {n : Nat} (hn : D.root.row ≤ n) :
    hasEmpty D'.root s.root = true ↔ ZddMem D.spec n fun _ => 0 := by
  obtain ⟨D1, s1, e1, e2, hw', h⟩ := C92_bits (bdd := false) (zdd := true) hw ht
  rw [e] at e1
  cases e1
  obtain ⟨D2, e3, hred⟩ := zddReduce_spec hw
  have : D2 = D' := by
    unfold Dd.zddReduce at e3
    rw [e2] at e3
    exact (Option.some.inj e3).symm
  subst this
  rw [← hred.zddMem hw n hn, hw'.zddMem_iff]
  have : TMem D2.table n D2.root (fun _ => 0) ↔ ZeroChain D2.table D2.root := by
    rw [zeroChain_acc]
    constructor
    · rintro ⟨p, h1, h2, _⟩; exact ⟨p, h1, h2⟩
    · rintro ⟨p, h1, h2⟩; exact ⟨p, h1, h2, fun _ _ _ _ => rfl⟩
  rw [this]
  exact h.empty_iff hw'

/-- The same of a reduced BDD: the function is 1 if all variables are 0. -/
theorem C92_zero {D D' : Dd (N + 1)} (hw : D.Wf) {inp : NodeId → Fin (N + 1) → Bool} {root : Bool} (ht : TermBits D inp root)
    {s : Bits (N + 1)} (e : Attr.reduce true false D inp root = some (D', s)) :
    hasEmpty D'.root s.root = true ↔ BddSat D.spec fun _ => 0 := by
  obtain ⟨D1, s1, e1, e2, hw', h⟩ := C92_bits (bdd := true) (zdd := false) hw ht
  rw [e] at e1
  cases e1
  obtain ⟨D2, e3, hred⟩ := bddReduce_spec hw
  have : D2 = D' := by
    unfold Dd.bddReduce at e3
    rw [e2] at e3
    exact (Option.some.inj e3).symm
  subst this
  rw [← hred.bddSat hw, hw'.bddSat_iff, h.empty_iff hw']
  exact zeroChain_acc

/-- `getZeroDescendant` with the right bits never leaves the table, and its short cut gives what the loop would give. -/
theorem C92_descend {D : Dd (N + 1)} (hw : D.Wf) {f : NodeId} (hv : D.table.Valid f) {a : Bool}
    (ha : a = true ↔ 0 < f.row ∧ ZeroChain D.table f) (stop : Nat) :
    ∃ g, getZeroDescendant D.table f a stop = some g ∧ zeroDescendant D.table stop f.row f = some g ∧ D.table.Valid g ∧ g.row ≤ stop ∧
      (ZeroChain D.table g ↔ ZeroChain D.table f) := by
  have key : ∀ (r : Nat) {f : NodeId}, f.row ≤ r → D.table.Valid f → ∃ g, zeroDescendant D.table stop r f = some g ∧ D.table.Valid g ∧
      g.row ≤ stop ∧ (ZeroChain D.table g ↔ ZeroChain D.table f) := by
    intro r
    induction r with
    | zero =>
      intro f hf hv
      refine ⟨f, ?_, hv, by omega, Iff.rfl⟩
      unfold zeroDescendant
      rw [if_neg (by omega)]
    | succ r ih =>
      intro f hf hv
      unfold zeroDescendant
      by_cases hs : stop < f.row
      · rw [if_pos hs]
        obtain ⟨nd, hnd⟩ := hv.pos (by omega)
        obtain ⟨hc, hlt⟩ := hw.table.child (by omega) hnd 0
        obtain ⟨g, h1, h2, h3, h4⟩ := ih (f := nd 0) (by omega) hc
        exact ⟨g, by rw [hnd]; exact h1, h2, h3, by rw [h4, zeroChain_node (by omega) hnd]⟩
      · rw [if_neg hs]
        exact ⟨f, rfl, hv, by omega, Iff.rfl⟩
  obtain ⟨g, h1, h2, h3, h4⟩ := key f.row (Nat.le_refl _) hv
  refine ⟨g, ?_, h1, h2, h3, h4⟩
  unfold getZeroDescendant
  by_cases hc : stop = 0 ∧ hasEmpty f a = true
  · rw [if_pos hc]
    have hz : ZeroChain D.table f := by
      have := hc.2
      unfold hasEmpty at this
      rw [Bool.or_eq_true, decide_eq_true_iff, ha] at this
      rcases this with e | e
      · rw [e]; exact .one
      · exact e.2
    rcases h2.row0 (by omega) with e | e
    · rw [e] at h4; exact absurd (h4.2 hz) zeroChain_zero
    · rw [e]
  · rw [if_neg hc]; exact h1

/-- In the Graphviz output of a structure with the right bits, a dot is drawn at an edge exactly if its target is a node whose 0-edges lead to the 1-terminal;
all other lines are as without bits. -/
theorem C92_dot {D : Dd (N + 1)} {out : NodeId → Fin (N + 1) → Bool} {root : Bool} (h : RightBits D out root) (title : String)
    {l : Dot.TLine (N + 1)} (hl : l ∈ Dot.tdump D.table title) :
    (∃ f b g, l = .edge f b (some g) ∧ ZeroChain D.table g ∧ lineText out l =
      "  \"" ++ Dot.showId f ++ "\" -> \"" ++ Dot.showId g ++ "\" [style=" ++ Dot.style (N + 1) b ++ ",arrowtail=dot];\n") ∨
    ((∀ f b g, l = .edge f b (some g) → ¬ ZeroChain D.table g) ∧ lineText out l = l.text) := by
  have hs : ∀ f, show' f false = Dot.showId f := by
    intro f; unfold show' Dot.showId; rw [if_neg Bool.false_ne_true, String.append_empty]
  match l, hl with
  | .edge f b g, hl =>
    rw [Dot.mem_tdump (.inr (.inl ⟨f, b, g, rfl⟩)), Dot.edge_trows] at hl
    obtain ⟨h1, nd, h2, ht⟩ := hl
    have hf : 0 < f.row := by omega
    have hn : D.table.node? f = some nd := by unfold Table.node?; rw [if_pos (by omega)]; exact h2
    have hb := h.node b hf hn
    have hg : (g.map fun g => show' g false) = g.map Dot.showId := by simp only [hs]
    simp only [lineText, hs]
    cases ho : out f b with
    | true =>
      obtain ⟨h0, hz⟩ := hb.1 ho
      rcases ht with ⟨e, _⟩ | ⟨_, _, e⟩
      · rw [e] at h0; exact absurd h0 (Nat.lt_irrefl _)
      · subst e
        refine .inl ⟨f, b, _, rfl, hz, ?_⟩
        rw [if_pos rfl]
        simp only [Option.map_some, Option.getD_some, String.append_assoc]
        rfl
    | false =>
      refine .inr ⟨?_, ?_⟩
      · intro f' b' g' e hz
        cases e
        rcases ht with ⟨_, e⟩ | ⟨h0, h1, e⟩
        · cases e
        · cases e
          refine absurd (hb.2 ⟨?_, hz⟩) (by rw [ho]; exact Bool.false_ne_true)
          exact hz.node h1
      · rw [if_neg Bool.false_ne_true, String.append_empty]
        rfl
  | .start _, _ => exact .inr ⟨(fun _ _ _ e => nomatch e), rfl⟩
  | .level _, _ => exact .inr ⟨(fun _ _ _ e => nomatch e), rfl⟩
  | .below _, _ => exact .inr ⟨(fun _ _ _ e => nomatch e), rfl⟩
  | .label _, _ => exact .inr ⟨(fun _ _ _ e => nomatch e), rfl⟩
  | .node _, _ => exact .inr ⟨(fun _ _ _ e => nomatch e), rfl⟩
  | .top, _ => exact .inr ⟨(fun _ _ _ e => nomatch e), rfl⟩
  | .rank _ _, _ => exact .inr ⟨(fun _ _ _ e => nomatch e), rfl⟩
  | .stop, _ => exact .inr ⟨(fun _ _ _ e => nomatch e), rfl⟩

/-- The printed root has a `+` exactly if the root is a node whose 0-edges lead to the 1-terminal. -/
theorem C92_show {D : Dd (N + 1)} {out : NodeId → Fin (N + 1) → Bool} {root : Bool} (h : RightBits D out root) :
    ((0 < D.root.row ∧ ZeroChain D.table D.root) → show' D.root root = Dot.showId D.root ++ "+") ∧
    (¬ (0 < D.root.row ∧ ZeroChain D.table D.root) → show' D.root root = Dot.showId D.root) := by
  unfold show' Dot.showId
  constructor
  · intro h1; rw [if_pos (h.root.2 h1)]
  · intro h1; rw [if_neg fun e => h1 (h.root.1 e), String.append_empty]

/-! ## Examples -/

/-- `(1:0, 1:1)` over `(⊤, ⊥) (⊥, ⊤)` and a duplicate; the root `(2:1, 2:0)` -/
def attrDd : Dd 2 := mkDd [[nd2 .one .zero, nd2 .zero .one, nd2 .one .one], [nd2 ⟨1, 1⟩ ⟨1, 0⟩, nd2 ⟨1, 2⟩ ⟨1, 1⟩], [nd2 ⟨2, 1⟩ ⟨2, 0⟩]] ⟨3, 0⟩

theorem attrDd_wf : attrDd.Wf := wf_of_check (by decide +kernel)

/-- no bits, as after construction -/
theorem TermBits.none (D : Dd (N + 1)) : TermBits D (fun _ _ => false) false := ⟨fun _ => rfl, fun _ _ _ _ => rfl⟩

-- the hypotheses of `C92_bits` hold, and the bits of the result are those of the 0-chains
example : attrDd.Wf ∧ TermBits attrDd (fun _ _ => false) false := ⟨attrDd_wf, .none _⟩
example : ((Attr.reduce false true attrDd (fun _ _ => false) false).map fun r => (r.1.root, r.2.root, (List.finRange 2).map (r.2.output r.1.root))) =
    some (⟨3, 0⟩, true, [true, false]) := by decide +kernel
example : ((Attr.reduce true false attrDd (fun _ _ => false) false).map fun r => (r.1.root, r.2.root, (List.finRange 2).map (r.2.output r.1.root))) =
    some (⟨3, 0⟩, true, [true, false]) := by decide +kernel
example : ((Attr.reduce false true dupDd (fun _ _ => false) false).map fun r => (r.1.root, r.2.root, (List.finRange 2).map (r.2.output r.1.root))) =
    some (⟨3, 0⟩, false, [false, false]) := by decide +kernel
example : ZddMem attrDd.spec 3 (fun _ => 0) := by
  obtain ⟨D', s, e, _⟩ := C92_bits (bdd := false) (zdd := true) attrDd_wf (TermBits.none _)
  refine (C92_empty attrDd_wf (TermBits.none _) e (Nat.le_refl _)).1 ?_
  have : ((Attr.reduce false true attrDd (fun _ _ => false) false).map fun r => hasEmpty r.1.root r.2.root) = some true := by decide +kernel
  rw [e] at this
  exact Option.some.inj this

end TdZdd
