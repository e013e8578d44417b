import Verif.QddCanon
import Verif.Props.Reducer
import Verif.Props.Subset

/-!
# Property C87: conversions of reduced structures give reduced structures

`bdd2zdd(n)`, `zdd2bdd(n)` and `zddSubset()` build their result from a specification; nothing in them calls a reduction.
Yet on reduced operands the result is already reduced, and so `==` to every other reduced structure with the same meaning.
`BddReduced` and `ZddReduced` are the two rules of reduction (no redundant node, no duplicates), of all nodes of the table.
-/

namespace TdZdd

variable {N : Nat} {S : Type}

/-- no two nodes of a level have the same edges -/
def NoTwins (D : Dd (N + 1)) : Prop :=
  ∀ f g nd, 0 < f.row → f.row = g.row → D.table.node? f = some nd → D.table.node? g = some nd → f = g

/-- reduced as a BDD: no node has all edges to the same child -/
def BddReduced (D : Dd (N + 1)) : Prop :=
  (∀ f nd, 0 < f.row → D.table.node? f = some nd → ¬ ∀ b b', nd b = nd b') ∧ NoTwins D

/-- reduced as a ZDD: no node has all edges but the 0-edge to the 0-terminal -/
def ZddReduced (D : Dd (N + 1)) : Prop :=
  (∀ f nd, 0 < f.row → D.table.node? f = some nd → ∃ b, b ≠ 0 ∧ nd b ≠ .zero) ∧ NoTwins D

theorem BddReduced.canon {D : Dd (N + 1)} (h : BddReduced D) : Canon delB D.table :=
  ⟨fun {f nd} h0 hn hd => h.1 f nd h0 hn fun b b' => (hd b).trans (hd b').symm, h.2⟩

theorem ZddReduced.canon {D : Dd (N + 1)} (h : ZddReduced D) : Canon delZ D.table :=
  ⟨fun {f nd} h0 hn hd => let ⟨b, h1, h2⟩ := h.1 f nd h0 hn; h2 (hd b h1), h.2⟩

theorem Canon.bddReduced {D : Dd (N + 1)} (h : Canon delB D.table) : BddReduced D :=
  ⟨fun _ _ h0 hn hd => h.keep h0 hn fun b => hd b 0, h.uniq⟩

theorem Canon.zddReduced {D : Dd (N + 1)} (h : Canon delZ D.table) : ZddReduced D := by
  refine ⟨fun f nd h0 hn => ?_, h.uniq⟩
  have := h.keep h0 hn
  unfold delZ at this
  obtain ⟨b, hb⟩ := Classical.not_forall.1 this
  exact ⟨b, Classical.not_imp.1 hb⟩

/-- The results of the two reductions are reduced (C10, C11). -/
theorem C87_reduce (D : Dd (N + 1)) (hw : D.Wf) : ∃ B Z, D.bddReduce = some B ∧ BddReduced B ∧ D.zddReduce = some Z ∧ ZddReduced Z := by
  obtain ⟨B, e, h⟩ := bddReduce_spec hw
  obtain ⟨Z, e', h'⟩ := zddReduce_spec hw
  exact ⟨B, Z, e, (h.canon hw).bddReduced, e', (h'.canon hw).zddReduced⟩

/-- `==` decides equality of the Boolean functions of BDD-reduced structures. -/
theorem C87_bdd_eq (A B : Dd (N + 1)) (hA : A.Wf) (hB : B.Wf) (hA0 : A.table.row 0 = terminalRow (N + 1)) (hB0 : B.table.row 0 = terminalRow (N + 1))
    (rA : BddReduced A) (rB : BddReduced B) : ∃ r, ddEq false A B = some r ∧ (r = true ↔ ∀ a, BddSat A.spec a ↔ BddSat B.spec a) := by
  obtain ⟨r, e, h1, h2⟩ := C15_eq false A B hA hB hA0 hB0 (fun h => nomatch h)
  refine ⟨r, e, fun h => (h1 h).2.1, fun h => (h2 rA.2 rB.2).2 ?_⟩
  exact rA.canon.isoB hA.table hB.table rB.canon _ (Nat.le_refl _) hA.root hB.root fun a => by rw [← hA.bddSat_iff, ← hB.bddSat_iff, h]

/-- `==` decides equality of the families of ZDD-reduced structures. -/
theorem C87_zdd_eq (A B : Dd (N + 1)) (hA : A.Wf) (hB : B.Wf) (hA0 : A.table.row 0 = terminalRow (N + 1)) (hB0 : B.table.row 0 = terminalRow (N + 1))
    (rA : ZddReduced A) (rB : ZddReduced B) (n : Nat) (hn : A.root.row ≤ n) (hn' : B.root.row ≤ n) :
    ∃ r, ddEq false A B = some r ∧ (r = true ↔ ∀ a, ZddMem A.spec n a ↔ ZddMem B.spec n a) := by
  obtain ⟨r, e, h1, h2⟩ := C15_eq false A B hA hB hA0 hB0 (fun h => nomatch h)
  refine ⟨r, e, fun h => (h1 h).2.2 n, fun h => (h2 rA.2 rB.2).2 ?_⟩
  exact rA.canon.isoZ hA.table hB.table rB.canon _ (Nat.le_refl _) hA.root hB.root n hn hn' fun a => by rw [← hA.zddMem_iff, ← hB.zddMem_iff, h]

/-- C87: `bdd2zdd(n)` of a reduced BDD is a reduced ZDD, so reducing it changes nothing but the numbering. -/
theorem C87_bdd2zdd (D : Dd (N + 1)) (hw : D.Wf) (hr : BddReduced D) (n : Nat) (hn : D.root.row ≤ n) :
    ∃ Z Z', bdd2zdd D n = some Z ∧ Z.Wf ∧ ZddReduced Z ∧ (∀ a, ZddMem Z.spec n a ↔ BddSat D.spec a) ∧
      Z.zddReduce = some Z' ∧ ddEq false Z Z' = some true := by
  obtain ⟨Z, e, h1, h2, h3⟩ := C24_bdd2zdd D hw n hn
  have hc := bdd2zdd_canon hw hr.canon e
  obtain ⟨Z', e', h'⟩ := zddReduce_spec h1
  have h0 : Z.table.row 0 = terminalRow (N + 1) := by
    obtain ⟨X, _, k1, _, _, k4, _⟩ := build_main (C26_zddLookahead _ (C26_bddUnreduction D.spec n hw.lawful)).lawful
    have : some X = some Z := k1.symm.trans e
    cases this
    exact k4
  refine ⟨Z, Z', e, h1, hc.zddReduced, h3, e', ?_⟩
  obtain ⟨r, k, hk⟩ := C87_zdd_eq Z Z' h1 (h'.wf h1) h0 h'.2.1 hc.zddReduced (h'.canon h1).zddReduced n h2
    (Nat.le_trans (h'.root_row h1) h2)
  rw [k, hk.2 fun a => (h'.zddMem h1 n h2 a).symm]

/-- C87: `zdd2bdd(n)` of a reduced ZDD is a reduced BDD. -/
theorem C87_zdd2bdd (D : Dd (N + 1)) (hw : D.Wf) (hr : ZddReduced D) (n : Nat) (hn : D.root.row ≤ n) :
    ∃ B B', zdd2bdd D n = some B ∧ B.Wf ∧ BddReduced B ∧ (∀ a, BddSat B.spec a ↔ ZddMem D.spec n a) ∧
      B.bddReduce = some B' ∧ ddEq false B B' = some true := by
  obtain ⟨B, e, h1, h2, h3⟩ := C25_zdd2bdd D hw n hn
  have hc := zdd2bdd_canon hw hr.canon e
  obtain ⟨B', e', h'⟩ := bddReduce_spec h1
  have h0 : B.table.row 0 = terminalRow (N + 1) := by
    obtain ⟨X, _, k1, _, _, k4, _⟩ := build_main (C26_bddLookahead _ (C26_zddUnreduction D.spec n hw.lawful)).lawful
    have : some X = some B := k1.symm.trans e
    cases this
    exact k4
  refine ⟨B, B', e, h1, hc.bddReduced, h3, e', ?_⟩
  obtain ⟨r, k, hk⟩ := C87_bdd_eq B B' h1 (h'.wf h1) h0 h'.2.1 hc.bddReduced (h'.canon h1).bddReduced
  rw [k, hk.2 fun a => (h'.bddSat h1 a).symm]

/-- C87: converting a reduced BDD to a ZDD and back gives a structure `==` to the original. -/
theorem C87_roundtrip_bdd (D : Dd (N + 1)) (hw : D.Wf) (h0 : D.table.row 0 = terminalRow (N + 1)) (hr : BddReduced D) (n : Nat)
    (hn : D.root.row ≤ n) : ∃ B, (bdd2zdd D n).bind (fun Z => zdd2bdd Z n) = some B ∧ ddEq false D B = some true := by
  obtain ⟨Z, _, e1, w1, r1, s1, _⟩ := C87_bdd2zdd D hw hr n hn
  have hz : Z.root.row ≤ n := by
    obtain ⟨Z', e, _, h, _⟩ := C24_bdd2zdd D hw n hn
    rw [e1] at e; cases e; exact h
  obtain ⟨B, B', e2, w2, r2, s2, e3, q⟩ := C87_zdd2bdd Z w1 r1 n hz
  have hb0 : B.table.row 0 = terminalRow (N + 1) := by
    obtain ⟨X, _, k1, _, _, k4, _⟩ := build_main (C26_bddLookahead _ (C26_zddUnreduction Z.spec n w1.lawful)).lawful
    have : some X = some B := k1.symm.trans e2
    cases this
    exact k4
  refine ⟨B, by rw [e1]; exact e2, ?_⟩
  obtain ⟨r, k, hk⟩ := C87_bdd_eq D B hw w2 h0 hb0 hr r2
  rw [k, hk.2 fun a => by rw [s2, s1]]

/-- C87: converting a reduced ZDD to a BDD and back gives a structure `==` to the original. -/
theorem C87_roundtrip_zdd (D : Dd (N + 1)) (hw : D.Wf) (h0 : D.table.row 0 = terminalRow (N + 1)) (hr : ZddReduced D) (n : Nat)
    (hn : D.root.row ≤ n) : ∃ Z, (zdd2bdd D n).bind (fun B => bdd2zdd B n) = some Z ∧ ddEq false D Z = some true := by
  obtain ⟨B, _, e1, w1, r1, s1, _⟩ := C87_zdd2bdd D hw hr n hn
  have hz : B.root.row ≤ n := by
    obtain ⟨Z', e, _, h, _⟩ := C25_zdd2bdd D hw n hn
    rw [e1] at e; cases e; exact h
  obtain ⟨Z, Z', e2, w2, r2, s2, e3, q⟩ := C87_bdd2zdd B w1 r1 n hz
  have hz' : Z.root.row ≤ n := by
    obtain ⟨Z', e, _, h, _⟩ := C24_bdd2zdd B w1 n hz
    rw [e2] at e; cases e; exact h
  have hb0 : Z.table.row 0 = terminalRow (N + 1) := by
    obtain ⟨X, _, k1, _, _, k4, _⟩ := build_main (C26_zddLookahead _ (C26_bddUnreduction B.spec n w1.lawful)).lawful
    have : some X = some Z := k1.symm.trans e2
    cases this
    exact k4
  refine ⟨Z, by rw [e1]; exact e2, ?_⟩
  obtain ⟨r, k, hk⟩ := C87_zdd_eq D Z hw w2 h0 hb0 hr r2 n hn hz'
  rw [k, hk.2 fun a => by rw [s2, s1]]

theorem subset_self {Z Q : Dd (N + 1)} (wz : Z.Wf) (z0 : Z.table.row 0 = terminalRow (N + 1)) (hr : ZddReduced Z) (wq : Q.Wf) (hl : LevelCanon Q) (n : Nat)
    (h1 : Z.root.row ≤ n) (h2 : Q.root.row ≤ n) (he : ∀ a, ZddMem Z.spec n a ↔ ZddMem Q.spec n a) (shared : Bool) :
    ∃ Z', zddSubset Z Q.spec shared = some Z' ∧ ZddReduced Z' ∧ ddEq false Z Z' = some true := by
  obtain ⟨Z', e, w', t', c'⟩ := zddSubset_canon wz hr.canon wq hl h1 h2 (fun a => by rw [← wz.zddMem_iff, ← wq.zddMem_iff]; exact he a) shared
  refine ⟨Z', e, c'.zddReduced, ?_⟩
  obtain ⟨X, ex, _, hx⟩ := C27_subset Z Q.spec shared wz wq.lawful.lawful (fun _ _ => rfl)
  rw [e] at ex
  cases ex
  have hrow : Z'.root.row ≤ n := by
    have hlive := C27_live Z Q.spec shared wz wq.lawful.lawful Z' e
    by_cases hp : 0 < Z'.root.row
    · obtain ⟨nd, hn⟩ := w'.root.pos hp
      have : Z'.root.row < Z'.table.numRows := by
        unfold Table.node? at hn
        split at hn
        · assumption
        · cases hn
      omega
    · omega
  have k1 := Dd.root_row wz
  have k2 := Dd.root_row wq
  obtain ⟨r, k, hk⟩ := C87_zdd_eq Z Z' wz w' z0 t' hr c'.zddReduced n h1 hrow
  rw [k, hk.2 fun a => by rw [hx n a (by omega) (by omega), ← he]; exact and_self_iff.symm]

/-- C87: `zddSubset()` of a reduced ZDD with a reduced ZDD of the same family is reduced and `==` to it. -/
theorem C87_zddSubset_reduced (A B : Dd (N + 1)) (hA : A.Wf) (hA0 : A.table.row 0 = terminalRow (N + 1)) (rA : ZddReduced A) (hB : B.Wf)
    (rB : ZddReduced B) (n : Nat) (h1 : A.root.row ≤ n) (h2 : B.root.row ≤ n) (he : ∀ a, ZddMem A.spec n a ↔ ZddMem B.spec n a) (shared : Bool) :
    ∃ A', zddSubset A B.spec shared = some A' ∧ ZddReduced A' ∧ ddEq false A A' = some true := by
  refine subset_self hA hA0 rA hB ?_ n h1 h2 he shared
  intro n q r hn hq hr _ heq
  obtain ⟨e1, nd, k1, _⟩ := reach_row hB hn hq
  obtain ⟨e2, nd', k2, _⟩ := reach_row hB hn hr
  exact rB.canon.eqZ hB.table _ (Nat.le_refl _) (Table.valid_of_node (by omega) k1) (Table.valid_of_node (by omega) k2) n (by omega) (by omega) heq

/-- C87: `zddSubset()` of a reduced ZDD with a quasi-reduced diagram of the same family that was built from a specification
whose edges go one level down or to the 0-terminal is reduced and `==` to the ZDD. -/
theorem C87_zddSubset_qdd (sp : DdSpec (N + 1) S) (hl : LawfulC sp) (n : Nat) (hd : Dense sp n) (shared : Bool) :
    ∃ D Q Z Z', build sp = some D ∧ D.qddReduce = some Q ∧ Q.zddReduce = some Z ∧ zddSubset Z Q.spec shared = some Z' ∧
      ZddReduced Z' ∧ ddEq false Z Z' = some true := by
  obtain ⟨D, lab, e1, hs, _⟩ := build_main hl.lawful
  have hw := hs.wf hl.toDesc
  obtain ⟨Q, e2, hq⟩ := qddReduce_spec hw
  have wq := hq.wf hw
  obtain ⟨Z, e3, hz⟩ := zddReduce_spec wq
  have wz := hz.wf wq
  obtain ⟨Z', e4, r, q⟩ := subset_self wz hz.2.1 (hz.canon wq).zddReduced wq (qddReduce_levelCanon hw (hs.dense hd) e2) Q.root.row
    (hz.root_row wq) (Nat.le_refl _) (hz.zddMem wq _ (Nat.le_refl _)) shared
  exact ⟨D, Q, Z, Z', e1, e2, e3, e4, r, q⟩

/-! ## examples -/

/-- the operands of `zddSubset()` need the same family: {∅, {1}, {2, 1}} and {{1}, {2}, {2, 1}} are given by reduced ZDDs of three
nodes each; their intersection {{1}, {2, 1}} needs one node for level 1, the result has two equal ones. -/
def convA : Dd 2 := mkDd [[nd2 .one .one, nd2 .zero .one], [nd2 ⟨1, 0⟩ ⟨1, 1⟩]] ⟨2, 0⟩

def convB : Dd 2 := mkDd [[nd2 .zero .one, nd2 .one .one], [nd2 ⟨1, 0⟩ ⟨1, 1⟩]] ⟨2, 0⟩

theorem convA_wf : convA.Wf := wf_of_check (by decide +kernel)
theorem convB_wf : convB.Wf := wf_of_check (by decide +kernel)

theorem C87_zddSubset_not_reduced : ∃ A B X X' : Dd 2, A.Wf ∧ ZddReduced A ∧ B.Wf ∧ ZddReduced B ∧ zddSubset A B.spec false = some X ∧
    X.zddReduce = some X' ∧ X'.table.size < X.table.size ∧ ¬ ZddReduced X := by
  obtain ⟨_, A, _, _, eA, rA⟩ := C87_reduce convA convA_wf
  obtain ⟨_, B, _, _, eB, rB⟩ := C87_reduce convB convB_wf
  obtain ⟨A', hA, wA, _⟩ := C08_zddReduce convA convA_wf
  obtain ⟨B', hB, wB, _⟩ := C08_zddReduce convB convB_wf
  cases hA.symm.trans eA
  cases hB.symm.trans eB
  obtain ⟨X, eX, wX, _⟩ := C27_subset A B.spec false wA wB.lawful.lawful (fun _ _ => rfl)
  obtain ⟨_, X', _, _, e', _⟩ := C87_reduce X wX
  have key : (convA.zddReduce.bind fun A => convB.zddReduce.bind fun B => (zddSubset A B.spec false).bind fun X => X.zddReduce.map fun X' =>
      ((X.table.size, X'.table.size), (X.table.node? ⟨1, 0⟩).map fun nd => (nd 0, nd 1),
        (X.table.node? ⟨1, 1⟩).map fun nd => (nd 0, nd 1))) = some ((3, 2), some (.zero, .one), some (.zero, .one)) := by decide +kernel
  rw [eA, eB] at key
  dsimp only [Option.bind] at key
  rw [eX] at key
  dsimp only at key
  rw [e', Option.map_some, Option.some.injEq] at key
  simp only [Prod.mk.injEq] at key
  obtain ⟨⟨k1, k2⟩, k3, k4⟩ := key
  refine ⟨A, B, X, X', wA, rA, wB, rB, eX, e', by rw [k1, k2]; decide, fun h => ?_⟩
  obtain ⟨nd, h1, h2⟩ := Option.map_eq_some_iff.1 k3
  obtain ⟨nd', h3, h4⟩ := Option.map_eq_some_iff.1 k4
  have : nd = nd' := by
    simp only [Prod.mk.injEq] at h2 h4
    funext b
    rcases fin2_cases b with rfl | rfl
    · rw [h2.1, h4.1]
    · rw [h2.2, h4.2]
  rw [← this] at h3
  have := h.2 ⟨1, 0⟩ ⟨1, 1⟩ nd (by decide) rfl h1 h3
  exact absurd this (by decide)

/-- the reduced BDD of `dupDd` (two non-terminal levels are left) there and back -/
example : ∃ D B, dupDd.bddReduce = some D ∧ (bdd2zdd D 4).bind (fun Z => zdd2bdd Z 4) = some B ∧ ddEq false D B = some true := by
  obtain ⟨D, _, e, r, _⟩ := C87_reduce dupDd dupDd_wf
  obtain ⟨D', e', h⟩ := bddReduce_spec dupDd_wf
  cases e.symm.trans e'
  obtain ⟨B, h1, h2⟩ := C87_roundtrip_bdd D (h.wf dupDd_wf) h.2.1 r 4 (Nat.le_trans (h.root_row dupDd_wf) (by decide))
  exact ⟨D, B, e, h1, h2⟩

example : ∃ D Z, triDd.zddReduce = some D ∧ (zdd2bdd D 4).bind (fun B => bdd2zdd B 4) = some Z ∧ ddEq false D Z = some true := by
  obtain ⟨_, D, _, _, e, r⟩ := C87_reduce triDd triDd_wf
  obtain ⟨D', e', h⟩ := zddReduce_spec triDd_wf
  cases e.symm.trans e'
  obtain ⟨B, h1, h2⟩ := C87_roundtrip_zdd D (h.wf triDd_wf) h.2.1 r 4 (Nat.le_trans (h.root_row triDd_wf) (by decide))
  exact ⟨D, B, e, h1, h2⟩

theorem atMostOne_dense : Dense atMostOne 3 where
  pos := by decide
  root := .inr rfl
  child {l s} b hl _ := by
    simp only [atMostOne]
    repeat' split
    all_goals first
      | exact .inl rfl
      | (right; simp only; try omega)

example : ∃ D Q Z Z', build atMostOne = some D ∧ D.qddReduce = some Q ∧ Q.zddReduce = some Z ∧ zddSubset Z Q.spec false = some Z' ∧
    ZddReduced Z' ∧ ddEq false Z Z' = some true := C87_zddSubset_qdd _ atMostOne_lawful 3 atMostOne_dense false

/-- with itself -/
example : ∃ A A', convA.zddReduce = some A ∧ zddSubset A A.spec true = some A' ∧ ZddReduced A' ∧ ddEq false A A' = some true := by
  obtain ⟨_, A, _, _, e, r⟩ := C87_reduce convA convA_wf
  obtain ⟨D', e', h⟩ := zddReduce_spec convA_wf
  cases e.symm.trans e'
  obtain ⟨B, h1, h2⟩ := C87_zddSubset_reduced A A (h.wf convA_wf) h.2.1 r (h.wf convA_wf) r 2 (h.root_row convA_wf) (h.root_row convA_wf) (fun _ => Iff.rfl) true
  exact ⟨A, B, e, h1, h2⟩

end TdZdd
