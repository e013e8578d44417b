import Verif.ReduceTop
import Verif.SampleDds
import Verif.Props.Builder

/-!
# Properties C07-C11, C13-C15: sequential reduction and `operator==`

`D.bddReduce`, `D.zddReduce`, `D.qddReduce` model the member functions of the same name without OpenMP, for
every arity `N + 1 ≥ 1`; for arity 2 the in-place pointer algorithm (`algorithmR`) is modelled, for the other
arities the one with the hash table. `none` means undefined behaviour. `D.Wf` (root and edges point to existing
nodes, edges go down) is what construction guarantees (C03) and what reduction preserves (C07-C09 below).
`ddEq same A B` models `A == B`; `same` tells whether they share the node table object.
-/

namespace TdZdd

variable {N : Nat}

/-! ## C07-C09: reductions keep the meaning -/

/-- C07: `bddReduce()` has no undefined behaviour and keeps the Boolean function. -/
theorem C07_bddReduce (D : Dd (N + 1)) (hw : D.Wf) :
    ∃ D', D.bddReduce = some D' ∧ D'.Wf ∧ ∀ a, BddSat D'.spec a ↔ BddSat D.spec a := by
  obtain ⟨D', e, h⟩ := bddReduce_spec hw
  exact ⟨D', e, h.wf hw, h.bddSat hw⟩

/-- C08: `zddReduce()` has no undefined behaviour and keeps the family of sets, over any number `n` of items that
is at least the top level. -/
theorem C08_zddReduce (D : Dd (N + 1)) (hw : D.Wf) :
    ∃ D', D.zddReduce = some D' ∧ D'.Wf ∧ ∀ n, D.root.row ≤ n → ∀ a, ZddMem D'.spec n a ↔ ZddMem D.spec n a := by
  obtain ⟨D', e, h⟩ := zddReduce_spec hw
  exact ⟨D', e, h.wf hw, h.zddMem hw⟩

/-- C09: `qddReduce()` has no undefined behaviour and keeps both readings. -/
theorem C09_qddReduce (D : Dd (N + 1)) (hw : D.Wf) :
    ∃ D', D.qddReduce = some D' ∧ D'.Wf ∧ (∀ a, BddSat D'.spec a ↔ BddSat D.spec a) ∧
      ∀ n a, ZddMem D'.spec n a ↔ ZddMem D.spec n a := by
  obtain ⟨D', e, h⟩ := qddReduce_spec hw
  exact ⟨D', e, h.wf hw, bddSat_congr fun p => h.accepts hw p, fun n => zddMem_congr (fun p => h.accepts hw p) n⟩

example : ∃ D D', build atMostOne = some D ∧ D.bddReduce = some D' ∧ ∀ a, BddSat D'.spec a ↔ BddSat D.spec a := by
  obtain ⟨D, h, hw, _⟩ := C03_build_safe _ atMostOne_lawful.lawful
  obtain ⟨D', h', _, hs⟩ := C07_bddReduce D hw
  exact ⟨D, D', h, h', hs⟩

/-- arity 2, with duplicates and redundant nodes: six nodes become four, three or five -/
example : dupDd.Wf ∧ dupDd.table.size = 6 ∧ dupDd.bddReduce.map (fun D => D.table.size) = some 4 ∧
    dupDd.zddReduce.map (fun D => D.table.size) = some 3 ∧
    dupDd.qddReduce.map (fun D => D.table.size) = some 5 := ⟨dupDd_wf, by decide +kernel⟩

/-- arity 3 -/
example : triDd.Wf ∧ triDd.table.size = 8 ∧ triDd.bddReduce.map (fun D => D.table.size) = some 5 ∧
    triDd.zddReduce.map (fun D => D.table.size) = some 5 ∧
    triDd.qddReduce.map (fun D => D.table.size) = some 7 := ⟨triDd_wf, by decide +kernel⟩

/-- The comment of `qddReduce()` ("No node deletion rule is applied") is not accurate: an edge to a node all of whose
edges go to the 0-terminal is redirected to the 0-terminal, and the result is not structurally equal to the
original although that has no duplicate nodes. -/
theorem C09_qddReduce_deletes_zero_nodes : ∃ D D' : Dd 2, D.Wf ∧ D.table.Unique ∧ D.qddReduce = some D' ∧
    ddEq false D D' = some false := by
  refine ⟨mkDd [[nd2 .zero .zero], [nd2 ⟨1, 0⟩ .one]] ⟨2, 0⟩, _, wf_of_check (by decide +kernel), ?_, rfl,
    by decide +kernel⟩
  exact fun f g nd _ hr hf hg => unique_of_check (by decide +kernel) hr hf hg

/-! ## C15: `operator==` -/

/-- C15: `A == B` has no undefined behaviour; the answer `true` means that both unfold to the same diagram, so they
have the same function and family. If neither has duplicate nodes, the answer is `true` exactly when both
unfold to the same diagram. -/
theorem C15_eq (same : Bool) (A B : Dd (N + 1)) (hA : A.Wf) (hB : B.Wf) (hA0 : A.table.row 0 = terminalRow (N + 1))
    (hB0 : B.table.row 0 = terminalRow (N + 1)) (hs : same = true → A.table = B.table) :
    ∃ r, ddEq same A B = some r ∧
      (r = true → Iso A.table B.table A.root B.root ∧ (∀ a, BddSat A.spec a ↔ BddSat B.spec a) ∧
        ∀ n a, ZddMem A.spec n a ↔ ZddMem B.spec n a) ∧
      (A.table.Unique → B.table.Unique → (r = true ↔ Iso A.table B.table A.root B.root)) := by
  obtain ⟨r, e, h1, h2⟩ := ddEq_spec hA hB (by rw [hA0]; exact Nat.le_refl _) (by rw [hB0]; exact Nat.le_refl _) hs
  refine ⟨r, e, fun h => ⟨h1 h, ?_⟩, fun u u' => ⟨h1, h2 u u'⟩⟩
  have hacc : ∀ p, Accepts A.spec A.spec.root.1 A.spec.root.2 p ↔ Accepts B.spec B.spec.root.1 B.spec.root.2 p := by
    intro p
    rw [hA.accepts_iff, hB.accepts_iff]
    exact (h1 h).tacc p
  exact ⟨bddSat_congr hacc, fun n => zddMem_congr hacc n⟩

/-- structures as built are never equal by accident; equal ones are recognised -/
example : (do let A ← build atMostOne; let B ← build imply31; ddEq false A B) = some false := by decide +kernel
example : (do let A ← build atMostOne; let B ← A.qddReduce; ddEq false A B) = some true := by decide +kernel

/-- `operator==` is not complete on structures with duplicate nodes: a copy of this well-formed structure (same nodes,
same root, other table object) compares unequal. -/
theorem C15_eq_incomplete : ∃ A : Dd 2, A.Wf ∧ A.table.row 0 = terminalRow 2 ∧ ddEq false A A = some false :=
  ⟨dupDd, dupDd_wf, rfl, by decide +kernel⟩

/-! ## C10, C11: canonicity -/

/-- C10: after `bddReduce()` no node has all edges to the same child and no two nodes of a level have the same edges;
structures with the same Boolean function are `==` after `bddReduce()`. -/
theorem C10_bddReduce_canonical (A B : Dd (N + 1)) (hA : A.Wf) (hB : B.Wf) : ∃ A' B', A.bddReduce = some A' ∧
    B.bddReduce = some B' ∧
    (∀ f nd, 0 < f.row → A'.table.node? f = some nd → ¬ ∀ b b', nd b = nd b') ∧
    (∀ f g nd, 0 < f.row → f.row = g.row → A'.table.node? f = some nd → A'.table.node? g = some nd → f = g) ∧
    ((∀ a, BddSat A.spec a ↔ BddSat B.spec a) ↔ ddEq false A' B' = some true) := by
  obtain ⟨A', eA, rA⟩ := bddReduce_spec hA
  obtain ⟨B', eB, rB⟩ := bddReduce_spec hB
  refine ⟨A', B', eA, eB, fun f nd h0 hn h => (rA.canon hA).keep h0 hn fun b => h b 0, (rA.canon hA).uniq, ?_⟩
  obtain ⟨r, e, h1, h2⟩ := C15_eq false A' B' (rA.wf hA) (rB.wf hB) rA.2.1 rB.2.1 (fun h => nomatch h)
  have h2 := h2 (rA.canon hA).uniq (rB.canon hB).uniq
  rw [e]
  constructor
  · intro h
    rw [h2.2 (rA.isoB hA rB hB h)]
  · intro h a
    rw [← rA.bddSat hA, ← rB.bddSat hB]
    exact (h1 (Option.some.inj h)).2.1 a

/-- C11: after `zddReduce()` no node has all edges but the 0-edge to the 0-terminal and no two nodes of a level have the
same edges; structures with the same family over `n` items are `==` after `zddReduce()`. -/
theorem C11_zddReduce_canonical (A B : Dd (N + 1)) (hA : A.Wf) (hB : B.Wf) : ∃ A' B', A.zddReduce = some A' ∧
    B.zddReduce = some B' ∧
    (∀ f nd, 0 < f.row → A'.table.node? f = some nd → ¬ ∀ b, b ≠ 0 → nd b = .zero) ∧
    (∀ f g nd, 0 < f.row → f.row = g.row → A'.table.node? f = some nd → A'.table.node? g = some nd → f = g) ∧
    ∀ n, A.root.row ≤ n → B.root.row ≤ n →
      ((∀ a, ZddMem A.spec n a ↔ ZddMem B.spec n a) ↔ ddEq false A' B' = some true) := by
  obtain ⟨A', eA, rA⟩ := zddReduce_spec hA
  obtain ⟨B', eB, rB⟩ := zddReduce_spec hB
  refine ⟨A', B', eA, eB, fun f nd h0 hn h => (rA.canon hA).keep h0 hn h, (rA.canon hA).uniq, ?_⟩
  intro n hn hn'
  obtain ⟨r, e, h1, h2⟩ := C15_eq false A' B' (rA.wf hA) (rB.wf hB) rA.2.1 rB.2.1 (fun h => nomatch h)
  have h2 := h2 (rA.canon hA).uniq (rB.canon hB).uniq
  rw [e]
  constructor
  · intro h
    rw [h2.2 (rA.isoZ hA rB hB hn hn' h)]
  · intro h a
    rw [← rA.zddMem hA n hn, ← rB.zddMem hB n hn']
    exact (h1 (Option.some.inj h)).2.2 n a

/-- another diagram of the same function and family as `dupDd`, without duplicates -/
def dupDd2 : Dd 2 := mkDd [[nd2 .one .zero, nd2 .zero .one],
  [nd2 ⟨1, 0⟩ .zero, nd2 ⟨1, 1⟩ ⟨1, 1⟩], [nd2 ⟨2, 1⟩ ⟨2, 0⟩]] ⟨3, 0⟩

example : dupDd.Wf ∧ dupDd2.Wf ∧ dupDd.table.size ≠ dupDd2.table.size ∧
    (do let A ← dupDd.bddReduce; let B ← dupDd2.bddReduce; ddEq false A B) = some true ∧
    (do let A ← dupDd.zddReduce; let B ← dupDd2.zddReduce; ddEq false A B) = some true :=
  ⟨dupDd_wf, wf_of_check (by decide +kernel), by decide +kernel⟩

/-! ## C13: idempotence and size -/

/-- C13: no reduction makes the structure larger, and reducing twice gives a structure `==` to the once reduced one. -/
theorem C13_reduce_idempotent (D : Dd (N + 1)) (hw : D.Wf) (bdd zdd : Bool) (hbz : ¬ (bdd = true ∧ zdd = true)) :
    ∃ D' D'', D.reduce bdd zdd = some D' ∧ D'.reduce bdd zdd = some D'' ∧ D'.table.size ≤ D.table.size ∧
      ddEq false D' D'' = some true := by
  have fin : ∀ {D' D'' : Dd (N + 1)}, D'.Wf → D''.Wf → D'.table.row 0 = terminalRow (N + 1) →
      D''.table.row 0 = terminalRow (N + 1) → D'.table.Unique → D''.table.Unique →
      Iso D'.table D''.table D'.root D''.root → ddEq false D' D'' = some true := by
    intro D' D'' h1 h2 h3 h4 h5 h6 h7
    obtain ⟨r, e, _, k⟩ := C15_eq false D' D'' h1 h2 h3 h4 (fun h => nomatch h)
    rw [e, (k h5 h6).2 h7]
  match bdd, zdd, hbz with
  | true, true, h => exact absurd ⟨rfl, rfl⟩ h
  | true, false, _ =>
    obtain ⟨D', e, h⟩ := bddReduce_spec hw
    obtain ⟨D'', e', h'⟩ := bddReduce_spec (h.wf hw)
    exact ⟨D', D'', e, e', h.size_le, fin (h.wf hw) (h'.wf (h.wf hw)) h.2.1 h'.2.1 (h.canon hw).uniq
      (h'.canon (h.wf hw)).uniq (h.idemB hw h')⟩
  | false, true, _ =>
    obtain ⟨D', e, h⟩ := zddReduce_spec hw
    obtain ⟨D'', e', h'⟩ := zddReduce_spec (h.wf hw)
    exact ⟨D', D'', e, e', h.size_le, fin (h.wf hw) (h'.wf (h.wf hw)) h.2.1 h'.2.1 (h.canon hw).uniq
      (h'.canon (h.wf hw)).uniq (h.idemZ hw h')⟩
  | false, false, _ =>
    obtain ⟨D', e, h⟩ := qddReduce_spec hw
    obtain ⟨D'', e', h'⟩ := qddReduce_spec (h.wf hw)
    exact ⟨D', D'', e, e', h.size_le, fin (h.wf hw) (h'.wf (h.wf hw)) h.2.1 h'.2.1 h.unique h'.unique
      (qddReduce_idem hw e e')⟩

example : ∃ D' D'', dupDd.reduce false true = some D' ∧ D'.reduce false true = some D'' ∧
    D'.table.size ≤ dupDd.table.size ∧ ddEq false D' D'' = some true :=
  C13_reduce_idempotent dupDd dupDd_wf false true (by decide)

/-! ## C14: minimality -/

/-- C14 for BDDs: if all nodes of `D` are reachable, no structure with the same Boolean function has fewer nodes than
the result of `bddReduce()`. -/
theorem C14_bddReduce_minimal (D : Dd (N + 1)) (hw : D.Wf) (hl : D.AllLive) : ∃ D', D.bddReduce = some D' ∧
    ∀ E : Dd (N + 1), E.Wf → (∀ a, BddSat D.spec a ↔ BddSat E.spec a) → D'.table.size ≤ E.table.size := by
  obtain ⟨D', e, h⟩ := bddReduce_spec hw
  refine ⟨D', e, fun E hE he => ?_⟩
  refine (h.canon hw).minB (h.wf hw) hE (h.allLive hw delB_low hl) fun a => ?_
  rw [← (h.wf hw).bddSat_iff, ← hE.bddSat_iff, h.bddSat hw, he]

/-- C14 for ZDDs. -/
theorem C14_zddReduce_minimal (D : Dd (N + 1)) (hw : D.Wf) (hl : D.AllLive) : ∃ D', D.zddReduce = some D' ∧
    ∀ (E : Dd (N + 1)) (n : Nat), E.Wf → D.root.row ≤ n → E.root.row ≤ n →
      (∀ a, ZddMem D.spec n a ↔ ZddMem E.spec n a) → D'.table.size ≤ E.table.size := by
  obtain ⟨D', e, h⟩ := zddReduce_spec hw
  refine ⟨D', e, fun E n hE hn hn' he => ?_⟩
  refine (h.canon hw).minZ (h.wf hw) hE (h.allLive hw delZ_low hl) (Nat.le_trans (h.root_row hw) hn) hn' fun a => ?_
  rw [← (h.wf hw).zddMem_iff, ← hE.zddMem_iff, h.zddMem hw n hn, he]

/-- Structures built from a lawful specification satisfy the hypotheses of C14, so the built and reduced structure is
smallest. -/
theorem C14_build_zddReduce_minimal {S : Type} (sp : DdSpec (N + 1) S) (hl : Lawful sp) : ∃ D D', build sp = some D ∧
    D.zddReduce = some D' ∧ ∀ (E : Dd (N + 1)) (n : Nat), E.Wf → D.root.row ≤ n → E.root.row ≤ n →
      (∀ a, ZddMem D.spec n a ↔ ZddMem E.spec n a) → D'.table.size ≤ E.table.size := by
  obtain ⟨D, h, hw, _⟩ := C03_build_safe sp hl
  obtain ⟨D', h', hm⟩ := C14_zddReduce_minimal D hw fun f nd h0 hn => C03_build_live sp hl D h f h0 ⟨nd, hn⟩
  exact ⟨D, D', h, h', hm⟩

/-- Reachability is needed: garbage nodes of the input are kept, so this well-formed structure of the constant family
`{∅, {1}}` with an unreachable node reduces to two nodes although one suffices. -/
theorem C14_needs_reachability : ∃ D D' E : Dd 2, D.Wf ∧ E.Wf ∧ D.zddReduce = some D' ∧
    (∀ a, ZddMem D.spec 1 a ↔ ZddMem E.spec 1 a) ∧ E.table.size < D'.table.size := by
  refine ⟨mkDd [[nd2 .one .one, nd2 .zero .one]] ⟨1, 0⟩, _, mkDd [[nd2 .one .one]] ⟨1, 0⟩,
    wf_of_check (by decide +kernel), wf_of_check (by decide +kernel), rfl, ?_, by decide +kernel⟩
  refine zddMem_congr (fun p => ?_) 1
  rw [Dd.Wf.accepts_iff (wf_of_check (by decide +kernel)), Dd.Wf.accepts_iff (wf_of_check (by decide +kernel))]
  refine Iso.tacc (.node (nd1 := nd2 .one .one) (nd2 := nd2 .one .one) (by decide) rfl rfl rfl fun b => ?_) p
  rcases fin2_cases b with rfl | rfl <;> exact .term rfl

example : ∃ D D', build atMostOne = some D ∧ D.zddReduce = some D' ∧ ∀ (E : Dd 2) (n : Nat), E.Wf → D.root.row ≤ n →
    E.root.row ≤ n → (∀ a, ZddMem D.spec n a ↔ ZddMem E.spec n a) → D'.table.size ≤ E.table.size :=
  C14_build_zddReduce_minimal _ atMostOne_lawful.lawful

end TdZdd
