import Verif.RandomDd
import Verif.Props.ConvCanon
import Verif.Props.Cardinality

/-!
# Property C88: the random test of the project

`doTest sp n` models `do_test` of `apps/test/testRandomDd.cpp`: it builds a diagram and checks that reductions, `zddSubset`, conversions, sizes and
cardinalities fit together. `none` is undefined behaviour, `some false` a failed assertion.
-/

namespace TdZdd

variable {N : Nat} {S : Type}

/-- `RandomDd` keeps the contract of a specification, whatever `rand()` returns; its edges go one level down or to the 0-terminal. -/
theorem C88_random_lawful (n width : Nat) (drop : Int) (rnd : Nat → Nat → Fin (N + 1) → Nat → Nat) (hn : 1 ≤ n) (hw : 1 ≤ width) :
    LawfulC (randomDd N n width drop rnd) ∧ NoMerge (randomDd N n width drop rnd) ∧ Dense (randomDd N n width drop rnd) n := by
  have hd : Dense (randomDd N n width drop rnd) n := by
    refine ⟨hn, .inr rfl, fun {l s} b hl _ => ?_⟩
    simp only [randomDd]
    split
    · rw [if_pos (show l = 1 by omega)]
      dsimp only
      split
      · exact .inr rfl
      · exact .inl rfl
    · split
      · exact .inl rfl
      · split
        · omega
        · rw [if_neg (show l ≠ 1 by omega)]
          exact .inr rfl
  exact ⟨lawfulC_of_eq hd.desc fun n s t => by simp [randomDd], fun _ _ => rfl, hd⟩

/-- The states are below `width`, so a level has at most `width` nodes. -/
theorem C88_random_states (n width : Nat) (drop : Int) (rnd : Nat → Nat → Fin (N + 1) → Nat → Nat) (hw : 1 ≤ width) {l : Int} {s : Nat}
    (h : Reach (randomDd N n width drop rnd) l s) : s < width := by
  induction h with
  | root => exact hw
  | @step m s b _ _ ih =>
    show (if m ≤ 1 then _ else if _ then _ else if _ then _ else _ : Int × Nat).2 < _
    split
    · exact ih
    · split
      · exact ih
      · split
        · exact ih
        · exact Nat.mod_lt _ hw

theorem assertThat_true {k : Option Bool} {c : Bool} (h : c = true) : assertThat c k = k := by rw [h]; rfl

/-- everything but the Boolean cardinalities is defined and as expected -/
theorem doTest_eq (sp : DdSpec (N + 1) S) (hl : LawfulC sp) (hm : NoMerge sp) (n : Nat) (hd : Dense sp n) : ∃ D Q B, build sp = some D ∧ D.Wf ∧
    D.root.row ≤ n ∧ (∀ a, BddSat D.spec a ↔ BddSat sp a) ∧ D.table.numRows = sp.root.1.toNat + 1 ∧
    D.qddReduce = some Q ∧ IsQRed D Q ∧ D.bddReduce = some B ∧ IsRed delB D B ∧
    doTest sp n = (Q.bddCardinality n (seqSched Q)).bind fun c1 => (B.bddCardinality n (seqSched B)).bind fun c2 => assertThat (c1 == c2) (some true) := by
  obtain ⟨D, lab, e1, hs, hnr, ht, hlive, _⟩ := build_main hl.lawful
  have hw := hs.wf hl.toDesc
  have hrow : D.root.row ≤ n := by
    have hr := hd.root
    have hp := hd.pos
    rcases hs.root with ⟨e, _⟩ | ⟨e, _⟩ | ⟨_, e, _⟩
    · rw [e]; exact Nat.zero_le _
    · rw [e]; exact Nat.zero_le _
    · omega
  have hacc : ∀ p, Accepts D.spec D.spec.root.1 D.spec.root.2 p ↔ Accepts sp sp.root.1 sp.root.2 p := fun p => ⟨hs.sub, hs.sup hm⟩
  have hsat := bddSat_congr hacc
  have hmem : ∀ a, ZddMem D.spec n a ↔ BddSat D.spec a := fun a => by
    rw [hsat a, ← hd.mem_iff a]
    exact zddMem_congr hacc n a
  have hall : D.AllLive := fun f nd h0 hn => hlive f h0 (Table.valid_of_node h0 hn)
  obtain ⟨Q, e2, hq⟩ := qddReduce_spec hw
  obtain ⟨B, e3, hB⟩ := bddReduce_spec hw
  obtain ⟨Z, e4, hZ⟩ := zddReduce_spec hw
  have wq := hq.wf hw
  have wB := hB.wf hw
  have wZ := hZ.wf hw
  have cB := (hB.canon hw)
  have cZ := (hZ.canon hw)
  have rB := hB.root_row hw
  have rZ := hZ.root_row hw
  have rQ : Q.root.row ≤ D.root.row := by
    obtain ⟨_, _, T', cmp, nid, del, hc, hr, _, e⟩ := hq
    rw [e]
    exact (hr.valid (hc.wf hw.table) _ (Nat.le_refl _) (Nat.le_refl _) (hc.valid hw.root)).2
  have sQ : ∀ a, BddSat Q.spec a ↔ BddSat D.spec a := bddSat_congr fun p => hq.accepts hw p
  have mQ : ∀ a, ZddMem Q.spec n a ↔ ZddMem D.spec n a := zddMem_congr (fun p => hq.accepts hw p) n
  have sB := hB.bddSat hw
  have mZ := hZ.zddMem hw n hrow
  obtain ⟨BQ, e5, hBQ⟩ := bddReduce_spec wq
  obtain ⟨ZQ, e6, hZQ⟩ := zddReduce_spec wq
  have wBQ := hBQ.wf wq
  have wZQ := hZQ.wf wq
  -- cardinalities of the families
  obtain ⟨c3, k3, e7⟩ := C30_zddCardinality Q wq hq.2.1 (by rw [hq.1, hnr]; omega) _ (seqSched_ok Q) n (by omega)
  obtain ⟨c4, k4, e8⟩ := C30_zddCardinality Z wZ hZ.2.1 (by rw [hZ.1, hnr]; omega) _ (seqSched_ok Z) n (by omega)
  have e34 : c3 = c4 := HasCount.unique k3 (k4.congr fun l => by rw [mZ, mQ])
  -- reductions of the quasi-reduced diagram
  obtain ⟨x1, e9, h9⟩ := C87_bdd_eq B BQ wB wBQ hB.2.1 hBQ.2.1 cB.bddReduced (hBQ.canon wq).bddReduced
  have h9' := h9.2 fun a => by rw [hBQ.bddSat wq, sQ, sB]
  obtain ⟨x2, e10, h10⟩ := C87_zdd_eq Z ZQ wZ wZQ hZ.2.1 hZQ.2.1 cZ.zddReduced (hZQ.canon wq).zddReduced n (by omega)
    (Nat.le_trans (hZQ.root_row wq) (by omega))
  have h10' := h10.2 fun a => by rw [hZQ.zddMem wq n (by omega), mQ, mZ]
  -- subset
  obtain ⟨ZS, e11, wS, tS, cS⟩ := zddSubset_canon (D := ZQ) (Q := Q) wZQ (hZQ.canon wq) wq (qddReduce_levelCanon hw (hs.dense hd) e2)
    (m := n) (Nat.le_trans (hZQ.root_row wq) (by omega)) (by omega) (fun a => by
      rw [← wZQ.zddMem_iff, ← wq.zddMem_iff]
      exact hZQ.zddMem wq n (by omega) a) false
  obtain ⟨ZS', e11', rS, q11⟩ := subset_self wZQ hZQ.2.1 (hZQ.canon wq).zddReduced wq (qddReduce_levelCanon hw (hs.dense hd) e2) n
    (Nat.le_trans (hZQ.root_row wq) (by omega)) (by omega) (hZQ.zddMem wq n (by omega)) false
  cases e11.symm.trans e11'
  have iZQ : Iso Z.table ZQ.table Z.root ZQ.root := by
    obtain ⟨r, e, h1, _⟩ := C15_eq false Z ZQ wZ wZQ hZ.2.1 hZQ.2.1 (fun h => nomatch h)
    rw [e10] at e
    cases e
    exact (h1 h10').1
  have iQS : Iso ZQ.table ZS.table ZQ.root ZS.root := by
    obtain ⟨r, e, h1, _⟩ := C15_eq false ZQ ZS wZQ wS hZQ.2.1 tS (fun h => nomatch h)
    rw [q11] at e
    cases e
    exact (h1 rfl).1
  have e12 : ddEq false Z ZS = some true := by
    obtain ⟨r, e, _, h2⟩ := C15_eq false Z ZS wZ wS hZ.2.1 tS (fun h => nomatch h)
    rw [e, (h2 cZ.uniq cS.uniq).2 (iZQ.trans iQS)]
  -- conversions
  obtain ⟨ZB, ZB', e13, wZB, rZB, mZB, _⟩ := C87_bdd2zdd B wB cB.bddReduced n (by omega)
  obtain ⟨BZ, BZ', e14, wBZ, rBZ, sBZ, _⟩ := C87_zdd2bdd Z wZ cZ.zddReduced n (by omega)
  have rowZB : ZB.root.row ≤ n := by
    obtain ⟨X, e, _, h, _⟩ := C24_bdd2zdd B wB n (by omega)
    rw [e13] at e; cases e; exact h
  have tZB : ZB.table.row 0 = terminalRow (N + 1) := by
    obtain ⟨X, _, k1, _, _, k4, _⟩ := build_main (C26_zddLookahead _ (C26_bddUnreduction B.spec n wB.lawful)).lawful
    have : some X = some ZB := k1.symm.trans e13
    cases this
    exact k4
  have tBZ : BZ.table.row 0 = terminalRow (N + 1) := by
    obtain ⟨X, _, k1, _, _, k4, _⟩ := build_main (C26_bddLookahead _ (C26_zddUnreduction Z.spec n wZ.lawful)).lawful
    have : some X = some BZ := k1.symm.trans e14
    cases this
    exact k4
  obtain ⟨x3, e15, h15⟩ := C87_zdd_eq Z ZB wZ wZB hZ.2.1 tZB cZ.zddReduced rZB n (by omega) rowZB
  have h15' := h15.2 fun a => by rw [mZ, hmem, mZB, sB]
  obtain ⟨x4, e16, h16⟩ := C87_bdd_eq B BZ wB wBZ hB.2.1 tBZ cB.bddReduced rBZ
  have h16' := h16.2 fun a => by rw [sB, sBZ, mZ, hmem]
  obtain ⟨same, e17, h17, h17'⟩ := C15_eq false B Z wB wZ hB.2.1 hZ.2.1 (fun h => nomatch h)
  obtain ⟨y1, e18, h18, _⟩ := C15_eq false B ZB wB wZB hB.2.1 tZB (fun h => nomatch h)
  obtain ⟨y2, e19, h19, _⟩ := C15_eq false Z BZ wZ wBZ hZ.2.1 tBZ (fun h => nomatch h)
  have iZ : Iso Z.table ZB.table Z.root ZB.root := by
    obtain ⟨r, e, h1, _⟩ := C15_eq false Z ZB wZ wZB hZ.2.1 tZB (fun h => nomatch h)
    rw [e15] at e
    cases e
    exact (h1 h15').1
  have iB : Iso B.table BZ.table B.root BZ.root := by
    obtain ⟨r, e, h1, _⟩ := C15_eq false B BZ wB wBZ hB.2.1 tBZ (fun h => nomatch h)
    rw [e16] at e
    cases e
    exact (h1 h16').1
  have ne1 : (if same then some true else (ddEq false B ZB).map not) = some true := by
    cases hsame : same with
    | true => rfl
    | false =>
      rw [e18, if_neg (by simp)]
      cases hy : y1 with
      | false => rfl
      | true =>
        have := (h17' cB.uniq cZ.uniq).2 ((h18 hy).1.trans iZ.symm)
        rw [hsame] at this
        cases this
  have ne2 : (if same then some true else (ddEq false Z BZ).map not) = some true := by
    cases hsame : same with
    | true => rfl
    | false =>
      rw [e19, if_neg (by simp)]
      cases hy : y2 with
      | false => rfl
      | true =>
        have := (h17' cB.uniq cZ.uniq).2 (iB.trans (h19 hy).1.symm)
        rw [hsame] at this
        cases this
  -- sizes
  have z1 : Q.table.size ≤ D.table.size := hq.size_le
  have z2 : B.table.size ≤ Q.table.size := by
    obtain ⟨B', e, h⟩ := C14_bddReduce_minimal D hw hall
    cases e.symm.trans e3
    exact h Q wq fun a => (sQ a).symm
  have z3 : Z.table.size ≤ Q.table.size := by
    obtain ⟨Z', e, h⟩ := C14_zddReduce_minimal D hw hall
    cases e.symm.trans e4
    exact h Q n wq hrow (by omega) fun a => (mQ a).symm
  refine ⟨D, Q, B, e1, hw, hrow, hsat, hnr, e2, hq, e3, hB, ?_⟩
  unfold doTest
  rw [e1, Option.bind_some, e2, Option.bind_some, e3, Option.bind_some, e4, Option.bind_some, assertThat_true (decide_eq_true z1),
    assertThat_true (decide_eq_true z2), assertThat_true (decide_eq_true z3), e7, e8, e5, e6]
  simp only [Option.bind_some]
  rw [e9, e10]
  simp only [Option.bind_some]
  rw [assertThat_true (c := toString c3 == toString c4) (by rw [e34]; exact beq_self_eq_true _), assertThat_true h9', assertThat_true h10', e11,
    Option.bind_some, e12, Option.bind_some, assertThat_true rfl, e13, Option.bind_some, e17, Option.bind_some, ne1, Option.bind_some,
    assertThat_true rfl, e15, Option.bind_some, assertThat_true h15', e14, Option.bind_some, ne2, Option.bind_some, assertThat_true rfl, e16, Option.bind_some,
    assertThat_true h16']

/-- C88: no assertion of the test ever fails, for every specification whose edges go one level down or to the 0-terminal. -/
theorem C88_never_fails (sp : DdSpec (N + 1) S) (hl : LawfulC sp) (hm : NoMerge sp) (n : Nat) (hd : Dense sp n) : doTest sp n ≠ some false := by
  obtain ⟨D, Q, B, e1, hw, hrow, hsat, hnr, e2, hq, e3, hB, e⟩ := doTest_eq sp hl hm n hd
  rw [e]
  have rQ : Q.root.row ≤ n := by
    obtain ⟨_, _, T', cmp, nid, del, hc, hr, _, e⟩ := hq
    rw [e]
    exact Nat.le_trans (hr.valid (hc.wf hw.table) _ (Nat.le_refl _) (Nat.le_refl _) (hc.valid hw.root)).2 hrow
  cases h1 : Q.bddCardinality n (seqSched Q) with
  | none => exact (nomatch ·)
  | some s1 =>
    rw [Option.bind_some]
    cases h2 : B.bddCardinality n (seqSched B) with
    | none => exact (nomatch ·)
    | some s2 =>
      obtain ⟨c1, k1, rfl⟩ := C31_sound Q (hq.wf hw) hq.2.1 (by rw [hq.1, hnr]; omega) _ (seqSched_ok Q) n rQ s1 h1
      obtain ⟨c2, k2, rfl⟩ := C31_sound B (hB.wf hw) hB.2.1 (by rw [hB.1, hnr]; omega) _ (seqSched_ok B) n (Nat.le_trans (hB.root_row hw) hrow) s2 h2
      have : c1 = c2 := HasCount.unique k1 (k2.congr fun l => by rw [hB.bddSat hw, bddSat_congr fun p => hq.accepts hw p])
      rw [Option.bind_some, this, assertThat_true (beq_self_eq_true _)]
      exact (nomatch ·)

/-- C88: the test passes if the numbers of `bddCardinality(n)` fit in the storage, which is chosen by the level of the root. -/
theorem C88_passes (sp : DdSpec (N + 1) S) (hl : LawfulC sp) (hm : NoMerge sp) (n : Nat) (hd : Dense sp n)
    (hfit : ∀ D Q B, build sp = some D → D.qddReduce = some Q → D.bddReduce = some B → (N + 1) ^ n < 2 ^ (63 * maxWords (N + 1) Q.root.row) ∧
      (N + 1) ^ n < 2 ^ (63 * maxWords (N + 1) B.root.row)) : doTest sp n = some true := by
  obtain ⟨D, Q, B, e1, hw, hrow, hsat, hnr, e2, hq, e3, hB, e⟩ := doTest_eq sp hl hm n hd
  obtain ⟨f1, f2⟩ := hfit D Q B e1 e2 e3
  have rQ : Q.root.row ≤ n := by
    obtain ⟨_, _, T', cmp, nid, del, hc, hr, _, e⟩ := hq
    rw [e]
    exact Nat.le_trans (hr.valid (hc.wf hw.table) _ (Nat.le_refl _) (Nat.le_refl _) (hc.valid hw.root)).2 hrow
  obtain ⟨c1, k1, h1⟩ := C31_bddCardinality_partial Q (hq.wf hw) hq.2.1 (by rw [hq.1, hnr]; omega) _ (seqSched_ok Q) n rQ f1
  obtain ⟨c2, k2, h2⟩ := C31_bddCardinality_partial B (hB.wf hw) hB.2.1 (by rw [hB.1, hnr]; omega) _ (seqSched_ok B) n (Nat.le_trans (hB.root_row hw) hrow) f2
  have : c1 = c2 := HasCount.unique k1 (k2.congr fun l => by rw [hB.bddSat hw, bddSat_congr fun p => hq.accepts hw p])
  rw [e, h1, Option.bind_some, h2, Option.bind_some, this, assertThat_true (beq_self_eq_true _)]

/-- C88: in particular if there are less than `2^63` assignments. -/
theorem C88_small (sp : DdSpec (N + 1) S) (hl : LawfulC sp) (hm : NoMerge sp) (n : Nat) (hd : Dense sp n) (hn : (N + 1) ^ n < 2 ^ 63) :
    doTest sp n = some true := by
  have : ∀ r, (N + 1) ^ n < 2 ^ (63 * maxWords (N + 1) r) := by
    intro r
    refine Nat.lt_of_lt_of_le hn (Nat.pow_le_pow_right (by decide) ?_)
    unfold maxWords
    omega
  exact C88_passes sp hl hm n hd fun _ _ _ _ _ _ => ⟨this _, this _⟩

/-- C88, the test of the project: for `n ≥ 63` binary levels a diagram without solutions makes `bddCardinality(n)` leave its storage. -/
theorem C88_empty_undefined (sp : DdSpec 2 S) (hl : LawfulC sp) (hm : NoMerge sp) (n : Nat) (hn : 63 ≤ n) (hd : Dense sp n) (he : ∀ a, ¬ BddSat sp a) :
    doTest sp n = none := by
  obtain ⟨D, Q, B, e1, hw, hrow, hsat, hnr, e2, hq, e3, hB, e⟩ := doTest_eq sp hl hm n hd
  have wB := hB.wf hw
  have hz : B.root = .zero := by
    apply Classical.byContradiction
    intro h
    obtain ⟨a, ha⟩ := (hB.canon hw).satB wB wB.root h
    rw [← wB.bddSat_iff, hB.bddSat hw, hsat] at ha
    exact he a ha
  have h2 := C31_storage_overflow B wB hB.2.1 (by rw [hB.1, hnr]; omega) _ (seqSched_ok B) n (by
    rw [hz]
    show 0 + 63 * maxWords 2 0 ≤ n
    have : maxWords 2 0 = 1 := by decide
    omega)
  rw [e, h2]
  cases Q.bddCardinality n (seqSched Q) <;> rfl

/-- C88: `do_test<2>(100, 1000, 0.3)` is undefined whenever the first random number of both edges of the root is below `drop` (0.3 of all numbers). -/
theorem C88_project_test_undefined (width : Nat) (drop : Int) (rnd : Nat → Nat → Fin 2 → Nat → Nat) (hw : 1 ≤ width)
    (h0 : (rnd 100 0 0 0 : Int) < drop) (h1 : (rnd 100 0 1 0 : Int) < drop) : doTest (randomDd 1 100 width drop rnd) 100 = none := by
  obtain ⟨hl, hm, hd⟩ := C88_random_lawful (N := 1) 100 width drop rnd (by decide) hw
  refine C88_empty_undefined _ hl hm 100 (by decide) hd fun a ha => ?_
  replace ha : BddSatAt (randomDd 1 100 width drop rnd) ((100 : Nat) : Int) 0 a := ha
  rw [bddSatAt_pos (by decide)] at ha
  have : (randomDd 1 100 width drop rnd).child 0 100 (a 100) = (0, 0) := by
    have hlt : (rnd 100 0 (a 100) 0 : Int) < drop := by
      rcases fin2_cases (a 100) with e | e <;> rw [e] <;> assumption
    simp only [randomDd]
    rw [if_neg (by decide), if_pos hlt]
  rw [this] at ha
  exact bddSatAt_zero ha

/-! ## examples -/

/-- a deterministic source of numbers -/
def someRnd (l s : Nat) (b : Fin 3) (i : Nat) : Nat := (l * 7 + s * 5 + b.val * 3 + i * 11) % 10

example : doTest (randomDd 2 3 4 2 someRnd) 3 = some true :=
  let ⟨hl, hm, hd⟩ := C88_random_lawful (N := 2) 3 4 2 someRnd (by decide) (by decide)
  C88_small _ hl hm 3 hd (by decide)

/-- the diagram of the example has six nodes -/
example : (build (randomDd 2 3 4 2 someRnd)).map (fun D => (D.root, D.table.size)) = some (⟨3, 0⟩, 6) := by decide +kernel

example : doTest (randomDd 2 50 1000 644245094 fun l s b i => l * s + b.val + i) 50 ≠ some false :=
  let ⟨hl, hm, hd⟩ := C88_random_lawful (N := 2) 50 1000 644245094 (fun l s b i => l * s + b.val + i) (by decide) (by decide)
  C88_never_fails _ hl hm 50 hd

example : doTest (randomDd 1 100 1000 644245094 fun _ _ _ _ => 12345) 100 = none :=
  C88_project_test_undefined _ _ _ (by decide) (by decide) (by decide)

/-- another specification -/
example : doTest atMostOne 3 = some true := C88_small _ atMostOne_lawful (fun _ _ => rfl) 3 atMostOne_dense (by decide)

end TdZdd
