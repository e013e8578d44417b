import Verif.UnreductionProofs
import Verif.Samples

/-!
# Properties C16-C23, C26: specification operators

Each theorem compares the meaning (`BddSat`/`ZddMem`, `Semantics.lean`) of the operator model with
the meaning of its operands. The hypotheses `Desc`/`Lawful`/`LawfulC` are the documented contract
of specifications. Every theorem is followed by an instance on concrete specifications.
-/

namespace TdZdd

variable {S S1 S2 : Type}

/-! ## C16 -/

/-- C16: `bddAnd(s1,s2)` accepts an assignment iff both operands do. -/
theorem C16_bddAnd (s1 : DdSpec 2 S1) (s2 : DdSpec 2 S2) (h1 : Desc s1) (h2 : Desc s2)
    (a : Asg 2) : BddSat (bddAnd s1 s2) a ↔ BddSat s1 a ∧ BddSat s2 a := by
  have hroot : (bddAnd s1 s2).root.2 = (s1.root, s2.root) := by
    simp only [bddAnd]; repeat' split
    all_goals rfl
  by_cases h0 : s1.root.1 = 0 ∨ s2.root.1 = 0
  · have hr : (bddAnd s1 s2).root.1 = 0 := by
      simp only [bddAnd]
      rcases h0 with h0 | h0
      · rw [if_pos h0]
      · split
        · rfl
        · rfl
    simp only [BddSat, hr]
    constructor
    · intro h; exact absurd h bddSatAt_zero
    · rintro ⟨ha, hb⟩
      rcases h0 with h | h
      · rw [h] at ha; exact absurd ha bddSatAt_zero
      · rw [h] at hb; exact absurd hb bddSatAt_zero
  · have h : AndInv s1 s2 (bddAnd s1 s2).root.1 (bddAnd s1 s2).root.2 := by
      simp only [bddAnd]
      rw [if_neg (by omega), if_neg (by omega)]
      exact ⟨.root, .root, by simp only; omega, by simp only; omega, rfl⟩
    have := and_sat h1 h2 a ((bddAnd s1 s2).root.1.toNat + 1) (by omega) h
    simp only [BddSat]
    rw [hroot] at this ⊢
    exact this

example : BddSat (bddAnd atMostOne imply31) (asgOf [2]) :=
  (C16_bddAnd _ _ atMostOne_lawful.toDesc imply31_lawful.toDesc _).2
    ⟨⟨[(3, 0), (2, 1), (1, 0)], by decide, by unfold Agrees; decide⟩,
     ⟨[(3, 0), (1, 0)], by decide, by unfold Agrees; decide⟩⟩

/-! ## C17 -/

/-- C17: `bddOr(s1,s2)` accepts an assignment iff one of the operands does. -/
theorem C17_bddOr (s1 : DdSpec 2 S1) (s2 : DdSpec 2 S2) (h1 : Desc s1) (h2 : Desc s2)
    (a : Asg 2) : BddSat (bddOr s1 s2) a ↔ BddSat s1 a ∨ BddSat s2 a := by
  have hroot : (bddOr s1 s2).root.2 = (s1.root, s2.root) := by
    simp only [bddOr]; repeat' split
    all_goals rfl
  by_cases h0 : s1.root.1 < 0 ∨ s2.root.1 < 0
  · have hr : (bddOr s1 s2).root.1 = -1 := by
      simp only [bddOr]
      rcases h0 with h0 | h0
      · rw [if_pos h0]
      · split
        · rfl
        · rfl
    simp only [BddSat, hr]
    constructor
    · intro _
      rcases h0 with h | h
      · exact .inl (bddSatAt_neg h)
      · exact .inr (bddSatAt_neg h)
    · intro _; exact bddSatAt_neg (by omega)
  · have h : OrInv s1 s2 (bddOr s1 s2).root.1 (bddOr s1 s2).root.2 := by
      simp only [bddOr]
      rw [if_neg (by omega), if_neg (by omega)]
      exact ⟨.root, .root, by simp only; omega, by simp only; omega, rfl⟩
    have := or_sat h1 h2 a ((bddOr s1 s2).root.1.toNat + 1) (by omega) h
    simp only [BddSat]
    rw [hroot] at this ⊢
    exact this

example : BddSat (bddOr atMostOne imply31) (asgOf [3, 2, 1]) :=
  (C17_bddOr _ _ atMostOne_lawful.toDesc imply31_lawful.toDesc _).2
    (.inr ⟨[(3, 1), (1, 1)], by decide, by unfold Agrees; decide⟩)

/-! ## C18 -/

/-- C18: the family of `zddIntersection(s1,s2)` is the intersection of the families, over any
number of levels that covers both operands. -/
theorem C18_zddIntersection (s1 : DdSpec 2 S1) (s2 : DdSpec 2 S2) (h1 : Desc s1) (h2 : Desc s2)
    (n : Nat) (hn1 : s1.root.1 ≤ n) (hn2 : s2.root.1 ≤ n) (a : Asg 2) :
    ZddMem (zddIntersection s1 s2) n a ↔ ZddMem s1 n a ∧ ZddMem s2 n a := by
  obtain ⟨r, hr, _, _, hle, hm⟩ := inter_root h1 h2
  have hle' : r.1 ≤ n := by
    by_cases h : r.1 = 0
    · omega
    · have := hle h; omega
  have hri := Reach.root (sp := zddIntersection s1 s2)
  have := inter_mem h1 h2 a ((zddIntersection s1 s2).root.1.toNat + 1) (m := n) (by omega)
    (by rw [hr]; exact hle') hri
  simp only [ZddMem]
  rw [this, hr]
  exact (hm n a hn1 hn2).symm

/-- C18, termination: from every pair of reachable non-zero operand states the level alignment
loop stops within `alignFuel` rounds, without calling `get_child` below level 1. -/
theorem C18_loop_terminates (s1 : DdSpec 2 S1) (s2 : DdSpec 2 S2) (h1 : Desc s1) (h2 : Desc s2)
    (c1 : Int × S1) (c2 : Int × S2) (r1 : Reach s1 c1.1 c1.2) (r2 : Reach s2 c2.1 c2.2)
    (n1 : c1.1 ≠ 0) (n2 : c2.1 ≠ 0) :
    ∃ r, alignLoop s1 s2 (alignFuel c1.1 c2.1) c1 c2 = some r :=
  let ⟨r, h, _⟩ := alignLoop_ok h1 h2 _ c1 c2 r1 r2 n1 n2 alignFuel_ok
  ⟨r, h⟩

example : ZddMem (zddIntersection atMostOne imply31) 3 (asgOf [1]) :=
  (C18_zddIntersection _ _ atMostOne_lawful.toDesc imply31_lawful.toDesc 3 (by decide) (by decide)
    _).2
    ⟨⟨[(3, 0), (2, 0), (1, 1)], by decide, by unfold Agrees; decide, fun j h1 h2 h => by
        have : j = 1 ∨ j = 2 ∨ j = 3 := by omega
        rcases this with rfl | rfl | rfl
        · exact absurd (by decide) (h 1)
        · decide
        · decide⟩,
     ⟨[(3, 0), (1, 1)], by decide, by unfold Agrees; decide, fun j h1 h2 h => by
        have : j = 1 ∨ j = 2 ∨ j = 3 := by omega
        rcases this with rfl | rfl | rfl
        · exact absurd (by decide) (h 1)
        · decide
        · decide⟩⟩

/-- An operand that reports the 1-terminal as -2 (legal for `BddAnd`/`BddOr`/`ZddUnion`, which only
test the sign) -/
def oneMinusTwo : DdSpec 2 Unit where
  root := (-2, ())
  child _ _ _ := (0, ())
  eqv _ _ _ := true
  hash _ _ := 0
  merge _ _ := 0

/-- the constant-1 specification with the documented code -1 -/
def oneMinusOne : DdSpec 2 Unit where
  root := (-1, ())
  child _ _ _ := (0, ())
  eqv _ _ _ := true
  hash _ _ := 0
  merge _ _ := 0

/-- The hypothesis `-1 ≤ code` of C18 is needed: with 1-terminal codes -1 and -2 the loop calls
`get_child` at a negative level (undefined behaviour). -/
theorem C18_needs_minus_one :
    alignLoop oneMinusOne oneMinusTwo (alignFuel (-1) (-2)) (-1, ()) (-2, ()) = none := by decide

/-! ## C19 -/

/-- C19: the family of `zddUnion(s1,s2)` is the union of the families. -/
theorem C19_zddUnion (s1 : DdSpec 2 S1) (s2 : DdSpec 2 S2) (h1 : Desc s1) (h2 : Desc s2)
    (n : Nat) (hn1 : s1.root.1 ≤ n) (hn2 : s2.root.1 ≤ n) (a : Asg 2) :
    ZddMem (zddUnion s1 s2) n a ↔ ZddMem s1 n a ∨ ZddMem s2 n a := by
  have hle : unionCode s1.root.1 s2.root.1 ≤ n := by
    unfold unionCode; repeat' split
    all_goals omega
  have hr := Reach.root (sp := zddUnion s1 s2)
  have hi := union_reach hr
  simp only [ZddMem]
  rw [union_root] at hr hi ⊢
  exact union_mem h1 h2 a ((unionCode s1.root.1 s2.root.1).toNat + 1) (m := n) (by omega) hle hi hr

example : ZddMem (zddUnion atMostOne imply31) 3 (asgOf [3, 1]) :=
  (C19_zddUnion _ _ atMostOne_lawful.toDesc imply31_lawful.toDesc 3 (by decide) (by decide) _).2
    (.inr ⟨[(3, 1), (1, 1)], by decide, by unfold Agrees; decide, fun j h1 h2 h => by
        have : j = 1 ∨ j = 2 ∨ j = 3 := by omega
        rcases this with rfl | rfl | rfl
        · exact absurd (by decide) (h 1)
        · decide
        · exact absurd (by decide) (h 1)⟩)

section Nary
variable {N : Nat} [NeZero N]

/-! ## C20 -/

/-- C20: `bddLookahead(s)` denotes the same Boolean function. -/
theorem C20_bddLookahead (sp : DdSpec N S) (h : Lawful sp) (a : Asg N) :
    BddSat (bddLookahead sp) a ↔ BddSat sp a := by
  have hE : bddLookahead sp = ahead (genAhead (allSame sp) sp) sp := by
    simp only [bddLookahead, bddAhead_eq]
  obtain ⟨d, h1, _, _, h4, _⟩ := ahead_root (test := allSame sp) h.toDesc
      (fun c d => ∀ a, BddSatAt sp c.1 c.2 a ↔ BddSatAt sp d.1 d.2 a)
      (fun _ _ => Iff.rfl) (fun n s d hn hr ht h' => bddStep h n s d hn hr ht h')
  have := bddLA_sat h a ((bddLookahead sp).root.1.toNat + 1) (by omega) .root
  simp only [BddSat]
  rw [this, hE, h1]
  exact (h4 a).symm

/-- C20, no redundant node: a non-terminal state returned by the lookahead has two different
children in the underlying specification. -/
theorem C20_no_redundant (sp : DdSpec N S) (h : Desc sp) (n : Nat) (s : S) (hn : 0 < n)
    (hr : Reach (bddLookahead sp) (n : Int) s) :
    ∃ b : Fin N, (sp.child s n b).1 ≠ (sp.child s n 0).1 ∨
      (0 < (sp.child s n 0).1 ∧
        sp.eqv (sp.child s n 0).1.toNat (sp.child s n 0).2 (sp.child s n b).2 = false) := by
  simp only [bddLookahead, bddAhead_eq] at hr
  have := (ahead_reach h hr).2 n hn rfl
  simp only [allSame, decide_eq_false_iff_not] at this
  apply Classical.byContradiction
  intro hc
  apply this
  intro b _
  have hb := fun h => hc ⟨b, h⟩
  constructor
  · apply Classical.byContradiction
    intro h'; exact hb (.inl (fun h'' => h' h''.symm))
  · rcases Int.lt_or_le 0 (sp.child s n 0).1 with h' | h'
    · right
      cases he : sp.eqv (sp.child s n 0).1.toNat (sp.child s n 0).2 (sp.child s n b).2
      · exact absurd (.inr ⟨h', he⟩) hb
      · rfl
    · left; exact h'

/-- C20, termination: from every reachable state the loop stops within the given rounds. -/
theorem C20_loop_terminates (sp : DdSpec N S) (h : Desc sp) (c : Int × S) (hr : Reach sp c.1 c.2) :
    ∃ d, bddAhead sp (c.1.toNat + 1) c = some d := by
  rw [bddAhead_eq]
  obtain ⟨d, hd, _⟩ := genAhead_ok (test := allSame sp) h (fun _ _ => True)
      (fun _ => trivial) (fun _ _ _ _ _ _ _ => trivial) (c.1.toNat + 1) c hr (by omega)
  exact ⟨d, hd⟩

/-! ## C21 -/

/-- C21: `zddLookahead(s)` denotes the same family. -/
theorem C21_zddLookahead (sp : DdSpec N S) (h : Desc sp) (n : Nat) (hn : sp.root.1 ≤ n)
    (a : Asg N) : ZddMem (zddLookahead sp) n a ↔ ZddMem sp n a := by
  have hE : zddLookahead sp = ahead (genAhead (allZeroBut0 sp) sp) sp := by
    simp only [zddLookahead, zddAhead_eq]
  obtain ⟨d, h1, _, h3, h4, _⟩ := ahead_root (test := allZeroBut0 sp) h
      (fun c d => ∀ (m : Nat) a, c.1 ≤ m → (ZddMemAt sp m c.1 c.2 a ↔ ZddMemAt sp m d.1 d.2 a))
      (fun _ _ _ _ => Iff.rfl) (fun n s d hn hr ht h' => zddStep h n s d hn hr ht h')
  have hle : (zddLookahead sp).root.1 ≤ n := by rw [hE, h1]; omega
  have := zddLA_mem h a ((zddLookahead sp).root.1.toNat + 1) (m := n) (by omega) hle .root
  simp only [ZddMem]
  rw [this, hE, h1]
  exact (h4 n a hn).symm

/-- C21, no zero-suppressible node: a non-terminal state returned by the lookahead has, in the
underlying specification, a child for a non-zero value that is not the 0-terminal. -/
theorem C21_no_redundant (sp : DdSpec N S) (h : Desc sp) (n : Nat) (s : S) (hn : 0 < n)
    (hr : Reach (zddLookahead sp) (n : Int) s) :
    ∃ b : Fin N, b ≠ 0 ∧ (sp.child s n b).1 ≠ 0 := by
  simp only [zddLookahead, zddAhead_eq] at hr
  have := (ahead_reach h hr).2 n hn rfl
  simp only [allZeroBut0, decide_eq_false_iff_not] at this
  apply Classical.byContradiction
  intro hc
  apply this
  intro b hb
  apply Classical.byContradiction
  intro h'
  exact hc ⟨b, hb, h'⟩

/-- C21, termination. -/
theorem C21_loop_terminates (sp : DdSpec N S) (h : Desc sp) (c : Int × S) (hr : Reach sp c.1 c.2) :
    ∃ d, zddAhead sp (c.1.toNat + 1) c = some d := by
  rw [zddAhead_eq]
  obtain ⟨d, hd, _⟩ := genAhead_ok (test := allZeroBut0 sp) h (fun _ _ => True)
      (fun _ => trivial) (fun _ _ _ _ _ _ _ => trivial) (c.1.toNat + 1) c hr (by omega)
  exact ⟨d, hd⟩

/-! ## C22, C23 -/

/-- C22: `bddUnreduction(s,n)` denotes the same Boolean function. -/
theorem C22_bddUnreduction (sp : DdSpec N S) (h : Desc sp) (nv : Int) (a : Asg N) :
    BddSat (bddUnreduction sp nv) a ↔ BddSat sp a := by
  simp only [BddSat, bddUnreduction]
  rcases unred_root (z := false) (nv := nv) h with ⟨h1, h2⟩ | ⟨h1, h2, _⟩
  · rw [h1, h2]
    exact ⟨fun h => absurd h bddSatAt_zero, fun h => absurd h bddSatAt_zero⟩
  · have := unred_sat (z := false) (nv := nv) h a ((unreduction false sp nv).root.1.toNat + 1)
      (by omega) .root h1
    rw [this, h2]; simp

/-- C22, no skipped level: a path to the 1-terminal visits exactly the levels
`max(n, root level), .., 2, 1`. -/
theorem C22_levels (sp : DdSpec N S) (h : Desc sp) (nv : Int) (p : Path N)
    (hp : Accepts (bddUnreduction sp nv) (bddUnreduction sp nv).root.1
      (bddUnreduction sp nv).root.2 p) :
    p.map Prod.fst = downFrom (max nv sp.root.1).toNat := by
  rcases unred_root (z := false) (nv := nv) h with ⟨h1, _⟩ | ⟨h1, _, h3⟩
  · simp only [bddUnreduction] at hp
    rw [h1] at hp; exact absurd hp not_accepts_zero
  · rw [← h3]; exact unred_levels h hp h1

/-- C22, consequence: read as a ZDD over all its levels, `bddUnreduction(s,n)` is the family of
the satisfying value vectors of `s`. -/
theorem C22_as_zdd (sp : DdSpec N S) (h : Desc sp) (nv : Int) (a : Asg N) :
    ZddMem (bddUnreduction sp nv) (max nv sp.root.1).toNat a ↔ BddSat sp a := by
  rw [← C22_bddUnreduction sp h nv]
  simp only [BddSat, ZddMem, bddUnreduction]
  rcases unred_root (z := false) (nv := nv) h with ⟨h1, h2⟩ | ⟨h1, h2, h3⟩
  · rw [h1]
    exact ⟨fun h => absurd h zddMemAt_zero, fun h => absurd h bddSatAt_zero⟩
  · rw [unred_mem h h1, ← h3]
    exact ⟨fun h => h.2, fun h => ⟨fun j h1 h2 => by omega, h⟩⟩

/-- C23: read as a BDD, `zddUnreduction(s,n)` accepts exactly the members of the family of `s`
over the levels `1..max(n, root level)`. -/
theorem C23_as_bdd (sp : DdSpec N S) (h : Desc sp) (nv : Int) (a : Asg N) :
    BddSat (zddUnreduction sp nv) a ↔ ZddMem sp (max nv sp.root.1).toNat a := by
  simp only [BddSat, ZddMem, zddUnreduction]
  rcases unred_root (z := true) (nv := nv) h with ⟨h1, h2⟩ | ⟨h1, h2, h3⟩
  · rw [h1, h2]
    exact ⟨fun h => absurd h bddSatAt_zero, fun h => absurd h zddMemAt_zero⟩
  · have := unred_sat (z := true) (nv := nv) h a ((unreduction true sp nv).root.1.toNat + 1)
      (by omega) .root h1
    rw [this, h2, h3]; simp

/-- C23: `zddUnreduction(s,n)` denotes the same family, over any number of levels covering it. -/
theorem C23_zddUnreduction (sp : DdSpec N S) (h : Desc sp) (nv : Int) (m : Nat)
    (hm : (max nv sp.root.1).toNat ≤ m) (a : Asg N) :
    ZddMem (zddUnreduction sp nv) m a ↔ ZddMem sp m a := by
  have hb := C23_as_bdd sp h nv a
  simp only [BddSat, ZddMem, zddUnreduction] at hb ⊢
  rcases unred_root (z := true) (nv := nv) h with ⟨h1, h2⟩ | ⟨h1, h2, h3⟩
  · rw [h1, h2]
    exact ⟨fun h => absurd h zddMemAt_zero, fun h => absurd h zddMemAt_zero⟩
  · rw [unred_mem h h1, hb, zddMemAt_raise h .root (by omega) hm, h3]

/-- C23, no skipped level. -/
theorem C23_levels (sp : DdSpec N S) (h : Desc sp) (nv : Int) (p : Path N)
    (hp : Accepts (zddUnreduction sp nv) (zddUnreduction sp nv).root.1
      (zddUnreduction sp nv).root.2 p) :
    p.map Prod.fst = downFrom (max nv sp.root.1).toNat := by
  rcases unred_root (z := true) (nv := nv) h with ⟨h1, _⟩ | ⟨h1, _, h3⟩
  · simp only [zddUnreduction] at hp
    rw [h1] at hp; exact absurd hp not_accepts_zero
  · rw [← h3]; exact unred_levels h hp h1

end Nary

/-- the satisfying vector {3,2,1} of `imply31`, whose level 2 is skipped -/
example : ZddMem (bddUnreduction imply31 4) 4 (asgOf [3, 2, 1]) :=
  (C22_as_zdd imply31 imply31_lawful.toDesc 4 _).2
    ⟨[(3, 1), (1, 1)], by decide, by unfold Agrees; decide⟩

/-- but {3,2,1} is not in its family, so the ZDD unreduction rejects it -/
example : ¬ BddSat (zddUnreduction imply31 4) (asgOf [3, 2, 1]) := by
  rw [C23_as_bdd imply31 imply31_lawful.toDesc]
  intro h
  have h := ((zddMemAt_pos imply31_lawful.toDesc (n := 3) (by decide) .root (by decide)).1 h).2
  have hr : Reach imply31 ((1 : Nat) : Int) (asgOf [3, 2, 1] 3 = 1) :=
    Reach.step (sp := imply31) (asgOf [3, 2, 1] 3) (n := 3) (by decide) .root
  have h := ((zddMemAt_pos imply31_lawful.toDesc (n := 1) (by decide) hr (by decide)).1 h).1
  exact absurd (h 2 (by decide) (by decide)) (by decide)

example : BddSat (bddLookahead imply31) (asgOf [3, 1]) :=
  (C20_bddLookahead imply31 imply31_lawful.lawful _).2
    ⟨[(3, 1), (1, 1)], by decide, by unfold Agrees; decide⟩

/-! ## C26: expressions -/

section Contract
variable {N : Nat} [NeZero N]

/-- C26: the contract is preserved by every operator. -/
theorem C26_bddAnd (s1 : DdSpec 2 S1) (s2 : DdSpec 2 S2) (h1 : LawfulC s1) (h2 : LawfulC s2) :
    LawfulC (bddAnd s1 s2) := and_lawful h1 h2
theorem C26_bddOr (s1 : DdSpec 2 S1) (s2 : DdSpec 2 S2) (h1 : LawfulC s1) (h2 : LawfulC s2) :
    LawfulC (bddOr s1 s2) := or_lawful h1 h2
theorem C26_zddUnion (s1 : DdSpec 2 S1) (s2 : DdSpec 2 S2) (h1 : LawfulC s1) (h2 : LawfulC s2) :
    LawfulC (zddUnion s1 s2) := union_lawful h1 h2
theorem C26_zddIntersection (s1 : DdSpec 2 S1) (s2 : DdSpec 2 S2) (h1 : LawfulC s1)
    (h2 : LawfulC s2) : LawfulC (zddIntersection s1 s2) := inter_lawful h1 h2
theorem C26_bddLookahead (sp : DdSpec N S) (h : LawfulC sp) : LawfulC (bddLookahead sp) :=
  bddLA_lawful h
theorem C26_zddLookahead (sp : DdSpec N S) (h : LawfulC sp) : LawfulC (zddLookahead sp) :=
  zddLA_lawful h
theorem C26_bddUnreduction (sp : DdSpec N S) (nv : Int) (h : LawfulC sp) :
    LawfulC (bddUnreduction sp nv) := unred_lawful h
theorem C26_zddUnreduction (sp : DdSpec N S) (nv : Int) (h : LawfulC sp) :
    LawfulC (zddUnreduction sp nv) := unred_lawful h

end Contract

/-- Expressions over binary BDD specifications (indexed by the type of the state). -/
inductive BddExpr : Type → Type 1
  | leaf {S : Type} (sp : DdSpec 2 S) : BddExpr S
  | and {S1 S2 : Type} : BddExpr S1 → BddExpr S2 → BddExpr (BinState S1 S2)
  | or {S1 S2 : Type} : BddExpr S1 → BddExpr S2 → BddExpr (BinState S1 S2)
  | lookahead {S : Type} : BddExpr S → BddExpr S
  | unreduction {S : Type} : BddExpr S → Int → BddExpr (Int × S)

namespace BddExpr

/-- the specification object the expression evaluates to -/
def spec : {S : Type} → BddExpr S → DdSpec 2 S
  | _, leaf sp => sp
  | _, and e f => bddAnd e.spec f.spec
  | _, or e f => bddOr e.spec f.spec
  | _, lookahead e => bddLookahead e.spec
  | _, unreduction e nv => bddUnreduction e.spec nv

/-- the Boolean function the expression is meant to denote -/
def meaning : {S : Type} → BddExpr S → Asg 2 → Prop
  | _, leaf sp, a => BddSat sp a
  | _, and e f, a => e.meaning a ∧ f.meaning a
  | _, or e f, a => e.meaning a ∨ f.meaning a
  | _, lookahead e, a => e.meaning a
  | _, unreduction e _, a => e.meaning a

/-- all leaves obey the contract -/
def LawfulLeaves : {S : Type} → BddExpr S → Prop
  | _, leaf sp => LawfulC sp
  | _, and e f => e.LawfulLeaves ∧ f.LawfulLeaves
  | _, or e f => e.LawfulLeaves ∧ f.LawfulLeaves
  | _, lookahead e => e.LawfulLeaves
  | _, unreduction e _ => e.LawfulLeaves

end BddExpr

/-- C26: every BDD expression over lawful specifications is lawful and has its meaning. -/
theorem C26_bddExpr {S : Type} (e : BddExpr S) (h : e.LawfulLeaves) :
    LawfulC e.spec ∧ ∀ a, BddSat e.spec a ↔ e.meaning a := by
  induction e with
  | leaf sp => exact ⟨h, fun a => Iff.rfl⟩
  | and e f ihe ihf =>
    obtain ⟨h1, h1'⟩ := ihe h.1
    obtain ⟨h2, h2'⟩ := ihf h.2
    refine ⟨C26_bddAnd _ _ h1 h2, fun a => ?_⟩
    simp only [BddExpr.spec, BddExpr.meaning]
    rw [C16_bddAnd _ _ h1.toDesc h2.toDesc, h1', h2']
  | or e f ihe ihf =>
    obtain ⟨h1, h1'⟩ := ihe h.1
    obtain ⟨h2, h2'⟩ := ihf h.2
    refine ⟨C26_bddOr _ _ h1 h2, fun a => ?_⟩
    simp only [BddExpr.spec, BddExpr.meaning]
    rw [C17_bddOr _ _ h1.toDesc h2.toDesc, h1', h2']
  | lookahead e ih =>
    obtain ⟨h1, h1'⟩ := ih h
    refine ⟨C26_bddLookahead _ h1, fun a => ?_⟩
    simp only [BddExpr.spec, BddExpr.meaning]
    rw [C20_bddLookahead _ h1.lawful, h1']
  | unreduction e nv ih =>
    obtain ⟨h1, h1'⟩ := ih h
    refine ⟨C26_bddUnreduction _ nv h1, fun a => ?_⟩
    simp only [BddExpr.spec, BddExpr.meaning]
    rw [C22_bddUnreduction _ h1.toDesc, h1']

/-- Expressions over binary ZDD specifications. -/
inductive ZddExpr : Type → Type 1
  | leaf {S : Type} (sp : DdSpec 2 S) : ZddExpr S
  | union {S1 S2 : Type} : ZddExpr S1 → ZddExpr S2 → ZddExpr (BinState S1 S2)
  | inter {S1 S2 : Type} : ZddExpr S1 → ZddExpr S2 → ZddExpr (S1 × S2)
  | lookahead {S : Type} : ZddExpr S → ZddExpr S
  | unreduction {S : Type} : ZddExpr S → Int → ZddExpr (Int × S)

namespace ZddExpr

/-- the specification object the expression evaluates to -/
def spec : {S : Type} → ZddExpr S → DdSpec 2 S
  | _, leaf sp => sp
  | _, union e f => zddUnion e.spec f.spec
  | _, inter e f => zddIntersection e.spec f.spec
  | _, lookahead e => zddLookahead e.spec
  | _, unreduction e nv => zddUnreduction e.spec nv

/-- the family (over the levels `1..n`) the expression is meant to denote -/
def meaning (n : Nat) : {S : Type} → ZddExpr S → Asg 2 → Prop
  | _, leaf sp, a => ZddMem sp n a
  | _, union e f, a => e.meaning n a ∨ f.meaning n a
  | _, inter e f, a => e.meaning n a ∧ f.meaning n a
  | _, lookahead e, a => e.meaning n a
  | _, unreduction e _, a => e.meaning n a

/-- all leaves obey the contract and no level above `n` is mentioned -/
def LawfulLeaves (n : Nat) : {S : Type} → ZddExpr S → Prop
  | _, leaf sp => LawfulC sp ∧ sp.root.1 ≤ n
  | _, union e f => e.LawfulLeaves n ∧ f.LawfulLeaves n
  | _, inter e f => e.LawfulLeaves n ∧ f.LawfulLeaves n
  | _, lookahead e => e.LawfulLeaves n
  | _, unreduction e nv => e.LawfulLeaves n ∧ nv ≤ n

end ZddExpr

/-- C26: every ZDD expression over lawful specifications is lawful and has its meaning. -/
theorem C26_zddExpr (n : Nat) {S : Type} (e : ZddExpr S) (h : e.LawfulLeaves n) :
    LawfulC e.spec ∧ e.spec.root.1 ≤ n ∧ ∀ a, ZddMem e.spec n a ↔ e.meaning n a := by
  induction e with
  | leaf sp => exact ⟨h.1, h.2, fun a => Iff.rfl⟩
  | union e f ihe ihf =>
    obtain ⟨h1, l1, h1'⟩ := ihe h.1
    obtain ⟨h2, l2, h2'⟩ := ihf h.2
    refine ⟨C26_zddUnion _ _ h1 h2, ?_, fun a => ?_⟩
    · simp only [ZddExpr.spec]
      rw [union_root]
      simp only [unionCode]; repeat' split
      all_goals omega
    · simp only [ZddExpr.spec, ZddExpr.meaning]
      rw [C19_zddUnion _ _ h1.toDesc h2.toDesc n l1 l2, h1', h2']
  | inter e f ihe ihf =>
    obtain ⟨h1, l1, h1'⟩ := ihe h.1
    obtain ⟨h2, l2, h2'⟩ := ihf h.2
    refine ⟨C26_zddIntersection _ _ h1 h2, ?_, fun a => ?_⟩
    · obtain ⟨r, hr, _, _, hle, _⟩ := inter_root h1.toDesc h2.toDesc
      simp only [ZddExpr.spec]
      rw [hr]
      by_cases h0 : r.1 = 0
      · omega
      · have := hle h0; omega
    · simp only [ZddExpr.spec, ZddExpr.meaning]
      rw [C18_zddIntersection _ _ h1.toDesc h2.toDesc n l1 l2, h1', h2']
  | lookahead e ih =>
    obtain ⟨h1, l1, h1'⟩ := ih h
    refine ⟨C26_zddLookahead _ h1, ?_, fun a => ?_⟩
    · obtain ⟨d, hd, _, hle, _⟩ := ahead_root (test := allZeroBut0 e.spec) h1.toDesc
        (fun _ _ => True) (fun _ => trivial) (fun _ _ _ _ _ _ _ => trivial)
      simp only [ZddExpr.spec, zddLookahead, zddAhead_eq]
      rw [hd]; omega
    · simp only [ZddExpr.spec, ZddExpr.meaning]
      rw [C21_zddLookahead _ h1.toDesc n l1, h1']
  | unreduction e nv ih =>
    obtain ⟨h1, l1, h1'⟩ := ih h.1
    have hnv : nv ≤ n := h.2
    refine ⟨C26_zddUnreduction _ nv h1, ?_, fun a => ?_⟩
    · simp only [ZddExpr.spec, zddUnreduction]
      rcases unred_root (z := true) (nv := nv) h1.toDesc with ⟨h2, _⟩ | ⟨h2, _, h3⟩ <;> omega
    · simp only [ZddExpr.spec, ZddExpr.meaning]
      rw [C23_zddUnreduction _ h1.toDesc nv n (by omega), h1']

/-- a nested expression with skipped levels -/
example : LawfulC (bddLookahead (bddOr (bddUnreduction imply31 5) (bddAnd atMostOne imply31))) :=
  (C26_bddExpr (.lookahead (.or (.unreduction (.leaf imply31) 5)
    (.and (.leaf atMostOne) (.leaf imply31))))
    ⟨imply31_lawful, atMostOne_lawful, imply31_lawful⟩).1

example : LawfulC (zddUnion (zddUnreduction imply31 3) (zddIntersection atMostOne imply31)) :=
  (C26_zddExpr 3 (.union (.unreduction (.leaf imply31) 3)
    (.inter (.leaf atMostOne) (.leaf imply31)))
    ⟨⟨⟨imply31_lawful, by decide⟩, by decide⟩, ⟨atMostOne_lawful, by decide⟩,
      ⟨imply31_lawful, by decide⟩⟩).1

end TdZdd
