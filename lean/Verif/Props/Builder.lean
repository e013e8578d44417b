import Verif.StructureProofs
import Verif.BuilderHash
import Verif.Props.Operators

/-!
# Properties C01-C04, C06, C24, C25, C36, C56: construction

`build sp` is the model of `DdStructure(spec)`; `none` means undefined behaviour or
non-termination. `D.spec` is the structure read back through its public interface
(`getRoot`/`getChild`), so `BddSat D.spec` and `ZddMem D.spec` are the function and the family of
the structure.
-/

namespace TdZdd

variable {N : Nat} {S : Type}

/-! ## C03: construction is safe and finishes -/

/-- C03: construction from a lawful specification (with or without pruning) has no undefined
behaviour: all writes go through valid pointers, the sweep reads only written edges, and the result
is completely written, closed under edges and has descending levels. -/
theorem C03_build_safe (sp : DdSpec N S) (hl : Lawful sp) :
    ∃ D, build sp = some D ∧ D.Wf ∧ D.table.row 0 = terminalRow N ∧
      D.table.numRows = sp.root.1.toNat + 1 := by
  obtain ⟨D, lab, h1, h2, h3, h4, _⟩ := build_main hl
  exact ⟨D, h1, h2.wf hl.toDesc, h4, h3⟩

/-- C03, no garbage: every non-terminal node of the result can be reached from the root. -/
theorem C03_build_live (sp : DdSpec N S) (hl : Lawful sp) (D : Dd N) (hD : build sp = some D)
    (f : NodeId) (hf : 0 < f.row) (hv : ∃ nd, D.table.node? f = some nd) : D.Live f := by
  obtain ⟨D', lab, h1, _, _, _, h5, _⟩ := build_main hl
  cases h1.symm.trans hD
  exact h5 f hf (.inr (.inr ⟨hf, hv⟩))

example : ∃ D, build atMostOne = some D ∧ D.Wf ∧ D.table.row 0 = terminalRow 2 ∧
    D.table.numRows = 4 := C03_build_safe _ atMostOne_lawful.lawful

/-- the builder really runs: five nodes for at most one of three -/
example : (build atMostOne).map (fun D => D.table.size) = some 5 := by decide +kernel

/-! ## C01, C02: the meaning is preserved -/

/-- C01: the structure has the Boolean function of the specification. -/
theorem C01_build_bdd (sp : DdSpec N S) (hl : Lawful sp) (hm : NoMerge sp) :
    ∃ D, build sp = some D ∧ ∀ a, BddSat D.spec a ↔ BddSat sp a := by
  obtain ⟨D, lab, h1, h2, _⟩ := build_main hl
  exact ⟨D, h1, bddSat_congr fun p => ⟨h2.sub, h2.sup hm⟩⟩

example : ∃ D, build imply31 = some D ∧ ∀ a, BddSat D.spec a ↔ BddSat imply31 a :=
  C01_build_bdd _ imply31_lawful.lawful fun _ _ => rfl

/-- C02: the structure has the family of the specification. -/
theorem C02_build_zdd (sp : DdSpec N S) (hl : Lawful sp) (hm : NoMerge sp) :
    ∃ D, build sp = some D ∧ ∀ n a, ZddMem D.spec n a ↔ ZddMem sp n a := by
  obtain ⟨D, lab, h1, h2, _⟩ := build_main hl
  exact ⟨D, h1, fun n => zddMem_congr (fun p => ⟨h2.sub, h2.sup hm⟩) n⟩

example : ∃ D, build atMostOne = some D ∧ ∀ n a, ZddMem D.spec n a ↔ ZddMem atMostOne n a :=
  C02_build_zdd _ atMostOne_lawful.lawful fun _ _ => rfl

/-! ## C04: sharing -/

/-- C04: the nodes of the structure can be labelled by reachable states such that the edges follow
`get_child` up to state equivalence, at most one node per level carries each equivalence class, and
every reached class from which the 1-terminal is reachable has a node. -/
theorem C04_sharing (sp : DdSpec N S) (hl : LawfulC sp) (hm : NoMerge sp) :
    ∃ D, build sp = some D ∧ ∃ lab : NodeId → Option S,
      (∀ f nd, 0 < f.row → D.table.node? f = some nd → ∃ s, lab f = some s ∧
        Reach sp (f.row : Int) s ∧
        ∀ b, 0 < (nd b).row → (sp.child s f.row b).1 = ((nd b).row : Int) ∧
          ∃ t, lab (nd b) = some t ∧ sp.eqv (nd b).row t (sp.child s f.row b).2 = true) ∧
      (∀ f f' s s', lab f = some s → lab f' = some s' → f.row = f'.row →
        sp.eqv f.row s s' = true → f = f') ∧
      (∀ (n : Nat) (s : S), 0 < n → Reach sp (n : Int) s → (∃ p, Accepts sp (n : Int) s p) →
        ∃ f nd t, f.row = n ∧ D.table.node? f = some nd ∧ lab f = some t ∧
          sp.eqv n t s = true) := by
  obtain ⟨D, lab, h1, h2, _⟩ := build_main hl.lawful
  refine ⟨D, h1, lab, ?_, fun f f' s s' a b c d => h2.uniq hm a b c d, ?_⟩
  · intro f nd hf hnd
    obtain ⟨s, hs, hr, he⟩ := h2.node hf hnd
    refine ⟨s, hs, hr, fun b hb => ?_⟩
    rcases he b with ⟨h, _⟩ | ⟨h, _⟩ | ⟨_, h3, g, h4, h5, _⟩
    · rw [h] at hb; exact absurd hb (by decide)
    · rw [h] at hb; exact absurd hb (by decide)
    · exact ⟨h3, g, h4, h5⟩
  · intro n s hn hr hp
    obtain ⟨f, g, e1, e2, e3⟩ := h2.cover hl hm hr rfl hn hp
    obtain ⟨_, nd, hnd⟩ := h2.lab_node e2
    exact ⟨f, nd, g, e1, hnd, e2, e3⟩

example : LawfulC atMostOne ∧ NoMerge atMostOne ∧
    Reach atMostOne 1 1 ∧ Accepts atMostOne 1 1 [(1, 0)] :=
  ⟨atMostOne_lawful, fun _ _ => rfl,
    .step (sp := atMostOne) (n := 2) (s := 1) 0 (by decide)
      (.step (sp := atMostOne) (n := 3) (s := 0) 1 (by decide) .root), by decide⟩

/-- C04: the builder with the real hash table (`buildH`, any admissible hash function) computes
the same structure as the builder that looks up equal states in a list. -/
theorem C04_hash_table (sp : DdSpec N S) (hl : Lawful sp) : buildH sp = build sp := buildH_eq hl

/-- C04: the structure does not depend on the hash function. -/
theorem C04_hash_independent (sp : DdSpec N S) (h1 h2 : Nat → S → Nat)
    (l1 : Lawful { sp with hash := h1 }) (l2 : Lawful { sp with hash := h2 }) :
    ∃ D, buildH { sp with hash := h1 } = some D ∧ buildH { sp with hash := h2 } = some D := by
  obtain ⟨D, hD, _⟩ := C03_build_safe _ l1
  refine ⟨D, by rw [buildH_eq l1, hD], ?_⟩
  rw [buildH_eq l2, ← hD]; rfl

/-- all states collide -/
def atMostOne0 : DdSpec 2 Nat := { atMostOne with hash := fun _ _ => 0 }

theorem atMostOne0_lawful : LawfulC atMostOne0 :=
  lawfulC_of_eq ⟨by decide, fun b hn _ => by
      simp only [atMostOne0, atMostOne]
      repeat' split
      all_goals simp only; omega, fun b hn _ => by
      simp only [atMostOne0, atMostOne]
      repeat' split
      all_goals simp only; omega⟩ (fun n s t => by simp [atMostOne0, atMostOne])

example : ∃ D, buildH atMostOne = some D ∧ buildH atMostOne0 = some D :=
  C04_hash_independent atMostOne atMostOne.hash (fun _ _ => 0) atMostOne_lawful.lawful
    atMostOne0_lawful.lawful

/-! ## C06: pruning -/

/-- C06: whatever `merge_states` answers, the structure contains only solutions of the
specification (both readings). -/
theorem C06_pruning_sound (sp : DdSpec N S) (hl : Lawful sp) :
    ∃ D, build sp = some D ∧ (∀ a, BddSat D.spec a → BddSat sp a) ∧
      ∀ n a, ZddMem D.spec n a → ZddMem sp n a := by
  obtain ⟨D, lab, h1, h2, _⟩ := build_main hl
  refine ⟨D, h1, ?_, ?_⟩
  · rintro a ⟨p, hp, ha⟩; exact ⟨p, h2.sub hp, ha⟩
  · rintro n a ⟨p, hp, ha⟩; exact ⟨p, h2.sub hp, ha⟩

/-- C06, no over-pruning: a satisfiable specification still has a solution after pruning. -/
theorem C06_pruning_nonempty (sp : DdSpec N S) (hl : Lawful sp) (h : ∃ a, BddSat sp a) :
    ∃ D, build sp = some D ∧
      ∃ p, Accepts D.spec D.spec.root.1 D.spec.root.2 p := by
  obtain ⟨D, lab, h1, _, _, _, _, h6⟩ := build_main hl
  obtain ⟨a, p, hp, _⟩ := h
  exact ⟨D, h1, h6 ⟨p, hp⟩⟩

/-- Minimum number of elements among the sets over levels 2, 1; the state counts the elements, all
states are equal, and merging keeps the smaller count. -/
def minTwo : DdSpec 2 Nat where
  root := (2, 0)
  child s l b := if l ≤ 1 then (-1, s + b.val) else ((l : Int) - 1, s + b.val)
  eqv _ _ _ := true
  hash _ _ := 0
  merge s t := if s ≤ t then 2 else 1

theorem minTwo_lawful : LawfulC minTwo where
  root_ge := by decide
  child_lt := fun {n s} b hn _ => by simp only [minTwo]; split <;> simp only <;> omega
  child_ge := fun {n s} b hn _ => by simp only [minTwo]; split <;> simp only <;> omega
  refl := fun _ _ => rfl
  symm := fun _ _ _ _ => rfl
  trans := fun _ _ _ _ _ _ => rfl
  hash_eq := fun _ _ _ _ => rfl
  congr := fun {n s t} b hn _ _ _ => by
    refine ⟨?_, fun _ _ _ => rfl⟩
    simp only [minTwo]; split <;> rfl

example : ∃ D, build minTwo = some D ∧ ∃ p, Accepts D.spec D.spec.root.1 D.spec.root.2 p :=
  C06_pruning_nonempty _ minTwo_lawful.lawful
    ⟨asgOf [], [(2, 0), (1, 0)], by decide, by unfold Agrees; decide⟩

/-- pruning really happens: of the four sets only the empty one is left -/
example : (build minTwo).map (fun D => (D.table.row 1).map fun nd => (nd 0, nd 1)) =
    some [(.zero, .zero), (.one, .zero)] := by decide +kernel

/-! ## C56: a structure as a specification -/

/-- C56: a well-formed structure satisfies the contract of specifications. -/
theorem C56_structure_lawful (D : Dd N) (h : D.Wf) : LawfulC D.spec ∧ NoMerge D.spec :=
  ⟨h.lawful, Dd.noMerge⟩

/-- C56: rebuilding a structure gives the same function and family. -/
theorem C56_rebuild (D : Dd N) (h : D.Wf) : ∃ D', build D.spec = some D' ∧ D'.Wf ∧
    (∀ a, BddSat D'.spec a ↔ BddSat D.spec a) ∧ ∀ n a, ZddMem D'.spec n a ↔ ZddMem D.spec n a := by
  obtain ⟨D', lab, h1, h2, _⟩ := build_main h.lawful.lawful
  have hp := fun p => Iff.intro (h2.sub (p := p)) (h2.sup Dd.noMerge (p := p))
  exact ⟨D', h1, h2.wf h.desc, bddSat_congr hp, zddMem_congr hp⟩

example : ∃ D', build (universal 3 4).spec = some D' ∧ D'.Wf ∧
    (∀ a, BddSat D'.spec a ↔ BddSat (universal 3 4).spec a) ∧
    ∀ n a, ZddMem D'.spec n a ↔ ZddMem (universal 3 4).spec n a :=
  C56_rebuild _ (universal_wf 3 4)

/-! ## C36: the universal structure -/

/-- C36: `DdStructure(n)` accepts every assignment and contains every value vector over the levels
`1..n`; it is well-formed and has `n` nodes. -/
theorem C36_universal (N n : Nat) : (universal N n).Wf ∧ (universal N n).table.size = n ∧
    (∀ a, BddSat (universal N n).spec a) ∧ ∀ a, ZddMem (universal N n).spec n a := by
  have hw := universal_wf N n
  have hacc : ∀ a : Asg N, Accepts (universal N n).spec (universal N n).spec.root.1
      (universal N n).spec.root.2 ((downFrom n).map fun i => (i, a i)) := by
    intro a
    have e : (universal N n).spec.root = (childCode (universal N n).root, (universal N n).root) := by
      simp only [Dd.spec]; rw [rootCode_eq hw.root]
    rw [e, universal_root]
    exact universal_accepts N n a n (Nat.le_refl n)
  have hag : ∀ a : Asg N, Agrees ((downFrom n).map fun i => (i, a i)) a := by
    intro a x hx
    simp only [List.mem_map] at hx
    obtain ⟨i, _, rfl⟩ := hx
    rfl
  refine ⟨hw, ?_, fun a => ⟨_, hacc a, hag a⟩, fun a => ⟨_, hacc a, hag a, ?_⟩⟩
  · unfold Table.size universal
    rw [universal_fold]
    simp only [if_true]
    have : ∀ k, k ≤ n → ((List.range (k + 1)).map fun i => ((if i = 0 then terminalRow N
        else if i ≤ n then [fun _ => if i = 1 then NodeId.one else ⟨i - 1, 0⟩] else []) :
          List (Node N)).length).sum = k + 2 := by
      intro k
      induction k with
      | zero => intro _; rfl
      | succ k ih =>
        intro hk
        rw [List.range_succ, List.map_append, List.sum_append, ih (by omega)]
        simp only [List.map_cons, List.map_nil, List.sum_cons, List.sum_nil]
        rw [if_neg (by omega), if_pos hk]
        simp only [List.length_cons, List.length_nil]
        omega
    rw [this n (Nat.le_refl n)]
    rfl
  · intro j h1 h2 hj
    exact absurd (List.mem_map.2 ⟨j, mem_downFrom.2 ⟨h1, h2⟩, rfl⟩) (hj (a j))

example : ZddMem (universal 3 2).spec 2 (fun _ => 2) := (C36_universal 3 2).2.2.2 _

/-! ## C24, C25: conversions -/

/-- C24: the family of `bdd2zdd(n)` over the levels `1..n` is the set of vectors accepted by the
diagram as a BDD; the conversion is safe and the result stays within `n` levels. -/
theorem C24_bdd2zdd (D : Dd (N + 1)) (h : D.Wf) (n : Nat) (hn : D.root.row ≤ n) :
    ∃ Z, bdd2zdd D n = some Z ∧ Z.Wf ∧ Z.root.row ≤ n ∧
      ∀ a, ZddMem Z.spec n a ↔ BddSat D.spec a := by
  have hu := C26_bddUnreduction D.spec n h.lawful
  have hla := C26_zddLookahead _ hu
  have hroot := Dd.root_row h
  obtain ⟨Z, lab, h1, h2, _⟩ := build_main hla.lawful
  have hmax : (max (n : Int) D.spec.root.1).toNat = n := by omega
  have hle : (bddUnreduction D.spec n).root.1 ≤ n := by
    rcases unred_root (z := false) (nv := n) h.desc with ⟨e, _⟩ | ⟨_, _, e⟩
    · simp only [bddUnreduction]; omega
    · simp only [bddUnreduction]; omega
  refine ⟨Z, h1, h2.wf hla.toDesc, ?_, fun a => ?_⟩
  · have := zddLookahead_root_le hu.toDesc
    have := h2.root_row
    omega
  have hm : NoMerge (zddLookahead (bddUnreduction D.spec n)) := fun _ _ => rfl
  rw [zddMem_congr (fun p => ⟨h2.sub, h2.sup hm⟩) n a, C21_zddLookahead _ hu.toDesc n hle]
  have := C22_as_zdd D.spec h.desc n a
  rw [hmax] at this
  exact this

/-- C25: the function of `zdd2bdd(n)` is membership in the family over the levels `1..n`. -/
theorem C25_zdd2bdd (D : Dd (N + 1)) (h : D.Wf) (n : Nat) (hn : D.root.row ≤ n) :
    ∃ B, zdd2bdd D n = some B ∧ B.Wf ∧ B.root.row ≤ n ∧
      ∀ a, BddSat B.spec a ↔ ZddMem D.spec n a := by
  have hu := C26_zddUnreduction D.spec n h.lawful
  have hla := C26_bddLookahead _ hu
  have hroot := Dd.root_row h
  obtain ⟨B, lab, h1, h2, _⟩ := build_main hla.lawful
  have hmax : (max (n : Int) D.spec.root.1).toNat = n := by omega
  have hle : (zddUnreduction D.spec n).root.1 ≤ n := by
    rcases unred_root (z := true) (nv := n) h.desc with ⟨e, _⟩ | ⟨_, _, e⟩
    · simp only [zddUnreduction]; omega
    · simp only [zddUnreduction]; omega
  refine ⟨B, h1, h2.wf hla.toDesc, ?_, fun a => ?_⟩
  · have := bddLookahead_root_le hu.lawful
    have := h2.root_row
    omega
  have hm : NoMerge (bddLookahead (zddUnreduction D.spec n)) := fun _ _ => rfl
  rw [bddSat_congr (fun p => ⟨h2.sub, h2.sup hm⟩) a, C20_bddLookahead _ hu.lawful]
  have := C23_as_bdd D.spec h.desc n a
  rw [hmax] at this
  exact this

/-- C25: the two conversions are inverse to each other (BDD to ZDD and back). -/
theorem C25_roundtrip_bdd (D : Dd (N + 1)) (h : D.Wf) (n : Nat) (hn : D.root.row ≤ n) :
    ∃ B, (bdd2zdd D n).bind (fun Z => zdd2bdd Z n) = some B ∧
      ∀ a, BddSat B.spec a ↔ BddSat D.spec a := by
  obtain ⟨Z, h1, h2, h3, h4⟩ := C24_bdd2zdd D h n hn
  obtain ⟨B, k1, _, _, k4⟩ := C25_zdd2bdd Z h2 n h3
  exact ⟨B, by rw [h1]; exact k1, fun a => (k4 a).trans (h4 a)⟩

/-- C25: the two conversions are inverse to each other (ZDD to BDD and back). -/
theorem C25_roundtrip_zdd (D : Dd (N + 1)) (h : D.Wf) (n : Nat) (hn : D.root.row ≤ n) :
    ∃ Z, (zdd2bdd D n).bind (fun B => bdd2zdd B n) = some Z ∧
      ∀ a, ZddMem Z.spec n a ↔ ZddMem D.spec n a := by
  obtain ⟨B, h1, h2, h3, h4⟩ := C25_zdd2bdd D h n hn
  obtain ⟨Z, k1, _, _, k4⟩ := C24_bdd2zdd B h2 n h3
  exact ⟨Z, by rw [h1]; exact k1, fun a => (k4 a).trans (h4 a)⟩

example : ∃ Z, bdd2zdd (universal 3 2) 4 = some Z ∧ Z.Wf ∧ Z.root.row ≤ 4 ∧
    ∀ a, ZddMem Z.spec 4 a ↔ BddSat (universal 3 2).spec a :=
  C24_bdd2zdd _ (universal_wf 3 2) 4 (by decide)

example : ∃ B, zdd2bdd (universal 3 2) 4 = some B ∧ B.Wf ∧ B.root.row ≤ 4 ∧
    ∀ a, BddSat B.spec a ↔ ZddMem (universal 3 2).spec 4 a :=
  C25_zdd2bdd _ (universal_wf 3 2) 4 (by decide)

example : ∃ B, (bdd2zdd (universal 3 2) 4).bind (fun Z => zdd2bdd Z 4) = some B ∧
    ∀ a, BddSat B.spec a ↔ BddSat (universal 3 2).spec a :=
  C25_roundtrip_bdd _ (universal_wf 3 2) 4 (by decide)

example : ∃ Z, (zdd2bdd (universal 3 2) 4).bind (fun B => bdd2zdd B 4) = some Z ∧
    ∀ a, ZddMem Z.spec 4 a ↔ ZddMem (universal 3 2).spec 4 a :=
  C25_roundtrip_zdd _ (universal_wf 3 2) 4 (by decide)

end TdZdd
