import Verif.CnfBddMapOk
import Verif.CnfBddReach
import Verif.BuildExt
import Verif.Props.Builder

/-!
# Properties C80 and C81: the specification `CnfToBdd`

`Sat u cs` says that the truth assignment `u` satisfies the clauses `cs`; `val nv a` is the truth assignment of the vector `a` of the values at the levels. `Good nv cnf` says that the clauses are what `readDimacs` stores: none is empty, and the variables of a clause increase and
are in `1..nv`. `At cnf j c` says that `c` is the clause with the number `j`.

`cp` is the result of `std::sort` in `prepare`: any order of the clauses that is in order for the comparator.
-/

namespace TdZdd

namespace CnfB

open Cnf

variable {nv : Nat} {cnf : List Clause}

/-- C80: with the option `-n`, with or without the map to canonical clauses, the map can be made, the specification is lawful, and it is satisfied by exactly the assignments that satisfy the clauses, if there are at most 65535 clauses. -/
theorem _root_.TdZdd.C80_spec (nv : Nat) (cnf : List Clause) (useMap : Bool) (hash : List Nat → Nat) (hv : 0 < nv) (h : Good nv cnf) (hne : cnf ≠ []) (hn : cnf.length ≤ 65535) (cp : List (Nat × List Int)) (hp : cp.Perm (revClauses 1 cnf))
    (hs : cp.Pairwise fun a b => relaxLt b.2 a.2 = false) :
    ∃ cm, clauseMap nv cp = some cm ∧ Lawful (spec nv cnf (fun _ => .const 1) useMap cm hash) ∧ ∀ a : Asg 2, BddSat (spec nv cnf (fun _ => .const 1) useMap cm hash) a ↔ Sat (val nv a) cnf := by
  obtain ⟨cm, e, hm, _⟩ := clauseMap_ok h hne hp hs
  have hf := (kept_one (nv := nv) (cnf := cnf)).sound
  have hd : Desc (spec nv cnf (fun _ => .const 1) useMap cm hash) := desc_of h hn hf hm hv fun n w _ _ e => by
    have : badState (.const 1) w = some false := by unfold badState Cudd.const; rw [walk]; rfl
    rw [this] at e
    cases e
  exact ⟨cm, e, spec_lawful h hn hf hm hd hv, spec_sat h hn hf hm hd hv⟩

/-- C80: with the map, two states are merged if and only if their clauses have the same literals left at the levels still to come, for sets of clauses that all have such a literal. -/
theorem _root_.TdZdd.C80_merge (nv : Nat) (cnf : List Clause) (hash : List Nat → Nat) (hv : 0 < nv) (h : Good nv cnf) (hne : cnf ≠ []) (hn : cnf.length ≤ 65535) (cp : List (Nat × List Int)) (hp : cp.Perm (revClauses 1 cnf))
    (hs : cp.Pairwise fun a b => relaxLt b.2 a.2 = false) :
    ∃ cm, clauseMap nv cp = some cm ∧ ∀ (n : Nat) (s t : List Nat × List Nat), 0 < n → Reach (spec nv cnf (fun _ => .const 1) true cm hash) n s → Reach (spec nv cnf (fun _ => .const 1) true cm hash) n t →
      (∀ j, j ∈ s.1 ∨ j ∈ t.1 → ∀ c, At cnf j c → ∃ x ∈ c, nv + 1 - x.natAbs ≤ n) →
      ((spec nv cnf (fun _ => .const 1) true cm hash).eqv n s t = true ↔
        (∀ j ∈ s.1, ∀ c, At cnf j c → ∃ k ∈ t.1, ∃ d, At cnf k d ∧ ∀ x : Int, nv + 1 - x.natAbs ≤ n → (x ∈ c ↔ x ∈ d)) ∧
        ∀ j ∈ t.1, ∀ c, At cnf j c → ∃ k ∈ s.1, ∃ d, At cnf k d ∧ ∀ x : Int, nv + 1 - x.natAbs ≤ n → (x ∈ c ↔ x ∈ d)) := by
  obtain ⟨cm, e, hm, hc⟩ := clauseMap_ok h hne hp hs
  refine ⟨cm, e, fun n s t h0 rs rt hl => ?_⟩
  have hf := (kept_one (nv := nv) (cnf := cnf)).sound
  have is := spec_inv h hn hf hm hv h0 rs
  have it := spec_inv h hn hf hm hv h0 rt
  have hle := is.reach.le
  constructor
  · intro e
    have e := of_decide_eq_true e
    exact ⟨sub_of_id hm is it e, sub_of_id hm it is e.symm⟩
  · rintro ⟨h1, h2⟩
    have key : ∀ {p q : List Nat × List Nat}, Inv nv cnf true cm n p → Inv nv cnf true cm n q → (∀ j, j ∈ p.1 → ∀ c, At cnf j c → ∃ x ∈ c, lev nv x ≤ n) → Sub nv cnf n p.1 q.1 → ∀ x, x ∈ p.2 → x ∈ q.2 := by
      intro p q ip iq hl hsub x hx
      obtain ⟨j, hj, rfl⟩ : ∃ j ∈ p.1, x = cm n j := (ip.id x).1 hx
      obtain ⟨c, hj'⟩ := ip.reach.valid j hj
      obtain ⟨k, hk, d, hd, hsame⟩ := hsub j hj c hj'
      have := hc n hle j c k d hj' hd hsame (hl j hj c hj')
      exact (iq.id _).2 ⟨k, hk, this⟩
    refine decide_eq_true (sorted_ext is.ids it.ids fun x => ⟨key is it (fun j hj => hl j (.inl hj)) h1 x, key it is (fun j hj => hl j (.inr hj)) h2 x⟩)

/-- `work` holds 16 bits for the number of a clause: for 65536 times the clause `x1 ∨ x2` -/
def many : List Clause := List.replicate 65536 [1, 2]

theorem at_many {j : Nat} {c : Clause} : At many j c ↔ (1 ≤ j ∧ j ≤ 65536) ∧ c = [1, 2] := by
  unfold At many
  constructor
  · rintro ⟨k, e, rfl⟩
    obtain ⟨h1, h2⟩ := List.getElem?_eq_some_iff.1 e
    rw [List.length_replicate] at h1
    rw [List.getElem_replicate] at h2
    exact ⟨by omega, h2.symm⟩
  · rintro ⟨h1, rfl⟩
    refine ⟨j - 1, List.getElem?_eq_some_iff.2 ⟨by rw [List.length_replicate]; omega, List.getElem_replicate _⟩, by omega⟩

theorem good_many : Good 2 many := by
  have key : ∀ c ∈ many, c = [1, 2] := fun c hc => List.eq_of_mem_replicate hc
  exact ⟨fun c hc => by rw [key c hc]; exact List.cons_ne_nil _ _, fun c hc => by rw [key c hc]; exact ⟨by decide, by decide⟩⟩

theorem work_zero {S : List Nat} {level : Nat} : work nv cnf S level 0 = combine (S.length + (enter nv cnf level).length) S (enter nv cnf level) (satBy nv cnf false level) := rfl

theorem work_one {S : List Nat} {level : Nat} : work nv cnf S level 1 = combine (S.length + (enter nv cnf level).length) S (enter nv cnf level) (satBy nv cnf true level) := rfl

theorem many_step {bad : Nat → List Nat → Option Bool} {useMap : Bool} {cm : CMap} {hash : List Nat → Nat} (hb : ∀ n w, bad n w = some false) {s : List Nat × List Nat} {n : Nat} {b : Fin 2} (hz : ∃ z ∈ work 2 cnf s.1 (n + 1) b, z = 0) :
    (specWith 2 cnf bad useMap cm hash).child s (n + 1) b = ((n : Int), nextState useMap (cm n) (work 2 cnf s.1 (n + 1) b)) := by
  rw [child_eq, hb, Option.elim_some, if_neg Bool.false_ne_true, if_neg fun g => ?_]
  rw [g.2] at hz
  obtain ⟨z, hz, _⟩ := hz
  cases hz

theorem many_rejects (hg : Good 2 cnf) (hA : ∀ j c, At cnf j c ↔ (1 ≤ j ∧ j ≤ 65536) ∧ c = [1, 2]) {bad : Nat → List Nat → Option Bool} {useMap : Bool} {cm : CMap} {hash : List Nat → Nat} (hb : ∀ n w, bad n w = some false) {a : Asg 2} (a2 : a 2 = 0) (a1 : a 1 = 1) : ¬ BddSat (specWith 2 cnf bad useMap cm hash) a := by
  obtain ⟨w, e1, w1, w2⟩ := combine_spec (([] : List Nat).length + (enter 2 cnf (1 + 1)).length) [] (enter 2 cnf (1 + 1)) (satBy 2 cnf false (1 + 1)) List.Pairwise.nil enter_sorted (satBy_sorted hg) (Nat.le_refl _)
  have m1 : (65536 : Nat) ∈ w := by
    refine (w2 _).2 ⟨.inr (mem_enter.2 ⟨[1, 2], 1, (hA _ _).2 ⟨by omega, rfl⟩, rfl, rfl⟩), fun g => ?_⟩
    obtain ⟨c, hc, x, hx, _, hb⟩ := mem_satBy.1 g
    rw [((hA _ _).1 hc).2] at hx
    have : 0 < x := by
      simp only [List.mem_cons, List.not_mem_nil, or_false] at hx
      omega
    rw [decide_eq_true this] at hb
    cases hb
  have e1' : work 2 cnf [] (1 + 1) 0 = w.map short := by rw [work_zero]; exact e1
  have z1 : 0 ∈ work 2 cnf [] (1 + 1) 0 := by
    rw [e1']
    exact List.mem_map.2 ⟨65536, m1, rfl⟩
  unfold BddSat
  rw [spec_root (by decide), bddSatAt_pos (n := 2) (by decide), a2, many_step hb (n := 1) ⟨0, z1, rfl⟩]
  have hz : 0 ∈ (nextState useMap (cm 1) (work 2 cnf [] (1 + 1) 0)).1 := (toSet_spec.2 0).2 z1
  have hs : (nextState useMap (cm 1) (work 2 cnf [] (1 + 1) 0)).1.Pairwise (· < ·) := toSet_spec.1
  dsimp only
  generalize nextState useMap (cm 1) (work 2 cnf [] (1 + 1) 0) = s at hz hs
  obtain ⟨v, e2, v1, v2⟩ := combine_spec (s.1.length + (enter 2 cnf (0 + 1)).length) s.1 (enter 2 cnf (0 + 1)) (satBy 2 cnf true (0 + 1)) hs enter_sorted (satBy_sorted hg) (Nat.le_refl _)
  have m2 : 0 ∈ v := by
    refine (v2 _).2 ⟨.inl hz, fun g => ?_⟩
    obtain ⟨c, hc, _⟩ := mem_satBy.1 g
    have := ((hA _ _).1 hc).1
    omega
  have e2' : work 2 cnf s.1 (0 + 1) 1 = v.map short := by rw [work_one]; exact e2
  have z2 : 0 ∈ work 2 cnf s.1 (0 + 1) 1 := by
    rw [e2']
    exact List.mem_map.2 ⟨0, m2, rfl⟩
  rw [bddSatAt_pos (n := 1) (by decide), a1, many_step hb (n := 0) ⟨0, z2, rfl⟩]
  exact bddSatAt_zero

/-- C80: for 65536 clauses `x1 ∨ x2` the assignment in which only the second variable is true satisfies all of them, but the specification rejects it: the number 65536 of the last clause does not fit into `uint16_t`. -/
theorem _root_.TdZdd.C80_wrap_false (useMap : Bool) (cm : CMap) (hash : List Nat → Nat) :
    ∃ a : Asg 2, Sat (val 2 a) many ∧ ¬ BddSat (spec 2 many (fun _ => .const 1) useMap cm hash) a := by
  refine ⟨fun l => if l = 1 then 1 else 0, ?_, many_rejects good_many (fun _ _ => at_many) (fun n w => ?_) rfl rfl⟩
  · intro c hc
    rw [show c = [1, 2] from List.eq_of_mem_replicate hc]
    exact ⟨2, by decide, by decide⟩
  · show badState (.const 1) w = some false
    unfold badState Cudd.const; rw [walk]; rfl

/-- C80: if all clauses are tautologies then none is stored, and `prepare` computes a pointer before the beginning of an array. -/
theorem _root_.TdZdd.C80_empty_false (nv : Nat) : clauseMap nv (revClauses 1 []) = none := rfl

/-- C81: the reachability analysis ends for every limit of the size, and every measure of it. -/
theorem _root_.TdZdd.C81_traverse (nv : Nat) (cnf : List Clause) (h : Good nv cnf) (size : Cudd → Nat) (limit i : Nat) (hi : i ≤ nv) : ∃ g, traverse nv cnf size limit i = some g := by
  obtain ⟨g, e, _⟩ := traverse_spec h size limit i hi
  exact ⟨g, e⟩

/-- `fs` is the array `frontierSet` that the analysis computes. -/
def Analysed (nv : Nat) (cnf : List Clause) (size : Cudd → Nat) (limit : Nat) (fs : Nat → Cudd) : Prop := ∀ i, i ≤ nv → traverse nv cnf size limit i = some (fs i)

/-- the specification in which the result of `badState` is false where it is undefined -/
def mended (nv : Nat) (cnf : List Clause) (fs : Nat → Cudd) (useMap : Bool) (cm : CMap) (hash : List Nat → Nat) : DdSpec 2 (List Nat × List Nat) :=
  specWith nv cnf (fun level clauses => some ((badState (fs level) clauses).getD false)) useMap cm hash

theorem mends {fs : Nat → Cudd} {useMap : Bool} {cm : CMap} {hash : List Nat → Nat} : Mends (spec nv cnf fs useMap cm hash) (mended nv cnf fs useMap cm hash) where
  root := rfl
  eqv := rfl
  merge := rfl
  child := by
    intro s n b h0
    obtain ⟨n, rfl⟩ : ∃ m, n = m + 1 := ⟨n - 1, by omega⟩
    unfold spec mended
    rw [child_eq, child_eq]
    cases badState (fs n) (work nv cnf s.1 (n + 1) b) with
    | none => exact .inr (Int.le_refl _)
    | some r => exact .inl rfl

theorem mended_main {fs : Nat → Cudd} {useMap : Bool} {cm : CMap} {hash : List Nat → Nat} (hv : 0 < nv) (h : Good nv cnf) (hn : cnf.length ≤ 65535) (hm : MapOk nv cnf cm) (hk : Kept nv cnf fs) :
    Lawful (mended nv cnf fs useMap cm hash) ∧ ∀ a : Asg 2, BddSat (mended nv cnf fs useMap cm hash) a ↔ Sat (val nv a) cnf := by
  have hf := hk.sound'
  have hd : Desc (mended nv cnf fs useMap cm hash) := desc_of h hn hf hm hv fun n w _ _ e => by cases e
  exact ⟨spec_lawful h hn hf hm hd hv, spec_sat h hn hf hm hd hv⟩

/-- C81: with the analysis, for any limit, the specification prunes no solution: if no step is undefined, then it is lawful and satisfied by exactly the assignments that satisfy the clauses. -/
theorem _root_.TdZdd.C81_spec (nv : Nat) (cnf : List Clause) (useMap : Bool) (hash : List Nat → Nat) (size : Cudd → Nat) (limit : Nat) (fs : Nat → Cudd) (ha : Analysed nv cnf size limit fs) (hv : 0 < nv) (h : Good nv cnf) (hne : cnf ≠ [])
    (hn : cnf.length ≤ 65535) (cp : List (Nat × List Int)) (hp : cp.Perm (revClauses 1 cnf)) (hs : cp.Pairwise fun a b => relaxLt b.2 a.2 = false) :
    ∃ cm, clauseMap nv cp = some cm ∧ (Desc (spec nv cnf fs useMap cm hash) →
      Lawful (spec nv cnf fs useMap cm hash) ∧ ∀ a : Asg 2, BddSat (spec nv cnf fs useMap cm hash) a ↔ Sat (val nv a) cnf) := by
  obtain ⟨cm, e, hm, _⟩ := clauseMap_ok h hne hp hs
  have hf := (kept_traverse h ha).sound
  exact ⟨cm, e, fun hd => ⟨spec_lawful h hn hf hm hd hv, spec_sat h hn hf hm hd hv⟩⟩

/-- C81: with the analysis, for any limit: if the diagram is constructed without an undefined step then it is the diagram of the clauses. -/
theorem _root_.TdZdd.C81_build (nv : Nat) (cnf : List Clause) (useMap : Bool) (hash : List Nat → Nat) (size : Cudd → Nat) (limit : Nat) (fs : Nat → Cudd) (ha : Analysed nv cnf size limit fs) (hv : 0 < nv) (h : Good nv cnf) (hne : cnf ≠ [])
    (hn : cnf.length ≤ 65535) (cp : List (Nat × List Int)) (hp : cp.Perm (revClauses 1 cnf)) (hs : cp.Pairwise fun a b => relaxLt b.2 a.2 = false) :
    ∃ cm, clauseMap nv cp = some cm ∧ ∀ D, build (spec nv cnf fs useMap cm hash) = some D → D.Wf ∧ ∀ a : Asg 2, BddSat D.spec a ↔ Sat (val nv a) cnf := by
  obtain ⟨cm, e, hm, _⟩ := clauseMap_ok h hne hp hs
  refine ⟨cm, e, fun D eD => ?_⟩
  obtain ⟨h1, h2⟩ := mended_main (useMap := useMap) (hash := hash) hv h hn hm (kept_traverse h ha)
  obtain ⟨D', lab, e1, t1, _⟩ := build_main h1
  rw [build_mends mends eD] at e1
  cases e1
  exact ⟨t1.wf h1.toDesc, fun a => by rw [bddSat_congr (fun p => ⟨t1.sub, t1.sup (fun _ _ => rfl)⟩) a, h2]⟩

/-! ## Where the walk leaves the array -/

theorem traverseTD_free {size : Cudd → Nat} {limit : Nat} (h : ∀ f, size f ≤ limit) : ∀ k, traverseTD nv cnf size limit k = traverseTD nv cnf (fun _ => 0) 2 k := by
  intro k
  induction k with
  | zero => rfl
  | succ k ih =>
    rw [traverseTD, traverseTD, ih]
    congr 1
    funext f
    unfold down
    dsimp only
    rw [if_neg (Nat.not_lt.2 (h _)), if_neg (show ¬ 0 > 2 by decide)]

theorem traverse_free {size : Cudd → Nat} {limit : Nat} (hl : 1 < limit) (h : ∀ f, size f ≤ limit) : traverse nv cnf size limit = traverse nv cnf (fun _ => 0) 2 := by
  unfold traverse
  congr 1
  funext i
  rw [if_pos hl, if_pos (by decide), traverseTD_free h]

theorem traverse_up {size : Cudd → Nat} {limit : Nat} (hl : limit ≤ 1) : traverse nv cnf size limit = traverse nv cnf (fun _ => 0) 0 := by
  unfold traverse
  congr 1
  funext i
  rw [if_neg (by omega), if_neg (by decide)]

/-- the diagrams of the analysis without a limit or with the limit 0 -/
def sets (nv : Nat) (cnf : List Clause) (limit : Nat) (i : Nat) : Cudd := (traverse nv cnf (fun _ => 0) limit i).getD (.const 1)

theorem analysed_sets {limit : Nat} (h : Good nv cnf) : Analysed nv cnf (fun _ => 0) limit (sets nv cnf limit) := by
  intro i hi
  obtain ⟨g, e⟩ := C81_traverse nv cnf h (fun _ => 0) limit i hi
  unfold sets
  rw [e]
  rfl

theorem build_hash {fs : Nat → Cudd} {useMap : Bool} {cm : CMap} {hash hash' : List Nat → Nat} (h : build (spec nv cnf fs useMap cm hash') = none) : build (spec nv cnf fs useMap cm hash) = none := by
  cases e : build (spec nv cnf fs useMap cm hash) with
  | none => rfl
  | some D =>
    have := build_mends (q := spec nv cnf fs useMap cm hash') ⟨rfl, rfl, rfl, fun _ _ _ _ => .inl rfl⟩ e
    rw [h] at this
    cases this

/-- `(x1 ∨ x2) ∧ (¬x1 ∨ x3)` -/
def pair : List Clause := [[1, 2], [-1, 3]]

/-- `x1 ∧ (¬x1 ∨ x2)` -/
def chain : List Clause := [[1], [-1, 2]]

/-- the clauses of `pair` in the order of `ClauseCmpForRelaxing` -/
def pairRows : List (Nat × List Int) := [(2, [3, -1, 0]), (1, [2, 1, 0])]

/-- the clauses of `chain` in the order of `ClauseCmpForRelaxing` -/
def chainRows : List (Nat × List Int) := [(2, [2, -1, 0]), (1, [1, 0])]

/-- C81: without a limit, as it is the default, `badState` reads behind the end of `work` for the clauses `(x1 ∨ x2) ∧ (¬x1 ∨ x3)`. -/
theorem _root_.TdZdd.C81_overrun_false (useMap : Bool) (hash : List Nat → Nat) (size : Cudd → Nat) (limit : Nat) (hl : 1 < limit) (hsz : ∀ f, size f ≤ limit) :
    ∃ cm fs, clauseMap 3 pairRows = some cm ∧ Analysed 3 pair size limit fs ∧ build (spec 3 pair fs useMap cm hash) = none := by
  have hg : Good 3 pair := ⟨by decide, fun c hc => ⟨by revert c; decide, by revert c; decide⟩⟩
  refine ⟨(clauseMap 3 pairRows).getD fun _ j => j, sets 3 pair 2, ?_, ?_, ?_⟩
  · have : (clauseMap 3 pairRows).isSome = true := by decide +kernel
    obtain ⟨cm, e⟩ := Option.isSome_iff_exists.1 this
    rw [e]
    rfl
  · unfold Analysed
    rw [traverse_free hl hsz]
    exact analysed_sets hg
  · refine build_hash (hash' := fun _ => 0) (Option.isNone_iff_eq_none.1 ?_)
    cases useMap
    · decide +kernel
    · decide +kernel

/-- C81: so it does with the option `-b` for the clauses `x1 ∧ (¬x1 ∨ x2)`. -/
theorem _root_.TdZdd.C81_overrun_up_false (useMap : Bool) (hash : List Nat → Nat) (size : Cudd → Nat) (limit : Nat) (hl : limit ≤ 1) :
    ∃ cm fs, clauseMap 2 chainRows = some cm ∧ Analysed 2 chain size limit fs ∧ build (spec 2 chain fs useMap cm hash) = none := by
  have hg : Good 2 chain := ⟨by decide, fun c hc => ⟨by revert c; decide, by revert c; decide⟩⟩
  refine ⟨(clauseMap 2 chainRows).getD fun _ j => j, sets 2 chain 0, ?_, ?_, ?_⟩
  · have : (clauseMap 2 chainRows).isSome = true := by decide +kernel
    obtain ⟨cm, e⟩ := Option.isSome_iff_exists.1 this
    rw [e]
    rfl
  · unfold Analysed
    rw [traverse_up hl]
    exact analysed_sets hg
  · refine build_hash (hash' := fun _ => 0) (Option.isNone_iff_eq_none.1 ?_)
    cases useMap
    · decide +kernel
    · decide +kernel

/-- C81: after its first loop `badState` follows the 0-branches to a terminal, but then compares with the null pointer: a state whose set of clauses is not in the diagram is not found to be bad when its clauses have come to an end. -/
theorem _root_.TdZdd.C81_null_false : ∃ g : Cudd, g.eval (fun _ => false) = false ∧ badState g [] = some false := ⟨.node 1 (.leaf false) (.leaf true), rfl, rfl⟩

/-! ## Examples -/

/-- the file `example.cnf` -/
def sampleCnf : List Clause := [[1, 3], [-2, 3], [-1, 2]]

/-- its clauses in the order of `ClauseCmpForRelaxing` -/
def sampleRows : List (Nat × List Int) := [(2, [3, -2, 0]), (1, [3, 1, 0]), (3, [2, -1, 0])]

example : Good 3 sampleCnf := ⟨by decide, fun c hc => ⟨by revert c; decide, by revert c; decide⟩⟩

example : sampleRows.Perm (revClauses 1 sampleCnf) ∧ sampleRows.Pairwise fun a b => relaxLt b.2 a.2 = false := ⟨List.Perm.swap _ _ _, by decide⟩

example : pairRows.Perm (revClauses 1 pair) ∧ pairRows.Pairwise fun a b => relaxLt b.2 a.2 = false := ⟨List.Perm.swap _ _ _, by decide⟩

example : chainRows.Perm (revClauses 1 chain) ∧ chainRows.Pairwise fun a b => relaxLt b.2 a.2 = false := ⟨List.Perm.swap _ _ _, by decide⟩

/-- the analysis of `example.cnf` and the construction after it -/
example : ((clauseMap 3 sampleRows).bind fun cm => (build (spec 3 sampleCnf (sets 3 sampleCnf 2) true cm fun _ => 0))).isSome = true := by decide +kernel

/-- the map lets the clauses `x1 ∨ x3` and `¬x2 ∨ x3` have the same number at the lowest level -/
example : (clauseMap 3 sampleRows).map (fun cm => (cm 1 1, cm 1 2, cm 2 1, cm 2 2, cm 3 1)) = some (2, 2, 1, 2, 1) := by decide +kernel

/-- the sets of clauses that the analysis leaves at the lowest level: the clauses 1 and 2 in any combination, and not the clause 3 -/
example : sets 3 sampleCnf 2 1 ≠ .const 1 ∧ (sets 3 sampleCnf 2 1).eval (fun j => decide (j = 1 ∨ j = 2)) = true ∧ (sets 3 sampleCnf 2 1).eval (fun j => decide (j = 3)) = false := by decide +kernel

/-- two states that are merged: the clause 1 with `x3` left, and the clause 2 with `x3` left -/
example :
    let sp := spec 3 sampleCnf (fun _ => .const 1) true ((clauseMap 3 sampleRows).getD fun _ j => j) fun _ => 0
    sp.child (sp.child sp.root.2 3 0).2 2 0 = (1, [1], [2]) ∧ sp.child (sp.child sp.root.2 3 1).2 2 1 = (1, [2], [2]) := by decide +kernel

end CnfB

end TdZdd
