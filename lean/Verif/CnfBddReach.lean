import Verif.CnfBddSem

/-! The reachability analysis keeps every set of clauses from which a solution can be found. -/

namespace TdZdd

namespace CnfB

open Cnf Cudd Sap

variable {nv : Nat} {cnf : List Clause}

/-- the truth assignment of a set -/
abbrev chi (S : List Nat) : Nat → Bool := fun t => decide (t ∈ S)

theorem chi_true {S : List Nat} {t : Nat} : chi S t = true ↔ t ∈ S := decide_eq_true_iff

theorem chi_false {S : List Nat} {t : Nat} : chi S t = false ↔ t ∉ S := decide_eq_false_iff_not

/-- a diagram for the sets at a level -/
structure Keeps (nv : Nat) (cnf : List Clause) (i : Nat) (g : Cudd) : Prop where
  below : Below (cnf.length + 1) g
  mem : ∀ S u, RS nv cnf i S → Sem nv cnf i S u → g.eval (chi S) = true

theorem lits_ok {b : Bool} {js : List Nat} (h : ∀ j ∈ js, ∃ c, At cnf j c) : LitCube b (lits b js) ∧ (∀ t, Uses t (lits b js) ↔ t ∈ js) ∧ Below (cnf.length + 1) (lits b js) ∧ ∀ u, (lits b js).eval u = true ↔ ∀ j ∈ js, u j = b := by
  refine lits_main fun j hj => ?_
  obtain ⟨c, hc⟩ := h j hj
  have := hc.range
  omega

theorem satBy_at {b : Bool} {i : Nat} : ∀ j ∈ satBy nv cnf b i, ∃ c, At cnf j c := fun _ hj => by
  obtain ⟨c, h, _⟩ := mem_satBy.1 hj
  exact ⟨c, h⟩

theorem enter_at {i : Nat} : ∀ j ∈ enter nv cnf i, ∃ c, At cnf j c := fun _ hj => by
  obtain ⟨c, _, h, _⟩ := mem_enter.1 hj
  exact ⟨c, h⟩

theorem leave_at {i : Nat} : ∀ j ∈ leave nv cnf i, ∃ c, At cnf j c := fun _ hj => by
  obtain ⟨c, _, h, _⟩ := mem_leave.1 hj
  exact ⟨c, h⟩

/-- A set that a solution comes from has no clause that has left. -/
theorem sem_leave (h : Good nv cnf) {i : Nat} {S : List Nat} {u : Nat → Bool} (hs : Sem nv cnf i S u) : ∀ j ∈ leave nv cnf (i + 1), j ∉ S := by
  intro j hj hjS
  obtain ⟨c, hc⟩ := leave_at j hj
  obtain ⟨x, hx, hl, _⟩ := hs j c hc (.inl hjS)
  have := leave_le h hc hj hx
  omega

theorem mask_leave (h : Good nv cnf) {i : Nat} {S : List Nat} {u : Nat → Bool} (hs : Sem nv cnf i S u) : (mask (leave nv cnf (i + 1))).eval (chi S) = true := by
  rw [mask_eq, (lits_ok leave_at).2.2.2]
  intro j hj
  exact chi_false.2 (sem_leave h hs j hj)

theorem below_leave {i : Nat} : Below (cnf.length + 1) (mask (leave nv cnf i)) := by
  rw [mask_eq]
  exact (lits_ok leave_at).2.2.1

/-! ## From the top -/

/-- one of the two parts of a round of `traverseTD` -/
theorem down_part (h : Good nv cnf) {i : Nat} {b : Bool} {f : Cudd} (hb : Below (cnf.length + 1) f) :
    Below (cnf.length + 1) ((f.exist (lits true (satBy nv cnf b (i + 1)))).and ((lits false (satBy nv cnf b (i + 1))).and (mask (leave nv cnf (i + 1))))) ∧
    (∀ t, Uses t ((f.exist (lits true (satBy nv cnf b (i + 1)))).and ((lits false (satBy nv cnf b (i + 1))).and (mask (leave nv cnf (i + 1))))) → Uses t f ∨ ∃ c, At cnf t c ∧ i < entry nv c) ∧
    ∀ S T u, Stepped nv cnf b (i + 1) S T → Sem nv cnf i T u → (∀ v, (∀ t, t ∈ enter nv cnf (i + 1) ∨ t ∈ S ↔ v t = true) → f.eval v = true) →
      ((f.exist (lits true (satBy nv cnf b (i + 1)))).and ((lits false (satBy nv cnf b (i + 1))).and (mask (leave nv cnf (i + 1))))).eval (chi T) = true := by
  obtain ⟨c1, c2, c3, c4⟩ := lits_ok (b := true) (satBy_at (nv := nv) (cnf := cnf) (b := b) (i := i + 1))
  obtain ⟨m1, m2, m3, m4⟩ := lits_ok (b := false) (satBy_at (nv := nv) (cnf := cnf) (b := b) (i := i + 1))
  obtain ⟨l1, l2, l3, l4⟩ := lits_ok (b := false) (leave_at (nv := nv) (cnf := cnf) (i := i + 1))
  obtain ⟨e1, e2, e3⟩ := exist_main c1 c3 hb
  refine ⟨below_and e1 (below_and m3 l3), fun t ht => ?_, fun S T u hst hs hv => ?_⟩
  · rcases uses_and ht with g | g
    · exact .inl (e2 t g).1
    · refine .inr ?_
      rcases uses_and g with g | g
      · obtain ⟨c, hc, x, hx, e, _⟩ := mem_satBy.1 ((m2 t).1 g)
        exact ⟨c, hc, by have := lev_le_entry h hc.mem hx; omega⟩
      · have g := (l2 t).1 g
        obtain ⟨c, hc⟩ := leave_at t g
        exact ⟨c, hc, by have := leave_entry h hc g; omega⟩
  · rw [eval_and, eval_and, mask_leave h hs, (m4 _).2, e3 (chi T) (chi (enter nv cnf (i + 1) ++ S))]
    · rfl
    · intro t _ hn
      rw [c2] at hn
      rw [Bool.eq_iff_iff, chi_true, chi_true, hst t, List.mem_append]
      exact ⟨fun g => ⟨g.symm, hn⟩, fun g => g.1.symm⟩
    · exact hv _ fun t => by rw [chi_true, List.mem_append]
    · intro j hj
      exact chi_false.2 fun g => ((hst j).1 g).2 hj

theorem down_spec (h : Good nv cnf) {size : Cudd → Nat} {limit i : Nat} {f : Cudd} (hf : Keeps nv cnf (i + 1) f) (hu : ∀ t c, Uses t f → At cnf t c → i + 1 < entry nv c) :
    i + 1 ≤ nv → ∃ g, down nv cnf size limit i f = some g ∧ Keeps nv cnf i g ∧ ∀ t c, Uses t g → At cnf t c → i < entry nv c := by
  intro hi
  unfold down
  obtain ⟨l1, l2, l3, l4⟩ := lits_ok (b := false) (leave_at (nv := nv) (cnf := cnf) (i := i + 2))
  obtain ⟨b1, b2, b3, b4⟩ := lits_ok (b := true) (enter_at (nv := nv) (cnf := cnf) (i := i + 1))
  -- the first diagram
  have hf' : Below (cnf.length + 1) (if i + 2 ≤ nv then f.constrain (mask (leave nv cnf (i + 2))) else f) ∧
      (∀ t, Uses t (if i + 2 ≤ nv then f.constrain (mask (leave nv cnf (i + 2))) else f) → Uses t f) ∧
      ∀ S u, RS nv cnf (i + 1) S → Sem nv cnf (i + 1) S u → (if i + 2 ≤ nv then f.constrain (mask (leave nv cnf (i + 2))) else f).eval (chi S) = true := by
    split
    · obtain ⟨k1, k2, k3⟩ := constrain_main l1 l3 hf.below
      refine ⟨k1, k2, fun S u hr hs => ?_⟩
      rw [mask_eq, k3 (chi S) (chi S), hf.mem S u hr hs]
      · intro t ht
        exact chi_false.2 (sem_leave h hs t ((l2 t).1 ht))
      · intro t _ _; rfl
    · exact ⟨hf.below, fun t g => g, hf.mem⟩
  generalize (if i + 2 ≤ nv then f.constrain (mask (leave nv cnf (i + 2))) else f) = f1 at hf'
  obtain ⟨f1b, f1u, f1m⟩ := hf'
  dsimp only
  have f2b : Below (cnf.length + 1) (f1.and (cube (enter nv cnf (i + 1)))) := below_and f1b b3
  have f2u : ∀ t c, Uses t (f1.and (cube (enter nv cnf (i + 1)))) → At cnf t c → i < entry nv c := by
    intro t c ht hc
    rcases uses_and ht with g | g
    · have := hu t c (f1u t g) hc; omega
    · have := (mem_enter' h hc).1 ((b2 t).1 g); omega
  have f2m : ∀ S u, RS nv cnf (i + 1) S → Sem nv cnf (i + 1) S u → ∀ v, (∀ t, t ∈ enter nv cnf (i + 1) ∨ t ∈ S ↔ v t = true) → (f1.and (cube (enter nv cnf (i + 1)))).eval v = true := by
    intro S u hr hs v hv
    rw [eval_and, cube_eq, (b4 v).2 (fun j hj => (hv j).1 (.inl hj)), Bool.and_true, ← f1m S u hr hs]
    refine eval_congr fun t ht => ?_
    have hne : t ∉ enter nv cnf (i + 1) := by
      intro g
      obtain ⟨c, hc⟩ := enter_at t g
      have h1 := (mem_enter' h hc).1 g
      have h2 := hu t c (f1u t ht) hc
      omega
    rw [Bool.eq_iff_iff, chi_true, ← hv]
    exact ⟨fun g => g.resolve_left hne, .inr⟩
  generalize f1.and (cube (enter nv cnf (i + 1))) = f2 at f2b f2u f2m
  obtain ⟨p1, p2, p3⟩ := down_part h (i := i) (b := true) f2b
  obtain ⟨q1, q2, q3⟩ := down_part h (i := i) (b := false) f2b
  rw [cube_eq, cube_eq, mask_eq, mask_eq (js := nega nv cnf (i + 1))]
  have ep : satBy nv cnf true (i + 1) = posi nv cnf (i + 1) := rfl
  have eq : satBy nv cnf false (i + 1) = nega nv cnf (i + 1) := rfl
  rw [ep] at p1 p2 p3
  rw [eq] at q1 q2 q3
  generalize (f2.exist (lits true (posi nv cnf (i + 1)))).and ((lits false (posi nv cnf (i + 1))).and (mask (leave nv cnf (i + 1)))) = p at p1 p2 p3
  generalize (f2.exist (lits true (nega nv cnf (i + 1)))).and ((lits false (nega nv cnf (i + 1))).and (mask (leave nv cnf (i + 1)))) = q at q1 q2 q3
  have gk : Keeps nv cnf i (p.or q) := by
    refine ⟨below_or p1 q1, fun T u hr hs => ?_⟩
    rw [eval_or, Bool.or_eq_true]
    cases hr with
    | top => omega
    | step b hr hst =>
      rename_i S
      have hs0 : Sem nv cnf (i + 1) S fun t => if t = nv - i then b else u t :=
        (sem_step h hst (if_pos rfl)).2 (sem_congr h (fun t ht => by rw [if_neg (by omega)]) hs)
      cases b with
      | true => exact .inl (p3 S T u hst hs (f2m S _ hr hs0))
      | false => exact .inr (q3 S T u hst hs (f2m S _ hr hs0))
  have gu : ∀ t c, Uses t (p.or q) → At cnf t c → i < entry nv c := by
    intro t c ht hc
    rcases uses_or ht with g | g
    · rcases p2 t g with g | ⟨d, hd, g⟩
      · exact f2u t c g hc
      · rw [hc.unique hd]; exact g
    · rcases q2 t g with g | ⟨d, hd, g⟩
      · exact f2u t c g hc
      · rw [hc.unique hd]; exact g
  split
  · obtain ⟨k, e, k1, k2, k3⟩ := shrink_spec (size := size) (limit := limit) (cnf.length + 1) 0 (p.or q) gk.below (fun t _ => Nat.zero_le _) (Nat.le_refl _)
    exact ⟨k, e, ⟨k1, fun S u hr hs => k3 _ (gk.mem S u hr hs)⟩, fun t c ht hc => gu t c (k2 t ht) hc⟩
  · exact ⟨_, rfl, gk, gu⟩

theorem keeps_one {i : Nat} : Keeps nv cnf i (.const 1) := ⟨trivial, fun _ _ _ _ => rfl⟩

theorem traverseTD_spec (h : Good nv cnf) (size : Cudd → Nat) (limit : Nat) : ∀ k, k ≤ nv → ∃ g, traverseTD nv cnf size limit k = some g ∧ Keeps nv cnf (nv - k) g ∧ ∀ t c, Uses t g → At cnf t c → nv - k < entry nv c := by
  intro k
  induction k with
  | zero => intro _; exact ⟨_, rfl, keeps_one, fun t c ht => ht.elim⟩
  | succ k ih =>
    intro hk
    obtain ⟨f, e, k1, k2⟩ := ih (by omega)
    rw [traverseTD, e]
    have e' : nv - k = nv - (k + 1) + 1 := by omega
    rw [e'] at k1 k2
    exact down_spec h k1 k2 (by omega)

/-! ## From the bottom -/

theorem up_part (h : Good nv cnf) {i : Nat} {b : Bool} {f : Cudd} (hf : Keeps nv cnf i f) :
    Below (cnf.length + 1) ((f.constrain (lits false (satBy nv cnf b (i + 1)))).constrain (cube (enter nv cnf (i + 1)))) ∧
    ∀ S u, RS nv cnf (i + 1) S → Sem nv cnf (i + 1) S u → u (nv - i) = b → ((f.constrain (lits false (satBy nv cnf b (i + 1)))).constrain (cube (enter nv cnf (i + 1)))).eval (chi S) = true := by
  obtain ⟨m1, m2, m3, m4⟩ := lits_ok (b := false) (satBy_at (nv := nv) (cnf := cnf) (b := b) (i := i + 1))
  obtain ⟨c1, c2, c3, c4⟩ := lits_ok (b := true) (enter_at (nv := nv) (cnf := cnf) (i := i + 1))
  obtain ⟨j1, j2, j3⟩ := constrain_main m1 m3 hf.below
  obtain ⟨k1, k2, k3⟩ := constrain_main c1 c3 j1
  refine ⟨k1, fun S u hr hs hu => ?_⟩
  have hT : Stepped nv cnf b (i + 1) S ((S ++ enter nv cnf (i + 1)).filter fun t => decide (t ∉ satBy nv cnf b (i + 1))) := by
    intro y
    rw [List.mem_filter, List.mem_append, decide_eq_true_iff]
  generalize (S ++ enter nv cnf (i + 1)).filter (fun t => decide (t ∉ satBy nv cnf b (i + 1))) = T at hT
  rw [cube_eq, k3 (chi S) (chi (S ++ enter nv cnf (i + 1))), j3 (chi (S ++ enter nv cnf (i + 1))) (chi T)]
  · exact hf.mem T u (hr.step b hT) ((sem_step h hT hu).1 hs)
  · intro t ht
    exact chi_false.2 fun g => ((hT t).1 g).2 ((m2 t).1 ht)
  · intro t _ hn
    rw [m2] at hn
    rw [Bool.eq_iff_iff, chi_true, chi_true, hT t, List.mem_append]
    exact ⟨fun g => g.1, fun g => ⟨g, hn⟩⟩
  · intro t ht
    exact chi_true.2 (List.mem_append_right _ ((c2 t).1 ht))
  · intro t _ hn
    rw [c2] at hn
    rw [Bool.eq_iff_iff, chi_true, chi_true, List.mem_append]
    exact ⟨fun g => g.resolve_right hn, .inl⟩

theorem up_spec (h : Good nv cnf) {i : Nat} {f g : Cudd} (hf : Keeps nv cnf i f) (hg : Keeps nv cnf (i + 1) g) : Keeps nv cnf (i + 1) (up nv cnf (i + 1) f g) := by
  obtain ⟨p1, p2⟩ := up_part h (b := true) hf
  obtain ⟨q1, q2⟩ := up_part h (b := false) hf
  have key : ∀ (p : Cudd) (b : Bool), Below (cnf.length + 1) p → (∀ S u, RS nv cnf (i + 1) S → Sem nv cnf (i + 1) S u → u (nv - i) = b → p.eval (chi S) = true) →
      Below (cnf.length + 1) (if i + 1 < nv then p.and (mask (leave nv cnf (i + 1 + 1))) else p) ∧
      ∀ S u, RS nv cnf (i + 1) S → Sem nv cnf (i + 1) S u → u (nv - i) = b → (if i + 1 < nv then p.and (mask (leave nv cnf (i + 1 + 1))) else p).eval (chi S) = true := by
    intro p b hb hp
    split
    · refine ⟨below_and hb below_leave, fun S u hr hs hu => ?_⟩
      rw [eval_and, hp S u hr hs hu, mask_leave h hs]
      rfl
    · exact ⟨hb, hp⟩
  obtain ⟨p1, p2⟩ := key _ _ p1 p2
  obtain ⟨q1, q2⟩ := key _ _ q1 q2
  refine ⟨below_and hg.below (below_or p1 q1), fun S u hr hs => ?_⟩
  unfold up
  rw [eval_and, hg.mem S u hr hs, eval_or, Bool.true_and, Bool.or_eq_true]
  cases e : u (nv - i) with
  | true => exact .inl (p2 S u hr hs e)
  | false => exact .inr (q2 S u hr hs e)

theorem traverseBU_spec (h : Good nv cnf) {fs : Nat → Option Cudd} (hfs : ∀ i, i ≤ nv → ∃ g, fs i = some g ∧ Keeps nv cnf i g) : ∀ i, i ≤ nv → ∃ g, traverseBU nv cnf fs i = some g ∧ Keeps nv cnf i g := by
  intro i
  induction i with
  | zero => intro _; exact ⟨_, rfl, below_leave, fun S u _ hs => mask_leave h hs⟩
  | succ i ih =>
    intro hi
    obtain ⟨f, e, hf⟩ := ih (by omega)
    obtain ⟨g, e', hg⟩ := hfs (i + 1) hi
    rw [traverseBU, e, e']
    exact ⟨_, rfl, up_spec h hf hg⟩

/-- The analysis ends, and it is sound. -/
theorem traverse_spec (h : Good nv cnf) (size : Cudd → Nat) (limit : Nat) : ∀ i, i ≤ nv → ∃ g, traverse nv cnf size limit i = some g ∧ Keeps nv cnf i g := by
  refine traverseBU_spec h fun i hi => ?_
  split
  · obtain ⟨g, e, hg, _⟩ := traverseTD_spec h size limit (nv - i) (by omega)
    rw [show nv - (nv - i) = i by omega] at hg
    exact ⟨g, e, hg⟩
  · exact ⟨_, rfl, keeps_one⟩

theorem Keeps.sound {n : Nat} {g : Cudd} (hg : Keeps nv cnf n g) {w : List Nat} (hr : RS nv cnf n w) (hw : w.Pairwise (· < ·)) (e : badState g w = some true) : ∀ u, ¬ Sem nv cnf n w u := by
  intro u hu
  have := walk_sound (u := chi w) hg.below (ts := w.reverse) (List.pairwise_reverse.2 hw) (fun t _ => by rw [chi_true, List.mem_reverse]) e
  rw [hg.mem w u hr hu] at this
  exact nomatch this

/-- diagrams from which no needed set is missing -/
def Kept (nv : Nat) (cnf : List Clause) (fs : Nat → Cudd) : Prop := ∀ i, i ≤ nv → Keeps nv cnf i (fs i)

theorem Kept.sound {fs : Nat → Cudd} (h : Kept nv cnf fs) : Sound nv cnf fun level clauses => badState (fs level) clauses :=
  fun n _ hr hw e => (h n hr.le).sound hr hw e

/-- the same where undefined results are taken for false -/
theorem Kept.sound' {fs : Nat → Cudd} (h : Kept nv cnf fs) : Sound nv cnf fun level clauses => some ((badState (fs level) clauses).getD false) := by
  intro n w hr hw e
  refine (h n hr.le).sound hr hw ?_
  have e : (badState (fs n) w).getD false = true := Option.some.inj e
  cases g : badState (fs n) w with
  | none => rw [g] at e; cases e
  | some b => rw [g] at e; rw [show b = true from e]

theorem kept_one : Kept nv cnf fun _ => .const 1 := fun _ _ => keeps_one

theorem kept_traverse (h : Good nv cnf) {size : Cudd → Nat} {limit : Nat} {fs : Nat → Cudd} (hfs : ∀ i, i ≤ nv → traverse nv cnf size limit i = some (fs i)) : Kept nv cnf fs := by
  intro i hi
  obtain ⟨g, e, hg⟩ := traverse_spec h size limit i hi
  rw [hfs i hi] at e
  cases e
  exact hg

end CnfB

end TdZdd
