import Verif.CuddProofs
import Verif.Props.Cardinality
import Verif.Props.CnfZtdd
import Verif.Props.Iterator

/-! From the ternary diagram to the BDD, the numbers, and the output. -/

namespace TdZdd

namespace Cnf

/-- a literal at one of the levels `1..n` is satisfied -/
def SatA (u : Nat → Bool) (a : Asg 3) (n : Nat) : Prop := ∃ j, 1 ≤ j ∧ j ≤ n ∧ (((a j).val = 1 ∧ u j = false) ∨ ((a j).val = 2 ∧ u j = true))

/-- the terminal values and the node function of `ZtddToCudd` -/
def zTerm (value : Nat) : Cudd := if value ≠ 0 then Cudd.const 0 else Cudd.const 1

def zNode (level : Nat) (vs : Fin 3 → Cudd × Nat) : Cudd := Cudd.branch level (((vs 0).1).and (vs 2).1) (((vs 0).1).and (vs 1).1)

/-- The value of a node is the conjunction of the clauses that the node represents. -/
theorem fold_sat {T : Table 3} (hw : T.Wf) {f : NodeId} {v : Cudd} (h : FoldVal T zTerm zNode f v) (hv : T.Valid f) :
    v.Below (f.row + 1) ∧ ∀ u, v.eval u = true ↔ ∀ a, TMem T f.row f a → SatA u a f.row := by
  induction h with
  | @term f h0 =>
    rcases hv.row0 h0 with rfl | rfl
    · refine ⟨trivial, fun u => ⟨fun _ a ha => absurd ha not_tmem_zero, fun _ => rfl⟩⟩
    · refine ⟨trivial, fun u => ⟨fun e => (by cases e), fun g => ?_⟩⟩
      obtain ⟨j, j1, j2, _⟩ := g (fun _ => 0) (tmem_one.2 fun _ _ _ => rfl)
      have : j ≤ 0 := j2
      omega
  | @node f nd vs h0 hn _ ih =>
    have hc := fun b => hw.child h0 hn b
    have ih := fun b => ih b (hc b).1
    have hb : ∀ b, (vs b).Below f.row := fun b => (ih b).1.mono (by have := (hc b).2; omega)
    refine ⟨Cudd.below_branch h0 (Nat.lt_succ_self _) (Cudd.below_and (hb 0) (hb 2)) (Cudd.below_and (hb 0) (hb 1)), fun u => ?_⟩
    show (Cudd.branch f.row ((vs 0).and (vs 2)) ((vs 0).and (vs 1))).eval u = true ↔ _
    rw [Cudd.eval_branch, Cudd.eval_and, Cudd.eval_and]
    have down : (∀ a, TMem T f.row f a → SatA u a f.row) → ∀ b : Fin 3, ¬ ((b.val = 1 ∧ u f.row = false) ∨ (b.val = 2 ∧ u f.row = true)) → (vs b).eval u = true := by
      intro g b hno
      rw [(ih b).2 u]
      intro a ha
      have hlt := (hc b).2
      let a' : Asg 3 := fun j => if j ≤ (nd b).row then a j else if j = f.row then b else 0
      have e1 : a' f.row = b := by
        show (if _ then _ else _) = _
        rw [if_neg (by omega), if_pos rfl]
      have e2 : ∀ j, j ≤ (nd b).row → a' j = a j := fun j hj => if_pos hj
      have hm : TMem T f.row f a' := by
        rw [tmem_node h0 hn, e1, tmem_raise hw (m := (nd b).row) (Nat.le_refl _) (by omega)]
        refine ⟨fun j j1 j2 => ?_, tmem_congr hw (Nat.le_refl _) (fun j _ j2 => (e2 j j2).symm) ha⟩
        show (if _ then _ else if _ then _ else (0 : Fin 3)).val = 0
        rw [if_neg (by omega), if_neg (by omega)]
        rfl
      obtain ⟨j, j1, j2, hj⟩ := g a' hm
      by_cases hj2 : j ≤ (nd b).row
      · rw [e2 j hj2] at hj
        exact ⟨j, j1, hj2, hj⟩
      · by_cases hj3 : j = f.row
        · rw [hj3, e1] at hj
          exact absurd hj hno
        · have : a' j = 0 := by
            show (if _ then _ else if _ then _ else _) = _
            rw [if_neg hj2, if_neg hj3]
          rw [this] at hj
          rcases hj with hj | hj <;> exact absurd hj.1 (by decide)
    have up : ∀ a, TMem T f.row f a → (vs (a f.row)).eval u = true → SatA u a f.row := by
      intro a ha hv
      have hlt := (hc (a f.row)).2
      rw [tmem_node h0 hn, tmem_raise hw (m := (nd (a f.row)).row) (Nat.le_refl _) (by omega)] at ha
      obtain ⟨j, j1, j2, hj⟩ := ((ih _).2 u).1 hv a ha.2
      exact ⟨j, j1, by omega, hj⟩
    constructor
    · intro e a ha
      have hlt := (a f.row).isLt
      by_cases hu : u f.row = true
      · rw [if_pos hu, Bool.and_eq_true] at e
        by_cases h2 : (a f.row).val = 2
        · exact ⟨f.row, h0, Nat.le_refl _, .inr ⟨h2, hu⟩⟩
        · refine up a ha ?_
          by_cases h1 : (a f.row).val = 1
          · rw [show a f.row = 1 from Fin.ext h1]; exact e.2
          · rw [show a f.row = 0 from Fin.ext (by show _ = 0; omega)]; exact e.1
      · have hu' : u f.row = false := by simpa using hu
        rw [if_neg hu, Bool.and_eq_true] at e
        by_cases h2 : (a f.row).val = 1
        · exact ⟨f.row, h0, Nat.le_refl _, .inl ⟨h2, hu'⟩⟩
        · refine up a ha ?_
          by_cases h1 : (a f.row).val = 2
          · rw [show a f.row = 2 from Fin.ext h1]; exact e.2
          · rw [show a f.row = 0 from Fin.ext (by show _ = 0; omega)]; exact e.1
    · intro g
      have d0 := down g 0 (by rintro (h | h) <;> exact absurd h.1 (by decide))
      by_cases hu : u f.row = true
      · rw [if_pos hu, d0, down g 1 (by rintro (h | h); · rw [hu] at h; cases h.2
                                        · exact absurd h.1 (by decide))]
        rfl
      · rw [if_neg hu, d0, down g 2 (by rintro (h | h); · exact absurd h.1 (by decide)
                                        · exact hu h.2)]
        rfl

/-- the literals of the code of a clause are those of the clause -/
theorem satA_codes {nv : Nat} {u : Nat → Bool} {a : Asg 3} {c : Clause} (hc : ∀ x ∈ c, 1 ≤ x.natAbs ∧ x.natAbs ≤ nv) (h : Codes nv a c) : SatA u a nv ↔ ∃ x ∈ c, Lit (fun v => u (nv + 1 - v)) x := by
  constructor
  · rintro ⟨j, j1, j2, hj⟩
    obtain ⟨h1, h2⟩ := h (nv + 1 - j) (by omega) (by omega)
    rw [show nv + 1 - (nv + 1 - j) = j by omega] at h1 h2
    rcases hj with ⟨e, hu⟩ | ⟨e, hu⟩
    · refine ⟨_, h2.1 e, ?_⟩
      unfold Lit
      rw [if_neg (by omega), Int.natAbs_neg, Int.natAbs_natCast]
      show u (nv + 1 - (nv + 1 - j)) = false
      rw [show nv + 1 - (nv + 1 - j) = j by omega]
      exact hu
    · refine ⟨_, h1.1 e, ?_⟩
      unfold Lit
      rw [if_pos (by omega), Int.natAbs_natCast]
      show u (nv + 1 - (nv + 1 - j)) = true
      rw [show nv + 1 - (nv + 1 - j) = j by omega]
      exact hu
  · rintro ⟨x, hx, hl⟩
    obtain ⟨x1, x2⟩ := hc x hx
    obtain ⟨h1, h2⟩ := h x.natAbs x1 x2
    unfold Lit at hl
    dsimp only at hl
    refine ⟨nv + 1 - x.natAbs, by omega, by omega, ?_⟩
    split at hl
    · refine .inr ⟨h1.2 ?_, hl⟩
      rw [show (x.natAbs : Int) = x by omega]; exact hx
    · refine .inl ⟨h2.2 ?_, hl⟩
      rw [show -(x.natAbs : Int) = x by omega]; exact hx

theorem sat_iff {nv : Nat} {cs : List Clause} (h : Over nv cs) (u : Nat → Bool) : (∀ a, (∃ c ∈ cs, Codes nv a c) → SatA u a nv) ↔ Sat (fun v => u (nv + 1 - v)) cs := by
  constructor
  · intro g c hc
    by_cases ht : ∀ x ∈ c, -x ∉ c
    · obtain ⟨a, ha⟩ := (C75_one nv c ht).1
      exact (satA_codes (h c hc) ha).1 (g a ⟨c, hc, ha⟩)
    · have : ∃ x, x ∈ c ∧ -x ∈ c := Classical.byContradiction fun hne => ht fun x hx hx' => hne ⟨x, hx, hx'⟩
      obtain ⟨x, hx, hx'⟩ := this
      have h1 := (h c hc x hx).1
      by_cases hl : Lit (fun v => u (nv + 1 - v)) x
      · exact ⟨x, hx, hl⟩
      · refine ⟨-x, hx', ?_⟩
        unfold Lit at hl ⊢
        rw [Int.natAbs_neg]
        by_cases hp : 0 < x
        · rw [if_pos hp] at hl
          rw [if_neg (by omega)]
          simpa using hl
        · rw [if_neg hp] at hl
          rw [if_pos (by omega)]
          simpa using hl
  · rintro g a ⟨c, hc, ha⟩
    exact (satA_codes (h c hc) ha).2 (g c hc)

/-- the value of `evaluate` -/
theorem evaluate_sat {nv : Nat} {cs : List Clause} (h : Over nv cs) {D : Dd 3} (hD : Has nv (fun a => ∃ c ∈ cs, Codes nv a c) D) (h0 : D.table.row 0 = terminalRow 3) (hr : 0 < D.table.numRows) :
    ∃ f : Cudd, D.evaluate ztddToCudd (seqSched D) = some f ∧ f.Below (nv + 1) ∧ ∀ u, f.eval u = true ↔ Sat (fun v => u (nv + 1 - v)) cs := by
  obtain ⟨f, e, hf, _⟩ := C29_evaluate D hD.wf h0 hr zTerm zNode id (seqSched D) (seqSched_ok D)
  obtain ⟨h1, h2⟩ := fold_sat hD.wf.table hf hD.wf.root
  have hle := hD.le
  refine ⟨f, e, h1.mono (by omega), fun u => ?_⟩
  rw [h2, ← sat_iff h u]
  constructor
  · intro g a ha
    rw [← hD.mem, hD.wf.zddMem_iff, tmem_raise hD.wf.table (Nat.le_refl _) hle] at ha
    obtain ⟨j, j1, j2, hj⟩ := g a ha.2
    exact ⟨j, j1, by omega, hj⟩
  · intro g a ha
    let a' : Asg 3 := fun j => if j ≤ D.root.row then a j else 0
    have e2 : ∀ j, j ≤ D.root.row → a' j = a j := fun j hj => if_pos hj
    have hm : TMem D.table nv D.root a' := by
      rw [tmem_raise hD.wf.table (Nat.le_refl _) hle]
      refine ⟨fun j j1 j2 => ?_, tmem_congr hD.wf.table (Nat.le_refl _) (fun j _ j2 => (e2 j j2).symm) ha⟩
      show (if _ then _ else (0 : Fin 3)).val = 0
      rw [if_neg (by omega)]
      rfl
    rw [← hD.wf.zddMem_iff, hD.mem] at hm
    obtain ⟨j, j1, j2, hj⟩ := g a' hm
    by_cases hj2 : j ≤ D.root.row
    · rw [e2 j hj2] at hj
      exact ⟨j, j1, hj2, hj⟩
    · have : a' j = 0 := if_neg hj2
      rw [this] at hj
      rcases hj with hj | hj <;> exact absurd hj.1 (by decide)

/-! ## The number of clauses -/

/-- the values of the literals of a clause, from the level 1 up -/
def vec (nv : Nat) (c : Clause) : List (Fin 3) := (List.range nv).map fun i => if ((nv - i : Nat) : Int) ∈ c then 2 else if -((nv - i : Nat) : Int) ∈ c then 1 else 0

theorem vec_length {nv : Nat} {c : Clause} : (vec nv c).length = nv := by
  unfold vec
  rw [List.length_map, List.length_range]

theorem vec_at {nv : Nat} {c : Clause} {j : Nat} (h1 : 1 ≤ j) (h2 : j ≤ nv) : vecAsg (vec nv c) j = if ((nv + 1 - j : Nat) : Int) ∈ c then 2 else if -((nv + 1 - j : Nat) : Int) ∈ c then 1 else 0 := by
  unfold vecAsg vec
  rw [if_neg (by omega), List.getElem?_map, List.getElem?_range (by omega), Option.map_some, Option.getD_some, show nv - (j - 1) = nv + 1 - j by omega]

theorem vec_codes {nv : Nat} {c : Clause} (ht : ∀ x ∈ c, -x ∉ c) : Codes nv (vecAsg (vec nv c)) c := by
  intro v h1 h2
  rw [vec_at (by omega) (by omega), show nv + 1 - (nv + 1 - v) = v by omega]
  by_cases p : (v : Int) ∈ c
  · have := ht _ p
    rw [if_pos p]
    exact ⟨⟨fun _ => p, fun _ => rfl⟩, ⟨fun e => absurd e (by decide), fun e => absurd e this⟩⟩
  · rw [if_neg p]
    by_cases q : -(v : Int) ∈ c
    · rw [if_pos q]
      exact ⟨⟨fun e => absurd e (by decide), fun e => absurd e p⟩, ⟨fun _ => q, fun _ => rfl⟩⟩
    · rw [if_neg q]
      exact ⟨⟨fun e => absurd e (by decide), fun e => absurd e p⟩, ⟨fun e => absurd e (by decide), fun e => absurd e q⟩⟩

theorem InOrder.plain {nv : Nat} {c : Clause} (h : InOrder nv 1 c) : ∀ x ∈ c, -x ∉ c := by
  intro x hx hx'
  have h0 := (h.var x hx).1
  have key : ∀ (c : Clause), (c.Pairwise fun x y => x.natAbs < y.natAbs) → x ∈ c → -x ∈ c → False := by
    intro c
    induction c with
    | nil => intro _ h; cases h
    | cons y c ih =>
      intro hp h1 h2
      obtain ⟨p1, p2⟩ := List.pairwise_cons.1 hp
      rcases List.mem_cons.1 h1 with e1 | e1
      · rcases List.mem_cons.1 h2 with e2 | e2
        · omega
        · have := p1 _ e2; omega
      · rcases List.mem_cons.1 h2 with e2 | e2
        · have := p1 _ e1; omega
        · exact ih p2 e1 e2
  exact key c h.incr hx hx'

theorem prepare_nodup {nv : Nat} {R : List Clause} (h : Sorted nv 1 R) : R.Nodup := by
  refine h.lt.imp ?_
  intro a b hab e
  subst e
  rcases le_total a a with g | g <;> rw [g] at hab <;> cases hab

theorem vecAsg_ext {nv : Nat} {x y : List (Fin 3)} (hx : x.length = nv) (hy : y.length = nv) (h : ∀ j, 1 ≤ j → j ≤ nv → vecAsg x j = vecAsg y j) : x = y := by
  apply List.ext_getElem (by omega)
  intro i h1 h2
  have := h (i + 1) (by omega) (by omega)
  unfold vecAsg at this
  rw [if_neg (by omega), if_neg (by omega), Nat.add_sub_cancel, List.getElem?_eq_getElem h1, List.getElem?_eq_getElem h2] at this
  exact this

theorem count_clauses {nv : Nat} {cs : List Clause} (h : Over nv cs) : HasCount (fun l : List (Fin 3) => l.length = nv ∧ ∃ c ∈ cs, Codes nv (vecAsg l) c) (prepare cs).length := by
  obtain ⟨h1, h2⟩ := prepare_spec h
  have hback : ∀ d ∈ prepare cs, word nv (vecAsg (vec nv d)) nv = d := fun d hd => (word_eq_iff (h1.ok d hd)).2 (vec_codes (h1.ok d hd).plain)
  refine ⟨(prepare cs).map (vec nv), ?_, fun x => ?_, List.length_map _⟩
  · refine List.pairwise_map.2 ((prepare_nodup h1).imp_of_mem ?_)
    intro a b ha hb hab e
    refine hab ?_
    rw [← hback a ha, ← hback b hb, e]
  · rw [List.mem_map]
    constructor
    · rintro ⟨d, hd, rfl⟩
      refine ⟨vec_length, ?_⟩
      rw [← prepare_codes h, hback d hd]
      exact hd
    · rintro ⟨hx, hc⟩
      rw [← prepare_codes h] at hc
      refine ⟨_, hc, ?_⟩
      have hd := h1.ok _ hc
      exact vecAsg_ext vec_length hx fun j j1 j2 => (C75_one nv _ hd.plain).2 _ _ (vec_codes hd.plain) ((word_eq_iff hd).1 rfl) j j1 j2

theorem prepare_kinds {nv : Nat} {cs : List Clause} (h : Over nv cs) : Kinds cs (prepare cs) := by
  obtain ⟨h1, h2⟩ := prepare_spec h
  refine ⟨fun d hd => ?_, ?_, fun c hc ht => ?_⟩
  · obtain ⟨c, hc, e⟩ := (h2 d).1 hd
    obtain ⟨_, t2, t3⟩ := tidy_spec e (h c hc)
    exact ⟨c, hc, t3, t2⟩
  · refine (prepare_nodup h1).imp_of_mem ?_
    intro a b ha hb hab e
    exact hab (incr_ext (h1.ok a ha).incr (h1.ok b hb).incr e)
  · have : ∃ d, tidy c = some d := by
      unfold tidy
      rw [if_neg]
      · exact ⟨_, rfl⟩
      · intro g
        obtain ⟨x, hx, hx'⟩ := List.any_eq_true.1 g
        rw [List.contains_iff_mem] at hx'
        exact ht x hx hx'
    obtain ⟨d, e⟩ := this
    exact ⟨d, (h2 d).2 ⟨c, hc, e⟩, (tidy_spec e (h c hc)).2.1⟩

/-! ## The output -/

/-- the truth values of the variables for a set of levels -/
def truths (nv : Nat) (t : List Nat) : List Bool := (List.range nv).map fun k => decide (nv + 1 - (k + 1) ∈ t)

theorem truths_length {nv : Nat} {t : List Nat} : (truths nv t).length = nv := by
  unfold truths
  rw [List.length_map, List.length_range]

theorem truth_at {nv : Nat} {t : List Nat} {v : Nat} (h1 : 1 ≤ v) (h2 : v ≤ nv) : truth (truths nv t) v = decide (nv + 1 - v ∈ t) := by
  unfold truth truths
  rw [List.getD_eq_getElem?_getD, List.getElem?_map, List.getElem?_range (by omega), Option.map_some, Option.getD_some, show v - 1 + 1 = v by omega]

theorem intercalate_range {α : Type} (sep : List α) (g : Nat → List α) : ∀ n, List.intercalate sep ((List.range n).map g) = (List.range n).flatMap fun k => (if k + 1 ≠ 1 then sep else []) ++ g k := by
  intro n
  match n with
  | 0 => rfl
  | n + 1 =>
    rw [List.range_succ_eq_map, List.map_cons, List.flatMap_cons, List.map_map, List.flatMap_map]
    rw [if_neg (by decide), List.nil_append]
    have : ∀ (l : List Nat) (a : List α), List.intercalate sep (a :: l.map (g ∘ Nat.succ)) = a ++ l.flatMap fun k => (if Nat.succ k + 1 ≠ 1 then sep else []) ++ g (Nat.succ k) := by
      intro l
      induction l with
      | nil => intro a; simp
      | cons x l ih =>
        intro a
        rw [List.map_cons, List.intercalate_cons_cons, ih, List.flatMap_cons, if_pos (by omega)]
        simp
    exact this _ _

theorem flatMap_ext {α β : Type} {f g : α → List β} : ∀ {l : List α}, (∀ a ∈ l, f a = g a) → l.flatMap f = l.flatMap g := by
  intro l
  induction l with
  | nil => intro _; rfl
  | cons a l ih =>
    intro h
    rw [List.flatMap_cons, List.flatMap_cons, h a List.mem_cons_self, ih fun b hb => h b (List.mem_cons_of_mem _ hb)]

theorem outputLine_eq {nv : Nat} {t : List Nat} : outputLine nv t = modelText (truths nv t) := by
  unfold outputLine modelText
  rw [truths_length, intercalate_range]
  congr 1
  refine flatMap_ext fun k hk => ?_
  rw [List.mem_range] at hk
  rw [truth_at (by omega) (by omega)]
  by_cases hm : nv + 1 - (k + 1) ∈ t
  · rw [if_pos hm, if_pos (decide_eq_true hm)]; rfl
  · rw [if_neg hm, if_neg (fun g => hm (of_decide_eq_true g))]; rfl

theorem sat_congr {nv : Nat} {cs : List Clause} (h : Over nv cs) {u u' : Nat → Bool} (e : ∀ v, 1 ≤ v → v ≤ nv → u v = u' v) : Sat u cs → Sat u' cs := by
  intro g c hc
  obtain ⟨x, hx, hl⟩ := g c hc
  refine ⟨x, hx, ?_⟩
  have := h c hc x hx
  unfold Lit at hl ⊢
  rw [← e _ this.1 this.2]
  exact hl

/-- a set of levels with the given truth values -/
def levels (nv : Nat) (x : List Bool) : List Nat := ((List.range nv).map fun k => nv - k).filter fun l => truth x (nv + 1 - l)

theorem mem_levels {nv : Nat} {x : List Bool} {l : Nat} : l ∈ levels nv x ↔ 1 ≤ l ∧ l ≤ nv ∧ truth x (nv + 1 - l) = true := by
  unfold levels
  rw [List.mem_filter, List.mem_map]
  constructor
  · rintro ⟨⟨k, hk, rfl⟩, h⟩
    rw [List.mem_range] at hk
    exact ⟨by omega, by omega, h⟩
  · rintro ⟨h1, h2, h3⟩
    exact ⟨⟨nv - l, List.mem_range.2 (by omega), by omega⟩, h3⟩

theorem levels_sorted {nv : Nat} {x : List Bool} : (levels nv x).Pairwise (· > ·) := by
  unfold levels
  refine List.Pairwise.filter _ (List.pairwise_map.2 ?_)
  refine (List.pairwise_lt_range (n := nv)).imp_of_mem ?_
  intro a b ha hb hab
  rw [List.mem_range] at hb
  show nv - a > nv - b
  omega

theorem truths_levels {nv : Nat} {x : List Bool} (hx : x.length = nv) : truths nv (levels nv x) = x := by
  apply List.ext_getElem (by rw [truths_length, hx])
  intro i h1 h2
  have e : (truths nv (levels nv x))[i] = decide (nv + 1 - (i + 1) ∈ levels nv x) := by
    simp only [truths, List.getElem_map, List.getElem_range]
  rw [e]
  have : (nv + 1 - (i + 1) ∈ levels nv x) ↔ x[i] = true := by
    rw [mem_levels, show nv + 1 - (nv + 1 - (i + 1)) = i + 1 by omega]
    unfold truth
    rw [Nat.add_sub_cancel, List.getD_eq_getElem?_getD, List.getElem?_eq_getElem h2]
    exact ⟨fun h => h.2.2, fun h => ⟨by omega, by omega, h⟩⟩
  rw [Bool.eq_iff_iff, decide_eq_true_iff, this]

theorem desc_ext {x : List Nat} : ∀ {y : List Nat}, x.Pairwise (· > ·) → y.Pairwise (· > ·) → (∀ i, i ∈ x ↔ i ∈ y) → x = y := by
  induction x with
  | nil =>
    intro y _ _ h
    cases y with
    | nil => rfl
    | cons b y => exact absurd ((h b).2 List.mem_cons_self) List.not_mem_nil
  | cons a x ih =>
    intro y hx hy h
    cases y with
    | nil => exact absurd ((h a).1 List.mem_cons_self) List.not_mem_nil
    | cons b y =>
      obtain ⟨c1, c2⟩ := List.pairwise_cons.1 hx
      obtain ⟨d1, d2⟩ := List.pairwise_cons.1 hy
      have e : a = b := by
        rcases List.mem_cons.1 ((h a).1 List.mem_cons_self) with e | e
        · exact e
        · rcases List.mem_cons.1 ((h b).2 List.mem_cons_self) with e' | e'
          · exact e'.symm
          · have := d1 a e
            have := c1 b e'
            omega
      subst e
      rw [ih c2 d2 fun z => ?_]
      constructor
      · intro hz
        have := c1 z hz
        rcases List.mem_cons.1 ((h z).1 (List.mem_cons_of_mem _ hz)) with e | e
        · omega
        · exact e
      · intro hz
        have := d1 z hz
        rcases List.mem_cons.1 ((h z).2 (List.mem_cons_of_mem _ hz)) with e | e
        · omega
        · exact e

end Cnf

end TdZdd
