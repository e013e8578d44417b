import Verif.CnfBddAppProofs

/-!
# Property C82: the application `cnfbdd`

`File e text nv nc xs` and `numbers cs` are those of C77. `EnvOk` says that the two calls of `std::sort` permute their elements, and that the second one leaves them in the order of its comparator.
-/

namespace TdZdd

namespace CnfB

open Cnf

variable {nv : Nat}

/-- the sorts are sorts -/
structure EnvOk (env : Env) : Prop where
  order : ∀ l, (env.sortOrder l).Perm l
  relax : ∀ l, (env.sortRelax l).Perm l
  sorted : ∀ l, (env.sortRelax l).Pairwise fun a b => relaxLt b.2 a.2 = false

theorem mapM_some {α β : Type} {f : α → Option β} : ∀ {l : List α} {r : List β}, l.mapM f = some r → ∀ i : Nat, (l[i]?).elim (r[i]? = none) fun x => ∃ y, r[i]? = some y ∧ f x = some y := by
  intro l
  induction l with
  | nil =>
    intro r e i
    rw [List.mapM_nil] at e
    cases e
    rfl
  | cons x l ih =>
    intro r e i
    rw [List.mapM_cons] at e
    cases hx : f x with
    | none => rw [hx] at e; cases e
    | some y =>
      rw [hx] at e
      change (l.mapM f).bind _ = _ at e
      cases hl : l.mapM f with
      | none => rw [hl] at e; cases e
      | some ys =>
        rw [hl] at e
        cases e
        cases i with
        | zero => exact ⟨y, rfl, hx⟩
        | succ i => exact ih hl i

theorem mapM_total {α β : Type} {f : α → Option β} : ∀ {l : List α}, (∀ x ∈ l, ∃ y, f x = some y) → ∃ r, l.mapM f = some r := by
  intro l
  induction l with
  | nil => intro _; exact ⟨[], by rw [List.mapM_nil]; rfl⟩
  | cons x l ih =>
    intro h
    obtain ⟨y, hy⟩ := h x List.mem_cons_self
    obtain ⟨r, hr⟩ := ih fun z hz => h z (List.mem_cons_of_mem _ hz)
    exact ⟨y :: r, by rw [List.mapM_cons, hy]; show (l.mapM f).bind _ = _; rw [hr]; rfl⟩

theorem frontier_kept {cnf : List Clause} (h : Good nv cnf) {size : Cudd → Nat} {o : Option Nat} {fs : Nat → Cudd} (e : frontier nv cnf size o = some fs) : Kept nv cnf fs := by
  cases o with
  | none => cases e; exact kept_one
  | some limit =>
    obtain ⟨r, hr, e⟩ := Option.map_eq_some_iff.1 e
    refine kept_traverse h (size := size) (limit := limit) fun i hi => ?_
    have := mapM_some hr i
    rw [List.getElem?_range (by omega)] at this
    obtain ⟨y, e1, e2⟩ := this
    rw [← e]
    dsimp only
    rw [e1]
    exact e2

theorem frontier_total {cnf : List Clause} (h : Good nv cnf) (size : Cudd → Nat) (o : Option Nat) : ∃ fs, frontier nv cnf size o = some fs := by
  cases o with
  | none => exact ⟨_, rfl⟩
  | some limit =>
    obtain ⟨r, hr⟩ := mapM_total (f := traverse nv cnf size limit) (l := List.range (nv + 1)) fun i hi => C81_traverse nv cnf h size limit i (by have := List.mem_range.1 hi; omega)
    exact ⟨_, by show Option.map _ (List.mapM _ _) = _; rw [hr]; rfl⟩

theorem mem_order {env : Env} (he : EnvOk env) {sort : Bool} {cnf : List Clause} {c : Clause} : c ∈ order env.sortOrder sort cnf ↔ c ∈ cnf := by
  unfold order
  cases sort
  · exact Iff.rfl
  · show c ∈ unique _ ↔ _
    rw [mem_unique, (he.order cnf).mem_iff]

theorem uniqueFrom_length {α : Type} [DecidableEq α] {l : List α} : ∀ {x : α}, (uniqueFrom x l).length ≤ l.length + 1 := by
  induction l with
  | nil => intro x; exact Nat.le_refl _
  | cons y l ih =>
    intro x
    rw [uniqueFrom]
    split
    · exact Nat.le_trans ih (by rw [List.length_cons]; omega)
    · rw [List.length_cons, List.length_cons]
      exact Nat.succ_le_succ ih

theorem order_length {env : Env} (he : EnvOk env) {sort : Bool} {cnf : List Clause} : (order env.sortOrder sort cnf).length ≤ cnf.length := by
  unfold order
  cases sort
  · exact Nat.le_refl _
  · show (unique (env.sortOrder cnf)).length ≤ _
    rw [← (he.order cnf).length_eq]
    cases env.sortOrder cnf with
    | nil => exact Nat.le_refl _
    | cons x l => exact uniqueFrom_length

theorem order_good {env : Env} (he : EnvOk env) {sort : Bool} {cnf : List Clause} (h : Good nv cnf) : Good nv (order env.sortOrder sort cnf) :=
  ⟨fun c hc => h.ne c ((mem_order he).1 hc), fun c hc => h.ord c ((mem_order he).1 hc)⟩

theorem sat_mem {u : Nat → Bool} {cs ds : List Clause} (h : ∀ c, c ∈ cs ↔ c ∈ ds) : Sat u cs ↔ Sat u ds :=
  ⟨fun g c hc => g c ((h c).2 hc), fun g c hc => g c ((h c).1 hc)⟩

theorem good_over {cnf : List Clause} (h : Good nv cnf) : Over nv cnf := fun c hc => (h.ord c hc).var

theorem over_order {env : Env} (he : EnvOk env) {sort : Bool} {cnf : List Clause} (h : Over nv cnf) : Over nv (order env.sortOrder sort cnf) := fun c hc => h c ((mem_order he).1 hc)

/-- the parts of `runCnf` -/
theorem runCnf_main {env : Env} (he : EnvOk env) (o : Opts) {cnf : List Clause} (h : Good nv cnf) (hne : cnf ≠ []) (hn : cnf.length ≤ 65535) (hv : 0 < nv) :
    ∃ sp q, (∀ fuel steps, runCnf env o nv cnf fuel steps = run nv sp fuel steps) ∧ Mends sp q ∧ (o.limit = none → build sp = build q) ∧ Lawful q ∧ (∀ s t, q.merge s t = 0) ∧ q.root.1 = nv ∧ ∀ a : Asg 2, BddSat q a ↔ Sat (val nv a) cnf := by
  have hg := order_good he (sort := o.sort) h
  have hlen : (order env.sortOrder o.sort cnf).length ≤ 65535 := Nat.le_trans (order_length he) hn
  have hne' : order env.sortOrder o.sort cnf ≠ [] := by
    obtain ⟨c, cs, rfl⟩ := List.exists_cons_of_ne_nil hne
    exact List.ne_nil_of_mem ((mem_order he).2 List.mem_cons_self)
  obtain ⟨cm, e1, hm, _⟩ := clauseMap_ok hg hne' (he.relax _) (he.sorted _)
  obtain ⟨fs, e2⟩ := frontier_total hg env.size o.limit
  obtain ⟨m1, m2⟩ := mended_main (useMap := o.useMap) (hash := env.hash) hv hg hlen hm (frontier_kept hg e2)
  refine ⟨spec nv _ fs o.useMap cm env.hash, mended nv _ fs o.useMap cm env.hash, fun fuel steps => ?_, mends, fun hl => ?_, m1, fun _ _ => rfl, ?_, fun a => ?_⟩
  · unfold runCnf
    dsimp only
    rw [e1]
    show (frontier nv _ env.size o.limit).bind _ = _
    rw [e2]
    rfl
  · rw [hl] at e2
    cases e2
    have : spec nv (order env.sortOrder o.sort cnf) (fun _ => .const 1) o.useMap cm env.hash = mended nv (order env.sortOrder o.sort cnf) (fun _ => .const 1) o.useMap cm env.hash := by
      unfold spec mended
      congr 1
    rw [this]
  · unfold mended
    rw [spec_root hv]
  · rw [m2]
    exact sat_mem fun c => mem_order he

/-! ## From the file -/

theorem read_stored {gar : Option Int → Option Int} {e text : List Char} {cs : List Clause} (hf : File e text nv cs.length (numbers cs)) (h : Over nv cs) (h0 : ∀ c ∈ cs, c ≠ []) (v1 : 1 ≤ nv) (v2 : nv ≤ 2147483647) (hne : cs ≠ [])
    (c2 : cs.length ≤ 2147483647) (he : Stop e ∨ e = [] ∧ gar (some 0) = some 0) : readDimacs gar text = .ok (nv, cs.filterMap tidy) := by
  have e0 : solid cs = cs := List.filter_eq_self.2 fun c hc => decide_eq_true (h0 c hc)
  obtain ⟨fuel, b, s, eo, q1, q2, q3, q4⟩ := read_clauses (gar := gar) hf h v1 v2 (List.length_pos_iff.2 hne) c2 (by rw [e0]; exact Nat.le_refl _)
  have key : readClauses gar nv cs.length fuel ((numbers cs).getLast?.or none) [] ((solid cs).filterMap tidy) (solid cs).length ⟨b, s ++ e, eo, false⟩ = .ok ((solid cs).filterMap tidy, (solid cs).length) := by
    rcases he with he | ⟨rfl, hg⟩
    · rw [clauses_stop q2 he q3 q1, if_pos rfl]
    · rw [List.append_nil] at q3 ⊢
      rw [clauses_end q2 q3 q1, numbers_last hne]
      show (gar (some 0)).elim _ _ = _
      rw [hg]
      rfl
  rw [q4, key, e0]
  exact if_neg (Int.lt_irrefl _)

/-- a clause with a literal and its negation is always satisfied -/
theorem sat_tidy {cs : List Clause} (h : Over nv cs) {u : Nat → Bool} : Sat u (cs.filterMap tidy) ↔ Sat u cs := by
  constructor
  · intro g c hc
    cases e : tidy c with
    | some d =>
      obtain ⟨x, hx, hl⟩ := g d (List.mem_filterMap.2 ⟨c, hc, e⟩)
      exact ⟨x, ((tidy_spec e (h c hc)).2.1 x).1 hx, hl⟩
    | none =>
      unfold tidy at e
      split at e
      · rename_i ht
        obtain ⟨x, hx, hx'⟩ := List.any_eq_true.1 ht
        rw [List.contains_iff_mem] at hx'
        have h1 := (h c hc x hx).1
        by_cases hl : Lit u x
        · exact ⟨x, hx, hl⟩
        · refine ⟨-x, hx', ?_⟩
          rw [lit_iff] at hl ⊢
          rw [Int.natAbs_neg]
          cases hu : u x.natAbs with
          | true =>
            rw [hu, decide_eq_true_iff] at hl
            exact decide_eq_true (by omega)
          | false =>
            rw [hu] at hl
            refine decide_eq_false fun g => hl (decide_eq_false (by omega))
      · cases e
  · intro g d hd
    obtain ⟨c, hc, e⟩ := List.mem_filterMap.1 hd
    obtain ⟨x, hx, hl⟩ := g c hc
    exact ⟨x, ((tidy_spec e (h c hc)).2.1 x).2 hx, hl⟩

theorem good_tidy {cs : List Clause} (h : Over nv cs) (h0 : ∀ c ∈ cs, c ≠ []) : Good nv (cs.filterMap tidy) := by
  refine ⟨fun d hd => ?_, fun d hd => ?_⟩
  · obtain ⟨c, hc, e⟩ := List.mem_filterMap.1 hd
    obtain ⟨x, l, rfl⟩ := List.exists_cons_of_ne_nil (h0 c hc)
    exact List.ne_nil_of_mem (((tidy_spec e (h _ hc)).2.1 x).2 List.mem_cons_self)
  · obtain ⟨c, hc, e⟩ := List.mem_filterMap.1 hd
    exact (tidy_spec e (h c hc)).1

theorem app_eq {gar : Option Int → Option Int} {env : Env} {o : Opts} {e text : List Char} {cs : List Clause} (hf : File e text nv cs.length (numbers cs)) (h : Over nv cs) (h0 : ∀ c ∈ cs, c ≠ []) (v1 : 1 ≤ nv) (v2 : nv ≤ 2147483647)
    (hne : cs ≠ []) (c2 : cs.length ≤ 2147483647) (hs : Stop e ∨ e = [] ∧ gar (some 0) = some 0) (fuel steps : Nat) : cnfbdd gar env o text fuel steps = (runCnf env o nv (cs.filterMap tidy) fuel steps).elim .ub .ok := by
  unfold cnfbdd
  rw [read_stored hf h h0 v1 v2 hne c2 hs]
  rfl

/-- C82: for every file with at most 65535 clauses and for all options: if the application ends without undefined behaviour, the number that it prints is the number of truth assignments that satisfy all clauses, and its output has exactly one line for each of them. -/
theorem _root_.TdZdd.C82_sound (gar : Option Int → Option Int) (env : Env) (he : EnvOk env) (o : Opts) (e text : List Char) (nv : Nat) (cs : List Clause) (hf : File e text nv cs.length (numbers cs)) (h : Over nv cs) (h0 : ∀ c ∈ cs, c ≠ [])
    (v1 : 1 ≤ nv) (v2 : nv ≤ 2147483647) (hne : cs ≠ []) (c2 : cs.length ≤ 65535) (hs : Stop e ∨ e = [] ∧ gar (some 0) = some 0) (fuel steps : Nat) (card : String) (out : List Char) (hr : cnfbdd gar env o text fuel steps = .ok (card, out)) :
    ∃ L : List (List Bool), L.Nodup ∧ (∀ x, x ∈ L ↔ x.length = nv ∧ Sat (truth x) cs) ∧ card = toString L.length ∧ out = L.flatMap modelText := by
  rw [app_eq hf h h0 v1 v2 hne (by omega) hs] at hr
  have hr' : runCnf env o nv (cs.filterMap tidy) fuel steps = some (card, out) := by
    cases g : runCnf env o nv (cs.filterMap tidy) fuel steps with
    | none => rw [g] at hr; cases hr
    | some r => rw [g] at hr; cases hr; rfl
  have hg := good_tidy h h0
  by_cases hne' : cs.filterMap tidy = []
  · rw [hne'] at hr'
    have e1 : order env.sortOrder o.sort ([] : List Clause) = [] := by
      apply List.eq_nil_iff_forall_not_mem.2
      intro c hc
      cases (mem_order he).1 hc
    unfold runCnf at hr'
    dsimp only at hr'
    rw [e1] at hr'
    have e2 : env.sortRelax (revClauses 1 []) = [] := List.Perm.eq_nil (he.relax [])
    rw [e2] at hr'
    cases hr'
  · obtain ⟨sp, q, p1, p2, _, p4, p5, p6, p7⟩ := runCnf_main he o hg hne' (Nat.le_trans (List.length_filterMap_le _ _) c2) v1
    rw [p1] at hr'
    exact (run_main h p2 p4 p5 p6 fun a => (p7 a).trans (sat_tidy h)).1 fuel steps card out hr'

/-- C82: with the option `-n` the application ends for every such file with at most 62 variables in which not all clauses are tautologies. -/
theorem _root_.TdZdd.C82_ends (gar : Option Int → Option Int) (env : Env) (he : EnvOk env) (o : Opts) (ho : o.limit = none) (e text : List Char) (nv : Nat) (cs : List Clause) (hf : File e text nv cs.length (numbers cs)) (h : Over nv cs)
    (h0 : ∀ c ∈ cs, c ≠ []) (v1 : 1 ≤ nv) (v2 : nv ≤ 62) (ht : ∃ c ∈ cs, ∀ x ∈ c, -x ∉ c) (c2 : cs.length ≤ 65535) (hs : Stop e ∨ e = [] ∧ gar (some 0) = some 0) : ∃ fuel steps r, cnfbdd gar env o text fuel steps = .ok r := by
  obtain ⟨c, hc, ht⟩ := ht
  have hne : cs ≠ [] := List.ne_nil_of_mem hc
  have hne' : cs.filterMap tidy ≠ [] := by
    cases e : tidy c with
    | some d => exact List.ne_nil_of_mem (List.mem_filterMap.2 ⟨c, hc, e⟩)
    | none =>
      unfold tidy at e
      split at e
      · rename_i g
        obtain ⟨x, hx, hx'⟩ := List.any_eq_true.1 g
        rw [List.contains_iff_mem] at hx'
        exact absurd hx' (ht x hx)
      · cases e
  obtain ⟨sp, q, p1, p2, p3, p4, p5, p6, p7⟩ := runCnf_main he o (good_tidy h h0) hne' (Nat.le_trans (List.length_filterMap_le _ _) c2) v1
  obtain ⟨fuel, steps, r, er⟩ := (run_main h p2 p4 p5 p6 fun a => (p7 a).trans (sat_tidy h)).2.1 v2 (p3 ho)
  refine ⟨fuel, steps, r, ?_⟩
  rw [app_eq hf h h0 v1 (by omega) hne (by omega) hs, p1, er]
  rfl

/-- C82: if all clauses of the file are tautologies then the behaviour is undefined, for all options. -/
theorem _root_.TdZdd.C82_tautologies_false (gar : Option Int → Option Int) (env : Env) (he : EnvOk env) (o : Opts) (e text : List Char) (nv : Nat) (cs : List Clause) (hf : File e text nv cs.length (numbers cs)) (h : Over nv cs)
    (h0 : ∀ c ∈ cs, c ≠ []) (v1 : 1 ≤ nv) (v2 : nv ≤ 2147483647) (hne : cs ≠ []) (ht : ∀ c ∈ cs, ∃ x ∈ c, -x ∈ c) (c2 : cs.length ≤ 65535) (hs : Stop e ∨ e = [] ∧ gar (some 0) = some 0) (fuel steps : Nat) :
    cnfbdd gar env o text fuel steps = .ub := by
  have hnil : cs.filterMap tidy = [] := by
    apply List.eq_nil_iff_forall_not_mem.2
    intro d hd
    obtain ⟨c, hc, e⟩ := List.mem_filterMap.1 hd
    obtain ⟨x, hx, hx'⟩ := ht c hc
    exact (tidy_spec e (h c hc)).2.2 x hx hx'
  have e1 : order env.sortOrder o.sort ([] : List Clause) = [] := by
    apply List.eq_nil_iff_forall_not_mem.2
    intro c hc
    cases (mem_order he).1 hc
  rw [app_eq hf h h0 v1 v2 hne (by omega) hs, hnil]
  unfold runCnf
  dsimp only
  have e2 : env.sortRelax (revClauses 1 []) = [] := List.Perm.eq_nil (he.relax [])
  rw [e1, e2]
  rfl

/-- the diagram of the variable at the lowest level -/
def lowVar : Dd 2 := mkDd [[nd2 .zero .one]] ⟨1, 0⟩

theorem lowVar_wf : lowVar.Wf := wf_of_check (by decide +kernel)

theorem lowVar_sat (a : Asg 2) : BddSat lowVar.spec a ↔ (a 1).val ≠ 0 := by
  unfold BddSat
  rw [show lowVar.spec.root = (((1 : Nat) : Int), ⟨1, 0⟩) from rfl, bddSatAt_pos (by decide)]
  rcases (by omega : (a 1).val = 0 ∨ (a 1).val = 1) with g | g
  · rw [show a 1 = 0 from Fin.ext g, show lowVar.spec.child ⟨1, 0⟩ 1 0 = (0, .zero) from rfl]
    exact ⟨fun k => absurd k bddSatAt_zero, fun k => absurd rfl k⟩
  · rw [show a 1 = 1 from Fin.ext g, show lowVar.spec.child ⟨1, 0⟩ 1 1 = (-1, .one) from rfl]
    exact ⟨fun _ => by decide, fun _ => bddSatAt_neg (by decide)⟩

/-- C82: for 127 variables or more and the last variable as the only clause, counting the solutions writes outside of its storage, whatever the options are. -/
theorem _root_.TdZdd.C82_overflow_false (gar : Option Int → Option Int) (env : Env) (he : EnvOk env) (o : Opts) (e text : List Char) (nv : Nat) (hf : File e text nv 1 (numbers [[(nv : Int)]])) (v1 : 127 ≤ nv) (v2 : nv ≤ 2147483647)
    (hs : Stop e ∨ e = [] ∧ gar (some 0) = some 0) (fuel steps : Nat) : cnfbdd gar env o text fuel steps = .ub := by
  have h : Over nv [[(nv : Int)]] := by
    intro c hc x hx
    rw [List.mem_singleton.1 hc, List.mem_singleton] at hx
    omega
  have h0 : ∀ c ∈ [[(nv : Int)]], c ≠ [] := fun c hc => by rw [List.mem_singleton.1 hc]; exact List.cons_ne_nil _ _
  have ht : ([[(nv : Int)]] : List Clause).filterMap tidy ≠ [] := by
    have : tidy [(nv : Int)] ≠ none := by
      unfold tidy
      rw [if_neg]
      · exact fun h => nomatch h
      · intro g
        obtain ⟨x, hx, hx'⟩ := List.any_eq_true.1 g
        rw [List.contains_iff_mem, List.mem_singleton] at hx'
        rw [List.mem_singleton] at hx
        omega
    cases e : tidy [(nv : Int)] with
    | none => exact absurd e this
    | some d => exact List.ne_nil_of_mem (List.mem_filterMap.2 ⟨_, List.mem_cons_self, e⟩)
  obtain ⟨sp, q, p1, p2, _, p4, p5, p6, p7⟩ := runCnf_main he o (good_tidy h h0) ht (Nat.le_trans (List.length_filterMap_le _ _) (by show 1 ≤ 65535; decide)) (by omega)
  have := (run_main h p2 p4 p5 p6 fun a => (p7 a).trans (sat_tidy h)).2.2 1 (by rw [show 1 + 63 * maxWords 2 1 = 127 by decide]; exact v1) ⟨lowVar, lowVar_wf, Nat.le_refl _, fun a => ?_⟩ fuel steps
  · rw [app_eq hf h h0 (by omega) v2 (List.cons_ne_nil _ _) (by show 1 ≤ _; omega) hs, p1, this]
    rfl
  · rw [lowVar_sat]
    have e1 : val nv a nv = true ↔ (a 1).val ≠ 0 := by
      unfold val
      rw [decide_eq_true_iff, show nv + 1 - nv = 1 by omega]
    rw [← e1]
    constructor
    · intro g c hc
      rw [List.mem_singleton.1 hc]
      refine ⟨_, List.mem_cons_self, ?_⟩
      unfold Lit
      rw [if_pos (by omega)]
      exact g
    · intro g
      obtain ⟨x, hx, hl⟩ := g _ List.mem_cons_self
      rw [List.mem_singleton.1 hx] at hl
      unfold Lit at hl
      rw [if_pos (by omega)] at hl
      exact hl

/-! ## Examples -/

/-- insertion sorts -/
def plain : Env where
  sortOrder := isort orderLt
  sortRelax := isort fun a b => relaxLt a.2 b.2
  size _ := 0
  hash _ := 0

/-- the text of `apps/cnfbdd/example.cnf` -/
def exampleText : List Char := "c (x1 | x3) & (~x2 | x3) & (~x1 | x2)\np cnf 3 3\n1 3 0\n-2 3 0\n-1 2 0\n".toList

theorem exampleRead : readDimacs keeps exampleText = .ok (3, sampleCnf) := by decide +kernel

theorem app_of {gar : Option Int → Option Int} {env : Env} {o : Opts} {text : List Char} {fuel steps : Nat} {cnf : List Clause} {r : Option (String × List Char)} (e1 : readDimacs gar text = .ok (nv, cnf)) (e2 : runCnf env o nv cnf fuel steps = r) :
    cnfbdd gar env o text fuel steps = r.elim .ub .ok := by
  unfold cnfbdd
  rw [e1, ← e2]
  rfl

/-- the option `-limit 1000` on `example.cnf`: three solutions -/
example : cnfbdd keeps plain ⟨false, true, some 1000⟩ exampleText 20 20 = .ok ("3", "-1 -2 +3\n-1 +2 +3\n+1 +2 +3\n".toList) :=
  app_of exampleRead (r := some ("3", "-1 -2 +3\n-1 +2 +3\n+1 +2 +3\n".toList)) (by decide +kernel)

/-- the options `-s` and `-limit 1000` on `example.cnf`: the walk in `badState` leaves the array -/
example : cnfbdd keeps plain ⟨true, true, some 1000⟩ exampleText 20 20 = .ub :=
  app_of exampleRead (r := none) (by decide +kernel)

/-- the options `-s` and `-n` -/
example : runCnf plain ⟨true, true, none⟩ 3 sampleCnf 20 20 = some ("3", "-1 -2 +3\n-1 +2 +3\n+1 +2 +3\n".toList) := by decide +kernel

/-- the options `-n` and `-c` -/
example : cnfbdd keeps plain ⟨false, false, none⟩ exampleText 20 20 = .ok ("3", "-1 -2 +3\n-1 +2 +3\n+1 +2 +3\n".toList) :=
  app_of exampleRead (r := some ("3", "-1 -2 +3\n-1 +2 +3\n+1 +2 +3\n".toList)) (by decide +kernel)

/-- the option `-limit 1000`: the walk in `badState` leaves the array -/
example : runCnf plain ⟨false, true, some 1000⟩ 3 pair 20 20 = none := by decide +kernel

theorem relax_total : ∀ a b : List Int, relaxLt b a = false ∨ relaxLt a b = false := by
  intro a
  induction a with
  | nil => intro b; exact .inr rfl
  | cons x a ih =>
    intro b
    cases b with
    | nil => exact .inl rfl
    | cons y b =>
      rw [relaxLt, relaxLt]
      by_cases h : x.natAbs = y.natAbs
      · by_cases h' : x = y
        · subst h'
          simpa using ih b
        · rw [if_neg (show ¬ y.natAbs ≠ x.natAbs by omega), if_neg (show ¬ x.natAbs ≠ y.natAbs by omega), if_pos (show y ≠ x by omega), if_pos h', decide_eq_false_iff_not, decide_eq_false_iff_not]
          omega
      · rw [if_pos (by omega), if_pos (by omega), decide_eq_false_iff_not, decide_eq_false_iff_not]
        omega

theorem relax_trans : ∀ a b c : List Int, relaxLt b a = false → relaxLt c b = false → relaxLt c a = false := by
  intro a
  induction a with
  | nil =>
    intro b c h1 h2
    cases c with
    | nil => rfl
    | cons z c =>
      cases b with
      | nil => cases h2
      | cons y b => cases h1
  | cons x a ih =>
    intro b c h1 h2
    cases c with
    | nil => rfl
    | cons z c =>
      cases b with
      | nil => cases h2
      | cons y b =>
        rw [relaxLt] at h1 h2 ⊢
        by_cases p1 : y.natAbs = x.natAbs
        · by_cases p2 : z.natAbs = y.natAbs
          · rw [if_neg (by omega)] at h1 h2 ⊢
            by_cases q1 : y = x
            · rw [if_neg (by omega)] at h1
              subst q1
              by_cases q2 : z = y
              · rw [if_neg (by omega)] at h2 ⊢
                exact ih b c h1 h2
              · rw [if_pos q2] at h2 ⊢
                exact h2
            · rw [if_pos q1, decide_eq_false_iff_not] at h1
              by_cases q2 : z = y
              · subst q2
                rw [if_pos q1, decide_eq_false_iff_not]
                exact h1
              · rw [if_pos q2, decide_eq_false_iff_not] at h2
                rw [if_pos (by omega), decide_eq_false_iff_not]
                omega
          · rw [if_pos p2, decide_eq_false_iff_not] at h2
            rw [if_pos (by omega), decide_eq_false_iff_not]
            omega
        · rw [if_pos p1, decide_eq_false_iff_not] at h1
          by_cases p2 : z.natAbs = y.natAbs
          · rw [if_pos (by omega), decide_eq_false_iff_not]
            omega
          · rw [if_pos p2, decide_eq_false_iff_not] at h2
            rw [if_pos (by omega), decide_eq_false_iff_not]
            omega

/-- insertion sorts meet the requirements -/
example : EnvOk plain where
  order _ := isort_perm
  relax _ := isort_perm
  sorted _ := isort_sorted (fun a b c => relax_trans a.2 b.2 c.2) (fun a b => relax_total a.2 b.2)

end CnfB

end TdZdd
