import Verif.SapporoLibProofs2
import Verif.Pipeline
import Verif.SampleDds
import Verif.RunDec

/-!
# Properties C78 and C79: the interface to SAPPOROBDD

`o.Ok` says that variables and levels of SAPPOROBDD correspond one to one. `f.Mem n S` says that the set of the levels `1..n-1` given by `S` belongs to the family of the ZDD `f`, `f.eval S` is the value of the BDD `f`. `f.Below n`: the diagram is ordered and
its levels are less than `n`. `up offset a` and `low offset S` move levels up and down by `offset`.
-/

namespace TdZdd

namespace Sap

/-! ## C78: `SapporoZdd`, `SapporoBdd` -/

/-- C78: `SapporoZdd` obeys the rules for specifications (no assertion fails, every loop ends, SAPPOROBDD is only asked for existing variables and levels), and its members are the sets of the ZDD without levels up to the offset, moved down by the offset. The
offset is not negative; and if the ZDD uses levels up to the offset, then their variables have the same numbers as the levels. -/
theorem _root_.TdZdd.C78_zdd (o : VarOrder) (ho : o.Ok) (hash : Zb → Nat) (f : Zb) (hf : f.Below (o.used + 1)) (offset : Nat) (hp : ∀ t, f.Uses t → t ≤ offset → o.var t = t) :
    LawfulC (sapporoZdd o hash f offset) ∧ (sapporoZdd o hash f offset).root.1 ≤ (o.used - offset : Nat) ∧
    ∀ n a, o.used ≤ n + offset → (ZddMem (sapporoZdd o hash f offset) n a ↔ f.Mem (n + offset + 1) (up offset a)) := sapporoZdd_main ho hash hf hp

/-- C78: the diagram made of it -/
theorem _root_.TdZdd.C78_zdd_diagram (o : VarOrder) (ho : o.Ok) (hash : Zb → Nat) (f : Zb) (hf : f.Below (o.used + 1)) (offset n : Nat) (hn : o.used ≤ n + offset) (hp : ∀ t, f.Uses t → t ≤ offset → o.var t = t) :
    ∃ D D', build (sapporoZdd o hash f offset) = some D ∧ Has n (fun a => f.Mem (n + offset + 1) (up offset a)) D ∧ D.zddReduce = some D' ∧ Has n (fun a => f.Mem (n + offset + 1) (up offset a)) D' := by
  obtain ⟨h1, h2, h3⟩ := C78_zdd o ho hash f hf offset hp
  obtain ⟨D, e, h⟩ := has_build h1.lawful (fun _ _ => rfl) (by omega) (fun a => h3 n a hn)
  obtain ⟨D', e', h'⟩ := h.reduce
  exact ⟨D, D', e, h, e', h'⟩

/-- two variables; variable 1 has level 2 -/
def swapped : VarOrder := ⟨2, fun v => 3 - v, fun l => 3 - l⟩

theorem swapped_ok : swapped.Ok := ⟨fun l h0 hl => by simp only [swapped] at *; omega, fun l h0 hl => by simp only [swapped] at *; omega⟩

/-- the family of the empty set and the set of level 1 -/
def some1 : Zb := .node 1 (.leaf true) (.leaf true)

/-- C78: the condition on the variables is necessary: the loop `while (BDD_LevOfVar(f.Top()) >= 1) f = f.OffSet(BDD_VarOfLev(f.Top()))` asks for the variable of the *level* `f.Top()`, which is a variable. With other orders of the variables it goes on forever. -/
theorem _root_.TdZdd.C78_order_false : (∀ fuel, strip swapped fuel some1 = none) ∧ zLevel swapped 2 some1 = none ∧ swapped.Ok ∧ some1.Below 3 := by
  refine ⟨fun fuel => ?_, by decide +kernel, swapped_ok, by decide, by decide, trivial, trivial⟩
  induction fuel with
  | zero => rfl
  | succ k ih => exact ih

/-- C78: but if the loop ends, its result is right, for every order of the variables: the constant that says whether the empty set is a member. -/
theorem _root_.TdZdd.C78_loop (o : VarOrder) (ho : o.Ok) (f : Zb) (hf : f.Below (o.used + 1)) (fuel : Nat) (g : Zb) (h : strip o fuel f = some g) :
    ∃ b, g = .leaf b ∧ (b = true ↔ f.Mem (o.used + 1) (fun _ => false)) := by
  obtain ⟨b, e, hb⟩ := strip_some ho fuel hf h
  exact ⟨b, e, by rw [hb, emp_iff]⟩

/-- a loop that ends for the swapped variables: after removing the sets with level 1, only the empty set remains -/
example : strip swapped 3 (.node 2 (.leaf true) (.node 1 (.leaf false) (.leaf true))) = some (.leaf true) := by decide +kernel

/-- C78: with a negative offset the rules are broken for every ZDD: the constants get the positive level `-offset`. -/
theorem _root_.TdZdd.C78_negative_false (o : VarOrder) (ho : o.Ok) (hash : Zb → Nat) (f : Zb) (hf : f.Below (o.used + 1)) (offset : Int) (hneg : offset < 0) : ¬ Desc (sapporoZdd o hash f offset) := by
  intro hd
  have hz : ∀ {g : Zb}, g.Below (o.used + 1) → ∃ k : Nat, o.levOfVar (g.top o) = some k ∧ zLevel o offset g = some ((k : Int) - offset, g) ∧ (k = 0 ∧ (∃ b, g = .leaf b) ∨ ∃ lo hi, g = .node k lo hi) := by
    intro g hg
    cases g with
    | leaf b =>
      refine ⟨0, rfl, ?_, Or.inl ⟨rfl, b, rfl⟩⟩
      unfold zLevel
      rw [top_leaf, Option.bind_some, if_pos (by omega)]
    | node l lo hi =>
      have e := top_node ho (lo := lo) (hi := hi) hg.1 (by have := hg.2.1; omega)
      refine ⟨l, e, ?_, Or.inr ⟨lo, hi, rfl⟩⟩
      unfold zLevel
      rw [e, Option.bind_some, if_pos (by omega)]
  have key : ∀ (g : Zb) (n : Nat), g.Below (o.used + 1) → 0 < n → zLevel o offset g = some ((n : Int), g) → ¬ Reach (sapporoZdd o hash f offset) (n : Int) g := by
    intro g
    induction g with
    | leaf b =>
      intro n hg hn e hr
      obtain ⟨k, _, e', h⟩ := hz hg
      rw [e'] at e
      have e := congrArg Prod.fst (Option.some.inj e)
      have hk : k = 0 := by
        rcases h with h | ⟨_, _, h⟩
        · exact h.1
        · cases h
      have := hd.child_lt 0 hn hr
      have hv : o.varOfLev ((n : Int) + offset) = none := by
        unfold VarOrder.varOfLev
        rw [if_neg (by simp only at e; omega)]
      have hc : (sapporoZdd o hash f offset).child (.leaf b) n 0 = ((n : Int), .leaf b) := by
        show (zChild o offset _ n 0).getD _ = _
        unfold zChild
        rw [hv]
        rfl
      rw [hc] at this
      exact absurd this (Int.lt_irrefl _)
    | node l lo hi h0 h1 =>
      intro n hg hn e hr
      have hl := hg.2.1
      have hp := hg.1
      obtain ⟨k, hk, e', h⟩ := hz hg
      rw [e'] at e
      have e := congrArg Prod.fst (Option.some.inj e)
      have hkl : k = l := by
        rcases h with ⟨_, _, h⟩ | ⟨_, _, h⟩
        · cases h
        · exact (Zb.node.inj h).1.symm
      subst hkl
      have hb : lo.Below (o.used + 1) := hg.2.2.1.mono (by omega)
      obtain ⟨q, eq, e2, h2⟩ := hz hb
      have hq : q < k := by
        rcases h2 with h2 | ⟨_, _, rfl⟩
        · omega
        · exact hg.2.2.1.2.1
      have hc : (sapporoZdd o hash f offset).child (.node k lo hi) n 0 = ((q : Int) - offset, lo) := by
        show (zChild o offset _ n 0).getD _ = _
        unfold zChild
        rw [VarOrder.varOfLev_of (l := k) (by simp only at e; omega) hp (by omega), Option.bind_some, ho.levOfVar_var hp (by omega), Option.bind_some]
        dsimp only
        rw [if_neg (by decide), Zb.offSet_root, eq, Option.bind_some, if_pos (by simp only at e; omega), e2]
        rfl
      have hr' := Reach.step 0 hn hr
      rw [hc] at hr'
      have en : (q : Int) - offset = (((q : Int) - offset).toNat : Nat) := by omega
      exact h0 ((q : Int) - offset).toNat hb (by omega) (by rw [← en]; exact e2) (by rw [← en]; exact hr')
  obtain ⟨k, _, e, _⟩ := hz hf
  have en : (k : Int) - offset = (((k : Int) - offset).toNat : Nat) := by omega
  refine key f ((k : Int) - offset).toNat hf (by omega) (by rw [← en]; exact e) ?_
  have hr := Reach.root (sp := sapporoZdd o hash f offset)
  have : (sapporoZdd o hash f offset).root = ((k : Int) - offset, f) := by
    show (zLevel o offset f).getD _ = _
    rw [e]
    rfl
  rw [this] at hr
  rw [← en]
  exact hr

/-- C78: `SapporoBdd` obeys the rules for specifications if and only if all levels of the BDD are above the offset (else it throws `invalid offset`); then it has the Boolean function of the BDD with the variables moved down by the offset. -/
theorem _root_.TdZdd.C78_bdd (o : VarOrder) (ho : o.Ok) (hash : Cudd → Nat) (f : Cudd) (hf : f.Below (o.used + 1)) (offset : Int) :
    (LawfulC (sapporoBdd o hash f offset) ↔ ∀ t, Uses t f → offset < t) ∧
    ((∀ t, Uses t f → offset < t) → (sapporoBdd o hash f offset).root.1 ≤ max 0 ((o.used : Int) - offset) ∧ ∀ a, BddSat (sapporoBdd o hash f offset) a ↔ f.eval (up offset a) = true) :=
  ⟨⟨fun h => sapporoBdd_uses ho hash hf h.toDesc, fun h => (sapporoBdd_lawful ho hash hf h).1⟩, fun h => (sapporoBdd_lawful ho hash hf h).2⟩

/-! ### Examples -/

/-- the families of level 3, of levels 1 and 3, and of level 4 -/
def fam : Zb := .node 4 (.node 3 (.leaf false) (.node 1 (.leaf true) (.leaf true))) (.leaf true)

/-- variables 2 and 4 have levels 4 and 2 -/
def order4 : VarOrder := ⟨4, fun v => if v = 2 then 4 else if v = 4 then 2 else v, fun l => if l = 2 then 4 else if l = 4 then 2 else l⟩

theorem order4_ok : order4.Ok := by
  constructor <;>
  · intro l h0 hl
    have : l = 1 ∨ l = 2 ∨ l = 3 ∨ l = 4 := by simp only [order4] at hl; omega
    rcases this with rfl | rfl | rfl | rfl <;> decide

theorem fam_below : fam.Below (order4.used + 1) := by
  show 0 < 4 ∧ 4 < 5 ∧ (0 < 3 ∧ 3 < 4 ∧ True ∧ (0 < 1 ∧ 1 < 3 ∧ True ∧ True)) ∧ True
  simp

/-- with offset 1, the members are the set of level 2 and the set of level 3 -/
example : LawfulC (sapporoZdd order4 (fun _ => 0) fam 1) ∧
    let m := fun a : Asg 2 => zddRun (sapporoZdd order4 (fun _ => 0) fam 1) a 3 (sapporoZdd order4 (fun _ => 0) fam 1).root.1 (sapporoZdd order4 (fun _ => 0) fam 1).root.2
    m (fun j => if j = 2 then 1 else 0) = true ∧ m (fun j => if j = 3 then 1 else 0) = true ∧ m (fun _ => 0) = false ∧ m (fun j => if j = 1 then 0 else 1) = false :=
  ⟨(C78_zdd order4 order4_ok (fun _ => 0) fam fam_below 1 (by rintro t (rfl | (rfl | h | rfl | h | h) | h) ht <;> first | omega | rfl | exact h.elim)).1, by decide +kernel, by decide +kernel, by decide +kernel, by decide +kernel⟩

/-- the BDD `x4 and not x3`, offsets 2 and 3 -/
example : LawfulC (sapporoBdd order4 (fun _ => 0) (.node 4 (.leaf false) (.node 3 (.leaf true) (.leaf false))) 2) ∧ ¬ LawfulC (sapporoBdd order4 (fun _ => 0) (.node 4 (.leaf false) (.node 3 (.leaf true) (.leaf false))) 3) := by
  have hb : Cudd.Below (order4.used + 1) (.node 4 (.leaf false) (.node 3 (.leaf true) (.leaf false))) := by
    show 0 < 4 ∧ 4 < 5 ∧ True ∧ (0 < 3 ∧ 3 < 4 ∧ True ∧ True)
    simp
  refine ⟨(C78_bdd order4 order4_ok _ _ hb 2).1.2 ?_, fun h => ?_⟩
  · rintro t (rfl | h | rfl | h | h) <;> first | omega | exact h.elim
  · have := (C78_bdd order4 order4_ok _ _ hb 3).1.1 h 3 (Or.inr (Or.inr (Or.inl rfl)))
    omega

/-! ## C79: `ToZBDD`, `ToBDD` -/

theorem toZbdd_eval {o : VarOrder} (ho : o.Ok) (offset : Int) {D : Dd 2} (hw : D.Wf) (h0 : D.table.row 0 = terminalRow 2) (hn : 0 < D.table.numRows) {sched : Nat → List (Nat × Nat)} (hs : EvSched D sched) :
    ∃ v, D.evaluate (toZbdd o offset) sched = some (v, o.grow ((D.root.row : Int) + offset)) ∧ v.Below (((D.root.row : Int) + offset).toNat + 1) ∧ (∀ t, v.Uses t → offset < t) ∧
      ∀ S, v.Mem (((D.root.row : Int) + offset).toNat + 1) S ↔ TMem D.table D.root.row D.root (low offset S) ∧ ∀ j : Nat, 0 < j → (j : Int) ≤ offset → S j = false := by
  obtain ⟨s, t, v, e, hp, ht, hf⟩ := C29_evaluate_state D hw h0 hn (toZbdd_sim ho offset D.root.row) sched hs
  refine ⟨v, ?_, fold_mem hw.table hf hw.root⟩
  rw [e, hp, show t = v from ht]
  rfl

/-- C79: `ToZBDD` calls SAPPOROBDD only for existing variables and levels; missing variables have been made. The sets of its result are the members of the diagram whose levels stay positive, moved up by the offset. -/
theorem _root_.TdZdd.C79_zbdd (o : VarOrder) (ho : o.Ok) (offset : Int) (D : Dd 2) (hw : D.Wf) (h0 : D.table.row 0 = terminalRow 2) (hn : 0 < D.table.numRows) (sched : Nat → List (Nat × Nat)) (hs : EvSched D sched) :
    ∃ v o', D.evaluate (toZbdd o offset) sched = some (v, o') ∧ o'.Ok ∧ (o'.used : Int) = max (o.used : Int) (D.root.row + offset) ∧ v.Below (o'.used + 1) ∧
      ∀ S, v.Mem (o'.used + 1) S ↔ ZddMem D.spec D.root.row (low offset S) ∧ ∀ j : Nat, 0 < j → j ≤ o'.used → ((j : Int) ≤ offset ∨ D.root.row + offset < (j : Int)) → S j = false := by
  obtain ⟨v, e, hb, _, hm⟩ := toZbdd_eval ho offset hw h0 hn hs
  obtain ⟨g1, g2, g3, g4⟩ := grow_spec ho ((D.root.row : Int) + offset)
  refine ⟨v, _, e, g1, g4, hb.mono (by omega), fun S => ?_⟩
  rw [Zb.mem_raise hb (by omega) (by omega : _ ≤ (o.grow ((D.root.row : Int) + offset)).used + 1), hm, hw.zddMem_iff]
  constructor
  · rintro ⟨h1, h2, h3⟩
    refine ⟨h2, fun j p1 p2 p3 => ?_⟩
    rcases p3 with p3 | p3
    · exact h3 j p1 p3
    · exact h1 j (by omega) (by omega)
  · rintro ⟨h1, h2⟩
    exact ⟨fun j p1 p2 => h2 j (by omega) (by omega) (Or.inr (by omega)), h1, fun j p1 p2 => by
      by_cases hj : j ≤ (o.grow ((D.root.row : Int) + offset)).used
      · exact h2 j p1 hj (Or.inl p2)
      · omega⟩

theorem low_up {offset : Int} {a : Asg 2} {j : Nat} (h0 : 0 ≤ offset) (hj : 1 ≤ j) : low offset (up offset a) j = a j := by
  unfold low up
  have e : ((((((j : Int) + offset).toNat : Nat) : Int) - offset)).toNat = j := by omega
  rw [e]
  have : a j = 0 ∨ a j = 1 := by
    generalize a j = x
    revert x
    decide
  rcases this with h | h
  · rw [h]
    simp
  · rw [h, if_pos ⟨by omega, decide_eq_true ⟨by omega, by decide⟩⟩]

/-- C79: exporting a diagram with `ToZBDD` and importing the result with `SapporoZdd`, with the same offset (not negative), gives the same family, for every order of the variables. -/
theorem _root_.TdZdd.C79_zbdd_round (o : VarOrder) (ho : o.Ok) (hash : Zb → Nat) (offset : Nat) (D : Dd 2) (hw : D.Wf) (h0 : D.table.row 0 = terminalRow 2) (hn : 0 < D.table.numRows) (sched : Nat → List (Nat × Nat)) (hs : EvSched D sched) :
    ∃ v o', D.evaluate (toZbdd o offset) sched = some (v, o') ∧ LawfulC (sapporoZdd o' hash v offset) ∧
      ∀ n a, o'.used ≤ n + offset → (ZddMem (sapporoZdd o' hash v offset) n a ↔ ZddMem D.spec n a) := by
  obtain ⟨v, e, hb, hu, hm⟩ := toZbdd_eval ho offset hw h0 hn hs
  obtain ⟨g1, g2, g3, g4⟩ := grow_spec ho ((D.root.row : Int) + offset)
  obtain ⟨h1, _, h3⟩ := C78_zdd _ g1 hash v (hb.mono (by omega)) offset fun t ht h => by have := hu t ht; omega
  refine ⟨v, _, e, h1, fun n a hna => ?_⟩
  rw [h3 n a hna]
  have er : ((D.root.row : Int) + offset).toNat = D.root.row + offset := by omega
  rw [er] at hb hm
  rw [Zb.mem_raise hb (by omega) (by omega : _ ≤ n + offset + 1), hm, hw.zddMem_iff, tmem_raise hw.table (Nat.le_refl _) (by omega : D.root.row ≤ n)]
  have hz := up_false (offset := offset) (a := a) (k := D.root.row) (n := n + 1)
  constructor
  · rintro ⟨q1, q2, _⟩
    refine ⟨fun j p1 p2 => hz.1 (fun j p1 p2 => q1 j (by omega) (by omega)) j p1 (by omega), ?_⟩
    exact tmem_congr hw.table (Nat.le_refl _) (fun j p1 _ => low_up (by omega) p1) q2
  · rintro ⟨q1, q2⟩
    refine ⟨fun j p1 p2 => hz.2 (fun j p1 p2 => q1 j p1 (by omega)) j (by omega) (by omega), ?_, fun j _ p2 => up_low (by omega)⟩
    exact tmem_congr hw.table (Nat.le_refl _) (fun j p1 _ => (low_up (by omega) p1).symm) q2

theorem toBdd_eval {o : VarOrder} (ho : o.Ok) {offset : Int} (hp : 0 ≤ offset) {D : Dd 2} (hw : D.Wf) (h0 : D.table.row 0 = terminalRow 2) (hn : 0 < D.table.numRows) {sched : Nat → List (Nat × Nat)} (hs : EvSched D sched) :
    ∃ v, D.evaluate (toBdd o offset) sched = some (v, o.grow ((D.root.row : Int) + offset)) ∧ v.Below (((D.root.row : Int) + offset).toNat + 1) ∧ (∀ t, Uses t v → offset < t) ∧
      ∀ S, v.eval S = true ↔ TSat D.table D.root (low offset S) := by
  obtain ⟨s, t, v, e, hp', ht, hf⟩ := C29_evaluate_state D hw h0 hn (toBdd_sim ho hp D.root.row) sched hs
  refine ⟨v, ?_, fold_sat hw.table hp hf hw.root⟩
  rw [e, hp', show t = v from ht]
  rfl

/-- C79: for offsets that are not negative, `ToBDD` throws no exception and calls SAPPOROBDD only for existing variables and levels; missing variables have been made. The Boolean function of its result is that of the diagram, with the variables moved up by the
offset. -/
theorem _root_.TdZdd.C79_bdd (o : VarOrder) (ho : o.Ok) (offset : Int) (hp : 0 ≤ offset) (D : Dd 2) (hw : D.Wf) (h0 : D.table.row 0 = terminalRow 2) (hn : 0 < D.table.numRows) (sched : Nat → List (Nat × Nat)) (hs : EvSched D sched) :
    ∃ v o', D.evaluate (toBdd o offset) sched = some (v, o') ∧ o'.Ok ∧ (o'.used : Int) = max (o.used : Int) (D.root.row + offset) ∧ v.Below (o'.used + 1) ∧ (∀ t, Uses t v → offset < t) ∧
      ∀ S, v.eval S = true ↔ BddSat D.spec (low offset S) := by
  obtain ⟨v, e, hb, hu, hm⟩ := toBdd_eval ho hp hw h0 hn hs
  obtain ⟨g1, g2, g3, g4⟩ := grow_spec ho ((D.root.row : Int) + offset)
  exact ⟨v, _, e, g1, g4, hb.mono (by omega), hu, fun S => by rw [hm, hw.bddSat_iff]⟩

/-- C79: exporting a diagram with `ToBDD` and importing the result with `SapporoBdd` gives the same Boolean function, for every order of the variables. -/
theorem _root_.TdZdd.C79_bdd_round (o : VarOrder) (ho : o.Ok) (hash : Cudd → Nat) (offset : Int) (hp : 0 ≤ offset) (D : Dd 2) (hw : D.Wf) (h0 : D.table.row 0 = terminalRow 2) (hn : 0 < D.table.numRows) (sched : Nat → List (Nat × Nat)) (hs : EvSched D sched) :
    ∃ v o', D.evaluate (toBdd o offset) sched = some (v, o') ∧ LawfulC (sapporoBdd o' hash v offset) ∧ ∀ a, BddSat (sapporoBdd o' hash v offset) a ↔ BddSat D.spec a := by
  obtain ⟨v, o', e, g1, g2, hb, hu, hm⟩ := C79_bdd o ho offset hp D hw h0 hn sched hs
  obtain ⟨h1, h2⟩ := C78_bdd o' g1 hash v hb offset
  refine ⟨v, o', e, h1.2 hu, fun a => ?_⟩
  rw [(h2 hu).2, hm, hw.bddSat_iff, hw.bddSat_iff]
  constructor
  · exact fun h => tsat_congr hw.table (fun j p1 _ => low_up hp p1) h
  · exact fun h => tsat_congr hw.table (fun j p1 _ => (low_up hp p1).symm) h

theorem foldlM_none {α β : Type} {f : β → α → Option β} {x : α} (hf : ∀ b, f b x = none) : ∀ {l : List α} {b : β}, x ∈ l → l.foldlM f b = none := by
  intro l
  induction l with
  | nil => intro b h; cases h
  | cons y l ih =>
    intro b h
    rw [List.foldlM_cons]
    rcases List.mem_cons.1 h with e | e
    · subst e; rw [hf]; rfl
    · cases f b y with
      | none => rfl
      | some c => exact ih e

theorem evaluate_none {σ T R : Type} {ev : Evaluator 2 σ T R} {D : Dd 2} {sched : Nat → List (Nat × Nat)} (hs : EvSched D sched) {i : Nat} (h1 : 1 ≤ i) (h2 : i ≤ D.root.row) (h : D.table.row i ≠ []) (hn : ∀ s vs, ev.node s i vs = none) :
    D.evaluate ev sched = none := by
  have hl : 0 < (D.table.row i).length := List.length_pos_iff.2 h
  obtain ⟨e, he, e0⟩ := List.mem_map.1 ((hs i h1 h2).mem_iff.2 (List.mem_range.2 hl))
  have hstep : ∀ a, evNode ev (D.table.row i) i a e = none := by
    intro a
    unfold evNode
    cases (D.table.row i)[e.2]? with
    | none => rfl
    | some nd =>
      rw [Option.bind_some]
      cases allSome' (fun b => (a.look (nd b)).map fun t => (t, (nd b).row)) with
      | none => rfl
      | some vals =>
        show Option.bind (ev.node _ i vals) _ = none
        rw [hn]
        rfl
  have hlev : ∀ lower a, evLevel ev D lower sched a i = none := by
    intro lower a
    unfold evLevel
    rw [foldlM_none hstep he]
    rfl
  have hm : i ∈ levelsUp D.root.row := by
    unfold levelsUp
    exact List.mem_map.2 ⟨i - 1, List.mem_range.2 (by omega), by omega⟩
  unfold Dd.evaluate evalWork
  split
  · rfl
  · dsimp only
    cases (List.range (D.table.row 0).length).foldlM (evTerm ev) _ with
    | none => rfl
    | some a =>
      show Option.bind (Option.bind (makeIndex _ _) _) _ = none
      cases makeIndex (D.table.numRows - 1) D.table.row with
      | none => rfl
      | some idx =>
        show Option.bind (Option.bind (List.foldlM _ _ _) _) _ = none
        rw [foldlM_none (hlev _) hm]
        rfl

/-- C79: `ToBDD` throws if there is a node at a level that the offset moves to 0 or below. -/
theorem _root_.TdZdd.C79_bdd_throws (o : VarOrder) (offset : Int) (D : Dd 2) (sched : Nat → List (Nat × Nat)) (hs : EvSched D sched) (i : Nat) (h1 : 1 ≤ i) (h2 : i ≤ D.root.row) (h : D.table.row i ≠ []) (hi : (i : Int) + offset ≤ 0) :
    D.evaluate (toBdd o offset) sched = none :=
  evaluate_none hs h1 h2 h fun s vs => if_neg (by omega)

/-! ### Examples -/

/-- the sample has 3 levels; with offset 2 three variables are added to the swapped ones, and level 3 becomes level 5 -/
example : (∃ v o', dupDd.evaluate (toZbdd swapped 2) (seqSched dupDd) = some (v, o') ∧ LawfulC (sapporoZdd o' (fun _ => 0) v 2) ∧ ∀ n a, o'.used ≤ n + 2 → (ZddMem (sapporoZdd o' (fun _ => 0) v 2) n a ↔ ZddMem dupDd.spec n a)) ∧
    (dupDd.evaluate (toZbdd swapped 2) (seqSched dupDd)).map (fun r => (r.1, r.2.used)) =
      some (.node 5 (.node 4 (.node 3 (.leaf false) (.leaf true)) (.node 3 (.leaf false) (.leaf true))) (.leaf true), 5) :=
  ⟨C79_zbdd_round swapped swapped_ok (fun _ => 0) 2 dupDd dupDd_wf rfl (by decide) _ (seqSched_ok dupDd), by decide +kernel⟩

/-- with offset -1 only the sets without level 1 remain -/
example : (dupDd.evaluate (toZbdd swapped (-1)) (seqSched dupDd)).map (fun r => (r.1, r.2.used)) = some (.node 2 (.leaf false) (.leaf true), 2) := by decide +kernel

/-- the hypotheses of `C79_bdd_throws` -/
example : EvSched dupDd (seqSched dupDd) ∧ 1 ≤ dupDd.root.row ∧ dupDd.table.row 1 ≠ [] := ⟨seqSched_ok dupDd, by decide +kernel, by decide +kernel⟩

/-- `ToBDD` throws an exception for offset -1 -/
example : (dupDd.evaluate (toBdd swapped (-1)) (seqSched dupDd)).isNone ∧ (dupDd.evaluate (toBdd swapped 1) (seqSched dupDd)).isSome := by decide +kernel

example : ∃ v o', dupDd.evaluate (toBdd swapped 1) (seqSched dupDd) = some (v, o') ∧ LawfulC (sapporoBdd o' (fun _ => 0) v 1) ∧ ∀ a, BddSat (sapporoBdd o' (fun _ => 0) v 1) a ↔ BddSat dupDd.spec a :=
  C79_bdd_round swapped swapped_ok (fun _ => 0) 1 (by decide) dupDd dupDd_wf rfl (by decide) _ (seqSched_ok dupDd)

end Sap

end TdZdd
