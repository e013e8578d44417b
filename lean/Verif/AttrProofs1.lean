import Verif.Attr

/-! Leaving out the bits gives the reducer of `Reducer.lean`. -/

namespace TdZdd

namespace Attr

variable {N : Nat}

theorem foldlM_fst {α β γ : Type} {f : γ → α → Option γ} {g : β → α → Option β} (p : γ → β)
    (h : ∀ x a, (f x a).map p = g (p x) a) : ∀ (l : List α) (x : γ), (l.foldlM f x).map p = l.foldlM g (p x) := by
  intro l
  induction l with
  | nil => intro x; rfl
  | cons a l ih =>
    intro x
    rw [List.foldlM_cons, List.foldlM_cons, ← h x a]
    cases f x a with
    | none => rfl
    | some y => exact ih y

theorem bind_some_fun {α : Type} (o : Option α) : (o.bind fun x => some x) = o := by cases o <;> rfl

theorem reduceStep_fst (bdd zdd : Bool) (nr i : Nat) (x : RedSt N × Bits (N + 1)) (j : Nat) :
    (reduceStep bdd zdd nr i x j).map (·.1) = TdZdd.reduceStep bdd zdd nr i x.1 j := by
  unfold reduceStep TdZdd.reduceStep
  simp only [Option.bind_eq_bind, Option.map_bind, Function.comp_def, apply_ite (Option.map _), Option.map_some]

theorem copyStep_fst (nr i : Nat) (st : RSt (N + 1)) (x : List (Option (Node (N + 1))) × Bits (N + 1)) (j : Nat) :
    (copyStep nr i st x j).map (·.1) = TdZdd.copyStep nr i st x.1 j := by
  unfold copyStep TdZdd.copyStep
  simp only [Option.bind_eq_bind, Option.map_bind, Function.comp_def, apply_ite (Option.map _), Option.map_some, Option.map_none]

theorem reduceLevel_fst (bdd zdd : Bool) (nr top : Nat) (lower : Nat → List Nat) (x : RSt (N + 1) × Bits (N + 1)) (i : Nat) :
    (reduceLevel bdd zdd nr top lower x i).map (·.1) = TdZdd.reduceLevel bdd zdd nr top lower x.1 i := by
  unfold reduceLevel TdZdd.reduceLevel
  simp only [Option.bind_eq_bind, Option.map_bind, Function.comp_def, Option.map_some]
  congr 1
  funext u
  rw [← foldlM_fst Prod.fst (reduceStep_fst bdd zdd nr i) _
    ({ st := { x.1 with newId := upd x.1.newId i (List.replicate (x.1.input i).length none) }, uniq := u, jj := 0 }, x.2)]
  cases (List.range (x.1.input i).length).foldlM (reduceStep bdd zdd nr i)
      ({ st := { x.1 with newId := upd x.1.newId i (List.replicate (x.1.input i).length none) }, uniq := u, jj := 0 }, x.2) with
  | none => rfl
  | some a =>
    simp only [Option.bind_some, Option.map_some]
    rw [← foldlM_fst Prod.fst (copyStep_fst nr i { a.1.st with newId := clearIds (lower i) a.1.st.newId }) _ (List.replicate a.1.jj none, a.2)]
    cases (List.range (x.1.input i).length).foldlM (copyStep nr i { a.1.st with newId := clearIds (lower i) a.1.st.newId })
        (List.replicate a.1.jj none, a.2) with
    | none => rfl
    | some r => simp

theorem readyNode_fst (bdd zdd : Bool) (nr i : Nat) (x : Rows (N + 1) × Bits (N + 1)) (j : Nat) :
    (readyNode bdd zdd nr i x j).map (·.1) = TdZdd.readyNode bdd zdd nr i x.1 j := by
  unfold readyNode
  simp only [Option.bind_eq_bind, Option.map_bind, Function.comp_def, Option.map_some]
  unfold TdZdd.readyNode
  cases nodeAt nr x.1 ⟨i, j⟩ with
  | none => rfl
  | some nd => simp

theorem readyRow_fst (bdd zdd : Bool) (nr : Nat) (x : Rows (N + 1) × Bits (N + 1)) (i : Nat) :
    (readyRow bdd zdd nr x i).map (·.1) = TdZdd.readyRow bdd zdd nr x.1 i :=
  foldlM_fst _ (readyNode_fst bdd zdd nr i) _ _

theorem makeReady_fst (bdd zdd : Bool) (nr : Nat) (x : Rows (N + 1) × Bits (N + 1)) :
    (makeReady bdd zdd nr x).map (·.1) = TdZdd.makeReady bdd zdd nr x.1 := by
  unfold makeReady TdZdd.makeReady
  exact foldlM_fst _ (readyRow_fst bdd zdd nr) _ _

theorem loop1_fst (bdd zdd : Bool) (nr i m : Nat) (x : RSt 2 × Bits 2) (j : Nat) :
    (loop1 bdd zdd nr i m x j).map (·.1) = TdZdd.loop1 bdd zdd nr i m x.1 j := by
  unfold loop1 TdZdd.loop1
  simp only [Option.bind_eq_bind, Option.map_bind, Function.comp_def, apply_ite (Option.map _), Option.map_some, bind_some_fun]

theorem inner_fst (nr i m : Nat) (f : NodeId) : ∀ (fuel k : Nat) (x : (RSt 2 × Nat) × Bits 2),
    (inner nr i m f fuel k x).map (·.1) = TdZdd.inner nr i m f fuel k x.1 := by
  intro fuel
  induction fuel with
  | zero => intro k x; rfl
  | succ fuel ih =>
    rintro k ⟨⟨st, mm⟩, s⟩
    rw [inner, TdZdd.inner]
    simp only [Option.bind_eq_bind, Option.map_bind, Function.comp_def, apply_ite (Option.map _), Option.map_some, ih]

theorem loop2_fst (nr i m : Nat) (x : (RSt 2 × Nat) × Bits 2) (j : Nat) :
    (loop2 nr i m x j).map (·.1) = TdZdd.loop2 nr i m x.1 j := by
  unfold loop2 TdZdd.loop2
  simp only [Option.map_bind, Function.comp_def, apply_ite (Option.map _), Option.map_some, inner_fst]

theorem loop3_fst (bdd zdd : Bool) (nr i m : Nat) (x : (RSt 2 × List (Option (Node 2))) × Bits 2) (j : Nat) :
    (loop3 bdd zdd nr i m x j).map (·.1) = TdZdd.loop3 bdd zdd nr i m x.1 j := by
  unfold loop3 TdZdd.loop3
  simp only [Option.bind_eq_bind, Option.map_bind, Function.comp_def, apply_ite (Option.map _), Option.map_some, Option.map_none]

theorem algorithmR_fst (bdd zdd : Bool) (nr top : Nat) (lower : Nat → List Nat) (x : RSt 2 × Bits 2) (i : Nat) :
    (algorithmR bdd zdd nr top lower x i).map (·.1) = TdZdd.algorithmR bdd zdd nr top lower x.1 i := by
  unfold algorithmR TdZdd.algorithmR
  simp only [Option.bind_eq_bind, Option.map_bind, Function.comp_def, Option.map_some]
  rw [← foldlM_fst Prod.fst (loop1_fst bdd zdd nr i (x.1.input i).length) _
    ({ x.1 with newId := upd x.1.newId i (List.replicate (x.1.input i).length none) }, x.2)]
  cases (List.range (x.1.input i).length).reverse.foldlM (loop1 bdd zdd nr i (x.1.input i).length)
      ({ x.1 with newId := upd x.1.newId i (List.replicate (x.1.input i).length none) }, x.2) with
  | none => rfl
  | some y =>
    simp only [Option.bind_some, Option.map_some]
    rw [← foldlM_fst Prod.fst (loop2_fst nr i (x.1.input i).length) _ (({ y.1 with newId := clearIds (lower i) y.1.newId }, 0), y.2)]
    cases (List.range (x.1.input i).length).foldlM (loop2 nr i (x.1.input i).length)
        (({ y.1 with newId := clearIds (lower i) y.1.newId }, 0), y.2) with
    | none => rfl
    | some z =>
      simp only [Option.bind_some, Option.map_some]
      rw [← foldlM_fst Prod.fst (loop3_fst bdd zdd nr i (x.1.input i).length) _
        (((if bdd = true then z.1.1 else { z.1.1 with input := clearRows (lower i) z.1.1.input }), List.replicate z.1.2 none), z.2)]
      cases (List.range (x.1.input i).length).foldlM (loop3 bdd zdd nr i (x.1.input i).length)
          (((if bdd = true then z.1.1 else { z.1.1 with input := clearRows (lower i) z.1.1.input }), List.replicate z.1.2 none), z.2) with
      | none => rfl
      | some w => simp

theorem reduceN_fst (bdd zdd : Bool) (D : Dd (N + 1)) (inp : NodeId → Fin (N + 1) → Bool) (root : Bool) :
    (reduceN bdd zdd D inp root).map (·.1) = TdZdd.reduceN bdd zdd D := by
  unfold reduceN TdZdd.reduceN
  simp only [Option.bind_eq_bind, Option.map_bind, Function.comp_def, Option.map_some]
  congr 1
  funext idx
  rw [← foldlM_fst Prod.fst (reduceLevel_fst bdd zdd D.table.numRows D.root.row idx.2) _ (reduceInit D, start inp root)]
  cases (levelsUp D.root.row).foldlM (reduceLevel bdd zdd D.table.numRows D.root.row idx.2) (reduceInit D, start inp root) <;> rfl

theorem reduce2_fst (bdd zdd : Bool) (D : Dd 2) (inp : NodeId → Fin 2 → Bool) (root : Bool) :
    (reduce2 bdd zdd D inp root).map (·.1) = TdZdd.reduce2 bdd zdd D := by
  unfold reduce2 TdZdd.reduce2
  simp only [Option.bind_eq_bind, Option.map_bind, Function.comp_def, apply_ite (Option.map _), Option.map_some]
  congr 1
  funext _
  by_cases h : D.root.row = 0
  · rw [if_pos h, if_pos h]
  · rw [if_neg h, if_neg h, ← makeReady_fst bdd zdd D.table.numRows ((reduceInit D).input, start inp root)]
    cases makeReady bdd zdd D.table.numRows ((reduceInit D).input, start inp root) with
    | none => rfl
    | some x =>
      simp only [Option.bind_some, Option.map_some]
      congr 1
      funext idx
      rw [← foldlM_fst Prod.fst (algorithmR_fst bdd zdd D.table.numRows D.root.row idx.2) _ ({ reduceInit D with input := x.1 }, x.2)]
      cases (levelsUp D.root.row).foldlM (algorithmR bdd zdd D.table.numRows D.root.row idx.2) ({ reduceInit D with input := x.1 }, x.2) <;> rfl

end Attr

end TdZdd
