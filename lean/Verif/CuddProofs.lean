import Verif.CnfApp
import Verif.SemanticsLemmas

/-! The diagrams of CUDD: their Boolean functions, and their order. -/

namespace TdZdd

namespace Cudd

/-- the Boolean function of a diagram; `u l` is the value of the variable with the level `l` -/
def eval (u : Nat → Bool) : Cudd → Bool
  | leaf b => b
  | node l lo hi => if u l then eval u hi else eval u lo

theorem eval_mk {u : Nat → Bool} {l : Nat} {lo hi : Cudd} : (mk l lo hi).eval u = if u l then hi.eval u else lo.eval u := by
  unfold mk
  split
  · rename_i h
    subst h
    split <;> rfl
  · rfl

theorem eval_inv {u : Nat → Bool} {f : Cudd} : f.inv.eval u = !f.eval u := by
  induction f with
  | leaf b => rfl
  | node l lo hi h0 h1 =>
    rw [inv, eval, eval, h0, h1]
    split <;> rfl

theorem eval_and {u : Nat → Bool} {f : Cudd} : ∀ {g : Cudd}, (f.and g).eval u = (f.eval u && g.eval u) := by
  induction f with
  | leaf b => intro g; rw [and]; cases b <;> rfl
  | node l lo hi h0 h1 =>
    intro g
    rw [and]
    induction g with
    | leaf b =>
      rw [andNode]
      cases b
      · simp [eval]
      · simp [eval]
    | node m glo ghi g0 g1 =>
      rw [andNode]
      split
      · rename_i e
        subst e
        rw [eval_mk, h0, h1, eval, eval]
        split <;> rfl
      · split
        · rw [eval_mk, h0, h1]
          rw [show (node l lo hi).eval u = if u l then hi.eval u else lo.eval u from rfl]
          split <;> rfl
        · rw [eval_mk, g0, g1]
          rw [show (node m glo ghi).eval u = if u m then ghi.eval u else glo.eval u from rfl]
          split <;> rfl

theorem eval_ite {u : Nat → Bool} {f g h : Cudd} : (ite f g h).eval u = if f.eval u then g.eval u else h.eval u := by
  unfold ite
  rw [eval_inv, eval_and, eval_inv, eval_inv, eval_and, eval_and, eval_inv]
  cases f.eval u <;> simp

theorem eval_branch {u : Nat → Bool} {l : Nat} {f g : Cudd} : (branch l f g).eval u = if u l then g.eval u else f.eval u := by
  unfold branch
  rw [eval_ite]
  show (if (if u l then true else false) = true then _ else _) = _
  cases u l <;> rfl

/-- the levels are positive, less than `n`, and decrease -/
def Below : Nat → Cudd → Prop
  | _, leaf _ => True
  | n, node l lo hi => 0 < l ∧ l < n ∧ Below l lo ∧ Below l hi

theorem Below.mono {f : Cudd} {m n : Nat} (h : Below m f) (hmn : m ≤ n) : Below n f := by
  cases f with
  | leaf => trivial
  | node l lo hi => exact ⟨h.1, by have := h.2.1; omega, h.2.2⟩

theorem below_mk {n l : Nat} {lo hi : Cudd} (h0 : 0 < l) (hl : l < n) (h1 : Below l lo) (h2 : Below l hi) : Below n (mk l lo hi) := by
  unfold mk
  split
  · exact h1.mono (by omega)
  · exact ⟨h0, hl, h1, h2⟩

theorem below_inv {f : Cudd} : ∀ {n : Nat}, Below n f → Below n f.inv := by
  induction f with
  | leaf => intro n _; trivial
  | node l lo hi h0 h1 => intro n h; exact ⟨h.1, h.2.1, h0 h.2.2.1, h1 h.2.2.2⟩

theorem below_and {f : Cudd} : ∀ {n : Nat} {g : Cudd}, Below n f → Below n g → Below n (f.and g) := by
  induction f with
  | leaf b =>
    intro n g _ hg
    rw [and]
    cases b
    · trivial
    · exact hg
  | node l lo hi h0 h1 =>
    intro n g hf hg
    rw [and]
    induction g generalizing n with
    | leaf b =>
      rw [andNode]
      cases b
      · trivial
      · exact hf
    | node m glo ghi g0 g1 =>
      rw [andNode]
      split
      · rename_i e
        subst e
        exact below_mk hf.1 hf.2.1 (h0 hf.2.2.1 hg.2.2.1) (h1 hf.2.2.2 hg.2.2.2)
      · rename_i e
        split
        · rename_i e'
          have hg' : Below l (node m glo ghi) := ⟨hg.1, e', hg.2.2⟩
          exact below_mk hf.1 hf.2.1 (h0 hf.2.2.1 hg') (h1 hf.2.2.2 hg')
        · have hf' : Below m (node l lo hi) := ⟨hf.1, by omega, hf.2.2⟩
          exact below_mk hg.1 hg.2.1 (g0 hf' hg.2.2.1) (g1 hf' hg.2.2.2)

theorem below_branch {n l : Nat} {f g : Cudd} (h0 : 0 < l) (hl : l < n) (hf : Below l f) (hg : Below l g) : Below n (branch l f g) := by
  have hv : Below n (var l) := ⟨h0, hl, trivial, trivial⟩
  unfold branch ite
  exact below_inv (below_and (below_inv (below_and hv (hg.mono (by omega)))) (below_inv (below_and (below_inv hv) (hf.mono (by omega)))))

theorem cof_root {l : Nat} {b : Bool} {lo hi : Cudd} : cof l b (node l lo hi) = if b then hi else lo := by
  rw [cof, if_pos rfl]

/-- As a specification, an ordered diagram obeys the rules, and it has the same Boolean function. -/
theorem spec_main {hash : Cudd → Nat} {n : Nat} {f : Cudd} (h : Below (n + 1) f) :
    LawfulC (spec hash f) ∧ (spec hash f).root.1 ≤ n ∧ ∀ a, BddSat (spec hash f) a ↔ f.eval (fun l => decide ((a l).val ≠ 0)) = true := by
  have hcode : ∀ {m : Nat} {g : Cudd}, Below (m + 1) g → -1 ≤ code g ∧ code g ≤ m := by
    intro m g hg
    unfold code
    split
    · omega
    · cases g with
      | leaf => show (-1 : Int) ≤ ((0 : Nat) : Int) ∧ ((0 : Nat) : Int) ≤ m; omega
      | node l lo hi =>
        have := hg.2.1
        show (-1 : Int) ≤ (l : Int) ∧ (l : Int) ≤ m
        omega
  have key : ∀ {l : Int} {s : Cudd}, Reach (spec hash f) l s → l = code s ∧ ∃ m : Nat, Below (m + 1) s := by
    intro l s hr
    induction hr with
    | root => exact ⟨rfl, n, h⟩
    | @step k s b hk hr ih =>
      refine ⟨rfl, ?_⟩
      obtain ⟨e, m, hs⟩ := ih
      show ∃ m : Nat, Below (m + 1) (cof k _ s)
      cases s with
      | leaf c => exact ⟨0, trivial⟩
      | node l lo hi =>
        have e : (k : Int) = (l : Int) := by rw [e]; unfold code; rw [if_neg (by simp)]; rfl
        obtain rfl : k = l := by omega
        rw [cof_root]
        have := hs.1
        refine ⟨k - 1, ?_⟩
        rw [show k - 1 + 1 = k by omega]
        split
        · exact hs.2.2.2
        · exact hs.2.2.1
  have hpos : ∀ {k : Nat} {s : Cudd}, 0 < k → Reach (spec hash f) (k : Int) s → ∃ lo hi, s = node k lo hi ∧ Below k lo ∧ Below k hi := by
    intro k s hk hr
    obtain ⟨e, m, hs⟩ := key hr
    cases s with
    | leaf c =>
      exfalso
      cases c
      · have : (k : Int) = ((0 : Nat) : Int) := e
        omega
      · have : (k : Int) = -1 := e
        omega
    | node l lo hi =>
      have e : (k : Int) = (l : Int) := by rw [e]; unfold code; rw [if_neg (by simp)]; rfl
      obtain rfl : k = l := by omega
      exact ⟨lo, hi, rfl, hs.2.2.1, hs.2.2.2⟩
  have hstep : ∀ {k : Nat} {s : Cudd} (b : Fin 2), 0 < k → Reach (spec hash f) (k : Int) s → -1 ≤ ((spec hash f).child s k b).1 ∧ ((spec hash f).child s k b).1 < k := by
    intro k s b hk hr
    obtain ⟨lo, hi, rfl, h1, h2⟩ := hpos hk hr
    show -1 ≤ code (cof k _ _) ∧ code (cof k _ _) < k
    rw [cof_root]
    have hb : Below (k - 1 + 1) (if decide (b.val ≠ 0) = true then hi else lo) := by
      rw [show k - 1 + 1 = k by omega]
      split
      · exact h2
      · exact h1
    have := hcode hb
    omega
  have hd : Desc (spec hash f) := ⟨(hcode h).1, fun b hk hr => (hstep b hk hr).2, fun b hk hr => (hstep b hk hr).1⟩
  refine ⟨lawfulC_of_eq hd fun _ s t => decide_eq_true_iff, (hcode h).2, fun a => ?_⟩
  have sem : ∀ (g : Cudd) (m : Nat), Below m g → (BddSatAt (spec hash f) (code g) g a ↔ g.eval (fun l => decide ((a l).val ≠ 0)) = true) := by
    intro g
    induction g with
    | leaf b =>
      intro _ _
      cases b
      · exact ⟨fun h => absurd h bddSatAt_zero, fun h => by cases h⟩
      · exact ⟨fun _ => rfl, fun _ => bddSatAt_neg (by show (-1 : Int) < 0; decide)⟩
    | node l lo hi h0 h1 =>
      intro m hm
      have e : code (node l lo hi) = (l : Int) := by unfold code; rw [if_neg (by simp)]; rfl
      rw [e, bddSatAt_pos hm.1]
      show BddSatAt _ (code (cof l _ _)) (cof l _ _) a ↔ _
      rw [cof_root, eval]
      by_cases hb : (a l).val ≠ 0
      · rw [if_pos (decide_eq_true hb), if_pos (decide_eq_true hb)]
        exact h1 l hm.2.2.2
      · rw [if_neg (by simpa using hb), if_neg (by simpa using hb)]
        exact h0 l hm.2.2.1
  exact sem f _ h

end Cudd

end TdZdd
