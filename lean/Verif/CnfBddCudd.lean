import Verif.CnfBdd
import Verif.SapporoLibProofs2

/-! The operations of CUDD that are used for the reachability analysis. -/

namespace TdZdd

namespace Cudd

open Sap

theorem eval_congr {u v : Nat → Bool} {f : Cudd} (h : ∀ t, Uses t f → u t = v t) : f.eval u = f.eval v := by
  induction f with
  | leaf b => rfl
  | node l lo hi h0 h1 =>
    rw [eval, eval, h l (.inl rfl), h0 fun t ht => h t (.inr (.inl ht)), h1 fun t ht => h t (.inr (.inr ht))]

theorem eval_or {u : Nat → Bool} {f g : Cudd} : (f.or g).eval u = (f.eval u || g.eval u) := by
  rw [or, eval_inv, eval_and, eval_inv, eval_inv]
  cases f.eval u <;> cases g.eval u <;> rfl

theorem below_or {n : Nat} {f g : Cudd} (hf : Below n f) (hg : Below n g) : Below n (f.or g) :=
  below_inv (below_and (below_inv hf) (below_inv hg))

theorem uses_or {t : Nat} {f g : Cudd} (h : Uses t (f.or g)) : Uses t f ∨ Uses t g :=
  (uses_and (uses_inv h)).imp uses_inv uses_inv

theorem below_uses {f : Cudd} : ∀ {n t : Nat}, Below n f → Uses t f → 0 < t ∧ t < n := by
  induction f with
  | leaf b => intro n t _ h; exact h.elim
  | node l lo hi h0 h1 =>
    intro n t hb h
    rcases h with rfl | h | h
    · exact ⟨hb.1, hb.2.1⟩
    · have := h0 hb.2.2.1 h; have := hb.2.1; omega
    · have := h1 hb.2.2.2 h; have := hb.2.1; omega

/-! ## Cubes -/

/-- a conjunction of variables (`b = true`) or of negated variables -/
def LitCube (b : Bool) : Cudd → Prop
  | leaf c => c = true
  | node _ lo hi => if b then lo = leaf false ∧ LitCube b hi else hi = leaf false ∧ LitCube b lo

/-- the literal of a variable -/
def litOf (b : Bool) (j : Nat) : Cudd := if b then node j (leaf false) (leaf true) else node j (leaf true) (leaf false)

theorem LitCube.ne {b : Bool} {c : Cudd} (h : LitCube b c) : c ≠ leaf false := by
  rintro rfl
  exact Bool.noConfusion h

theorem litCube_mk {b : Bool} {l : Nat} {lo hi : Cudd} (h : LitCube b (node l lo hi)) : mk l lo hi = node l lo hi := by
  unfold mk
  rw [if_neg]
  rintro rfl
  cases b
  · exact h.2.ne h.1
  · exact h.2.ne h.1

theorem litCube_and {b : Bool} {j : Nat} {f : Cudd} : LitCube b f → LitCube b (f.and (litOf b j)) ∧ ∀ t, Uses t (f.and (litOf b j)) ↔ Uses t f ∨ t = j := by
  induction f with
  | leaf c =>
    intro h
    rw [show c = true from h, and, if_pos rfl]
    cases b
    · exact ⟨⟨rfl, rfl⟩, fun t => by simp [litOf, Uses]⟩
    · exact ⟨⟨rfl, rfl⟩, fun t => by simp [litOf, Uses]⟩
  | node l lo hi h0 h1 =>
    intro h
    cases b with
    | true =>
      obtain ⟨rfl, hh⟩ : lo = leaf false ∧ LitCube true hi := h
      obtain ⟨i1, i2⟩ := h1 hh
      have eL : litOf true j = node j (leaf false) (leaf true) := rfl
      rw [eL] at i1 i2 ⊢
      rw [and, andNode]
      split
      · rename_i e
        subst e
        have e1 : (leaf false).and (leaf false) = leaf false := rfl
        have e2 : hi.and (leaf true) = hi := by cases hi with
          | leaf c => rw [show c = true from hh]; rfl
          | node => rfl
        have hc : LitCube true (node l (leaf false) hi) := ⟨rfl, hh⟩
        rw [e1, e2, litCube_mk hc]
        refine ⟨hc, fun t => ?_⟩
        simp only [Uses]
        constructor
        · rintro (h | h | h)
          · exact .inr h
          · exact h.elim
          · exact .inl (.inr (.inr h))
        · rintro ((h | h | h) | h)
          · exact .inl h
          · exact h.elim
          · exact .inr (.inr h)
          · exact .inl h
      · split
        · have e1 : ∀ g, (leaf false).and g = leaf false := fun g => rfl
          have hc : LitCube true (node l (leaf false) (hi.and (node j (leaf false) (leaf true)))) := ⟨rfl, i1⟩
          rw [e1, litCube_mk hc]
          refine ⟨hc, fun t => ?_⟩
          simp only [Uses] at i2 ⊢
          rw [i2]
          constructor
          · rintro (h | h | h | h)
            · exact .inl (.inl h)
            · exact h.elim
            · exact .inl (.inr (.inr h))
            · exact .inr h
          · rintro ((h | h | h) | h)
            · exact .inl h
            · exact h.elim
            · exact .inr (.inr (.inl h))
            · exact .inr (.inr (.inr h))
        · have hc : LitCube true (node j (leaf false) (node l (leaf false) hi)) := ⟨rfl, rfl, hh⟩
          have ea : andNode l (leaf false) hi ((leaf false).and) (hi.and) (leaf false) = leaf false := rfl
          have eb : andNode l (leaf false) hi ((leaf false).and) (hi.and) (leaf true) = node l (leaf false) hi := rfl
          rw [ea, eb, litCube_mk hc]
          refine ⟨hc, fun t => ?_⟩
          simp only [Uses]
          constructor
          · rintro (h | h | h)
            · exact .inr h
            · exact h.elim
            · exact .inl h
          · rintro (h | h)
            · exact .inr (.inr h)
            · exact .inl h
    | false =>
      obtain ⟨rfl, hh⟩ : hi = leaf false ∧ LitCube false lo := h
      obtain ⟨i1, i2⟩ := h0 hh
      have eL : litOf false j = node j (leaf true) (leaf false) := rfl
      rw [eL] at i1 i2 ⊢
      rw [and, andNode]
      split
      · rename_i e
        subst e
        have e1 : (leaf false).and (leaf false) = leaf false := rfl
        have e2 : lo.and (leaf true) = lo := by cases lo with
          | leaf c => rw [show c = true from hh]; rfl
          | node => rfl
        have hc : LitCube false (node l lo (leaf false)) := ⟨rfl, hh⟩
        rw [e1, e2, litCube_mk hc]
        refine ⟨hc, fun t => ?_⟩
        simp only [Uses]
        constructor
        · rintro (h | h | h)
          · exact .inr h
          · exact .inl (.inr (.inl h))
          · exact h.elim
        · rintro ((h | h | h) | h)
          · exact .inl h
          · exact .inr (.inl h)
          · exact h.elim
          · exact .inl h
      · split
        · have e1 : ∀ g, (leaf false).and g = leaf false := fun g => rfl
          have hc : LitCube false (node l (lo.and (node j (leaf true) (leaf false))) (leaf false)) := ⟨rfl, i1⟩
          rw [e1, litCube_mk hc]
          refine ⟨hc, fun t => ?_⟩
          simp only [Uses] at i2 ⊢
          rw [i2]
          constructor
          · rintro (h | (h | h) | h)
            · exact .inl (.inl h)
            · exact .inl (.inr (.inl h))
            · exact .inr h
            · exact h.elim
          · rintro ((h | h | h) | h)
            · exact .inl h
            · exact .inr (.inl (.inl h))
            · exact h.elim
            · exact .inr (.inl (.inr h))
        · have hc : LitCube false (node j (node l lo (leaf false)) (leaf false)) := ⟨rfl, rfl, hh⟩
          have ea : andNode l lo (leaf false) (lo.and) ((leaf false).and) (leaf false) = leaf false := rfl
          have eb : andNode l lo (leaf false) (lo.and) ((leaf false).and) (leaf true) = node l lo (leaf false) := rfl
          rw [ea, eb, litCube_mk hc]
          refine ⟨hc, fun t => ?_⟩
          simp only [Uses]
          constructor
          · rintro (h | h | h)
            · exact .inr h
            · exact .inl h
            · exact h.elim
          · rintro (h | h)
            · exact .inr (.inl h)
            · exact .inl h

theorem below_lit {b : Bool} {j n : Nat} (h0 : 0 < j) (h : j < n) : Below n (litOf b j) := by
  cases b
  · exact ⟨h0, h, trivial, trivial⟩
  · exact ⟨h0, h, trivial, trivial⟩

theorem eval_lit {b : Bool} {j : Nat} {u : Nat → Bool} : (litOf b j).eval u = (u j == b) := by
  cases b
  · show (if u j = true then false else true) = _
    cases u j <;> rfl
  · show (if u j = true then true else false) = _
    cases u j <;> rfl

end Cudd

namespace CnfB

open Cudd Sap

theorem clauseVar_eq {j : Nat} : clauseVar j = litOf true j := rfl

theorem clauseVar_inv {j : Nat} : (clauseVar j).inv = litOf false j := rfl

/-- the conjunction of literals as it is built by `cube` and `mask` -/
def lits (b : Bool) (js : List Nat) : Cudd := js.foldl (fun f j => f.and (litOf b j)) (leaf true)

theorem cube_eq {js : List Nat} : cube js = lits true js := rfl

theorem mask_eq {js : List Nat} : mask js = lits false js := rfl

theorem lits_main {b : Bool} {js : List Nat} {n : Nat} (h : ∀ j ∈ js, 0 < j ∧ j < n) : LitCube b (lits b js) ∧ (∀ t, Uses t (lits b js) ↔ t ∈ js) ∧ Below n (lits b js) ∧ ∀ u, (lits b js).eval u = true ↔ ∀ j ∈ js, u j = b := by
  have key : ∀ (js : List Nat) (f : Cudd), (∀ j ∈ js, 0 < j ∧ j < n) → LitCube b f → Below n f → LitCube b (js.foldl (fun f j => f.and (litOf b j)) f) ∧ (∀ t, Uses t (js.foldl (fun f j => f.and (litOf b j)) f) ↔ Uses t f ∨ t ∈ js) ∧
      Below n (js.foldl (fun f j => f.and (litOf b j)) f) ∧ ∀ u, (js.foldl (fun f j => f.and (litOf b j)) f).eval u = true ↔ f.eval u = true ∧ ∀ j ∈ js, u j = b := by
    intro js
    induction js with
    | nil => intro f _ h1 h2; exact ⟨h1, fun t => by simp, h2, fun u => by simp⟩
    | cons j js ih =>
      intro f h h1 h2
      have hj := h j List.mem_cons_self
      obtain ⟨g1, g2⟩ := litCube_and (j := j) h1
      obtain ⟨i1, i2, i3, i4⟩ := ih (f.and (litOf b j)) (fun j hj => h j (List.mem_cons_of_mem _ hj)) g1 (below_and h2 (below_lit hj.1 hj.2))
      refine ⟨i1, fun t => ?_, i3, fun u => ?_⟩
      · rw [List.foldl_cons, i2, g2, List.mem_cons, or_assoc]
      · rw [List.foldl_cons, i4, eval_and, eval_lit, Bool.and_eq_true, beq_iff_eq, and_assoc, List.forall_mem_cons]
  obtain ⟨k1, k2, k3, k4⟩ := key js (leaf true) h rfl trivial
  exact ⟨k1, fun t => by rw [lits, k2]; simp [Uses], k3, fun u => by rw [lits, k4]; simp [eval]⟩

end CnfB

namespace Cudd

open Sap

/-! ## Cofactors -/

theorem constrain_main {b : Bool} {c : Cudd} : ∀ {n : Nat}, LitCube b c → Below n c → ∀ {f : Cudd} {m : Nat}, Below m f →
    Below m (f.constrain c) ∧ (∀ t, Uses t (f.constrain c) → Uses t f) ∧ ∀ u v : Nat → Bool, (∀ t, Uses t c → v t = b) → (∀ t, Uses t f → ¬ Uses t c → v t = u t) → (f.constrain c).eval u = f.eval v := by
  induction c with
  | leaf x =>
    intro n hc _ f m hf
    rw [show x = true from hc, constrain, if_pos rfl]
    exact ⟨hf, fun t h => h, fun u v _ h => eval_congr fun t ht => (h t ht fun k => k).symm⟩
  | node l clo chi h0 h1 =>
    intro n hc hb f
    have hlo : ∀ t, Uses t clo → t < l := fun t ht => (below_uses hb.2.2.1 ht).2
    have hhi : ∀ t, Uses t chi → t < l := fun t ht => (below_uses hb.2.2.2 ht).2
    rw [constrain]
    induction f with
    | leaf x => intro m hf; exact ⟨trivial, fun t h => h, fun u v _ _ => rfl⟩
    | node k lo hi g0 g1 =>
      intro m hf
      rw [constrainNode]
      split
      · rename_i hlk
        obtain ⟨b0, u0, e0⟩ := g0 hf.2.2.1
        obtain ⟨b1, u1, e1⟩ := g1 hf.2.2.2
        refine ⟨below_mk hf.1 hf.2.1 b0 b1, fun t ht => ?_, fun u v hv hu => ?_⟩
        · rcases uses_mk ht with h | h | h
          · exact .inl h
          · exact .inr (.inl (u0 t h))
          · exact .inr (.inr (u1 t h))
        · rw [eval_mk, e0 u v hv fun t ht => hu t (.inr (.inl ht)), e1 u v hv fun t ht => hu t (.inr (.inr ht)), eval]
          rw [hu k (.inl rfl)]
          rintro (h | h | h)
          · omega
          · have := hlo k h; omega
          · have := hhi k h; omega
      · rename_i hlk
        cases b with
        | true =>
          obtain ⟨rfl, hh⟩ : clo = leaf false ∧ LitCube true chi := hc
          rw [if_neg hh.ne, if_pos rfl]
          have hf1 : Below m (if k = l then hi else node k lo hi) := by
            split
            · exact hf.2.2.2.mono (Nat.le_of_lt hf.2.1)
            · exact hf
          obtain ⟨b1, u1, e1⟩ := h1 hh hb.2.2.2 hf1
          refine ⟨b1, fun t ht => ?_, fun u v hv hu => ?_⟩
          · have := u1 t ht
            split at this
            · exact .inr (.inr this)
            · exact this
          · have hvl : v l = true := hv l (.inl rfl)
            rw [e1 u (fun t => if t = l then u t else v t) (fun t ht => by rw [if_neg (by have := hhi t ht; omega)]; exact hv t (.inr (.inr ht))) (fun t ht hn => by
              by_cases e : t = l
              · rw [if_pos e]
              · rw [if_neg e]
                refine hu t ?_ ?_
                · split at ht
                  · exact .inr (.inr ht)
                  · exact ht
                · rintro (h | h | h)
                  · exact e h
                  · exact h
                  · exact hn h)]
            have hnl : ∀ t, Uses t (if k = l then hi else node k lo hi) → t ≠ l := by
              intro t ht
              split at ht
              · rename_i e
                have := (below_uses hf.2.2.2 ht).2
                omega
              · rcases ht with h | h | h
                · omega
                · have := (below_uses hf.2.2.1 h).2; omega
                · have := (below_uses hf.2.2.2 h).2; omega
            rw [eval_congr (v := v) fun t ht => if_neg (hnl t ht)]
            split
            · rename_i e
              rw [eval, e, hvl, if_pos rfl]
            · rfl
        | false =>
          obtain ⟨rfl, hh⟩ : chi = leaf false ∧ LitCube false clo := hc
          rw [if_pos rfl]
          have hf1 : Below m (if k = l then lo else node k lo hi) := by
            split
            · exact hf.2.2.1.mono (Nat.le_of_lt hf.2.1)
            · exact hf
          obtain ⟨b1, u1, e1⟩ := h0 hh hb.2.2.1 hf1
          refine ⟨b1, fun t ht => ?_, fun u v hv hu => ?_⟩
          · have := u1 t ht
            split at this
            · exact .inr (.inl this)
            · exact this
          · have hvl : v l = false := hv l (.inl rfl)
            rw [e1 u (fun t => if t = l then u t else v t) (fun t ht => by rw [if_neg (by have := hlo t ht; omega)]; exact hv t (.inr (.inl ht))) (fun t ht hn => by
              by_cases e : t = l
              · rw [if_pos e]
              · rw [if_neg e]
                refine hu t ?_ ?_
                · split at ht
                  · exact .inr (.inl ht)
                  · exact ht
                · rintro (h | h | h)
                  · exact e h
                  · exact hn h
                  · exact h)]
            have hnl : ∀ t, Uses t (if k = l then lo else node k lo hi) → t ≠ l := by
              intro t ht
              split at ht
              · rename_i e
                have := (below_uses hf.2.2.1 ht).2
                omega
              · rcases ht with h | h | h
                · omega
                · have := (below_uses hf.2.2.1 h).2; omega
                · have := (below_uses hf.2.2.2 h).2; omega
            rw [eval_congr (v := v) fun t ht => if_neg (hnl t ht)]
            split
            · rename_i e
              rw [eval, e, hvl, if_neg Bool.false_ne_true]
            · rfl

/-! ## Abstraction -/

theorem cubeFrom_spec {l : Nat} {c : Cudd} : ∀ {n : Nat}, LitCube true c → Below n c → LitCube true (cubeFrom l c) ∧ (∃ n, Below n (cubeFrom l c) ∧ n ≤ l + 1) ∧ ∀ t, t ≤ l → (Uses t (cubeFrom l c) ↔ Uses t c) := by
  induction c with
  | leaf b => intro n h _; exact ⟨h, ⟨0, trivial, Nat.zero_le _⟩, fun t _ => Iff.rfl⟩
  | node m lo hi h0 h1 =>
    intro n h hb
    rw [cubeFrom]
    split
    · rename_i hm
      obtain ⟨rfl, hh⟩ : lo = leaf false ∧ LitCube true hi := h
      obtain ⟨i1, i2, i3⟩ := h1 hh hb.2.2.2
      refine ⟨i1, i2, fun t ht => ?_⟩
      rw [i3 t ht]
      constructor
      · intro g; exact .inr (.inr g)
      · rintro (g | g | g)
        · omega
        · exact g.elim
        · exact g
    · rename_i hm
      exact ⟨h, ⟨m + 1, ⟨hb.1, by omega, hb.2.2⟩, by omega⟩, fun t _ => Iff.rfl⟩

theorem exist_main {f : Cudd} : ∀ {c : Cudd} {n m : Nat}, LitCube true c → Below n c → Below m f →
    Below m (f.exist c) ∧ (∀ t, Uses t (f.exist c) → Uses t f ∧ ¬ Uses t c) ∧ ∀ u v : Nat → Bool, (∀ t, Uses t f → ¬ Uses t c → v t = u t) → f.eval v = true → (f.exist c).eval u = true := by
  induction f with
  | leaf b => intro c n m _ _ _; exact ⟨trivial, fun t h => h.elim, fun u v _ h => h⟩
  | node l lo hi h0 h1 =>
    intro c n m hc hb hf
    obtain ⟨k1, ⟨n', k2, k2'⟩, k3⟩ := cubeFrom_spec (l := l) hc hb
    have hlo : ∀ t, Uses t lo → t < l := fun t ht => (below_uses hf.2.2.1 ht).2
    have hhi : ∀ t, Uses t hi → t < l := fun t ht => (below_uses hf.2.2.2 ht).2
    rw [exist]
    generalize cubeFrom l c = d at k1 k2 k3
    cases d with
    | leaf x =>
      have hn : ∀ t, Uses t (node l lo hi) → ¬ Uses t c := by
        intro t ht hu
        refine (k3 t ?_).2 hu
        rcases ht with h | h | h
        · omega
        · have := hlo t h; omega
        · have := hhi t h; omega
      refine ⟨hf, fun t ht => ⟨ht, hn t ht⟩, fun u v h hv => ?_⟩
      show (node l lo hi).eval u = true
      rw [← hv]
      exact (eval_congr fun t ht => h t ht (hn t ht)).symm
    | node p clo chi =>
      obtain ⟨rfl, hh⟩ : clo = leaf false ∧ LitCube true chi := k1
      dsimp only
      have hchi : ∀ t, Uses t chi → t < p := fun t ht => (below_uses k2.2.2.2 ht).2
      have hp := k2.2.1
      split
      · rename_i e
        subst e
        obtain ⟨b0, u0, e0⟩ := h0 hh k2.2.2.2 hf.2.2.1
        obtain ⟨b1, u1, e1⟩ := h1 hh k2.2.2.2 hf.2.2.2
        have hn : ∀ t, t < p → ¬ Uses t chi → ¬ Uses t c := by
          intro t ht hn hu
          rcases (k3 t (Nat.le_of_lt ht)).2 hu with h | h | h
          · omega
          · exact h
          · exact hn h
        refine ⟨below_or (b0.mono (Nat.le_of_lt hf.2.1)) (b1.mono (Nat.le_of_lt hf.2.1)), fun t ht => ?_, fun u v h hv => ?_⟩
        · rcases uses_or ht with g | g
          · obtain ⟨g1, g2⟩ := u0 t g
            exact ⟨.inr (.inl g1), hn t (hlo t g1) g2⟩
          · obtain ⟨g1, g2⟩ := u1 t g
            exact ⟨.inr (.inr g1), hn t (hhi t g1) g2⟩
        · rw [eval_or, Bool.or_eq_true]
          rw [eval] at hv
          split at hv
          · exact .inr (e1 u v (fun t ht hn' => h t (.inr (.inr ht)) (hn t (hhi t ht) hn')) hv)
          · exact .inl (e0 u v (fun t ht hn' => h t (.inr (.inl ht)) (hn t (hlo t ht) hn')) hv)
      · rename_i e
        obtain ⟨b0, u0, e0⟩ := h0 hc hb hf.2.2.1
        obtain ⟨b1, u1, e1⟩ := h1 hc hb hf.2.2.2
        have hl : ¬ Uses l c := by
          intro hu
          rcases (k3 l (Nat.le_refl _)).2 hu with h | h | h
          · exact e h.symm
          · exact h
          · have := hchi l h; omega
        refine ⟨below_mk hf.1 hf.2.1 b0 b1, fun t ht => ?_, fun u v h hv => ?_⟩
        · rcases uses_mk ht with g | g | g
          · rw [g]; exact ⟨.inl rfl, hl⟩
          · obtain ⟨g1, g2⟩ := u0 t g
            exact ⟨.inr (.inl g1), g2⟩
          · obtain ⟨g1, g2⟩ := u1 t g
            exact ⟨.inr (.inr g1), g2⟩
        · rw [eval_mk, ← h l (.inl rfl) hl]
          rw [eval] at hv
          split at hv
          · rename_i g
            rw [if_pos g]
            exact e1 u v (fun t ht hn' => h t (.inr (.inr ht)) hn') hv
          · rename_i g
            rw [if_neg g]
            exact e0 u v (fun t ht hn' => h t (.inr (.inl ht)) hn') hv

theorem lowest_spec {f : Cudd} : (f.lowest = none → ∃ b, f = leaf b) ∧ ∀ {n v}, Below n f → f.lowest = some v → Uses v f ∧ ∀ t, Uses t f → v ≤ t := by
  induction f with
  | leaf b =>
    constructor
    · intro _; exact ⟨b, rfl⟩
    · intro n v _ h; cases h
  | node l lo hi h0 h1 =>
    constructor
    · intro h; cases h
    intro n v hb h
    rw [lowest] at h
    have h := Option.some.inj h
    cases e0 : lo.lowest with
    | none =>
      obtain ⟨b0, rfl⟩ := h0.1 e0
      cases e1 : hi.lowest with
      | none =>
        obtain ⟨b1, rfl⟩ := h1.1 e1
        have h : l = v := h
        subst h
        exact ⟨.inl rfl, fun t ht => by rcases ht with h | h | h <;> first | exact Nat.le_of_eq h.symm | exact h.elim⟩
      | some b =>
        rw [e0, e1] at h
        have h : b = v := h
        subst h
        obtain ⟨k1, k2⟩ := h1.2 hb.2.2.2 e1
        have := (below_uses hb.2.2.2 k1).2
        refine ⟨.inr (.inr k1), ?_⟩
        rintro t (h | h | h)
        · omega
        · exact h.elim
        · exact k2 t h
    | some a =>
      obtain ⟨j1, j2⟩ := h0.2 hb.2.2.1 e0
      have := (below_uses hb.2.2.1 j1).2
      cases e1 : hi.lowest with
      | none =>
        obtain ⟨b1, rfl⟩ := h1.1 e1
        rw [e0] at h
        have h : a = v := h
        subst h
        refine ⟨.inr (.inl j1), ?_⟩
        rintro t (h | h | h)
        · omega
        · exact j2 t h
        · exact h.elim
      | some b =>
        rw [e0, e1] at h
        have h : min a b = v := h
        obtain ⟨k1, k2⟩ := h1.2 hb.2.2.2 e1
        refine ⟨?_, ?_⟩
        · by_cases hab : a ≤ b
          · rw [← h, Nat.min_eq_left hab]; exact .inr (.inl j1)
          · rw [← h, Nat.min_eq_right (by omega)]; exact .inr (.inr k1)
        · rintro t (h | h | h)
          · omega
          · have := j2 t h; omega
          · have := k2 t h; omega

end Cudd

namespace CnfB

open Cudd Sap

theorem litCube_var {j : Nat} : LitCube true (clauseVar j) := ⟨rfl, rfl⟩

/-- The loop ends, and its result is a larger set. -/
theorem shrink_spec {size : Cudd → Nat} {limit m : Nat} : ∀ (n k : Nat) (g : Cudd), Below m g → (∀ t, Uses t g → k ≤ t) → m ≤ n + k →
    ∃ h, shrink size limit (n + 1) g = some h ∧ Below m h ∧ (∀ t, Uses t h → Uses t g) ∧ ∀ u, g.eval u = true → h.eval u = true := by
  intro n
  induction n with
  | zero =>
    intro k g hb hk hm
    rw [shrink]
    cases e : g.lowest with
    | none => exact ⟨g, rfl, hb, fun t h => h, fun u h => h⟩
    | some v =>
      have h1 := (lowest_spec.2 hb e).1
      have := (below_uses hb h1).2
      have := hk v h1
      omega
  | succ n ih =>
    intro k g hb hk hm
    rw [shrink]
    cases e : g.lowest with
    | none => exact ⟨g, rfl, hb, fun t h => h, fun u h => h⟩
    | some v =>
      obtain ⟨v1, v2⟩ := lowest_spec.2 hb e
      have hv := below_uses hb v1
      have hkv := hk v v1
      have hcb : Below (v + 1) (clauseVar v) := below_lit (b := true) hv.1 (Nat.lt_succ_self _)
      obtain ⟨b1, u1, e1⟩ := exist_main litCube_var hcb hb
      have hle : ∀ t, Uses t (g.exist (clauseVar v)) → k + 1 ≤ t := by
        intro t ht
        obtain ⟨t1, t2⟩ := u1 t ht
        have := v2 t t1
        have : t ≠ v := fun e => t2 (.inl e)
        omega
      have heval : ∀ u, g.eval u = true → (g.exist (clauseVar v)).eval u = true := fun u h => e1 u u (fun _ _ _ => rfl) h
      dsimp only [Option.elim]
      split
      · obtain ⟨h, i1, i2, i3, i4⟩ := ih (k + 1) (g.exist (clauseVar v)) b1 hle (by omega)
        exact ⟨h, i1, i2, fun t ht => (u1 t (i3 t ht)).1, fun u hu => i4 u (heval u hu)⟩
      · exact ⟨_, rfl, b1, fun t ht => (u1 t ht).1, heval⟩

/-- A set of clauses that is found to be bad is not in the diagram. -/
theorem walk_sound {u : Nat → Bool} {g : Cudd} : ∀ {n : Nat} {ts : List Nat}, Below n g → ts.Pairwise (· > ·) → (∀ t, Uses t g → (u t = true ↔ t ∈ ts)) → walk g ts = some true → g.eval u = false := by
  induction g with
  | leaf b =>
    intro n ts _ _ _ h
    rw [walk] at h
    have h := Option.some.inj h
    cases b
    · rfl
    · exact nomatch h
  | node l lo hi h0 h1 =>
    intro n ts hb hs hu h
    cases ts with
    | nil => exact nomatch h
    | cons x xs =>
      rw [walk] at h
      have e := List.takeWhile_append_dropWhile (p := fun t => decide (l < t)) (l := x :: xs)
      have hA := List.all_takeWhile (p := fun t => decide (l < t)) (l := x :: xs)
      have hD := List.head?_dropWhile_not (p := fun t => decide (l < t)) (l := x :: xs)
      generalize (x :: xs).takeWhile (fun t => decide (l < t)) = A at e hA
      generalize (x :: xs).dropWhile (fun t => decide (l < t)) = D at e h hD
      rw [← e] at hs hu
      have hs := (List.pairwise_append.1 hs).2.1
      have hAl : ∀ t ∈ A, l < t := fun t ht => of_decide_eq_true (List.all_eq_true.1 hA t ht)
      have hu' : ∀ t, t ≤ l → Uses t (node l lo hi) → (u t = true ↔ t ∈ D) := by
        intro t htl ht
        rw [hu t ht, List.mem_append]
        exact ⟨fun h => h.resolve_left fun h => by have := hAl t h; omega, .inr⟩
      cases D with
      | nil => exact nomatch h
      | cons t D =>
        have htl : t ≤ l := by
          have hD : (!decide (l < t)) = true := by simpa using hD
          simpa using hD
        dsimp only at h
        split at h
        · rename_i e
          subst e
          rw [eval, (hu' l (Nat.le_refl _) (.inl rfl)).2 List.mem_cons_self, if_pos rfl]
          refine h1 hb.2.2.2 (List.pairwise_cons.1 hs).2 (fun t ht => ?_) h
          have htl := (below_uses hb.2.2.2 ht).2
          rw [hu' t (Nat.le_of_lt htl) (.inr (.inr ht)), List.mem_cons]
          exact ⟨fun h => h.resolve_left (by omega), .inr⟩
        · rename_i ne
          have hl : u l = false := by
            rw [← Bool.not_eq_true, hu' l (Nat.le_refl _) (.inl rfl)]
            intro hm
            rcases List.mem_cons.1 hm with h | h
            · exact ne h
            · have := (List.pairwise_cons.1 hs).1 l h
              omega
          rw [eval, hl, if_neg Bool.false_ne_true]
          refine h0 hb.2.2.1 hs (fun t ht => ?_) h
          have htl := (below_uses hb.2.2.1 ht).2
          exact hu' t (Nat.le_of_lt htl) (.inr (.inl ht))

end CnfB

end TdZdd
