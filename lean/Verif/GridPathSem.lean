import Verif.GridPathEdges
import Verif.SemanticsLemmas

/-! The family of the grid path specification. -/

namespace TdZdd.GridPath

open Sp

/-- the graph of the edges below number `e` that are in `a` -/
def graph (E : List (Nat × Nat)) (a : Asg 2) (e x y : Nat) : Prop := ∃ k, k < e ∧ (E[k]? = some (x, y) ∨ E[k]? = some (y, x)) ∧ a (E.length - k) = 1

theorem graph_zero (E : List (Nat × Nat)) (a : Asg 2) : graph E a 0 = fun _ _ => False := by
  funext x y
  exact propext ⟨fun ⟨k, h, _⟩ => absurd h (Nat.not_lt_zero k), fun h => h.elim⟩

theorem graph_succ {E : List (Nat × Nat)} {a : Asg 2} {e v w : Nat} (he : E[e]? = some (v, w)) : graph E a (e + 1) = nextA (graph E a e) v w (a (E.length - e)) := by
  funext x y
  apply propext
  unfold nextA
  by_cases hb : a (E.length - e) = 1
  · rw [if_pos hb]
    constructor
    · rintro ⟨k, hk, h1, h2⟩
      by_cases g : k = e
      · subst g
        rw [he] at h1
        rcases h1 with h1 | h1 <;> cases h1
        · exact .inr (.inl ⟨rfl, rfl⟩)
        · exact .inr (.inr ⟨rfl, rfl⟩)
      · exact .inl ⟨k, by omega, h1, h2⟩
    · rintro (⟨k, hk, h⟩ | ⟨rfl, rfl⟩ | ⟨rfl, rfl⟩)
      · exact ⟨k, by omega, h⟩
      · exact ⟨e, by omega, .inl he, hb⟩
      · exact ⟨e, by omega, .inr he, hb⟩
  · rw [if_neg hb]
    constructor
    · rintro ⟨k, hk, h1, h2⟩
      by_cases g : k = e
      · subst g; exact absurd h2 hb
      · exact ⟨k, by omega, h1, h2⟩
    · rintro ⟨k, hk, h⟩
      exact ⟨k, by omega, h⟩

theorem graph_ext (E : List (Nat × Nat)) (a : Asg 2) {e : Nat} (he : e ≤ E.length) : Ext E e (graph E a e) (graph E a E.length) where
  sub := fun _ _ ⟨k, hk, h⟩ => ⟨k, by omega, h⟩
  new := fun x y ⟨k, hk, h1, h2⟩ => by
    by_cases g : k < e
    · exact .inl ⟨k, g, h1, h2⟩
    · exact .inr ⟨k, by omega, h1⟩

variable {rows cols : Nat}

/-- the vertices of the initial state -/
def M0 (rows cols : Nat) : Nat → Int := fun v => if v = 1 ∨ v = rows * cols then -1 else (v : Int)

theorem root_eq (hr : 1 ≤ rows) (hc : 1 ≤ cols) (hb : rows * cols * 2 < 2 ^ 31) : (simpath rows cols).root =
    (((edges rows cols).length : Int), (List.range (cols + 1)).map fun i => if i = 0 then -1 else dflt (rows * cols) (i + 1)) :=
  if_pos ⟨hb, edges_length hr hc⟩

theorem edges_pos (hc : 1 ≤ cols) (h2 : 1 < rows * cols) : 0 < (edges rows cols).length := by
  obtain ⟨w, hw⟩ := group_some (k := 0) (rows := rows) hc (by omega)
  exact List.length_pos_of_mem hw

theorem root_si (hc : 1 ≤ cols) (h2 : 1 < rows * cols) :
    SI (edges rows cols) (rows * cols) (cols + 1) 0 ((List.range (cols + 1)).map fun i => if i = 0 then -1 else dflt (rows * cols) (i + 1))
      (fun _ _ => False) (M0 rows cols) where
  inv := inv_empty (by omega)
  sub := fun _ _ h => h.elim
  lt := edges_pos hc h2
  st_eq := by
    intro v w h
    rw [edges_first hc h]
    unfold win
    apply List.map_congr_left
    intro i _
    unfold M0 dflt
    by_cases h0 : i = 0
    · rw [if_pos h0, if_pos (.inl (by omega))]
    · rw [if_neg h0]
      by_cases h1 : i + 1 = rows * cols
      · rw [if_pos h1, if_pos (.inr (by omega))]
      · rw [if_neg h1, if_neg (by omega), Nat.add_comm]
  low := by
    intro v w h x hx
    rw [edges_first hc h] at hx
    exact .inl (by unfold M0; rw [if_neg (by omega)]; omega)
  high := fun _ _ _ _ _ _ h => h

/-- one call of `getChild` -/
theorem child_step (hc : 1 ≤ cols) (h2 : 1 < rows * cols) {e l : Nat} {st : List Int} {A : Nat → Nat → Prop} {M : Nat → Int}
    (h : SI (edges rows cols) (rows * cols) (cols + 1) e st A M) (hl : e + l = (edges rows cols).length) (b : Fin 2) :
    ∃ v w, (edges rows cols)[e]? = some (v, w) ∧
      (((simpath rows cols).child st l b).1 = 0 ∧ (∀ B, Ext (edges rows cols) (e + 1) (nextA A v w b) B → ¬ IsPath B 1 (rows * cols)) ∨
      (((simpath rows cols).child st l b).1 = -1 ∧ IsPath (nextA A v w b) 1 (rows * cols)) ∨
      (((simpath rows cols).child st l b).1 = (l : Int) - 1 ∧ 1 < l ∧
        ∃ M', SI (edges rows cols) (rows * cols) (cols + 1) (e + 1) ((simpath rows cols).child st l b).2 (nextA A v w b) M')) := by
  have hlt := h.lt
  obtain ⟨⟨v, w⟩, he⟩ : ∃ p, (edges rows cols)[e]? = some p := ⟨_, List.getElem?_eq_getElem hlt⟩
  obtain ⟨c, st', h1, h3⟩ := h.step (edgeFacts hc h2) he hl b
  refine ⟨v, w, he, ?_⟩
  have hch : (simpath rows cols).child st l b = (c, st') := by
    show (getChild rows cols st l b).getD _ = _
    unfold getChild
    rw [if_pos (by omega), show (edges rows cols).length - l = e by omega, he, Option.bind_some]
    exact congrArg (fun o : Option (Int × List Int) => o.getD (ubCode l, st)) h1
  rw [hch]
  exact h3

theorem reach_si (hr : 1 ≤ rows) (hc : 1 ≤ cols) (h2 : 1 < rows * cols) (hb : rows * cols * 2 < 2 ^ 31) {c : Int} {st : List Int} (h : Reach (simpath rows cols) c st) :
    -1 ≤ c ∧ ∀ l : Nat, 0 < l → c = l → ∃ e A M, e + l = (edges rows cols).length ∧ SI (edges rows cols) (rows * cols) (cols + 1) e st A M := by
  induction h with
  | root =>
    rw [root_eq hr hc hb]
    refine ⟨by show (-1 : Int) ≤ ((edges rows cols).length : Int); omega, fun l _ he => ⟨0, _, _, ?_, root_si hc h2⟩⟩
    have : ((edges rows cols).length : Int) = l := he
    omega
  | @step n s b hn _ ih =>
    obtain ⟨e, A, M, he, hs⟩ := ih.2 n hn rfl
    obtain ⟨v, w, _, ⟨h1, _⟩ | ⟨h1, _⟩ | ⟨h1, h3, M', h4⟩⟩ := child_step hc h2 hs he b
    · rw [h1]; exact ⟨by decide, fun l _ _ => by omega⟩
    · rw [h1]; exact ⟨by decide, fun l _ _ => by omega⟩
    · rw [h1]
      exact ⟨by omega, fun l _ _ => ⟨e + 1, _, M', by omega, h4⟩⟩

theorem desc (hr : 1 ≤ rows) (hc : 1 ≤ cols) (hb : rows * cols * 2 < 2 ^ 31) : Desc (simpath rows cols) := by
  by_cases h2 : 1 < rows * cols
  · refine ⟨(reach_si hr hc h2 hb .root).1, fun {n s} b hn h => ?_, fun {n s} b hn h => (reach_si hr hc h2 hb (h.step b hn)).1⟩
    obtain ⟨e, A, M, he, hs⟩ := (reach_si hr hc h2 hb h).2 n hn rfl
    obtain ⟨v, w, _, ⟨h1, _⟩ | ⟨h1, _⟩ | ⟨h1, h3, _⟩⟩ := child_step hc h2 hs he b <;> omega
  · have hrc : rows * cols = 1 := by have := Nat.mul_le_mul hr hc; omega
    have e1 : rows = 1 := Nat.eq_one_of_mul_eq_one_right hrc
    have e2 : cols = 1 := by rw [e1, Nat.one_mul] at hrc; exact hrc
    subst e1; subst e2
    have hno : ∀ {c : Int} {s}, Reach (simpath 1 1) c s → c = 0 := by
      intro c s h
      induction h with
      | root => rfl
      | @step n s b hn _ ih => omega
    exact ⟨by decide, fun b hn h => by have := hno h; omega, fun b hn h => by have := hno h; omega⟩

theorem fin2_zero {x : Fin 2} (h : x ≠ 1) : x.val = 0 := by
  have := x.isLt
  have : x.val ≠ 1 := fun e => h (Fin.ext e)
  omega

theorem mem_at (hr : 1 ≤ rows) (hc : 1 ≤ cols) (h2 : 1 < rows * cols) (hb : rows * cols * 2 < 2 ^ 31) (a : Asg 2) : ∀ (l e : Nat) (st : List Int) (M : Nat → Int),
    0 < l → e + l = (edges rows cols).length → Reach (simpath rows cols) l st → SI (edges rows cols) (rows * cols) (cols + 1) e st (graph (edges rows cols) a e) M →
    (ZddMemAt (simpath rows cols) l l st a ↔ IsPath (graph (edges rows cols) a (edges rows cols).length) 1 (rows * cols)) := by
  intro l
  induction l with
  | zero => intro _ _ _ h; omega
  | succ l ih =>
    intro e st M hl he hreach hs
    rw [zddMemAt_pos (desc hr hc hb) hl hreach (Nat.le_refl _)]
    have hv : (∀ j, l + 1 < j → j ≤ l + 1 → (a j).val = 0) := fun j _ _ => by omega
    have hred : ∀ P : Prop, ((∀ j, l + 1 < j → j ≤ l + 1 → (a j).val = 0) ∧ P) ↔ P := fun P => ⟨And.right, And.intro hv⟩
    rw [hred, Nat.add_sub_cancel]
    obtain ⟨v, w, hvw, hcase⟩ := child_step hc h2 hs he (a (l + 1))
    have hidx : (edges rows cols).length - e = l + 1 := by omega
    rw [← hidx, ← graph_succ hvw, hidx] at hcase
    have hext := graph_ext (edges rows cols) a (e := e + 1) (by omega)
    rcases hcase with ⟨h1, h3⟩ | ⟨h1, h3⟩ | ⟨h1, h3, M', h4⟩
    · rw [h1]
      exact ⟨fun h => absurd h zddMemAt_zero, fun h => absurd h (h3 _ hext)⟩
    · rw [h1, zddMemAt_neg (by decide)]
      constructor
      · intro hz
        have hg : graph (edges rows cols) a (edges rows cols).length = graph (edges rows cols) a (e + 1) := by
          funext x y
          apply propext
          refine ⟨fun ⟨k, hk, h5, h6⟩ => ?_, hext.sub x y⟩
          by_cases g : k < e + 1
          · exact ⟨k, g, h5, h6⟩
          · have := hz ((edges rows cols).length - k) (by omega) (by omega)
            rw [h6] at this
            exact absurd this (by decide)
        rw [hg]; exact h3
      · intro hp j hj1 hj2
        apply fin2_zero
        intro hj
        obtain ⟨n, f, hf, f0, fn, _⟩ := h3
        have hsup := (hp.super hext.sub ⟨n, f, hf, f0, fn⟩).2
        have hlt : (edges rows cols).length - j < (edges rows cols).length := by omega
        obtain ⟨⟨x, y⟩, hget⟩ : ∃ p, (edges rows cols)[(edges rows cols).length - j]? = some p := ⟨_, List.getElem?_eq_getElem hlt⟩
        obtain ⟨k, hk, h5, _⟩ := hsup x y ⟨_, hlt, .inl hget, by rw [show (edges rows cols).length - ((edges rows cols).length - j) = j by omega]; exact hj⟩
        have hF := edgeFacts (rows := rows) hc h2
        have e1 := hF.edge hget
        rcases h5 with h5 | h5
        · have := (List.getElem?_inj hlt hF.nodup).1 (hget.trans h5.symm)
          omega
        · have := hF.edge h5
          omega
    · have hr' := hreach.step (a (l + 1)) hl
      have hcast : ((l + 1 : Nat) : Int) - 1 = (l : Nat) := by omega
      rw [h1, hcast] at hr' ⊢
      exact ih (e + 1) _ M' (by omega) (by omega) hr' h4

theorem mem_iff (hr : 1 ≤ rows) (hc : 1 ≤ cols) (h2 : 1 < rows * cols) (hb : rows * cols * 2 < 2 ^ 31) (a : Asg 2) :
    ZddMem (simpath rows cols) (edges rows cols).length a ↔ IsPath (graph (edges rows cols) a (edges rows cols).length) 1 (rows * cols) := by
  have hs := root_si hc h2
  rw [← graph_zero (edges rows cols) a] at hs
  have hreach := Reach.root (sp := simpath rows cols)
  show ZddMemAt _ _ (simpath rows cols).root.1 (simpath rows cols).root.2 a ↔ _
  rw [root_eq hr hc hb] at hreach ⊢
  exact mem_at hr hc h2 hb a _ 0 _ _ (edges_pos hc h2) (by omega) hreach hs

end TdZdd.GridPath
