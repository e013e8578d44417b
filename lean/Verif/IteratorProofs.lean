import Verif.Iterator
import Verif.TableSem
import Verif.Samples
import Verif.ListLemmas

/-! Proofs about `const_iterator`. -/

namespace TdZdd

/-- The itemsets below a node in order of visit, with the amount of work. -/
inductive Enum (T : Table 2) : NodeId → List (List Nat) → Nat → Prop
  | zero : Enum T .zero [] 1
  | one : Enum T .one [[]] 1
  | node {f : NodeId} {nd : Node 2} {L0 L1 : List (List Nat)} {w0 w1 : Nat} : 0 < f.row → T.node? f = some nd →
      Enum T (nd 0) L0 w0 → Enum T (nd 1) L1 w1 → Enum T f (L0 ++ L1.map (f.row :: ·)) (w0 + w1 + 1)

variable {T : Table 2}

theorem Enum.zero_inv {L : List (List Nat)} {w : Nat} (h : Enum T .zero L w) : L = [] ∧ w = 1 := by
  generalize e : NodeId.zero = f at h
  cases h with
  | zero => exact ⟨rfl, rfl⟩
  | one => cases e
  | node h => subst e; exact absurd h (by decide)

theorem Enum.one_inv {L : List (List Nat)} {w : Nat} (h : Enum T .one L w) : L = [[]] ∧ w = 1 := by
  generalize e : NodeId.one = f at h
  cases h with
  | zero => cases e
  | one => exact ⟨rfl, rfl⟩
  | node h => subst e; exact absurd h (by decide)

theorem Enum.pos {f : NodeId} {L : List (List Nat)} {w : Nat} (h : Enum T f L w) : 0 < w := by
  cases h <;> omega

theorem enum_exists (hw : T.Wf) : ∀ (r : Nat) {f : NodeId}, f.row ≤ r → T.Valid f → ∃ L w, Enum T f L w := by
  intro r
  induction r with
  | zero =>
    intro f hr hv
    rcases hv.row0 (by omega) with rfl | rfl
    · exact ⟨_, _, .zero⟩
    · exact ⟨_, _, .one⟩
  | succ r ih =>
    intro f hr hv
    by_cases h0 : f.row = 0
    · rcases hv.row0 h0 with rfl | rfl
      · exact ⟨_, _, .zero⟩
      · exact ⟨_, _, .one⟩
    · obtain ⟨nd, hn⟩ := hv.pos (by omega)
      have hc := fun b => hw.child (by omega) hn b
      obtain ⟨L0, w0, h0⟩ := ih (by have := (hc 0).2; omega) (hc 0).1
      obtain ⟨L1, w1, h1⟩ := ih (by have := (hc 1).2; omega) (hc 1).1
      exact ⟨_, _, .node (by omega) hn h0 h1⟩

/-- What is left to visit above position `k` of the path. -/
inductive Rem (T : Table 2) (p : List (NodeId × Bool)) : Nat → List (List Nat) → Nat → Prop
  | nil : Rem T p 0 [] 0
  | done {k : Nat} {L : List (List Nat)} {w : Nat} {g : NodeId} : Rem T p k L w → p[k]? = some (g, true) →
      (∃ nd, T.node? g = some nd) → Rem T p (k + 1) L w
  | todo {k : Nat} {L L1 : List (List Nat)} {w w1 : Nat} {g : NodeId} {nd : Node 2} : Rem T p k L w →
      p[k]? = some (g, false) → T.node? g = some nd → Enum T (nd 1) L1 w1 →
      Rem T p (k + 1) (L1.map (fun x => selected (p.take k) ++ g.row :: x) ++ L) (w1 + w)

theorem take_get {α : Type} {p q : List α} {k j : Nat} (h : p.take k = q.take k) (hj : j < k) : p[j]? = q[j]? := by
  have : (p.take k)[j]? = (q.take k)[j]? := by rw [h]
  simpa [List.getElem?_take, hj] using this

theorem take_take_eq {α : Type} {p q : List α} {k j : Nat} (h : p.take k = q.take k) (hj : j ≤ k) : p.take j = q.take j := by
  have : (p.take k).take j = (q.take k).take j := by rw [h]
  simpa [List.take_take, Nat.min_eq_left hj] using this

theorem Rem.congr {p q : List (NodeId × Bool)} {k : Nat} {L : List (List Nat)} {w : Nat} (h : Rem T p k L w) :
    p.take k = q.take k → Rem T q k L w := by
  induction h with
  | nil => intro _; exact .nil
  | done h1 h2 h3 ih =>
    intro e
    exact .done (ih (take_take_eq e (by omega))) ((take_get e (by omega)).symm.trans h2) h3
  | todo h1 h2 h3 h4 ih =>
    intro e
    rw [take_take_eq e (Nat.le_succ _)]
    exact .todo (ih (take_take_eq e (by omega))) ((take_get e (by omega)).symm.trans h2) h3 h4

theorem Rem.extend {p : List (NodeId × Bool)} {k : Nat} {L : List (List Nat)} {w : Nat} (h : Rem T p k L w) (d : Nat) :
    (∀ j, k ≤ j → j < k + d → ∃ g, p[j]? = some (g, true) ∧ ∃ nd, T.node? g = some nd) → Rem T p (k + d) L w := by
  induction d with
  | zero => intro _; exact h
  | succ d ih =>
    intro hj
    obtain ⟨g, hg, hn⟩ := hj (k + d) (by omega) (by omega)
    exact .done (ih fun j h1 h2 => hj j h1 (by omega)) hg hn

theorem selected_true (p : List (NodeId × Bool)) (f : NodeId) : selected (p ++ [(f, true)]) = selected p ++ [f.row] := by
  simp [selected]

theorem selected_false (p : List (NodeId × Bool)) (f : NodeId) : selected (p ++ [(f, false)]) = selected p := by
  simp [selected]

/-- Invariant of the iterator: `k = cursor + 1`. -/
structure IterInv (T : Table 2) (c : Int) (p : List (NodeId × Bool)) (L : List (List Nat)) (w : Nat) : Prop where
  cur : -1 ≤ c
  len : (c + 1).toNat ≤ p.length
  tail : ∀ j, (c + 1).toNat ≤ j → j < p.length → ∃ g, p[j]? = some (g, true) ∧ ∃ nd, T.node? g = some nd
  rem : Rem T p (c + 1).toNat L w

theorem not_term {f : NodeId} (h : 0 < f.row) : ¬ (f.row = 0 ∧ f.col ≤ 1) := by omega

/-- the part of a list of itemsets that starts at the present node -/
def found (f : NodeId) (p : List (NodeId × Bool)) : List (List Nat) := if f = .one then [selected p] else []

theorem iterDown_spec (hw : T.Wf) {f : NodeId} {Lf : List (List Nat)} {wf : Nat} (hE : Enum T f Lf wf) :
    ∀ (fuel : Nat) (c : Int) (p : List (NodeId × Bool)) (L : List (List Nat)) (w : Nat), f.row < fuel → IterInv T c p L w →
    ∃ g c' p' L' w', iterDown T fuel f ⟨c, p, []⟩ = some (g, ⟨c', p', []⟩) ∧ (g = .zero ∨ g = .one) ∧
      IterInv T c' p' L' w' ∧ w' < wf + w ∧ Lf.map (selected p ++ ·) ++ L = found g p' ++ L' := by
  induction hE with
  | zero =>
    intro fuel c p L w hf hi
    obtain ⟨fuel, rfl⟩ : ∃ m, fuel = m + 1 := ⟨fuel - 1, by have : NodeId.zero.row = 0 := rfl; omega⟩
    exact ⟨.zero, c, p, L, w, rfl, .inl rfl, hi, by omega, rfl⟩
  | one =>
    intro fuel c p L w hf hi
    obtain ⟨fuel, rfl⟩ : ∃ m, fuel = m + 1 := ⟨fuel - 1, by have : NodeId.one.row = 0 := rfl; omega⟩
    exact ⟨.one, c, p, L, w, rfl, .inr rfl, hi, by omega, by simp [found]⟩
  | @node f nd L0 L1 w0 w1 h0 hn h1 h2 ih1 ih2 =>
    intro fuel c p L w hf hi
    obtain ⟨fuel, rfl⟩ : ∃ m, fuel = m + 1 := ⟨fuel - 1, by omega⟩
    rw [iterDown, if_neg (not_term h0), hn, Option.bind_some]
    have hc := fun b => (hw.child h0 hn b).2
    by_cases hz : nd 0 = .zero
    · rw [if_neg (not_not_intro hz)]
      rw [hz] at h1
      obtain ⟨rfl, rfl⟩ := h1.zero_inv
      have hi' : IterInv T c (p ++ [(f, true)]) L w := by
        refine ⟨hi.cur, by have := hi.len; simp only [List.length_append, List.length_cons, List.length_nil]; omega, ?_, ?_⟩
        · intro j hj hl
          by_cases hjl : j < p.length
          · rw [List.getElem?_append_left hjl]; exact hi.tail j hj hjl
          · have : j = p.length := by simp only [List.length_append, List.length_cons, List.length_nil] at hl; omega
            subst this
            exact ⟨f, by simp, nd, hn⟩
        · exact hi.rem.congr (by rw [List.take_append_of_le_length hi.len])
      obtain ⟨g, c', p', L', w', e1, e2, e3, e4, e5⟩ := ih2 fuel c (p ++ [(f, true)]) L w (by have := hc 1; omega) hi'
      refine ⟨g, c', p', L', w', e1, e2, e3, by omega, ?_⟩
      rw [← e5, selected_true]
      simp
    · rw [if_pos hz]
      have hi' : IterInv T (p.length : Int) (p ++ [(f, false)])
          (L1.map (fun x => selected p ++ f.row :: x) ++ L) (w1 + w) := by
        have et : ((p.length : Int) + 1).toNat = p.length + 1 := by omega
        refine ⟨by omega, by rw [et]; simp, ?_, ?_⟩
        · intro j hj hl
          simp only [List.length_append, List.length_cons, List.length_nil] at hl
          omega
        · rw [et]
          have hr : Rem T p p.length L w := by
            have := hi.rem.extend (p.length - (c + 1).toNat) fun j h1 h2 => hi.tail j h1 (by omega)
            rwa [show (c + 1).toNat + (p.length - (c + 1).toNat) = p.length from by have := hi.len; omega] at this
          have := Rem.todo (hr.congr (q := p ++ [(f, false)]) (by simp)) (by simp) hn h2
          rwa [List.take_left'] at this
          rfl
      obtain ⟨g, c', p', L', w', e1, e2, e3, e4, e5⟩ := ih1 fuel p.length (p ++ [(f, false)]) _ _ (by have := hc 0; omega) hi'
      refine ⟨g, c', p', L', w', e1, e2, e3, by omega, ?_⟩
      rw [← e5, selected_false]
      simp [Function.comp_def]

theorem iterUp_spec {p : List (NodeId × Bool)} {k : Nat} {L : List (List Nat)} {w : Nat} (h : Rem T p k L w) :
    (L = [] ∧ iterUp T k p = some (none, -1, p)) ∨
    ∃ g c p' Lg wg L' w', iterUp T k p = some (some g, c, p') ∧ Enum T g Lg wg ∧ IterInv T c p' L' w' ∧ wg + w' ≤ w ∧
      L = Lg.map (selected p' ++ ·) ++ L' := by
  induction h with
  | nil => exact .inl ⟨rfl, rfl⟩
  | @done k L w g h1 h2 h3 ih =>
    obtain ⟨nd, hn⟩ := h3
    have e : iterUp T (k + 1) p = iterUp T k p := by
      rw [iterUp, h2, Option.bind_some, hn, Option.bind_some, if_neg (by simp)]
    rw [e]; exact ih
  | @todo k L L1 w w1 g nd h1 h2 h3 h4 ih =>
    by_cases hz : nd 1 = .zero
    · have e : iterUp T (k + 1) p = iterUp T k p := by
        rw [iterUp, h2, Option.bind_some, h3, Option.bind_some, if_neg (by simp [hz])]
      rw [hz] at h4
      obtain ⟨rfl, rfl⟩ := h4.zero_inv
      rw [e]
      rcases ih with ⟨rfl, e2⟩ | ⟨g', c, p', Lg, wg, L', w', i1, i2, i3, i4, i5⟩
      · exact .inl ⟨rfl, e2⟩
      · exact .inr ⟨g', c, p', Lg, wg, L', w', i1, i2, i3, by omega, by rw [i5]; rfl⟩
    · have hk := getElem?_lt h2
      have ep : (p.set k (g, true)).take (k + 1) = p.take k ++ [(g, true)] := by
        rw [List.set_eq_take_append_cons_drop, if_pos hk, List.take_append]
        simp [List.length_take, Nat.min_eq_left (Nat.le_of_lt hk), List.take_take]
      refine .inr ⟨nd 1, (k : Int), (p.set k (g, true)).take (k + 1), L1, w1, L, w, ?_, h4, ?_, Nat.le_refl _, ?_⟩
      · rw [iterUp, h2, Option.bind_some, h3, Option.bind_some, if_pos ⟨rfl, hz⟩]
      · have el : (p.take k).length = k := by rw [List.length_take]; omega
        have et : ((k : Int) + 1).toNat = k + 1 := by omega
        rw [ep]
        refine ⟨by omega, by rw [et]; simp [el], ?_, ?_⟩
        · intro j hj hl
          simp only [List.length_append, List.length_cons, List.length_nil, el] at hl
          omega
        · rw [et]
          refine .done (g := g) (h1.congr ?_) ?_ ⟨nd, h3⟩
          · rw [List.take_append_of_le_length (by omega), List.take_take, Nat.min_self]
          · rw [List.getElem?_append_right (by omega), el]; simp
      · rw [ep, selected_true]; simp

/-- the state after `next` when the itemsets `L` were left -/
def After (T : Table 2) (it : Iter) (L : List (List Nat)) (w : Nat) : Prop :=
  match L with
  | [] => it = Iter.fin
  | x :: L' => it.itemset = x ∧ ∃ w', IterInv T it.cursor it.path L' w' ∧ w' < w

theorem iterNext_spec (hw : T.Wf) : ∀ (fuel : Nat) {f : NodeId} {Lf : List (List Nat)} {wf : Nat} {c : Int}
    {p : List (NodeId × Bool)} {L : List (List Nat)} {w : Nat} (x : List Nat), Enum T f Lf wf → IterInv T c p L w → wf + w ≤ fuel →
    ∃ it, iterNext T fuel f ⟨c, p, x⟩ = some it ∧ After T it (Lf.map (selected p ++ ·) ++ L) (wf + w) := by
  intro fuel
  induction fuel with
  | zero => intro f Lf wf c p L w x hE _ hfu; have := hE.pos; omega
  | succ fuel ih =>
    intro f Lf wf c p L w x hE hi hfu
    obtain ⟨g, c', p', L', w', e1, e2, e3, e4, e5⟩ := iterDown_spec hw hE (f.row + 1) c p L w (Nat.lt_succ_self _) hi
    rw [iterNext]
    dsimp only
    rw [e1, Option.bind_some]
    dsimp only
    rcases e2 with rfl | rfl
    · rw [if_neg (by decide)]
      rw [e5]
      show ∃ it, _ = some it ∧ After T it ([] ++ L') _
      rcases iterUp_spec e3.rem with ⟨rfl, e6⟩ | ⟨g', c2, p2, Lg, wg, L2, w2, i1, i2, i3, i4, i5⟩
      · rw [e6, Option.bind_some]
        exact ⟨_, rfl, rfl⟩
      · rw [i1, Option.bind_some]
        obtain ⟨it, e7, e8⟩ := ih [] i2 i3 (by omega)
        refine ⟨it, e7, ?_⟩
        rw [i5]
        show After T it (Lg.map (selected p2 ++ ·) ++ L2) _
        unfold After at e8 ⊢
        split
        · rename_i h; rw [h] at e8; exact e8
        · rename_i x' l' h
          rw [h] at e8
          obtain ⟨a, w3, b, d⟩ := e8
          exact ⟨a, w3, b, by omega⟩
    · rw [if_pos rfl, e5]
      exact ⟨_, rfl, rfl, w', e3, e4⟩

theorem IterInv.not_fin {c : Int} {p : List (NodeId × Bool)} {L : List (List Nat)} {w : Nat} {x : List Nat}
    (h : IterInv T c p L w) : (Iter.mk c p x).same Iter.fin = false := by
  have := h.cur
  unfold Iter.same Iter.fin
  dsimp only
  rw [beq_false_of_ne (by omega)]
  rfl

theorem iterRun_spec (hw : T.Wf) (fuel : Nat) : ∀ (L : List (List Nat)) (it : Iter) (w : Nat), After T it L w → w ≤ fuel →
    iterRun T fuel (L.length + 1) it = some L := by
  intro L
  induction L with
  | nil =>
    intro it w h hf
    have : it = Iter.fin := h
    subst this
    rfl
  | cons x L ih =>
    intro it w h hf
    obtain ⟨hx, w', hi, hw'⟩ := h
    rw [List.length_cons, iterRun, hi.not_fin]
    obtain ⟨it', e, ha⟩ := iterNext_spec hw fuel it.itemset .zero hi (by omega)
    rw [if_neg (by decide), e, Option.bind_some, ih it' (1 + w') ha (by omega), Option.map_some, hx]

theorem iterate_spec {D : Dd 2} (hw : D.Wf) {L : List (List Nat)} {w : Nat} (h : Enum D.table D.root L w) :
    D.iterate w (L.length + 1) = some L := by
  have hi : IterInv D.table (-1) [] [] 0 := ⟨by omega, by decide, fun j _ h => absurd h (Nat.not_lt_zero _), .nil⟩
  obtain ⟨it, e, ha⟩ := iterNext_spec hw.table w [] h hi (Nat.le_refl _)
  unfold Dd.iterate Dd.begin
  rw [e, Option.bind_some]
  have e2 : L.map (selected [] ++ ·) ++ [] = L := by simp [selected]
  rw [e2] at ha
  exact iterRun_spec hw.table w L it _ ha (by omega)

/-! ### The bounds do not matter -/

theorem iterNext_mono {f : NodeId} {it it' : Iter} : ∀ {fuel fuel' : Nat}, fuel ≤ fuel' → iterNext T fuel f it = some it' →
    iterNext T fuel' f it = some it' := by
  intro fuel
  induction fuel generalizing f it with
  | zero => intro fuel' _ h; cases h
  | succ fuel ih =>
    intro fuel' hle h
    obtain ⟨m, rfl⟩ : ∃ m, fuel' = m + 1 := ⟨fuel' - 1, by omega⟩
    rw [iterNext] at h ⊢
    cases e1 : iterDown T (f.row + 1) f { it with itemset := [] } with
    | none => rw [e1] at h; cases h
    | some r =>
      rw [e1, Option.bind_some] at h
      rw [Option.bind_some]
      by_cases h1 : r.1 = .one
      · rw [if_pos h1] at h ⊢; exact h
      · rw [if_neg h1] at h ⊢
        cases e2 : iterUp T (r.2.cursor + 1).toNat r.2.path with
        | none => rw [e2] at h; cases h
        | some u =>
          rw [e2, Option.bind_some] at h
          rw [Option.bind_some]
          obtain ⟨g, c, p⟩ := u
          cases g with
          | none => exact h
          | some g => exact ih (by omega) h

theorem iterRun_mono {fuel fuel' : Nat} (hle : fuel ≤ fuel') : ∀ {steps steps' : Nat} {it : Iter} {L : List (List Nat)}, steps ≤ steps' →
    iterRun T fuel steps it = some L → iterRun T fuel' steps' it = some L := by
  intro steps
  induction steps with
  | zero => intro steps' it L _ h; cases h
  | succ steps ih =>
    intro steps' it L hs h
    obtain ⟨m, rfl⟩ : ∃ m, steps' = m + 1 := ⟨steps' - 1, by omega⟩
    rw [iterRun] at h ⊢
    by_cases hf : it.same Iter.fin = true
    · rw [if_pos hf] at h ⊢; exact h
    · rw [if_neg hf] at h ⊢
      cases e : iterNext T fuel .zero it with
      | none => rw [e] at h; cases h
      | some it' =>
        rw [e, Option.bind_some] at h
        rw [iterNext_mono hle e, Option.bind_some]
        cases e2 : iterRun T fuel steps it' with
        | none => rw [e2] at h; cases h
        | some L' => rw [e2] at h; rw [ih (by omega) e2]; exact h

theorem iterate_unique {D : Dd 2} {f s f' s' : Nat} {L L' : List (List Nat)} (h : D.iterate f s = some L)
    (h' : D.iterate f' s' = some L') : L = L' := by
  have up : ∀ {f s : Nat} {L : List (List Nat)} (m : Nat), f ≤ m → s ≤ m → D.iterate f s = some L → D.iterate m m = some L := by
    intro f s L m hf hs h
    unfold Dd.iterate Dd.begin at h ⊢
    cases e : iterNext D.table f D.root ⟨-1, [], []⟩ with
    | none => rw [e] at h; cases h
    | some it =>
      rw [e, Option.bind_some] at h
      rw [iterNext_mono hf e, Option.bind_some]
      exact iterRun_mono hf hs h
  have a := up (f + s + f' + s') (by omega) (by omega) h
  have b := up (f + s + f' + s') (by omega) (by omega) h'
  rw [a] at b
  exact Option.some.inj b

/-! ### Meaning of the enumeration -/

theorem Enum.bounds (hw : T.Wf) {f : NodeId} {L : List (List Nat)} {w : Nat} (h : Enum T f L w) :
    ∀ x ∈ L, x.Pairwise (· > ·) ∧ ∀ i ∈ x, 1 ≤ i ∧ i ≤ f.row := by
  induction h with
  | zero => intro x hx; cases hx
  | one => intro x hx; simp only [List.mem_singleton] at hx; subst hx; exact ⟨.nil, nofun⟩
  | @node f nd L0 L1 w0 w1 h0 hn h1 h2 ih1 ih2 =>
    intro x hx
    have hc := fun b => (hw.child h0 hn b).2
    rcases List.mem_append.1 hx with hx | hx
    · obtain ⟨a, b⟩ := ih1 x hx
      exact ⟨a, fun i hi => ⟨(b i hi).1, by have := (b i hi).2; have := hc 0; omega⟩⟩
    · obtain ⟨y, hy, rfl⟩ := List.mem_map.1 hx
      obtain ⟨a, b⟩ := ih2 y hy
      have hlt : ∀ i ∈ y, i < f.row := fun i hi => by have := (b i hi).2; have := hc 1; omega
      refine ⟨List.pairwise_cons.2 ⟨hlt, a⟩, ?_⟩
      intro i hi
      rcases List.mem_cons.1 hi with rfl | hi
      · exact ⟨h0, Nat.le_refl _⟩
      · exact ⟨(b i hi).1, Nat.le_of_lt (hlt i hi)⟩

/-- The order of visit: at the highest level where they differ, the first set lacks the level. -/
def SetLt (x y : List Nat) : Prop := ∃ i, i ∉ x ∧ i ∈ y ∧ ∀ j, i < j → (j ∈ x ↔ j ∈ y)

theorem Enum.sorted (hw : T.Wf) {f : NodeId} {L : List (List Nat)} {w : Nat} (h : Enum T f L w) : L.Pairwise SetLt := by
  induction h with
  | zero => exact .nil
  | one => exact List.pairwise_singleton _ _
  | @node f nd L0 L1 w0 w1 h0 hn h1 h2 ih1 ih2 =>
    have hc := fun b => (hw.child h0 hn b).2
    rw [List.pairwise_append]
    refine ⟨ih1, ?_, ?_⟩
    · rw [List.pairwise_map]
      refine List.Pairwise.imp_of_mem ?_ ih2
      rintro x y hx hy ⟨i, a, b, c⟩
      have hlt := ((h2.bounds hw y hy).2 i b).2
      have := hc 1
      refine ⟨i, ?_, List.mem_cons_of_mem _ b, ?_⟩
      · simp only [List.mem_cons, not_or]; exact ⟨by omega, a⟩
      · intro j hj
        simp only [List.mem_cons]
        rw [c j hj]
    · intro x hx y' hy'
      obtain ⟨y, hy, rfl⟩ := List.mem_map.1 hy'
      have hxl : ∀ i ∈ x, i < f.row := fun i hi => by have := ((h1.bounds hw x hx).2 i hi).2; have := hc 0; omega
      have hyl : ∀ i ∈ y, i < f.row := fun i hi => by have := ((h2.bounds hw y hy).2 i hi).2; have := hc 1; omega
      refine ⟨f.row, fun h => absurd (hxl _ h) (Nat.lt_irrefl _), List.mem_cons_self .., ?_⟩
      intro j hj
      constructor
      · intro h; have := hxl _ h; omega
      · intro h
        rcases List.mem_cons.1 h with e | h
        · omega
        · have := hyl _ h; omega

theorem pairwise_gt_ext : ∀ {x y : List Nat}, x.Pairwise (· > ·) → y.Pairwise (· > ·) → (∀ i, i ∈ x ↔ i ∈ y) → x = y := by
  intro x
  induction x with
  | nil =>
    intro y _ _ h
    cases y with
    | nil => rfl
    | cons b y => exact absurd ((h b).2 (List.mem_cons_self ..)) (by simp)
  | cons a x ih =>
    intro y hx hy h
    cases y with
    | nil => exact absurd ((h a).1 (List.mem_cons_self ..)) (by simp)
    | cons b y =>
      rw [List.pairwise_cons] at hx hy
      have hab : a = b := by
        rcases List.mem_cons.1 ((h a).1 (List.mem_cons_self ..)) with e | e
        · exact e
        · rcases List.mem_cons.1 ((h b).2 (List.mem_cons_self ..)) with e' | e'
          · exact e'.symm
          · have := hy.1 a e; have := hx.1 b e'; omega
      subst hab
      rw [ih hx.2 hy.2]
      intro i
      constructor
      · intro hi
        rcases List.mem_cons.1 ((h i).1 (List.mem_cons_of_mem _ hi)) with e | e
        · subst e; exact absurd (hx.1 _ hi) (Nat.lt_irrefl _)
        · exact e
      · intro hi
        rcases List.mem_cons.1 ((h i).2 (List.mem_cons_of_mem _ hi)) with e | e
        · subst e; exact absurd (hy.1 _ hi) (Nat.lt_irrefl _)
        · exact e

theorem asgOf_one {x : List Nat} {j : Nat} : asgOf x j = 1 ↔ j ∈ x := by
  unfold asgOf; split <;> simp_all

theorem Enum.mem_iff (hw : T.Wf) {f : NodeId} {L : List (List Nat)} {w : Nat} (h : Enum T f L w) :
    ∀ {n : Nat} {x : List Nat}, f.row ≤ n → x.Pairwise (· > ·) → (∀ i ∈ x, 1 ≤ i ∧ i ≤ n) → (x ∈ L ↔ TMem T n f (asgOf x)) := by
  induction h with
  | zero => intro n x _ _ _; exact ⟨fun h => (by cases h), fun h => absurd h not_tmem_zero⟩
  | one =>
    intro n x _ _ hb
    rw [tmem_one, List.mem_singleton]
    constructor
    · rintro rfl j _ _; rfl
    · intro h
      cases x with
      | nil => rfl
      | cons i x =>
        have hi := hb i (List.mem_cons_self ..)
        have := h i hi.1 hi.2
        rw [asgOf_one.2 (List.mem_cons_self ..)] at this
        cases this
  | @node f nd L0 L1 w0 w1 h0 hn h1 h2 ih1 ih2 =>
    intro n x hfn hx hb
    have hc := fun b => (hw.child h0 hn b).2
    rw [tmem_raise hw (Nat.le_refl f.row) hfn, tmem_node h0 hn]
    have h00 := hc 0
    have h01 := hc 1
    constructor
    · intro hm
      rcases List.mem_append.1 hm with hm | hm
      · have hl := fun i hi => ((h1.bounds hw x hm).2 i hi)
        have hz : ∀ j, f.row ≤ j → asgOf x j = 0 := fun j hj => if_neg fun h => by have := (hl j h).2; omega
        refine ⟨fun j h _ => by rw [hz j (by omega)]; rfl, ?_⟩
        rw [hz _ (Nat.le_refl _)]
        exact (ih1 (by omega) hx fun i hi => ⟨(hl i hi).1, by have := (hl i hi).2; omega⟩).1 hm
      · obtain ⟨y, hy, rfl⟩ := List.mem_map.1 hm
        have hl := fun i hi => ((h2.bounds hw y hy).2 i hi)
        have hz : ∀ j, f.row < j → asgOf (f.row :: y) j = 0 := fun j hj => if_neg fun h => by
          rcases List.mem_cons.1 h with e | h
          · omega
          · have := (hl j h).2; omega
        refine ⟨fun j h _ => by rw [hz j h]; rfl, ?_⟩
        rw [asgOf_one.2 (List.mem_cons_self ..)]
        refine tmem_congr hw (by omega) (a := asgOf y) ?_ ((ih2 (by omega) (List.pairwise_cons.1 hx).2 fun i hi =>
          ⟨(hl i hi).1, by have := (hl i hi).2; omega⟩).1 hy)
        intro j _ hj
        unfold asgOf
        have : j ≠ f.row := by omega
        simp [this]
    · rintro ⟨hz, hm⟩
      have hle : ∀ i ∈ x, i ≤ f.row := by
        intro i hi
        apply Classical.byContradiction
        intro hlt
        have := hz i (by omega) (hb i hi).2
        rw [asgOf_one.2 hi] at this
        cases this
      by_cases hr : f.row ∈ x
      · rw [asgOf_one.2 hr] at hm
        cases x with
        | nil => cases hr
        | cons i y =>
          rw [List.pairwise_cons] at hx
          have hi : i = f.row := by
            rcases List.mem_cons.1 hr with e | e
            · exact e.symm
            · have := hx.1 _ e; have := hle i (List.mem_cons_self ..); omega
          subst hi
          refine List.mem_append.2 (.inr (List.mem_map.2 ⟨y, (ih2 (n := f.row - 1) (by omega) hx.2 ?_).2 ?_, rfl⟩))
          · intro j hj
            have := hx.1 j hj
            exact ⟨(hb j (List.mem_cons_of_mem _ hj)).1, by omega⟩
          · refine tmem_congr hw (by omega) ?_ hm
            intro j _ hj
            unfold asgOf
            have : j ≠ f.row := by omega
            simp [this]
      · have e : asgOf x f.row = 0 := if_neg hr
        rw [e] at hm
        refine List.mem_append.2 (.inl ((ih1 (n := f.row - 1) (by omega) hx ?_).2 hm))
        intro j hj
        have h1 := hle j hj
        have h2 : j ≠ f.row := fun e => hr (e ▸ hj)
        exact ⟨(hb j hj).1, by omega⟩

end TdZdd
