import Verif.SapporoLibProofs
import Verif.Props.Evaluate

namespace TdZdd

namespace Sap

/-! ## The loop of `SapporoZdd` for any order of the variables -/

/-- the empty set is a member -/
def emp : Zb → Bool
  | .leaf b => b
  | .node _ lo _ => emp lo

theorem emp_iff {f : Zb} : ∀ {n : Nat}, emp f = true ↔ f.Mem n (fun _ => false) := by
  induction f with
  | leaf b => exact ⟨fun h => ⟨h, fun _ _ _ => rfl⟩, fun h => h.1⟩
  | node l lo hi h0 h1 =>
    intro n
    rw [Zb.mem_node_iff, emp, h0 (n := l)]
    exact ⟨fun h => ⟨fun _ _ _ => rfl, Or.inr ⟨rfl, h⟩⟩, fun h => h.2.elim (fun h => absurd h.1 Bool.false_ne_true) fun h => h.2⟩

theorem emp_mk {l : Nat} {lo hi : Zb} : emp (Zb.mk l lo hi) = emp lo := by
  unfold Zb.mk
  split <;> rfl

theorem emp_offSet {l : Nat} {f : Zb} : emp (f.offSet l) = emp f := by
  induction f with
  | leaf b => rfl
  | node m lo hi h0 h1 =>
    rw [Zb.offSet]
    split
    · rfl
    · rw [emp_mk, h0]
      rfl

theorem below_offSet {l : Nat} {f : Zb} : ∀ {n : Nat}, f.Below n → (f.offSet l).Below n := by
  induction f with
  | leaf b => exact fun _ => trivial
  | node m lo hi h0 h1 =>
    intro n h
    rw [Zb.offSet]
    split
    · exact h.2.2.1.mono (by have := h.2.1; omega)
    · exact Zb.below_mk h.1 h.2.1 (h0 h.2.2.1) (h1 h.2.2.2)

theorem strip_some {o : VarOrder} (ho : o.Ok) : ∀ (fuel : Nat) {f g : Zb}, f.Below (o.used + 1) → strip o fuel f = some g → ∃ b, g = .leaf b ∧ b = emp f
  | 0, _, _, _, h => by cases h
  | fuel + 1, f, g, hf, h => by
    cases f with
    | leaf b =>
      rw [strip, top_leaf, Option.bind_some, if_neg (by omega)] at h
      exact ⟨b, (Option.some.inj h).symm, rfl⟩
    | node l lo hi =>
      have hl := hf.2.1
      rw [strip, top_node ho hf.1 (by omega), Option.bind_some, if_pos (show 1 ≤ l from hf.1)] at h
      obtain ⟨v, _, h⟩ := Option.bind_eq_some_iff.1 h
      obtain ⟨k, _, h⟩ := Option.bind_eq_some_iff.1 h
      obtain ⟨b, e, hb⟩ := strip_some ho fuel (below_offSet hf) h
      exact ⟨b, e, by rw [hb, emp_offSet]⟩

/-! ## `ToZBDD` -/

/-- the recursion of `ToZBDD` -/
def zNode (offset : Int) (i : Nat) (vs : Fin 2 → Zb × Nat) : Zb :=
  if 0 < (i : Int) + offset then (vs 0).1.union ((vs 1).1.change ((i : Int) + offset).toNat) else (vs 0).1

theorem grow_spec {o : VarOrder} (ho : o.Ok) (n : Int) : (o.grow n).Ok ∧ n ≤ (o.grow n).used ∧ o.used ≤ (o.grow n).used ∧ ((o.grow n).used : Int) = max (o.used : Int) n := by
  obtain ⟨h1, h2, _⟩ := VarOrder.newVars_spec (n - o.used).toNat o ho
  unfold VarOrder.grow
  rw [h2]
  exact ⟨h1, by omega, by omega, by omega⟩

theorem low_val {offset : Int} {S : Nat → Bool} {j : Nat} : (low offset S j).val = 0 ↔ (0 < (j : Int) + offset → S ((j : Int) + offset).toNat = false) := by
  unfold low
  split
  · rename_i h
    constructor
    · intro h'
      cases h'
    · intro h'
      rw [h' h.1] at h
      cases h.2
  · rename_i h
    refine ⟨fun _ hp => ?_, fun _ => rfl⟩
    cases e : S ((j : Int) + offset).toNat
    · rfl
    · exact absurd ⟨hp, e⟩ h

theorem fold_mem {T : Table 2} (hw : T.Wf) {offset : Int} {f : NodeId} {v : Zb} (h : FoldVal T (fun j => Zb.leaf (decide (j ≠ 0))) (zNode offset) f v) (hv : T.Valid f) :
    v.Below (((f.row : Int) + offset).toNat + 1) ∧ (∀ t, v.Uses t → offset < t) ∧
    ∀ S, v.Mem (((f.row : Int) + offset).toNat + 1) S ↔ TMem T f.row f (low offset S) ∧ ∀ j : Nat, 0 < j → (j : Int) ≤ offset → S j = false := by
  induction h with
  | @term f h0 =>
    refine ⟨trivial, fun t h => h.elim, fun S => ?_⟩
    have hz : (∀ j : Nat, 0 < j → j < ((f.row : Int) + offset).toNat + 1 → S j = false) ↔ ∀ j : Nat, 0 < j → (j : Int) ≤ offset → S j = false := by
      rw [h0]
      exact ⟨fun h j h1 h2 => h j h1 (by omega), fun h j h1 h2 => h j h1 (by omega)⟩
    show (_ ∧ _) ↔ _
    rw [hz]
    rcases hv.row0 h0 with rfl | rfl
    · exact ⟨fun h => absurd h.1 Bool.false_ne_true, fun h => absurd h.1 not_tmem_zero⟩
    · have : TMem T NodeId.one.row .one (low offset S) := tmem_one.2 fun j h1 h2 => by
        have : j ≤ 0 := h2
        omega
      exact ⟨fun h => ⟨this, h.2⟩, fun h => ⟨rfl, h.2⟩⟩
  | @node f nd vs h0 hn _ ih =>
    have c0 := hw.child h0 hn 0
    have c1 := hw.child h0 hn 1
    obtain ⟨b0, u0, m0⟩ := ih 0 c0.1
    obtain ⟨b1, u1, m1⟩ := ih 1 c1.1
    have r0 := c0.2
    have r1 := c1.2
    have hrow : ∀ S, TMem T f.row f (low offset S) ↔ TMem T (f.row - 1) (nd (low offset S f.row)) (low offset S) := fun S => tmem_node h0 hn
    unfold zNode
    by_cases hp : 0 < (f.row : Int) + offset
    · rw [if_pos hp]
      have hL : ∃ L : Nat, (f.row : Int) + offset = L := ⟨((f.row : Int) + offset).toNat, by omega⟩
      obtain ⟨L, hL⟩ := hL
      have hL0 : 0 < L := by omega
      rw [hL, Int.toNat_natCast]
      show ((vs 0).union ((vs 1).change L)).Below _ ∧ (∀ t, ((vs 0).union ((vs 1).change L)).Uses t → _) ∧ ∀ S, ((vs 0).union ((vs 1).change L)).Mem _ S ↔ _
      have b0' : (vs 0).Below L := b0.mono (by omega)
      have b1' : (vs 1).Below L := b1.mono (by omega)
      rw [Zb.change_above b1']
      have bm : (Zb.mk L (.leaf false) (vs 1)).Below (L + 1) := Zb.below_mk hL0 (by omega) trivial b1'
      refine ⟨Zb.below_union (b0'.mono (by omega)) bm, fun t ht => ?_, fun S => ?_⟩
      · rcases Zb.uses_union ht with h | h
        · exact u0 t h
        · rcases Zb.uses_mk h with h | h | h
          · omega
          · exact h.elim
          · exact u1 t h
      · have lower : ∀ (c : NodeId) (v : Zb), c.row < f.row → v.Below (((c.row : Int) + offset).toNat + 1) →
            (∀ S, v.Mem (((c.row : Int) + offset).toNat + 1) S ↔ TMem T c.row c (low offset S) ∧ ∀ j : Nat, 0 < j → (j : Int) ≤ offset → S j = false) →
            (v.Mem L S ↔ TMem T (f.row - 1) c (low offset S) ∧ ∀ j : Nat, 0 < j → (j : Int) ≤ offset → S j = false) := by
          intro c v hc hb hm
          rw [Zb.mem_raise hb (by omega) (by omega : _ ≤ L), hm, tmem_raise hw (Nat.le_refl c.row) (by omega : c.row ≤ f.row - 1)]
          have hz : (∀ j, ((c.row : Int) + offset).toNat + 1 ≤ j → j < L → S j = false) ↔ ∀ j, c.row < j → j ≤ f.row - 1 → (low offset S j).val = 0 := by
            constructor
            · intro h j h1 h2
              rw [low_val]
              intro hp
              exact h _ (by omega) (by omega)
            · intro h j h1 h2
              have := h ((j : Int) - offset).toNat (by omega) (by omega)
              rw [low_val] at this
              have e : ((((j : Int) - offset).toNat : Int) + offset).toNat = j := by omega
              rw [e] at this
              exact this (by omega)
          rw [hz, and_assoc]
        have hc : low offset S f.row = if S L then 1 else 0 := by
          unfold low
          rw [hL, Int.toNat_natCast]
          by_cases e : S L = true
          · rw [if_pos e, if_pos ⟨by omega, e⟩]
          · rw [if_neg e, if_neg fun h => e h.2]
        rw [Zb.mem_union (b0'.mono (by omega)) bm, Zb.mem_mk (lo := .leaf false) hL0 (by omega) trivial, Zb.mem_node_iff, Zb.mem_lower hL0 (by omega) b0', hrow, hc, lower (nd 0) (vs 0) r0 b0 m0, lower (nd 1) (vs 1) r1 b1 m1]
        have hv : ∀ j, L < j → j < L + 1 → S j = false := fun j h1 h2 => by omega
        have hf : ¬ (Zb.leaf false).Mem L S := Zb.not_mem_false
        cases S L
        · simp [hf]
          intro _ _ j h1 h2
          omega
        · simp [hf]
          intro _ _ j h1 h2
          omega
    · rw [if_neg hp]
      have e0 : ((f.row : Int) + offset).toNat = 0 := by omega
      have e1 : (((nd 0).row : Int) + offset).toNat = 0 := by omega
      rw [e1] at b0 m0
      rw [e0]
      refine ⟨b0, u0, fun S => ?_⟩
      show (vs 0).Mem (0 + 1) S ↔ _
      rw [m0, hrow]
      have hc : low offset S f.row = 0 := by
        unfold low
        rw [if_neg fun h => hp h.1]
      rw [hc, tmem_raise hw (Nat.le_refl (nd 0).row) (by omega : (nd 0).row ≤ f.row - 1)]
      exact ⟨fun h => ⟨⟨fun j h1 h2 => low_val.2 fun hj => by omega, h.1⟩, h.2⟩, fun h => ⟨h.1.2, h.2⟩⟩

theorem toZbdd_sim {o : VarOrder} (ho : o.Ok) (offset : Int) (n : Nat) :
    (toZbdd o offset).Sim n (fun s => s = o.grow ((n : Int) + offset)) (fun _ t v => t = v) (fun j => Zb.leaf (decide (j ≠ 0))) (zNode offset) where
  start := rfl
  term := fun {s j} hs _ => ⟨s, _, rfl, hs, rfl⟩
  node := by
    intro s i vals vs hs h1 h2 h
    have e0 : (vals 0).1 = vs 0 := (h 0).1
    have e1 : (vals 1).1 = vs 1 := (h 1).1
    obtain ⟨g1, g2, _⟩ := grow_spec ho ((n : Int) + offset)
    rw [← hs] at g1 g2
    by_cases hp : 0 < (i : Int) + offset
    · refine ⟨s, zNode offset i fun b => (vs b, (vals b).2), ?_, hs, rfl⟩
      show (if _ then _ else _) = _
      rw [if_pos hp, VarOrder.varOfLev_of (l := ((i : Int) + offset).toNat) (by omega) (by omega) (by omega), Option.bind_some, g1.levOfVar_var (by omega) (by omega), Option.map_some, e0, e1]
      unfold zNode
      rw [if_pos hp]
    · refine ⟨s, zNode offset i fun b => (vs b, (vals b).2), ?_, hs, rfl⟩
      show (if _ then _ else _) = _
      rw [if_neg hp, e0]
      unfold zNode
      rw [if_neg hp]
  clean := fun hs _ _ => hs

/-! ## `SapporoBdd` -/

theorem bTop_node {o : VarOrder} (ho : o.Ok) {l : Nat} {lo hi : Cudd} (h0 : 0 < l) (hl : l ≤ o.used) : bTop o (.node l lo hi) ≠ 0 ∧ o.levOfVar (bTop o (.node l lo hi)) = some l :=
  ⟨by have := (ho.var l h0 hl).1; show o.var l ≠ 0; omega, ho.levOfVar_var h0 hl⟩

theorem bLevel_leaf {o : VarOrder} {offset : Int} {b : Bool} : bLevel o offset (.leaf b) = some (if b then -1 else 0) := by
  unfold bLevel
  rw [if_pos (show bTop o (.leaf b) = 0 from rfl)]
  cases b <;> rfl

theorem bLevel_node {o : VarOrder} (ho : o.Ok) {offset : Int} {l : Nat} {lo hi : Cudd} (h0 : 0 < l) (hl : l ≤ o.used) :
    bLevel o offset (.node l lo hi) = if offset < l then some ((l : Int) - offset) else none := by
  obtain ⟨h1, h2⟩ := bTop_node ho (lo := lo) (hi := hi) h0 hl
  unfold bLevel
  rw [if_neg h1, h2, Option.bind_some]
  by_cases h : offset < l
  · rw [if_pos h, if_pos (by omega)]
  · rw [if_neg h, if_neg (by omega)]

theorem bChild_node {o : VarOrder} (ho : o.Ok) {offset : Int} {l n take : Nat} {lo hi : Cudd} (h : (n : Int) = l - offset) (h0 : 0 < l) (hl : l ≤ o.used) (hb0 : lo.Below l) (hb1 : hi.Below l) :
    bChild o offset (.node l lo hi) n take = (bLevel o offset (if take ≠ 0 then hi else lo)).map fun k => (k, if take ≠ 0 then hi else lo) := by
  unfold bChild
  rw [VarOrder.varOfLev_of (l := l) (by omega) h0 hl, Option.bind_some, ho.levOfVar_var h0 hl, Option.bind_some]
  dsimp only
  have e : Cudd.cof l (decide (take ≠ 0)) (.node l lo hi) = if take ≠ 0 then hi else lo := by
    rw [Cudd.cof_root]
    simp
  rw [e]
  have hb : (if take ≠ 0 then hi else lo).Below l := by
    split
    · exact hb1
    · exact hb0
  generalize (if take ≠ 0 then hi else lo) = g at hb ⊢
  cases g with
  | leaf b => rw [bLevel_leaf, Option.bind_some, if_pos (Or.inl (show bTop o (.leaf b) = 0 from rfl)), Option.map_some]
  | node m mlo mhi =>
    rw [bLevel_node ho hb.1 (by have := hb.2.1; omega)]
    split
    · rw [Option.bind_some, if_pos (Or.inr (by have := hb.2.1; omega)), Option.map_some]
    · rfl

theorem sapporoBdd_lawful {o : VarOrder} (ho : o.Ok) (hash : Cudd → Nat) {f : Cudd} (hf : f.Below (o.used + 1)) {offset : Int} (hu : ∀ t, Uses t f → offset < t) :
    LawfulC (sapporoBdd o hash f offset) ∧ (sapporoBdd o hash f offset).root.1 ≤ max 0 ((o.used : Int) - offset) ∧
    ∀ a, BddSat (sapporoBdd o hash f offset) a ↔ f.eval (up offset a) = true := by
  have hlev : ∀ {g : Cudd} {m : Nat}, g.Below (m + 1) → m ≤ o.used → (∀ t, Uses t g → offset < t) → ∃ k, bLevel o offset g = some k ∧ -1 ≤ k ∧ (k ≤ 0 ∨ ∃ l lo hi, g = .node l lo hi ∧ l ≤ m ∧ k = (l : Int) - offset) := by
    intro g m hb hm hg
    cases g with
    | leaf b => exact ⟨_, bLevel_leaf, by cases b <;> decide, Or.inl (by cases b <;> decide)⟩
    | node l lo hi =>
      have hl := hb.2.1
      have := hg l (Or.inl rfl)
      exact ⟨(l : Int) - offset, by rw [bLevel_node ho hb.1 (by omega), if_pos this], by omega, Or.inr ⟨l, lo, hi, rfl, by omega, rfl⟩⟩
  have key : ∀ {k : Int} {s : Cudd}, Reach (sapporoBdd o hash f offset) k s → bLevel o offset s = some k ∧ (∀ t, Uses t s → offset < t) ∧ s.Below (o.used + 1) := by
    intro k s hr
    induction hr with
    | root =>
      obtain ⟨k, e, _⟩ := hlev hf (Nat.le_refl _) hu
      refine ⟨?_, hu, hf⟩
      show _ = some ((bLevel o offset f).getD _)
      rw [show bLevel o offset (sapporoBdd o hash f offset).root.2 = some k from e, e]
      rfl
    | @step n s b hn hr ih =>
      obtain ⟨e, hs, hb⟩ := ih
      cases s with
      | leaf c =>
        rw [bLevel_leaf] at e
        have := Option.some.inj e
        cases c <;> simp at this <;> omega
      | node l lo hi =>
        have hl := hb.2.1
        rw [bLevel_node ho hb.1 (by omega), if_pos (hs l (Or.inl rfl))] at e
        have e := Option.some.inj e
        have hc : (sapporoBdd o hash f offset).child (.node l lo hi) n b = (bChild o offset (.node l lo hi) n b.val).getD (n, .node l lo hi) := rfl
        rw [hc, bChild_node ho e.symm hb.1 (by omega) hb.2.2.1 hb.2.2.2]
        have hg : (∀ t, Uses t (if b.val ≠ 0 then hi else lo) → offset < t) ∧ (if b.val ≠ 0 then hi else lo).Below (o.used + 1) := by
          split
          · exact ⟨fun t ht => hs t (Or.inr (Or.inr ht)), hb.2.2.2.mono (by omega)⟩
          · exact ⟨fun t ht => hs t (Or.inr (Or.inl ht)), hb.2.2.1.mono (by omega)⟩
        obtain ⟨k, e', _⟩ := hlev hg.2 (Nat.le_refl _) hg.1
        rw [e', Option.map_some, Option.getD_some]
        exact ⟨e', hg⟩
  have hstep : ∀ {n : Nat} {s : Cudd} (b : Fin 2), 0 < n → Reach (sapporoBdd o hash f offset) (n : Int) s →
      ∃ l lo hi, s = .node l lo hi ∧ (n : Int) = l - offset ∧ lo.Below l ∧ hi.Below l ∧ 0 < l ∧ ∃ k, bLevel o offset (if b.val ≠ 0 then hi else lo) = some k ∧
        (sapporoBdd o hash f offset).child s n b = (k, if b.val ≠ 0 then hi else lo) ∧ -1 ≤ k ∧ k < n := by
    intro n s b hn hr
    obtain ⟨e, hs, hb⟩ := key hr
    cases s with
    | leaf c =>
      rw [bLevel_leaf] at e
      have := Option.some.inj e
      cases c <;> simp at this <;> omega
    | node l lo hi =>
      have hl := hb.2.1
      have h0 := hb.1
      rw [bLevel_node ho hb.1 (by omega), if_pos (hs l (Or.inl rfl))] at e
      have e := Option.some.inj e
      have hg : (∀ t, Uses t (if b.val ≠ 0 then hi else lo) → offset < t) ∧ (if b.val ≠ 0 then hi else lo).Below (l - 1 + 1) := by
        rw [show l - 1 + 1 = l by omega]
        split
        · exact ⟨fun t ht => hs t (Or.inr (Or.inr ht)), hb.2.2.2⟩
        · exact ⟨fun t ht => hs t (Or.inr (Or.inl ht)), hb.2.2.1⟩
      obtain ⟨k, e', hk, hk'⟩ := hlev hg.2 (by omega) hg.1
      refine ⟨l, lo, hi, rfl, e.symm, hb.2.2.1, hb.2.2.2, h0, k, e', ?_, hk, ?_⟩
      · show (bChild o offset (.node l lo hi) n b.val).getD _ = _
        rw [bChild_node ho e.symm hb.1 (by omega) hb.2.2.1 hb.2.2.2, e']
        rfl
      · rcases hk' with h | ⟨q, _, _, _, hq, rfl⟩
        · omega
        · omega
  obtain ⟨k0, e0, hk0, hk0'⟩ := hlev hf (Nat.le_refl _) hu
  have er : (sapporoBdd o hash f offset).root = (k0, f) := by
    show ((bLevel o offset f).getD _, f) = _
    rw [e0]
    rfl
  have hd : Desc (sapporoBdd o hash f offset) := by
    refine ⟨by rw [er]; exact hk0, fun b hn hr => ?_, fun b hn hr => ?_⟩
    · obtain ⟨l, lo, hi, _, _, _, _, _, k, _, e, h1, h2⟩ := hstep b hn hr
      rw [e]
      exact h2
    · obtain ⟨l, lo, hi, _, _, _, _, _, k, _, e, h1, h2⟩ := hstep b hn hr
      rw [e]
      exact h1
  refine ⟨lawfulC_of_eq hd fun _ s t => decide_eq_true_iff, ?_, fun a => ?_⟩
  · rw [er]
    rcases hk0' with h | ⟨q, _, _, _, hq, rfl⟩
    · show k0 ≤ _
      omega
    · show (q : Int) - offset ≤ _
      omega
  · have sem : ∀ (g : Cudd) (k : Int), Reach (sapporoBdd o hash f offset) k g → (BddSatAt (sapporoBdd o hash f offset) k g a ↔ g.eval (up offset a) = true) := by
      intro g
      induction g with
      | leaf b =>
        intro k hr
        have e := (key hr).1
        rw [bLevel_leaf] at e
        obtain rfl := Option.some.inj e
        cases b
        · exact ⟨fun h => absurd h bddSatAt_zero, fun h => by cases h⟩
        · exact ⟨fun _ => rfl, fun _ => bddSatAt_neg (by decide)⟩
      | node l lo hi h0 h1 =>
        intro k hr
        obtain ⟨e, hs, hb⟩ := key hr
        have hl := hb.2.1
        rw [bLevel_node ho hb.1 (by omega), if_pos (hs l (Or.inl rfl))] at e
        obtain rfl := Option.some.inj e
        have hlo := hs l (Or.inl rfl)
        obtain ⟨n, hn⟩ : ∃ n : Nat, (l : Int) - offset = n := ⟨((l : Int) - offset).toNat, by omega⟩
        rw [hn] at hr ⊢
        have hn0 : 0 < n := by omega
        rw [bddSatAt_pos hn0]
        obtain ⟨l', lo', hi', e1, _, _, _, _, k, e2, e3, _⟩ := hstep (a n) hn0 hr
        obtain ⟨rfl, rfl, rfl⟩ := Cudd.node.inj e1
        have hr' := Reach.step (a n) hn0 hr
        rw [e3] at hr' ⊢
        rw [Cudd.eval]
        have eu : up offset a l = decide ((a n).val ≠ 0) := by
          unfold up
          rw [hn, Int.toNat_natCast]
          by_cases h : (a n).val ≠ 0
          · rw [decide_eq_true h]
            exact decide_eq_true ⟨hlo, h⟩
          · rw [decide_eq_false h]
            exact decide_eq_false fun h' => h h'.2
        rw [eu]
        by_cases h : (a n).val ≠ 0
        · rw [if_pos h] at hr' ⊢
          rw [decide_eq_true h, if_pos rfl]
          exact h1 k hr'
        · rw [if_neg h] at hr' ⊢
          rw [decide_eq_false h, if_neg Bool.false_ne_true]
          exact h0 k hr'
    unfold BddSat
    exact sem _ _ Reach.root

/-- If the rules are obeyed, no level is at or below the offset. -/
theorem sapporoBdd_uses {o : VarOrder} (ho : o.Ok) (hash : Cudd → Nat) {f : Cudd} (hf : f.Below (o.used + 1)) {offset : Int} (hd : Desc (sapporoBdd o hash f offset)) : ∀ t, Uses t f → offset < t := by
  have key : ∀ (g : Cudd) (k : Int), Reach (sapporoBdd o hash f offset) k g → g.Below (o.used + 1) → bLevel o offset g = some k → ∀ t, Uses t g → offset < t := by
    intro g
    induction g with
    | leaf b => exact fun _ _ _ _ _ h => h.elim
    | node l lo hi h0 h1 =>
      intro k hr hb e t ht
      have hl := hb.2.1
      rw [bLevel_node ho hb.1 (by omega)] at e
      split at e
      · rename_i hlo
        obtain rfl := Option.some.inj e
        rcases ht with rfl | ht
        · exact hlo
        · obtain ⟨n, hn⟩ : ∃ n : Nat, (l : Int) - offset = n := ⟨((l : Int) - offset).toNat, by omega⟩
          rw [hn] at hr
          have hn0 : 0 < n := by omega
          have go : ∀ b : Fin 2, ∃ k, Reach (sapporoBdd o hash f offset) k (if b.val ≠ 0 then hi else lo) ∧ bLevel o offset (if b.val ≠ 0 then hi else lo) = some k := by
            intro b
            have hr' := Reach.step b hn0 hr
            have hlt := hd.child_lt b hn0 hr
            have hc : (sapporoBdd o hash f offset).child (.node l lo hi) n b = (bChild o offset (.node l lo hi) n b.val).getD (n, .node l lo hi) := rfl
            rw [hc, bChild_node ho hn.symm hb.1 (by omega) hb.2.2.1 hb.2.2.2] at hr' hlt
            cases e : bLevel o offset (if b.val ≠ 0 then hi else lo) with
            | none =>
              rw [e] at hlt
              exact absurd hlt (Int.lt_irrefl _)
            | some k =>
              rw [e] at hr'
              exact ⟨k, hr', rfl⟩
          rcases ht with ht | ht
          · obtain ⟨k, h, h'⟩ := go 0
            exact h0 k h (hb.2.2.1.mono (by omega)) h' t ht
          · obtain ⟨k, h, h'⟩ := go 1
            exact h1 k h (hb.2.2.2.mono (by omega)) h' t ht
      · cases e
  have hge := hd.root_ge
  cases e : bLevel o offset f with
  | none =>
    have : (sapporoBdd o hash f offset).root.1 = -2 := by
      show (bLevel o offset f).getD _ = _
      rw [e]
      rfl
    rw [this] at hge
    exact absurd hge (by decide)
  | some k =>
    have : (sapporoBdd o hash f offset).root = (k, f) := by
      show ((bLevel o offset f).getD _, f) = _
      rw [e]
      rfl
    have hr := Reach.root (sp := sapporoBdd o hash f offset)
    rw [this] at hr
    exact key f k hr hf e

/-! ## `ToBDD` -/

theorem uses_mk {t l : Nat} {lo hi : Cudd} (h : Uses t (.mk l lo hi)) : t = l ∨ Uses t lo ∨ Uses t hi := by
  unfold Cudd.mk at h
  split at h
  · exact Or.inr (Or.inl h)
  · exact h

theorem uses_inv {t : Nat} {f : Cudd} : Uses t f.inv → Uses t f := by
  induction f with
  | leaf => exact id
  | node l lo hi h0 h1 => exact Or.imp id (Or.imp h0 h1)

theorem uses_and {t : Nat} {f : Cudd} : ∀ {g : Cudd}, Uses t (f.and g) → Uses t f ∨ Uses t g := by
  induction f with
  | leaf b =>
    intro g h
    rw [Cudd.and] at h
    cases b
    · exact h.elim
    · exact Or.inr h
  | node l lo hi h0 h1 =>
    intro g h
    rw [Cudd.and] at h
    induction g with
    | leaf b =>
      rw [Cudd.andNode] at h
      cases b
      · exact h.elim
      · exact Or.inl h
    | node m glo ghi g0 g1 =>
      rw [Cudd.andNode] at h
      split at h
      · rcases uses_mk h with h | h | h
        · exact Or.inl (Or.inl h)
        · exact (h0 h).imp (fun h => Or.inr (Or.inl h)) fun h => Or.inr (Or.inl h)
        · exact (h1 h).imp (fun h => Or.inr (Or.inr h)) fun h => Or.inr (Or.inr h)
      · split at h
        · rcases uses_mk h with h | h | h
          · exact Or.inl (Or.inl h)
          · exact (h0 h).imp (fun h => Or.inr (Or.inl h)) id
          · exact (h1 h).imp (fun h => Or.inr (Or.inr h)) id
        · rcases uses_mk h with h | h | h
          · exact Or.inr (Or.inl h)
          · exact (g0 h).imp id fun h => Or.inr (Or.inl h)
          · exact (g1 h).imp id fun h => Or.inr (Or.inr h)

theorem eval_bOr {u : Nat → Bool} {f g : Cudd} : (bOr f g).eval u = (f.eval u || g.eval u) := by
  unfold bOr
  rw [Cudd.eval_inv, Cudd.eval_and, Cudd.eval_inv, Cudd.eval_inv]
  cases f.eval u <;> cases g.eval u <;> rfl

/-- the recursion of `ToBDD` -/
def bNode (offset : Int) (i : Nat) (vs : Fin 2 → Cudd × Nat) : Cudd :=
  bOr ((vs 0).1.and (Cudd.var ((i : Int) + offset).toNat).inv) ((vs 1).1.and (Cudd.var ((i : Int) + offset).toNat))

theorem eval_bNode {u : Nat → Bool} {l : Nat} {f g : Cudd} : (bOr (f.and (Cudd.var l).inv) (g.and (Cudd.var l))).eval u = if u l then g.eval u else f.eval u := by
  rw [eval_bOr, Cudd.eval_and, Cudd.eval_and, Cudd.eval_inv]
  have : (Cudd.var l).eval u = u l := by
    show (if u l = true then true else false) = _
    cases u l <;> rfl
  rw [this]
  cases u l <;> simp

theorem fold_sat {T : Table 2} (hw : T.Wf) {offset : Int} (ho : 0 ≤ offset) {f : NodeId} {v : Cudd} (h : FoldVal T Cudd.const (bNode offset) f v) (hv : T.Valid f) :
    v.Below (((f.row : Int) + offset).toNat + 1) ∧ (∀ t, Uses t v → offset < t) ∧ ∀ S, v.eval S = true ↔ TSat T f (low offset S) := by
  induction h with
  | @term f h0 =>
    refine ⟨trivial, fun t h => h.elim, fun S => ?_⟩
    rcases hv.row0 h0 with rfl | rfl
    · exact ⟨fun h => absurd h Bool.false_ne_true, fun h => absurd h not_tsat_zero⟩
    · exact ⟨fun _ => tsat_one, fun _ => rfl⟩
  | @node f nd vs h0 hn _ ih =>
    have c0 := hw.child h0 hn 0
    have c1 := hw.child h0 hn 1
    obtain ⟨b0, u0, m0⟩ := ih 0 c0.1
    obtain ⟨b1, u1, m1⟩ := ih 1 c1.1
    have r0 := c0.2
    have r1 := c1.2
    unfold bNode
    obtain ⟨L, hL⟩ : ∃ L : Nat, (f.row : Int) + offset = L := ⟨((f.row : Int) + offset).toNat, by omega⟩
    have hL0 : 0 < L := by omega
    rw [hL, Int.toNat_natCast]
    show (bOr ((vs 0).and (Cudd.var L).inv) ((vs 1).and (Cudd.var L))).Below _ ∧ (∀ t, Uses t (bOr ((vs 0).and (Cudd.var L).inv) ((vs 1).and (Cudd.var L))) → _) ∧ ∀ S, (bOr ((vs 0).and (Cudd.var L).inv) ((vs 1).and (Cudd.var L))).eval S = true ↔ _
    have hvar : (Cudd.var L).Below (L + 1) := ⟨hL0, by omega, trivial, trivial⟩
    refine ⟨?_, fun t ht => ?_, fun S => ?_⟩
    · exact Cudd.below_inv (Cudd.below_and (Cudd.below_inv (Cudd.below_and (b0.mono (by omega)) (Cudd.below_inv hvar))) (Cudd.below_inv (Cudd.below_and (b1.mono (by omega)) hvar)))
    · have hvu : Uses t (Cudd.var L) → offset < t := by
        rintro (h | h | h)
        · omega
        · exact h.elim
        · exact h.elim
      rcases uses_and (uses_inv ht) with h | h
      · rcases uses_and (uses_inv h) with h | h
        · exact u0 t h
        · exact hvu (uses_inv h)
      · rcases uses_and (uses_inv h) with h | h
        · exact u1 t h
        · exact hvu h
    · rw [eval_bNode, tsat_node h0 hn]
      have hc : low offset S f.row = if S L then 1 else 0 := by
        unfold low
        rw [hL, Int.toNat_natCast]
        by_cases e : S L = true
        · rw [if_pos e, if_pos ⟨by omega, e⟩]
        · rw [if_neg e, if_neg fun h => e h.2]
      rw [hc]
      cases S L
      · exact m0 S
      · exact m1 S

theorem toBdd_sim {o : VarOrder} (ho : o.Ok) {offset : Int} (h0 : 0 ≤ offset) (n : Nat) :
    (toBdd o offset).Sim n (fun s => s = o.grow ((n : Int) + offset)) (fun _ t v => t = v) Cudd.const (bNode offset) where
  start := rfl
  term := fun {s j} hs _ => ⟨s, _, rfl, hs, rfl⟩
  node := by
    intro s i vals vs hs h1 h2 h
    have e0 : (vals 0).1 = vs 0 := (h 0).1
    have e1 : (vals 1).1 = vs 1 := (h 1).1
    obtain ⟨g1, g2, _⟩ := grow_spec ho ((n : Int) + offset)
    rw [← hs] at g1 g2
    refine ⟨s, bNode offset i fun b => (vs b, (vals b).2), ?_, hs, rfl⟩
    show (if _ then _ else _) = _
    rw [if_pos (by omega), VarOrder.varOfLev_of (l := ((i : Int) + offset).toNat) (by omega) (by omega) (by omega), Option.bind_some, g1.levOfVar_var (by omega) (by omega), Option.map_some, e0, e1]
    rfl
  clean := fun hs _ _ => hs

end Sap

end TdZdd
