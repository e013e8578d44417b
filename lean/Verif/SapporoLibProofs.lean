import Verif.SapporoLibSpec
import Verif.SpecInv
import Verif.EvaluateProofs
import Verif.TableSem

namespace TdZdd

namespace Sap

namespace VarOrder

theorem Ok.levOfVar_var {o : VarOrder} (h : o.Ok) {l : Nat} (h0 : 0 < l) (hl : l ≤ o.used) : o.levOfVar (o.var l) = some l := by
  have := h.var l h0 hl
  unfold levOfVar
  rw [if_neg (by omega), if_pos this.2.1, this.2.2]

theorem varOfLev_of {o : VarOrder} {x : Int} {l : Nat} (e : x = l) (h0 : 0 < l) (hl : l ≤ o.used) : o.varOfLev x = some (o.var l) := by
  subst e
  unfold varOfLev
  rw [if_pos (by omega), Int.toNat_natCast]

theorem Ok.newVar {o : VarOrder} (h : o.Ok) : o.newVar.Ok := by
  constructor
  · intro l h0 hl
    show 0 < (if l = o.used + 1 then o.used + 1 else o.var l) ∧ (if l = o.used + 1 then o.used + 1 else o.var l) ≤ o.used + 1 ∧
      (if (if l = o.used + 1 then o.used + 1 else o.var l) = o.used + 1 then o.used + 1 else o.lev (if l = o.used + 1 then o.used + 1 else o.var l)) = l
    have hl : l ≤ o.used + 1 := hl
    by_cases e : l = o.used + 1
    · simp only [if_pos e, if_true]
      omega
    · have := h.var l h0 (by omega)
      simp only [if_neg e]
      rw [if_neg (by omega)]
      exact ⟨this.1, by omega, this.2.2⟩
  · intro l h0 hl
    show 0 < (if l = o.used + 1 then o.used + 1 else o.lev l) ∧ (if l = o.used + 1 then o.used + 1 else o.lev l) ≤ o.used + 1 ∧
      (if (if l = o.used + 1 then o.used + 1 else o.lev l) = o.used + 1 then o.used + 1 else o.var (if l = o.used + 1 then o.used + 1 else o.lev l)) = l
    have hl : l ≤ o.used + 1 := hl
    by_cases e : l = o.used + 1
    · simp only [if_pos e, if_true]
      omega
    · have := h.lev l h0 (by omega)
      simp only [if_neg e]
      rw [if_neg (by omega)]
      exact ⟨this.1, by omega, this.2.2⟩

theorem newVars_spec : ∀ (k : Nat) (o : VarOrder), o.Ok → (o.newVars k).Ok ∧ (o.newVars k).used = o.used + k ∧ ∀ l, 0 < l → l ≤ o.used → (o.newVars k).var l = o.var l ∧ (o.newVars k).lev l = o.lev l
  | 0, o, h => ⟨h, rfl, fun _ _ _ => ⟨rfl, rfl⟩⟩
  | k + 1, o, h => by
    obtain ⟨h1, h2, h3⟩ := newVars_spec k o.newVar h.newVar
    refine ⟨h1, by rw [newVars, h2]; show o.used + 1 + k = _; omega, fun l h0 hl => ?_⟩
    obtain ⟨e1, e2⟩ := h3 l h0 (by show l ≤ o.used + 1; omega)
    rw [newVars, e1, e2]
    constructor
    · show (if l = o.used + 1 then _ else _) = _
      rw [if_neg (by omega)]
    · show (if l = o.used + 1 then _ else _) = _
      rw [if_neg (by omega)]

end VarOrder

namespace Zb

theorem Below.mono {f : Zb} {m n : Nat} (h : Below m f) (hmn : m ≤ n) : Below n f := by
  cases f with
  | leaf => trivial
  | node l lo hi => exact ⟨h.1, by have := h.2.1; omega, h.2.2⟩

theorem mem_raise {f : Zb} {n m : Nat} {S : Nat → Bool} (h : Below n f) (h0 : 0 < n) (hm : n ≤ m) :
    f.Mem m S ↔ (∀ j, n ≤ j → j < m → S j = false) ∧ f.Mem n S := by
  cases f with
  | leaf b =>
    constructor
    · rintro ⟨hb, hz⟩
      exact ⟨fun j h1 h2 => hz j (by omega) h2, hb, fun j h1 h2 => hz j h1 (by omega)⟩
    · rintro ⟨hz, hb, hz'⟩
      refine ⟨hb, fun j h1 h2 => ?_⟩
      by_cases hj : j < n
      · exact hz' j h1 hj
      · exact hz j (by omega) h2
  | node l lo hi =>
    have hl := h.2.1
    constructor
    · rintro ⟨hz, hb⟩
      exact ⟨fun j h1 h2 => hz j (by omega) h2, fun j h1 h2 => hz j h1 (by omega), hb⟩
    · rintro ⟨hz, hz', hb⟩
      refine ⟨fun j h1 h2 => ?_, hb⟩
      by_cases hj : j < n
      · exact hz' j h1 hj
      · exact hz j (by omega) h2

theorem below_mk {n l : Nat} {lo hi : Zb} (h0 : 0 < l) (hl : l < n) (h1 : Below l lo) (h2 : Below l hi) : Below n (mk l lo hi) := by
  unfold mk
  split
  · exact h1.mono (by omega)
  · exact ⟨h0, hl, h1, h2⟩

theorem not_mem_false {n : Nat} {S : Nat → Bool} : ¬ (leaf false).Mem n S := fun h => Bool.false_ne_true h.1

theorem mem_mk {n l : Nat} {lo hi : Zb} {S : Nat → Bool} (h0 : 0 < l) (hl : l < n) (h1 : Below l lo) : (mk l lo hi).Mem n S ↔ (node l lo hi).Mem n S := by
  unfold mk
  split
  · rename_i e
    subst e
    rw [mem_raise h1 h0 (by omega : l ≤ n)]
    constructor
    · rintro ⟨hz, hm⟩
      refine ⟨fun j h1 h2 => hz j (by omega) h2, ?_⟩
      rw [if_neg (by rw [hz l (by omega) hl]; exact Bool.false_ne_true)]
      exact hm
    · rintro ⟨hz, hm⟩
      cases e : S l with
      | true =>
        rw [if_pos e] at hm
        exact absurd hm not_mem_false
      | false =>
        rw [if_neg (by rw [e]; exact Bool.false_ne_true)] at hm
        refine ⟨fun j h1 h2 => ?_, hm⟩
        by_cases hj : j = l
        · rw [hj, e]
        · exact hz j (by omega) h2
  · rfl

theorem uses_mk {t l : Nat} {lo hi : Zb} (h : (mk l lo hi).Uses t) : t = l ∨ lo.Uses t ∨ hi.Uses t := by
  unfold mk at h
  split at h
  · exact Or.inr (Or.inl h)
  · exact h

theorem below_addEmpty {f : Zb} : ∀ {n : Nat}, Below n f → Below n f.addEmpty := by
  induction f with
  | leaf => intro n _; trivial
  | node l lo hi h0 h1 => intro n h; exact ⟨h.1, h.2.1, h0 h.2.2.1, h.2.2.2⟩

theorem uses_addEmpty {f : Zb} {t : Nat} : f.addEmpty.Uses t → f.Uses t := by
  induction f with
  | leaf => exact fun h => h
  | node l lo hi h0 h1 =>
    rintro (h | h | h)
    · exact Or.inl h
    · exact Or.inr (Or.inl (h0 h))
    · exact Or.inr (Or.inr h)

theorem mem_addEmpty {f : Zb} {S : Nat → Bool} : ∀ {n : Nat}, Below n f → (f.addEmpty.Mem n S ↔ (∀ j, 0 < j → j < n → S j = false) ∨ f.Mem n S) := by
  induction f with
  | leaf b =>
    intro n _
    exact ⟨fun h => Or.inl h.2, fun h => h.elim (fun h => ⟨rfl, h⟩) fun h => ⟨rfl, h.2⟩⟩
  | node l lo hi h0 h1 =>
    intro n hb
    have i0 := h0 hb.2.2.1
    have hl := hb.2.1
    have hp := hb.1
    show (_ ∧ _) ↔ _ ∨ (_ ∧ _)
    cases e : S l with
    | true =>
      rw [if_pos rfl, if_pos rfl]
      constructor
      · exact Or.inr
      · rintro (h | h)
        · rw [h l hp hl] at e
          cases e
        · exact h
    | false =>
      rw [if_neg Bool.false_ne_true, if_neg Bool.false_ne_true, i0]
      constructor
      · rintro ⟨hz, h | h⟩
        · refine Or.inl fun j h1 h2 => ?_
          by_cases hj : j < l
          · exact h j h1 hj
          · by_cases hj' : j = l
            · rw [hj', e]
            · exact hz j (by omega) h2
        · exact Or.inr ⟨hz, h⟩
      · rintro (h | ⟨hz, h⟩)
        · exact ⟨fun j h1 h2 => h j (by omega) h2, Or.inl fun j h1 h2 => h j h1 (by omega)⟩
        · exact ⟨hz, Or.inr h⟩

theorem below_union {f : Zb} : ∀ {n : Nat} {g : Zb}, Below n f → Below n g → Below n (f.union g) := by
  induction f with
  | leaf b =>
    intro n g _ hg
    rw [union]
    cases b
    · exact hg
    · exact below_addEmpty hg
  | node l lo hi h0 h1 =>
    intro n g hf hg
    rw [union]
    induction g generalizing n with
    | leaf b =>
      rw [unionNode]
      cases b
      · exact hf
      · exact ⟨hf.1, hf.2.1, below_addEmpty hf.2.2.1, hf.2.2.2⟩
    | node m glo ghi g0 g1 =>
      rw [unionNode]
      split
      · rename_i e
        subst e
        exact below_mk hf.1 hf.2.1 (h0 hf.2.2.1 hg.2.2.1) (h1 hf.2.2.2 hg.2.2.2)
      · rename_i e
        split
        · rename_i e'
          have hg' : Below l (node m glo ghi) := ⟨hg.1, e', hg.2.2⟩
          exact below_mk hf.1 hf.2.1 (h0 hf.2.2.1 hg') hf.2.2.2
        · have hf' : Below m (node l lo hi) := ⟨hf.1, by omega, hf.2.2⟩
          exact below_mk hg.1 hg.2.1 (g0 hf' hg.2.2.1) hg.2.2.2

theorem uses_union {t : Nat} {f : Zb} : ∀ {g : Zb}, (f.union g).Uses t → f.Uses t ∨ g.Uses t := by
  induction f with
  | leaf b =>
    intro g h
    rw [union] at h
    cases b
    · exact Or.inr h
    · exact Or.inr (uses_addEmpty h)
  | node l lo hi h0 h1 =>
    intro g h
    rw [union] at h
    induction g with
    | leaf b =>
      rw [unionNode] at h
      cases b
      · exact Or.inl h
      · exact Or.inl (h.imp id (Or.imp uses_addEmpty id))
    | node m glo ghi g0 g1 =>
      rw [unionNode] at h
      split at h
      · rcases uses_mk h with h | h | h
        · exact Or.inl (Or.inl h)
        · exact (h0 h).imp (fun h => Or.inr (Or.inl h)) fun h => Or.inr (Or.inl h)
        · exact (h1 h).imp (fun h => Or.inr (Or.inr h)) fun h => Or.inr (Or.inr h)
      · split at h
        · rcases uses_mk h with h | h | h
          · exact Or.inl (Or.inl h)
          · exact (h0 h).imp (fun h => Or.inr (Or.inl h)) id
          · exact Or.inl (Or.inr (Or.inr h))
        · rcases uses_mk h with h | h | h
          · exact Or.inr (Or.inl h)
          · exact (g0 h).imp id fun h => Or.inr (Or.inl h)
          · exact Or.inr (Or.inr (Or.inr h))

theorem mem_node_iff {n l : Nat} {lo hi : Zb} {S : Nat → Bool} : (node l lo hi).Mem n S ↔ (∀ j, l < j → j < n → S j = false) ∧ ((S l = true ∧ hi.Mem l S) ∨ (S l = false ∧ lo.Mem l S)) := by
  show (_ ∧ _) ↔ _
  cases S l <;> simp

theorem mem_lower {n l : Nat} {f : Zb} {S : Nat → Bool} (h0 : 0 < l) (hl : l < n) (h : Below l f) : f.Mem n S ↔ (∀ j, l < j → j < n → S j = false) ∧ (S l = false ∧ f.Mem l S) := by
  rw [mem_raise h h0 (by omega : l ≤ n)]
  constructor
  · rintro ⟨hz, hm⟩
    exact ⟨fun j h1 h2 => hz j (by omega) h2, hz l (by omega) hl, hm⟩
  · rintro ⟨hz, h, hm⟩
    refine ⟨fun j h1 h2 => ?_, hm⟩
    by_cases hj : j = l
    · rw [hj, h]
    · exact hz j (by omega) h2

theorem mem_union {S : Nat → Bool} {f : Zb} : ∀ {n : Nat} {g : Zb}, Below n f → Below n g → ((f.union g).Mem n S ↔ f.Mem n S ∨ g.Mem n S) := by
  induction f with
  | leaf b =>
    intro n g _ hg
    rw [union]
    cases b
    · exact ⟨Or.inr, fun h => h.elim (fun h => absurd h not_mem_false) id⟩
    · rw [if_pos rfl, mem_addEmpty hg]
      exact ⟨fun h => h.imp (fun h => ⟨rfl, h⟩) id, fun h => h.imp (fun h => h.2) id⟩
  | node l lo hi h0 h1 =>
    intro n g hf hg
    rw [union]
    induction g generalizing n with
    | leaf b =>
      rw [unionNode]
      cases b
      · exact ⟨Or.inl, fun h => h.elim id fun h => absurd h not_mem_false⟩
      · rw [if_pos rfl]
        have e : (node l (addEmpty lo) hi).Mem n S ↔ (∀ j, 0 < j → j < n → S j = false) ∨ (node l lo hi).Mem n S := mem_addEmpty (f := node l lo hi) hf
        rw [e]
        exact ⟨fun h => h.elim (fun h => Or.inr ⟨rfl, h⟩) Or.inl, fun h => h.elim Or.inr fun h => Or.inl h.2⟩
    | node m glo ghi g0 g1 =>
      rw [unionNode]
      split
      · rename_i e
        subst e
        rw [mem_mk hf.1 hf.2.1 (below_union hf.2.2.1 hg.2.2.1), mem_node_iff, mem_node_iff, mem_node_iff, h0 hf.2.2.1 hg.2.2.1, h1 hf.2.2.2 hg.2.2.2]
        generalize (∀ j, l < j → j < n → S j = false) = Z
        by_cases hz : Z <;> cases S l <;> simp [hz]
      · rename_i e
        split
        · rename_i e'
          have hg' : Below l (node m glo ghi) := ⟨hg.1, e', hg.2.2⟩
          rw [mem_mk hf.1 hf.2.1 (below_union hf.2.2.1 hg'), mem_lower hf.1 hf.2.1 hg', mem_node_iff (l := l) (n := n), mem_node_iff (l := l) (n := n), h0 hf.2.2.1 hg']
          generalize (∀ j, l < j → j < n → S j = false) = Z
          by_cases hz : Z <;> cases S l <;> simp [hz]
        · have hf' : Below m (node l lo hi) := ⟨hf.1, by omega, hf.2.2⟩
          have hb : Below m (unionNode l lo hi (union lo) (union hi) glo) := below_union (f := node l lo hi) hf' hg.2.2.1
          rw [mem_mk hg.1 hg.2.1 hb, mem_lower hg.1 hg.2.1 hf', mem_node_iff (l := m) (n := n), mem_node_iff (l := m) (n := n), g0 hf' hg.2.2.1]
          generalize (∀ j, m < j → j < n → S j = false) = Z
          by_cases hz : Z <;> cases S m <;> simp [hz]

theorem change_above {l : Nat} {f : Zb} (h : Below l f) : f.change l = mk l (leaf false) f := by
  cases f with
  | leaf b => rfl
  | node m lo hi =>
    have := h.2.1
    rw [change, if_neg (by omega), if_pos this]

theorem offSet_root {l : Nat} {lo hi : Zb} : (node l lo hi).offSet l = lo := by rw [offSet, if_pos rfl]
theorem onSet0_root {l : Nat} {lo hi : Zb} : (node l lo hi).onSet0 l = hi := by rw [onSet0, if_pos rfl]

end Zb

/-! ## `SapporoZdd` -/

theorem top_node {o : VarOrder} (ho : o.Ok) {l : Nat} {lo hi : Zb} (h0 : 0 < l) (hl : l ≤ o.used) : o.levOfVar ((Zb.node l lo hi).top o) = some l := ho.levOfVar_var h0 hl

theorem top_leaf {o : VarOrder} {b : Bool} : o.levOfVar ((Zb.leaf b).top o) = some 0 := rfl

theorem strip_spec {o : VarOrder} (ho : o.Ok) (f : Zb) : ∀ {n fuel : Nat}, f.Below (n + 1) → n ≤ o.used → n < fuel → (∀ t, f.Uses t → o.var t = t) →
    ∃ b, strip o fuel f = some (.leaf b) ∧ ∀ m S, n < m → (∀ j, 0 < j → j < m → S j = false) → (f.Mem m S ↔ b = true) := by
  induction f with
  | leaf b =>
    intro n fuel _ _ hf _
    obtain ⟨k, rfl⟩ : ∃ k, fuel = k + 1 := ⟨fuel - 1, by omega⟩
    exact ⟨b, rfl, fun m S _ h => ⟨fun h => h.1, fun e => ⟨e, h⟩⟩⟩
  | node l lo hi h0 h1 =>
    intro n fuel hb hn hf hu
    obtain ⟨k, rfl⟩ : ∃ k, fuel = k + 1 := ⟨fuel - 1, by omega⟩
    have hp := hb.1
    have hl := hb.2.1
    have hv := hu l (Or.inl rfl)
    obtain ⟨b, e, hm⟩ := h0 (n := l - 1) (fuel := k) (by rw [show l - 1 + 1 = l by omega]; exact hb.2.2.1) (by omega) (by omega) fun t h => hu t (Or.inr (Or.inl h))
    refine ⟨b, ?_, fun m S hlm hz => ?_⟩
    · have e1 : o.varOfLev (((Zb.node l lo hi).top o : Nat) : Int) = some l := by
        show o.varOfLev ((o.var l : Nat) : Int) = _
        rw [VarOrder.varOfLev_of (l := l) (by rw [hv]) hp (by omega), hv]
      have e2 : o.levOfVar l = some l := by
        have := ho.levOfVar_var hp (by omega : l ≤ o.used)
        rwa [hv] at this
      rw [strip, top_node ho hp (by omega), Option.bind_some, if_pos (by omega : 1 ≤ l), e1, Option.bind_some, e2, Option.bind_some, Zb.offSet_root, e]
    · rw [Zb.mem_node_iff, hz l hp (by omega)]
      rw [← hm l S (by omega) fun j h1 h2 => hz j h1 (by omega)]
      exact ⟨fun h => h.2.elim (fun h => by cases h.1) fun h => h.2, fun h => ⟨fun j h1 h2 => hz j (by omega) h2, Or.inr ⟨rfl, h⟩⟩⟩

theorem up_low {offset : Nat} {a : Asg 2} {j : Nat} (h : j ≤ offset) : up offset a j = false := by
  unfold up
  exact decide_eq_false fun h' => by omega

theorem up_high {offset : Nat} {a : Asg 2} {j : Nat} (h : 0 < j) : up offset a (j + offset) = decide ((a j).val ≠ 0) := by
  unfold up
  rw [show (((j + offset : Nat) : Int) - (offset : Int)).toNat = j by omega]
  by_cases hj : (a j).val ≠ 0
  · rw [decide_eq_true hj]
    exact decide_eq_true ⟨by omega, hj⟩
  · rw [decide_eq_false hj]
    exact decide_eq_false fun h => hj h.2

theorem up_false {offset : Nat} {a : Asg 2} {n k : Nat} : (∀ j, k + offset < j → j < n + offset → up offset a j = false) ↔ ∀ j, k < j → j < n → (a j).val = 0 := by
  constructor
  · intro h j h1 h2
    have := h (j + offset) (by omega) (by omega)
    rw [up_high (by omega)] at this
    exact Decidable.not_not.1 (of_decide_eq_false this)
  · intro h j h1 h2
    have := h (j - offset) (by omega) (by omega)
    rw [show j = (j - offset) + offset by omega, up_high (by omega)]
    exact decide_eq_false fun h' => h' this

/-- the levels below the offset are those of the identity, as far as they occur in `f` -/
def Plain (o : VarOrder) (offset : Nat) (f : Zb) : Prop := ∀ t, f.Uses t → t ≤ offset → o.var t = t

theorem zLevel_spec {o : VarOrder} (ho : o.Ok) {offset : Nat} {f : Zb} {m : Nat} (hb : f.Below (m + 1)) (hm : m ≤ o.used) (hp : Plain o offset f) :
    (∃ l lo hi, f = .node l lo hi ∧ offset < l ∧ l ≤ m ∧ zLevel o offset f = some ((l : Int) - offset, f)) ∨
    ∃ b, zLevel o offset f = some (if b then -1 else 0, .leaf b) ∧ ∀ n a, m ≤ n + offset → (f.Mem (n + offset + 1) (up offset a) ↔ b = true ∧ ∀ j, 1 ≤ j → j ≤ n → (a j).val = 0) := by
  have conv : ∀ n (a : Asg 2), (∀ j, 0 < j → j < n + offset + 1 → up offset a j = false) ↔ ∀ j, 1 ≤ j → j ≤ n → (a j).val = 0 := by
    intro n a
    constructor
    · intro h j h1 h2
      exact (up_false (k := 0) (n := n + 1)).1 (fun j h1 h2 => h j (by omega) (by omega)) j h1 (by omega)
    · intro h j h1 h2
      by_cases hj : j ≤ offset
      · exact up_low hj
      · exact (up_false (k := 0) (n := n + 1)).2 (fun j h1 h2 => h j h1 (by omega)) j (by omega) (by omega)
  cases f with
  | leaf b =>
    refine Or.inr ⟨b, ?_, fun n a _ => ?_⟩
    · unfold zLevel
      rw [top_leaf, Option.bind_some, if_neg (by omega), strip, top_leaf, Option.bind_some, if_neg (by omega)]
      cases b <;> rfl
    · show (_ ∧ _) ↔ _
      rw [conv]
  | node l lo hi =>
    have h0 := hb.1
    have hl := hb.2.1
    by_cases hlo : offset < l
    · refine Or.inl ⟨l, lo, hi, rfl, hlo, by omega, ?_⟩
      unfold zLevel
      rw [top_node ho h0 (by omega), Option.bind_some, if_pos (by omega)]
    · right
      have hb' : (Zb.node l lo hi).Below (l + 1) := ⟨h0, by omega, hb.2.2⟩
      have hu : ∀ {g : Zb} {n : Nat}, g.Below n → ∀ t, g.Uses t → t < n := by
        intro g
        induction g with
        | leaf => exact fun _ _ h => h.elim
        | node q q0 q1 i0 i1 =>
          rintro n hq t (rfl | h | h)
          · exact hq.2.1
          · have := i0 hq.2.2.1 t h
            have := hq.2.1
            omega
          · have := i1 hq.2.2.2 t h
            have := hq.2.1
            omega
      obtain ⟨b, e, hs⟩ := strip_spec ho _ hb' (by omega) (fuel := o.used + 1) (by omega) fun t h => hp t h (by have := hu hb' t h; omega)
      refine ⟨b, ?_, fun n a hn => ?_⟩
      · unfold zLevel
        rw [top_node ho h0 (by omega), Option.bind_some, if_neg (by omega), e]
        cases b <;> rfl
      · constructor
        · intro h
          have hz : ∀ j, 0 < j → j < n + offset + 1 → up offset a j = false := by
            intro j h1 h2
            by_cases hj : j ≤ offset
            · exact up_low hj
            · exact (Zb.mem_node_iff.1 h).1 j (by omega) h2
          exact ⟨(hs _ _ (by omega) hz).1 h, (conv n a).1 hz⟩
        · rintro ⟨hb, hz⟩
          exact (hs _ _ (by omega) ((conv n a).2 hz)).2 hb

theorem sapporoZdd_main {o : VarOrder} (ho : o.Ok) (hash : Zb → Nat) {f : Zb} (hf : f.Below (o.used + 1)) {offset : Nat} (hp : Plain o offset f) :
    LawfulC (sapporoZdd o hash f offset) ∧ (sapporoZdd o hash f offset).root.1 ≤ (o.used - offset : Nat) ∧
    ∀ n a, o.used ≤ n + offset → (ZddMem (sapporoZdd o hash f offset) n a ↔ f.Mem (n + offset + 1) (up offset a)) := by
  rcases zLevel_spec ho hf (Nat.le_refl _) hp with ⟨l, lo, hi, rfl, hlo, hl, e⟩ | ⟨b, e, hm⟩
  · have hroot : (sapporoZdd o hash (.node l lo hi) offset).root = (((l - offset : Nat) : Int), .node l lo hi) := by
      show (zLevel o offset _).getD _ = _
      rw [e, Option.getD_some]
      congr 1
      omega
    obtain ⟨hd, hmem⟩ := zddMem_of_step (Inv := fun n s => n + offset ≤ o.used ∧ Plain o offset s ∧ ∃ lo hi, s = .node (n + offset) lo hi ∧ lo.Below (n + offset) ∧ hi.Below (n + offset))
      (P := fun n s a => s.Mem (n + offset + 1) (up offset a)) hroot
      ⟨by omega, hp, lo, hi, by rw [show l - offset + offset = l by omega], by rw [show l - offset + offset = l by omega]; exact hf.2.2.1, by rw [show l - offset + offset = l by omega]; exact hf.2.2.2⟩ (by omega) (by
        rintro n s b hn ⟨hnu, hps, lo, hi, rfl, h0, h1⟩
        have hg : ∃ g, (∀ a : Asg 2, a n = b → ((Zb.node (n + offset) lo hi).Mem (n + offset + 1) (up offset a) ↔ g.Mem (n + offset) (up offset a))) ∧ g.Below (n + offset) ∧ Plain o offset g ∧
            g = if b.val ≠ 0 then (Zb.node (n + offset) lo hi).onSet0 (n + offset) else (Zb.node (n + offset) lo hi).offSet (n + offset) := by
          by_cases hb : b.val ≠ 0
          · refine ⟨hi, fun a ha => ?_, h1, fun t ht => hps t (Or.inr (Or.inr ht)), by rw [if_pos hb, Zb.onSet0_root]⟩
            rw [Zb.mem_node_iff, up_high hn, ha, decide_eq_true hb]
            exact ⟨fun h => h.2.elim (fun h => h.2) (fun h => by cases h.1), fun h => ⟨fun j h1 h2 => by omega, Or.inl ⟨rfl, h⟩⟩⟩
          · refine ⟨lo, fun a ha => ?_, h0, fun t ht => hps t (Or.inr (Or.inl ht)), by rw [if_neg hb, Zb.offSet_root]⟩
            rw [Zb.mem_node_iff, up_high hn, ha, decide_eq_false hb]
            exact ⟨fun h => h.2.elim (fun h => by cases h.1) (fun h => h.2), fun h => ⟨fun j h1 h2 => by omega, Or.inr ⟨rfl, h⟩⟩⟩
        obtain ⟨g, hmg, hbg, hpg, eg⟩ := hg
        have hbg' : g.Below (n + offset - 1 + 1) := by rw [show n + offset - 1 + 1 = n + offset by omega]; exact hbg
        have hz := zLevel_spec ho hbg' (by omega) hpg
        have htop : ∃ k, o.levOfVar (g.top o) = some k ∧ k < n + offset := by
          cases g with
          | leaf => exact ⟨0, rfl, by omega⟩
          | node q q0 q1 => exact ⟨q, top_node ho hbg.1 (by have := hbg.2.1; omega), hbg.2.1⟩
        obtain ⟨k, hk, hkn⟩ := htop
        have hch : ∀ r, (sapporoZdd o hash r offset).child (.node (n + offset) lo hi) n b = (zLevel o offset g).getD (n, .node (n + offset) lo hi) := by
          intro r
          show (zChild o offset _ n b.val).getD _ = _
          unfold zChild
          rw [VarOrder.varOfLev_of (l := n + offset) (by omega) (by omega) hnu, Option.bind_some, ho.levOfVar_var (by omega) hnu, Option.bind_some]
          dsimp only
          rw [← eg, hk, Option.bind_some, if_pos (by omega)]
        rw [hch]
        rcases hz with ⟨q, q0, q1, rfl, hqo, hqm, e⟩ | ⟨c, e, hm⟩
        · right; right
          refine ⟨q - offset, by omega, ?_, by omega, ?_, fun a ha => ?_⟩
          · rw [e, Option.getD_some]
            show (q : Int) - offset = _
            omega
          · rw [e, Option.getD_some]
            exact ⟨by omega, hpg, q0, q1, by rw [show q - offset + offset = q by omega], by rw [show q - offset + offset = q by omega]; exact hbg.2.2.1, by rw [show q - offset + offset = q by omega]; exact hbg.2.2.2⟩
          · rw [hmg a ha, e, Option.getD_some]
            dsimp only
            rw [← up_false (offset := offset), show q - offset + offset = q by omega, Zb.mem_raise (f := .node q q0 q1) (n := q + 1) ⟨hbg.1, by omega, hbg.2.2⟩ (by omega) (by have := hbg.2.1; omega : q + 1 ≤ n + offset)]
            rfl
        · rw [e, Option.getD_some]
          cases c
          · left
            refine ⟨rfl, fun a ha h => ?_⟩
            rw [hmg a ha] at h
            have := (hm (n - 1) a (by omega)).1 (by rw [show n - 1 + offset + 1 = n + offset by omega]; exact h)
            cases this.1
          · right; left
            refine ⟨rfl, fun a ha => ?_⟩
            rw [hmg a ha]
            have := hm (n - 1) a (by omega)
            rw [show n - 1 + offset + 1 = n + offset by omega] at this
            rw [this]
            exact ⟨fun h j h1 h2 => h.2 j h1 (by omega), fun h => ⟨rfl, fun j h1 h2 => h j h1 (by omega)⟩⟩)
    refine ⟨lawfulC_of_eq hd fun _ s t => decide_eq_true_iff, by rw [hroot]; show ((_ : Nat) : Int) ≤ _; omega, fun n a hn => ?_⟩
    have hr : ZddMem (sapporoZdd o hash (.node l lo hi) offset) n a ↔ (∀ j, l - offset < j → j ≤ n → (a j).val = 0) ∧ ZddMem (sapporoZdd o hash (.node l lo hi) offset) (l - offset) a := by
      unfold ZddMem
      exact zddMemAt_raise hd (Reach.root) (by rw [hroot]; show ((_ : Nat) : Int) ≤ _; omega) (by omega)
    rw [hr, hmem, Zb.mem_raise (f := .node l lo hi) (n := l + 1) (m := n + offset + 1) ⟨hf.1, by omega, hf.2.2⟩ (by omega) (by omega)]
    rw [show l - offset + offset = l by omega]
    have := up_false (offset := offset) (a := a) (k := l - offset) (n := n + 1)
    rw [show l - offset + offset = l by omega, show n + 1 + offset = n + offset + 1 by omega] at this
    constructor
    · rintro ⟨h1, h2⟩
      exact ⟨this.2 fun j h1' h2' => h1 j h1' (by omega), h2⟩
    · rintro ⟨h1, h2⟩
      exact ⟨fun j h1' h2' => this.1 h1 j h1' (by omega), h2⟩
  · have hroot : (sapporoZdd o hash f offset).root = (if b then -1 else 0, .leaf b) := by
      show (zLevel o offset _).getD _ = _
      rw [e, Option.getD_some]
    have hno : ∀ {k : Nat} {s : Zb}, 0 < k → ¬ Reach (sapporoZdd o hash f offset) (k : Int) s := by
      have : ∀ {l : Int} {s : Zb}, Reach (sapporoZdd o hash f offset) l s → l ≤ 0 := by
        intro l s hr
        induction hr with
        | root =>
          rw [hroot]
          cases b <;> decide
        | step _ hk _ ih => omega
      intro k s hk hr
      have := this hr
      omega
    refine ⟨lawfulC_of_eq ⟨by rw [hroot]; cases b <;> decide, fun _ hk hr => absurd hr (hno hk), fun _ hk hr => absurd hr (hno hk)⟩ fun _ s t => decide_eq_true_iff, ?_, fun n a hn => ?_⟩
    · rw [hroot]
      cases b
      · show (0 : Int) ≤ _
        omega
      · show (-1 : Int) ≤ _
        omega
    · rw [hm n a hn]
      unfold ZddMem
      rw [hroot]
      cases b
      · exact ⟨fun h => absurd h zddMemAt_zero, fun h => by cases h.1⟩
      · exact (zddMemAt_neg (by decide)).trans ⟨fun h => ⟨rfl, h⟩, fun h => h.2⟩

end Sap

end TdZdd
