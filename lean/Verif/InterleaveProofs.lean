import Verif.Interleave
import Verif.TableSem
import Verif.SpecInv

/-! Common part of the proofs about `ZddInterleave` and `ColoredZdd`. -/

namespace TdZdd.Interleave

/-- the assignment of diagram `k` -/
def col (n : Nat) (a : Asg 2) (k : Nat) : Asg 2 := fun i => a ((i - 1) * n + k + 1)

/-- the number of levels of diagram `k` that are at level `l` or below -/
def bd (n k l : Nat) : Nat := (l + n - 1 - k) / n

theorem bd_iff {n k l i : Nat} (hk : k < n) (hi : 1 ≤ i) : i ≤ bd n k l ↔ (i - 1) * n + k + 1 ≤ l := by
  unfold bd
  rw [Nat.le_div_iff_mul_le (by omega)]
  obtain ⟨m, rfl⟩ : ∃ m, i = m + 1 := ⟨i - 1, by omega⟩
  rw [Nat.succ_mul, Nat.add_sub_cancel]
  omega

theorem bd_full {n k m : Nat} (hk : k < n) : bd n k (n * m) = m := by
  unfold bd
  rw [show n * m + n - 1 - k = (n - 1 - k) + n * m by omega, Nat.add_mul_div_left _ _ (by omega), Nat.div_eq_of_lt (by omega)]
  omega

theorem bd_le {n k l l' : Nat} (h : l ≤ l') : bd n k l ≤ bd n k l' := Nat.div_le_div_right (by omega)

/-- the levels as pairs -/
theorem lev_split {n l : Nat} (hn : 0 < n) (hl : 0 < l) : (l - 1) % n < n ∧ ((l - 1) / n + 1 - 1) * n + (l - 1) % n + 1 = l := by
  refine ⟨Nat.mod_lt _ hn, ?_⟩
  have := Nat.div_add_mod (l - 1) n
  rw [Nat.mul_comm] at this
  rw [Nat.add_sub_cancel]
  omega

theorem lev_inj {n i k i' k' : Nat} (hk : k < n) (hk' : k' < n) (hi : 1 ≤ i) (hi' : 1 ≤ i') (h : (i - 1) * n + k + 1 = (i' - 1) * n + k' + 1) : i = i' ∧ k = k' := by
  have e1 : ((i - 1) * n + k) / n = i - 1 := by rw [Nat.mul_comm, Nat.mul_add_div (by omega), Nat.div_eq_of_lt hk]; rfl
  have e2 : ((i' - 1) * n + k') / n = i' - 1 := by rw [Nat.mul_comm, Nat.mul_add_div (by omega), Nat.div_eq_of_lt hk']; rfl
  have e : (i - 1) * n + k = (i' - 1) * n + k' := by omega
  rw [e] at e1
  have : i = i' := by omega
  subst this
  omega

theorem lev_of {n i k : Nat} (hk : k < n) (hi : 1 ≤ i) : ((i - 1) * n + k + 1 - 1) / n + 1 = i ∧ ((i - 1) * n + k + 1 - 1) % n = k := by
  rw [Nat.add_sub_cancel]
  have e1 : ((i - 1) * n + k) / n = i - 1 := by rw [Nat.mul_comm, Nat.mul_add_div (by omega), Nat.div_eq_of_lt hk]; rfl
  have e2 : ((i - 1) * n + k) % n = k := by rw [Nat.mul_comm, Nat.mul_add_mod, Nat.mod_eq_of_lt hk]
  rw [e1, e2]
  omega

/-! `getLevel` -/

theorem levLoop_spec (n : Nat) : ∀ (fs : List NodeId) (k : Nat) (level : Int), 0 ≤ level → (∀ (j : Nat) (f : NodeId), fs[j]? = some f → f.row = 0 → f = .zero ∨ f = .one) →
    ((∃ j : Nat, fs[j]? = some .zero) ∧ levLoop n k level fs = 0) ∨ ((∀ j : Nat, fs[j]? ≠ some .zero) ∧ ∃ M : Int, level ≤ M ∧ levLoop n k level fs = (if M = 0 then -1 else M) ∧
      (M = level ∨ ∃ (j : Nat) (f : NodeId), fs[j]? = some f ∧ 0 < f.row ∧ M = (((f.row - 1) * n + (k + j) + 1 : Nat) : Int)) ∧ ∀ (j : Nat) (f : NodeId), fs[j]? = some f → 0 < f.row → (((f.row - 1) * n + (k + j) + 1 : Nat) : Int) ≤ M)
  | [], k, level, hl, _ => .inr ⟨fun j => by simp, level, Int.le_refl _, rfl, .inl rfl, fun j f h => by simp at h⟩
  | f :: fs, k, level, hl, hv => by
    have hv' : ∀ (j : Nat) (f : NodeId), fs[j]? = some f → f.row = 0 → f = .zero ∨ f = .one := fun j g h => hv (j + 1) g (by simpa using h)
    unfold levLoop
    by_cases hz : f = .zero
    · subst hz
      exact .inl ⟨⟨0, rfl⟩, if_pos rfl⟩
    · have hne : lev n f k ≠ 0 := by
        unfold lev
        split
        · next h =>
          rcases hv 0 f rfl h with h | h
          · exact absurd h hz
          · subst h; decide
        · omega
      have hlev : (f.row = 0 ∧ lev n f k ≤ 0) ∨ (0 < f.row ∧ lev n f k = (((f.row - 1) * n + k + 1 : Nat) : Int)) := by
        unfold lev
        split
        · exact .inl ⟨by assumption, by omega⟩
        · exact .inr ⟨by omega, rfl⟩
      rw [if_neg hne]
      rcases levLoop_spec n fs (k + 1) (max level (lev n f k)) (by omega) hv' with ⟨⟨j, hj⟩, e⟩ | ⟨hnz, M, hM, e, hor, hle⟩
      · exact .inl ⟨⟨j + 1, by simpa using hj⟩, e⟩
      · refine .inr ⟨fun j => ?_, M, by omega, e, ?_, fun j g hg hr => ?_⟩
        · cases j with
          | zero => simpa using hz
          | succ j => simpa using hnz j
        · rcases hor with h | ⟨j, g, hg, hr, h⟩
          · rcases hlev with ⟨_, h'⟩ | ⟨h0, h'⟩
            · exact .inl (by omega)
            · by_cases hc : M = level
              · exact .inl hc
              · exact .inr ⟨0, f, rfl, h0, by rw [Nat.add_zero]; omega⟩
          · exact .inr ⟨j + 1, g, by simpa using hg, hr, by rw [h]; omega⟩
        · cases j with
          | zero =>
            have : f = g := by simpa using hg
            subst this
            rw [Nat.add_zero]
            omega
          | succ j =>
            have := hle j g (by simpa using hg) hr
            rw [show k + (j + 1) = k + 1 + j by omega]
            exact this

variable {dds : List (Dd 2)}

/-- the entries of a state are node ids of the diagrams -/
structure Good (dds : List (Dd 2)) (s : List NodeId) : Prop where
  len : s.length = dds.length
  valid : ∀ (k : Nat) (D : Dd 2) (f : NodeId), dds[k]? = some D → s[k]? = some f → D.table.Valid f

/-- no entry is above level `l` -/
def Below (n l : Nat) (s : List NodeId) : Prop := ∀ (k : Nat) (f : NodeId), s[k]? = some f → 0 < f.row → (f.row - 1) * n + k + 1 ≤ l

theorem Good.lt {s : List NodeId} (hg : Good dds s) {k : Nat} {f : NodeId} (h : s[k]? = some f) : k < dds.length := by
  rw [← hg.len]
  exact (List.getElem?_eq_some_iff.1 h).1

theorem Good.dd {s : List NodeId} (hg : Good dds s) {k : Nat} {f : NodeId} (h : s[k]? = some f) : ∃ D, dds[k]? = some D := ⟨_, List.getElem?_eq_getElem (hg.lt h)⟩

theorem Good.get {s : List NodeId} (hg : Good dds s) {k : Nat} (h : k < dds.length) : ∃ f, s[k]? = some f := ⟨_, List.getElem?_eq_getElem (by rw [hg.len]; exact h)⟩

theorem Good.term {s : List NodeId} (hg : Good dds s) {k : Nat} {f : NodeId} (h : s[k]? = some f) (h0 : f.row = 0) : f = .zero ∨ f = .one := by
  obtain ⟨D, hD⟩ := hg.dd h
  exact (hg.valid k D f hD h).row0 h0

theorem Good.set {s : List NodeId} (hg : Good dds s) {k : Nat} {D : Dd 2} {g : NodeId} (hD : dds[k]? = some D) (hv : D.table.Valid g) : Good dds (s.set k g) where
  len := by rw [List.length_set]; exact hg.len
  valid := fun k' D' f hD' hf => by
    by_cases e : k = k'
    · subst e
      rw [hD] at hD'
      cases hD'
      have hk : k < s.length := by rw [hg.len]; exact (List.getElem?_eq_some_iff.1 hD).1
      rw [List.getElem?_set_self hk] at hf
      cases hf
      exact hv
    · rw [List.getElem?_set_ne e] at hf
      exact hg.valid k' D' f hD' hf

/-- the level of a state is defined by its entries -/
structure AtLev (dds : List (Dd 2)) (l : Nat) (s : List NodeId) : Prop where
  good : Good dds s
  nz : ∀ k : Nat, s[k]? ≠ some .zero
  top : ∃ (k : Nat) (f : NodeId), s[k]? = some f ∧ 0 < f.row ∧ l = (f.row - 1) * dds.length + k + 1
  below : Below dds.length l s

theorem getLevel_spec {s : List NodeId} (hg : Good dds s) : ((∃ k : Nat, s[k]? = some .zero) ∧ getLevel dds.length s = 0) ∨ ((∀ (k : Nat) (f : NodeId), s[k]? = some f → f = .one) ∧ getLevel dds.length s = -1) ∨
    ∃ l : Nat, 0 < l ∧ getLevel dds.length s = (l : Int) ∧ AtLev dds l s := by
  rcases levLoop_spec dds.length s 0 0 (by omega) (fun j f h h0 => hg.term h h0) with h | ⟨hnz, M, hM, e, hor, hle⟩
  · exact .inl h
  · simp only [Nat.zero_add] at hor hle
    by_cases h0 : M = 0
    · subst h0
      refine .inr (.inl ⟨fun k f hf => ?_, e⟩)
      by_cases hr : 0 < f.row
      · have := hle k f hf hr; omega
      · rcases hg.term hf (by omega) with h | h
        · exact absurd (h ▸ hf) (hnz k)
        · exact h
    · rw [if_neg h0] at e
      rcases hor with h | ⟨k, f, hf, hr, h⟩
      · exact absurd h h0
      · refine .inr (.inr ⟨(f.row - 1) * dds.length + k + 1, by omega, e.trans h, hg, hnz, ⟨k, f, hf, hr, rfl⟩, fun k' f' hf' hr' => ?_⟩)
        have := hle k' f' hf' hr'
        omega

/-- what the proof needs to know about the meaning of a state -/
structure Meaning (dds : List (Dd 2)) (M : Nat → List NodeId → Asg 2 → Prop) : Prop where
  zero : ∀ l s a (k : Nat), s[k]? = some .zero → Good dds s → ¬ M l s a
  one : ∀ s a, Good dds s → (∀ (k : Nat) (f : NodeId), s[k]? = some f → f = .one) → M 0 s a
  raise : ∀ l l' s a, Good dds s → Below dds.length l' s → l' ≤ l → (M l s a ↔ (∀ j, l' < j → j ≤ l → (a j).val = 0) ∧ M l' s a)

theorem Meaning.outcome {M : Nat → List NodeId → Asg 2 → Prop} (hM : Meaning dds M) {s0 s : List NodeId} {l L : Nat} {b : Fin 2} (hg : Good dds s) (hb : Below dds.length L s) (hL : L < l)
    (h : ∀ a : Asg 2, a l = b → (M l s0 a ↔ (∀ j, L < j → j < l → (a j).val = 0) ∧ M L s a)) :
    (getLevel dds.length s = 0 ∧ ∀ a, a l = b → ¬ M l s0 a) ∨
    (getLevel dds.length s = -1 ∧ ∀ a, a l = b → (M l s0 a ↔ ∀ j, 1 ≤ j → j < l → (a j).val = 0)) ∨
    ∃ k : Nat, 0 < k ∧ getLevel dds.length s = k ∧ k < l ∧ AtLev dds k s ∧ ∀ a, a l = b → (M l s0 a ↔ (∀ j, k < j → j < l → (a j).val = 0) ∧ M k s a) := by
  rcases getLevel_spec hg with ⟨⟨k, hk⟩, e⟩ | ⟨h1, e⟩ | ⟨k, hk, e, hn⟩
  · refine .inl ⟨e, fun a ha hm => ?_⟩
    exact hM.zero _ _ _ _ hk hg ((h a ha).1 hm).2
  · refine .inr (.inl ⟨e, fun a ha => ?_⟩)
    rw [h a ha, hM.raise L 0 s a hg (fun k f hf hr => by rw [h1 k f hf] at hr; exact absurd hr (by decide)) (by omega)]
    constructor
    · rintro ⟨h2, h3, _⟩ j h4 h5
      by_cases hj : L < j
      · exact h2 j hj h5
      · exact h3 j h4 (by omega)
    · exact fun h2 => ⟨fun j h3 h4 => h2 j (by omega) h4, fun j h3 h4 => h2 j h3 (by omega), hM.one s a hg h1⟩
  · have hkL : k ≤ L := by
      obtain ⟨k', f, hf, hr, rfl⟩ := hn.top
      exact hb k' f hf hr
    refine .inr (.inr ⟨k, hk, e, by omega, hn, fun a ha => ?_⟩)
    rw [h a ha, hM.raise L k s a hg hn.below hkL]
    constructor
    · rintro ⟨h2, h3, h4⟩
      refine ⟨fun j h5 h6 => ?_, h4⟩
      by_cases hj : L < j
      · exact h2 j hj h6
      · exact h3 j h5 (by omega)
    · exact fun ⟨h2, h3⟩ => ⟨fun j h5 h6 => h2 j (by omega) h6, fun j h5 h6 => h2 j h5 (by omega), h3⟩

theorem desc_of_terminal {N : Nat} {S : Type} {sp : DdSpec N S} (h : sp.root.1 = 0 ∨ sp.root.1 = -1) : Desc sp := by
  have key : ∀ l s, Reach sp l s → l ≤ 0 := by
    intro l s hr
    induction hr with
    | root => omega
    | step b hn _ ih => omega
  exact { root_ge := by omega, child_lt := fun b hn hr => by have := key _ _ hr; omega, child_ge := fun b hn hr => by have := key _ _ hr; omega }

/-- The family of a specification whose level is computed by `getLevel` -/
theorem Meaning.family {M : Nat → List NodeId → Asg 2 → Prop} (hM : Meaning dds M) {sp : DdSpec 2 (List NodeId)} {s0 : List NodeId} (hroot : sp.root = (getLevel dds.length s0, s0)) (hg : Good dds s0)
    (hstep : ∀ l s (b : Fin 2), 0 < l → AtLev dds l s →
      ((sp.child s l b).1 = 0 ∧ ∀ a, a l = b → ¬ M l s a) ∨
      ((sp.child s l b).1 = -1 ∧ ∀ a, a l = b → (M l s a ↔ ∀ j, 1 ≤ j → j < l → (a j).val = 0)) ∨
      ∃ k : Nat, 0 < k ∧ (sp.child s l b).1 = k ∧ k < l ∧ AtLev dds k (sp.child s l b).2 ∧ ∀ a, a l = b → (M l s a ↔ (∀ j, k < j → j < l → (a j).val = 0) ∧ M k (sp.child s l b).2 a)) :
    Desc sp ∧ ∀ m a, Below dds.length m s0 → (ZddMem sp m a ↔ M m s0 a) := by
  rcases getLevel_spec hg with ⟨⟨k, hk⟩, e⟩ | ⟨h1, e⟩ | ⟨l, hl, e, hn⟩
  · refine ⟨desc_of_terminal (.inl (by rw [hroot]; exact e)), fun m a _ => ?_⟩
    unfold ZddMem
    rw [hroot]
    show ZddMemAt sp m (getLevel dds.length s0) s0 a ↔ _
    rw [e]
    exact ⟨fun h => absurd h zddMemAt_zero, fun h => absurd h (hM.zero _ _ _ _ hk hg)⟩
  · refine ⟨desc_of_terminal (.inr (by rw [hroot]; exact e)), fun m a _ => ?_⟩
    unfold ZddMem
    rw [hroot]
    show ZddMemAt sp m (getLevel dds.length s0) s0 a ↔ _
    rw [e, zddMemAt_neg (by decide), hM.raise m 0 s0 a hg (fun k f hf hr => by rw [h1 k f hf] at hr; exact absurd hr (by decide)) (by omega)]
    exact ⟨fun h => ⟨fun j h1 h2 => h j h1 h2, hM.one s0 a hg h1⟩, fun h j h1 h2 => h.1 j h1 h2⟩
  · obtain ⟨hd, hz⟩ := zddMem_of_step (Inv := AtLev dds) (P := M) (top := l) (s0 := s0) (sp := sp) (by rw [hroot, e]) hn hl hstep
    refine ⟨hd, fun m a hb => ?_⟩
    have hlm : l ≤ m := by
      obtain ⟨k', f, hf, hr, rfl⟩ := hn.top
      exact hb k' f hf hr
    have hz := hz a
    have hr := Reach.root (sp := sp)
    unfold ZddMem at hz ⊢
    rw [hroot, e] at hz hr ⊢
    rw [zddMemAt_raise hd hr (Int.le_refl _) hlm, hz, hM.raise m l s0 a hg hn.below hlm]

/-- the entries of a state as sub-diagrams of the assignments -/
def P (dds : List (Dd 2)) (l : Nat) (s : List NodeId) (a : Asg 2) : Prop := ∀ (k : Nat) (D : Dd 2) (f : NodeId), dds[k]? = some D → s[k]? = some f → TMem D.table (bd dds.length k l) f (col dds.length a k)

theorem P_meaning (hn : 0 < dds.length) (hw : ∀ D ∈ dds, D.Wf) : Meaning dds (P dds) where
  zero := fun l s a k hk hg h => by
    obtain ⟨D, hD⟩ := hg.dd hk
    exact not_tmem_zero (h k D _ hD hk)
  one := fun s a hg h1 k D f hD hf => by
    rw [h1 k f hf, tmem_one]
    intro j hj1 hj2
    rw [bd_iff (hg.lt hf) hj1] at hj2
    omega
  raise := fun l l' s a hg hb hl => by
    have hraise : ∀ (k : Nat) (D : Dd 2) (f : NodeId), dds[k]? = some D → s[k]? = some f → (TMem D.table (bd dds.length k l) f (col dds.length a k) ↔
        (∀ j, bd dds.length k l' < j → j ≤ bd dds.length k l → (col dds.length a k j).val = 0) ∧ TMem D.table (bd dds.length k l') f (col dds.length a k)) := fun k D f hD hf => by
      refine tmem_raise (hw D (List.mem_of_getElem? hD)).table ?_ (bd_le hl)
      by_cases hr : 0 < f.row
      · exact (bd_iff (hg.lt hf) hr).2 (hb k f hf hr)
      · omega
    constructor
    · intro h
      refine ⟨fun j h1 h2 => ?_, fun k D f hD hf => ((hraise k D f hD hf).1 (h k D f hD hf)).2⟩
      · obtain ⟨hk, e⟩ := lev_split (n := dds.length) (l := j) (by omega) (by omega)
        obtain ⟨f, hf⟩ := hg.get hk
        obtain ⟨D, hD⟩ := hg.dd hf
        have := ((hraise _ D f hD hf).1 (h _ D f hD hf)).1 ((j - 1) / dds.length + 1) (by
          apply Nat.lt_of_not_le
          rw [bd_iff hk (Nat.le_add_left 1 _), e]
          omega) (by rw [bd_iff hk (Nat.le_add_left 1 _), e]; exact h2)
        unfold col at this
        rw [e] at this
        exact this
    · rintro ⟨hz, h⟩ k D f hD hf
      refine (hraise k D f hD hf).2 ⟨fun j h1 h2 => ?_, h k D f hD hf⟩
      have hk := hg.lt hf
      have hj : 1 ≤ j := by omega
      refine hz _ ?_ ((bd_iff hk hj).1 h2)
      apply Nat.lt_of_not_le
      rw [← bd_iff hk hj]
      omega

end TdZdd.Interleave
