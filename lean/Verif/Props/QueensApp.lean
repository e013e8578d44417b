import Verif.QueensApp
import Verif.Pipeline
import Verif.RunDec
import Verif.Props.Queens
import Verif.Props.QueensColored
import Verif.Props.NAry
import Verif.Props.Interleave

/-!
# The diagrams of `ddqueens` (C67)
-/

namespace TdZdd.Queens

/-- The pieces of every colour are a placement, every field has a piece of exactly one colour, and the colour `k` is in column `n - 1 - k` of the last row. -/
def IsColoredMirror (n : Nat) (a : Asg 2) : Prop :=
  (∀ k, k < n → IsPlacement false n fun l => a ((l - 1) * n + k + 1)) ∧
  (∀ i c, i < n → c < n → ∃ k, k < n ∧ a ((i * n + c) * n + k + 1) = 1 ∧ ∀ k', k' < n → a ((i * n + c) * n + k' + 1) = 1 → k' = k) ∧
  ∀ k, k < n → a (((n - 1) * n + (n - 1 - k)) * n + k + 1) = 1

theorem made_has {S : Type} {sp : DdSpec 2 S} {n : Nat} {F : Asg 2 → Prop} (hl : LawfulC sp) (hm : NoMerge sp) (hn : sp.root.1 ≤ n) (hF : ∀ a, ZddMem sp n a ↔ F a) : ∃ D, made sp = some D ∧ Has n F D := by
  obtain ⟨D, e, h⟩ := has_build hl.lawful hm hn hF
  obtain ⟨D', e', h'⟩ := h.reduce
  exact ⟨D', by unfold made; rw [e]; exact e', h'⟩

theorem cutBy_has {S : Type} {D : Dd 2} {sp : DdSpec 2 S} {n : Nat} {F G : Asg 2 → Prop} (h : Has n F D) (shared : Bool) (hl : LawfulC sp) (hm : NoMerge sp) (hn : sp.root.1 ≤ n) (hG : ∀ a, F a → (ZddMem sp n a ↔ G a)) :
    ∃ D', cutBy D sp shared = some D' ∧ Has n (fun a => F a ∧ G a) D' := by
  obtain ⟨D1, e, h1⟩ := h.subset shared hl.lawful hm hn hG
  obtain ⟨D', e', h'⟩ := h1.reduce
  exact ⟨D', by unfold cutBy; rw [e]; exact e', h'⟩

theorem spec_root_le (rook : Bool) (n : Nat) (fc : Option Nat) : (spec rook n fc).root.1 ≤ (n * n : Nat) := by
  unfold spec
  dsimp only
  split
  · show (-2 : Int) ≤ _; omega
  · split
    · show ((n * n - fc.getD 0 : Nat) : Int) ≤ _; omega
    · show (-2 : Int) ≤ _; omega

theorem cspec_root_le (rook : Bool) (n : Nat) : (cspec rook n).root.1 ≤ (n * n * n : Nat) := by
  unfold cspec
  dsimp only
  split
  · show (-2 : Int) ≤ _; omega
  · exact Int.le_refl _

/-- **C67.** `ddqueens n` makes the diagram of the solutions of the n-queens problem. -/
theorem _root_.TdZdd.C67_plain (n : Nat) (h1 : 1 ≤ n) (hn : n ≤ 31) : ∃ D, plain n = some D ∧ D.Wf ∧ ∀ a, ZddMem D.spec (n * n) a ↔ IsPlacement false n a := by
  obtain ⟨D, e, h⟩ := made_has (C63_lawful false n none h1 hn (show 0 < n by omega)) (fun _ _ => rfl) (spec_root_le _ _ _) (C63_placements false n h1 hn)
  exact ⟨D, e, h.wf, h.mem⟩

/-- **C67.** So does `ddqueens -rook n`. -/
theorem _root_.TdZdd.C67_rook (n : Nat) (h1 : 1 ≤ n) (hn : n ≤ 31) : ∃ D, viaRooks n = some D ∧ D.Wf ∧ ∀ a, ZddMem D.spec (n * n) a ↔ IsPlacement false n a := by
  obtain ⟨D, e, h⟩ := made_has (C63_lawful true n none h1 hn (show 0 < n by omega)) (fun _ _ => rfl) (spec_root_le _ _ _) (C63_placements true n h1 hn)
  obtain ⟨D', e', h'⟩ := cutBy_has h false (C63_lawful false n none h1 hn (show 0 < n by omega)) (fun _ _ => rfl) (spec_root_le _ _ _) (fun a _ => C63_placements false n h1 hn a)
  refine ⟨D', by unfold viaRooks; rw [e]; exact e', h'.wf, fun a => (h'.mem a).trans ⟨fun h => h.2, fun h => ⟨⟨h.1, ?_⟩, h⟩⟩⟩
  intro i c i' c' hi hc hi' hc' ha ha' hne
  have := h.2 i c i' c' hi hc hi' hc' ha ha' hne
  exact ⟨this.1, this.2.1, fun h => by cases h⟩

/-- **C67.** `ddqueens -colored1 n` makes the diagram of the solutions of the coloured n-queens problem with the last row in order. -/
theorem _root_.TdZdd.C67_colored1 (n : Nat) (h1 : 1 ≤ n) (hn : n ≤ 31) : ∃ D, colored1 n = some D ∧ D.Wf ∧ ∀ a, ZddMem D.spec (n * n * n) a ↔ IsColored false n a := by
  obtain ⟨D, e, h⟩ := made_has (C64_lawful false n h1 hn) (fun _ _ => rfl) (cspec_root_le _ _) (C64_colored false n h1 hn)
  exact ⟨D, e, h.wf, h.mem⟩

/-- every field has exactly one colour -/
def OneHot (n : Nat) (a : Asg 2) : Prop := ∀ t, t < n * n → ∃ k, k < n ∧ a (t * n + k + 1) = 1 ∧ ∀ k', k' < n → a (t * n + k' + 1) = 1 → k' = k

/-- the placement of colour `k` -/
def First (n k : Nat) (a : Asg 2) : Prop := IsPlacement false n (fun l => a ((l - 1) * n + k + 1)) ∧ a (((n - 1) * n + (n - 1 - k)) * n + k + 1) = 1

theorem colourK_has {n k : Nat} {nqs : List (Dd 2)} {oh Dq : Dd 2} (hk : k < n) (hq : nqs[k]? = some Dq) (hD : Has (n * n) (fun a => IsPlacement false n a ∧ a ((n - 1) * n + (n - 1 - k) + 1) = 1) Dq)
    (ho : Has (n * n * n) (OneHot n) oh) : ∃ D, colourK n nqs oh k = some D ∧ Has (n * n * n) (fun a => OneHot n a ∧ First n k a) D := by
  unfold colourK
  rw [hq]
  have hlen : ((List.replicate n (universal 2 (n * n))).set k Dq).length = n := by simp
  have hget : ∀ (k' : Nat) (D : Dd 2), ((List.replicate n (universal 2 (n * n))).set k Dq)[k']? = some D → (k' = k ∧ D = Dq) ∨ (k' ≠ k ∧ D = universal 2 (n * n)) := fun k' D h => by
    by_cases e : k = k'
    · subst e
      rw [List.getElem?_set_self (by simpa using hk)] at h
      cases h
      exact .inl ⟨rfl, rfl⟩
    · rw [List.getElem?_set_ne e, List.getElem?_replicate] at h
      split at h
      · cases h; exact .inr ⟨fun h => e h.symm, rfl⟩
      · cases h
  have hwf : ∀ D ∈ (List.replicate n (universal 2 (n * n))).set k Dq, D.Wf := fun D h => by
    obtain ⟨k', h'⟩ := List.mem_iff_getElem?.1 h
    rcases hget k' D h' with ⟨_, rfl⟩ | ⟨_, rfl⟩
    · exact hD.wf
    · exact (C36_universal 2 _).1
  have hrow : ∀ D ∈ (List.replicate n (universal 2 (n * n))).set k Dq, D.root.row ≤ n * n := fun D h => by
    obtain ⟨k', h'⟩ := List.mem_iff_getElem?.1 h
    rcases hget k' D h' with ⟨_, rfl⟩ | ⟨_, rfl⟩
    · exact hD.le
    · rw [universal_root]
      split
      · exact Nat.zero_le _
      · exact Nat.le_refl _
  have hpos : 0 < ((List.replicate n (universal 2 (n * n))).set k Dq).length := by rw [hlen]; omega
  have hlev : (Interleave.colored ((List.replicate n (universal 2 (n * n))).set k Dq)).root.1 ≤ (n * n * n : Nat) := by
    have hb := Interleave.root_below hrow
    rw [hlen] at hb
    show Interleave.getLevel _ _ ≤ _
    rcases Interleave.getLevel_spec (Interleave.root_good hwf) with ⟨_, e⟩ | ⟨_, e⟩ | ⟨l, _, e, hA⟩
    · rw [e]; exact Int.natCast_nonneg _
    · rw [e]; omega
    · rw [e]
      obtain ⟨k', f, hf, hr, rfl⟩ := hA.top
      have := hb k' f hf hr
      rw [hlen, Nat.mul_assoc n n n]
      omega
  refine cutBy_has ho true (C66_lawful _ hpos hwf).2 (fun _ _ => rfl) hlev fun a ha => ?_
  have := C66_colored_oneHot _ hpos hwf (n * n) hrow a (fun i hi him => by
    rw [hlen]
    exact ha (i - 1) (by omega))
  rw [hlen] at this
  rw [Nat.mul_assoc, this]
  have hDm := hD.mem fun i => a ((i - 1) * n + k + 1)
  simp only [Nat.add_sub_cancel] at hDm
  unfold First
  rw [← hDm]
  constructor
  · exact fun h => h k Dq (List.getElem?_set_self (by simpa using hk))
  · intro h k' D hk'
    rcases hget k' D hk' with ⟨rfl, rfl⟩ | ⟨_, rfl⟩
    · exact h
    · exact (C36_universal 2 _).2.2.2 _

theorem colourLoop_has {n : Nat} {nqs : List (Dd 2)} {oh : Dd 2} (hq : ∀ k, k < n → ∃ D, nqs[k]? = some D ∧ Has (n * n) (fun a => IsPlacement false n a ∧ a ((n - 1) * n + (n - 1 - k) + 1) = 1) D)
    (ho : Has (n * n * n) (OneHot n) oh) : ∀ k, k ≤ n → ∀ dd, Has (n * n * n) (fun a => OneHot n a ∧ ∀ k', k ≤ k' → k' < n → First n k' a) dd →
      ∃ D, colourLoop n nqs oh k dd = some D ∧ Has (n * n * n) (fun a => OneHot n a ∧ ∀ k', k' < n → First n k' a) D
  | 0, _, dd, h => ⟨dd, rfl, h.congr fun a => ⟨fun h => ⟨h.1, fun k' hk' => h.2 k' (Nat.zero_le _) hk'⟩, fun h => ⟨h.1, fun k' _ hk' => h.2 k' hk'⟩⟩⟩
  | k + 1, hk, dd, h => by
    obtain ⟨Dq, e, hD⟩ := hq k (by omega)
    obtain ⟨Dk, e1, h1⟩ := colourK_has (by omega) e hD ho
    have hr := Dd.root_row h1.wf
    have hle := h1.le
    obtain ⟨D', e2, h2⟩ := cutBy_has h false h1.wf.lawful Dd.noMerge (by omega) (fun a _ => h1.mem a)
    obtain ⟨D, e3, h3⟩ := colourLoop_has hq ho k (by omega) D' (h2.congr fun a => by
      constructor
      · rintro ⟨⟨x, y⟩, _, z⟩
        refine ⟨x, fun k' hk1 hk2 => ?_⟩
        by_cases e : k' = k
        · rw [e]; exact z
        · exact y k' (by omega) hk2
      · rintro ⟨x, y⟩
        exact ⟨⟨x, fun k' hk1 hk2 => y k' (by omega) hk2⟩, x, y k (Nat.le_refl _) (by omega)⟩)
    exact ⟨D, by unfold colourLoop; rw [e1]; show Option.bind (cutBy dd Dk.spec false) _ = _; rw [e2]; exact e3, h3⟩

theorem mapM_spec {α β : Type} {f : α → Option β} {R : α → β → Prop} : ∀ l : List α, (∀ x ∈ l, ∃ y, f x = some y ∧ R x y) → ∃ r, l.mapM f = some r ∧ ∀ (k : Nat) x, l[k]? = some x → ∃ y, r[k]? = some y ∧ R x y
  | [], _ => ⟨[], rfl, fun k x h => by simp at h⟩
  | x :: l, h => by
    obtain ⟨y, e, hR⟩ := h x (by simp)
    obtain ⟨r, e', h'⟩ := mapM_spec l fun z hz => h z (by simp [hz])
    refine ⟨y :: r, by rw [List.mapM_cons, e, e']; rfl, fun k z hz => ?_⟩
    cases k with
    | zero => simp only [List.getElem?_cons_zero, Option.some.injEq] at hz; subst hz; exact ⟨y, rfl, hR⟩
    | succ k => simpa using h' k z (by simpa using hz)

/-- **C67.** `ddqueens -colored n` makes the diagram of the solutions of the coloured n-queens problem with the last row in opposite order. -/
theorem _root_.TdZdd.C67_colored (n : Nat) (h1 : 1 ≤ n) (hn : n ≤ 31) : ∃ D, colouredApp n = some D ∧ D.Wf ∧ ∀ a, ZddMem D.spec (n * n * n) a ↔ IsColoredMirror n a := by
  have hnn : 0 < n * n := Nat.mul_pos h1 h1
  obtain ⟨nqs, e1, hq⟩ := mapM_spec (f := fun k => made (spec false n (some k))) (R := fun k D => Has (n * n) (fun a => IsPlacement false n a ∧ a ((n - 1) * n + (n - 1 - k) + 1) = 1) D) (List.range n) fun k hk =>
    made_has (C63_lawful false n (some k) h1 hn (show k < n from List.mem_range.1 hk)) (fun _ _ => rfl) (spec_root_le _ _ _) (C63_first false n k (List.mem_range.1 hk) hn)
  obtain ⟨oh, e2, ho⟩ := has_build (F := OneHot n) (n := n * n * n) ((C65_lawful n (n * n) hnn).1 h1).lawful (fun _ _ => rfl) (by
    show (if 1 ≤ n ∧ 1 ≤ n * n then _ else _ : Int × Unit).1 ≤ _
    rw [if_pos ⟨h1, hnn⟩, Nat.mul_assoc n n n]
    exact Int.le_refl _) fun a => by rw [Nat.mul_assoc]; exact C65_oneHot n (n * n) h1 hnn a
  have hq' : ∀ k, k < n → ∃ D, nqs[k]? = some D ∧ Has (n * n) (fun a => IsPlacement false n a ∧ a ((n - 1) * n + (n - 1 - k) + 1) = 1) D := fun k hk => hq k k (List.getElem?_range hk)
  obtain ⟨Dq, e3, hD⟩ := hq' (n - 1) (by omega)
  obtain ⟨D1, e4, h4⟩ := colourK_has (by omega) e3 hD ho
  obtain ⟨D, e5, h5⟩ := colourLoop_has hq' ho (n - 1) (by omega) D1 (h4.congr fun a => by
    constructor
    · rintro ⟨x, y⟩
      exact ⟨x, fun k' h1 h2 => by rw [show k' = n - 1 by omega]; exact y⟩
    · rintro ⟨x, y⟩
      exact ⟨x, y (n - 1) (Nat.le_refl _) (by omega)⟩)
  refine ⟨D, by unfold colouredApp; rw [e1]; show Option.bind (build _) _ = _; rw [e2]; show Option.bind (colourK _ _ _ _) _ = _; rw [e4]; exact e5, h5.wf, fun a => (h5.mem a).trans ?_⟩
  constructor
  · rintro ⟨x, y⟩
    exact ⟨fun k hk => (y k hk).1, fun i c hi hc => x (i * n + c) (idx_lt hi hc), fun k hk => (y k hk).2⟩
  · rintro ⟨x, y, z⟩
    refine ⟨fun t ht => ?_, fun k hk => ⟨x k hk, z k hk⟩⟩
    have := y (t / n) (t % n) (Nat.div_lt_of_lt_mul ht) (Nat.mod_lt _ h1)
    rw [Nat.mul_comm (t / n) n, Nat.div_add_mod] at this
    exact this

/-- the level of the same field and the opposite colour -/
def mirror (n l : Nat) : Nat := (l - 1) / n * n + (n - 1 - (l - 1) % n) + 1

theorem mirror_eq {n t k : Nat} (hk : k < n) : mirror n (t * n + k + 1) = t * n + (n - 1 - k) + 1 := by
  unfold mirror
  rw [Nat.add_sub_cancel, Nat.mul_comm t n, Nat.mul_add_div (by omega), Nat.mul_add_mod, Nat.mul_comm n t, Nat.div_eq_of_lt hk, Nat.mod_eq_of_lt hk]
  rfl

theorem mirror_iff (n : Nat) (a : Asg 2) : IsColoredMirror n a ↔ IsColored false n fun l => a (mirror n l) := by
  have e : ∀ k, k < n → ((fun l => a ((l - 1) * n + (n - 1 - k) + 1)) : Asg 2) = fun l => a (mirror n ((l - 1) * n + k + 1)) := fun k hk => by
    funext l; rw [mirror_eq hk]
  have back : ∀ k, k < n → n - 1 - (n - 1 - k) = k := fun k hk => by omega
  constructor
  · rintro ⟨x, y, z⟩
    refine ⟨fun k hk => ?_, fun i c hi hc => ?_, fun k hk => ?_⟩
    · have := x (n - 1 - k) (by omega)
      rw [e k hk] at this
      exact this
    · obtain ⟨k, hk, ha, hu⟩ := y i c hi hc
      refine ⟨n - 1 - k, by omega, ?_, fun k' hk' h' => ?_⟩
      · show a (mirror n _) = 1
        rw [mirror_eq (by omega), back k hk]
        exact ha
      · change a (mirror n _) = 1 at h'
        rw [mirror_eq hk'] at h'
        have := hu _ (by omega) h'
        omega
    · show a (mirror n _) = 1
      rw [mirror_eq hk]
      have := z (n - 1 - k) (by omega)
      rw [back k hk] at this
      exact this
  · rintro ⟨x, y, z⟩
    refine ⟨fun k hk => ?_, fun i c hi hc => ?_, fun k hk => ?_⟩
    · have := x (n - 1 - k) (by omega)
      dsimp only at this
      rw [← e _ (by omega), back k hk] at this
      exact this
    · obtain ⟨k, hk, ha, hu⟩ := y i c hi hc
      change a (mirror n _) = 1 at ha
      rw [mirror_eq hk] at ha
      refine ⟨n - 1 - k, by omega, ha, fun k' hk' h' => ?_⟩
      have := hu (n - 1 - k') (by omega) (by
        show a (mirror n _) = 1
        rw [mirror_eq (by omega), back k' hk']
        exact h')
      omega
    · have := z (n - 1 - k) (by omega)
      change a (mirror n _) = 1 at this
      rw [mirror_eq (by omega), back k hk] at this
      exact this

/-- **C67.** The two ways to count the coloured solutions agree up to the names of the colours: an assignment is in the diagram of `-colored` if and only if the one with the opposite colours is in that of
`-colored1`. -/
theorem _root_.TdZdd.C67_mirror (n : Nat) (h1 : 1 ≤ n) (hn : n ≤ 31) : ∃ D D', colouredApp n = some D ∧ colored1 n = some D' ∧
    ∀ a, ZddMem D.spec (n * n * n) a ↔ ZddMem D'.spec (n * n * n) fun l => a ((l - 1) / n * n + (n - 1 - (l - 1) % n) + 1) := by
  obtain ⟨D, e, _, h⟩ := C67_colored n h1 hn
  obtain ⟨D', e', _, h'⟩ := C67_colored1 n h1 hn
  exact ⟨D, D', e, e', fun a => (h a).trans ((mirror_iff n a).trans (h' _).symm)⟩

/-! The board with 5 rows and 5 columns: row `i`, column `c` has the colour `c - 2 * i + 3` modulo 5, and the opposite colour in the diagram of `-colored`. -/

def sol5 : Asg 2 := fun l => if ((l - 1) / 5 % 5 + 3 * ((l - 1) / 25) + 3) % 5 = (l - 1) % 5 then 1 else 0

theorem sol5_colored : IsColored false 5 sol5 := by
  have h := (C64_lawful false 5 (by decide) (by decide)).toDesc
  rw [← C64_colored false 5 (by decide) (by decide), ← zddRun_mem h (by decide +kernel)]
  decide +kernel

theorem mirror_mirror {n l : Nat} (h1 : 1 ≤ n) (hl : 1 ≤ l) : mirror n (mirror n l) = l := by
  have := Nat.mod_lt (l - 1) h1
  have e := Nat.div_add_mod (l - 1) n
  rw [Nat.mul_comm] at e
  rw [show mirror n l = (l - 1) / n * n + (n - 1 - (l - 1) % n) + 1 from rfl, mirror_eq (by omega)]
  omega

example : ∃ D D', colored1 5 = some D ∧ ZddMem D.spec 125 sol5 ∧ colouredApp 5 = some D' ∧ ZddMem D'.spec 125 fun l => sol5 (mirror 5 l) := by
  obtain ⟨D, e, _, h⟩ := C67_colored1 5 (by decide) (by decide)
  obtain ⟨D', e', _, h'⟩ := C67_colored 5 (by decide) (by decide)
  refine ⟨D, D', e, (h _).2 sol5_colored, e', (h' _).2 ?_⟩
  have hm : ∀ t k, k < 5 → mirror 5 (mirror 5 (t * 5 + k + 1)) = t * 5 + k + 1 := fun t k hk => mirror_mirror (by decide) (by omega)
  rw [mirror_iff]
  obtain ⟨x, y, z⟩ := sol5_colored
  refine ⟨fun k hk => ?_, fun i c hi hc => ?_, fun k hk => ?_⟩
  · simp only [hm _ k hk]; exact x k hk
  · obtain ⟨k, hk, ha, hu⟩ := y i c hi hc
    exact ⟨k, hk, by simp only [hm _ k hk]; exact ha, fun k' hk' h' => hu k' hk' (by simpa only [hm _ k' hk'] using h')⟩
  · simp only [hm _ k hk]; exact z k hk

/-- four queens -/
def sol4 : Asg 2 := fun l => if l = 2 ∨ l = 8 ∨ l = 9 ∨ l = 15 then 1 else 0

example : ∃ D D', plain 4 = some D ∧ ZddMem D.spec 16 sol4 ∧ viaRooks 4 = some D' ∧ ZddMem D'.spec 16 sol4 := by
  obtain ⟨D, e, _, h⟩ := C67_plain 4 (by decide) (by decide)
  obtain ⟨D', e', _, h'⟩ := C67_rook 4 (by decide) (by decide)
  have : IsPlacement false 4 sol4 := by
    rw [← C63_placements false 4 (by decide) (by decide), ← zddRun_mem (C63_lawful false 4 none (by decide) (by decide) (by decide)).toDesc (by decide +kernel)]
    decide +kernel
  exact ⟨D, D', e, (h _).2 this, e', (h' _).2 this⟩

end TdZdd.Queens
