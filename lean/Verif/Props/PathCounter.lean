import Verif.PathCounterProofs4
import Verif.PathCount
import Verif.Samples

/-!
# Property C53: `PathCounter`

`lim` is the number of nodes a level may have before an allocation throws; every statement holds for every `lim`.
-/

namespace TdZdd

open Big

variable {N : Nat} {S : Type}

theorem count_root {sp : DdSpec (N + 1) S} (hl : Lawful sp) :
    ∃ k, HasCount (fun p => Accepts sp sp.root.1 sp.root.2 p) k ∧ ZddCount sp sp.root.1.toNat k ∧
      (sp.root.1 = 0 → k = 0) ∧ (sp.root.1 < 0 → k = 1) ∧ (0 < sp.root.1 → k = cntF sp sp.root.1.toNat sp.root.2) := by
  have h := (count_all hl.toDesc sp.root.1.toNat sp.root.1 sp.root.2 (by omega) hl.root_ge .root).1
  refine ⟨_, h, zddCount_of_paths hl.toDesc (by omega) h, ?_, ?_, ?_⟩
  · intro h0; unfold cc; rw [if_neg (by dsimp only; omega), if_pos h0]
  · intro h0; unfold cc; rw [if_pos h0]
  · intro h0; unfold cc; rw [if_neg (by dsimp only; omega), if_neg (by dsimp only; omega)]

theorem count_top {sp : DdSpec (N + 1) S} (hl : Lawful sp) {u : Prop × Prop} {run : Out (List Nat)}
    (h : 0 < sp.root.1 → Post u run fun t => BigTot sp.root.1.toNat t (cntF sp sp.root.1.toNat sp.root.2)) :
    Post u (if sp.root.1 ≤ 0 then .ok (if sp.root.1 = 0 then "0" else "1") else run.bind fun t => .of (print t)) fun r =>
      ∃ k, HasCount (fun p => Accepts sp sp.root.1 sp.root.2 p) k ∧ ZddCount sp sp.root.1.toNat k ∧ r = toString k := by
  obtain ⟨k, h1, h2, h3, h4, h5⟩ := count_root hl
  by_cases h0 : sp.root.1 ≤ 0
  · rw [if_pos h0]
    by_cases hz : sp.root.1 = 0
    · rw [if_pos hz]; exact ⟨k, h1, h2, by rw [h3 hz]; rfl⟩
    · rw [if_neg hz]; exact ⟨k, h1, h2, by rw [h4 (by omega)]; rfl⟩
  · rw [if_neg h0]
    refine (h (by omega)).bind fun t ht => ?_
    obtain ⟨⟨s, hs, _⟩, _⟩ := ht
    rw [print_spec hs]
    exact ⟨k, h1, h2, by rw [h5 (by omega)]⟩

theorem count_top' {sp : DdSpec (N + 1) S} (hl : Lawful sp) (lim : Nat) :
    Post (¬PcSafe sp sp.root.1.toNat lim, lim < (N + 1) ^ sp.root.1.toNat) (pcCount sp lim) fun r =>
      ∃ k, HasCount (fun p => Accepts sp sp.root.1 sp.root.2 p) k ∧ ZddCount sp sp.root.1.toNat k ∧ r = toString k :=
  count_top hl fun h => pcCount_post hl (Nat.succ_pos N) (by omega) (by omega) lim

theorem countFast_top {sp : DdSpec (N + 1) S} (hl : Lawful sp) (lim : Nat) :
    Post (¬(lim ≤ 2 ^ 63 ∧ (N + 1) ^ sp.root.1.toNat < 2 ^ (63 * (sp.root.1.toNat / 63 + 1))), lim < (N + 1) ^ sp.root.1.toNat)
      (pcCountFast sp lim) fun r =>
      ∃ k, HasCount (fun p => Accepts sp sp.root.1 sp.root.2 p) k ∧ ZddCount sp sp.root.1.toNat k ∧ r = toString k :=
  count_top hl fun h => pcCountFast_post hl (Nat.succ_pos N) (by omega) (by omega) lim

theorem count64_top {sp : DdSpec (N + 1) S} (hl : Lawful sp) (lim : Nat) :
    Post (False, lim < (N + 1) ^ sp.root.1.toNat) (pcCount64 sp lim) fun r =>
      ∃ k, HasCount (fun p => Accepts sp sp.root.1 sp.root.2 p) k ∧ ZddCount sp sp.root.1.toNat k ∧ r = k % 2 ^ 64 := by
  obtain ⟨k, h1, h2, h3, h4, h5⟩ := count_root hl
  unfold pcCount64
  dsimp only
  by_cases h0 : sp.root.1 ≤ 0
  · rw [if_pos h0]
    by_cases hz : sp.root.1 = 0
    · rw [if_pos hz]; exact ⟨k, h1, h2, by rw [h3 hz]⟩
    · rw [if_neg hz]; exact ⟨k, h1, h2, by rw [h4 (by omega)]⟩
  · rw [if_neg h0]
    refine (pcCount64_post hl (Nat.succ_pos N) (by omega) (by omega) lim).imp fun t ht => ?_
    exact ⟨k, h1, h2, by rw [h5 (by omega)]; exact ht⟩

/-- C53, `count64`: for every lawful specification, the result is the number of accepted paths, which is the number of
members of the family, modulo 2^64. Only the allocation of a level with more than `lim` nodes can fail. -/
theorem C53_count64 (sp : DdSpec (N + 1) S) (hl : Lawful sp) (lim : Nat) :
    (∃ k, HasCount (fun p => Accepts sp sp.root.1 sp.root.2 p) k ∧ ZddCount sp sp.root.1.toNat k ∧
      pcCount64 sp lim = .ok (k % 2 ^ 64)) ∨ (pcCount64 sp lim = .throw ∧ lim < (N + 1) ^ sp.root.1.toNat) := by
  have h := count64_top hl lim
  cases e : pcCount64 sp lim with
  | ub => rw [e] at h; exact h.elim
  | throw => rw [e] at h; exact .inr ⟨rfl, h⟩
  | ok r =>
    rw [e] at h
    obtain ⟨k, h1, h2, rfl⟩ := h
    exact .inl ⟨k, h1, h2, rfl⟩

theorem lt_words (n : Nat) : 2 ^ n < 2 ^ (63 * (n / 63 + 1)) := Nat.pow_lt_pow_right (by omega) (by omega)

/-- C53, `countFast`: for every lawful binary specification, the result is the decimal representation of the number of
accepted paths, which is the number of members of the family; the numbers always fit into their storage. The assumption on
`lim` says that a level has at most 2^63 nodes. -/
theorem C53_countFast (sp : DdSpec 2 S) (hl : Lawful sp) (lim : Nat) (hlim : lim ≤ 2 ^ 63) :
    (∃ k, HasCount (fun p => Accepts sp sp.root.1 sp.root.2 p) k ∧ ZddCount sp sp.root.1.toNat k ∧
      pcCountFast sp lim = .ok (toString k)) ∨ (pcCountFast sp lim = .throw ∧ lim < 2 ^ sp.root.1.toNat) := by
  have h := countFast_top hl lim
  cases e : pcCountFast sp lim with
  | ub => rw [e] at h; exact absurd ⟨hlim, lt_words _⟩ h
  | throw => rw [e] at h; exact .inr ⟨rfl, h⟩
  | ok r =>
    rw [e] at h
    obtain ⟨k, h1, h2, rfl⟩ := h
    exact .inl ⟨k, h1, h2, rfl⟩

/-- C53: if `count` or `countFast` returns a result for a lawful specification of any arity, the result is correct. -/
theorem C53_sound (sp : DdSpec (N + 1) S) (hl : Lawful sp) (lim : Nat) (r : String)
    (h : pcCount sp lim = .ok r ∨ pcCountFast sp lim = .ok r) :
    ∃ k, HasCount (fun p => Accepts sp sp.root.1 sp.root.2 p) k ∧ ZddCount sp sp.root.1.toNat k ∧ r = toString k := by
  rcases h with h | h
  · have := count_top' hl lim; rw [h] at this; exact this
  · have := countFast_top hl lim; rw [h] at this; exact this

/-- C53, `count`: the result is correct if the storage of the numbers is sufficient for every edge to a non-terminal, from a
node at level `i` to one at level `ii`: the level of the root is small, or the levels have few nodes in comparison with the number of
levels that the edge skips. Missing: all other specifications, see `C53_count_overflow`. -/
theorem C53_count_partial (sp : DdSpec 2 S) (hl : Lawful sp) (lim : Nat)
    (h : ∀ (i : Nat) (s : S) (b : Fin 2) (ii : Nat), 0 < ii → ii < i → Reach sp (i : Int) s → (sp.child s i b).1 = ii →
      sp.root.1.toNat - ii < 126 ∨ sp.root.1.toNat * max lim 1 * 2 ^ (i - ii) ≤ 2 ^ (63 * (1 + (i - ii) / 63))) :
    (∃ k, HasCount (fun p => Accepts sp sp.root.1 sp.root.2 p) k ∧ ZddCount sp sp.root.1.toNat k ∧
      pcCount sp lim = .ok (toString k)) ∨ (pcCount sp lim = .throw ∧ lim < 2 ^ sp.root.1.toNat) := by
  have hc := count_top' hl lim
  cases e : pcCount sp lim with
  | ub =>
    rw [e] at hc
    refine absurd ⟨lt_words _, ?_⟩ hc
    intro i s b ii h1 h2 _ h3 h4
    rcases h i s b ii h1 h2 h3 h4 with h | h
    · exact .inl (Nat.pow_lt_pow_right (by omega) h)
    · exact .inr h
  | throw => rw [e] at hc; exact .inr ⟨rfl, hc⟩
  | ok r =>
    rw [e] at hc
    obtain ⟨k, h1, h2, rfl⟩ := hc
    exact .inl ⟨k, h1, h2, rfl⟩

/-- C53, `count`, at most 126 levels. -/
theorem C53_count_short_partial (sp : DdSpec 2 S) (hl : Lawful sp) (lim : Nat) (hn : sp.root.1 ≤ 126) :
    (∃ k, HasCount (fun p => Accepts sp sp.root.1 sp.root.2 p) k ∧ ZddCount sp sp.root.1.toNat k ∧
      pcCount sp lim = .ok (toString k)) ∨ (pcCount sp lim = .throw ∧ lim < 2 ^ sp.root.1.toNat) :=
  C53_count_partial sp hl lim fun _ _ _ _ _ _ _ _ => .inl (by omega)

/-- C53, `count`, no level is skipped except by edges to terminals; levels times nodes per level at most 2^62. -/
theorem C53_count_dense_partial (sp : DdSpec 2 S) (hl : Lawful sp) (lim : Nat)
    (hskip : ∀ (i : Nat) (s : S) (b : Fin 2), Reach sp (i : Int) s → 0 < i → (sp.child s i b).1 ≤ 0 ∨ (sp.child s i b).1 = i - 1)
    (hlim : sp.root.1.toNat * max lim 1 ≤ 2 ^ 62) :
    (∃ k, HasCount (fun p => Accepts sp sp.root.1 sp.root.2 p) k ∧ ZddCount sp sp.root.1.toNat k ∧
      pcCount sp lim = .ok (toString k)) ∨ (pcCount sp lim = .throw ∧ lim < 2 ^ sp.root.1.toNat) := by
  refine C53_count_partial sp hl lim fun i s b ii h1 h2 h3 h4 => .inr ?_
  have h5 := hskip i s b h3 (by omega)
  have : i - ii = 1 := by omega
  rw [this]
  omega

/-- A lawful specification with an edge from level 63 to level 1, while the numbers grow from one to two words on the levels
in between. -/
def skipSpec : DdSpec 2 Nat where
  root := (128, 0)
  child s l b :=
    if 125 < l then ((l : Int) - 1, 2 * s + b.val)
    else if 63 < l then ((l : Int) - 1, s)
    else if l = 63 then (if s = 0 ∧ b.val = 0 then (1, 8) else (62, 9))
    else if 2 < l then ((l : Int) - 1, 9)
    else if l = 2 then (1, 8)
    else (-1, 8)
  eqv _ s t := decide (s = t)
  hash _ s := s
  merge _ _ := 0

theorem skipSpec_lawful : Lawful skipSpec := by
  refine (lawfulC_of_eq (sp := skipSpec) ⟨by decide, ?_, ?_⟩ (fun n s t => by simp [skipSpec])).lawful
  · intro n s b hn _
    simp only [skipSpec]
    repeat' split
    all_goals simp only; omega
  · intro n s b hn _
    simp only [skipSpec]
    repeat' split
    all_goals simp only; omega

set_option maxRecDepth 100000 in
/-- C53 does not hold for `count`: the number at level 1 is stored with two words when the edge from level 63 is followed,
and later receives a sum that needs three words. `countFast` gives the right result. -/
theorem C53_count_overflow : Lawful skipSpec ∧ pcCount skipSpec 100 = .ub ∧
    pcCountFast skipSpec 100 = .ok "319014718988379809506137066504137474048" :=
  ⟨skipSpec_lawful, by decide +kernel, by decide +kernel⟩

/-- All vectors over 62 levels with four values. -/
def uni4 : DdSpec 4 Unit where
  root := (62, ())
  child _ l _ := if l ≤ 1 then (-1, ()) else ((l : Int) - 1, ())
  eqv _ _ _ := true
  hash _ _ := 0
  merge _ _ := 0

theorem uni4_lawful : Lawful uni4 := by
  refine (lawfulC_of_eq (sp := uni4) ⟨by decide, ?_, ?_⟩ (fun n s t => by simp [uni4])).lawful
  · intro n s b hn _
    simp only [uni4]
    split
    all_goals simp only; omega
  · intro n s b hn _
    simp only [uni4]
    split
    all_goals simp only; omega

set_option maxRecDepth 100000 in
/-- For arity 4, `total` is too short: `n / 63 + 1` words hold 63 bits per 63 levels. -/
theorem C53_total_overflow : Lawful uni4 ∧ pcCount uni4 100 = .ub ∧ pcCountFast uni4 100 = .ub :=
  ⟨uni4_lawful, by decide +kernel, by decide +kernel⟩

/-! ### Examples -/

example : pcCount64 atMostOne 10 = .ok 4 := by decide
example : pcCountFast atMostOne 10 = .ok "4" := by decide +kernel
example : pcCount atMostOne 10 = .ok "4" := by decide +kernel
example : pcCount imply31 10 = .ok "3" := by decide +kernel
example : pcCountFast imply31 10 = .ok "3" := by decide +kernel
example : pcCount64 atMostOne 1 = .throw := by decide
example : Lawful atMostOne ∧ atMostOne.root.1 ≤ 126 := ⟨atMostOne_lawful.lawful, by decide⟩
example : (atMostOne.root.1.toNat * max 1000 1 ≤ 2 ^ 62) ∧
    ∀ (i : Nat) (s : Nat) (b : Fin 2), Reach atMostOne (i : Int) s → 0 < i →
      (atMostOne.child s i b).1 ≤ 0 ∨ (atMostOne.child s i b).1 = i - 1 := by
  refine ⟨by decide, fun i s b _ _ => ?_⟩
  simp only [atMostOne]
  repeat' split
  · exact .inl (by simp)
  · exact .inl (by simp)
  · exact .inr rfl

end TdZdd
