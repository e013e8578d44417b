import Verif.CnfBddMap2
import Verif.CnfBddSem

/-! The map of `prepare` keeps the remaining literals, and it is canonical. -/

namespace TdZdd

namespace CnfB

open Cnf

variable {nv : Nat} {cnf : List Clause}

theorem mem_rev {r : Row} {cs : List Clause} : ∀ {j0 : Nat}, r ∈ revClauses j0 cs ↔ ∃ k c, cs[k]? = some c ∧ r = (j0 + k, c.reverse ++ [0]) := by
  induction cs with
  | nil => intro j0; simp [revClauses]
  | cons c cs ih =>
    intro j0
    rw [revClauses, List.mem_cons, ih]
    constructor
    · rintro (h | ⟨k, d, h1, h2⟩)
      · exact ⟨0, c, rfl, h⟩
      · exact ⟨k + 1, d, h1, by rw [h2, show j0 + 1 + k = j0 + (k + 1) by omega]⟩
    · rintro ⟨k, d, h1, h2⟩
      cases k with
      | zero => cases h1; exact .inl h2
      | succ k => exact .inr ⟨k, d, h1, by rw [h2, show j0 + 1 + k = j0 + (k + 1) by omega]⟩

theorem mem_rev' {r : Row} : r ∈ revClauses 1 cnf ↔ ∃ c, At cnf r.1 c ∧ r.2 = c.reverse ++ [0] := by
  rw [mem_rev]
  constructor
  · rintro ⟨k, c, h, rfl⟩; exact ⟨c, ⟨k, h, by dsimp only; omega⟩, rfl⟩
  · rintro ⟨c, ⟨k, h, e⟩, e'⟩; exact ⟨k, c, h, by rw [← e', show 1 + k = r.1 by omega]⟩

theorem rev_numbers {cs : List Clause} : ∀ {j0 : Nat}, ((revClauses j0 cs).map (·.1)).Pairwise (· < ·) := by
  induction cs with
  | nil => intro j0; exact .nil
  | cons c cs ih =>
    intro j0
    rw [revClauses, List.map_cons]
    refine List.pairwise_cons.2 ⟨fun j hj => ?_, ih⟩
    obtain ⟨r, hr, rfl⟩ := List.mem_map.1 hj
    obtain ⟨k, d, _, rfl⟩ := mem_rev.1 hr
    dsimp only
    omega

theorem form_rev (h : Good nv cnf) {c : Clause} (hc : c ∈ cnf) : Form nv (c.reverse ++ [0]) := by
  have hd := h.distinct hc
  refine ⟨?_, c.reverse, rfl, fun x hx => (h.ord c hc).var x (List.mem_reverse.1 hx)⟩
  rw [List.pairwise_append]
  refine ⟨List.pairwise_reverse.2 hd, List.pairwise_singleton _ _, fun x hx y hy => ?_⟩
  rw [List.mem_singleton.1 hy, lev_zero]
  have := lev_pos h hc (List.mem_reverse.1 hx)
  omega

theorem rows_of (h : Good nv cnf) {cp : List Row} (hp : cp.Perm (revClauses 1 cnf)) (hs : cp.Pairwise fun a b => relaxLt b.2 a.2 = false) : Rows nv cp := by
  refine ⟨fun r hr => ?_, hs, ?_⟩
  · obtain ⟨c, hc, e⟩ := mem_rev'.1 (hp.mem_iff.1 hr)
    rw [e]
    exact form_rev h hc.mem
  · rw [(hp.map _).nodup_iff]
    exact rev_numbers.imp fun h => Nat.ne_of_lt h

theorem mem_low' {w : List Int} (hw : Form nv w) {i : Nat} (hi : i ≤ nv) {x : Int} : x ∈ low nv i w ↔ x ∈ w ∧ lev nv x ≤ i := by
  constructor
  · intro hx
    exact ⟨List.takeWhile_sublist _ |>.mem hx, low_mem hx⟩
  · rintro ⟨hx, hl⟩
    obtain ⟨z, c, e, hz⟩ := low_split hw hi
    have hp := hw.incr
    rw [e] at hp hx
    rcases List.mem_append.1 hx with g | g
    · exact g
    · have := (List.pairwise_append.1 hp).2.1
      rcases List.mem_cons.1 g with rfl | g
      · omega
      · have := (List.pairwise_cons.1 this).1 x g
        omega

theorem lev_ext {a : List Int} : ∀ {b : List Int}, a.Pairwise (fun x y => lev nv x < lev nv y) → b.Pairwise (fun x y => lev nv x < lev nv y) → (∀ y, y ∈ a ↔ y ∈ b) → a = b := by
  induction a with
  | nil =>
    intro b _ _ h
    cases b with
    | nil => rfl
    | cons y b => exact nomatch (h y).2 List.mem_cons_self
  | cons x a ih =>
    intro b ha hb h
    obtain ⟨a1, a2⟩ := List.pairwise_cons.1 ha
    cases b with
    | nil => exact nomatch (h x).1 List.mem_cons_self
    | cons y b =>
      obtain ⟨b1, b2⟩ := List.pairwise_cons.1 hb
      have e : x = y := by
        rcases List.mem_cons.1 ((h x).1 List.mem_cons_self) with h1 | h1
        · exact h1
        · rcases List.mem_cons.1 ((h y).2 List.mem_cons_self) with h2 | h2
          · exact h2.symm
          · have := a1 y h2; have := b1 x h1; omega
      subst e
      rw [ih a2 b2 fun z => ?_]
      constructor
      · intro hz
        have := a1 z hz
        exact (List.mem_cons.1 ((h z).1 (List.mem_cons_of_mem _ hz))).resolve_left (by rintro rfl; omega)
      · intro hz
        have := b1 z hz
        exact (List.mem_cons.1 ((h z).2 (List.mem_cons_of_mem _ hz))).resolve_left (by rintro rfl; omega)

theorem mem_row {c : Clause} {i : Nat} (hi : i ≤ nv) {x : Int} (hl : lev nv x ≤ i) : x ∈ c.reverse ++ [0] ↔ x ∈ c := by
  have : x ≠ 0 := by rintro rfl; rw [lev_zero] at hl; omega
  simp [this]

theorem low_same (h : Good nv cnf) {c d : Clause} (hc : c ∈ cnf) (hd : d ∈ cnf) {i : Nat} (hi : i ≤ nv) : low nv i (c.reverse ++ [0]) = low nv i (d.reverse ++ [0]) ↔ Same nv i c d := by
  have fc := form_rev h hc
  have fd := form_rev h hd
  constructor
  · intro e x hx
    rw [← mem_row (c := c) hi hx, ← mem_row (c := d) hi hx]
    have h1 := mem_low' fc hi (x := x)
    have h2 := mem_low' fd hi (x := x)
    rw [e] at h1
    exact ⟨fun g => (h2.1 (h1.2 ⟨g, hx⟩)).1, fun g => (h1.1 (h2.2 ⟨g, hx⟩)).1⟩
  · intro hs
    refine lev_ext (nv := nv) (fc.incr.sublist (List.takeWhile_sublist _)) (fd.incr.sublist (List.takeWhile_sublist _)) fun x => ?_
    have h1 := mem_low' fc hi (x := x)
    have h2 := mem_low' fd hi (x := x)
    refine h1.trans (Iff.trans ?_ h2.symm)
    constructor
    · rintro ⟨g, hx⟩; exact ⟨(mem_row hi hx).2 ((hs x hx).1 ((mem_row hi hx).1 g)), hx⟩
    · rintro ⟨g, hx⟩; exact ⟨(mem_row hi hx).2 ((hs x hx).2 ((mem_row hi hx).1 g)), hx⟩

/-- the map maps clauses with the same remaining literals to the same clause -/
def MapCan (nv : Nat) (cnf : List Clause) (cm : CMap) : Prop :=
  ∀ i, i ≤ nv → ∀ j c k d, At cnf j c → At cnf k d → Same nv i c d → (∃ x ∈ c, lev nv x ≤ i) → cm i j = cm i k

/-- `makeClauseMap` succeeds for each result of the sort. -/
theorem clauseMap_ok (h : Good nv cnf) (hne : cnf ≠ []) {cp : List Row} (hp : cp.Perm (revClauses 1 cnf)) (hs : cp.Pairwise fun a b => relaxLt b.2 a.2 = false) :
    ∃ cm, clauseMap nv cp = some cm ∧ MapOk nv cnf cm ∧ MapCan nv cnf cm := by
  have hR := rows_of h hp hs
  have hcp : cp ≠ [] := by
    rintro rfl
    cases cnf with
    | nil => exact hne rfl
    | cons c cs => exact nomatch hp.length_eq
  obtain ⟨cm, e, h1, h2⟩ := clauseMap_spec hR hcp
  have hrow : ∀ {j c}, At cnf j c → (j, c.reverse ++ [0]) ∈ cp := fun {j c} hj => hp.mem_iff.2 (mem_rev'.2 ⟨c, hj, rfl⟩)
  refine ⟨cm, e, fun i hi j c hj => ?_, fun i hi j c k d hj hk hsame hx => ?_⟩
  · obtain ⟨s, hs, es, hl⟩ := h1 i hi _ (hrow hj)
    obtain ⟨d, hd, ed⟩ := mem_rev'.1 (hp.mem_iff.1 hs)
    refine ⟨d, ?_, ?_⟩
    · dsimp only at es; rw [es]; exact hd
    · rw [ed] at hl
      exact (low_same h hj.mem hd.mem hi).1 hl.symm
  · have el := (low_same h hj.mem hk.mem hi).2 hsame
    have hn : low nv i (c.reverse ++ [0]) ≠ [] := by
      obtain ⟨x, hx, hl⟩ := hx
      exact List.ne_nil_of_mem ((mem_low' (form_rev h hj.mem) hi).2 ⟨(mem_row hi hl).2 hx, hl⟩)
    obtain ⟨f, hf, ef⟩ := exists_fst (i := i) (hrow hj)
    rw [h2 i hi _ (hrow hj) hn f hf ef, h2 i hi _ (hrow hk) (by dsimp only; rw [← el]; exact hn) f hf (by dsimp only at ef ⊢; rw [← el]; exact ef)]

end CnfB

end TdZdd
