import Verif.CnfBddApp
import Verif.Props.CnfBdd
import Verif.Props.CnfRead
import Verif.Props.Cardinality
import Verif.PathCount

/-! Proofs for the application `cnfbdd`. -/

namespace TdZdd

namespace CnfB

open Cnf

variable {nv : Nat}

theorem lines_main {cs : List Clause} {Z : Dd 2} (h : Over nv cs) (wZ : Z.Wf) (rZ : Z.root.row ≤ nv) (mZ : ∀ a : Asg 2, ZddMem Z.spec nv a ↔ Sat (val nv a) cs) {fuel steps : Nat} {L : List (List Nat)} (e : Z.iterate fuel steps = some L) :
    (L.map (truths nv)).Nodup ∧ (∀ x, x ∈ L.map (truths nv) ↔ x.length = nv ∧ Sat (truth x) cs) ∧ L.flatMap (outputLine nv) = (L.map (truths nv)).flatMap modelText := by
  obtain ⟨l1, l2, l3⟩ := (C33_iteration Z wZ).2 fuel steps L e
  refine ⟨?_, fun x => ?_, ?_⟩
  · refine List.pairwise_map.2 (l1.imp_of_mem ?_)
    intro s t hs ht hst et
    refine hst (desc_ext (l2 s hs).1 (l2 t ht).1 fun i => ?_)
    have key : ∀ i, 1 ≤ i → i ≤ nv → (i ∈ s ↔ i ∈ t) := by
      intro i i1 i2
      have a1 := truth_at (nv := nv) (t := s) (v := nv + 1 - i) (by omega) (by omega)
      have a2 := truth_at (nv := nv) (t := t) (v := nv + 1 - i) (by omega) (by omega)
      rw [et, a2, show nv + 1 - (nv + 1 - i) = i by omega] at a1
      rw [← decide_eq_true_iff (p := i ∈ s), ← a1, decide_eq_true_iff]
    constructor
    · intro hi
      have := (l2 s hs).2 i hi
      exact (key i this.1 (by omega)).1 hi
    · intro hi
      have := (l2 t ht).2 i hi
      exact (key i this.1 (by omega)).2 hi
  · rw [List.mem_map]
    constructor
    · rintro ⟨t, ht, rfl⟩
      refine ⟨truths_length, ?_⟩
      have hb : ∀ i ∈ t, 1 ≤ i ∧ i ≤ nv := fun i hi => ⟨((l2 t ht).2 i hi).1, Nat.le_trans ((l2 t ht).2 i hi).2 rZ⟩
      have := (mZ _).1 ((l3 nv rZ t (l2 t ht).1 hb).1 ht)
      refine sat_congr h (fun v v1 v2 => ?_) this
      rw [truth_at v1 v2]
      exact asgOf_val
    · rintro ⟨hx, hs⟩
      refine ⟨Cnf.levels nv x, ?_, truths_levels hx⟩
      refine (l3 nv rZ _ levels_sorted fun i hi => ⟨(mem_levels.1 hi).1, (mem_levels.1 hi).2.1⟩).2 ((mZ _).2 ?_)
      refine sat_congr h (fun v v1 v2 => ?_) hs
      refine Eq.trans ?_ asgOf_val.symm
      rw [← truth_at v1 v2, truths_levels hx]
  · rw [List.flatMap_map]
    exact flatMap_ext fun t _ => outputLine_eq

/-- the truth values of a vector of values at the levels from the lowest one on -/
def bits (l : List (Fin 2)) : List Bool := (l.map fun b => decide (b.val ≠ 0)).reverse

theorem bits_length {l : List (Fin 2)} : (bits l).length = l.length := by
  unfold bits
  rw [List.length_reverse, List.length_map]

theorem truth_bits {l : List (Fin 2)} {v : Nat} (hl : l.length = nv) (v1 : 1 ≤ v) (v2 : v ≤ nv) : truth (bits l) v = val nv (vecAsg l) v := by
  unfold truth bits val vecAsg
  rw [if_neg (by omega), List.getD_eq_getElem?_getD, List.getElem?_reverse (by rw [List.length_map]; omega), List.length_map, List.getElem?_map, hl, show nv - 1 - (v - 1) = nv + 1 - v - 1 by omega]
  have : nv + 1 - v - 1 < l.length := by omega
  rw [List.getElem?_eq_getElem this]
  rfl

theorem bits_inj {l m : List (Fin 2)} (e : bits l = bits m) : l = m := by
  have e := List.reverse_inj.1 e
  have hlen : l.length = m.length := by rw [← bits_length, ← bits_length (l := m)]; unfold bits; rw [e]
  apply List.ext_getElem hlen
  intro i h1 h2
  have h3 : (l.map fun b => decide (b.val ≠ 0))[i]? = (m.map fun b => decide (b.val ≠ 0))[i]? := by rw [e]
  rw [List.getElem?_map, List.getElem?_map, List.getElem?_eq_getElem h1, List.getElem?_eq_getElem h2, Option.map_some, Option.map_some, Option.some.injEq, decide_eq_decide] at h3
  have a1 := l[i].isLt
  have a2 := m[i].isLt
  apply Fin.ext
  omega

theorem bits_surj (x : List Bool) : ∃ l, bits l = x := by
  refine ⟨(x.reverse.map fun b => if b then 1 else 0), ?_⟩
  unfold bits
  rw [List.map_map]
  have : ((fun b : Fin 2 => decide (b.val ≠ 0)) ∘ fun b : Bool => if b then (1 : Fin 2) else 0) = id := by
    funext b
    cases b <;> rfl
  rw [this, List.map_id, List.reverse_reverse]

theorem count_bits {cs : List Clause} {S : Type} {sp : DdSpec 2 S} {c : Nat} (h : Over nv cs) (hs : ∀ a, BddSat sp a ↔ Sat (val nv a) cs) (hc : BddCount sp nv c) : HasCount (fun x : List Bool => x.length = nv ∧ Sat (truth x) cs) c := by
  refine HasCount.image hc bits (fun _ _ _ _ e => bits_inj e) fun x => ?_
  have key : ∀ l : List (Fin 2), l.length = nv → (Sat (truth (bits l)) cs ↔ BddSat sp (vecAsg l)) := by
    intro l hl
    rw [hs]
    exact ⟨sat_congr h fun v v1 v2 => truth_bits hl v1 v2, sat_congr h fun v v1 v2 => (truth_bits hl v1 v2).symm⟩
  constructor
  · rintro ⟨hx, hsat⟩
    obtain ⟨l, rfl⟩ := bits_surj x
    rw [bits_length] at hx
    exact ⟨l, ⟨hx, (key l hx).1 hsat⟩, rfl⟩
  · rintro ⟨l, ⟨hl, hsat⟩, rfl⟩
    exact ⟨bits_length.trans hl, (key l hl).2 hsat⟩

theorem clog2_le {r : Nat} : clog2 (2 ^ r) ≤ r := by
  unfold clog2
  split
  · omega
  · rename_i h
    have := (Nat.log2_lt (n := 2 ^ r - 1) (k := r) (by omega)).2 (by omega)
    omega

theorem iso_row {N : Nat} {T T' : Table N} {f g : NodeId} (h : Iso T T' f g) : f.row = g.row := by
  cases h with
  | term g => rfl
  | node _ g => exact g

/-- `run` after the construction of a diagram with the right function -/
theorem run_main {cs : List Clause} {sp q : DdSpec 2 (List Nat × List Nat)} (h : Over nv cs) (hm : Mends sp q) (hq : Lawful q) (hg : ∀ s t, q.merge s t = 0) (hroot : q.root.1 = nv) (hs : ∀ a : Asg 2, BddSat q a ↔ Sat (val nv a) cs) :
    (∀ fuel steps card out, run nv sp fuel steps = some (card, out) →
      ∃ L : List (List Bool), L.Nodup ∧ (∀ x, x ∈ L ↔ x.length = nv ∧ Sat (truth x) cs) ∧ card = toString L.length ∧ out = L.flatMap modelText) ∧
    (nv ≤ 62 → build sp = build q → ∃ fuel steps r, run nv sp fuel steps = some r) ∧
    ∀ r, r + 63 * maxWords 2 r ≤ nv → (∃ E : Dd 2, E.Wf ∧ E.root.row ≤ r ∧ ∀ a, BddSat E.spec a ↔ Sat (val nv a) cs) → ∀ fuel steps, run nv sp fuel steps = none := by
  obtain ⟨D, lab, e1, t1, t2, t3, _⟩ := build_main hq
  have wD := t1.wf hq.toDesc
  have sD : ∀ a, BddSat D.spec a ↔ Sat (val nv a) cs := fun a => by rw [bddSat_congr (fun p => ⟨t1.sub, t1.sup hg⟩) a, hs]
  obtain ⟨D', e2, r⟩ := bddReduce_spec wD
  have wD' := r.wf wD
  have sD' : ∀ a, BddSat D'.spec a ↔ Sat (val nv a) cs := fun a => by rw [r.bddSat wD, sD]
  have rD : D.root.row ≤ nv := by have := t1.root_row; omega
  have rD' : D'.root.row ≤ nv := Nat.le_trans (r.root_row wD) rD
  have hr : 0 < D'.table.numRows := by rw [r.1, t2]; omega
  have h0 : D'.table.row 0 = terminalRow 2 := r.2.1
  obtain ⟨Z, e4, wZ, rZ, mZ⟩ := C24_bdd2zdd D' wD' nv rD'
  have mZ' : ∀ a : Asg 2, ZddMem Z.spec nv a ↔ Sat (val nv a) cs := fun a => by rw [mZ, sD']
  refine ⟨fun fuel steps card out er => ?_, fun hn eb => ?_, fun k hk hE fuel steps => ?_⟩
  · unfold run at er
    cases eb : build sp with
    | none => rw [eb] at er; cases er
    | some D1 =>
      rw [eb] at er
      have := build_mends hm eb
      rw [e1] at this
      cases this
      change (D.bddReduce).bind _ = _ at er
      rw [e2] at er
      change (D'.bddCardinality nv (seqSched D')).bind _ = _ at er
      obtain ⟨str, e3, er⟩ := Option.bind_eq_some_iff.1 er
      change (bdd2zdd D' nv).bind _ = _ at er
      rw [e4] at er
      change (Z.iterate fuel steps).bind _ = _ at er
      obtain ⟨L, e5, er⟩ := Option.bind_eq_some_iff.1 er
      cases er
      obtain ⟨l1, l2, l3⟩ := lines_main h wZ rZ mZ' e5
      obtain ⟨c, hc, ec⟩ := C31_sound D' wD' h0 hr (seqSched D') (seqSched_ok D') nv rD' _ e3
      refine ⟨_, l1, l2, ?_, l3⟩
      rw [ec, HasCount.unique (count_bits h sD' hc) ⟨_, l1, l2, rfl⟩]
  · obtain ⟨⟨fuel, steps, L, e5⟩, _⟩ := C33_iteration Z wZ
    obtain ⟨c, _, e3⟩ := C31_near_root_partial D' wD' h0 hr (seqSched D') (seqSched_ok D') nv rD' (by omega)
    refine ⟨fuel, steps, (toString c, L.flatMap (outputLine nv)), ?_⟩
    unfold run
    rw [eb, e1]
    show (D.bddReduce).bind _ = _
    rw [e2]
    show (D'.bddCardinality nv (seqSched D')).bind _ = _
    rw [e3]
    show (bdd2zdd D' nv).bind _ = _
    rw [e4]
    show (Z.iterate fuel steps).bind _ = _
    rw [e5]
    rfl
  · obtain ⟨E, wE, rE, sE⟩ := hE
    obtain ⟨E', _, rE'⟩ := bddReduce_spec wE
    have hiso := r.isoB wD rE' wE fun a => (sD a).trans (sE a).symm
    have hrow : D'.root.row ≤ k := by
      have := rE'.root_row wE
      have := iso_row hiso
      omega
    unfold run
    cases eb : build sp with
    | none => rfl
    | some D1 =>
      have := build_mends hm eb
      rw [e1] at this
      cases this
      show (D.bddReduce).bind _ = _
      rw [e2]
      show (D'.bddCardinality nv (seqSched D')).bind _ = _
      rw [C31_storage_overflow D' wD' h0 hr (seqSched D') (seqSched_ok D') nv ?_]
      · rfl
      · have : maxWords 2 D'.root.row ≤ maxWords 2 k := by
          unfold maxWords
          have h1 := clog2_le (r := D'.root.row)
          have h2 := (Nat.pow_le_pow_iff_right (show 1 < 2 by decide)).1 (le_clog2 (2 ^ k))
          omega
        omega

end CnfB

end TdZdd
