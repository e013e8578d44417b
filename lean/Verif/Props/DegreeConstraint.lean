import Verif.DegreeProofs
import Verif.Dense
import Verif.RunDec
import Verif.Props.Graph
import Verif.Props.SizeConstraint

/-!
# Properties of `DegreeConstraint` (C40)

Edge `i` of a graph with `n` edges belongs to the level `n - i`; an assignment takes it if its value there is 1.
-/

namespace TdZdd

open Gr

variable {V K : Type} [DecidableEq V] [DecidableEq K]

/-- number of edges at vertex `v` that are in the set `a` -/
def edgeDegree (G : Graph) (a : Asg 2) (v : Nat) : Nat := ((List.range G.info.length).filter fun i => a (G.info.length - i) == 1 && G.usesB i v).length

/-- the set of all edges -/
def allEdges : Asg 2 := fun _ => 1

/-- `usesB` means that `v` is an endpoint of edge `i` -/
theorem C40_usesB (G : Graph) (i v : Nat) : G.usesB i v = true ↔ ∃ e, G.info[i]? = some e ∧ (e.v1 = v ∨ e.v2 = v) := usesB_iff

theorem allDeg_eq (G : Graph) (v : Nat) : Deg.allDeg G G.info.length v = edgeDegree G allEdges v := by
  unfold Deg.allDeg edgeDegree allEdges
  rfl

/-- **C40.** `DegreeConstraint` contains exactly the edge sets in which the degree of every constrained vertex is in its constraint, with and without lookahead.
Hypotheses: the graph has an edge and no loop, a constraint contains nothing above its upper bound, and constrained vertices have at most 32767 edges. -/
theorem C40_degree {E : List (V × V)} {C : List (V × K)} (hC : C.Pairwise fun p q => p.1 ≠ q.1) {G : Graph} (h : gUpdate E C = .ok G)
    (hE : E ≠ []) (hloop : ∀ e ∈ E, e.1 ≠ e.2) {cs : Nat → Option IntSubset} (hup : ∀ v c, cs v = some c → ∀ x, c.contains x = true → x ≤ c.upper)
    (hdeg : ∀ v, (cs v).isSome → edgeDegree G allEdges v ≤ 32767) (lookahead : Bool) (a : Asg 2) :
    ZddMem (degreeConstraint G cs lookahead) G.info.length a ↔ ∀ v, 1 ≤ v → v ≤ G.vMax → ∀ c, cs v = some c → c.contains (edgeDegree G a v) = true := by
  obtain ⟨D, num, h1, h2, h3, hN, hG⟩ := C41_update hC h
  have hn : 0 < G.info.length := by
    rw [hN.edges]
    cases E with
    | nil => exact absurd rfl hE
    | cons e E =>
      rcases h3 e (List.mem_cons_self ..) with h | h
      · exact List.length_pos_of_mem h
      · exact List.length_pos_of_mem h
  have hl : ∀ (i : Nat) e, G.info[i]? = some e → e.v1 ≠ e.v2 := by
    intro i e he heq
    have hi := (List.getElem?_eq_some_iff.1 he).1
    rw [hN.edges] at hi
    obtain ⟨e', he', g1, g2⟩ := hN.ends i D[i].1 D[i].2 (List.getElem?_eq_getElem hi)
    rw [he] at he'
    injection he' with he'
    subst he'
    have hnum := (hN.num_iff D[i].1).2 ⟨i, D[i], List.getElem?_eq_getElem hi, .inl rfl⟩
    exact hloop D[i] (h1.mem (List.getElem_mem _)) (hN.num_inj _ _ hnum.1 (by omega))
  exact Deg.mem_iff ⟨hG, hl, hup, fun v hv => by rw [allDeg_eq]; exact hdeg v hv⟩ hn

/-- **C40.** The specification is lawful for every graph (with or without loops) and every constraints: no index is out of bounds, equal states are interchangeable. -/
theorem C40_lawful {E : List (V × V)} {C : List (V × K)} (hC : C.Pairwise fun p q => p.1 ≠ q.1) {G : Graph} (h : gUpdate E C = .ok G)
    (cs : Nat → Option IntSubset) (lookahead : Bool) : LawfulC (degreeConstraint G cs lookahead) := by
  obtain ⟨_, _, _, _, _, _, hG⟩ := C41_update hC h
  exact lawfulC_of_eq (Deg.desc hG) fun n s t => by simp [degreeConstraint]

/-- `IntRange` constraints meet the hypothesis on the upper bound. -/
theorem C40_range {cs : Nat → Option IntSubset} (h : ∀ v c, cs v = some c → ∃ min max step, c = intRange min max step) :
    ∀ v c, cs v = some c → ∀ x, c.contains x = true → x ≤ c.upper := by
  intro v c hc x hx
  obtain ⟨min, max, step, rfl⟩ := h v c hc
  exact (C38_encloses min max step x hx).2

theorem next_dense {G : Graph} {cs : Nat → Option IntSubset} {i : Nat} {e : EdgeInfo} {mate : List Int} {r : Int × List Int} (h : dcNext G cs false i e mate = some r) (hi : i < G.info.length) :
    r.1 = if i + 1 = G.info.length then -1 else (G.info.length : Int) - (i + 1) := by
  unfold dcNext at h
  simp only [Option.bind_eq_some_iff] at h
  obtain ⟨m1, _, m2, _, h⟩ := h
  split at h
  next hl => injection h with h; rw [← h, if_pos hl]
  next hl =>
    simp only [Option.bind_eq_some_iff] at h
    obtain ⟨f, _, m3, _, h⟩ := h
    obtain ⟨k, hk⟩ : ∃ k, G.info.length = k + 1 := ⟨G.info.length - 1, by omega⟩
    rw [hk] at h
    unfold dcLook at h
    rw [if_pos rfl] at h
    injection h with h
    rw [← h, if_neg hl]; rfl

/-- **C40.** Without lookahead no level is skipped, so the same holds for the Boolean function (BDD reading). -/
theorem C40_bdd {E : List (V × V)} {C : List (V × K)} (hC : C.Pairwise fun p q => p.1 ≠ q.1) {G : Graph} (h : gUpdate E C = .ok G)
    (hE : E ≠ []) (hloop : ∀ e ∈ E, e.1 ≠ e.2) {cs : Nat → Option IntSubset} (hup : ∀ v c, cs v = some c → ∀ x, c.contains x = true → x ≤ c.upper)
    (hdeg : ∀ v, (cs v).isSome → edgeDegree G allEdges v ≤ 32767) (a : Asg 2) :
    BddSat (degreeConstraint G cs false) a ↔ ∀ v, 1 ≤ v → v ≤ G.vMax → ∀ c, cs v = some c → c.contains (edgeDegree G a v) = true := by
  obtain ⟨D, num, h1, h2, h3, hN, hG⟩ := C41_update hC h
  have hn : 0 < G.info.length := by
    rw [hN.edges]
    cases E with
    | nil => exact absurd rfl hE
    | cons e E =>
      rcases h3 e (List.mem_cons_self ..) with h | h
      · exact List.length_pos_of_mem h
      · exact List.length_pos_of_mem h
  have hden : Dense (degreeConstraint G cs false) G.info.length := by
    refine ⟨hn, .inr rfl, fun {l s} b hl hr => ?_⟩
    have hi := Deg.reach_inv hG hr (by omega)
    obtain ⟨r, er, hleg⟩ := Deg.child_legal (cs := cs) (la := false) hG (level := l) (b != 0) hi.2 (by omega) (by omega)
    rw [Deg.child_eq er]
    unfold dcChild at er
    rw [if_neg (by omega)] at er
    simp only [Option.bind_eq_some_iff] at er
    obtain ⟨e, he, w1, _, w2, _, er⟩ := er
    split at er
    · cases er
    have hfin : ∀ {mate}, dcNext G cs false (G.info.length - l) e mate = some r → r.1 = if l = 1 then -1 else (l : Int) - 1 := by
      intro mate hm
      rw [next_dense hm (by omega)]
      by_cases hl1 : l = 1
      · rw [if_pos (by omega), if_pos hl1]
      · rw [if_neg (by omega), if_neg hl1]; omega
    split at er
    · split at er
      · injection er with er; exact .inl (by rw [← er])
      split at er
      · injection er with er; exact .inl (by rw [← er])
      simp only [Option.bind_eq_some_iff] at er
      obtain ⟨m1, _, m2, _, er⟩ := er
      exact .inr (hfin er)
    · split at er
      · injection er with er; exact .inl (by rw [← er])
      split at er
      · injection er with er; exact .inl (by rw [← er])
      exact .inr (hfin er)
  rw [← hden.mem_iff]
  exact C40_degree hC h hE hloop hup hdeg false a

/-! ### Examples and the cases that are excluded -/

/-- a graph from an edge list without colours -/
def plainGraph (E : List (String × String)) : Graph :=
  match gUpdate E ([] : List (String × Nat)) with
  | .ok G => G
  | _ => ⟨[], 0, fun _ => 0, 0⟩

theorem plainGraph_eq {E : List (String × String)} (h : (match gUpdate E ([] : List (String × Nat)) with | .ok _ => true | _ => false) = true) :
    gUpdate E ([] : List (String × Nat)) = .ok (plainGraph E) := by
  unfold plainGraph
  cases hg : gUpdate E ([] : List (String × Nat)) with
  | ok G => rfl
  | thrown => rw [hg] at h; cases h
  | ub => rw [hg] at h; cases h

theorem desc_plain {E : List (String × String)} (h : (match gUpdate E ([] : List (String × Nat)) with | .ok _ => true | _ => false) = true)
    (cs : Nat → Option IntSubset) (la : Bool) : Desc (degreeConstraint (plainGraph E) cs la) :=
  (C40_lawful List.Pairwise.nil (plainGraph_eq h) cs la).toDesc

/-- the triangle with a tail; all degrees 0 or 2 -/
def triTail : List (String × String) := [("a", "b"), ("b", "c"), ("a", "c"), ("c", "d")]

example : gUpdate triTail ([] : List (String × Nat)) = .ok (plainGraph triTail) := plainGraph_eq (by decide +kernel)

-- the hypotheses of `C40_degree`
example : triTail ≠ [] ∧ (∀ e ∈ triTail, e.1 ≠ e.2) ∧ (∀ v, v ≤ 5 → edgeDegree (plainGraph triTail) allEdges v ≤ 32767) := by decide +kernel

-- the cycle (edges 0, 1, 2: levels 4, 3, 2) is a member, the whole graph is not
example : ZddMem (degreeConstraint (plainGraph triTail) (fun _ => some (intRange 0 2 2)) true) 4 (fun j => if j = 1 then 0 else 1) ∧
    ¬ ZddMem (degreeConstraint (plainGraph triTail) (fun _ => some (intRange 0 2 2)) true) 4 (fun _ => 1) := by
  rw [← zddRun_mem (desc_plain (by decide +kernel) _ _) (by decide +kernel), ← zddRun_mem (desc_plain (by decide +kernel) _ _) (by decide +kernel)]
  decide +kernel

/-- Loops are excluded: a loop that is not the last edge of its vertex counts twice (`{aa, ab}` is rejected for the constraint `degree a = 2`) … -/
theorem C40_loop_twice : ¬ ZddMem (degreeConstraint (plainGraph [("a", "a"), ("a", "b")]) (fun v => if v = 1 then some (intRange 2 2 1) else none) false) 2 (fun _ => 1) := by
  rw [← zddRun_mem (desc_plain (by decide +kernel) _ _) (by decide +kernel)]
  decide +kernel

/-- … and a loop that is the last edge of its vertex counts once (`{ab, aa}` is accepted for the constraint `degree a = 2`). -/
theorem C40_loop_once : ZddMem (degreeConstraint (plainGraph [("b", "a"), ("a", "a")]) (fun v => if v = 2 then some (intRange 2 2 1) else none) false) 2 (fun _ => 1) := by
  rw [← zddRun_mem (desc_plain (by decide +kernel) _ _) (by decide +kernel)]
  decide +kernel

/-- A graph without edges is excluded: nothing is a member, although every constraint holds of the empty set. -/
theorem C40_no_edges (cs : Nat → Option IntSubset) (la : Bool) (a : Asg 2) : ¬ ZddMem (degreeConstraint (plainGraph []) cs la) 0 a :=
  fun h => zddMemAt_zero h

end TdZdd
