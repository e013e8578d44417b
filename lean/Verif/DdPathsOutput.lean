import Verif.DdPaths
import Verif.AppOpsProofs
import Verif.Props.Cardinality
import Verif.Props.Iterator
import Verif.CnfBddTab
import Verif.PathCount

/-! What `ddpaths` prints for a structure that represents a given family. -/

namespace TdZdd

namespace DdPaths

/-- the set of the edges `s`, where edge `b` is at level `n - b` -/
def edgesAsg (n : Nat) (s : List Nat) : Asg 2 := fun j => if 1 ≤ j ∧ j ≤ n ∧ n - j ∈ s then 1 else 0

theorem mem_bold {n : Nat} {x : List Nat} {b : Nat} : b ∈ bold n x ↔ b < n ∧ n - b ∈ x := by
  unfold bold
  rw [List.mem_filter, List.mem_range, decide_eq_true_iff]

theorem bold_sorted (n : Nat) (x : List Nat) : (bold n x).Pairwise (· < ·) := List.Pairwise.filter _ List.pairwise_lt_range

theorem asgOf_bold {n : Nat} {x : List Nat} (hx : ∀ i ∈ x, 1 ≤ i ∧ i ≤ n) : edgesAsg n (bold n x) = asgOf x := by
  funext j
  unfold edgesAsg asgOf
  by_cases hj : j ∈ x
  · have := hx j hj
    rw [if_pos hj, if_pos ⟨this.1, this.2, mem_bold.2 ⟨by omega, by rw [show n - (n - j) = j by omega]; exact hj⟩⟩]
  · rw [if_neg hj, if_neg]
    rintro ⟨h1, h2, h3⟩
    have := (mem_bold.1 h3).2
    rw [show n - (n - j) = j by omega] at this
    exact hj this

theorem bold_inj {n : Nat} {x y : List Nat} (hx : x.Pairwise (· > ·)) (hy : y.Pairwise (· > ·)) (bx : ∀ i ∈ x, 1 ≤ i ∧ i ≤ n) (bY : ∀ i ∈ y, 1 ≤ i ∧ i ≤ n) (h : bold n x = bold n y) : x = y := by
  have key : ∀ {u v : List Nat}, (∀ i ∈ u, 1 ≤ i ∧ i ≤ n) → bold n u = bold n v → ∀ i, i ∈ u → i ∈ v := by
    intro u v hu h i hi
    have h1 := hu i hi
    have h2 : n - i ∈ bold n u := mem_bold.2 ⟨by omega, by rw [show n - (n - i) = i by omega]; exact hi⟩
    rw [h] at h2
    have := (mem_bold.1 h2).2
    rw [show n - (n - i) = i by omega] at this
    exact this
  exact pairwise_gt_ext hx hy fun i => ⟨key bx h i, key bY h.symm i⟩

/-- the levels of the edges `s` in descending order -/
def levelsOf (n : Nat) (s : List Nat) : List Nat := s.map (n - ·)

theorem levelsOf_spec {n : Nat} {s : List Nat} (h1 : s.Pairwise (· < ·)) (h2 : ∀ b ∈ s, b < n) :
    (levelsOf n s).Pairwise (· > ·) ∧ (∀ i ∈ levelsOf n s, 1 ≤ i ∧ i ≤ n) ∧ bold n (levelsOf n s) = s := by
  have hm : ∀ i, i ∈ levelsOf n s ↔ ∃ b ∈ s, n - b = i := fun i => List.mem_map
  refine ⟨?_, fun i hi => ?_, ?_⟩
  · unfold levelsOf
    rw [List.pairwise_map]
    refine List.Pairwise.imp_of_mem (fun ha hb h => ?_) h1
    have := h2 _ ha
    have := h2 _ hb
    omega
  · obtain ⟨b, hb, rfl⟩ := (hm i).1 hi
    have := h2 b hb
    omega
  · refine CnfB.sorted_ext (bold_sorted _ _) h1 fun b => ?_
    rw [mem_bold, hm]
    constructor
    · rintro ⟨hb, c, hc, e⟩
      have := h2 c hc
      rw [show b = c by omega]; exact hc
    · exact fun hb => ⟨h2 b hb, b, hb, rfl⟩

theorem map_nodup' {α β : Type} {P : α → Prop} {f : α → β} (hinj : ∀ x y, P x → P y → f x = f y → x = y) : ∀ {l : List α}, (∀ x ∈ l, P x) → l.Nodup → (l.map f).Nodup := by
  intro l
  induction l with
  | nil => intro _ _; exact List.nodup_nil
  | cons a l ih =>
    intro hl hn
    obtain ⟨ha, hn⟩ := List.nodup_cons.1 hn
    rw [List.map_cons, List.nodup_cons]
    refine ⟨fun hm => ?_, ih (fun x hx => hl x (List.mem_cons_of_mem _ hx)) hn⟩
    obtain ⟨b, hb, e⟩ := List.mem_map.1 hm
    have := hinj b a (hl b (List.mem_cons_of_mem _ hb)) (hl a (List.mem_cons_self ..)) e
    exact ha (this ▸ hb)

/-- the edges of a vector of values -/
def vecEdges (n : Nat) (l : List (Fin 2)) : List Nat := (List.range n).filter fun b => decide (vecAsg l (n - b) = 1)

theorem vecEdges_asg {n : Nat} {l : List (Fin 2)} (hl : l.length = n) : edgesAsg n (vecEdges n l) = vecAsg l := by
  have hm : ∀ b, b ∈ vecEdges n l ↔ b < n ∧ vecAsg l (n - b) = 1 := fun b => by
    unfold vecEdges
    rw [List.mem_filter, List.mem_range, decide_eq_true_iff]
  funext j
  unfold edgesAsg
  by_cases hj : 1 ≤ j ∧ j ≤ n
  · have hm' := hm (n - j)
    rw [show n - (n - j) = j by omega] at hm'
    by_cases h1 : vecAsg l j = 1
    · rw [if_pos ⟨hj.1, hj.2, hm'.2 ⟨by omega, h1⟩⟩, h1]
    · rw [if_neg (fun h => h1 (hm'.1 h.2.2).2)]
      have : ∀ x : Fin 2, x ≠ 1 → 0 = x := by decide
      exact this _ h1
  · rw [if_neg (fun h => hj ⟨h.1, h.2.1⟩)]
    unfold vecAsg
    by_cases h0 : j = 0
    · rw [if_pos h0]
    · rw [if_neg h0, List.getElem?_eq_none (by omega)]
      rfl

theorem vecAsg_inj {n : Nat} {l l' : List (Fin 2)} (hl : l.length = n) (hl' : l'.length = n) (h : vecAsg l = vecAsg l') : l = l' := by
  apply List.ext_getElem (by omega)
  intro i h1 h2
  have := congrFun h (i + 1)
  unfold vecAsg at this
  rw [if_neg (by omega), if_neg (by omega), Nat.add_sub_cancel, List.getElem?_eq_getElem h1, List.getElem?_eq_getElem h2] at this
  exact this

theorem edgesAsg_inj {n : Nat} {s t : List Nat} (h1 : s.Pairwise (· < ·)) (h2 : ∀ b ∈ s, b < n) (h3 : t.Pairwise (· < ·)) (h4 : ∀ b ∈ t, b < n) (h : edgesAsg n s = edgesAsg n t) : s = t := by
  have key : ∀ {u v : List Nat}, (∀ b ∈ u, b < n) → edgesAsg n u = edgesAsg n v → ∀ b, b ∈ u → b ∈ v := by
    intro u v hu h b hb
    have hbn := hu b hb
    have e1 : edgesAsg n u (n - b) = 1 := by
      unfold edgesAsg
      rw [if_pos ⟨by omega, by omega, by rw [show n - (n - b) = b by omega]; exact hb⟩]
    rw [h] at e1
    unfold edgesAsg at e1
    by_cases hc : 1 ≤ n - b ∧ n - b ≤ n ∧ n - (n - b) ∈ v
    · have := hc.2.2
      rw [show n - (n - b) = b by omega] at this
      exact this
    · rw [if_neg hc] at e1
      cases e1
  exact CnfB.sorted_ext h1 h3 fun b => ⟨key h2 h b, key h4 h.symm b⟩

/-- a vector of values of the edges `s` -/
def edgesVec (n : Nat) (s : List Nat) : List (Fin 2) := (List.range n).map fun k => edgesAsg n s (k + 1)

theorem edgesVec_asg (n : Nat) (s : List Nat) : (edgesVec n s).length = n ∧ vecAsg (edgesVec n s) = edgesAsg n s := by
  have hl : (edgesVec n s).length = n := by simp [edgesVec]
  refine ⟨hl, ?_⟩
  funext j
  unfold vecAsg
  by_cases h0 : j = 0
  · rw [if_pos h0]
    unfold edgesAsg
    rw [if_neg (fun h => by omega)]
  · rw [if_neg h0]
    by_cases hj : j ≤ n
    · unfold edgesVec
      rw [List.getElem?_map, List.getElem?_range (by omega)]
      show edgesAsg n s (j - 1 + 1) = _
      rw [show j - 1 + 1 = j by omega]
    · rw [List.getElem?_eq_none (by omega)]
      unfold edgesAsg
      rw [if_neg (fun h => by omega)]
      rfl

theorem count_sets {S : Type} {sp : DdSpec 2 S} {n c : Nat} (h : ZddCount sp n c) : HasCount (fun s : List Nat => s.Pairwise (· < ·) ∧ (∀ b ∈ s, b < n) ∧ ZddMem sp n (edgesAsg n s)) c := by
  refine HasCount.image h (vecEdges n) (fun x y hx hy e => ?_) fun s => ⟨?_, ?_⟩
  · refine vecAsg_inj hx.1 hy.1 ?_
    rw [← vecEdges_asg hx.1, ← vecEdges_asg hy.1, e]
  · rintro ⟨h1, h2, h3⟩
    obtain ⟨e1, e2⟩ := edgesVec_asg n s
    refine ⟨edgesVec n s, ⟨e1, by rw [e2]; exact h3⟩, ?_⟩
    refine edgesAsg_inj (List.Pairwise.filter _ List.pairwise_lt_range) (fun b hb => ?_) h1 h2 ?_
    · exact List.mem_range.1 (List.mem_filter.1 hb).1
    · rw [vecEdges_asg e1, e2]
  · rintro ⟨l, ⟨h1, h2⟩, rfl⟩
    refine ⟨List.Pairwise.filter _ List.pairwise_lt_range, fun b hb => List.mem_range.1 (List.mem_filter.1 hb).1, ?_⟩
    rw [vecEdges_asg h1]; exact h2

/-- The output of a structure that represents the family `F`. -/
theorem output_main {f : DdS} {n : Nat} {F : Asg 2 → Prop} (h : f.Is n F) :
    ∃ L : List (List Nat), L.Nodup ∧ (∀ s, s ∈ L ↔ s.Pairwise (· < ·) ∧ (∀ b ∈ s, b < n) ∧ F (edgesAsg n s)) ∧
      ∀ sched, EvSched f.dd sched → (∃ fuel steps, output f n sched fuel steps = some (toString L.length, L)) ∧ ∀ fuel steps r, output f n sched fuel steps = some r → r = (toString L.length, L) := by
  obtain ⟨⟨fuel, steps, L, e⟩, hall⟩ := C33_iteration f.dd h.wf
  obtain ⟨h1, h2, h3⟩ := hall fuel steps L e
  have hb : ∀ x ∈ L, x.Pairwise (· > ·) ∧ ∀ i ∈ x, 1 ≤ i ∧ i ≤ n := fun x hx =>
    ⟨(h2 x hx).1, fun i hi => ⟨((h2 x hx).2 i hi).1, Nat.le_trans ((h2 x hx).2 i hi).2 h.le⟩⟩
  have hnd : (L.map (bold n)).Nodup := map_nodup' (P := fun x => x.Pairwise (· > ·) ∧ ∀ i ∈ x, 1 ≤ i ∧ i ≤ n) (fun x y hx hy e => bold_inj hx.1 hy.1 hx.2 hy.2 e) hb h1
  have hmem : ∀ s, s ∈ L.map (bold n) ↔ s.Pairwise (· < ·) ∧ (∀ b ∈ s, b < n) ∧ ZddMem f.dd.spec n (edgesAsg n s) := by
    intro s
    constructor
    · intro hs
      obtain ⟨x, hx, rfl⟩ := List.mem_map.1 hs
      refine ⟨bold_sorted _ _, fun b hb => (mem_bold.1 hb).1, ?_⟩
      rw [asgOf_bold (hb x hx).2]
      exact (h3 n h.le x (hb x hx).1 (hb x hx).2).1 hx
    · rintro ⟨s1, s2, s3⟩
      obtain ⟨l1, l2, l3⟩ := levelsOf_spec s1 s2
      refine List.mem_map.2 ⟨levelsOf n s, (h3 n h.le _ l1 l2).2 ?_, l3⟩
      rw [← asgOf_bold l2, l3]
      exact s3
  refine ⟨L.map (bold n), hnd, fun s => by rw [hmem, h.mem], fun sched hs => ?_⟩
  obtain ⟨c, hc, ec⟩ := C30_zddCardinality f.dd h.wf h.row0 h.rows sched hs n h.le
  have hlen : c = (L.map (bold n)).length := HasCount.unique (count_sets hc) ⟨_, hnd, hmem, rfl⟩
  subst hlen
  refine ⟨⟨fuel, steps, ?_⟩, fun fuel' steps' r hr => ?_⟩
  · unfold output
    rw [ec, e]; rfl
  · unfold output at hr
    rw [ec] at hr
    cases e' : f.dd.iterate fuel' steps' with
    | none => rw [e'] at hr; cases hr
    | some L' =>
      rw [e'] at hr
      have hL : L' = L := iterate_unique e' e
      subst hL
      cases hr
      rfl

end DdPaths

end TdZdd
