import Verif.InterleaveProofs3
import Verif.RunDec
import Verif.Props.Builder
import Verif.SampleDds

/-!
# `ZddInterleave` and `ColoredZdd` (C66)
-/

namespace TdZdd.Interleave

variable {dds : List (Dd 2)}

theorem root_below {m : Nat} (hm : ∀ D ∈ dds, D.root.row ≤ m) : Below dds.length (dds.length * m) (dds.map Dd.root) := by
  intro k f hf hr
  rw [List.getElem?_map] at hf
  obtain ⟨D, hD, rfl⟩ := Option.map_eq_some_iff.1 hf
  have h1 := hm D (List.mem_of_getElem? hD)
  have hk := (List.getElem?_eq_some_iff.1 hD).1
  have : (D.root.row - 1 + 1) * dds.length ≤ m * dds.length := Nat.mul_le_mul_right _ (by omega)
  rw [Nat.succ_mul, Nat.mul_comm m] at this
  omega

theorem P_root (hw : ∀ D ∈ dds, D.Wf) {m : Nat} {a : Asg 2} :
    P dds (dds.length * m) (dds.map Dd.root) a ↔ ∀ (k : Nat) (D : Dd 2), dds[k]? = some D → ZddMem D.spec m fun i => a ((i - 1) * dds.length + k + 1) := by
  constructor
  · intro h k D hD
    have := h k D D.root hD (by rw [List.getElem?_map, hD]; rfl)
    rw [bd_full (List.getElem?_eq_some_iff.1 hD).1] at this
    rw [(hw D (List.mem_of_getElem? hD)).zddMem_iff]
    exact this
  · intro h k D f hD hf
    rw [List.getElem?_map, hD] at hf
    cases hf
    rw [bd_full (List.getElem?_eq_some_iff.1 hD).1]
    have := h k D hD
    rw [(hw D (List.mem_of_getElem? hD)).zddMem_iff] at this
    exact this

/-- **C66.** `ZddInterleave` of `n` diagrams: level `(i - 1) * n + k + 1` is level `i` of diagram `k`, and an assignment is in the family exactly if its part for diagram `k` is in the family of
diagram `k` for all `k`. -/
theorem _root_.TdZdd.C66_interleave (dds : List (Dd 2)) (hn : 0 < dds.length) (hw : ∀ D ∈ dds, D.Wf) (m : Nat) (hm : ∀ D ∈ dds, D.root.row ≤ m) (a : Asg 2) :
    ZddMem (interleave dds) (dds.length * m) a ↔ ∀ (k : Nat) (D : Dd 2), dds[k]? = some D → ZddMem D.spec m fun i => a ((i - 1) * dds.length + k + 1) := by
  rw [(interleave_all hn hw).2 _ _ (root_below hm), P_root hw]

/-- **C66.** `ZddInterleave(dd, n)` -/
theorem _root_.TdZdd.C66_all (D : Dd 2) (n : Nat) (hn : 0 < n) (hw : D.Wf) (m : Nat) (hm : D.root.row ≤ m) (a : Asg 2) :
    ZddMem (interleaveAll D n) (n * m) a ↔ ∀ k, k < n → ZddMem D.spec m fun i => a ((i - 1) * n + k + 1) := by
  have := C66_interleave (List.replicate n D) (by simpa using hn) (fun D' h => by rw [List.eq_of_mem_replicate h]; exact hw) m (fun D' h => by rw [List.eq_of_mem_replicate h]; exact hm) a
  rw [List.length_replicate] at this
  unfold interleaveAll
  rw [this]
  constructor
  · exact fun h k hk => h k D (by rw [List.getElem?_replicate, if_pos hk])
  · intro h k D' hD
    rw [List.getElem?_replicate] at hD
    split at hD
    · cases hD; exact h k (by assumption)
    · cases hD

/-- **C66.** `ZddInterleave(dd, n, pos)` restricts the part at `pos` only. -/
theorem _root_.TdZdd.C66_pos (D : Dd 2) (n pos : Nat) (hp : pos < n) (hw : D.Wf) (a : Asg 2) :
    ZddMem (interleavePos D n pos) (n * D.root.row) a ↔ ZddMem D.spec D.root.row fun i => a ((i - 1) * n + pos + 1) := by
  have hlen : ((List.range n).map fun k => if k = pos then D else universal 2 D.root.row).length = n := by simp
  have hur : (universal 2 D.root.row).root.row ≤ D.root.row := by
    rw [universal_root]
    split
    · exact Nat.zero_le _
    · exact Nat.le_refl _
  have := C66_interleave ((List.range n).map fun k => if k = pos then D else universal 2 D.root.row) (by rw [hlen]; omega) (fun D' h => by
    obtain ⟨k, _, rfl⟩ := List.mem_map.1 h
    split
    · exact hw
    · exact (C36_universal 2 _).1) D.root.row (fun D' h => by
    obtain ⟨k, _, rfl⟩ := List.mem_map.1 h
    split
    · exact Nat.le_refl _
    · exact hur) a
  rw [hlen] at this
  unfold interleavePos
  rw [this]
  constructor
  · exact fun h => h pos D (by rw [List.getElem?_map, List.getElem?_range hp]; simp)
  · intro h k D' hD
    rw [List.getElem?_map] at hD
    obtain ⟨k', hk', rfl⟩ := Option.map_eq_some_iff.1 hD
    obtain ⟨h1, h2⟩ := List.getElem?_eq_some_iff.1 hk'
    simp only [List.getElem_range] at h2
    subst h2
    split
    · next e => rw [e]; exact h
    · exact (C36_universal 2 _).2.2.2 _

/-- **C66.** The specifications are lawful: no undefined behaviour is reached. -/
theorem _root_.TdZdd.C66_lawful (dds : List (Dd 2)) (hn : 0 < dds.length) (hw : ∀ D ∈ dds, D.Wf) : LawfulC (interleave dds) ∧ LawfulC (colored dds) :=
  ⟨lawfulC_of_eq (interleave_all hn hw).1 fun _ s t => by simp [interleave], lawfulC_of_eq (colored_all hn hw).1 fun _ s t => by simp [colored]⟩

theorem ne_iff {x : Fin 2} : x.val ≠ 0 ↔ x = 1 := by
  rw [Fin.ext_iff]; show x.val ≠ 0 ↔ x.val = 1; omega

theorem in_range {n m i k : Nat} (hk : k < n) (h1 : 1 ≤ i) : (i - 1) * n + k + 1 ≤ n * m ↔ i ≤ m := by
  rw [← bd_iff hk h1, bd_full hk]

/-- **C66.** `ColoredZdd` of `n` diagrams: the part of each diagram is in its family, every field `i` has at most one colour, and it has one if the way of some part through its diagram has a node for
the field. -/
theorem _root_.TdZdd.C66_colored (dds : List (Dd 2)) (hn : 0 < dds.length) (hw : ∀ D ∈ dds, D.Wf) (m : Nat) (hm : ∀ D ∈ dds, D.root.row ≤ m) (a : Asg 2) :
    ZddMem (colored dds) (dds.length * m) a ↔ (∀ (k : Nat) (D : Dd 2), dds[k]? = some D → ZddMem D.spec m fun i => a ((i - 1) * dds.length + k + 1)) ∧
      ∀ i, 1 ≤ i → i ≤ m →
        (∀ k k', k < dds.length → k' < dds.length → a ((i - 1) * dds.length + k + 1) = 1 → a ((i - 1) * dds.length + k' + 1) = 1 → k = k') ∧
        ((∃ (k : Nat) (D : Dd 2), dds[k]? = some D ∧ Visits D.table (fun i => a ((i - 1) * dds.length + k + 1)) D.root i) → ∃ k, k < dds.length ∧ a ((i - 1) * dds.length + k + 1) = 1) := by
  rw [(colored_all hn hw).2 _ _ (root_below hm), Q, P_root hw]
  refine and_congr Iff.rfl ?_
  have hroot : ∀ (k : Nat) (D : Dd 2), dds[k]? = some D → (dds.map Dd.root)[k]? = some D.root := fun k D hD => by rw [List.getElem?_map, hD]; rfl
  constructor
  · intro h i h1 h2
    refine ⟨fun k k' hk hk' ha ha' => (h i h1).1 k k' hk hk' ((in_range hk h1).2 h2) ((in_range hk' h1).2 h2) (ne_iff.2 ha) (ne_iff.2 ha'), ?_⟩
    rintro ⟨k, D, hD, hv⟩
    obtain ⟨k', hk', _, ha⟩ := (h i h1).2 k D D.root hD (hroot k D hD) ((in_range (List.getElem?_eq_some_iff.1 hD).1 h1).2 h2) hv
    exact ⟨k', hk', ne_iff.1 ha⟩
  · intro h i h1
    refine ⟨fun k k' hk hk' l1 l2 ha ha' => (h i h1 ((in_range hk h1).1 l1)).1 k k' hk hk' (ne_iff.1 ha) (ne_iff.1 ha'), fun k D f hD hf hl hv => ?_⟩
    rw [hroot k D hD] at hf
    cases hf
    have h2 := (in_range (List.getElem?_eq_some_iff.1 hD).1 h1).1 hl
    obtain ⟨k', hk', ha⟩ := (h i h1 h2).2 ⟨k, D, hD, hv⟩
    exact ⟨k', hk', (in_range hk' h1).2 h2, ne_iff.2 ha⟩

/-- **C66.** If every field has exactly one colour, `ColoredZdd` says that the fields of each colour are in the family of its diagram. -/
theorem _root_.TdZdd.C66_colored_oneHot (dds : List (Dd 2)) (hn : 0 < dds.length) (hw : ∀ D ∈ dds, D.Wf) (m : Nat) (hm : ∀ D ∈ dds, D.root.row ≤ m) (a : Asg 2)
    (h1 : ∀ i, 1 ≤ i → i ≤ m → ∃ k, k < dds.length ∧ a ((i - 1) * dds.length + k + 1) = 1 ∧ ∀ k', k' < dds.length → a ((i - 1) * dds.length + k' + 1) = 1 → k' = k) :
    ZddMem (colored dds) (dds.length * m) a ↔ ∀ (k : Nat) (D : Dd 2), dds[k]? = some D → ZddMem D.spec m fun i => a ((i - 1) * dds.length + k + 1) := by
  rw [C66_colored dds hn hw m hm]
  refine ⟨fun h => h.1, fun h => ⟨h, fun i hi him => ?_⟩⟩
  obtain ⟨k, hk, ha, hu⟩ := h1 i hi him
  exact ⟨fun k1 k2 hk1 hk2 a1 a2 => (hu k1 hk1 a1).trans (hu k2 hk2 a2).symm, fun _ => ⟨k, hk, ha⟩⟩

/-- **C66.** `ColoredZdd(dd, colors)` where every way to the 1-terminal has a node for every field: every field has exactly one colour and the fields of each colour are in the family. -/
theorem _root_.TdZdd.C66_coloredAll (D : Dd 2) (colors : Nat) (hn : 0 < colors) (hw : D.Wf) (m : Nat) (hm : D.root.row ≤ m)
    (hv : ∀ a, ZddMem D.spec m a → ∀ i, 1 ≤ i → i ≤ m → Visits D.table a D.root i) (a : Asg 2) :
    ZddMem (coloredAll D colors) (colors * m) a ↔ (∀ k, k < colors → ZddMem D.spec m fun i => a ((i - 1) * colors + k + 1)) ∧
      ∀ i, 1 ≤ i → i ≤ m → ∃ k, k < colors ∧ a ((i - 1) * colors + k + 1) = 1 ∧ ∀ k', k' < colors → a ((i - 1) * colors + k' + 1) = 1 → k' = k := by
  have hlen : (List.replicate colors D).length = colors := List.length_replicate
  have hget : ∀ (k : Nat) (D' : Dd 2), (List.replicate colors D)[k]? = some D' ↔ k < colors ∧ D' = D := fun k D' => by
    rw [List.getElem?_replicate]
    split
    · next h => exact ⟨fun e => by cases e; exact ⟨h, rfl⟩, fun e => by rw [e.2]⟩
    · next h => exact ⟨fun e => (by cases e), fun e => absurd e.1 h⟩
  have := C66_colored (List.replicate colors D) (by rw [hlen]; exact hn) (fun D' h => by rw [(List.mem_replicate.1 h).2]; exact hw) m (fun D' h => by rw [(List.mem_replicate.1 h).2]; exact hm) a
  rw [hlen] at this
  unfold coloredAll
  rw [this]
  constructor
  · rintro ⟨x, y⟩
    refine ⟨fun k hk => x k D ((hget k D).2 ⟨hk, rfl⟩), fun i h1 h2 => ?_⟩
    obtain ⟨k, hk, ha⟩ := (y i h1 h2).2 ⟨0, D, (hget 0 D).2 ⟨hn, rfl⟩, hv _ (x 0 D ((hget 0 D).2 ⟨hn, rfl⟩)) i h1 h2⟩
    exact ⟨k, hk, ha, fun k' hk' ha' => (y i h1 h2).1 k' k hk' hk ha' ha⟩
  · rintro ⟨x, y⟩
    refine ⟨fun k D' h => ?_, fun i h1 h2 => ?_⟩
    · obtain ⟨hk, rfl⟩ := (hget k D').1 h
      exact x k hk
    · obtain ⟨k, hk, ha, hu⟩ := y i h1 h2
      exact ⟨fun k1 k2 hk1 hk2 a1 a2 => (hu k1 hk1 a1).trans (hu k2 hk2 a2).symm, fun _ => ⟨k, hk, ha⟩⟩

/-! Two diagrams of two levels: exactly one of the two items, and any set with the second item. -/

def exOne : Dd 2 := mkDd [[nd2 .zero .one, nd2 .one .zero], [nd2 ⟨1, 0⟩ ⟨1, 1⟩]] ⟨2, 0⟩
def exTop : Dd 2 := mkDd [[nd2 .one .one], [nd2 .zero ⟨1, 0⟩]] ⟨2, 0⟩
theorem exOne_wf : exOne.Wf := wf_of_check (by decide +kernel)
theorem exTop_wf : exTop.Wf := wf_of_check (by decide +kernel)
theorem ex_wf : ∀ D ∈ [exOne, exTop], D.Wf := fun D h => by
  simp only [List.mem_cons, List.not_mem_nil, or_false] at h
  rcases h with rfl | rfl
  · exact exOne_wf
  · exact exTop_wf

example : ZddMem (interleave [exOne, exTop]) 4 (fun l => if l = 3 ∨ l = 4 then 1 else 0) ∧ ¬ ZddMem (interleave [exOne, exTop]) 4 (fun l => if l = 3 ∨ l = 2 then 1 else 0) ∧
    ¬ ZddMem (colored [exOne, exTop]) 4 (fun l => if l = 3 ∨ l = 4 then 1 else 0) ∧ ZddMem (colored [exOne, exTop]) 4 (fun l => if l = 1 ∨ l = 4 then 1 else 0) := by
  obtain ⟨h1, h2⟩ := C66_lawful [exOne, exTop] (by decide) ex_wf
  refine ⟨?_, ?_, ?_, ?_⟩
  · rw [← zddRun_mem h1.toDesc (by decide +kernel)]; decide +kernel
  · rw [← zddRun_mem h1.toDesc (by decide +kernel)]; decide +kernel
  · rw [← zddRun_mem h2.toDesc (by decide +kernel)]; decide +kernel
  · rw [← zddRun_mem h2.toDesc (by decide +kernel)]; decide +kernel

/-- The same with the third constructor; two colours of `exOne`, and three, of which one has no field. -/
example : ZddMem (interleavePos exOne 3 1) 6 (fun l => if l = 2 ∨ l = 4 ∨ l = 1 then 1 else 0) ∧ ¬ ZddMem (interleavePos exOne 3 1) 6 (fun l => if l = 4 then 1 else 0) ∧
    ZddMem (coloredAll exOne 2) 4 (fun l => if l = 1 ∨ l = 4 then 1 else 0) ∧ ¬ ZddMem (coloredAll exOne 3) 6 (fun l => if l = 1 ∨ l = 5 then 1 else 0) := by
  have hp : LawfulC (interleavePos exOne 3 1) := (C66_lawful _ (by decide) (fun D h => by
    obtain ⟨k, _, rfl⟩ := List.mem_map.1 h
    split
    · exact exOne_wf
    · exact (C36_universal 2 _).1)).1
  have hc : ∀ c, 0 < c → LawfulC (coloredAll exOne c) := fun c hc => (C66_lawful _ (by simpa using hc) (fun D h => by rw [(List.mem_replicate.1 h).2]; exact exOne_wf)).2
  refine ⟨?_, ?_, ?_, ?_⟩
  · rw [← zddRun_mem hp.toDesc (by decide +kernel)]; decide +kernel
  · rw [← zddRun_mem hp.toDesc (by decide +kernel)]; decide +kernel
  · rw [← zddRun_mem (hc 2 (by decide)).toDesc (by decide +kernel)]; decide +kernel
  · rw [← zddRun_mem (hc 3 (by decide)).toDesc (by decide +kernel)]; decide +kernel

end TdZdd.Interleave
