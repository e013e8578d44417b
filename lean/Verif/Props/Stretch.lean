import Verif.StretchProofs
import Verif.PathCount
import Verif.SubsetterProofs1
import Verif.SampleDds
import Verif.RunDec

/-!
# Property C54: `NodeTableEntity::stretchBottom`

The function changes a table only, not the root of a structure; the theorems are about the structure with the root moved in the same
way as the edges.
-/

namespace TdZdd

variable {N : Nat}

/-- C54, inserting `d` levels: the table has the required number of variables; the node in row `r`, column `c` is now in row
`r + d`, column `c`, with its edges moved in the same way; the new rows are empty. -/
theorem C54_insert_nodes (T : Table N) (n : Nat) (h0 : 0 < T.numRows) (d : Nat) (hn : n = T.numRows - 1 + d) :
    (stretchBottom T n).numRows = n + 1 ∧ (stretchBottom T n).row 0 = T.row 0 ∧
    (∀ r, 0 < r → r ≤ d → (stretchBottom T n).row r = []) ∧
    ∀ r c, 0 < r → (stretchBottom T n).node? ⟨r + d, c⟩ =
      (T.node? ⟨r, c⟩).map fun nd b => if (nd b).row = 0 then nd b else ⟨(nd b).row + d, (nd b).col⟩ := by
  by_cases hd : d = 0
  · subst hd
    have e : stretchBottom T n = T := by
      unfold stretchBottom
      dsimp only
      rw [if_neg (by omega), if_neg (by omega)]
    rw [e]
    refine ⟨by omega, rfl, fun r _ _ => by omega, fun r c _ => ?_⟩
    have : (fun (nd : Node N) b => if (nd b).row = 0 then nd b else ⟨(nd b).row + 0, (nd b).col⟩) = id := by
      funext nd b
      dsimp only [id]
      split
      · rfl
      · rfl
    rw [this]
    simp
  · obtain ⟨h1, h2⟩ := stretch_up (T := T) (n := n) (by omega) h0
    have hd' : n - (T.numRows - 1) = d := by omega
    refine ⟨h1, by rw [h2, if_pos rfl], fun r g1 g2 => ?_, fun r c hr => ?_⟩
    · rw [h2, if_neg (by omega), if_pos (by omega)]
    · have := up_node (T := T) (n := n) (by omega) h0 (f := ⟨r, c⟩) hr
      rw [hd'] at this
      unfold liftId at this
      dsimp only at this
      rw [if_neg (by omega)] at this
      exact this

/-- C54, inserting levels, meaning: the structure with the moved root is well-formed; its function reads the old level `i` at
level `i + d`; its family over `m + d` levels consists of the old members moved up by `d` with value 0 at the new levels. -/
theorem C54_insert (D : Dd N) (hw : D.Wf) (n : Nat) (h0 : 0 < D.table.numRows) (d : Nat) (hn : n = D.table.numRows - 1 + d)
    (D' : Dd N) (hD : D' = ⟨stretchBottom D.table n, if D.root.row = 0 then D.root else ⟨D.root.row + d, D.root.col⟩⟩) :
    D'.Wf ∧ (∀ a, BddSat D'.spec a ↔ BddSat D.spec fun i => a (i + d)) ∧
      ∀ m a, ZddMem D'.spec (m + d) a ↔ (∀ j, 1 ≤ j → j ≤ d → (a j).val = 0) ∧ ZddMem D.spec m fun i => a (i + d) := by
  by_cases hd : d = 0
  · subst hd
    have e : stretchBottom D.table n = D.table := by
      unfold stretchBottom
      dsimp only
      rw [if_neg (by omega), if_neg (by omega)]
    have : D' = D := by
      rw [hD, e]
      cases D with
      | mk T r =>
        congr 1
        dsimp only
        split <;> rfl
    subst this
    refine ⟨hw, fun a => Iff.rfl, fun m a => ?_⟩
    exact ⟨fun h => ⟨fun j _ _ => by omega, h⟩, fun h => h.2⟩
  · have hlt : D.table.numRows - 1 < n := by omega
    have hd' : n - (D.table.numRows - 1) = d := by omega
    have hroot : D'.root = liftId (n - (D.table.numRows - 1)) D.root := by rw [hD, hd']; rfl
    have htab : D'.table = stretchBottom D.table n := by rw [hD]
    have hw' : D'.Wf := by
      refine ⟨?_, ?_⟩
      · rw [htab]; exact up_wf hlt h0 hw.table
      · rw [htab, hroot]; exact liftId_valid hlt h0 hw.root
    have hacc : ∀ p, TAcc D'.table D'.root p ↔ ∃ q, TAcc D.table D.root q ∧ p = q.map fun x => (x.1 + d, x.2) := by
      intro p
      rw [htab, hroot, up_acc hlt h0 hw.table hw.root, hd']
    have hag : ∀ (q : Path N) (a : Asg N), Agrees (q.map fun x => (x.1 + d, x.2)) a ↔ Agrees q fun i => a (i + d) := by
      intro q a
      constructor
      · intro h x hx
        exact h (x.1 + d, x.2) (List.mem_map.2 ⟨x, hx, rfl⟩)
      · intro h y hy
        obtain ⟨x, hx, rfl⟩ := List.mem_map.1 hy
        exact h x hx
    refine ⟨hw', fun a => ?_, fun m a => ?_⟩
    · rw [hw'.bddSat_iff, hw.bddSat_iff]
      constructor
      · rintro ⟨p, hp, ha⟩
        obtain ⟨q, hq, rfl⟩ := (hacc p).1 hp
        exact ⟨q, hq, (hag q a).1 ha⟩
      · rintro ⟨q, hq, ha⟩
        exact ⟨_, (hacc _).2 ⟨q, hq, rfl⟩, (hag q a).2 ha⟩
    · rw [hw'.zddMem_iff, hw.zddMem_iff]
      constructor
      · rintro ⟨p, hp, ha, hz⟩
        obtain ⟨q, hq, rfl⟩ := (hacc p).1 hp
        refine ⟨fun j h1 h2 => hz j h1 (by omega) ?_, q, hq, (hag q a).1 ha, fun j h1 h2 h3 => hz (j + d) (by omega) (by omega) ?_⟩
        · intro b hb
          obtain ⟨x, hx, e⟩ := List.mem_map.1 hb
          have := hq.levels hw.table x hx
          cases e
          omega
        · intro b hb
          obtain ⟨x, hx, e⟩ := List.mem_map.1 hb
          obtain ⟨x1, x2⟩ := x
          injection e with e1 e2
          dsimp only at e1 e2
          have : x1 = j := by omega
          subst this; subst e2
          exact h3 _ hx
      · rintro ⟨h0', q, hq, ha, hz⟩
        refine ⟨_, (hacc _).2 ⟨q, hq, rfl⟩, (hag q a).2 ha, fun j h1 h2 h3 => ?_⟩
        by_cases hj : j ≤ d
        · exact h0' j h1 hj
        · have := hz (j - d) (by omega) (by omega) (by
            intro b hb
            refine h3 b (List.mem_map.2 ⟨_, hb, ?_⟩)
            dsimp only
            rw [Nat.sub_add_cancel (by omega)])
          dsimp only at this
          rw [Nat.sub_add_cancel (by omega)] at this
          exact this

/-- C54, removing the `k` lowest levels: the node in row `r + k` is now in row `r`; edges to terminals stay, edges to removed levels go
to the 1-terminal, all others are moved down. -/
theorem C54_remove_nodes (T : Table N) (n k : Nat) (hk : 0 < k) (hn : n + k = T.numRows - 1) :
    (stretchBottom T n).numRows = n + 1 ∧ (stretchBottom T n).row 0 = T.row 0 ∧
    ∀ r c, 0 < r → (stretchBottom T n).node? ⟨r, c⟩ =
      (T.node? ⟨r + k, c⟩).map fun nd b =>
        if (nd b).row = 0 then nd b else if (nd b).row ≤ k then .one else ⟨(nd b).row - k, (nd b).col⟩ := by
  have hk' : T.numRows - 1 - n = k := by omega
  obtain ⟨h1, h2, _⟩ := stretch_down (T := T) (n := n) (by omega)
  refine ⟨h1, h2, fun r c hr => ?_⟩
  have := down_node (T := T) (n := n) (by omega) (f := ⟨r + k, c⟩) (by dsimp only; omega)
  rw [hk'] at this
  have e : lowerId k ⟨r + k, c⟩ = ⟨r, c⟩ := by
    unfold lowerId
    dsimp only
    rw [if_neg (by omega), if_neg (by omega), Nat.add_sub_cancel]
  rw [e] at this
  exact this

/-- C54, removing levels, meaning: if the 1-terminal can be reached from every node of the removed levels (as in a reduced ZDD) then the
function and the family are existentially quantified over the removed levels. -/
theorem C54_remove (D : Dd (N + 1)) (hw : D.Wf) (n k : Nat) (hk : 0 < k) (hn : n + k = D.table.numRows - 1)
    (hl : ∀ f nd, 0 < f.row → f.row ≤ k → D.table.node? f = some nd → ∃ p, Accepts D.spec f.row f p)
    (D' : Dd (N + 1)) (hD : D' = ⟨stretchBottom D.table n, if D.root.row = 0 then D.root else if D.root.row ≤ k then .one else
      ⟨D.root.row - k, D.root.col⟩⟩) :
    D'.Wf ∧ (∀ a, BddSat D'.spec a ↔ ∃ a0, BddSat D.spec a0 ∧ ∀ i, 1 ≤ i → a0 (i + k) = a i) ∧
      ∀ m a, ZddMem D'.spec m a ↔ ∃ a0, ZddMem D.spec (m + k) a0 ∧ ∀ i, 1 ≤ i → a0 (i + k) = a i := by
  have hlt : n < D.table.numRows - 1 := by omega
  have hk' : D.table.numRows - 1 - n = k := by omega
  have hroot : D'.root = lowerId (D.table.numRows - 1 - n) D.root := by rw [hD, hk']; rfl
  have htab : D'.table = stretchBottom D.table n := by rw [hD]
  have hw' : D'.Wf := by
    refine ⟨?_, ?_⟩
    · rw [htab]; exact down_wf hlt hw.table
    · rw [htab, hroot]; exact lowerId_valid hlt hw.root
  have hl' : ∀ f nd, 0 < f.row → f.row ≤ D.table.numRows - 1 - n → D.table.node? f = some nd → ∃ p, TAcc D.table f p := by
    intro f nd h1 h2 h3
    obtain ⟨p, hp⟩ := hl f nd h1 (by omega) h3
    refine ⟨p, (accepts_iff_tacc hw.table p (.inr (.inr ⟨h1, nd, h3⟩))).1 ?_⟩
    rw [childCode_pos h1]
    exact hp
  have hacc := fun p => down_acc hlt hw.table hl' hw.root p
  rw [hk', ← htab] at hacc
  have hr' : D'.root = lowerId k D.root := by rw [hroot, hk']
  rw [← hr'] at hacc
  -- from a path of the new structure to an assignment of the old one
  have fwd : ∀ p a, TAcc D'.table D'.root p → Agrees p a → ∃ P a0, TAcc D.table D.root P ∧ Agrees P a0 ∧
      (∀ i, 1 ≤ i → a0 (i + k) = a i) ∧ (∀ j, 1 ≤ j → j ≤ k → (∀ b, (j, b) ∉ P) → (a0 j).val = 0) ∧
      ∀ j b, (j, b) ∈ p → (j + k, b) ∈ P := by
    intro p a hp ha
    obtain ⟨q, q', h1, h2, h3, rfl⟩ := (hacc p).1 hp
    have hA := (hw.accepts_iff (q ++ q')).2 h1
    have hv := pathVal_agrees hw.desc hA .root
    refine ⟨q ++ q', fun j => if j ≤ k then pathVal (q ++ q') j else a (j - k), h1, ?_, ?_, ?_, ?_⟩
    · intro x hx
      dsimp only
      by_cases hxk : x.1 ≤ k
      · rw [if_pos hxk]; exact hv x hx
      · rw [if_neg hxk]
        rcases List.mem_append.1 hx with hq | hq
        · exact ha (x.1 - k, x.2) (List.mem_map.2 ⟨x, hq, rfl⟩)
        · exact absurd (h3 x hq) hxk
    · intro i hi
      dsimp only
      rw [if_neg (by omega), Nat.add_sub_cancel]
    · intro j _ hj hnot
      dsimp only
      rw [if_pos hj]
      unfold pathVal
      have : (q ++ q').find? (fun x => x.1 == j) = none := by
        rw [List.find?_eq_none]
        intro x hx hxj
        have : x.1 = j := by simpa using hxj
        subst this
        exact hnot x.2 hx
      rw [this]
      rfl
    · intro j b hb
      obtain ⟨x, hx, e⟩ := List.mem_map.1 hb
      have := h2 x hx
      cases e
      rw [Nat.sub_add_cancel (by omega)]
      exact List.mem_append_left _ hx
  -- and back
  have bwd : ∀ P a0 a, TAcc D.table D.root P → Agrees P a0 → (∀ i, 1 ≤ i → a0 (i + k) = a i) →
      ∃ p, TAcc D'.table D'.root p ∧ Agrees p a ∧ ∀ j b, 1 ≤ j → (j + k, b) ∈ P → (j, b) ∈ p := by
    intro P a0 a hP ha hi
    have hA := (hw.accepts_iff P).2 hP
    have hs := accepts_sorted hw.desc hA .root
    have hsplit : ∃ q q', P = q ++ q' ∧ (∀ x ∈ q, k < x.1) ∧ ∀ x ∈ q', x.1 ≤ k := by
      clear hA hP ha
      induction P with
      | nil => exact ⟨[], [], rfl, fun _ h => (by cases h), fun _ h => (by cases h)⟩
      | cons x P ih =>
        obtain ⟨s1, s2⟩ := List.pairwise_cons.1 hs
        by_cases hx : k < x.1
        · obtain ⟨q, q', e, c1, c2⟩ := ih s2
          refine ⟨x :: q, q', by rw [e]; rfl, fun y hy => ?_, c2⟩
          rcases List.mem_cons.1 hy with rfl | hy
          · exact hx
          · exact c1 y hy
        · refine ⟨[], x :: P, rfl, fun _ h => (by cases h), fun y hy => ?_⟩
          rcases List.mem_cons.1 hy with rfl | hy
          · omega
          · have := s1 y hy
            omega
    obtain ⟨q, q', rfl, c1, c2⟩ := hsplit
    refine ⟨q.map fun x => (x.1 - k, x.2), (hacc _).2 ⟨q, q', hP, c1, c2, rfl⟩, ?_, ?_⟩
    · intro y hy
      obtain ⟨x, hx, rfl⟩ := List.mem_map.1 hy
      have h1 := c1 x hx
      have h2 := hi (x.1 - k) (by omega)
      rw [Nat.sub_add_cancel (by omega)] at h2
      dsimp only
      rw [← h2]
      exact ha x (List.mem_append_left _ hx)
    · intro j b hj hb
      rcases List.mem_append.1 hb with h | h
      · exact List.mem_map.2 ⟨_, h, by dsimp only; rw [Nat.add_sub_cancel]⟩
      · have := c2 _ h
        dsimp only at this
        omega
  refine ⟨hw', fun a => ?_, fun m a => ?_⟩
  · rw [hw'.bddSat_iff]
    constructor
    · rintro ⟨p, hp, ha⟩
      obtain ⟨P, a0, g1, g2, g3, _⟩ := fwd p a hp ha
      exact ⟨a0, (hw.bddSat_iff a0).2 ⟨P, g1, g2⟩, g3⟩
    · rintro ⟨a0, h, hi⟩
      obtain ⟨P, g1, g2⟩ := (hw.bddSat_iff a0).1 h
      obtain ⟨p, hp, ha, _⟩ := bwd P a0 a g1 g2 hi
      exact ⟨p, hp, ha⟩
  · rw [hw'.zddMem_iff]
    constructor
    · rintro ⟨p, hp, ha, hz⟩
      obtain ⟨P, a0, g1, g2, g3, g4, g5⟩ := fwd p a hp ha
      refine ⟨a0, (hw.zddMem_iff _ a0).2 ⟨P, g1, g2, fun j h1 h2 h3 => ?_⟩, g3⟩
      by_cases hj : j ≤ k
      · exact g4 j h1 hj h3
      · have e := g3 (j - k) (by omega)
        rw [Nat.sub_add_cancel (by omega)] at e
        rw [e]
        refine hz (j - k) (by omega) (by omega) fun b hb => ?_
        have := g5 _ _ hb
        rw [Nat.sub_add_cancel (by omega)] at this
        exact h3 b this
    · rintro ⟨a0, h, hi⟩
      obtain ⟨P, g1, g2, g3⟩ := (hw.zddMem_iff _ a0).1 h
      obtain ⟨p, hp, ha, hb⟩ := bwd P a0 a g1 g2 hi
      refine ⟨p, hp, ha, fun j h1 h2 h3 => ?_⟩
      rw [← hi j h1]
      exact g3 (j + k) (by omega) (by omega) fun b hb' => h3 b (hb j b h1 hb')

/-! ## Examples -/

/-- moving `dupDd` (3 levels) up by two levels -/
example : wfCheck (⟨stretchBottom dupDd.table 5, ⟨5, 0⟩⟩ : Dd 2) = true ∧ (stretchBottom dupDd.table 5).numRows = 6 ∧
    ((stretchBottom dupDd.table 5).node? ⟨5, 0⟩).map (fun nd => (nd 0, nd 1)) = some (⟨4, 0⟩, ⟨4, 1⟩) ∧
    ((stretchBottom dupDd.table 5).node? ⟨4, 1⟩).map (fun nd => (nd 0, nd 1)) = some (⟨3, 1⟩, .zero) := by
  refine ⟨?_, ?_, ?_, ?_⟩ <;> decide +kernel

example : ∀ a, BddSat (Dd.spec ⟨stretchBottom dupDd.table 5, ⟨5, 0⟩⟩) a ↔ BddSat dupDd.spec fun i => a (i + 2) :=
  (C54_insert dupDd dupDd_wf 5 (by decide) 2 (by decide +kernel) _ rfl).2.1

/-- Every node of the lowest level of `dupDd` reaches the 1-terminal. -/
theorem dupDd_low : ∀ f nd, 0 < f.row → f.row ≤ 1 → dupDd.table.node? f = some nd → ∃ p, Accepts dupDd.spec f.row f p := by
  intro f nd h1 h2 h3
  obtain ⟨r, c⟩ := f
  dsimp only at h1 h2
  obtain rfl : r = 1 := by omega
  have hv : dupDd.table.Valid ⟨1, c⟩ := .inr (.inr ⟨h1, nd, h3⟩)
  have key : ∃ b, nd b = .one := by
    match c, h3 with
    | 0, h3 => exact ⟨1, by cases h3; rfl⟩
    | 1, h3 => exact ⟨0, by cases h3; rfl⟩
    | 2, h3 => exact ⟨1, by cases h3; rfl⟩
    | c + 3, h3 => cases h3
  obtain ⟨b, hb⟩ := key
  have ht : TAcc dupDd.table ⟨1, c⟩ [(1, b)] := by
    refine (tacc_node h1 h3).2 ⟨b, [], rfl, ?_⟩
    rw [hb]
    exact tacc_one.2 rfl
  have := (accepts_iff_tacc dupDd_wf.table _ hv).2 ht
  rw [childCode_pos h1] at this
  exact ⟨_, this⟩

/-- removing the lowest level of `dupDd` -/
example : ∀ a, BddSat (Dd.spec ⟨stretchBottom dupDd.table 2, ⟨2, 0⟩⟩) a ↔
    ∃ a0, BddSat dupDd.spec a0 ∧ ∀ i, 1 ≤ i → a0 (i + 1) = a i :=
  (C54_remove dupDd dupDd_wf 2 1 (by decide) (by decide) dupDd_low _ rfl).2.1

example : ((stretchBottom dupDd.table 2).node? ⟨1, 1⟩).map (fun nd => (nd 0, nd 1)) = some (.one, .zero) ∧
    ((stretchBottom dupDd.table 2).node? ⟨2, 0⟩).map (fun nd => (nd 0, nd 1)) = some (⟨1, 0⟩, ⟨1, 1⟩) := by
  refine ⟨?_, ?_⟩ <;> decide +kernel

/-- a node of level 1 that does not reach the 1-terminal below a node of level 2 -/
def deadLow : Dd 2 := mkDd [[nd2 .zero .zero], [nd2 ⟨1, 0⟩ ⟨1, 0⟩]] ⟨2, 0⟩

/-- The condition of `C54_remove` is needed: in a structure that is not reduced the removal of levels can turn the empty family
into a non-empty one. -/
theorem C54_remove_dead : deadLow.Wf ∧ (∀ m a, ¬ ZddMem deadLow.spec m a) ∧
    ∀ D', D' = (⟨stretchBottom deadLow.table 1, ⟨1, 0⟩⟩ : Dd 2) → D'.Wf ∧ ∃ a, ZddMem D'.spec 1 a := by
  have hw : deadLow.Wf := wf_of_check (by decide +kernel)
  refine ⟨hw, fun m a h => ?_, fun D' hD => ?_⟩
  · obtain ⟨p, hp, _⟩ := (hw.zddMem_iff m a).1 h
    have e2 : deadLow.table.node? ⟨2, 0⟩ = some (nd2 ⟨1, 0⟩ ⟨1, 0⟩) := rfl
    have e1 : deadLow.table.node? ⟨1, 0⟩ = some (nd2 .zero .zero) := rfl
    obtain ⟨b, q, _, hq⟩ := (tacc_node (f := ⟨2, 0⟩) (by decide) e2).1 hp
    have hb : nd2 ⟨1, 0⟩ ⟨1, 0⟩ b = ⟨1, 0⟩ := by unfold nd2; split <;> rfl
    rw [hb] at hq
    obtain ⟨b', q', _, hq'⟩ := (tacc_node (f := ⟨1, 0⟩) (by decide) e1).1 hq
    have hb' : nd2 .zero .zero b' = .zero := by unfold nd2; split <;> rfl
    rw [hb'] at hq'
    exact not_tacc_zero hq'
  · have hw' : D'.Wf := by rw [hD]; exact wf_of_check (by decide +kernel)
    refine ⟨hw', fun _ => 0, ?_⟩
    refine (zddRun_mem hw'.desc (n := 1) ?_).1 ?_
    · rw [hD]; decide +kernel
    · rw [hD]; decide +kernel

end TdZdd
