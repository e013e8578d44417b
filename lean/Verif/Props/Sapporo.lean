import Verif.SapporoProofs
import Verif.SampleDds

/-!
# Property C55: `dumpSapporo`
-/

namespace TdZdd

/-- C55: for a structure with a non-terminal root whose level has no incoming edges (in particular if all nodes are reachable from the root) the output
consists of the header, one line per node, and the number of the root. The `k`-th node has number `2(k+1)`; nodes are listed level by
level from the bottom; each line shows number, level and the two branches. -/
theorem C55_dump (D : Dd 2) (hw : D.Wf) (hr : 0 < D.root.row)
    (hroot : ∀ f nd b, 0 < f.row → D.table.node? f = some nd → (nd b).row ≠ D.root.row) :
    ∃ (ns : List NodeId) (num : NodeId → Nat), ns.Nodup ∧ (∀ f, f ∈ ns ↔ 0 < f.row ∧ (D.table.node? f).isSome) ∧
      ns.Pairwise (fun f g => f.row ≤ g.row) ∧ (∀ k f, ns[k]? = some f → num f = 2 * (k + 1)) ∧
      dumpSapporo D = some ([[.str "_i", .num (D.table.numRows - 1)], [.str "_o", .num 1], [.str "_n", .num ns.length]] ++
        ns.map (fun f => (D.table.node? f).elim [] fun nd => [.num (num f), .num f.row,
          if nd 0 = .zero then .str "F" else if nd 0 = .one then .str "T" else .num (num (nd 0)),
          if nd 1 = .zero then .str "F" else if nd 1 = .one then .str "T" else .num (num (nd 1))]) ++
        [[.num (num D.root)]]) := by
  obtain ⟨ndr, hndr⟩ := hw.root.pos hr
  have hrow : D.root.row < D.table.numRows := by
    unfold Table.node? at hndr
    by_cases h : D.root.row < D.table.numRows
    · exact h
    · rw [if_neg h] at hndr; cases hndr
  have hcol : (D.table.row D.root.row)[D.root.col]? = some ndr := by
    unfold Table.node? at hndr; rw [if_pos hrow] at hndr; exact hndr
  have hsub : D.table.numRows - 1 + 1 = D.table.numRows := by omega
  obtain ⟨hi, lo, e0, hlo⟩ := makeIndex_spec (wf_down hw.table)
  obtain ⟨st, e1, h1, h2, h3, _⟩ := sapLevels_spec hw.table hlo
  rw [hsub] at h1 h2
  refine ⟨sapNodes D.table D.table.numRows, sapId D.table, sapNodes_nodup _, fun f => ?_, sapNodes_sorted _,
    fun k f h => sapNodes_get _ h, ?_⟩
  · rw [mem_sapNodes]
    unfold Table.node?
    constructor
    · rintro ⟨g1, g2, g3⟩
      rw [if_pos g2]
      exact ⟨g1, by simp [g3]⟩
    · rintro ⟨g1, g2⟩
      split at g2
      · rename_i hlt
        exact ⟨g1, hlt, by simpa using g2⟩
      · cases g2
  · unfold dumpSapporo
    dsimp only
    have hids := h3 D.root.row hr (by omega) (by
      intro i' k1 k2 ⟨nd, hnd, b, hb⟩
      obtain ⟨c, hc⟩ := List.mem_iff_getElem?.1 hnd
      exact hroot ⟨i', c⟩ nd b k2 (by unfold Table.node?; dsimp only; rw [if_pos (by omega)]; exact hc) hb)
    have e1' := e1
    unfold sapHead at e1'
    rw [e0, Option.bind_some, e1', Option.bind_some, if_pos hrow, hids, List.getElem?_map,
      List.getElem?_range (List.getElem?_eq_some_iff.1 hcol).1]
    simp only [Option.map_some, Option.bind_some]
    rw [if_pos (by rw [h1, size_rowsBelow (by omega)]; omega), h2]
    unfold sapHead
    rw [sapNodes_length, ← size_rowsBelow (by omega)]
    congr 3
    refine List.map_congr_left fun f hf => ?_
    obtain ⟨_, g2, g3⟩ := mem_sapNodes.1 hf
    unfold sapOut Table.node?
    rw [if_pos g2]
    rfl

/-- The paths described by a list of lines `number level branch branch`: the reader's view of the format. -/
inductive SapPath (ls : List (List Tok)) : Tok → Path 2 → Prop
  | one : SapPath ls (.str "T") []
  | lo {k i : Nat} {x y : Tok} {p : Path 2} : [.num k, .num i, x, y] ∈ ls → SapPath ls x p → SapPath ls (.num k) ((i, 0) :: p)
  | hi {k i : Nat} {x y : Tok} {p : Path 2} : [.num k, .num i, x, y] ∈ ls → SapPath ls y p → SapPath ls (.num k) ((i, 1) :: p)

theorem not_sapPath_F {ls : List (List Tok)} {p : Path 2} : ¬ SapPath ls (.str "F") p := by
  intro h
  generalize e : Tok.str "F" = t at h
  cases h
  · simp at e
  · cases e
  · cases e

/-- C55, meaning: read as a ZDD starting from the number in the last line, the output describes the family of the structure. -/
theorem C55_family (D : Dd 2) (hw : D.Wf) (hr : 0 < D.root.row)
    (hroot : ∀ f nd b, 0 < f.row → D.table.node? f = some nd → (nd b).row ≠ D.root.row) :
    ∃ ls r, dumpSapporo D = some (ls ++ [[.num r]]) ∧ (∀ p, SapPath ls (.num r) p ↔ Accepts D.spec D.root.row D.root p) ∧
      ∀ m a, (∃ p, SapPath ls (.num r) p ∧ Agrees p a ∧ ∀ j, 1 ≤ j → j ≤ m → (∀ b, (j, b) ∉ p) → (a j).val = 0) ↔ ZddMem D.spec m a := by
  obtain ⟨ns, num, hnd, hmem, _, hnum, hd⟩ := C55_dump D hw hr hroot
  -- numbers of nodes are distinct
  have hinj : ∀ f g, f ∈ ns → g ∈ ns → num f = num g → f = g := by
    intro f g hf hg e
    obtain ⟨i, hi⟩ := List.mem_iff_getElem?.1 hf
    obtain ⟨j, hj⟩ := List.mem_iff_getElem?.1 hg
    rw [hnum i f hi, hnum j g hj] at e
    obtain rfl : i = j := by omega
    rw [hi] at hj
    exact Option.some.inj hj
  -- a branch
  have key : ∀ (ls : List (List Tok)), (∀ f nd, 0 < f.row → D.table.node? f = some nd → [.num (num f), .num f.row,
          if nd 0 = .zero then .str "F" else if nd 0 = .one then .str "T" else .num (num (nd 0)),
          if nd 1 = .zero then .str "F" else if nd 1 = .one then .str "T" else .num (num (nd 1))] ∈ ls) →
      (∀ k i x y, [.num k, .num i, x, y] ∈ ls → ∃ f nd, f ∈ ns ∧ D.table.node? f = some nd ∧ num f = k ∧ f.row = i ∧
        x = (if nd 0 = .zero then .str "F" else if nd 0 = .one then .str "T" else .num (num (nd 0))) ∧
        y = (if nd 1 = .zero then .str "F" else if nd 1 = .one then .str "T" else .num (num (nd 1)))) →
      ∀ (p : Path 2) (f : NodeId), D.table.Valid f →
        (SapPath ls (if f = .zero then .str "F" else if f = .one then .str "T" else .num (num f)) p ↔ TAcc D.table f p) := by
    intro ls h1 h2 p
    induction p with
    | nil =>
      intro f hv
      rcases hv with rfl | rfl | ⟨hp, nd, hn⟩
      · rw [if_pos rfl]
        exact ⟨fun h => absurd h not_sapPath_F, fun h => absurd h not_tacc_zero⟩
      · rw [if_neg (by decide), if_pos rfl]
        exact ⟨fun _ => tacc_one.2 rfl, fun _ => .one⟩
      · have z : f ≠ .zero := by rintro rfl; cases hp
        have o : f ≠ .one := by rintro rfl; cases hp
        rw [if_neg z, if_neg o]
        constructor
        · intro h; cases h
        · intro h
          obtain ⟨b, q, e, _⟩ := (tacc_node hp hn).1 h
          cases e
    | cons x p ih =>
      intro f hv
      rcases hv with rfl | rfl | ⟨hp, nd, hn⟩
      · rw [if_pos rfl]
        exact ⟨fun h => absurd h not_sapPath_F, fun h => absurd h not_tacc_zero⟩
      · rw [if_neg (by decide), if_pos rfl]
        exact ⟨fun h => (by cases h), fun h => (by cases tacc_one.1 h)⟩
      · have z : f ≠ .zero := by rintro rfl; cases hp
        have o : f ≠ .one := by rintro rfl; cases hp
        rw [if_neg z, if_neg o, tacc_node hp hn]
        have hmf : f ∈ ns := (hmem f).2 ⟨hp, by rw [hn]; rfl⟩
        have hch := hw.table.child hp hn
        constructor
        · intro h
          cases h with
          | lo hl hs =>
            obtain ⟨f', nd', m1, m2, m3, m4, m5, m6⟩ := h2 _ _ _ _ hl
            obtain rfl := hinj _ _ m1 hmf m3
            rw [hn] at m2
            obtain rfl := Option.some.inj m2
            subst m4
            rw [m5] at hs
            exact ⟨0, p, rfl, (ih _ (hch 0).1).1 hs⟩
          | hi hl hs =>
            obtain ⟨f', nd', m1, m2, m3, m4, m5, m6⟩ := h2 _ _ _ _ hl
            obtain rfl := hinj _ _ m1 hmf m3
            rw [hn] at m2
            obtain rfl := Option.some.inj m2
            subst m4
            rw [m6] at hs
            exact ⟨1, p, rfl, (ih _ (hch 1).1).1 hs⟩
        · rintro ⟨b, q, e, hq⟩
          injection e with e1 e2
          subst e1; subst e2
          have hl := h1 f nd hp hn
          match b, hq with
          | 0, hq => exact .lo hl ((ih _ (hch 0).1).2 hq)
          | 1, hq => exact .hi hl ((ih _ (hch 1).1).2 hq)
  have hz : D.root ≠ .zero := by intro e; rw [e] at hr; cases hr
  have ho : D.root ≠ .one := by intro e; rw [e] at hr; cases hr
  have step : ∀ (ls : List (List Tok)), (∀ (p : Path 2) (f : NodeId), D.table.Valid f →
        (SapPath ls (if f = .zero then .str "F" else if f = .one then .str "T" else .num (num f)) p ↔ TAcc D.table f p)) →
      (∀ p, SapPath ls (.num (num D.root)) p ↔ Accepts D.spec D.root.row D.root p) ∧
      ∀ m a, (∃ p, SapPath ls (.num (num D.root)) p ∧ Agrees p a ∧ ∀ j, 1 ≤ j → j ≤ m → (∀ b, (j, b) ∉ p) → (a j).val = 0) ↔
        ZddMem D.spec m a := by
    intro ls h
    have hroot' : ∀ p, SapPath ls (.num (num D.root)) p ↔ TAcc D.table D.root p := fun p => by
      have := h p D.root hw.root
      rw [if_neg hz, if_neg ho] at this
      exact this
    refine ⟨fun p => ?_, fun m a => ?_⟩
    · rw [hroot', ← accepts_iff_tacc hw.table p hw.root, childCode_pos hr]
    · rw [hw.zddMem_iff]
      simp only [hroot']
      rfl
  refine ⟨_, num D.root, hd, step _ (key _ ?_ ?_)⟩
  · intro f nd hp hn
    refine List.mem_append_right _ (List.mem_map.2 ⟨f, (hmem f).2 ⟨hp, by rw [hn]; rfl⟩, ?_⟩)
    rw [hn]
    rfl
  · intro k i x y h
    rcases List.mem_append.1 h with h | h
    · exfalso
      simp at h
    · obtain ⟨f, hf, e⟩ := List.mem_map.1 h
      obtain ⟨hp, hs⟩ := (hmem f).1 hf
      obtain ⟨nd, hn⟩ := Option.isSome_iff_exists.1 hs
      rw [hn] at e
      simp only [Option.elim_some, List.cons.injEq, Tok.num.injEq, and_true] at e
      obtain ⟨e1, e2, e3, e4⟩ := e
      exact ⟨f, nd, hf, hn, e1, e2, e3.symm, e4.symm⟩

/-- C55, the terminal root: the function reads `nodeId[0][…]`, a vector that is always empty. -/
theorem C55_terminal_root (D : Dd 2) (hw : D.Wf) (h : D.root.row = 0) : dumpSapporo D = none := by
  obtain ⟨hi, lo, e0, hlo⟩ := makeIndex_spec (wf_down hw.table)
  obtain ⟨st, e1, _, _, _, h5⟩ := sapLevels_spec hw.table hlo
  unfold dumpSapporo
  dsimp only
  unfold sapHead at e1
  rw [e0, Option.bind_some, e1, Option.bind_some, h, h5 0 (.inl rfl)]
  split <;> rfl

/-! ## Examples -/

/-- the condition on the level of the root holds if it is the highest level of the table -/
theorem root_top {N : Nat} {D : Dd N} (hw : D.Wf) (h : D.root.row + 1 = D.table.numRows) :
    ∀ f nd b, 0 < f.row → D.table.node? f = some nd → (nd b).row ≠ D.root.row := by
  intro f nd b hf hn
  have := (hw.table.child hf hn b).2
  have hlt : f.row < D.table.numRows := by
    unfold Table.node? at hn
    by_cases h : f.row < D.table.numRows
    · exact h
    · rw [if_neg h] at hn; cases hn
  omega

example : (dumpSapporo dupDd).map render = some "_i 3\n_o 1\n_n 6\n2 1 F T\n4 1 T F\n6 1 F T\n8 2 2 6\n10 2 4 F\n12 3 8 10\n12\n" := by decide +kernel

example := C55_family dupDd dupDd_wf (by decide) (root_top dupDd_wf (by decide))

/-- a structure whose root is not in the highest level -/
def lowRoot : Dd 2 := mkDd [[nd2 .zero .one], [nd2 .one ⟨1, 0⟩], [nd2 ⟨2, 0⟩ .one]] ⟨2, 0⟩

/-- The condition on the level of the root is needed: if a node above refers to it, its numbers have been discarded when the last line is written. -/
theorem C55_root_lost : lowRoot.Wf ∧ 0 < lowRoot.root.row ∧ dumpSapporo lowRoot = none :=
  ⟨wf_of_check (by decide +kernel), by decide, by decide +kernel⟩

end TdZdd
