import Verif.DumpProofs
import Verif.StructureProofs
import Verif.TestSpecs
import Verif.SampleDds
import Verif.Props.Builder
import Verif.Props.TestSpecs

/-!
# Property C91: the Graphviz output

Reading the lines of the output as a graph gives back the specification.
-/

namespace TdZdd

variable {N : Nat} {S : Type}

/-- the paths of the drawn graph from the node named `f` to the 1-terminal: the edges with their styles (values) and the levels of the nodes -/
inductive DotPath (ls : List (Dot.Line N S)) : NodeId → Path N → Prop
  | top {f : NodeId} : .top f ∈ ls → DotPath ls f []
  | step {f g : NodeId} {b : Fin N} {p : Path N} : .edge f b g ∈ ls → DotPath ls g p → DotPath ls f ((f.row, b) :: p)

/-- the paths from the entry mark -/
def DotAccepts (ls : List (Dot.Line N S)) (p : Path N) : Prop := ∃ f, .root f ∈ ls ∧ DotPath ls f p

namespace Dot

variable {sp : DdSpec N S} {title : String}

/-- the whole output for a root on level `n` -/
structure Whole (sp : DdSpec N S) (n : Nat) (st : St S) (ls : List (Line N S)) : Prop where
  ok : Ok sp n 0 st
  top_lev : st.lev n = [(sp.root.2, ⟨n, 0⟩)]
  node : ∀ f s, .node f s ∈ ls ↔ (1 ≤ f.row ∧ f.row ≤ n) ∧ ∃ id, (st.lev f.row)[f.col]? = some (s, id)
  edge : ∀ {f b c}, .edge f b c ∈ ls → (1 ≤ f.row ∧ f.row ≤ n) ∧ c ≠ .zero ∧ ∃ s id, (st.lev f.row)[f.col]? = some (s, id) ∧ DEdge sp st c (sp.child s f.row b)
  edge' : NoMerge sp → ∀ {f : NodeId} {s : S} {id : NodeId} (b : Fin N), (1 ≤ f.row ∧ f.row ≤ n) → (st.lev f.row)[f.col]? = some (s, id) → (sp.child s f.row b).1 ≠ 0 → ∃ c, .edge f b c ∈ ls
  fn : ∀ {f b c c'}, .edge f b c ∈ ls → .edge f b c' ∈ ls → c = c'
  rank : ∀ r m, .rank r m ∈ ls ↔ (1 ≤ r ∧ r ≤ n) ∧ m = (st.lev r).length
  root : ∀ f, .root f ∈ ls ↔ f = ⟨n, 0⟩
  top : ∀ f, .top f ∈ ls ↔ f = ⟨0, st.oneId⟩

theorem dump_pos (hl : Lawful sp) {n : Nat} (hn : 0 < n) (hr : sp.root.1 = (n : Int)) (title : String) : ∃ ls st, dump sp title = some ls ∧ Whole sp n st ls := by
  obtain ⟨st, ls, e, hok, hg, hs⟩ := dumpLevels_ok hl n (start sp n) (start_ok hr hn) (Nat.le_refl _)
  have hd : dump sp title = some ([.start title] ++ ((List.range' 1 n).reverse.map .level) ++ ((List.range' 1 (n - 1)).reverse.map .below) ++
      [.entry title, .root ⟨n, 0⟩] ++ ls ++ ((List.range' 2 (st.oneId - 2)).map fun j => .invis ⟨0, j⟩) ++ [.top ⟨0, st.oneId⟩, .stop]) := by
    unfold dump
    rw [if_neg (by omega), if_neg (by omega), show sp.root.1.toNat = n by omega, e]
    rfl
  have hnode : ∀ f s, Line.node f s ∈ ([.start title] ++ ((List.range' 1 n).reverse.map .level) ++ ((List.range' 1 (n - 1)).reverse.map .below) ++
      [.entry title, .root ⟨n, 0⟩] ++ ls ++ ((List.range' 2 (st.oneId - 2)).map fun j => .invis ⟨0, j⟩) ++ [.top ⟨0, st.oneId⟩, .stop] : List (Line N S)) ↔ Line.node f s ∈ ls := by
    intro f s; simp
  have hedge : ∀ f b c, Line.edge f b c ∈ ([.start title] ++ ((List.range' 1 n).reverse.map .level) ++ ((List.range' 1 (n - 1)).reverse.map .below) ++
      [.entry title, .root ⟨n, 0⟩] ++ ls ++ ((List.range' 2 (st.oneId - 2)).map fun j => .invis ⟨0, j⟩) ++ [.top ⟨0, st.oneId⟩, .stop] : List (Line N S)) ↔ Line.edge f b c ∈ ls := by
    intro f b c; simp
  have nr : ∀ f, Line.root f ∉ ls := fun f h => by rcases hs.kind _ h with ⟨_, _, h⟩ | ⟨_, _, _, h⟩ | ⟨_, _, h⟩ <;> cases h
  have nt : ∀ f, Line.top f ∉ ls := fun f h => by rcases hs.kind _ h with ⟨_, _, h⟩ | ⟨_, _, _, h⟩ | ⟨_, _, h⟩ <;> cases h
  refine ⟨_, st, hd, hok, ?_, ?_, ?_, ?_, ?_, ?_, ?_, ?_⟩
  · rw [hg.same (Nat.le_refl _)]
    exact if_pos rfl
  · intro f s; rw [hnode]; exact hs.node f s
  · intro f b c h; rw [hedge] at h; exact hs.edge h
  · intro hm f s id b h1 h2 h3
    obtain ⟨c, h⟩ := hs.edge' hm b h1 h2 h3
    exact ⟨c, (hedge _ _ _).2 h⟩
  · intro f b c c' h h'; rw [hedge] at h h'; exact hs.fn h h'
  · intro r m
    have : Line.rank r m ∈ ([.start title] ++ ((List.range' 1 n).reverse.map .level) ++ ((List.range' 1 (n - 1)).reverse.map .below) ++
      [.entry title, .root ⟨n, 0⟩] ++ ls ++ ((List.range' 2 (st.oneId - 2)).map fun j => .invis ⟨0, j⟩) ++ [.top ⟨0, st.oneId⟩, .stop] : List (Line N S)) ↔ Line.rank r m ∈ ls := by simp
    rw [this]; exact hs.rank r m
  · intro f
    simp [nr]
  · intro f
    simp [nt]

theorem Whole.sound {n : Nat} {st : St S} {ls : List (Line N S)} (hl : Lawful sp) (h : Whole sp n st ls) {f : NodeId} {p : Path N} (hp : DotPath ls f p) :
    (f = ⟨0, st.oneId⟩ ∧ p = []) ∨ ∃ s id, (st.lev f.row)[f.col]? = some (s, id) ∧ Accepts sp (f.row : Int) s p := by
  induction hp with
  | top ht => exact .inl ⟨(h.top _).1 ht, rfl⟩
  | @step f g b p he _ ih =>
    obtain ⟨⟨h1, _⟩, hz, s, id, hj, hd⟩ := h.edge he
    refine .inr ⟨s, id, hj, .step h1 ?_⟩
    rcases hd with ⟨h2, _⟩ | ⟨k, rfl, h2, h3, h4⟩ | ⟨h2, h3, s', id', h4, h5⟩
    · exact absurd h2 hz
    · rcases ih with ⟨_, rfl⟩ | ⟨s', id', h5, _⟩
      · exact .one h4
      · exact absurd (h.ok.node h5).1 (Nat.lt_irrefl 0)
    · rcases ih with ⟨h6, _⟩ | ⟨s'', id'', h6, h7⟩
      · rw [h6] at h2; exact absurd h2 (Nat.lt_irrefl 0)
      · rw [h4] at h6
        cases h6
        have hr := (h.ok.node h4).2.2.1
        have hr' := (h.ok.node hj).2.2.1.step b h1
        rw [h3] at hr' ⊢
        exact (hl.sound h2 hr hr' h5 p).1 h7

theorem Whole.complete {n : Nat} {st : St S} {ls : List (Line N S)} (hl : Lawful sp) (hm : NoMerge sp) (h : Whole sp n st ls) : ∀ (p : Path N) (f : NodeId) (s : S) (id : NodeId),
    (st.lev f.row)[f.col]? = some (s, id) → Accepts sp (f.row : Int) s p → DotPath ls f p := by
  intro p
  induction p with
  | nil =>
    intro f s id hj ha
    have := (h.ok.node hj).1
    cases ha with
    | one hl => omega
  | cons x p ih =>
    intro f s id hj ha
    obtain ⟨h1, h2, hr, _⟩ := h.ok.node hj
    generalize hc : (f.row : Int) = c at ha
    cases ha with
    | @step m _ b _ hn ha =>
      have : m = f.row := by omega
      subst this
      have hne : (sp.child s f.row b).1 ≠ 0 := fun e => by rw [e] at ha; exact not_accepts_zero ha
      obtain ⟨g, he⟩ := h.edge' hm b ⟨h1, h2⟩ hj hne
      refine .step he ?_
      obtain ⟨_, hz, s', id', hj', hd⟩ := h.edge he
      rw [hj] at hj'
      cases hj'
      rcases hd with ⟨h3, _⟩ | ⟨k, rfl, h3, h4, h5⟩ | ⟨h3, h4, s', id', h5, h6⟩
      · exact absurd h3 hz
      · rw [accepts_neg h5] at ha
        subst ha
        have := h.ok.two hm
        exact .top ((h.top _).2 (by rw [show k = st.oneId by omega]))
      · have hr' := hr.step b h1
        rw [h4] at ha hr'
        exact ih g s' id' h5 ((hl.sound h3 (h.ok.node h5).2.2.1 hr' h6 p).2 ha)

end Dot

/-- C91: `dumpDot` of a lawful specification is defined. -/
theorem C91_defined (sp : DdSpec N S) (hl : Lawful sp) (title : String) : ∃ ls, Dot.dump sp title = some ls := by
  by_cases h0 : sp.root.1 = 0
  · exact ⟨_, by unfold Dot.dump; rw [if_pos h0]⟩
  · by_cases h1 : sp.root.1 < 0
    · exact ⟨_, by unfold Dot.dump; rw [if_neg h0, if_pos h1]⟩
    · obtain ⟨ls, st, h, _⟩ := Dot.dump_pos (n := sp.root.1.toNat) hl (by omega) (by omega) title
      exact ⟨ls, h⟩

/-- C91: every path of the drawn graph is accepted by the specification, even if states are merged. -/
theorem C91_sound (sp : DdSpec N S) (hl : Lawful sp) (title : String) (ls : List (Dot.Line N S)) (h : Dot.dump sp title = some ls) (p : Path N) (hp : DotAccepts ls p) :
    Accepts sp sp.root.1 sp.root.2 p := by
  obtain ⟨f, hf, hp⟩ := hp
  by_cases h0 : sp.root.1 = 0
  · unfold Dot.dump at h
    rw [if_pos h0] at h
    cases h
    split at hf <;> simp at hf
  · by_cases h1 : sp.root.1 < 0
    · unfold Dot.dump at h
      rw [if_neg h0, if_pos h1] at h
      cases h
      cases hp with
      | top _ => exact .one h1
      | step he _ => simp at he
    · obtain ⟨ls', st, h', hw⟩ := Dot.dump_pos (n := sp.root.1.toNat) hl (by omega) (by omega) title
      rw [h] at h'
      cases h'
      rw [hw.root] at hf
      subst hf
      rcases hw.sound hl hp with ⟨h2, _⟩ | ⟨s, id, h2, h3⟩
      · injection h2 with h2; omega
      · dsimp only at h2 h3
        rw [hw.top_lev] at h2
        cases h2
        rw [show sp.root.1 = (sp.root.1.toNat : Int) by omega]
        exact h3

/-- C91: the paths of the drawn graph from the entry mark to the 1-terminal are exactly the paths the specification accepts. -/
theorem C91_paths (sp : DdSpec N S) (hl : Lawful sp) (hm : NoMerge sp) (title : String) (ls : List (Dot.Line N S)) (h : Dot.dump sp title = some ls) (p : Path N) :
    DotAccepts ls p ↔ Accepts sp sp.root.1 sp.root.2 p := by
  refine ⟨C91_sound sp hl title ls h p, fun ha => ?_⟩
  by_cases h0 : sp.root.1 = 0
  · rw [h0] at ha; exact absurd ha not_accepts_zero
  · by_cases h1 : sp.root.1 < 0
    · unfold Dot.dump at h
      rw [if_neg h0, if_pos h1] at h
      cases h
      rw [accepts_neg h1] at ha
      subst ha
      exact ⟨.one, by simp, .top (by simp)⟩
    · obtain ⟨ls', st, h', hw⟩ := Dot.dump_pos (n := sp.root.1.toNat) hl (by omega) (by omega) title
      rw [h] at h'
      cases h'
      refine ⟨⟨sp.root.1.toNat, 0⟩, (hw.root _).2 rfl, hw.complete hl hm p _ sp.root.2 ⟨sp.root.1.toNat, 0⟩ (by dsimp only; rw [hw.top_lev]; rfl) ?_⟩
      show Accepts sp (sp.root.1.toNat : Int) sp.root.2 p
      rw [show (sp.root.1.toNat : Int) = sp.root.1 by omega]
      exact ha

/-- C91: the names are consistent: one entry, one label for each node, at most one edge of each kind at a node, edges only between nodes that are declared (or to the 1-terminal or, if
states are merged, to one of the invisible former 1-terminals), and the nodes of a level are numbered from 0 and listed in its `rank` line. -/
theorem C91_names (sp : DdSpec N S) (hl : Lawful sp) (title : String) (ls : List (Dot.Line N S)) (h : Dot.dump sp title = some ls) (h0 : 0 < sp.root.1) :
    (∀ f, .root f ∈ ls ↔ f = ⟨sp.root.1.toNat, 0⟩) ∧ Dot.Line.node ⟨sp.root.1.toNat, 0⟩ sp.root.2 ∈ ls ∧
    (∀ f s s', .node f s ∈ ls → .node f s' ∈ ls → s = s') ∧
    (∀ f b g g', .edge f b g ∈ ls → .edge f b g' ∈ ls → g = g') ∧
    (∀ f b g, .edge f b g ∈ ls → (∃ s, .node f s ∈ ls) ∧ ((g.row < f.row ∧ ∃ t, .node g t ∈ ls) ∨ (g.row = 0 ∧ 2 ≤ g.col ∧ (NoMerge sp → .top g ∈ ls)))) ∧
    (∀ r m, .rank r m ∈ ls → ∀ j, (∃ s, .node ⟨r, j⟩ s ∈ ls) ↔ j < m) ∧
    (∀ f s, .node f s ∈ ls → Reach sp (f.row : Int) s ∧ ∃ m, .rank f.row m ∈ ls) := by
  obtain ⟨ls', st, h', hw⟩ := Dot.dump_pos (n := sp.root.1.toNat) hl (by omega) (by omega) title
  rw [h] at h'
  cases h'
  refine ⟨hw.root, ?_, ?_, fun f b g g' => hw.fn, ?_, ?_, ?_⟩
  · rw [hw.node]
    exact ⟨⟨by show 1 ≤ sp.root.1.toNat; omega, Nat.le_refl _⟩, ⟨sp.root.1.toNat, 0⟩, by dsimp only; rw [hw.top_lev]; rfl⟩
  · intro f s s' h1 h2
    obtain ⟨_, id, h1⟩ := (hw.node _ _).1 h1
    obtain ⟨_, id', h2⟩ := (hw.node _ _).1 h2
    rw [h1] at h2
    cases h2
    rfl
  · intro f b g he
    obtain ⟨hf, hz, s, id, hj, hd⟩ := hw.edge he
    refine ⟨⟨s, (hw.node _ _).2 ⟨hf, id, hj⟩⟩, ?_⟩
    rcases hd with ⟨h3, _⟩ | ⟨k, rfl, h3, h4, h5⟩ | ⟨h3, h4, s', id', h5, h6⟩
    · exact absurd h3 hz
    · refine .inr ⟨rfl, h3, fun hm => (hw.top _).2 ?_⟩
      have := hw.ok.two hm
      rw [show k = st.oneId by omega]
    · have hr := (hw.ok.node hj).2.2.1
      have := hl.child_lt b hf.1 hr
      exact .inl ⟨by omega, s', (hw.node _ _).2 ⟨⟨h3, (hw.ok.node h5).2.1⟩, id', h5⟩⟩
  · intro r m hrank j
    obtain ⟨hr, rfl⟩ := (hw.rank _ _).1 hrank
    constructor
    · rintro ⟨s, hs⟩
      obtain ⟨_, id, hs⟩ := (hw.node _ _).1 hs
      exact (List.getElem?_eq_some_iff.1 hs).1
    · intro hj
      exact ⟨((st.lev r)[j]).1, (hw.node _ _).2 ⟨hr, ((st.lev r)[j]).2, List.getElem?_eq_getElem hj⟩⟩
  · intro f s hs
    obtain ⟨hf, id, hj⟩ := (hw.node _ _).1 hs
    exact ⟨(hw.ok.node hj).2.2.1, _, (hw.rank _ _).2 ⟨hf, rfl⟩⟩

/-- C91: every state that the specification can reach is drawn as exactly one node, up to the equality of the specification. -/
theorem C91_nodes (sp : DdSpec N S) (hl : LawfulC sp) (hm : NoMerge sp) (title : String) (ls : List (Dot.Line N S)) (h : Dot.dump sp title = some ls) (r : Nat) (hr : 0 < r)
    (s : S) (hs : Reach sp (r : Int) s) : ∃ f t, f.row = r ∧ .node f t ∈ ls ∧ sp.eqv r t s = true ∧ ∀ f' t', f'.row = r → .node f' t' ∈ ls → sp.eqv r t' s = true → f' = f := by
  have key : ∀ {c : Int} {s : S}, Reach sp c s → ∀ r : Nat, 0 < r → c = r → 0 < sp.root.1 := by
    intro c s h
    induction h with
    | root => intro r h1 h2; omega
    | step b hn _ ih => intro r _ _; exact ih _ hn rfl
  have h0 := key hs r hr rfl
  obtain ⟨ls', st, h', hw⟩ := Dot.dump_pos (n := sp.root.1.toNat) hl.lawful (by omega) (by omega) title
  rw [h] at h'
  cases h'
  have main : ∀ {c : Int} {s : S}, Reach sp c s → ∀ r : Nat, 0 < r → c = r → ∃ (j : Nat) (t : S) (id : NodeId), (st.lev r)[j]? = some (t, id) ∧ sp.eqv r t s = true := by
    intro c s h
    induction h with
    | root =>
      intro r h1 h2
      have e : r = sp.root.1.toNat := by omega
      subst e
      refine ⟨0, sp.root.2, ⟨sp.root.1.toNat, 0⟩, by rw [hw.top_lev]; rfl, hl.refl h1 ?_⟩
      rw [← h2]; exact .root
    | @step n s b hn hsr ih =>
      intro r h1 h2
      obtain ⟨j, t, id, hj, he⟩ := ih n hn rfl
      have hn' := hw.ok.node hj
      obtain ⟨c1, c2⟩ := hl.congr b hn hn'.2.2.1 hsr he
      have c3 := c2 r h1 (c1.trans h2)
      obtain ⟨g, hg⟩ := hw.edge' hm (f := ⟨n, j⟩) b ⟨hn, hn'.2.1⟩ hj (by show (sp.child t n b).1 ≠ 0; omega)
      obtain ⟨_, hz, t', id', hj', hd⟩ := hw.edge hg
      dsimp only at hj' hd
      rw [hj] at hj'
      cases hj'
      rcases hd with ⟨h3, _⟩ | ⟨k, rfl, h3, h4, h5⟩ | ⟨h3, h4, t', id', h5, h6⟩
      · exact absurd h3 hz
      · omega
      · have e : r = g.row := by omega
        subst e
        have r1 := hn'.2.2.1.step b hn
        have r2 := hsr.step b hn
        rw [h4] at r1
        rw [h2] at r2
        exact ⟨g.col, t', id', h5, hl.trans h1 (hw.ok.node h5).2.2.1 r1 r2 h6 c3⟩
  obtain ⟨j, t, id, hj, he⟩ := main hs r hr rfl
  have hn' := hw.ok.node hj
  refine ⟨⟨r, j⟩, t, rfl, (hw.node _ _).2 ⟨⟨hr, hn'.2.1⟩, id, hj⟩, he, ?_⟩
  rintro ⟨r', j'⟩ t' rfl ht' he'
  obtain ⟨_, id', hj'⟩ := (hw.node _ _).1 ht'
  dsimp only at *
  have e := hw.ok.diff hm hj' hj (hl.trans hr (hw.ok.node hj').2.2.1 hs hn'.2.2.1 he' (hl.symm hr hn'.2.2.1 hs he))
  rw [e]

/-- C91: `dumpDot` of a structure draws the paths of this structure, one node for each reachable node. -/
theorem C91_structure (D : Dd N) (hw : D.Wf) (title : String) : ∃ ls, Dot.dump D.spec title = some ls ∧
    (∀ p, DotAccepts ls p ↔ Accepts D.spec D.spec.root.1 D.spec.root.2 p) ∧
    ∀ g : NodeId, 0 < g.row → Reach D.spec (g.row : Int) g → ∃ f, f.row = g.row ∧ .node f g ∈ ls ∧ ∀ f', f'.row = g.row → .node f' g ∈ ls → f' = f := by
  have hl := C56_structure_lawful D hw
  obtain ⟨ls, h⟩ := C91_defined D.spec hl.1.lawful title
  refine ⟨ls, h, C91_paths _ hl.1.lawful hl.2 _ _ h, fun g h0 hr => ?_⟩
  obtain ⟨f, t, h1, h2, h3, h4⟩ := C91_nodes _ hl.1 hl.2 _ _ h g.row h0 g hr
  have e : t = g := of_decide_eq_true h3
  subst e
  exact ⟨f, h1, h2, fun f' h5 h6 => h4 f' _ h5 h6 (decide_eq_true rfl)⟩

/-! ## `NodeTableEntity::dumpDot` -/

/-- the paths of the graph drawn for a node table, from a node (or from the mark of the 1-terminal) to the mark of the 1-terminal -/
inductive TDotPath (ls : List (Dot.TLine N)) : Option NodeId → Path N → Prop
  | top : .top ∈ ls → TDotPath ls none []
  | step {f : NodeId} {g : Option NodeId} {b : Fin N} {p : Path N} : .edge f b g ∈ ls → TDotPath ls g p → TDotPath ls (some f) ((f.row, b) :: p)

namespace Dot

variable {T : Table N}

/-- the drawn target of an edge -/
def Target (v : NodeId) (g : Option NodeId) : Prop := (v = .one ∧ g = none) ∨ (v ≠ .zero ∧ v ≠ .one ∧ g = some v)

theorem mem_tnode {f : NodeId} {nd : Node N} {x : TLine N} : x ∈ tnode f nd ↔ x = .node f ∨ ∃ b g, x = .edge f b g ∧ Target (nd b) g := by
  unfold tnode
  rw [List.mem_cons, List.mem_filterMap]
  constructor
  · rintro (h | ⟨b, _, h⟩)
    · exact .inl h
    · refine .inr ?_
      by_cases h0 : nd b = .zero
      · rw [if_pos h0] at h; cases h
      · rw [if_neg h0] at h
        by_cases h1 : nd b = .one
        · rw [if_pos h1] at h; cases h; exact ⟨b, none, rfl, .inl ⟨h1, rfl⟩⟩
        · rw [if_neg h1] at h; cases h; exact ⟨b, _, rfl, .inr ⟨h0, h1, rfl⟩⟩
  · rintro (h | ⟨b, g, rfl, ⟨h1, rfl⟩ | ⟨h0, h1, rfl⟩⟩)
    · exact .inl h
    · refine .inr ⟨b, List.mem_finRange b, ?_⟩
      rw [if_neg (by rw [h1]; decide), if_pos h1]
    · refine .inr ⟨b, List.mem_finRange b, ?_⟩
      rw [if_neg h0, if_neg h1]

theorem mem_trow {i : Nat} {x : TLine N} : x ∈ ((T.row i).zipIdx.flatMap fun x => tnode ⟨i, x.2⟩ x.1) ↔ ∃ c nd, (T.row i)[c]? = some nd ∧ x ∈ tnode ⟨i, c⟩ nd := by
  rw [List.mem_flatMap]
  constructor
  · rintro ⟨⟨nd, c⟩, h, hx⟩
    exact ⟨c, nd, List.mem_zipIdx_iff_getElem?.1 h, hx⟩
  · rintro ⟨c, nd, h, hx⟩
    exact ⟨(nd, c), List.mem_zipIdx_iff_getElem?.2 h, hx⟩

theorem edge_trows {f : NodeId} {b : Fin N} {g : Option NodeId} : ∀ (i : Nat) (t1 : Bool), .edge f b g ∈ trows T i t1 ↔
    (1 ≤ f.row ∧ f.row ≤ i) ∧ ∃ nd, (T.row f.row)[f.col]? = some nd ∧ Target (nd b) g := by
  intro i
  induction i with
  | zero => intro t1; exact ⟨fun h => (nomatch h), fun h => by omega⟩
  | succ i ih =>
    intro t1
    unfold trows
    rw [List.mem_append, List.mem_append, List.mem_append, mem_trow, ih]
    constructor
    · rintro (((⟨c, nd, h, hx⟩ | h) | h) | ⟨h1, h2⟩)
      · rcases mem_tnode.1 hx with hx | ⟨b', g', hx, ht⟩
        · cases hx
        · cases hx
          exact ⟨⟨by show 1 ≤ i + 1; omega, Nat.le_refl _⟩, nd, h, ht⟩
      · split at h <;> simp at h
      · simp at h
      · exact ⟨by omega, h2⟩
    · rintro ⟨h1, nd, h2, h3⟩
      by_cases e : f.row = i + 1
      · refine .inl (.inl (.inl ⟨f.col, nd, by rw [← e]; exact h2, mem_tnode.2 (.inr ⟨b, g, by rw [← e], h3⟩)⟩))
      · exact .inr ⟨by omega, nd, h2, h3⟩

theorem node_trows {f : NodeId} : ∀ (i : Nat) (t1 : Bool), .node f ∈ trows T i t1 ↔ (1 ≤ f.row ∧ f.row ≤ i) ∧ ∃ nd, (T.row f.row)[f.col]? = some nd := by
  intro i
  induction i with
  | zero => intro t1; exact ⟨fun h => (nomatch h), fun h => by omega⟩
  | succ i ih =>
    intro t1
    unfold trows
    rw [List.mem_append, List.mem_append, List.mem_append, mem_trow, ih]
    constructor
    · rintro (((⟨c, nd, h, hx⟩ | h) | h) | ⟨h1, h2⟩)
      · rcases mem_tnode.1 hx with hx | ⟨b', g', hx, ht⟩
        · cases hx
          exact ⟨⟨by show 1 ≤ i + 1; omega, Nat.le_refl _⟩, nd, h⟩
        · cases hx
      · split at h <;> simp at h
      · simp at h
      · exact ⟨by omega, h2⟩
    · rintro ⟨h1, nd, h2⟩
      by_cases e : f.row = i + 1
      · refine .inl (.inl (.inl ⟨f.col, nd, by rw [← e]; exact h2, mem_tnode.2 (.inl (by rw [← e]))⟩))
      · exact .inr ⟨by omega, nd, h2⟩

theorem rowOne_iff {l : List (Node N)} : rowOne l = true ↔ ∃ nd ∈ l, ∃ b, nd b = .one := by
  unfold rowOne
  simp [List.any_eq_true, List.mem_finRange]

theorem top_trows : ∀ (i : Nat) (t1 : Bool), .top ∈ trows T i t1 ↔ (t1 = true ∧ 1 ≤ i) ∨ ∃ r, 1 ≤ r ∧ r ≤ i ∧ ∃ nd ∈ T.row r, ∃ b, nd b = .one := by
  intro i
  induction i with
  | zero => intro t1; exact ⟨fun h => (nomatch h), fun h => by rcases h with h | ⟨r, h⟩ <;> omega⟩
  | succ i ih =>
    intro t1
    unfold trows
    rw [List.mem_append, List.mem_append, List.mem_append, mem_trow, ih]
    constructor
    · rintro (((⟨c, nd, h, hx⟩ | h) | h) | ⟨h1, h2⟩ | ⟨r, h1, h2, h3⟩)
      · rcases mem_tnode.1 hx with hx | ⟨b', g', hx, ht⟩ <;> cases hx
      · split at h
        next hb =>
          rw [Bool.or_eq_true] at hb
          rcases hb with hb | hb
          · exact .inl ⟨hb, by omega⟩
          · exact .inr ⟨i + 1, by omega, Nat.le_refl _, rowOne_iff.1 hb⟩
        next => cases h
      · simp at h
      · rw [Bool.or_eq_true] at h1
        rcases h1 with h1 | h1
        · exact .inl ⟨h1, by omega⟩
        · exact .inr ⟨i + 1, by omega, Nat.le_refl _, rowOne_iff.1 h1⟩
      · exact .inr ⟨r, h1, by omega, h3⟩
    · rintro (⟨h1, _⟩ | ⟨r, h1, h2, h3⟩)
      · refine .inl (.inl (.inr ?_))
        rw [h1, Bool.true_or, if_pos rfl]
        exact .head _
      · by_cases e : r = i + 1
        · subst e
          refine .inl (.inl (.inr ?_))
          rw [rowOne_iff.2 h3, Bool.or_true, if_pos rfl]
          exact .head _
        · exact .inr (.inr ⟨r, h1, by omega, h3⟩)

theorem mem_tdump {title : String} {x : TLine N} (hx : (∃ f, x = .node f) ∨ (∃ f b g, x = .edge f b g) ∨ x = .top) : x ∈ tdump T title ↔ x ∈ trows T (T.numRows - 1) false := by
  unfold tdump
  by_cases h : title.isEmpty
  · rcases hx with ⟨f, rfl⟩ | ⟨f, b, g, rfl⟩ | rfl <;> simp [h]
  · rcases hx with ⟨f, rfl⟩ | ⟨f, b, g, rfl⟩ | rfl <;> simp [h]

end Dot

/-- C91: `dumpDot` of a node table declares exactly its nodes, and the mark of the 1-terminal exactly if an edge leads to it. -/
theorem C91_table_nodes (T : Table N) (title : String) :
    (∀ f, .node f ∈ Dot.tdump T title ↔ 0 < f.row ∧ ∃ nd, T.node? f = some nd) ∧
    (.top ∈ Dot.tdump T title ↔ ∃ f nd b, 0 < f.row ∧ T.node? f = some nd ∧ nd b = .one) := by
  constructor
  · intro f
    rw [Dot.mem_tdump (.inl ⟨f, rfl⟩), Dot.node_trows]
    unfold Table.node?
    constructor
    · rintro ⟨h1, nd, h2⟩; exact ⟨by omega, nd, by rw [if_pos (by omega)]; exact h2⟩
    · rintro ⟨h1, nd, h2⟩
      split at h2
      next h => exact ⟨by omega, nd, h2⟩
      next => cases h2
  · rw [Dot.mem_tdump (.inr (.inr rfl)), Dot.top_trows]
    unfold Table.node?
    constructor
    · rintro (⟨h, _⟩ | ⟨r, h1, h2, nd, hm, b, hb⟩)
      · cases h
      · obtain ⟨c, hc⟩ := List.getElem?_of_mem hm
        exact ⟨⟨r, c⟩, nd, b, h1, by rw [if_pos (by show r < T.numRows; omega)]; exact hc, hb⟩
    · rintro ⟨f, nd, b, h1, h2, h3⟩
      split at h2
      next h => exact .inr ⟨f.row, h1, by omega, nd, List.mem_of_getElem? h2, b, h3⟩
      next => cases h2

/-- C91: the paths of the drawn table from a node to the mark of the 1-terminal are the paths that the structure with this root accepts. -/
theorem C91_table_paths (D : Dd N) (hw : D.Wf) (title : String) (f : NodeId) (nd : Node N) (hf : 0 < f.row) (hnd : D.table.node? f = some nd) (p : Path N) :
    TDotPath (Dot.tdump D.table title) (some f) p ↔ Accepts D.spec (f.row : Int) f p := by
  have hedge : ∀ {f b g}, .edge f b g ∈ Dot.tdump D.table title ↔ 0 < f.row ∧ ∃ nd, D.table.node? f = some nd ∧ Dot.Target (nd b) g := by
    intro f b g
    rw [Dot.mem_tdump (.inr (.inl ⟨f, b, g, rfl⟩)), Dot.edge_trows]
    unfold Table.node?
    constructor
    · rintro ⟨h1, nd, h2⟩; exact ⟨by omega, nd, by rw [if_pos (by omega)]; exact h2⟩
    · rintro ⟨h1, nd, h2, h3⟩
      split at h2
      next h => exact ⟨by omega, nd, h2, h3⟩
      next => cases h2
  have hchild : ∀ {f : NodeId} {nd : Node N} (b : Fin N), 0 < f.row → D.table.node? f = some nd → D.spec.child f f.row b = (childCode (nd b), nd b) := by
    intro f nd b h1 h2
    show (if ¬ (0 < f.row ∧ f.row = f.row) then _ else _) = _
    rw [if_neg (fun h => h ⟨h1, rfl⟩), h2]
  induction p generalizing f nd with
  | nil =>
    constructor
    · intro h; cases h
    · intro h
      generalize hc : (f.row : Int) = c at h
      cases h with
      | one hl => omega
  | cons x p ih =>
    have hwf := hw.1 f.row f.col nd hf hnd
    constructor
    · intro h
      cases h with
      | @step _ g b _ he hp =>
        obtain ⟨_, nd', h1, h2⟩ := hedge.1 he
        rw [hnd] at h1
        cases h1
        refine .step hf ?_
        rw [hchild b hf hnd]
        rcases h2 with ⟨h2, rfl⟩ | ⟨h2, h3, rfl⟩
        · cases hp with
          | top => rw [h2]; exact .one (by decide)
        · rcases (hwf b).1 with h | h | ⟨h, nd', h'⟩
          · exact absurd h h2
          · exact absurd h h3
          · show Accepts D.spec (childCode (nd b)) (nd b) p
            rw [childCode_pos h]
            exact (ih (nd b) nd' h h').1 hp
    · intro h
      generalize hc : (f.row : Int) = c at h
      cases h with
      | @step m _ b _ hn ha =>
        have : m = f.row := by omega
        subst this
        rw [hchild b hf hnd] at ha
        replace ha : Accepts D.spec (childCode (nd b)) (nd b) p := ha
        rcases (hwf b).1 with h | h | ⟨h, nd', h'⟩
        · rw [h] at ha; exact absurd ha not_accepts_zero
        · rw [h] at ha
          rw [accepts_neg (by decide)] at ha
          subst ha
          exact .step (hedge.2 ⟨hf, nd, hnd, .inl ⟨h, rfl⟩⟩) (.top ((C91_table_nodes D.table title).2.2 ⟨f, nd, b, hf, hnd, h⟩))
        · rw [childCode_pos h] at ha
          refine .step (hedge.2 ⟨hf, nd, hnd, .inr ⟨?_, ?_, rfl⟩⟩) ((ih (nd b) nd' h h').2 ha)
          · intro e; rw [e] at h; exact absurd h (by decide)
          · intro e; rw [e] at h; exact absurd h (by decide)

/-! Examples -/

/-- the text of a diagram with two levels -/
example : Dot.dot (combination 2 1) toString (fun s _ => toString s) "C" = some
    "digraph \"C\" {\n  2 [shape=none,label=\"2\"];\n  1 [shape=none,label=\"1\"];\n  2 -> 1 [style=invis];\n  \"^\" [shape=none,label=\"C\"];\n  \"^\" -> \"2:0\" [style=dashed];\n  \"2:0\" [label=\"0\"];\n  \"2:0\" -> \"1:0\" [style=dashed];\n  \"2:0\" -> \"1:1\" [style=solid];\n  {rank=same; 2; \"2:0\"}\n  \"1:1\" [label=\"1\"];\n  \"1:0\" [label=\"0\"];\n  \"1:0\" -> \"0:2\" [style=solid];\n  \"1:1\" -> \"0:2\" [style=dashed];\n  {rank=same; 1; \"1:0\"; \"1:1\"}\n  \"0:2\" [shape=square,margin=0.05,width=0,label=\"T\"];\n}\n" := by
  decide +kernel

/-- the hypotheses of the theorems hold for it, and the drawn graph has the path that takes the item of level 1 -/
example : ∃ ls, Dot.dump (combination 2 1) "C" = some ls ∧ DotAccepts ls [(2, 0), (1, 1)] ∧ ¬ DotAccepts ls [(2, 0), (1, 0)] := by
  have hl := C89_combination_lawful 2 1 (by decide) (by decide)
  obtain ⟨ls, h⟩ := C91_defined _ hl.1.lawful "C"
  refine ⟨ls, h, ?_, ?_⟩ <;> rw [C91_paths _ hl.1.lawful hl.2.1 _ _ h]
  · exact .step (n := 2) (b := 0) (by decide) (.step (n := 1) (b := 1) (by decide) (.one (by decide)))
  · intro ha
    cases ha with
    | step _ ha =>
      cases ha with
      | step _ ha => exact not_accepts_zero ha

/-- a specification that merges states: the second 1-terminal replaces the first one, whose edge ends in an invisible node -/
def replacing : DdSpec 2 Nat where
  root := (1, 0)
  child _ _ b := (-1, b.val)
  eqv _ s t := decide (s = t)
  hash _ _ := 0
  merge _ _ := 1

example : (Dot.dump replacing "").map (List.map (Dot.Line.text toString (fun s _ => toString s))) = some
    ["digraph \"\" {\n", "  1 [shape=none,label=\"1\"];\n", "  \"^\" [shape=none,label=\"\"];\n", "  \"^\" -> \"1:0\" [style=dashed];\n", "  \"1:0\" [label=\"0\"];\n",
     "  \"1:0\" -> \"0:2\" [style=dashed];\n", "  \"1:0\" -> \"0:3\" [style=solid];\n", "  {rank=same; 1; \"1:0\"}\n", "  \"0:2\" [style=invis];\n",
     "  \"0:3\" [shape=square,margin=0.05,width=0,label=\"T\"];\n", "}\n"] := by
  decide +kernel

/-- the text for a table -/
example : String.join ((Dot.tdump dupDd.table "d").map Dot.TLine.text) =
    "digraph \"d\" {\n  3 [shape=none];\n  2 [shape=none];\n  1 [shape=none];\n  3 -> 2 [style=invis];\n  2 -> 1 [style=invis];\n  labelloc=\"t\";\n  label=\"d\";\n  \"3:0\";\n  \"3:0\" -> \"2:0\" [style=dashed];\n  \"3:0\" -> \"2:1\" [style=solid];\n  {rank=same; 3; \"3:0\"}\n  \"2:0\";\n  \"2:0\" -> \"1:0\" [style=dashed];\n  \"2:0\" -> \"1:2\" [style=solid];\n  \"2:1\";\n  \"2:1\" -> \"1:1\" [style=dashed];\n  {rank=same; 2; \"2:0\"; \"2:1\"}\n  \"1:0\";\n  \"1:0\" -> \"$\" [style=solid];\n  \"1:1\";\n  \"1:1\" -> \"$\" [style=dashed];\n  \"1:2\";\n  \"1:2\" -> \"$\" [style=solid];\n  \"$\" [shape=square,label=\"⊤\"];\n  {rank=same; 1; \"1:0\"; \"1:1\"; \"1:2\"}\n}\n" := by
  decide +kernel

example : TDotPath (Dot.tdump dupDd.table "d") (some dupDd.root) [(3, 0), (2, 1), (1, 1)] :=
  (C91_table_paths dupDd dupDd_wf "d" dupDd.root _ (by decide) rfl _).2
    (.step (n := 3) (b := 0) (by decide) (.step (n := 2) (b := 1) (by decide) (.step (n := 1) (b := 1) (by decide) (.one (by decide)))))

end TdZdd
