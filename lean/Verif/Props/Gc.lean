import Verif.GcProofs
import Verif.Props.Reducer

/-!
# Property C99: `DdReducer::garbageCollect()`

`Gc.collect sort nr roots s` models the function; `roots` are the values of the variables given to `setRoot`, `s` is the input table with the attribute bits of the branches 0. `none` is a failed assertion or an index out of bounds.
The library never calls the function. `Gc.Live T roots` is reachability: the roots, and the branches of every reachable node above row 0.
-/

namespace TdZdd

namespace Gc

variable {N : Nat}

/-- C99: for a well-formed table, any valid roots (terminals, equal roots and roots below others included), any function that sorts and any earlier attribute bits: the assertion holds and no index is out of bounds; every reachable node keeps all its branches, every other node gets the 0-terminal in all branches, all marks are cleared, no row changes its length, row 0 is as before. -/
theorem _root_.TdZdd.C99_collect (T : Table (N + 1)) (hw : T.Wf) (h0 : T.row 0 = terminalRow (N + 1)) (roots : List NodeId) (hr : ∀ f ∈ roots, T.Valid f) (sort : List Nat → List Nat)
    (hs : ∀ l, (sort l).Perm l ∧ (sort l).Pairwise (· ≤ ·)) (bit : NodeId → Bool) :
    ∃ s, collect sort T.numRows roots ⟨T.row, bit⟩ = some s ∧ (∀ r, (s.tab r).length = (T.row r).length) ∧ s.tab 0 = terminalRow (N + 1) ∧
      ∀ f nd, 0 < f.row → T.node? f = some nd → s.bit f = false ∧
        (Live T roots f → (s.tab f.row)[f.col]? = some nd) ∧ (¬ Live T roots f → (s.tab f.row)[f.col]? = some fun _ => .zero) := by
  obtain ⟨s, e, h⟩ := collect_spec hw h0 hr hs bit
  have hd : ∀ f : NodeId, 0 < f.row → Done 0 0 f := fun f hf => .inl hf
  refine ⟨s, e, h.len, ?_, fun f nd hf hn => ⟨h.bit f nd hf hn (hd f hf), h.live f nd hf hn (hd f hf), h.dead f nd hf hn (hd f hf)⟩⟩
  rw [← h0]
  refine List.ext_getElem? fun c => h.todo ⟨0, c⟩ ?_
  rintro (h | h)
  · exact absurd h (Nat.lt_irrefl _)
  · exact absurd h.2 (Nat.not_lt_zero _)

/-- C99: a diagram whose root is one of the roots is well-formed after the collection and has the same function and the same families, and `bddReduce()` and `zddReduce()` give structures `==` to those without the collection. -/
theorem _root_.TdZdd.C99_reduce (D : Dd (N + 1)) (hw : D.Wf) (h0 : D.table.row 0 = terminalRow (N + 1)) (roots : List NodeId) (hr : ∀ f ∈ roots, D.table.Valid f) (hroot : D.root ∈ roots) (sort : List Nat → List Nat)
    (hs : ∀ l, (sort l).Perm l ∧ (sort l).Pairwise (· ≤ ·)) (bit : NodeId → Bool) :
    ∃ s, collect sort D.table.numRows roots ⟨D.table.row, bit⟩ = some s ∧
      ∃ D' : Dd (N + 1), D' = ⟨⟨D.table.numRows, s.tab⟩, D.root⟩ ∧ D'.Wf ∧ (∀ a, BddSat D'.spec a ↔ BddSat D.spec a) ∧ (∀ n a, ZddMem D'.spec n a ↔ ZddMem D.spec n a) ∧
      (∃ R R', D.bddReduce = some R ∧ D'.bddReduce = some R' ∧ ddEq false R R' = some true) ∧ (∃ R R', D.zddReduce = some R ∧ D'.zddReduce = some R' ∧ ddEq false R R' = some true) := by
  obtain ⟨s, e, hlen, hz, hk⟩ := C99_collect D.table hw.table h0 roots hr sort hs bit
  have hnode : ∀ f nd, 0 < f.row → D.table.node? f = some nd → (⟨D.table.numRows, s.tab⟩ : Table (N + 1)).node? f = (s.tab f.row)[f.col]? := fun f nd _ hn => if_pos (node_iff.1 ⟨nd, hn⟩).1
  have hback : ∀ f nd, (⟨D.table.numRows, s.tab⟩ : Table (N + 1)).node? f = some nd → ∃ nd', D.table.node? f = some nd' := by
    intro f nd hn
    have := node_iff.1 ⟨nd, hn⟩
    exact node_iff.2 ⟨this.1, by rw [← hlen]; exact this.2⟩
  have hvalid : ∀ f, D.table.Valid f → (⟨D.table.numRows, s.tab⟩ : Table (N + 1)).Valid f := by
    rintro f (h | h | ⟨h, hn⟩)
    · exact .inl h
    · exact .inr (.inl h)
    · have := node_iff.1 hn
      exact .inr (.inr ⟨h, node_iff.2 ⟨this.1, by show f.col < (s.tab f.row).length; rw [hlen]; exact this.2⟩⟩)
  have hw' : Dd.Wf (⟨⟨D.table.numRows, s.tab⟩, D.root⟩ : Dd (N + 1)) := by
    refine ⟨fun r c nd hr hn b => ?_, hvalid _ hw.root⟩
    obtain ⟨nd', hn'⟩ := hback _ _ hn
    rw [hnode _ _ hr hn'] at hn
    obtain ⟨_, h1, h2⟩ := hk ⟨r, c⟩ nd' hr hn'
    by_cases hl : Live D.table roots ⟨r, c⟩
    · rw [h1 hl] at hn
      have := Option.some.inj hn
      subst this
      have := hw.table r c nd' hr hn' b
      exact ⟨hvalid _ this.1, this.2⟩
    · rw [h2 hl] at hn
      have := Option.some.inj hn
      subst this
      exact ⟨.zero, hr⟩
  have hiso : ∀ m, ∀ f : NodeId, f.row ≤ m → D.table.Valid f → Live D.table roots f → Iso (⟨D.table.numRows, s.tab⟩ : Table (N + 1)) D.table f f := by
    intro m
    induction m with
    | zero => intro f hf _ _; exact .term (by omega)
    | succ m ih =>
      intro f hf hv hl
      by_cases hp : f.row = 0
      · exact .term hp
      · obtain ⟨nd, hn⟩ := hv.pos (by omega)
        refine .node (by omega) rfl ((hnode f nd (by omega) hn).trans ((hk f nd (by omega) hn).2.1 hl)) hn fun b => ?_
        have := hw.table.child (by omega) hn b
        exact ih _ (by omega) this.1 (.child b hl (by omega) hn)
  have hi := hiso _ D.root (Nat.le_refl _) hw.root (.root hroot)
  have hacc : ∀ p, Accepts (⟨⟨D.table.numRows, s.tab⟩, D.root⟩ : Dd (N + 1)).spec (⟨⟨D.table.numRows, s.tab⟩, D.root⟩ : Dd (N + 1)).spec.root.1 (⟨⟨D.table.numRows, s.tab⟩, D.root⟩ : Dd (N + 1)).spec.root.2 p ↔ Accepts D.spec D.spec.root.1 D.spec.root.2 p := by
    intro p
    rw [hw'.accepts_iff, hw.accepts_iff]
    exact hi.tacc p
  have hB := bddSat_congr hacc
  have hZ := fun n => zddMem_congr hacc n
  refine ⟨s, e, _, rfl, hw', hB, hZ, ?_, ?_⟩
  · obtain ⟨R, R', h1, h2, _, _, h3⟩ := C10_bddReduce_canonical D _ hw hw'
    exact ⟨R, R', h1, h2, h3.1 fun a => (hB a).symm⟩
  · obtain ⟨R, R', h1, h2, _, _, h3⟩ := C11_zddReduce_canonical D _ hw hw'
    exact ⟨R, R', h1, h2, (h3 D.root.row (Nat.le_refl _) (Nat.le_refl _)).1 fun a => (hZ _ a).symm⟩

/-! ## examples -/

def ins (x : Nat) : List Nat → List Nat
  | [] => [x]
  | y :: l => if x ≤ y then x :: y :: l else y :: ins x l

/-- insertion sort -/
def isort (l : List Nat) : List Nat := l.foldr ins []

theorem ins_perm (x : Nat) (l : List Nat) : (ins x l).Perm (x :: l) := by
  induction l with
  | nil => exact .refl _
  | cons y l ih =>
    unfold ins
    split
    · exact .refl _
    · exact (ih.cons y).trans (.swap ..)

theorem ins_sorted {x : Nat} {l : List Nat} (h : l.Pairwise (· ≤ ·)) : (ins x l).Pairwise (· ≤ ·) := by
  induction l with
  | nil => exact List.pairwise_singleton ..
  | cons y l ih =>
    obtain ⟨h1, h2⟩ := List.pairwise_cons.1 h
    unfold ins
    split
    · next hx =>
      refine List.pairwise_cons.2 ⟨fun z hz => ?_, h⟩
      rcases List.mem_cons.1 hz with rfl | hz
      · exact hx
      · exact Nat.le_trans hx (h1 z hz)
    · next hx =>
      refine List.pairwise_cons.2 ⟨fun z hz => ?_, ih h2⟩
      rcases List.mem_cons.1 ((ins_perm x l).mem_iff.1 hz) with rfl | hz
      · omega
      · exact h1 z hz

theorem isort_sorts (l : List Nat) : (isort l).Perm l ∧ (isort l).Pairwise (· ≤ ·) := by
  induction l with
  | nil => exact ⟨.refl _, .nil⟩
  | cons x l ih => exact ⟨(ins_perm x _).trans (ih.1.cons x), ins_sorted ih.2⟩

/-- the children of a row as numbers -/
def show' (s : St 1) (i : Nat) : List (List (Nat × Nat)) := (s.tab i).map fun nd => [((nd 0).row, (nd 0).col), ((nd 1).row, (nd 1).col)]

theorem ex_valid : ∀ f ∈ [(⟨2, 1⟩ : NodeId), .one, ⟨1, 0⟩, ⟨2, 1⟩], dupDd.table.Valid f := by
  intro f hf
  simp only [List.mem_cons, List.not_mem_nil, or_false] at hf
  rcases hf with rfl | rfl | rfl | rfl
  · exact .inr (.inr ⟨by decide, _, rfl⟩)
  · exact .inr (.inl rfl)
  · exact .inr (.inr ⟨by decide, _, rfl⟩)
  · exact .inr (.inr ⟨by decide, _, rfl⟩)

/-- two equal roots in row 2, a terminal and a node of row 1: the node of row 3, one node of row 2 and one of row 1 are deleted -/
example : ∃ s, collect isort dupDd.table.numRows [⟨2, 1⟩, .one, ⟨1, 0⟩, ⟨2, 1⟩] ⟨dupDd.table.row, fun _ => true⟩ = some s ∧ (∀ r, (s.tab r).length = (dupDd.table.row r).length) := by
  obtain ⟨s, e, h, _⟩ := C99_collect dupDd.table dupDd_wf.table rfl _ ex_valid isort isort_sorts fun _ => true
  exact ⟨s, e, h⟩

example : [1, 2, 3].map (show' ⟨dupDd.table.row, fun _ => true⟩) = [[[(0, 0), (0, 1)], [(0, 1), (0, 0)], [(0, 0), (0, 1)]], [[(1, 0), (1, 2)], [(1, 1), (0, 0)]], [[(2, 0), (2, 1)]]] ∧
    (collect isort dupDd.table.numRows [⟨2, 1⟩, .one, ⟨1, 0⟩, ⟨2, 1⟩] ⟨dupDd.table.row, fun _ => true⟩).map (fun s => [1, 2, 3].map (show' s)) =
      some [[[(0, 0), (0, 1)], [(0, 1), (0, 0)], [(0, 0), (0, 0)]], [[(0, 0), (0, 0)], [(1, 1), (0, 0)]], [[(0, 0), (0, 0)]]] := by decide +kernel

/-- the diagram with root `⟨2, 1⟩` -/
example : ∃ s, collect isort dupDd.table.numRows [⟨2, 1⟩, .one, ⟨1, 0⟩, ⟨2, 1⟩] ⟨dupDd.table.row, fun _ => true⟩ = some s ∧
    ∀ a, BddSat (⟨⟨dupDd.table.numRows, s.tab⟩, ⟨2, 1⟩⟩ : Dd 2).spec a ↔ BddSat (⟨dupDd.table, ⟨2, 1⟩⟩ : Dd 2).spec a := by
  obtain ⟨s, e, D', rfl, _, h, _⟩ := C99_reduce ⟨dupDd.table, ⟨2, 1⟩⟩ ⟨dupDd_wf.table, ex_valid _ (List.mem_cons_self ..)⟩ rfl _ ex_valid (List.mem_cons_self ..) isort isort_sorts fun _ => true
  exact ⟨s, e, h⟩

end Gc

end TdZdd
