import Verif.GridPathSem
import Verif.PathProofs6
import Verif.PathCount
import Verif.Props.TestSpecs

/-!
# Property C90: the grid path specification of the test program
-/

namespace TdZdd

/-- the vertices `x` and `y` of a grid, numbered row by row from 1, are side by side -/
def GridAdj (rows cols x y : Nat) : Prop :=
  1 ≤ x ∧ x ≤ rows * cols ∧ 1 ≤ y ∧ y ≤ rows * cols ∧
  (((x - 1) / cols = (y - 1) / cols ∧ ((x - 1) % cols + 1 = (y - 1) % cols ∨ (y - 1) % cols + 1 = (x - 1) % cols)) ∨
   ((x - 1) % cols = (y - 1) % cols ∧ ((x - 1) / cols + 1 = (y - 1) / cols ∨ (y - 1) / cols + 1 = (x - 1) / cols)))

/-- `l` lists the vertices of a simple path from one corner of the grid to the opposite one -/
structure GridWalk (rows cols : Nat) (l : List Nat) : Prop where
  nodup : l.Nodup
  first : l.head? = some 1
  last : l.getLast? = some (rows * cols)
  adj : ∀ x y, Follows l x y → GridAdj rows cols x y

/-- the assignment `a` contains exactly the edges between successive elements of `l`. Edge number `k` belongs to the level `numEdge - k`. -/
def GridSet (rows cols : Nat) (a : Asg 2) (l : List Nat) : Prop :=
  ∀ k v w, (GridPath.edges rows cols)[k]? = some (v, w) → (a ((GridPath.edges rows cols).length - k) = 1 ↔ Follows l v w ∨ Follows l w v)

namespace GridPath

open Sp

variable {rows cols : Nat}

theorem div_mod_succ {k cols : Nat} (h : k % cols + 1 < cols) : (k + 1) / cols = k / cols ∧ (k + 1) % cols = k % cols + 1 := by
  have h1 := Nat.div_add_mod k cols
  have e : k + 1 = (k % cols + 1) + cols * (k / cols) := by omega
  rw [e, Nat.add_mul_div_left _ _ (by omega), Nat.add_mul_mod_self_left, Nat.div_eq_of_lt h, Nat.mod_eq_of_lt h]
  omega

theorem div_mod_ext {i j cols : Nat} (h1 : i / cols = j / cols) (h2 : i % cols = j % cols) : i = j := by
  rw [← Nat.div_add_mod i cols, ← Nat.div_add_mod j cols, h1, h2]

theorem adj_iff (hc : 1 ≤ cols) {x y : Nat} : GridAdj rows cols x y ↔ (x, y) ∈ edges rows cols ∨ (y, x) ∈ edges rows cols := by
  have key : ∀ {i j : Nat}, i < rows * cols → j < rows * cols →
      ((i / cols = j / cols ∧ i % cols + 1 = j % cols) ∨ (i % cols = j % cols ∧ i / cols + 1 = j / cols)) → (i + 1, j + 1) ∈ edges rows cols := by
    intro i j hi hj h
    rw [mem_edges hc]
    refine ⟨i, hi, rfl, ?_⟩
    rcases h with ⟨h1, h2⟩ | ⟨h1, h2⟩
    · have hlt : i % cols + 1 < cols := by rw [h2]; exact Nat.mod_lt _ (by omega)
      obtain ⟨e1, e2⟩ := div_mod_succ hlt
      have := div_mod_ext (e1.trans h1) (e2.trans h2)
      exact .inl ⟨by omega, hlt⟩
    · have hlt : i / cols + 1 < rows := by rw [h2]; exact Nat.div_lt_of_lt_mul (by rw [Nat.mul_comm]; exact hj)
      have e1 : (i + cols) / cols = i / cols + 1 := Nat.add_div_right _ (by omega)
      have e2 : (i + cols) % cols = i % cols := Nat.add_mod_right _ _
      have := div_mod_ext (e1.trans h2) (e2.trans h1)
      exact .inr ⟨by omega, hlt⟩
  have key' : ∀ {x y : Nat}, (x, y) ∈ edges rows cols → 1 ≤ x ∧ x ≤ rows * cols ∧ 1 ≤ y ∧ y ≤ rows * cols ∧
      (((x - 1) / cols = (y - 1) / cols ∧ (x - 1) % cols + 1 = (y - 1) % cols) ∨ ((x - 1) % cols = (y - 1) % cols ∧ (x - 1) / cols + 1 = (y - 1) / cols)) := by
    intro x y h
    obtain ⟨k, hk, rfl, ⟨rfl, h1⟩ | ⟨rfl, h1⟩⟩ := (mem_edges hc).1 h
    · obtain ⟨e1, e2⟩ := div_mod_succ h1
      have := vertex_bound' hk h1
      refine ⟨by omega, by omega, by omega, by omega, .inl ⟨?_, ?_⟩⟩
      · exact e1.symm
      · exact e2.symm
    · have := vertex_bound hc h1
      have e : k + 1 + cols - 1 = k + cols := by omega
      refine ⟨by omega, by omega, by omega, by omega, .inr ⟨?_, ?_⟩⟩
      · rw [e, Nat.add_mod_right, Nat.add_sub_cancel]
      · rw [e, Nat.add_div_right _ (by omega), Nat.add_sub_cancel]
  constructor
  · rintro ⟨h1, h2, h3, h4, h⟩
    obtain ⟨i, rfl⟩ : ∃ i, x = i + 1 := ⟨x - 1, by omega⟩
    obtain ⟨j, rfl⟩ : ∃ j, y = j + 1 := ⟨y - 1, by omega⟩
    simp only [Nat.add_sub_cancel] at h
    rcases h with ⟨e, h | h⟩ | ⟨e, h | h⟩
    · exact .inl (key h2 h4 (.inl ⟨e, h⟩))
    · exact .inr (key h4 h2 (.inl ⟨e.symm, h⟩))
    · exact .inl (key h2 h4 (.inr ⟨e, h⟩))
    · exact .inr (key h4 h2 (.inr ⟨e.symm, h⟩))
  · rintro (h | h)
    · obtain ⟨h1, h2, h3, h4, ⟨e, h⟩ | ⟨e, h⟩⟩ := key' h
      · exact ⟨h1, h2, h3, h4, .inl ⟨e, .inl h⟩⟩
      · exact ⟨h1, h2, h3, h4, .inr ⟨e, .inl h⟩⟩
    · obtain ⟨h1, h2, h3, h4, ⟨e, h⟩ | ⟨e, h⟩⟩ := key' h
      · exact ⟨h3, h4, h1, h2, .inl ⟨e.symm, .inr h⟩⟩
      · exact ⟨h3, h4, h1, h2, .inr ⟨e.symm, .inr h⟩⟩

/-- the graph of `a` joins exactly the vertices that follow each other -/
theorem set_graph (hc : 1 ≤ cols) {a : Asg 2} {l : List Nat} (hw : ∀ x y, Follows l x y → GridAdj rows cols x y) (hs : GridSet rows cols a l) (x y : Nat) :
    graph (edges rows cols) a (edges rows cols).length x y ↔ Follows l x y ∨ Follows l y x := by
  constructor
  · rintro ⟨k, hk, h | h, h1⟩
    · exact (hs k _ _ h).1 h1
    · exact ((hs k _ _ h).1 h1).symm
  · intro h
    have hadj : (x, y) ∈ edges rows cols ∨ (y, x) ∈ edges rows cols := by
      rcases h with h | h
      · exact (adj_iff hc).1 (hw _ _ h)
      · exact ((adj_iff hc).1 (hw _ _ h)).symm
    rcases hadj with h' | h'
    · obtain ⟨k, hk⟩ := List.getElem?_of_mem h'
      exact ⟨k, (List.getElem?_eq_some_iff.1 hk).1, .inl hk, (hs k _ _ hk).2 h⟩
    · obtain ⟨k, hk⟩ := List.getElem?_of_mem h'
      exact ⟨k, (List.getElem?_eq_some_iff.1 hk).1, .inr hk, (hs k _ _ hk).2 h.symm⟩

theorem walk_comp (hc : 1 ≤ cols) {a : Asg 2} {l : List Nat} (hw : GridWalk rows cols l) (hs : GridSet rows cols a l) :
    Sp.Comp (graph (edges rows cols) a (edges rows cols).length) l.length (fun k => l.getD k 0) where
  pos := by
    cases l with
    | nil => exact absurd hw.first (by simp)
    | cons _ _ => exact Nat.succ_pos _
  inj i j hi hj hij := by
    refine nodup_get hw.nodup (getD_get hi) ?_
    rw [getD_get hj]; exact congrArg some hij.symm
  adj i hi y := by
    show graph _ a _ (l.getD i 0) y ↔ _
    rw [set_graph hc hw.adj hs]
    constructor
    · rintro (⟨k, h1, h2⟩ | ⟨k, h1, h2⟩)
      · have : k = i := nodup_get hw.nodup h1 (getD_get hi)
        subst this
        have hlt := (List.getElem?_eq_some_iff.1 h2).1
        rw [getD_get hlt] at h2
        injection h2 with h2
        exact .inl ⟨hlt, h2.symm⟩
      · have : k + 1 = i := nodup_get hw.nodup h2 (getD_get hi)
        rw [getD_get (by omega)] at h1
        injection h1 with h1
        exact .inr ⟨k, this, h1.symm⟩
    · rintro (⟨h, rfl⟩ | ⟨k, rfl, rfl⟩)
      · exact .inl ⟨i, getD_get hi, getD_get h⟩
      · exact .inr ⟨k, getD_get (by omega), getD_get hi⟩

theorem get_head {l : List Nat} {x : Nat} : l.head? = some x ↔ l[0]? = some x := by
  cases l <;> simp

theorem get_last {l : List Nat} {x : Nat} : l.getLast? = some x ↔ l[l.length - 1]? = some x := by
  rw [List.getLast?_eq_getElem?]

theorem isPath_iff (hc : 1 ≤ cols) (a : Asg 2) : IsPath (graph (edges rows cols) a (edges rows cols).length) 1 (rows * cols) ↔ ∃ l, GridWalk rows cols l ∧ GridSet rows cols a l := by
  constructor
  · rintro ⟨n, f, hf, f0, fn, hall⟩
    have hp := hf.pos
    have hget : ∀ {k x}, ((List.range n).map f)[k]? = some x → k < n ∧ f k = x := by
      intro k x h
      rw [get_map] at h
      split at h
      next hk => injection h with h; exact ⟨hk, h⟩
      next => cases h
    have hfol : ∀ {x y}, Follows ((List.range n).map f) x y ↔ ∃ k, k + 1 < n ∧ f k = x ∧ f (k + 1) = y := by
      intro x y
      constructor
      · rintro ⟨k, h1, h2⟩
        exact ⟨k, (hget h2).1, (hget h1).2, (hget h2).2⟩
      · rintro ⟨k, hk, rfl, rfl⟩
        exact ⟨k, by rw [get_map, if_pos (by omega)], by rw [get_map, if_pos hk]⟩
    have hg : ∀ x y, graph (edges rows cols) a (edges rows cols).length x y ↔ Follows ((List.range n).map f) x y ∨ Follows ((List.range n).map f) y x := by
      intro x y
      rw [hfol, hfol]
      constructor
      · intro h
        obtain ⟨i, hi, rfl⟩ := hall x y h
        rcases (hf.adj i hi y).1 h with ⟨h1, rfl⟩ | ⟨k, rfl, rfl⟩
        · exact .inl ⟨i, h1, rfl, rfl⟩
        · exact .inr ⟨k, hi, rfl, rfl⟩
      · rintro (⟨k, hk, rfl, rfl⟩ | ⟨k, hk, rfl, rfl⟩)
        · exact hf.next hk
        · exact hf.prev hk
    refine ⟨(List.range n).map f, ⟨map_nodup hf.inj, ?_, ?_, fun x y h => ?_⟩, fun k v w hk => ?_⟩
    · rw [get_head, get_map, if_pos hp, f0]
    · rw [get_last, get_map, List.length_map, List.length_range, if_pos (by omega), fn]
    · obtain ⟨k, _, h', _⟩ := (hg x y).2 (.inl h)
      rw [adj_iff hc]
      rcases h' with h' | h'
      · exact .inl (List.mem_of_getElem? h')
      · exact .inr (List.mem_of_getElem? h')
    · rw [← hg]
      constructor
      · intro h; exact ⟨k, (List.getElem?_eq_some_iff.1 hk).1, .inl hk, h⟩
      · rintro ⟨k', _, h, h'⟩
        rcases h with h | h
        · have := (List.getElem?_inj (List.getElem?_eq_some_iff.1 hk).1 (edges_nodup hc)).1 (hk.trans h.symm)
          rw [this]; exact h'
        · obtain ⟨i, _, e1, e2⟩ := (mem_edges hc).1 (List.mem_of_getElem? hk)
          obtain ⟨j, _, e3, e4⟩ := (mem_edges hc).1 (List.mem_of_getElem? h)
          omega
  · rintro ⟨l, hw, hs⟩
    have hcomp := walk_comp hc hw hs
    have hp := hcomp.pos
    refine ⟨l.length, _, hcomp, ?_, ?_, fun x y h => ?_⟩
    · have := get_head.1 hw.first
      rw [getD_get hp] at this
      injection this
    · have := get_last.1 hw.last
      rw [getD_get (by omega)] at this
      injection this
    · have : ∃ i, i < l.length ∧ l[i]? = some x := by
        rcases (set_graph hc hw.adj hs x y).1 h with ⟨k, h1, _⟩ | ⟨k, _, h1⟩
        · exact ⟨k, (List.getElem?_eq_some_iff.1 h1).1, h1⟩
        · exact ⟨k + 1, (List.getElem?_eq_some_iff.1 h1).1, h1⟩
      obtain ⟨i, hi, e⟩ := this
      rw [getD_get hi] at e
      injection e with e
      exact ⟨i, hi, e⟩

/-- an edge set belongs to one path only -/
theorem walk_unique (hc : 1 ≤ cols) {a : Asg 2} {l l' : List Nat} (hw : GridWalk rows cols l) (hs : GridSet rows cols a l) (hw' : GridWalk rows cols l')
    (hs' : GridSet rows cols a l') : l = l' := by
  have key : ∀ {l l' : List Nat}, GridWalk rows cols l → GridSet rows cols a l → GridWalk rows cols l' → GridSet rows cols a l' →
      ∀ i, i < l'.length → i < l.length ∧ l'.getD i 0 = l.getD i 0 := by
    intro l l' hw hs hw' hs'
    have c := walk_comp hc hw hs
    have c' := walk_comp hc hw' hs'
    have h0 := get_head.1 hw.first
    have h0' := get_head.1 hw'.first
    rw [getD_get c.pos] at h0
    rw [getD_get c'.pos] at h0'
    injection h0 with h0
    injection h0' with h0'
    exact c.follow c'.inj (fun i hi => c'.next hi) (h0'.trans h0.symm)
  apply List.ext_getElem?
  intro i
  by_cases h : i < l.length
  · obtain ⟨h1, h2⟩ := key hw' hs' hw hs i h
    rw [getD_get h, getD_get h1, h2]
  · by_cases h' : i < l'.length
    · exact absurd (key hw hs hw' hs' i h').1 h
    · rw [List.getElem?_eq_none (by omega), List.getElem?_eq_none (by omega)]

/-- the edge set of a path -/
theorem set_exists (l : List Nat) : ∃ v : List (Fin 2), v.length = (edges rows cols).length ∧ GridSet rows cols (vecAsg v) l := by
  have hch : ∀ j, ∃ b : Fin 2, b = 1 ↔ ∃ p, (edges rows cols)[(edges rows cols).length - (j + 1)]? = some p ∧ (Follows l p.1 p.2 ∨ Follows l p.2 p.1) := by
    intro j
    by_cases h : ∃ p, (edges rows cols)[(edges rows cols).length - (j + 1)]? = some p ∧ (Follows l p.1 p.2 ∨ Follows l p.2 p.1)
    · exact ⟨1, fun _ => h, fun _ => rfl⟩
    · exact ⟨0, fun e => absurd e (by decide), fun e => absurd e h⟩
  have hF : ∃ g : Nat → Fin 2, ∀ j, g j = 1 ↔ ∃ p, (edges rows cols)[(edges rows cols).length - (j + 1)]? = some p ∧ (Follows l p.1 p.2 ∨ Follows l p.2 p.1) :=
    ⟨fun j => Classical.choose (hch j), fun j => Classical.choose_spec (hch j)⟩
  obtain ⟨g, hg⟩ := hF
  refine ⟨(List.range (edges rows cols).length).map g, by rw [List.length_map, List.length_range], fun k v w hk => ?_⟩
  have hlt := (List.getElem?_eq_some_iff.1 hk).1
  unfold vecAsg
  rw [if_neg (by omega), List.getElem?_map, List.getElem?_range (by omega)]
  show g _ = 1 ↔ _
  rw [hg, show (edges rows cols).length - ((edges rows cols).length - k - 1 + 1) = k by omega, hk]
  constructor
  · rintro ⟨p, e, h⟩; cases e; exact h
  · intro h; exact ⟨_, rfl, h⟩

/-- different edge sets belong to different paths -/
theorem set_unique {v v' : List (Fin 2)} {l : List Nat} (h1 : v.length = (edges rows cols).length) (h2 : v'.length = (edges rows cols).length)
    (hs : GridSet rows cols (vecAsg v) l) (hs' : GridSet rows cols (vecAsg v') l) : v = v' := by
  apply List.ext_getElem?
  intro i
  by_cases h : i < (edges rows cols).length
  · obtain ⟨⟨x, y⟩, hk⟩ : ∃ p, (edges rows cols)[(edges rows cols).length - 1 - i]? = some p := ⟨_, List.getElem?_eq_getElem (by omega)⟩
    have e := (hs _ _ _ hk).trans (hs' _ _ _ hk).symm
    unfold vecAsg at e
    rw [if_neg (by omega), if_neg (by omega), show (edges rows cols).length - ((edges rows cols).length - 1 - i) - 1 = i by omega,
      List.getElem?_eq_getElem (by omega), List.getElem?_eq_getElem (by omega)] at e
    rw [List.getElem?_eq_getElem (by omega), List.getElem?_eq_getElem (by omega)]
    replace e : v[i] = 1 ↔ v'[i] = 1 := e
    congr 1
    by_cases g : v[i] = 1
    · rw [g, e.1 g]
    · have g' : ¬ v'[i] = 1 := fun h => g (e.2 h)
      exact Fin.ext ((fin2_zero g).trans (fin2_zero g').symm)
  · rw [List.getElem?_eq_none (by omega), List.getElem?_eq_none (by omega)]

end GridPath

/-- C90: the constructor of `Simpath` makes exactly the edges of the grid, each once, ordered by their ends, and their number is `numEdge`: the assertion holds. -/
theorem C90_edges (rows cols : Nat) (hr : 1 ≤ rows) (hc : 1 ≤ cols) :
    (∀ x y, GridAdj rows cols x y ↔ (x, y) ∈ GridPath.edges rows cols ∨ (y, x) ∈ GridPath.edges rows cols) ∧
    (∀ x y, (x, y) ∈ GridPath.edges rows cols → x < y) ∧
    (GridPath.edges rows cols).Nodup ∧
    (GridPath.edges rows cols).Pairwise (fun p q => p.1 < q.1 ∨ (p.1 = q.1 ∧ p.2 < q.2)) ∧
    ((GridPath.edges rows cols).length : Int) = 2 * rows * cols - rows - cols := by
  refine ⟨fun _ _ => GridPath.adj_iff hc, fun x y h => ?_, GridPath.edges_nodup hc, GridPath.edges_sorted hc, ?_⟩
  · obtain ⟨k, _, h1, h2⟩ := (GridPath.mem_edges hc).1 h
    omega
  · rw [GridPath.edges_length hr hc]
    unfold GridPath.numEdge
    rw [Int.mul_comm, ← Int.mul_assoc]

/-- C90: `Simpath` keeps the contract of specifications; the array is only accessed where the assertions allow it and the levels go down. -/
theorem C90_lawful (rows cols : Nat) (hr : 1 ≤ rows) (hc : 1 ≤ cols) (hb : rows * cols * 2 < 2 ^ 31) :
    LawfulC (GridPath.simpath rows cols) ∧ NoMerge (GridPath.simpath rows cols) ∧
    (∀ (l : Nat) (st : List Int) (b : Fin 2), 0 < l → Reach (GridPath.simpath rows cols) l st →
      GridPath.getChild rows cols st l b = some ((GridPath.simpath rows cols).child st l b)) := by
  refine ⟨lawfulC_of_eq (GridPath.desc hr hc hb) fun n s t => by simp [GridPath.simpath], fun _ _ => rfl, fun l st b hl h => ?_⟩
  have hd := GridPath.desc hr hc hb
  have h1 := hd.child_ge b hl h
  have h2 := hd.child_lt b hl h
  show _ = some ((GridPath.getChild rows cols st l b).getD (ubCode l, st))
  cases hg : GridPath.getChild rows cols st l b with
  | some r => rfl
  | none =>
    replace h1 : -1 ≤ ((GridPath.getChild rows cols st l b).getD (ubCode l, st)).1 := h1
    replace h2 : ((GridPath.getChild rows cols st l b).getD (ubCode l, st)).1 < l := h2
    rw [hg] at h1 h2
    replace h1 : (-1 : Int) ≤ (l : Int) := h1
    replace h2 : (l : Int) < l := h2
    omega

/-- C90: the family of `Simpath(rows, cols)` consists of the edge sets of the simple paths from corner to corner. -/
theorem C90_members (rows cols : Nat) (hr : 1 ≤ rows) (hc : 1 ≤ cols) (h2 : 1 < rows * cols) (hb : rows * cols * 2 < 2 ^ 31) (a : Asg 2) :
    (GridPath.simpath rows cols).root.1 = (GridPath.edges rows cols).length ∧
    (ZddMem (GridPath.simpath rows cols) (GridPath.edges rows cols).length a ↔ ∃ l, GridWalk rows cols l ∧ GridSet rows cols a l) :=
  ⟨by rw [GridPath.root_eq hr hc hb], (GridPath.mem_iff hr hc h2 hb a).trans (GridPath.isPath_iff hc a)⟩

/-- C90: paths and edge sets correspond to each other one to one. -/
theorem C90_one_to_one (rows cols : Nat) (hc : 1 ≤ cols) :
    (∀ l, ∃ v : List (Fin 2), v.length = (GridPath.edges rows cols).length ∧ GridSet rows cols (vecAsg v) l ∧
      ∀ v' : List (Fin 2), v'.length = (GridPath.edges rows cols).length → GridSet rows cols (vecAsg v') l → v' = v) ∧
    (∀ a l l', GridWalk rows cols l → GridSet rows cols a l → GridWalk rows cols l' → GridSet rows cols a l' → l = l') := by
  refine ⟨fun l => ?_, fun a l l' h1 h2 h3 h4 => GridPath.walk_unique hc h1 h2 h3 h4⟩
  obtain ⟨v, e, h⟩ := GridPath.set_exists (rows := rows) (cols := cols) l
  exact ⟨v, e, h, fun v' e' h' => GridPath.set_unique e' e h' h⟩

theorem GridPath.count {rows cols c : Nat} (hr : 1 ≤ rows) (hc : 1 ≤ cols) (h2 : 1 < rows * cols) (hb : rows * cols * 2 < 2 ^ 31)
    (h : ZddCount (GridPath.simpath rows cols) (GridPath.edges rows cols).length c) : HasCount (GridWalk rows cols) c := by
  have hm := fun a => (C90_members rows cols hr hc h2 hb a).2
  have hch : ∀ v : List (Fin 2), ∃ l, (∃ l', GridWalk rows cols l' ∧ GridSet rows cols (vecAsg v) l') → GridWalk rows cols l ∧ GridSet rows cols (vecAsg v) l := by
    intro v
    by_cases h : ∃ l', GridWalk rows cols l' ∧ GridSet rows cols (vecAsg v) l'
    · obtain ⟨l, hl⟩ := h; exact ⟨l, fun _ => hl⟩
    · exact ⟨[], fun g => absurd g h⟩
  have hF : ∃ g : List (Fin 2) → List Nat, ∀ v, (∃ l', GridWalk rows cols l' ∧ GridSet rows cols (vecAsg v) l') → GridWalk rows cols (g v) ∧ GridSet rows cols (vecAsg v) (g v) :=
    ⟨fun v => Classical.choose (hch v), fun v => Classical.choose_spec (hch v)⟩
  obtain ⟨g, hg⟩ := hF
  refine HasCount.image h g (fun x y hx hy e => ?_) fun l => ⟨fun hl => ?_, ?_⟩
  · obtain ⟨_, s1⟩ := hg x ((hm _).1 hx.2)
    obtain ⟨_, s2⟩ := hg y ((hm _).1 hy.2)
    rw [← e] at s2
    exact GridPath.set_unique hx.1 hy.1 s1 s2
  · obtain ⟨v, e, hs⟩ := GridPath.set_exists (rows := rows) (cols := cols) l
    obtain ⟨w, s⟩ := hg v ⟨l, hl, hs⟩
    exact ⟨v, ⟨e, (hm _).2 ⟨l, hl, hs⟩⟩, GridPath.walk_unique hc w s hl hs⟩
  · rintro ⟨v, ⟨_, hv⟩, rfl⟩
    exact (hg v ((hm _).1 hv)).1

/-- C90: what the test asserts: the diagram is built, and its cardinality before and after `zddReduce` is, in decimal, the number of simple paths from corner to corner. -/
theorem C90_cardinality (rows cols : Nat) (hr : 1 ≤ rows) (hc : 1 ≤ cols) (h2 : 1 < rows * cols) (hb : rows * cols * 2 < 2 ^ 31) :
    ∃ c D Z, HasCount (GridWalk rows cols) c ∧ build (GridPath.simpath rows cols) = some D ∧ D.zddReduce = some Z ∧
      (∀ sched, EvSched D sched → D.zddCardinality sched = some (toString c)) ∧ (∀ sched, EvSched Z sched → Z.zddCardinality sched = some (toString c)) := by
  obtain ⟨hl, hm, _⟩ := C90_lawful rows cols hr hc hb
  obtain ⟨D, lab, e1, hs, hnr, ht, _⟩ := build_main hl.lawful
  have hw := hs.wf hl.toDesc
  have hroot := (C90_members rows cols hr hc h2 hb (fun _ => 0)).1
  have hrow : D.root.row ≤ (GridPath.edges rows cols).length := by
    rcases hs.root with ⟨e, _⟩ | ⟨e, _⟩ | ⟨_, e, _⟩
    · rw [e]; exact Nat.zero_le _
    · rw [e]; exact Nat.zero_le _
    · omega
  have hacc : ∀ p, Accepts D.spec D.spec.root.1 D.spec.root.2 p ↔ Accepts (GridPath.simpath rows cols) (GridPath.simpath rows cols).root.1 (GridPath.simpath rows cols).root.2 p :=
    fun p => ⟨hs.sub, hs.sup hm⟩
  have hmem := zddMem_congr hacc (GridPath.edges rows cols).length
  obtain ⟨Z, e4, hZ⟩ := zddReduce_spec hw
  have wZ := hZ.wf hw
  have mZ := hZ.zddMem hw (GridPath.edges rows cols).length hrow
  have hD : ∀ sched, EvSched D sched → ∃ c, HasCount (GridWalk rows cols) c ∧ D.zddCardinality sched = some (toString c) := by
    intro sched h
    obtain ⟨c, k, e⟩ := C30_zddCardinality D hw ht (by rw [hnr]; omega) sched h _ hrow
    exact ⟨c, GridPath.count hr hc h2 hb (k.congr fun l => by rw [hmem]), e⟩
  have hZ' : ∀ sched, EvSched Z sched → ∃ c, HasCount (GridWalk rows cols) c ∧ Z.zddCardinality sched = some (toString c) := by
    intro sched h
    obtain ⟨c, k, e⟩ := C30_zddCardinality Z wZ hZ.2.1 (by rw [hZ.1, hnr]; omega) sched h _ (Nat.le_trans (hZ.root_row hw) hrow)
    exact ⟨c, GridPath.count hr hc h2 hb (k.congr fun l => by rw [mZ, hmem]), e⟩
  obtain ⟨c, hc0, _⟩ := hD _ (seqSched_ok D)
  refine ⟨c, D, Z, hc0, e1, e4, fun sched h => ?_, fun sched h => ?_⟩
  · obtain ⟨c', h1, h3⟩ := hD sched h
    rw [h3, h1.unique hc0]
  · obtain ⟨c', h1, h3⟩ := hZ' sched h
    rw [h3, h1.unique hc0]

/-- C90: for a single vertex the family is empty, although `[1]` is a path (the table in the test begins with "1" for this grid, but the test does not use it). -/
theorem C90_single : GridWalk 1 1 [1] ∧ (GridPath.simpath 1 1).root.1 = 0 ∧ ∀ n a, ¬ ZddMem (GridPath.simpath 1 1) n a := by
  refine ⟨⟨by decide, rfl, rfl, ?_⟩, by decide, fun n a h => zddMemAt_zero h⟩
  rintro x y ⟨k, _, h⟩
  simp at h

/-! Examples -/

example : GridPath.edges 2 3 = [(1, 2), (1, 4), (2, 3), (2, 5), (3, 6), (4, 5), (5, 6)] := by decide

/-- the state during the search on the grid with two rows and columns: the edge 1-2 is taken and 2 is joined to the start -/
example : (GridPath.simpath 2 2).root = (4, [-1, 2, 3]) ∧ (GridPath.simpath 2 2).child [-1, 2, 3] 4 1 = (3, [0, -1, 3]) ∧
    (GridPath.simpath 2 2).child [0, -1, 3] 3 0 = (2, [-1, 3, -1]) ∧ (GridPath.simpath 2 2).child [-1, 3, -1] 2 1 = (-1, [-1, 3, -1]) := by decide

/-- the path 1-2-4 -/
theorem gridWalk_124 : GridWalk 2 2 [1, 2, 4] ∧ GridSet 2 2 (fun j => if j = 4 ∨ j = 2 then 1 else 0) [1, 2, 4] := by
  have hf : ∀ x y, Follows [1, 2, 4] x y ↔ (x = 1 ∧ y = 2) ∨ (x = 2 ∧ y = 4) := by
    intro x y
    constructor
    · rintro ⟨k, h1, h2⟩
      match k with
      | 0 => cases h1; cases h2; exact .inl ⟨rfl, rfl⟩
      | 1 => cases h1; cases h2; exact .inr ⟨rfl, rfl⟩
      | k + 2 => simp at h2
    · rintro (⟨rfl, rfl⟩ | ⟨rfl, rfl⟩)
      · exact ⟨0, rfl, rfl⟩
      · exact ⟨1, rfl, rfl⟩
  refine ⟨⟨by decide, rfl, rfl, ?_⟩, ?_⟩
  · intro x y h
    rcases (hf x y).1 h with ⟨rfl, rfl⟩ | ⟨rfl, rfl⟩ <;> unfold GridAdj <;> decide
  · intro k v w h
    rw [hf, hf]
    have he : GridPath.edges 2 2 = [(1, 2), (1, 3), (2, 4), (3, 4)] := by decide
    rw [he] at h ⊢
    match k with
    | 0 => cases h; decide
    | 1 => cases h; decide
    | 2 => cases h; decide
    | 3 => cases h; decide
    | k + 4 => simp at h

example : ∃ a, ZddMem (GridPath.simpath 2 2) 4 a ∧ ∃ c D, HasCount (GridWalk 2 2) c ∧ build (GridPath.simpath 2 2) = some D ∧ D.zddCardinality (seqSched D) = some (toString c) := by
  obtain ⟨c, D, Z, h1, h2, _, h3, _⟩ := C90_cardinality 2 2 (by decide) (by decide) (by decide) (by decide)
  refine ⟨fun j => if j = 4 ∨ j = 2 then 1 else 0, ?_, c, D, h1, h2, h3 _ (seqSched_ok D)⟩
  exact (C90_members 2 2 (by decide) (by decide) (by decide) (by decide) _).2.2 ⟨_, gridWalk_124⟩

end TdZdd
