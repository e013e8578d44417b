import Verif.CnfPictureProofs
import Verif.CnfBddMapOk

/-!
# Property C108: the picture of a formula

`Good nv cnf` says that the clauses have literals, over the variables `1 … nv`, in the order of the variables, with no variable twice; these are the clauses that `readDimacs` stores.
-/

namespace TdZdd

namespace CnfPic

open Cnf CnfB

variable {nv : Nat}

/-- **C108.** For stored clauses the picture is printed without undefined behaviour. The node of clause `j` and variable `v` exists for each clause and each variable. It is marked `+` exactly if `v` is in the clause, `-` exactly if `-v` is, with a point exactly if neither is but the clause has smaller and larger variables, and left blank exactly if all the variables of the clause are on the same side of `v`. No node has two marks. -/
theorem _root_.TdZdd.C108_cells (cnf : List Clause) (h : Good nv cnf) (cm : CMap) (title : List Char) : ∃ ls, dump nv cnf cm title = some ls ∧
    (∀ j v, (∃ m, Line.cell j v m ∈ ls) ↔ 1 ≤ j ∧ j ≤ cnf.length ∧ 1 ≤ v ∧ v ≤ nv) ∧
    (∀ j v m m', Line.cell j v m ∈ ls → Line.cell j v m' ∈ ls → m = m') ∧
    ∀ j c v, cnf[j]? = some c → 1 ≤ v → v ≤ nv →
      (Line.cell (j + 1) v .pos ∈ ls ↔ (v : Int) ∈ c) ∧ (Line.cell (j + 1) v .neg ∈ ls ↔ -(v : Int) ∈ c) ∧
      (Line.cell (j + 1) v .point ∈ ls ↔ (v : Int) ∉ c ∧ -(v : Int) ∉ c ∧ (∃ x ∈ c, x.natAbs < v) ∧ ∃ x ∈ c, v < x.natAbs) ∧
      (Line.cell (j + 1) v .blank ∈ ls ↔ (∀ x ∈ c, v < x.natAbs) ∨ ∀ x ∈ c, x.natAbs < v) := by
  obtain ⟨ls, e, hc, _, _⟩ := dump_spec h cm title
  refine ⟨ls, e, ?_, ?_, ?_⟩
  · intro j v
    constructor
    · rintro ⟨m, hm⟩
      obtain ⟨k, c, a, b, v1, v2, _⟩ := (hc j v m).1 hm
      obtain ⟨hk, _⟩ := List.getElem?_eq_some_iff.1 a
      exact ⟨by omega, by omega, v1, v2⟩
    · rintro ⟨j1, j2, v1, v2⟩
      have hk : j - 1 < cnf.length := by omega
      have hm : cnf[j - 1] ∈ cnf := List.getElem_mem hk
      obtain ⟨f, l, _, _, hf, hl, hb⟩ := ends (h.ord _ hm).incr (h.ne _ hm)
      have S : ∃ m, Shown cnf[j - 1] v m := by
        by_cases p : (v : Int) ∈ cnf[j - 1]
        · exact ⟨.pos, p⟩
        · by_cases n : -(v : Int) ∈ cnf[j - 1]
          · exact ⟨.neg, n⟩
          · have no : ∀ x ∈ cnf[j - 1], x.natAbs ≠ v := by
              intro x hx g
              have : x = (v : Int) ∨ x = -(v : Int) := by omega
              cases this with
              | inl q => rw [q] at hx; exact p hx
              | inr q => rw [q] at hx; exact n hx
            by_cases a : v < f.natAbs
            · exact ⟨.blank, Or.inl fun x hx => by have := hb x hx; omega⟩
            · by_cases b : l.natAbs < v
              · exact ⟨.blank, Or.inr fun x hx => by have := hb x hx; omega⟩
              · exact ⟨.point, p, n, ⟨f, hf, by have := no f hf; omega⟩, l, hl, by have := no l hl; omega⟩
      obtain ⟨m, hm⟩ := S
      exact ⟨m, (hc j v m).2 ⟨j - 1, _, List.getElem?_eq_getElem hk, by omega, v1, v2, hm⟩⟩
  · intro j v m m' h1 h2
    obtain ⟨k, c, a, b, v1, _, s⟩ := (hc j v m).1 h1
    obtain ⟨k', c', a', b', _, _, s'⟩ := (hc j v m').1 h2
    have : k' = k := by omega
    rw [this, a] at a'
    cases a'
    have hm := List.mem_of_getElem? a
    exact shown_unique (h.ord c hm).incr (h.ne c hm) v1 s s'
  · intro j c v a v1 v2
    have q : ∀ m, Line.cell (j + 1) v m ∈ ls ↔ Shown c v m := by
      intro m
      rw [hc]
      constructor
      · rintro ⟨k, d, g, e, _, _, s⟩
        have : k = j := by omega
        rw [this, a] at g
        cases g
        exact s
      · intro s
        exact ⟨j, c, a, rfl, v1, v2, s⟩
    exact ⟨q .pos, q .neg, q .point, q .blank⟩

theorem lit_kept {nv' : Nat} {cnf cnf' : List Clause} (h : Good nv cnf) {ls ls' : List Line}
    (hc : ∀ j v m, Line.cell j v m ∈ ls ↔ ∃ k c, cnf[k]? = some c ∧ j = k + 1 ∧ 1 ≤ v ∧ v ≤ nv ∧ Shown c v m)
    (hc' : ∀ j v m, Line.cell j v m ∈ ls' ↔ ∃ k c, cnf'[k]? = some c ∧ j = k + 1 ∧ 1 ≤ v ∧ v ≤ nv' ∧ Shown c v m)
    (e : ls.map Line.text = ls'.map Line.text) {k : Nat} {c : Clause} (a : cnf[k]? = some c) : ∃ c', cnf'[k]? = some c' ∧ ∀ x ∈ c, x ∈ c' := by
  have hm := List.mem_of_getElem? a
  have one : ∀ x ∈ c, ∃ c', cnf'[k]? = some c' ∧ x ∈ c' := by
    intro x hx
    obtain ⟨x1, x2⟩ := (h.ord c hm).var x hx
    have : ∃ m, Shown c x.natAbs m ∧ ∀ d : Clause, Shown d x.natAbs m → x ∈ d := by
      by_cases p : 0 ≤ x
      · have q : ((x.natAbs : Nat) : Int) = x := by omega
        exact ⟨.pos, by show ((x.natAbs : Nat) : Int) ∈ c; rw [q]; exact hx, fun d hd => by have hd : ((x.natAbs : Nat) : Int) ∈ d := hd; rw [q] at hd; exact hd⟩
      · have q : -((x.natAbs : Nat) : Int) = x := by omega
        exact ⟨.neg, by show -((x.natAbs : Nat) : Int) ∈ c; rw [q]; exact hx, fun d hd => by have hd : -((x.natAbs : Nat) : Int) ∈ d := hd; rw [q] at hd; exact hd⟩
    obtain ⟨m, s, hd⟩ := this
    have g : (Line.cell (k + 1) x.natAbs m).text ∈ ls'.map Line.text := by
      rw [← e]
      exact List.mem_map_of_mem ((hc _ _ _).2 ⟨k, c, a, rfl, x1, x2, s⟩)
    obtain ⟨l, hl, el⟩ := List.mem_map.1 g
    rw [cell_text x1 el] at hl
    obtain ⟨k', c', a', b', _, _, s'⟩ := (hc' _ _ _).1 hl
    have : k' = k := by omega
    rw [this] at a'
    exact ⟨c', a', hd c' s'⟩
  obtain ⟨z, hz⟩ := List.exists_mem_of_ne_nil c (h.ne c hm)
  obtain ⟨c', a', _⟩ := one z hz
  refine ⟨c', a', fun x hx => ?_⟩
  obtain ⟨d, b, hd⟩ := one x hx
  rw [a'] at b
  cases b
  exact hd

/-- **C108.** The text of the picture determines the formula: pictures of formulas that are not equal are not equal, whatever the maps of clauses are. -/
theorem _root_.TdZdd.C108_formula (nv' : Nat) (cnf cnf' : List Clause) (h : Good nv cnf) (h' : Good nv' cnf') (cm cm' : CMap) (title title' : List Char) (ht : '\n' ∉ title) (ht' : '\n' ∉ title')
    (e : (dump nv cnf cm title).map text = (dump nv' cnf' cm' title').map text) : cnf = cnf' := by
  obtain ⟨ls, e1, hc, _, hh⟩ := dump_spec h cm title
  obtain ⟨ls', e2, hc', _, hh'⟩ := dump_spec h' cm' title'
  rw [e1, e2] at e
  have e3 := text_cut (ls := ls) (ls' := ls')
    (fun l hl => text_line fun t q => by rw [q] at hl; rw [hh t hl]; exact ht)
    (fun l hl => text_line fun t q => by rw [q] at hl; rw [hh' t hl]; exact ht') (Option.some.inj e)
  apply List.ext_getElem?
  intro k
  cases g : cnf[k]? with
  | none =>
    cases g' : cnf'[k]? with
    | none => rfl
    | some c' =>
      obtain ⟨c, q, _⟩ := lit_kept h' hc' hc e3.symm g'
      rw [g] at q
      cases q
  | some c =>
    obtain ⟨c', g', s⟩ := lit_kept h hc hc' e3 g
    obtain ⟨d, q, s'⟩ := lit_kept h' hc' hc e3.symm g'
    rw [g] at q
    cases q
    rw [g', sorted_ext (h.ord c (List.mem_of_getElem? g)).incr (h'.ord c' (List.mem_of_getElem? g')).incr fun x => ⟨s x, s' x⟩]

/-- **C108.** The edges between clauses. With the map of clauses that `prepare` makes, an edge from clause `j` to clause `k` at variable `v` joins two clauses with the same literals of the variables from `v` on. Two clauses that have a literal of such a variable, and the same ones, have edges to the same clause there; the clause without an edge is that clause. -/
theorem _root_.TdZdd.C108_links (cnf : List Clause) (h : Good nv cnf) (hne : cnf ≠ []) (cp : List (Nat × List Int)) (hp : cp.Perm (revClauses 1 cnf)) (hs : cp.Pairwise fun a b => relaxLt b.2 a.2 = false) (title : List Char) :
    ∃ cm ls, clauseMap nv cp = some cm ∧ dump nv cnf cm title = some ls ∧
    (∀ j v k, Line.link j v k ∈ ls → j ≠ k ∧ 1 ≤ j ∧ 1 ≤ k ∧ 1 ≤ v ∧ v ≤ nv ∧ ∃ c d, cnf[j - 1]? = some c ∧ cnf[k - 1]? = some d ∧ ∀ x, v ≤ x.natAbs → x.natAbs ≤ nv → (x ∈ c ↔ x ∈ d)) ∧
    ∀ j k c d v, cnf[j]? = some c → cnf[k]? = some d → 1 ≤ v → v ≤ nv → (∃ x ∈ c, v ≤ x.natAbs) → (∀ x, v ≤ x.natAbs → (x ∈ c ↔ x ∈ d)) →
      ∃ t, (Line.link (j + 1) v t ∈ ls ∨ t = j + 1) ∧ (Line.link (k + 1) v t ∈ ls ∨ t = k + 1) ∧ (∀ t', Line.link (j + 1) v t' ∈ ls → t' = t) ∧ ∀ t', Line.link (k + 1) v t' ∈ ls → t' = t := by
  obtain ⟨cm, e, ok, can⟩ := clauseMap_ok h hne hp hs
  obtain ⟨ls, e1, _, hl, _⟩ := dump_spec h cm title
  refine ⟨cm, ls, e, e1, ?_, ?_⟩
  · intro j v k g
    obtain ⟨j1, j2, v1, v2, ek, kj⟩ := (hl j v k).1 g
    have hk : j - 1 < cnf.length := by omega
    obtain ⟨d, ⟨k', a, b⟩, s⟩ := ok (nv - v + 1) (by omega) j cnf[j - 1] ⟨j - 1, List.getElem?_eq_getElem hk, by omega⟩
    have : k - 1 = k' := by omega
    refine ⟨fun q => kj q.symm, j1, by omega, v1, v2, cnf[j - 1], d, List.getElem?_eq_getElem hk, by rw [this]; exact a, ?_⟩
    intro x x1 x2
    exact s x (by unfold lev; omega)
  · intro j k c d v a b v1 v2 hx s
    have eq := can (nv - v + 1) (by omega) (j + 1) c (k + 1) d ⟨j, a, rfl⟩ ⟨k, b, rfl⟩ (fun x hx => ?_) ?_
    · have hj : j < cnf.length := (List.getElem?_eq_some_iff.1 a).1
      have hk : k < cnf.length := (List.getElem?_eq_some_iff.1 b).1
      refine ⟨cm (nv - v + 1) (j + 1), ?_, ?_, ?_, ?_⟩
      · by_cases q : cm (nv - v + 1) (j + 1) = j + 1
        · exact Or.inr q
        · exact Or.inl ((hl _ _ _).2 ⟨by omega, by omega, v1, v2, rfl, q⟩)
      · by_cases q : cm (nv - v + 1) (j + 1) = k + 1
        · exact Or.inr q
        · exact Or.inl ((hl _ _ _).2 ⟨by omega, by omega, v1, v2, eq, q⟩)
      · intro t ht
        exact ((hl _ _ _).1 ht).2.2.2.2.1
      · intro t ht
        rw [eq]
        exact ((hl _ _ _).1 ht).2.2.2.2.1
    · have hi := (h.ord c (List.mem_of_getElem? a)).var
      have hi' := (h.ord d (List.mem_of_getElem? b)).var
      unfold lev at hx
      by_cases g : v ≤ x.natAbs
      · exact s x g
      · omega
    · obtain ⟨x, hx, g⟩ := hx
      exact ⟨x, hx, by unfold lev; omega⟩

theorem clauses_empty : ∀ {cnf : List Clause} {j : Nat}, [] ∈ cnf → clauses nv j cnf = none := by
  intro cnf
  induction cnf with
  | nil => intro j h; exact nomatch h
  | cons c cs ih =>
    intro j h
    show (clause nv j c).bind (fun r => (clauses nv (j + 1) cs).bind fun s => some (r ++ s)) = none
    cases List.mem_cons.1 h with
    | inl h => rw [← h]; rfl
    | inr h =>
      rw [ih h]
      cases clause nv j c <;> rfl

/-- **C108.** A clause without literals would be undefined behaviour (`c[0]`); `readDimacs` stores none. -/
theorem _root_.TdZdd.C108_empty (cnf : List Clause) (h : [] ∈ cnf) (cm : CMap) (title : List Char) : dump nv cnf cm title = none := by
  unfold dump
  rw [clauses_empty h]
  rfl

/-! ## Examples -/

/-- three clauses over four variables; the first and the second end with the same literals -/
def sample : List Clause := [[1, -3, 4], [2, -3, 4], [-2, 3]]

theorem sample_good : Good 4 sample := by
  refine ⟨by decide, fun c hc => ⟨?_, ?_⟩⟩
  · revert c; decide
  · revert c; decide

/-- the clauses in the order of the second sort -/
def sampleRows : List (Nat × List Int) := [(2, [4, -3, 2, 0]), (1, [4, -3, 1, 0]), (3, [3, -2, 0])]

example : sampleRows.Perm (revClauses 1 sample) ∧ sampleRows.Pairwise fun a b => relaxLt b.2 a.2 = false := by decide

example : ∃ cm ls, clauseMap 4 sampleRows = some cm ∧ dump 4 sample cm "CNF".toList = some ls ∧ Line.cell 1 2 .point ∈ ls ∧ Line.cell 3 4 .blank ∈ ls ∧ Line.link 1 3 2 ∈ ls := by
  refine ⟨_, _, rfl, rfl, by decide, by decide, by decide⟩

/-- the picture of a formula with a clause and two variables -/
example : (dump 2 [[-2]] (fun _ j => j) "CNF".toList).map (fun ls => String.ofList (text ls)) = some
    "digraph \"CNF\" {\n  0 [shape=none,label=\"\"];\n  1 [label=\"2\",shape=none];\n  2 [label=\"1\",shape=none];\n  0 -> 1 -> 2 [style=invis];\n  c1_0 [label=\"1\",shape=none];\n  c1_1 [label=\"\",shape=none];\n  c1_2 [label=\"-2\",style=filled,fillcolor=white,fontcolor=black];\n  c1_0 -> c1_1 -> c1_2 [style=invis];\n  {rank=same; 0; c1_0};\n  {rank=same; 1; c1_1};\n  {rank=same; 2; c1_2};\n}\n" := by
  decide +kernel

/-- the lines of two clauses with paths and an edge of a map -/
example : (dump 3 [[1, -3], [1]] (fun i j => if i = 3 ∧ j = 2 then 1 else j) "t".toList).map (fun ls => String.ofList (text (ls.drop 6))) = some
    "  c1_0 [label=\"1\",shape=none];\n  c1_1 [label=\"+1\",style=filled,fillcolor=gray,fontcolor=black];\n  c1_2 [label=\"\",shape=point];\n  c1_3 [label=\"-3\",style=filled,fillcolor=white,fontcolor=black];\n  c1_0 -> c1_1 [style=invis];\n  c1_1 -> c1_2 -> c1_3 [style=bold,dir=none];\n  c2_0 [label=\"2\",shape=none];\n  c2_1 [label=\"+1\",style=filled,fillcolor=gray,fontcolor=black];\n  c2_2 [label=\"\",shape=none];\n  c2_3 [label=\"\",shape=none];\n  c2_0 -> c2_1 [style=invis];\n  c2_1 -> c2_2 -> c2_3 [style=invis];\n  {rank=same; 0; c1_0; c2_0};\n  {rank=same; 1; c1_1; c2_1};\n  {rank=same; 2; c1_2; c2_2};\n  {rank=same; 3; c1_3; c2_3};\n  c2_1 -> c1_1 [color=navy];\n}\n" := by
  decide +kernel

end CnfPic

end TdZdd
