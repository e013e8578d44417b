import Verif.GraphillionProofs2
import Verif.RunDec

/-!
# Properties of `GraphillionZdd` (C58)

The format of the files and the family of sets that a file describes are defined in `GraphillionSpec.lean`.
-/

namespace TdZdd

open Gz

/-- the numbers of a node are not too large: the table may have up to 2^63 bytes, and the index is an `int` -/
structure GzLimits (x : Gz.Line) : Prop where
  id : x.id < 2 ^ 57
  index1 : -2147483648 ≤ x.index
  index2 : x.index ≤ 2147483647

namespace Gz

theorem small (hD : Diagram ns) (hl : ∀ x ∈ ns, GzLimits x) : ∀ x ∈ ns, Small x := by
  intro x hx
  have h := hl x hx
  have key : ∀ c : Ref, (∀ i, c = .node i → ∃ y ∈ ns, y.id = i) → 48 * (code c + 1) < 2 ^ 63 := by
    intro c hc
    cases c with
    | bot => decide
    | top => decide
    | node i =>
      obtain ⟨y, hy, rfl⟩ := hc i rfl
      have := (hl y hy).id
      show 48 * (y.id + 2 + 1) < 2 ^ 63
      omega
  have := h.id
  refine ⟨by omega, key _ fun i hi => ?_, key _ fun i hi => ?_, h.index1, h.index2⟩
  · obtain ⟨y, hy, e, _⟩ := hD.child x hx i (.inl hi)
    exact ⟨y, hy, e⟩
  · obtain ⟨y, hy, e, _⟩ := hD.child x hx i (.inr hi)
    exact ⟨y, hy, e⟩

end Gz

/-- **C58.** Reading the text of a diagram gives a lawful specification for the family of the first node with the least index. The variable with index `i` has the level `mx - i + 1`, where `mx` is the largest index. -/
theorem C58_first {text : List Char} {pre post : List Gz.Line} {r : Gz.Line} (hd : Dump text (pre ++ r :: post)) (hD : Diagram (pre ++ r :: post)) (hl : ∀ x ∈ pre ++ r :: post, GzLimits x)
    (h1 : ∀ x ∈ pre, r.index < x.index) (h2 : ∀ x ∈ post, r.index ≤ x.index) {mx : Int} (hm : ∀ x ∈ pre ++ r :: post, x.index ≤ mx) (hm' : ∃ x ∈ pre ++ r :: post, x.index = mx)
    (hr : r.index < 2147483647) (hlev : mx - r.index + 1 ≤ 2147483647) :
    ∃ g, gzParse text = .ok g ∧ LawfulC (graphillion g) ∧ (graphillion g).root.1 = mx - r.index + 1 ∧
      ∀ (n : Nat) (a : Asg 2), mx - r.index + 1 ≤ n →
        (ZddMem (graphillion g) n a ↔ ∃ s, Gz.Mem (pre ++ r :: post) (.node r.id) s ∧ ∀ j, 1 ≤ j → j ≤ n → (a j = 1 ↔ mx - j + 1 ∈ s)) := by
  have hs := small hD hl
  obtain ⟨g, e, hH⟩ := addAll_holds hs hD.ids h1 h2 hr
  have hgm : g.maxIndex = mx := by
    obtain ⟨x, hx, ex⟩ := hH.maxEq
    obtain ⟨y, hy, ey⟩ := hm'
    have := hm x hx
    have := hH.max y hy
    omega
  have hmin : ∀ x ∈ pre ++ r :: post, r.index ≤ x.index := by
    intro x hx
    rcases List.mem_append.1 hx with hx | hx
    · have := h1 x hx; omega
    · rcases List.mem_cons.1 hx with rfl | hx
      · omega
      · exact h2 x hx
  have hi : g.maxIndex - r.index + 1 ≤ 2147483647 := by omega
  have hroot : gzLevel g g.root = mx - r.index + 1 := by rw [hH.root, level_node hH hH.mem hi, hgm]
  refine ⟨g, by rw [parse_dump hd fun x hx => (hs x hx).fits, e], lawfulC_of_eq (desc hD hH hi hmin) fun n s t => by simp [graphillion], hroot, fun n a hn => ?_⟩
  have hre : Reach (graphillion g) (gzLevel g (code (.node r.id))) (code (.node r.id)) := by
    show Reach (graphillion g) (gzLevel g (r.id + 2)) (r.id + 2)
    rw [← hH.root]
    exact Reach.root
  have := sem hD hH hi hmin (a := a) n n (.node r.id) (fun i e => ⟨r, hH.mem, by injection e, by omega, by omega⟩) hre
  unfold ZddMem
  show ZddMemAt (graphillion g) n (gzLevel g g.root) g.root a ↔ _
  rw [hH.root]
  rw [hgm] at this
  exact this

/-- **C58.** For a diagram with a root, that is, if every node but `r` is a child of some node: reading its text, with the nodes in any order, gives a lawful specification for the family of `r`. -/
theorem C58_family {text : List Char} {ns : List Gz.Line} (hd : Dump text ns) (hD : Diagram ns) (hl : ∀ x ∈ ns, GzLimits x) {r : Gz.Line} (hr : r ∈ ns)
    (hroot : ∀ x ∈ ns, x ≠ r → ∃ y ∈ ns, y.lo = .node x.id ∨ y.hi = .node x.id) {mx : Int} (hm : ∀ x ∈ ns, x.index ≤ mx) (hm' : ∃ x ∈ ns, x.index = mx) (hr' : r.index < 2147483647) (hlev : mx - r.index + 1 ≤ 2147483647) :
    ∃ g, gzParse text = .ok g ∧ LawfulC (graphillion g) ∧ (graphillion g).root.1 = mx - r.index + 1 ∧
      ∀ (n : Nat) (a : Asg 2), mx - r.index + 1 ≤ n → (ZddMem (graphillion g) n a ↔ ∃ s, Gz.Mem ns (.node r.id) s ∧ ∀ j, 1 ≤ j → j ≤ n → (a j = 1 ↔ mx - j + 1 ∈ s)) := by
  have key : ∀ (k : Nat) (x : Gz.Line), x ∈ ns → x ≠ r → x.index + 2147483648 ≤ k → r.index < x.index := by
    intro k
    induction k with
    | zero =>
      intro x hx hne hk
      obtain ⟨y, hy, h⟩ := hroot x hx hne
      obtain ⟨z, hz, e, hlt⟩ := hD.child y hy x.id h
      have := inj hD hz hx e
      subst this
      have := (hl y hy).index1
      omega
    | succ k ih =>
      intro x hx hne hk
      obtain ⟨y, hy, h⟩ := hroot x hx hne
      obtain ⟨z, hz, e, hlt⟩ := hD.child y hy x.id h
      have := inj hD hz hx e
      subst this
      by_cases hyr : y = r
      · subst hyr; exact hlt
      · have := ih y hy hyr (by omega)
        omega
  have hmin : ∀ x ∈ ns, x ≠ r → r.index < x.index := fun x hx hne => key (x.index + 2147483648).toNat x hx hne (by omega)
  obtain ⟨pre, post, rfl⟩ := List.append_of_mem hr
  have hp := hD.ids
  rw [List.pairwise_append, List.pairwise_cons] at hp
  refine C58_first hd hD hl (fun x hx => ?_) (fun x hx => ?_) hm hm' hr' hlev
  · exact hmin x (by simp [hx]) fun h => hp.2.2 x hx r (List.mem_cons_self ..) (by rw [h])
  · exact Int.le_of_lt (hmin x (by simp [hx]) fun h => hp.2.1.1 x hx (by rw [h]))

/-! ### Examples and counterexamples -/

/-- a text with the family {{1}, {2}} -/
def gzText : List Char := "3 2 B T\n4 1 3 T\n.\n".toList

/-- its lines -/
def gzLines : List Gz.Line := [⟨3, 2, .bot, .top⟩, ⟨4, 1, .node 3, .top⟩]

theorem gzText_dump : Dump gzText gzLines := by
  have n1 : ∀ c : Char, '0' ≤ c → c ≤ '9' → Numeral [c] (c.toNat - '0'.toNat) := fun c h1 h2 => .single h1 h2
  have b : Blank [' '] := by unfold Blank; decide
  have e : Blank [] := by unfold Blank; decide
  have d3 : Dump ['.', '\n'] [] := Dump.other (s := []) (r := []) (t := []) (c := '.') e (by unfold Blank; decide) (by decide) (by decide) (.done e)
  have d2 : Dump "4 1 3 T\n.\n".toList [⟨4, 1, .node 3, .top⟩] :=
    Dump.line (s := []) (i := ['4']) (s1 := [' ']) (x := ['1']) (s2 := [' ']) (l := ['3']) (s3 := [' ']) (h := ['T']) (r := []) (y := ⟨4, 1, .node 3, .top⟩)
      e (n1 '4' (by decide) (by decide)) b (by decide) (.pos (n1 '1' (by decide) (by decide))) b (by decide) (.node (n1 '3' (by decide) (by decide))) b (by decide) .top (by decide) (fun c r' h => by cases h) d3
  exact Dump.line (s := []) (i := ['3']) (s1 := [' ']) (x := ['2']) (s2 := [' ']) (l := ['B']) (s3 := [' ']) (h := ['T']) (r := []) (y := ⟨3, 2, .bot, .top⟩)
    e (n1 '3' (by decide) (by decide)) b (by decide) (.pos (n1 '2' (by decide) (by decide))) b (by decide) .bot b (by decide) .top (by decide) (fun c r' h => by cases h) d2

/-- the other hypotheses of `C58_family` -/
theorem gzLines_ok : Diagram gzLines ∧ (∀ x ∈ gzLines, GzLimits x) ∧ (⟨4, 1, .node 3, .top⟩ ∈ gzLines) ∧ (∀ x ∈ gzLines, x ≠ ⟨4, 1, .node 3, .top⟩ → ∃ y ∈ gzLines, y.lo = .node x.id ∨ y.hi = .node x.id) ∧
    (∀ x ∈ gzLines, x.index ≤ 2) ∧ ∃ x ∈ gzLines, x.index = 2 := by
  refine ⟨⟨by decide, ?_⟩, ?_, by decide, by decide, by decide, by decide⟩
  · intro x hx i h
    simp only [gzLines, List.mem_cons, List.not_mem_nil, or_false] at hx
    rcases hx with rfl | rfl
    · simp at h
    · simp at h
      subst h
      exact ⟨⟨3, 2, .bot, .top⟩, by decide, rfl, by decide⟩
  · intro x hx
    simp only [gzLines, List.mem_cons, List.not_mem_nil, or_false] at hx
    rcases hx with rfl | rfl
    · exact ⟨by decide, by decide, by decide⟩
    · exact ⟨by decide, by decide, by decide⟩

-- {1} and {2} are members
example : Gz.Mem gzLines (.node 4) [1] ∧ Gz.Mem gzLines (.node 4) [2] :=
  ⟨Gz.Mem.hi (x := ⟨4, 1, .node 3, .top⟩) (by decide) .top, Gz.Mem.lo (x := ⟨4, 1, .node 3, .top⟩) (by decide) (Gz.Mem.hi (x := ⟨3, 2, .bot, .top⟩) (by decide) .top)⟩

/-- **Files without nodes:** the family {∅}, whose file has the line `T`, is read as the empty family, like the line `B`. -/
theorem C58_terminal : gzParse "T\n.\n".toList = .ok gzNew ∧ gzParse "B\n.\n".toList = .ok gzNew ∧ (∀ n a, ¬ ZddMem (graphillion gzNew) n a) :=
  ⟨by decide +kernel, by decide +kernel, fun _ _ => zddMemAt_zero⟩

/-- **Truncated files:** a line that ends after the identifier at the end of the file makes `read` use a variable without a value. -/
theorem C58_truncated : gzParse "5".toList = .ub := by decide +kernel

/-- **Large identifiers:** the identifier 2^64 - 1 is the terminal `T`. -/
theorem C58_large_id : gzParse "0 1 B 18446744073709551615\n".toList = gzParse "0 1 B T\n".toList := by decide +kernel

/-- **Undefined children:** a child without a line is not detected when the file is read; the specification has illegal levels. -/
theorem C58_dangling : ∃ g, gzParse "0 1 B 7\n".toList = .ok g ∧ ¬ Desc (graphillion g) := by
  refine ⟨⟨List.replicate 2 ⟨0, 0, 0⟩ ++ ⟨1, 0, 9⟩ :: List.replicate 17 ⟨0, 0, 0⟩, 2, 1, 1⟩, by decide +kernel, fun h => ?_⟩
  have := h.child_lt (n := 1) (s := 2) 1 (by decide) .root
  revert this
  decide +kernel

/-- **The largest index:** a diagram whose only index is `INT_MAX` is read as the empty family. -/
theorem C58_int_max : ∃ g, gzParse "0 2147483647 B T\n".toList = .ok g ∧ ∀ n a, ¬ ZddMem (graphillion g) n a := by
  refine ⟨⟨List.replicate 2 ⟨0, 0, 0⟩ ++ ⟨2147483647, 0, 1⟩ :: List.replicate 3 ⟨0, 0, 0⟩, 0, 2147483647, 2147483647⟩, by decide +kernel, fun _ _ => zddMemAt_zero⟩

end TdZdd
