import Verif.GraphProofs5

/-!
# Properties of `Graph::update` (C41) and of the frontier windows (C42)

`Gr.Touch D a s`: the name `s` is an endpoint of edge `a` of the list `D`; `Gr.Uses es a v`: the same for vertex numbers. `Graph.Ok` and
`Graph.Named` (`GraphProofs4.lean`) list what holds of the result in terms of numbers and of names.
-/

namespace TdZdd

open Gr

variable {V K : Type} [DecidableEq V] [DecidableEq K]

/-- **C41.** The result of `update()`: `D` is the edge list without repetitions (in either direction) and edge `a` of `G` is the edge `a` of `D` with its endpoints
numbered by `num` and sorted; `num` numbers the endpoints by `1..vMax` one to one in the order in which they are used last (with
the order in the edge for two that are used last by the same edge). The flags, `v0` and the colours are given by `Graph.Ok` and `Graph.Named`.
The hypothesis on `C` says that it is a map. -/
theorem C41_update {E : List (V × V)} {C : List (V × K)} (hC : C.Pairwise fun p q => p.1 ≠ q.1) {G : Graph} (h : gUpdate E C = .ok G) :
    ∃ (D : List (V × V)) (num : V → Nat), D.Sublist E ∧ (D.Pairwise fun e f => e ≠ f ∧ e ≠ (f.2, f.1)) ∧ (∀ e ∈ E, e ∈ D ∨ (e.2, e.1) ∈ D) ∧
      G.Named C D num ∧ G.Ok := by
  rcases update_spec E C hC with ⟨e, _⟩ | ⟨G', e, h1, _, h2, _⟩
  · rw [e] at h; cases h
  · rw [e] at h
    injection h with h
    subst h
    obtain ⟨u1, u2, u3⟩ := unique_spec E
    refine ⟨_, _, u2, u1.imp fun hn => ⟨fun e => hn (.inl e), fun e => hn (.inr e)⟩, fun e he => ?_, h2, h1⟩
    obtain ⟨f, hf, e1 | e1⟩ := u3 e he
    · rw [e1]; exact .inl hf
    · rw [e1]; exact .inr hf

theorem touch_of_mem {E : List (V × V)} {s t : V} (h : (s, t) ∈ E) : (∃ a, Touch (gUnique E) a s) ∧ ∃ a, Touch (gUnique E) a t := by
  obtain ⟨f, hf, e⟩ := (unique_spec E).2.2 _ h
  obtain ⟨a, ha⟩ := List.mem_iff_getElem?.1 hf
  rcases e with e | e
  · subst e; exact ⟨⟨a, _, ha, .inl rfl⟩, ⟨a, _, ha, .inr rfl⟩⟩
  · injection e with e1 e2
    exact ⟨⟨a, _, ha, .inr e1.symm⟩, ⟨a, _, ha, .inl e2.symm⟩⟩

theorem mem_stack_iff {E : List (V × V)} {s : V} : s ∈ gStack (gUnique E) ↔ ∃ e ∈ E, e.1 = s ∨ e.2 = s := by
  rw [mem_stack]
  constructor
  · rintro ⟨a, e, he, hs⟩
    exact ⟨e, (unique_spec E).2.1.mem (List.mem_of_getElem? he), hs⟩
  · rintro ⟨e, he, hs | hs⟩
    · rw [← hs]; exact (touch_of_mem he).1
    · rw [← hs]; exact (touch_of_mem he).2

/-- **C41.** `update()` has no undefined behaviour; it throws exactly when there are more than 65534 vertices, when a coloured name is not a vertex, or when
there are more than 65535 colours. (More than 2^31-1 edges are not modelled.) -/
theorem C41_throws (E : List (V × V)) (C : List (V × K)) (hC : C.Pairwise fun p q => p.1 ≠ q.1) :
    (gUpdate E C = .thrown ∨ ∃ G, gUpdate E C = .ok G) ∧
    (gUpdate E C = .thrown ↔ (∃ vs : List V, vs.Nodup ∧ (∀ s ∈ vs, ∃ e ∈ E, e.1 = s ∨ e.2 = s) ∧ 65535 ≤ vs.length) ∨
      (∃ p ∈ C, ∀ e ∈ E, e.1 ≠ p.1 ∧ e.2 ≠ p.1) ∨ ∃ ks : List K, ks.Nodup ∧ (∀ k ∈ ks, ∃ s, (s, k) ∈ C) ∧ 65535 < ks.length) := by
  have hnot : ∀ s, s ∉ gStack (gUnique E) ↔ ∀ e ∈ E, e.1 ≠ s ∧ e.2 ≠ s := fun s => by
    rw [mem_stack_iff]
    exact ⟨fun h e he => ⟨fun h1 => h ⟨e, he, .inl h1⟩, fun h1 => h ⟨e, he, .inr h1⟩⟩, fun h ⟨e, he, h1⟩ => h1.elim (h e he).1 (h e he).2⟩
  rcases update_spec E C hC with ⟨e, h⟩ | ⟨G, e, h1, h2, h3, h4, ks, h5, h6⟩
  · refine ⟨.inl e, fun _ => ?_, fun _ => e⟩
    rcases h with h | ⟨p, hp, hp'⟩ | ⟨ks, hk, hl⟩
    · exact .inl ⟨_, nodup_stack (gUnique E), fun s hs => mem_stack_iff.1 hs, h⟩
    · exact .inr (.inl ⟨p, hp, (hnot _).1 hp'⟩)
    · exact .inr (.inr ⟨ks, hk.1, fun k hk' => (hk.2 k).1 hk', hl⟩)
  · refine ⟨.inr ⟨G, e⟩, fun ht => (by rw [e] at ht; cases ht), ?_⟩
    rintro (⟨vs, g1, g2, g3⟩ | ⟨p, hp, hp'⟩ | ⟨ks', g1, g2, g3⟩)
    · have := g1.length_le_of_subset (l₂ := gStack (gUnique E)) fun s hs => mem_stack_iff.2 (g2 s hs)
      have := h1.vMax_lt
      omega
    · exact absurd (h4 p hp) ((hnot _).2 hp')
    · have := g1.length_le_of_subset (l₂ := ks) fun k hk => (h5.2 k).2 (g2 k hk)
      have := h1.color_lt
      omega

/-- **C41.** Colours: a vertex has the number 0 exactly when it has no colour, two vertices have the same number exactly when they have the same colour, the
numbers are `1..numColor`, and each is used for the first time after all smaller ones. -/
theorem C41_colors {E : List (V × V)} {C : List (V × K)} (hC : C.Pairwise fun p q => p.1 ≠ q.1) {G : Graph} (h : gUpdate E C = .ok G) :
    ∃ num : V → Nat, (∀ s t, 1 ≤ num s → num s = num t → s = t) ∧ (∀ s, 1 ≤ num s ↔ ∃ e ∈ E, e.1 = s ∨ e.2 = s) ∧
      (∀ s, G.color (num s) = 0 ↔ ∀ k, (s, k) ∉ C) ∧ (∀ s t k l, (s, k) ∈ C → (t, l) ∈ C → (G.color (num s) = G.color (num t) ↔ k = l)) ∧
      (∀ v, G.color v ≤ G.numColor) ∧ (∀ c, 1 ≤ c → c ≤ G.numColor → ∃ s k, (s, k) ∈ C ∧ G.color (num s) = c) ∧
      (∀ v, 1 ≤ v → v ≤ G.vMax → ∀ c, 1 ≤ c → c < G.color v → ∃ u, 1 ≤ u ∧ u < v ∧ G.color u = c) := by
  rcases update_spec E C hC with ⟨e, _⟩ | ⟨G', e, h1, hv, h2, hm, _⟩
  · rw [e] at h; cases h
  rw [e] at h
  injection h with h
  subst h
  have hpos : ∀ s, 1 ≤ gNumber (gStack (gUnique E)) s ↔ ∃ e ∈ E, e.1 = s ∨ e.2 = s := fun s => by
    rw [← mem_stack_iff]
    constructor
    · intro hp
      apply Classical.byContradiction; intro hs
      rw [number_zero.2 hs] at hp; omega
    · intro hs; exact (number_range hs).1
  have hpos' : ∀ s k, (s, k) ∈ C → 1 ≤ gNumber (gStack (gUnique E)) s := fun s k hs => (hpos s).2 (mem_stack_iff.1 (hm _ hs))
  have huniq : ∀ s k k', (s, k) ∈ C → (s, k') ∈ C → k = k' := by
    intro s k k' g1 g2
    obtain ⟨i, hi, hi'⟩ := List.mem_iff_getElem.1 g1
    obtain ⟨j, hj, hj'⟩ := List.mem_iff_getElem.1 g2
    rw [List.pairwise_iff_getElem] at hC
    rcases Nat.lt_trichotomy i j with h | h | h
    · exact absurd (by rw [hi', hj']) (hC i j hi hj h)
    · subst h; rw [hi'] at hj'; injection hj'
    · exact absurd (by rw [hi', hj']) (hC j i hj hi h)
  refine ⟨_, h2.num_inj, hpos, fun s => ⟨fun hz k hk => ?_, h2.uncolored s⟩, fun s t k l hs ht => ?_, h1.color_le, fun c c1 c2 => ?_, h1.color_asc⟩
  · exact (h2.color_iff s s k (hpos' s k hk) (hpos' s k hk) hk).1 hz
  · have := (h2.color_iff s t k (hpos' s k hs) (hpos' t l ht) hs).2
    constructor
    · intro he; exact (huniq t l k ht (this.1 he.symm)).symm
    · intro he; subst he; exact (this.2 ht).symm
  · obtain ⟨v, v1, v2, v3⟩ := h1.color_surj c c1 c2
    obtain ⟨s, hs⟩ := h2.num_surj v v1 v2
    rw [← hs] at v3
    by_cases hex : ∃ k, (s, k) ∈ C
    · obtain ⟨k, hk⟩ := hex
      exact ⟨s, k, hk, v3⟩
    · have := h2.uncolored s fun k hk => hex ⟨k, hk⟩
      omega

/-- **C42.** The window `[v0, v0 + maxFrontierSize())` of an edge has both endpoints and every vertex that has been used and is not finished; it has at most `vMax`
places; `v0` is never less than that of an earlier edge. -/
theorem C42_window {E : List (V × V)} {C : List (V × K)} (hC : C.Pairwise fun p q => p.1 ≠ q.1) {G : Graph} (h : gUpdate E C = .ok G)
    {a : Nat} {e : EdgeInfo} (he : G.info[a]? = some e) :
    (e.v0 ≤ e.v1 ∧ e.v1 ≤ e.v2 ∧ (e.v2 : Int) < e.v0 + G.maxFrontierSize) ∧
    (∀ v b c, b ≤ a → a ≤ c → Uses G.info b v → Uses G.info c v → e.v0 ≤ v ∧ (v : Int) < e.v0 + G.maxFrontierSize) ∧
    (1 ≤ G.maxFrontierSize ∧ G.maxFrontierSize ≤ G.vMax) ∧ ∀ b f, G.info[b]? = some f → a ≤ b → e.v0 ≤ f.v0 := by
  obtain ⟨_, _, _, _, _, _, hG⟩ := C41_update hC h
  have h1 := hG.range a e he
  have h2 := hG.v0_le he
  have h3 := G.mfs_ge he
  exact ⟨⟨h2, h1.2.1, h3⟩, fun v b c hb hc hub huc => hG.window_mem he hb hub hc huc, ⟨by omega, hG.mfs_le⟩, fun b f hf hab => hG.v0_mono he hf hab⟩

/-- **C42.** From one edge to the next the window moves by at most two places, and a vertex that leaves it is an endpoint of the first edge that is used by no
later edge: `v1` leaves first and is final, then `v2`, which is final, too. -/
theorem C42_shift {E : List (V × V)} {C : List (V × K)} (hC : C.Pairwise fun p q => p.1 ≠ q.1) {G : Graph} (h : gUpdate E C = .ok G)
    {a : Nat} {e f : EdgeInfo} (he : G.info[a]? = some e) (hf : G.info[a + 1]? = some f) :
    (f.v0 ≤ e.v0 + 2 ∧ (e.v0 < f.v0 → e.v1 = e.v0 ∧ e.v1final = true) ∧ (e.v0 + 1 < f.v0 → e.v2 = e.v0 + 1 ∧ e.v2final = true)) ∧
    ∀ v, e.v0 ≤ v → v < f.v0 → (e.v1 = v ∨ e.v2 = v) ∧ ∀ b, a < b → ¬ Uses G.info b v := by
  obtain ⟨_, _, _, _, _, _, hG⟩ := C41_update hC h
  exact ⟨hG.shift_le he hf, fun v h1 h2 => hG.leave he hf h1 h2⟩

/-! ### Examples -/

/-- a graph with a repeated edge and two coloured pairs -/
def gEx : List (String × String) := [("s", "a"), ("a", "b"), ("b", "a"), ("s", "b"), ("b", "t"), ("a", "t"), ("t", "c")]

def gExC : List (String × Nat) := [("t", 9), ("s", 7), ("c", 7), ("b", 9)]

example : (match gUpdate gEx gExC with
    | .ok G => G.info.map (fun e => (e.v0, e.v1, e.v2)) == [(1, 1, 3), (1, 2, 3), (1, 1, 2), (2, 2, 4), (3, 3, 4), (4, 4, 5)] &&
        G.info.map (fun e => (e.v1final, e.v2final)) == [(false, false), (false, false), (true, false), (true, false), (true, false), (true, true)] &&
        G.info.map (fun e => (e.v1final2, e.v2final2)) == [(true, false), (false, true), (false, true), (false, false), (false, true), (false, false)] &&
        G.info.map (fun e => (e.allColorsSeen, e.finalEdge)) == [(false, false), (true, false), (true, false), (true, false), (true, false), (true, true)] &&
        G.vMax == 5 && G.numColor == 2 && (List.range 7).map G.color == [0, 1, 2, 0, 2, 1, 0] && G.maxFrontierSize == 3
    | _ => false) = true := by decide +kernel

example : gExC.Pairwise fun p q => p.1 ≠ q.1 := by decide

-- a coloured name that is not a vertex
example : gUpdate gEx [("x", 1)] = .thrown := rfl

-- no edges
example : (match gUpdate ([] : List (String × String)) ([] : List (String × Nat)) with | .ok G => G.info == [] && G.vMax == 0 && G.maxFrontierSize == 0 | _ => false) = true := by
  decide +kernel

end TdZdd
