import Verif.Reducer
import Verif.ListLemmas

/-! `makeIndex`: the lower-level index lists a level at the highest level that refers to it. -/

namespace TdZdd

variable {N : Nat}

/-- row `i` has an edge into row `r` -/
def Refs (T : Rows N) (i r : Nat) : Prop := ∃ nd ∈ T i, ∃ b, (nd b).row = r

theorem mem_rowEdges {row : List (Node N)} {f : NodeId} : f ∈ rowEdges row ↔ ∃ nd ∈ row, ∃ b, nd b = f := by
  simp [rowEdges, List.mem_flatMap, List.mem_ofFn]

theorem refs_iff {T : Rows N} {i r : Nat} : Refs T i r ↔ ∃ f ∈ rowEdges (T i), f.row = r := by
  simp only [mem_rowEdges, Refs]
  constructor
  · rintro ⟨nd, h1, b, h2⟩; exact ⟨nd b, ⟨nd, h1, b, rfl⟩, h2⟩
  · rintro ⟨f, ⟨nd, h1, b, h3⟩, h2⟩; exact ⟨nd, h1, b, by rw [h3]; exact h2⟩

theorem idxEdges_spec (n : Nat) : ∀ (l : List NodeId) (a : IdxSt), (∀ f ∈ l, f.row ≤ n) →
    ∃ s, l.foldlM (idxEdge n) a = some s ∧ s.lowest ≤ a.lowest ∧
      (∀ f ∈ l, 0 < f.row → s.lowest ≤ f.row) ∧
      (s.lowest = a.lowest ∨ ∃ f ∈ l, 0 < f.row ∧ s.lowest = f.row) ∧
      (∀ r, s.mark r = true ↔ a.mark r = true ∨ 0 < r ∧ ∃ f ∈ l, f.row = r) ∧
      (∀ r, s.my r = true ↔ a.my r = true ∨ a.mark r = false ∧ 0 < r ∧ ∃ f ∈ l, f.row = r) := by
  intro l
  induction l with
  | nil => intro a _; exact ⟨a, rfl, Nat.le_refl _, by simp, .inl rfl, by simp, by simp⟩
  | cons f l ih =>
    intro a h
    have hf := h f (by simp)
    have hl : ∀ f ∈ l, f.row ≤ n := fun f hf => h f (by simp [hf])
    by_cases h0 : f.row = 0
    · obtain ⟨s, h1, h2, h3, h4, h5, h6⟩ := ih a hl
      refine ⟨s, ?_, h2, ?_, ?_, ?_, ?_⟩
      · rw [List.foldlM_cons, idxEdge, if_pos h0]; exact h1
      · intro g hg hpos
        rcases List.mem_cons.1 hg with rfl | hg
        · omega
        · exact h3 g hg hpos
      · rcases h4 with h4 | ⟨g, hg, h4⟩
        · exact .inl h4
        · exact .inr ⟨g, by simp [hg], h4⟩
      · intro r
        rw [h5]
        constructor
        · rintro (h | ⟨h, g, hg, e⟩)
          · exact .inl h
          · exact .inr ⟨h, g, by simp [hg], e⟩
        · rintro (h | ⟨h, g, hg, e⟩)
          · exact .inl h
          · rcases List.mem_cons.1 hg with rfl | hg
            · omega
            · exact .inr ⟨h, g, hg, e⟩
      · intro r
        rw [h6]
        constructor
        · rintro (h | ⟨hm, h, g, hg, e⟩)
          · exact .inl h
          · exact .inr ⟨hm, h, g, by simp [hg], e⟩
        · rintro (h | ⟨hm, h, g, hg, e⟩)
          · exact .inl h
          · rcases List.mem_cons.1 hg with rfl | hg
            · omega
            · exact .inr ⟨hm, h, g, hg, e⟩
    · -- a non-terminal edge
      have hpos : 0 < f.row := by omega
      have hlow : (if f.row < a.lowest then f.row else a.lowest) ≤ a.lowest ∧
          (if f.row < a.lowest then f.row else a.lowest) ≤ f.row ∧
          ((if f.row < a.lowest then f.row else a.lowest) = a.lowest ∨
           (if f.row < a.lowest then f.row else a.lowest) = f.row) := by
        split <;> omega
      generalize hL : (if f.row < a.lowest then f.row else a.lowest) = L at hlow
      have common : ∀ {a' s : IdxSt}, a'.lowest = L → s.lowest ≤ a'.lowest →
          (∀ f ∈ l, 0 < f.row → s.lowest ≤ f.row) →
          (s.lowest = a'.lowest ∨ ∃ f ∈ l, 0 < f.row ∧ s.lowest = f.row) →
          s.lowest ≤ a.lowest ∧ (∀ g ∈ f :: l, 0 < g.row → s.lowest ≤ g.row) ∧
          (s.lowest = a.lowest ∨ ∃ g ∈ f :: l, 0 < g.row ∧ s.lowest = g.row) := by
        intro a' s e h2 h3 h4
        refine ⟨by omega, ?_, ?_⟩
        · intro g hg hp
          rcases List.mem_cons.1 hg with rfl | hg
          · omega
          · exact h3 g hg hp
        · rcases h4 with h4 | ⟨g, hg, h4⟩
          · rcases hlow.2.2 with h | h
            · exact .inl (by omega)
            · exact .inr ⟨f, by simp, hpos, by omega⟩
          · exact .inr ⟨g, by simp [hg], h4⟩
      by_cases hm : a.mark f.row = true
      · obtain ⟨s, h1, h2, h3, h4, h5, h6⟩ := ih { a with lowest := L } hl
        obtain ⟨c1, c2, c3⟩ := common (a' := { a with lowest := L }) rfl h2 h3 h4
        refine ⟨s, ?_, c1, c2, c3, ?_, ?_⟩
        · rw [List.foldlM_cons, idxEdge, if_neg h0, if_neg (by omega)]
          simp only [hL, hm, if_true]
          exact h1
        · intro r
          rw [h5]
          constructor
          · rintro (h | ⟨h, g, hg, e⟩)
            · exact .inl h
            · exact .inr ⟨h, g, by simp [hg], e⟩
          · rintro (h | ⟨h, g, hg, e⟩)
            · exact .inl h
            · rcases List.mem_cons.1 hg with rfl | hg
              · rw [← e]; exact .inl hm
              · exact .inr ⟨h, g, hg, e⟩
        · intro r
          rw [h6]
          constructor
          · rintro (h | ⟨hm, h, g, hg, e⟩)
            · exact .inl h
            · exact .inr ⟨hm, h, g, by simp [hg], e⟩
          · rintro (h | ⟨hm', h, g, hg, e⟩)
            · exact .inl h
            · rcases List.mem_cons.1 hg with rfl | hg
              · rw [← e, hm] at hm'; cases hm'
              · exact .inr ⟨hm', h, g, hg, e⟩
      · have hm' : a.mark f.row = false := by simpa using hm
        obtain ⟨s, h1, h2, h3, h4, h5, h6⟩ :=
          ih { lowest := L, my := upd a.my f.row true, mark := upd a.mark f.row true } hl
        obtain ⟨c1, c2, c3⟩ := common (a' := ⟨L, upd a.my f.row true,
          upd a.mark f.row true⟩) rfl h2 h3 h4
        refine ⟨s, ?_, c1, c2, c3, ?_, ?_⟩
        · rw [List.foldlM_cons, idxEdge, if_neg h0, if_neg (by omega)]
          simp only [hL, hm']
          exact h1
        · intro r
          rw [h5]
          dsimp only [upd]
          by_cases hr : r = f.row
          · subst hr
            simp only [if_true, true_or, true_iff]
            exact .inr ⟨hpos, f, by simp, rfl⟩
          · rw [if_neg hr]
            constructor
            · rintro (h | ⟨h, g, hg, e⟩)
              · exact .inl h
              · exact .inr ⟨h, g, by simp [hg], e⟩
            · rintro (h | ⟨h, g, hg, e⟩)
              · exact .inl h
              · rcases List.mem_cons.1 hg with rfl | hg
                · exact absurd e.symm hr
                · exact .inr ⟨h, g, hg, e⟩
        · intro r
          rw [h6]
          dsimp only [upd]
          by_cases hr : r = f.row
          · subst hr
            simp only [if_true, true_or, true_iff]
            exact .inr ⟨hm', hpos, f, by simp, rfl⟩
          · rw [if_neg hr, if_neg hr]
            constructor
            · rintro (h | ⟨hm, h, g, hg, e⟩)
              · exact .inl h
              · exact .inr ⟨hm, h, g, by simp [hg], e⟩
            · rintro (h | ⟨hm, h, g, hg, e⟩)
              · exact .inl h
              · rcases List.mem_cons.1 hg with rfl | hg
                · exact absurd e.symm hr
                · exact .inr ⟨hm, h, g, hg, e⟩

/-- edges go down -/
def Down (T : Rows N) (n : Nat) : Prop := ∀ i, 1 ≤ i → i ≤ n → ∀ nd ∈ T i, ∀ b, (nd b).row < i

theorem makeIndexOrd_spec {n : Nat} {T : Rows N} (hd : Down T n) {E : Nat → List NodeId}
    (hE : ∀ i f, f ∈ E i ↔ f ∈ rowEdges (T i)) :
    ∃ hi lo, makeIndexOrd n E = some (hi, lo) ∧
      ∀ i r, r ∈ lo i ↔ 1 ≤ i ∧ i ≤ n ∧ 0 < r ∧ r < i ∧ Refs T i r ∧
        ∀ i', i < i' → i' ≤ n → ¬ Refs T i' r := by
  have hrefs : ∀ {i r : Nat}, Refs T i r ↔ ∃ f ∈ E i, f.row = r := by
    intro i r; rw [refs_iff]; simp only [hE]
  have key : ∀ k, k ≤ n → ∃ a, (((List.range n).reverse.map (· + 1)).take k).foldlM (idxRow n E)
        (fun _ => [], fun _ => [], fun _ => false) = some a ∧
      (∀ r, a.2.2 r = true ↔ 0 < r ∧ ∃ i', n - k < i' ∧ i' ≤ n ∧ Refs T i' r) ∧
      (∀ i r, r ∈ a.2.1 i ↔ n - k < i ∧ i ≤ n ∧ 0 < r ∧ r < i ∧ Refs T i r ∧
        ∀ i', i < i' → i' ≤ n → ¬ Refs T i' r) := by
    intro k
    induction k with
    | zero =>
      intro _
      refine ⟨_, rfl, ?_, ?_⟩
      · intro r
        constructor
        · intro h; cases h
        · rintro ⟨_, i', h1, h2, _⟩; omega
      · intro i r
        constructor
        · intro h; cases h
        · rintro ⟨h1, h2, _⟩; omega
    | succ k ih =>
      intro hk
      obtain ⟨a, h1, h2, h3⟩ := ih (by omega)
      have hlen : k < ((List.range n).reverse.map (· + 1)).length := by simp; omega
      have hel : ((List.range n).reverse.map (· + 1))[k] = n - k := by
        simp [List.getElem_reverse]; omega
      have htake : ((List.range n).reverse.map (· + 1)).take (k + 1) =
          ((List.range n).reverse.map (· + 1)).take k ++ [n - k] := by
        rw [List.take_add_one, List.getElem?_eq_getElem hlen, hel]; rfl
      have hedge : ∀ f ∈ E (n - k), f.row ≤ n := by
        intro f hf
        obtain ⟨nd, h4, b, rfl⟩ := mem_rowEdges.1 ((hE _ _).1 hf)
        have := hd (n - k) (by omega) (by omega) nd h4 b
        omega
      obtain ⟨s, e1, _, e3, _, e5, e6⟩ := idxEdges_spec n (E (n - k))
        { lowest := n - k, my := fun _ => false, mark := a.2.2 } hedge
      refine ⟨(upd a.1 s.lowest (a.1 s.lowest ++ [n - k]),
        upd a.2.1 (n - k) (((List.range (n - k)).filter fun r => s.lowest ≤ r).filter s.my), s.mark), ?_, ?_, ?_⟩
      · rw [htake, List.foldlM_append, h1]
        simp only [List.foldlM_cons, List.foldlM_nil, Option.bind_eq_bind, Option.bind_some, idxRow, e1,
          Option.map_some]
        rfl
      · intro r
        dsimp only
        rw [e5, h2]
        constructor
        · rintro (⟨h0, i', h4, h5, h6⟩ | ⟨h0, f, h4, h5⟩)
          · exact ⟨h0, i', by omega, h5, h6⟩
          · exact ⟨h0, n - k, by omega, by omega, hrefs.2 ⟨f, h4, h5⟩⟩
        · rintro ⟨h0, i', h4, h5, h6⟩
          by_cases he : i' = n - k
          · subst he
            exact .inr ⟨h0, hrefs.1 h6⟩
          · exact .inl ⟨h0, i', by omega, h5, h6⟩
      · intro i r
        dsimp only [upd]
        by_cases hi : i = n - k
        · subst hi
          rw [if_pos rfl]
          simp only [List.mem_filter, List.mem_range, decide_eq_true_eq]
          rw [e6]
          simp only [Bool.false_eq_true, false_or]
          constructor
          · rintro ⟨⟨h4, h5⟩, h6, h7, h8⟩
            refine ⟨by omega, by omega, h7, h4, hrefs.2 h8, ?_⟩
            intro i' hi1 hi2 hc
            have := (h2 r).2 ⟨h7, i', by omega, hi2, hc⟩
            rw [this] at h6; cases h6
          · rintro ⟨h4, h5, h6, h7, h8, h9⟩
            obtain ⟨f, hf, hfr⟩ := hrefs.1 h8
            refine ⟨⟨h7, ?_⟩, ?_, h6, f, hf, hfr⟩
            · rw [← hfr]; exact e3 f hf (by omega)
            · cases hm : a.2.2 r with
              | false => rfl
              | true =>
                obtain ⟨_, i', hi1, hi2, hi3⟩ := (h2 r).1 hm
                exact absurd hi3 (h9 i' (by omega) hi2)
        · rw [if_neg hi, h3]
          constructor
          · rintro ⟨h4, h5⟩; exact ⟨by omega, h5⟩
          · rintro ⟨h4, h5⟩; exact ⟨by omega, h5⟩
  obtain ⟨a, h1, _, h3⟩ := key n (Nat.le_refl _)
  refine ⟨a.1, a.2.1, ?_, ?_⟩
  · unfold makeIndexOrd levels
    rw [List.take_of_length_le (by simp)] at h1
    rw [h1]; rfl
  · intro i r
    rw [h3]
    constructor
    · rintro ⟨h4, h5⟩; exact ⟨by omega, h5⟩
    · rintro ⟨h4, h5⟩; exact ⟨by omega, h5⟩

theorem makeIndex_spec {n : Nat} {T : Rows N} (hd : Down T n) :
    ∃ hi lo, makeIndex n T = some (hi, lo) ∧
      ∀ i r, r ∈ lo i ↔ 1 ≤ i ∧ i ≤ n ∧ 0 < r ∧ r < i ∧ Refs T i r ∧
        ∀ i', i < i' → i' ≤ n → ¬ Refs T i' r :=
  makeIndexOrd_spec hd fun _ _ => Iff.rfl

end TdZdd
