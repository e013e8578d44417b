/-! Generic facts about loops written as monadic folds. -/

namespace TdZdd

/-- Loop rule: an invariant indexed by the processed prefix. -/
theorem foldlM_inv {α β : Type} {f : β → α → Option β} (P : List α → β → Prop) (l : List α)
    (b : β) (h0 : P [] b)
    (hs : ∀ pre x post b, l = pre ++ x :: post → P pre b →
      ∃ b', f b x = some b' ∧ P (pre ++ [x]) b') :
    ∃ b', l.foldlM f b = some b' ∧ P l b' := by
  suffices ∀ (post pre : List α) (b : β), l = pre ++ post → P pre b →
      ∃ b', post.foldlM f b = some b' ∧ P l b' by
    exact this l [] b rfl h0
  intro post
  induction post with
  | nil => intro pre b hl hp; exact ⟨b, rfl, by simpa [hl] using hp⟩
  | cons x post ih =>
    intro pre b hl hp
    obtain ⟨b', h1, h2⟩ := hs pre x post b hl hp
    obtain ⟨b'', h3, h4⟩ := ih (pre ++ [x]) b' (by simp [hl]) h2
    refine ⟨b'', ?_, h4⟩
    rw [List.foldlM_cons, h1]
    exact h3

theorem getElem?_append_of_some {α : Type} {l m : List α} {i : Nat} {x : α} (h : l[i]? = some x) :
    (l ++ m)[i]? = some x := by
  have := (List.getElem?_eq_some_iff.1 h).1
  rw [List.getElem?_append_left this]; exact h

theorem getElem?_lt {α : Type} {l : List α} {i : Nat} {x : α} (h : l[i]? = some x) :
    i < l.length := (List.getElem?_eq_some_iff.1 h).1

theorem getElem?_of_lt {α : Type} {l : List α} {i : Nat} (h : i < l.length) :
    ∃ x, l[i]? = some x := ⟨l[i], List.getElem?_eq_getElem h⟩

theorem mem_of_getElem?' {α : Type} {l : List α} {i : Nat} {x : α} (h : l[i]? = some x) : x ∈ l :=
  List.mem_iff_getElem?.2 ⟨i, h⟩

end TdZdd
