import Verif.DdPaths
import Verif.Props.DegreeConstraint
import Verif.Props.PathByMap

/-! Paths, cycles and rings meet the degree constraints of `ddpaths -dc`. -/

namespace TdZdd

namespace DdPaths

open Sp

theorem length_one {L : List Nat} (hn : L.Nodup) (h1 : ∃ x, x ∈ L) (h2 : ∀ x y, x ∈ L → y ∈ L → x = y) : L.length = 1 := by
  match L, hn, h1, h2 with
  | [], _, ⟨x, hx⟩, _ => cases hx
  | [_], _, _, _ => rfl
  | x :: y :: _, hn, _, h2 =>
    have := h2 x y (by simp) (by simp)
    simp [this] at hn

theorem length_two {L : List Nat} (hn : L.Nodup) (h1 : ∀ x ∈ L, ∃ y ∈ L, y ≠ x) (h2 : ∀ x y z, x ∈ L → y ∈ L → z ∈ L → x = y ∨ y = z ∨ x = z) : L.length = 0 ∨ L.length = 2 := by
  match L, hn, h1, h2 with
  | [], _, _, _ => exact .inl rfl
  | [x], _, h1, _ =>
    obtain ⟨y, hy, hne⟩ := h1 x (by simp)
    simp at hy
    exact absurd hy hne
  | [_, _], _, _, _ => exact .inr rfl
  | x :: y :: z :: _, hn, _, h2 =>
    rcases h2 x y z (by simp) (by simp) (by simp) with h | h | h <;> simp [h] at hn

theorem joins_of_uses {G : Graph} {b v : Nat} (h : ∃ e, G.info[b]? = some e ∧ (e.v1 = v ∨ e.v2 = v)) : ∃ y, Joins G b v y := by
  obtain ⟨e, he, h⟩ := h
  rcases h with rfl | rfl
  · exact ⟨e.v2, e, he, .inl ⟨rfl, rfl⟩⟩
  · exact ⟨e.v1, e, he, .inr ⟨rfl, rfl⟩⟩

/-- the edges of `a` at `v` -/
def edgesAt (G : Graph) (a : Asg 2) (v : Nat) : List Nat := (List.range G.info.length).filter fun i => a (G.info.length - i) == 1 && G.usesB i v

theorem edgesAt_nodup (G : Graph) (a : Asg 2) (v : Nat) : (edgesAt G a v).Nodup := List.Pairwise.filter _ List.nodup_range

theorem mem_edgesAt {G : Graph} {a : Asg 2} {v b : Nat} : b ∈ edgesAt G a v ↔ b < G.info.length ∧ a (G.info.length - b) = 1 ∧ ∃ y, Joins G b v y := by
  unfold edgesAt
  rw [List.mem_filter, List.mem_range, Bool.and_eq_true, beq_iff_eq, C40_usesB]
  refine and_congr_right fun _ => and_congr_right fun _ => ⟨joins_of_uses, ?_⟩
  rintro ⟨y, e, he, h | h⟩
  · exact ⟨e, he, .inl h.1⟩
  · exact ⟨e, he, .inr h.2⟩

/-- the degrees of the vertices in a set of paths or a cycle -/
theorem degree_of {G : Graph} {a : Asg 2} (hH : Hyp G) (hd : DegOk G (adjA G a G.info.length)) (v : Nat) :
    (G.color v = 0 → edgeDegree G a v = 0 ∨ edgeDegree G a v = 2) ∧ (G.color v ≠ 0 → edgeDegree G a v = 1) := by
  have hadj : ∀ {b y}, b ∈ edgesAt G a v → Joins G b v y → adjA G a G.info.length v y := fun hb hj => ⟨_, (mem_edgesAt.1 hb).1, (mem_edgesAt.1 hb).2.1, hj⟩
  refine ⟨fun hc => ?_, fun hc => ?_⟩
  · refine length_two (edgesAt_nodup G a v) (fun b hb => ?_) fun x y z hx hy hz => ?_
    · obtain ⟨y, hy⟩ := (mem_edgesAt.1 hb).2.2
      obtain ⟨y', hne, c, c1, c2, c3⟩ := hd.d0 v y (hadj hb hy) hc
      refine ⟨c, mem_edgesAt.2 ⟨c1, c2, y', c3⟩, ?_⟩
      rintro rfl
      exact hne (Joins.other hH c3 hy)
    · obtain ⟨x', jx⟩ := (mem_edgesAt.1 hx).2.2
      obtain ⟨y', jy⟩ := (mem_edgesAt.1 hy).2.2
      obtain ⟨z', jz⟩ := (mem_edgesAt.1 hz).2.2
      rcases hd.d2 v x' y' z' (hadj hx jx) (hadj hy jy) (hadj hz jz) with rfl | rfl | rfl
      · exact .inl (jx.index hH jy)
      · exact .inr (.inl (jy.index hH jz))
      · exact .inr (.inr (jx.index hH jz))
  · refine length_one (edgesAt_nodup G a v) ?_ fun x y hx hy => ?_
    · obtain ⟨y, c, c1, c2, c3⟩ := hd.d1 v hc
      exact ⟨c, mem_edgesAt.2 ⟨c1, c2, y, c3⟩⟩
    · obtain ⟨x', jx⟩ := (mem_edgesAt.1 hx).2.2
      obtain ⟨y', jy⟩ := (mem_edgesAt.1 hy).2.2
      cases hd.d1u v x' y' hc (hadj hx jx) (hadj hy jy)
      exact jx.index hH jy

/-- a vertex has at most as many edges as there are vertices -/
theorem degree_le {G : Graph} (hH : Hyp G) (a : Asg 2) (v : Nat) : edgeDegree G a v ≤ G.vMax := by
  have key : ∀ L : List Nat, L.Nodup → (∀ b ∈ L, ∃ y, Joins G b v y) → ∃ M : List Nat, M.length = L.length ∧ M.Nodup ∧ ∀ y ∈ M, ∃ b ∈ L, Joins G b v y := by
    intro L
    induction L with
    | nil => intro _ _; exact ⟨[], rfl, List.nodup_nil, fun y hy => nomatch hy⟩
    | cons b L ih =>
      intro hn hj
      rw [List.nodup_cons] at hn
      obtain ⟨M, h1, h2, h3⟩ := ih hn.2 fun c hc => hj c (List.mem_cons_of_mem _ hc)
      obtain ⟨y, hy⟩ := hj b List.mem_cons_self
      refine ⟨y :: M, by simp [h1], List.nodup_cons.2 ⟨fun hm => ?_, h2⟩, fun z hz => ?_⟩
      · obtain ⟨c, hc, hcy⟩ := h3 y hm
        rw [hy.index hH hcy] at hn
        exact hn.1 hc
      · rcases List.mem_cons.1 hz with rfl | hz
        · exact ⟨b, List.mem_cons_self, hy⟩
        · obtain ⟨c, hc, h⟩ := h3 z hz
          exact ⟨c, List.mem_cons_of_mem _ hc, h⟩
  obtain ⟨M, h1, h2, h3⟩ := key (edgesAt G a v) (edgesAt_nodup G a v) fun b hb => (mem_edgesAt.1 hb).2.2
  show (edgesAt G a v).length ≤ _
  rw [← h1]
  have hs : M.length ≤ ((List.range G.vMax).map (· + 1)).length := h2.length_le_of_subset fun y hy => by
    obtain ⟨b, _, hj⟩ := h3 y hy
    have hy : 1 ≤ y ∧ y ≤ G.vMax := by
      obtain ⟨e, he, h⟩ := hj
      have := hH.ok.range b e he
      omega
    rw [List.mem_map]
    exact ⟨y - 1, List.mem_range.2 (by omega), by omega⟩
  simpa using hs

end DdPaths

end TdZdd
