import Verif.GraphProofs4

/-! Proofs about `Graph::update` (5): frontier windows. -/

namespace TdZdd

open Gr

namespace Graph

theorem mfs_aux (es : List EdgeInfo) (m : Int) : m ≤ es.foldl (fun n e => if n < (e.v2 : Int) - e.v0 + 1 then (e.v2 : Int) - e.v0 + 1 else n) m ∧
    ∀ e ∈ es, (e.v2 : Int) - e.v0 + 1 ≤ es.foldl (fun n e => if n < (e.v2 : Int) - e.v0 + 1 then (e.v2 : Int) - e.v0 + 1 else n) m := by
  induction es generalizing m with
  | nil => exact ⟨Int.le_refl _, fun e h => (nomatch h)⟩
  | cons f es ih =>
    rw [List.foldl_cons]
    obtain ⟨h1, h2⟩ := ih (if m < (f.v2 : Int) - f.v0 + 1 then (f.v2 : Int) - f.v0 + 1 else m)
    have h3 : m ≤ (if m < (f.v2 : Int) - f.v0 + 1 then (f.v2 : Int) - f.v0 + 1 else m) ∧ (f.v2 : Int) - f.v0 + 1 ≤ (if m < (f.v2 : Int) - f.v0 + 1 then (f.v2 : Int) - f.v0 + 1 else m) := by split <;> omega
    refine ⟨by omega, fun e he => ?_⟩
    rcases List.mem_cons.1 he with rfl | he
    · omega
    · exact h2 e he

theorem mfs_nonneg (G : Graph) : 0 ≤ G.maxFrontierSize := (mfs_aux G.info 0).1

theorem mfs_ge (G : Graph) {a : Nat} {e : EdgeInfo} (h : G.info[a]? = some e) : (e.v2 : Int) < e.v0 + G.maxFrontierSize := by
  have := (mfs_aux G.info 0).2 e (List.mem_of_getElem? h)
  unfold maxFrontierSize; omega

theorem mfs_le_aux (es : List EdgeInfo) (m k : Int) (hm : m ≤ k) (h : ∀ e ∈ es, (e.v2 : Int) - e.v0 + 1 ≤ k) :
    es.foldl (fun n e => if n < (e.v2 : Int) - e.v0 + 1 then (e.v2 : Int) - e.v0 + 1 else n) m ≤ k := by
  induction es generalizing m with
  | nil => exact hm
  | cons f es ih =>
    rw [List.foldl_cons]
    have := h f (List.mem_cons_self ..)
    exact ih _ (by split <;> omega) fun e he => h e (List.mem_cons_of_mem _ he)

variable {G : Graph}

theorem Ok.mfs_le (h : G.Ok) : G.maxFrontierSize ≤ G.vMax := by
  apply mfs_le_aux _ _ _ (by omega)
  intro e he
  obtain ⟨a, ha⟩ := List.mem_iff_getElem?.1 he
  have h1 := h.range a e ha
  have h2 := h.window a e ha
  omega

theorem Ok.v0_le_of_uses (h : G.Ok) {a : Nat} {e : EdgeInfo} (he : G.info[a]? = some e) {v b : Nat} (hb : a ≤ b) (hu : Uses G.info b v) : e.v0 ≤ v := by
  rcases Nat.lt_or_ge v e.v0 with hlt | hge
  · obtain ⟨f, hf, hv⟩ := hu
    have := h.range b f hf
    exact absurd ⟨f, hf, hv⟩ ((h.window a e he).2.2.2 v (by omega) hlt b hb)
  · exact hge

theorem Ok.v0_le (h : G.Ok) {a : Nat} {e : EdgeInfo} (he : G.info[a]? = some e) : e.v0 ≤ e.v1 :=
  h.v0_le_of_uses he (Nat.le_refl _) ⟨e, he, .inl rfl⟩

theorem Ok.v0_mono (h : G.Ok) {a b : Nat} {e f : EdgeInfo} (he : G.info[a]? = some e) (hf : G.info[b]? = some f) (hab : a ≤ b) : e.v0 ≤ f.v0 := by
  obtain ⟨_, _, ⟨c, hc, hu⟩, _⟩ := h.window b f hf
  exact h.v0_le_of_uses he (by omega) hu

theorem Ok.window_mem (h : G.Ok) {a : Nat} {e : EdgeInfo} (he : G.info[a]? = some e) {v b c : Nat} (hb : b ≤ a) (hub : Uses G.info b v) (hc : a ≤ c) (huc : Uses G.info c v) :
    e.v0 ≤ v ∧ (v : Int) < e.v0 + G.maxFrontierSize := by
  refine ⟨h.v0_le_of_uses he hc huc, ?_⟩
  obtain ⟨f, hf, hv⟩ := hub
  have h1 := h.range b f hf
  have h2 := G.mfs_ge hf
  have h3 := h.v0_mono hf he hb
  omega

/-- vertices that leave the window are endpoints of the edge, used for the last time -/
theorem Ok.leave (h : G.Ok) {a : Nat} {e f : EdgeInfo} (he : G.info[a]? = some e) (hf : G.info[a + 1]? = some f) {v : Nat} (h1 : e.v0 ≤ v) (h2 : v < f.v0) :
    (e.v1 = v ∨ e.v2 = v) ∧ ∀ b, a < b → ¬ Uses G.info b v := by
  have hw := h.window a e he
  have hw' := h.window (a + 1) f hf
  have hno := hw'.2.2.2 v (by omega) h2
  obtain ⟨b, hb, hu⟩ := hw.2.2.1
  obtain ⟨c, hc, hu'⟩ := h.order b e.v0 v hw.1 h1 (by omega) hu
  have : c = a := by
    rcases Nat.lt_or_ge a c with hlt | hge
    · exact absurd hu' (hno c hlt)
    · omega
  subst this
  exact ⟨(uses_get he v).1 hu', fun b hb => hno b hb⟩

theorem Ok.shift_le (h : G.Ok) {a : Nat} {e f : EdgeInfo} (he : G.info[a]? = some e) (hf : G.info[a + 1]? = some f) : f.v0 ≤ e.v0 + 2 ∧
    (e.v0 < f.v0 → e.v1 = e.v0 ∧ e.v1final = true) ∧ (e.v0 + 1 < f.v0 → e.v2 = e.v0 + 1 ∧ e.v2final = true) := by
  have hr := h.range a e he
  have hv := h.v0_le he
  refine ⟨?_, fun hlt => ?_, fun hlt => ?_⟩
  · rcases Nat.lt_or_ge (e.v0 + 2) f.v0 with hlt | hge
    · have h0 := (h.leave he hf (v := e.v0) (Nat.le_refl _) (by omega)).1
      have h1 := (h.leave he hf (v := e.v0 + 1) (by omega) (by omega)).1
      have h2 := (h.leave he hf (v := e.v0 + 2) (by omega) (by omega)).1
      omega
    · exact hge
  · obtain ⟨h0, h1⟩ := h.leave he hf (v := e.v0) (Nat.le_refl _) hlt
    have : e.v1 = e.v0 := by omega
    exact ⟨this, (h.final1 a e he).2 (by rw [this]; exact h1)⟩
  · obtain ⟨h0, _⟩ := h.leave he hf (v := e.v0) (Nat.le_refl _) (by omega)
    obtain ⟨h1, h2⟩ := h.leave he hf (v := e.v0 + 1) (by omega) hlt
    have : e.v2 = e.v0 + 1 := by omega
    exact ⟨this, (h.final2 a e he).2 (by rw [this]; exact h2)⟩

end Graph
end TdZdd
