import Verif.BuilderProofs7

/-! The order of the pending specification nodes does not matter for the invariant of the builder. -/

namespace TdZdd

variable {N : Nat} {S : Type} {sp : DdSpec N S} {top lo : Nat} {G : Nat → List S} {st : BSt N S}

theorem Inv.perm {pd pd' : Nat → List (Loc N × Nat × S)} {D : Loc N → Prop}
    (h : Inv sp top G st pd D) (hp : ∀ j, (pd' j).Perm (pd j)) : Inv sp top G st pd' D := by
  refine ⟨h.root_D, ?_, ?_, ?_, h.reach, h.ref, h.share⟩
  · intro l hl
    obtain ⟨w, v, h1, h2, h3⟩ := h.rep hl
    exact ⟨w, v, h1, h2, rep_mono (fun _ _ _ h => h) (fun j g s hm => (hp j).mem_iff.2 hm) h3⟩
  · intro l g s j hm
    exact h.pd_ok ((hp j).mem_iff.1 hm)
  · intro j
    exact ((hp j).map _).nodup_iff.2 (h.nodup j)

theorem Lv.perm (h : Lv sp top G st lo) {pd : Nat → List (Loc N × Nat × S)}
    (hp : ∀ j, (pd j).Perm (st.pend j)) : Lv sp top G { st with pend := pd } lo := by
  have hi : Inv sp top G { st with pend := pd } pd (Dom lo G) :=
    inv_congr (h.inv.perm hp) (fun l _ => by cases l <;> rfl) (fun _ _ _ _ => rfl)
  refine ⟨hi, h.empty, h.len, ?_, h.numRows, ?_, ?_, h.one, ?_⟩
  · exact ⟨h.row0.1, fun b => h.row0.2 b⟩
  · intro j x hx; exact h.pend_lt ((hp j).mem_iff.1 hx)
  · intro x hx; exact h.ones hx
  · intro he
    rcases h.exi he with h1 | ⟨j, l, g, s, hm, h2⟩
    · exact .inl h1
    · exact .inr ⟨j, l, g, s, (hp j).mem_iff.2 hm, h2⟩

theorem SwOK.perm (h : SwOK top G st lo) {pd : Nat → List (Loc N × Nat × S)}
    (hp : ∀ j, (pd j).Perm (st.pend j)) : SwOK top G { st with pend := pd } lo := by
  refine ⟨h.1, fun h1 h2 => ?_⟩
  obtain ⟨x, hA⟩ := h.2 h1 h2
  exact ⟨x, hA.size, hA.x_pos, hA.x_lt, hA.lev_lo, hA.lev_hi, hA.mono,
    fun {r c b g s j} hm => hA.pd ((hp j).mem_iff.1 hm), hA.dead_top, hA.dead_hi, hA.dead_lo,
    hA.dead_k, hA.max_pos⟩

/-- A builder whose level step agrees with `construct` up to the order of the pending nodes keeps
the invariant. `M` is the state of that builder, `abs` reads it as a state of `DdBuilder`. -/
theorem levels_perm {M : Type} (hl : Lawful sp) (htop : sp.root.1 = (top : Int)) (abs : M → BSt N S)
    (I : M → Nat → Prop) (step : M → Nat → Option M)
    (hstep : ∀ (m : M) (i : Nat) (G : Nat → List S), 0 < i → i ≤ top → I m i →
      Lv sp top G (abs m) (i + 1) → (i = top → (abs m).pend top ≠ []) →
      ∃ q, q.Perm ((abs m).pend i) ∧ ∀ st1,
        construct sp { abs m with pend := upd (abs m).pend i q } i = some st1 →
        ∃ m', step m i = some m' ∧ I m' (i - 1) ∧
          ∃ pd, (∀ j, (pd j).Perm (st1.pend j)) ∧ abs m' = { st1 with pend := pd }) :
    ∀ (n : Nat), n ≤ top → ∀ (m : M) (G : Nat → List S), I m n → Lv sp top G (abs m) (n + 1) →
      SwOK top G (abs m) (n + 1) → (n = top → 0 < n → (abs m).pend top ≠ []) →
      ∃ m', (levels n).foldlM step m = some m' ∧ I m' 0 ∧ ∃ G', Lv sp top G' (abs m') 1 := by
  intro n
  induction n with
  | zero => intro _ m G hI h _ _; exact ⟨m, rfl, hI, G, h⟩
  | succ n ih =>
    intro hn m G hI h hsw hpt
    obtain ⟨q, hq, hst⟩ := hstep m (n + 1) G (Nat.succ_pos n) hn hI h
      (fun he => hpt he (Nat.succ_pos n))
    have hperm : ∀ j, (upd (abs m).pend (n + 1) q j).Perm ((abs m).pend j) := by
      intro j
      by_cases hj : j = n + 1
      · subst hj; rw [upd_same]; exact hq
      · rw [upd_ne _ _ hj]
    obtain ⟨st1, h1, G1, h2, h3⟩ := construct_spec hl htop (Nat.succ_pos n) hn (h.perm hperm)
      (hsw.perm hperm) (fun he => by
        have := hpt he (Nat.succ_pos n)
        rw [← he] at this ⊢
        dsimp only
        rw [upd_same]
        intro h0
        subst h0
        exact this hq.symm.eq_nil)
    obtain ⟨m', e, hI', pd, hpd, habs⟩ := hst st1 h1
    have h2' : Lv sp top G1 (abs m') (n + 1) := by rw [habs]; exact h2.perm hpd
    have h3' : SwOK top G1 (abs m') (n + 1) := by rw [habs]; exact h3.perm hpd
    obtain ⟨m'', e', h4⟩ := ih (by omega) m' G1 hI' h2' h3' (by omega)
    refine ⟨m'', ?_, h4⟩
    rw [levels_succ, List.foldlM_cons, e]
    exact e'

/-- sorting a list into the groups of a key is a permutation -/
theorem group_perm {α : Type} (key : α → Nat) : ∀ (m : Nat) (l : List α), (∀ x ∈ l, key x < m) →
    ((List.range m).flatMap fun j => l.filter fun x => decide (key x = j)).Perm l := by
  intro m
  induction m with
  | zero =>
    intro l h
    cases l with
    | nil => exact .nil
    | cons x l => have := h x (by simp); omega
  | succ m ih =>
    intro l h
    rw [List.range_succ, List.flatMap_append, List.flatMap_cons, List.flatMap_nil, List.append_nil]
    have e : (List.range m).flatMap (fun j => l.filter fun x => decide (key x = j)) =
        (List.range m).flatMap fun j => (l.filter fun x => decide (key x < m)).filter
          fun x => decide (key x = j) := by
      rw [List.flatMap_def, List.flatMap_def]
      refine congrArg List.flatten (List.map_congr_left fun j hj => ?_)
      have hj := List.mem_range.1 hj
      rw [List.filter_filter]
      refine List.filter_congr fun x _ => ?_
      by_cases hx : key x = j
      · simp [hx, hj]
      · simp [hx]
    rw [e]
    have h1 := ih (l.filter fun x => decide (key x < m)) (by
      intro x hx; simpa using (List.mem_filter.1 hx).2)
    have h2 : (l.filter fun x => decide (key x = m)) = l.filter fun x => !decide (key x < m) := by
      refine List.filter_congr fun x hx => ?_
      have := h x hx
      by_cases hm : key x = m
      · simp [hm]
      · have : key x < m := by omega
        simp [hm, this]
    rw [h2]
    exact (h1.append_right _).trans (List.filter_append_perm _ l)

theorem foldlM_flatMap' {α β γ : Type} (f : γ → β → Option γ) (g : α → List β) : ∀ (l : List α) (a : γ),
    (l.flatMap g).foldlM f a = l.foldlM (fun a x => (g x).foldlM f a) a := by
  intro l
  induction l with
  | nil => intro a; rfl
  | cons x l ih =>
    intro a
    rw [List.flatMap_cons, List.foldlM_append, List.foldlM_cons]
    show Option.bind _ _ = Option.bind _ _
    cases (g x).foldlM f a with
    | none => rfl
    | some b => exact ih b

end TdZdd
