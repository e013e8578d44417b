import Verif.BuilderProofs2

/-! Builder proof, part 3: the second loop of `construct`. -/

namespace TdZdd

variable {N : Nat} {S : Type} {sp : DdSpec N S} {top i : Nat} {G : Nat → List S}
  {st0 st : BSt N S} {D : Loc N → Prop} {lowest : Nat}

/-- Invariant of the second loop. -/
structure Ph2 (sp : DdSpec N S) (top i : Nat) (G : Nat → List S) (st0 : BSt N S)
    (D : Loc N → Prop) (st : BSt N S) (lowest : Nat) : Prop where
  inv : Inv sp top G st st.pend D
  len : ∀ r, (st.row r).length = (st0.row r).length
  numRows : st.numRows = st0.numRows
  gen : st.gen = st0.gen
  sw : st.sw = st0.sw
  low : ∀ {j c b g s}, (Loc.cell i c b, g, s) ∈ st.pend j → lowest ≤ j
  low_le : lowest ≤ i - 1
  low_pos : 2 ≤ i → 1 ≤ lowest
  old : ∀ {j x}, x ∈ st.pend j → x ∈ st0.pend j ∨ (j < i ∧ ∃ c b, x.1 = .cell i c b)
  fresh : ∀ {c b}, c < (st0.row i).length → ¬ D (.cell i c b) → st.get (.cell i c b) = some none
  ones : ∀ {x}, x ∈ st.oneSrc → i ≤ x.1 ∧ st.get (.cell x.1 x.2.1 x.2.2) = some (some .one)
  one : st.oneSrc ≠ [] → ∃ o, st.one = some o
  keep0 : ∀ c b, st.get (.cell 0 c b) = st0.get (.cell 0 c b)
  ipos : 0 < i

theorem ph2_put (h : Ph2 sp top i G st0 D st lowest) {jj : Nat} {b : Fin N} {w : Int × S}
    (v : NodeId) (hD : ¬ D (.cell i jj b)) (hjj : jj < (st0.row i).length)
    (hw : want sp G (.cell i jj b) = some w)
    (hv : Rep sp G st.pend (.cell i jj b) (some v) w) :
    ∃ st', st.writeCell i jj b v = some st' ∧ st'.get (.cell i jj b) = some (some v) ∧
      Frame st st' ∧ Ph2 sp top i G st0 (fun l => D l ∨ l = .cell i jj b) st' lowest := by
  obtain ⟨st', h1, hf, h2, h3⟩ := inv_put h.inv v hD (h.fresh hjj hD) hw hv
  refine ⟨st', h1, by rw [h2, if_pos rfl], hf, ?_⟩
  refine ⟨by rw [hf.pend]; exact h3, fun r => (hf.len r).trans (h.len r), hf.numRows.trans h.numRows,
    hf.gen.trans h.gen, hf.sw.trans h.sw, ?_, h.low_le, h.low_pos, ?_, ?_, ?_, ?_, fun c b' => by
      rw [h2, if_neg (fun he => by cases he; exact absurd h.ipos (Nat.lt_irrefl _)), h.keep0], h.ipos⟩
  · intro j c b g s hx; rw [hf.pend] at hx; exact h.low hx
  · intro j x hx; rw [hf.pend] at hx; exact h.old hx
  · intro c b' hc hD'
    rw [h2, if_neg (fun he => hD' (.inr he))]
    exact h.fresh hc (fun hd => hD' (.inl hd))
  · intro x hx
    rw [hf.oneSrc] at hx
    obtain ⟨ha, hb⟩ := h.ones hx
    refine ⟨ha, ?_⟩
    rw [h2, if_neg, hb]
    intro he; rw [he, h.fresh hjj hD] at hb; cases hb
  · rw [hf.oneSrc, hf.one]; exact h.one

theorem ph2_push (h : Ph2 sp top i G st0 D st lowest) {jj j : Nat} {b : Fin N} {s : S}
    (hD : ¬ D (.cell i jj b)) (hjj : jj < (st0.row i).length) (hj : 0 < j) (hji : j < i)
    (hw : want sp G (.cell i jj b) = some ((j : Int), s)) :
    Ph2 sp top i G st0 (fun l => D l ∨ l = .cell i jj b)
      { st with pend := upd st.pend j ((.cell i jj b, st.gen i, s) :: st.pend j) }
      (if j < lowest then j else lowest) := by
  have hinv := inv_push h.inv hD (h.fresh hjj hD) hj hw
  have hmem : ∀ {j' : Nat} {x}, x ∈ upd st.pend j ((Loc.cell i jj b, st.gen i, s) :: st.pend j) j' →
      x ∈ st.pend j' ∨ (j' = j ∧ x.1 = .cell i jj b) := by
    intro j' x hx
    by_cases hjj : j' = j
    · subst hjj
      rw [upd_same] at hx
      rcases List.mem_cons.1 hx with rfl | hx
      · exact .inr ⟨rfl, rfl⟩
      · exact .inl hx
    · rw [upd_ne _ _ hjj] at hx; exact .inl hx
  have hlow := h.low_le
  refine ⟨inv_congr hinv (fun l hl => by cases l <;> rfl) (fun _ _ _ _ => rfl), h.len, h.numRows,
    h.gen, h.sw, ?_, ?_, ?_, ?_, ?_, ?_, h.one, h.keep0, h.ipos⟩
  · intro j' c b' g s' hx
    rcases hmem hx with hx | hx
    · have := h.low hx
      split <;> omega
    · split <;> omega
  · split <;> omega
  · intro hi2
    have := h.low_pos hi2
    split <;> omega
  · intro j' x hx
    rcases hmem hx with hx | ⟨hx, hx'⟩
    · exact h.old hx
    · exact .inr ⟨by omega, jj, b, hx'⟩
  · intro c b' hc hD'
    exact h.fresh hc (fun hd => hD' (.inl hd))
  · intro x hx; exact h.ones hx

theorem clearOnes_spec (h : Ph2 sp top i G st0 D st lowest) (hne : ¬ NoMerge sp) :
    ∃ st', clearOnes i st = some st' ∧ st'.oneSrc = [] ∧ Ph2 sp top i G st0 D st' lowest := by
  have hst : ∀ l, ({ st with oneSrc := [] } : BSt N S).get l = st.get l := by
    intro l; cases l <;> rfl
  obtain ⟨st', h1, hinv, hf, hg, hg0⟩ := foldlM_inv
    (f := fun (st : BSt N S) x => if x.1 < i then none else st.writeCell x.1 x.2.1 x.2.2 .zero)
    (fun pre (st' : BSt N S) => Inv sp top G st' st.pend D ∧ Frame { st with oneSrc := [] } st' ∧
      (∀ l, st'.get l = st.get l ∨ (st'.get l = some (some .zero) ∧ st.get l = some (some .one))) ∧
      ∀ c b, st'.get (.cell 0 c b) = st.get (.cell 0 c b))
    st.oneSrc { st with oneSrc := [] }
    ⟨inv_congr h.inv (fun l _ => hst l) (fun _ _ _ _ => rfl), Frame.refl _, fun l => .inl (hst l),
      fun _ _ => hst _⟩
    (by
      rintro pre ⟨r, c, b⟩ post st1 hsplit ⟨hinv, hf, hg, hg0⟩
      obtain ⟨hr, hone⟩ := h.ones (x := (r, c, b)) (by rw [hsplit]; simp)
      simp only at hr hone
      rw [if_neg (by omega)]
      have : ∃ v : NodeId, v.row = 0 ∧ st1.get (.cell r c b) = some (some v) := by
        rcases hg (.cell r c b) with h | ⟨h, _⟩
        · exact ⟨.one, rfl, h.trans hone⟩
        · exact ⟨.zero, rfl, h⟩
      obtain ⟨v, hv, hget⟩ := this
      obtain ⟨st2, h1, hf2, h2, h3⟩ := inv_zero hinv hne hv hget
      refine ⟨st2, h1, h3, hf.trans hf2, ?_, fun c' b' => by
        rw [h2, if_neg (fun he => by cases he; have := h.ipos; omega), hg0]⟩
      intro l
      rw [h2]
      split
      · rename_i he; exact .inr ⟨rfl, he ▸ hone⟩
      · exact hg l)
  refine ⟨st', h1, hf.oneSrc, ?_⟩
  refine ⟨by rw [hf.pend]; exact hinv, fun r => (hf.len r).trans (h.len r),
    hf.numRows.trans h.numRows, hf.gen.trans h.gen, hf.sw.trans h.sw, ?_, h.low_le, h.low_pos,
    ?_, ?_, ?_, ?_, fun c b => by rw [hg0, h.keep0], h.ipos⟩
  · intro j c b g s hx; rw [hf.pend] at hx; exact h.low hx
  · intro j x hx; rw [hf.pend] at hx; exact h.old hx
  · intro c b hc hD
    have := h.fresh hc hD
    rcases hg (.cell i c b) with hx | ⟨_, hx⟩
    · rw [hx, this]
    · rw [this] at hx; cases hx
  · intro x hx; rw [hf.oneSrc] at hx; cases hx
  · intro hx; rw [hf.oneSrc] at hx; exact absurd rfl hx

theorem writeOne_spec (h : Ph2 sp top i G st0 D st lowest) {jj : Nat} {b : Fin N} {w : Int × S}
    (hD : ¬ D (.cell i jj b)) (hjj : jj < (st0.row i).length)
    (hw : want sp G (.cell i jj b) = some w) (hneg : w.1 < 0) :
    ∃ st', st.writeOne i jj b = some st' ∧ st'.oneSrc ≠ [] ∧
      ∀ o, (o = st'.one ∧ o ≠ none) ∨ (∃ x, o = some x) →
        Ph2 sp top i G st0 (fun l => D l ∨ l = .cell i jj b) { st' with one := o } lowest := by
  obtain ⟨st', h1, h2, hf, h3⟩ := ph2_put h .one hD hjj hw (.inr (.inl ⟨rfl, hneg⟩))
  refine ⟨{ st' with oneSrc := (i, jj, b) :: st'.oneSrc }, by rw [BSt.writeOne, h1]; rfl, by simp, ?_⟩
  intro o ho
  have hget : ∀ l, ({ st' with oneSrc := (i, jj, b) :: st'.oneSrc, one := o } : BSt N S).get l =
      st'.get l := by intro l; cases l <;> rfl
  refine ⟨inv_congr h3.inv (fun l _ => hget l) (fun _ _ _ _ => rfl), h3.len, h3.numRows, h3.gen,
    h3.sw, h3.low, h3.low_le, h3.low_pos, h3.old, ?_, ?_, ?_, fun c b => by rw [hget, h3.keep0], h3.ipos⟩
  · intro c b' hc hD'; rw [hget]; exact h3.fresh hc hD'
  · intro x hx
    rcases List.mem_cons.1 hx with rfl | hx
    · exact ⟨Nat.le_refl _, by rw [hget]; exact h2⟩
    · rw [hget]; exact h3.ones hx
  · intro _
    rcases ho with ⟨_, ho⟩ | ⟨x, ho⟩
    · cases o with
      | none => exact absurd rfl ho
      | some x => exact ⟨x, rfl⟩
    · exact ⟨x, ho⟩

theorem oneCase_spec (h : Ph2 sp top i G st0 D st lowest) {jj : Nat} {b : Fin N} {w : Int × S}
    (s : S) (hD : ¬ D (.cell i jj b)) (hjj : jj < (st0.row i).length)
    (hw : want sp G (.cell i jj b) = some w) (hneg : w.1 < 0) :
    ∃ st', oneCase sp i jj b s st = some st' ∧ st'.oneSrc ≠ [] ∧
      Ph2 sp top i G st0 (fun l => D l ∨ l = .cell i jj b) st' lowest := by
  unfold oneCase
  split
  · obtain ⟨st', h1, hne, h2⟩ := writeOne_spec h hD hjj hw hneg
    exact ⟨{ st' with one := some s }, by rw [h1]; rfl, hne, h2 _ (.inr ⟨s, rfl⟩)⟩
  · rename_i hemp
    obtain ⟨o, ho⟩ := h.one (by intro h0; rw [h0] at hemp; exact hemp rfl)
    rw [ho]
    simp only
    split
    · rename_i hm
      have hne : ¬ NoMerge sp := fun h => by rw [h] at hm; cases hm
      obtain ⟨st1, h1, _, h2⟩ := clearOnes_spec h hne
      obtain ⟨st', h3, hne', h4⟩ := writeOne_spec h2 hD hjj hw hneg
      exact ⟨{ st' with one := some s }, by rw [h1, Option.bind_some, h3]; rfl, hne',
        h4 _ (.inr ⟨s, rfl⟩)⟩
    · split
      · rename_i _ hm
        have hne : ¬ NoMerge sp := fun h => by rw [h] at hm; cases hm
        obtain ⟨st', h1, _, hf, h2⟩ := ph2_put h .zero hD hjj hw (.inl ⟨rfl, fun h => absurd h hne⟩)
        refine ⟨st', h1, ?_, h2⟩
        rw [hf.oneSrc]
        intro h0; rw [h0] at hemp; exact hemp rfl
      · obtain ⟨st', h1, hne', h2⟩ := writeOne_spec h hD hjj hw hneg
        have hone : st'.one = st.one := by
          unfold BSt.writeOne at h1
          obtain ⟨st'', h3, _, hf, _⟩ := ph2_put h .one hD hjj hw (.inr (.inl ⟨rfl, hneg⟩))
          rw [h3] at h1
          simp at h1
          rw [← h1]; exact hf.one
        refine ⟨st', h1, hne', ?_⟩
        have := h2 st'.one (.inl ⟨rfl, by rw [hone, ho]; simp⟩)
        exact this

theorem branchStep_spec (hl : Desc sp) (hi : 0 < i) {a : P2 N S} (h : Ph2 sp top i G st0 D a.st a.lowest) {jj : Nat}
    {b : Fin N} {s : S} (hs : (G i)[jj]? = some s)
    (hD : ¬ D (.cell i jj b)) (hjj : jj < (st0.row i).length) :
    ∃ a', branchStep sp i jj s a b = some a' ∧
      (Ex sp a.st ∨ (∃ p, Accepts sp (sp.child s i b).1 (sp.child s i b).2 p) → Ex sp a'.st) ∧
      Ph2 sp top i G st0 (fun l => D l ∨ l = .cell i jj b) a'.st a'.lowest := by
  have hr := (h.inv.reach (mem_of_getElem?' hs)).2.2
  have hlt := hl.child_lt b hi hr
  have hw : want sp G (.cell i jj b) = some (sp.child s i b) := by simp [want, hs]
  unfold branchStep
  simp only
  split
  · rename_i h0
    obtain ⟨st', h1, _, hf, h2⟩ := ph2_put h .zero hD hjj hw
      (.inl ⟨rfl, fun _ p => by rw [h0]; exact not_accepts_zero⟩)
    refine ⟨{ a with st := st' }, by rw [h1]; rfl, ?_, h2⟩
    rintro (hx | ⟨p, hp⟩)
    · exact hx.frame hf
    · rw [h0] at hp; exact absurd hp not_accepts_zero
  · split
    · rename_i hneg
      obtain ⟨st', h1, hne, h2⟩ := oneCase_spec h (sp.child s i b).2 hD hjj hw hneg
      exact ⟨{ a with st := st', allZero := false }, by rw [h1]; rfl, fun _ => .inl hne, h2⟩
    · rename_i h0 h1
      rw [if_pos (by omega)]
      have hto : ((sp.child s i b).1.toNat : Int) = (sp.child s i b).1 := by omega
      refine ⟨_, rfl, ?_, ?_⟩
      · rintro (hx | ⟨p, hp⟩)
        · rcases hx with hx | ⟨j, l, g, t, hm, hx⟩
          · exact .inl hx
          · refine .inr ⟨j, l, g, t, ?_, hx⟩
            by_cases hj : j = (sp.child s i b).1.toNat
            · simp only [hj, upd_same]
              rw [hj] at hm
              exact List.mem_cons_of_mem _ hm
            · simp only [upd_ne _ _ hj]; exact hm
        · exact .inr ⟨(sp.child s i b).1.toNat, .cell i jj b, a.st.gen i, (sp.child s i b).2,
            by simp, p, by rw [hto]; exact hp⟩
      exact ph2_push h (j := (sp.child s i b).1.toNat) hD hjj (by omega) (by omega)
        (by rw [hw, hto])

theorem ph2_congr {D' : Loc N → Prop} (h : Ph2 sp top i G st0 D st lowest)
    (hD : ∀ l, D l ↔ D' l) : Ph2 sp top i G st0 D' st lowest := by
  have e1 : D' = D := funext fun l => propext (hD l).symm
  rw [e1]; exact h

theorem finRange_split {N : Nat} {pre post : List (Fin N)} {b : Fin N}
    (h : List.finRange N = pre ++ b :: post) : b ∉ pre := by
  have hn := List.nodup_finRange N
  rw [h, List.nodup_append] at hn
  intro hb
  exact hn.2.2 b hb b (by simp) rfl

/-- all branches of one node -/
theorem nodeLoop {α : Type} (f : α → Fin N → Option α) (stOf : α → BSt N S) (lowOf : α → Nat)
    (jj : Nat) (hD : ∀ b, ¬ D (.cell i jj b)) (a : α)
    (h : Ph2 sp top i G st0 D (stOf a) (lowOf a)) (acc : Fin N → Prop)
    (hf : ∀ (D' : Loc N → Prop) b a, ¬ D' (.cell i jj b) →
      Ph2 sp top i G st0 D' (stOf a) (lowOf a) → ∃ a', f a b = some a' ∧
      (Ex sp (stOf a) ∨ acc b → Ex sp (stOf a')) ∧
      Ph2 sp top i G st0 (fun l => D' l ∨ l = .cell i jj b) (stOf a') (lowOf a')) :
    ∃ a', (List.finRange N).foldlM f a = some a' ∧
      (Ex sp (stOf a) ∨ (∃ b, acc b) → Ex sp (stOf a')) ∧
      Ph2 sp top i G st0 (fun l => D l ∨ ∃ b, l = .cell i jj b) (stOf a') (lowOf a') := by
  obtain ⟨a', h1, hE, h2⟩ := foldlM_inv (f := f)
    (fun pre a1 => (Ex sp (stOf a) ∨ (∃ b ∈ pre, acc b) → Ex sp (stOf a1)) ∧
      Ph2 sp top i G st0 (fun l => D l ∨ ∃ b ∈ pre, l = .cell i jj b) (stOf a1) (lowOf a1))
    (List.finRange N) a ⟨by simp, ph2_congr h (by simp)⟩ (by
      intro pre b post a hsplit ⟨hE, hP⟩
      have hnD : ¬ (fun l => D l ∨ ∃ b ∈ pre, l = Loc.cell i jj b) (.cell i jj b) := by
        rintro (h | ⟨b', h, h'⟩)
        · exact hD b h
        · cases h'; exact finRange_split hsplit h
      obtain ⟨a', h1, hE', h2⟩ := hf _ b a hnD hP
      refine ⟨a', h1, ?_, ph2_congr h2 ?_⟩
      · rintro (hx | ⟨b', hb', hacc⟩)
        · exact hE' (.inl (hE (.inl hx)))
        · rcases List.mem_append.1 hb' with hb' | hb'
          · exact hE' (.inl (hE (.inr ⟨b', hb', hacc⟩)))
          · simp at hb'; subst hb'; exact hE' (.inr hacc)
      intro l
      simp only [List.mem_append, List.mem_singleton, or_assoc]
      constructor
      · rintro (h | ⟨b', h, h'⟩ | h)
        · exact .inl h
        · exact .inr ⟨b', .inl h, h'⟩
        · exact .inr ⟨b, .inr rfl, h⟩
      · rintro (h | ⟨b', h | h, h'⟩)
        · exact .inl h
        · exact .inr (.inl ⟨b', h, h'⟩)
        · exact .inr (.inr (h ▸ h')))
  exact ⟨a', h1, fun hx => hE (hx.imp id fun ⟨b, hb⟩ => ⟨b, List.mem_finRange b, hb⟩),
    ph2_congr h2 (by simp)⟩

/-- the second loop -/
theorem phase2 (hl : Desc sp) (hi : 0 < i) {D0 : Loc N → Prop} (hD0 : ∀ c b, ¬ D0 (.cell i c b))
    (hlen : (st0.row i).length = (G i).length)
    {jj : Nat} {ds : List (S × NodeId)} {gs : List S} (hd : DoneRel sp i jj ds gs) :
    ∀ (a : P3 N S), a.jj = jj → a.deadCount ≤ jj → G i = (G i).take jj ++ gs → jj ≤ (G i).length →
    Ph2 sp top i G st0 (fun l => D0 l ∨ ∃ c b, c < jj ∧ l = .cell i c b) a.st a.lowest →
    ∃ a', ds.foldlM (phase2Step sp i) a = some a' ∧ a'.deadCount ≤ (G i).length ∧
      (Ex sp a.st ∨ (∃ s c, (s, (⟨i, c⟩ : NodeId)) ∈ ds ∧ ∃ p, Accepts sp (i : Int) s p) →
        Ex sp a'.st) ∧
      Ph2 sp top i G st0 (fun l => D0 l ∨ ∃ c b, c < (G i).length ∧ l = .cell i c b) a'.st
        a'.lowest := by
  induction hd with
  | nil jj =>
    intro a ha hdc hG hjj h
    have : (G i).length ≤ jj := by
      have := congrArg List.length hG
      simp at this; omega
    have hj : jj = (G i).length := by omega
    subst hj
    exact ⟨a, rfl, hdc, by simp, h⟩
  | skip hd ih =>
    intro a ha hdc hG hjj h
    obtain ⟨a', h1, h2, hE, h3⟩ := ih a ha hdc hG hjj h
    refine ⟨a', ?_, h2, ?_, h3⟩
    rotate_left
    · rintro (hx | ⟨s', c, hm, hp⟩)
      · exact hE (.inl hx)
      · rcases List.mem_cons.1 hm with hm | hm
        · simp [NodeId.one] at hm; omega
        · exact hE (.inr ⟨s', c, hm, hp⟩)
    rw [List.foldlM_cons, show phase2Step sp i a (_, .one) = some a by simp [phase2Step]]
    exact h1
  | @act jj s ds gs hd ih =>
    intro a ha hdc hG hjj h
    have hlt : jj < (G i).length := by
      have := congrArg List.length hG
      simp at this; omega
    have hs : (G i)[jj]? = some s := by
      rw [hG, List.getElem?_append_right (by simp; omega)]
      simp [Nat.min_eq_left hjj]
    have hnode := nodeLoop (branchStep sp i jj s) P2.st P2.lowest jj (D := (fun l => D0 l ∨ ∃ c b, c < jj ∧ l = .cell i c b))
      (sp := sp) (top := top) (i := i) (G := G) (st0 := st0)
      (by
        rintro b (h | ⟨c, b', hc, he⟩)
        · exact hD0 _ _ h
        · cases he; omega)
      { st := a.st, lowest := a.lowest, allZero := true } h
      (fun b => ∃ p, Accepts sp (sp.child s i b).1 (sp.child s i b).2 p)
      (fun D' b a hD h => branchStep_spec hl hi h hs hD (by omega))
    obtain ⟨p, hp1, hpE, hp2⟩ := hnode
    obtain ⟨a', h1, h2, hE, h3⟩ := ih
      ⟨p.st, a.jj + 1, p.lowest, if p.allZero then a.deadCount + 1 else a.deadCount⟩
      (by simp [ha]) (by
        show (if p.allZero = true then a.deadCount + 1 else a.deadCount) ≤ jj + 1
        split <;> omega) (by
        have : (G i).take (jj + 1) = (G i).take jj ++ [s] := by
          rw [List.take_add_one, hs]; rfl
        rw [this, List.append_assoc]; exact hG) (by omega) (by
        refine ph2_congr hp2 ?_
        intro l
        constructor
        · rintro ((h | ⟨c, b, hc, h⟩) | ⟨b, h⟩)
          · exact .inl h
          · exact .inr ⟨c, b, by omega, h⟩
          · exact .inr ⟨jj, b, by omega, h⟩
        · rintro (h | ⟨c, b, hc, h⟩)
          · exact .inl (.inl h)
          · by_cases hcj : c = jj
            · exact .inr ⟨b, hcj ▸ h⟩
            · exact .inl (.inr ⟨c, b, by omega, h⟩))
    refine ⟨a', ?_, h2, ?_, h3⟩
    rotate_left
    · rintro (hx | ⟨s', c, hm, q, hq⟩)
      · exact hE (.inl (hpE (.inl hx)))
      · rcases List.mem_cons.1 hm with hm | hm
        · simp at hm
          rw [hm.1, accepts_pos hi] at hq
          obtain ⟨b, q, _, hq⟩ := hq
          exact hE (.inl (hpE (.inr ⟨b, q, hq⟩)))
        · exact hE (.inr ⟨s', c, hm, q, hq⟩)
    have hne1 : ¬ ((⟨i, jj⟩ : NodeId) = .one) := by
      intro h; simp [NodeId.one] at h; omega
    have hne0 : ¬ ((⟨i, jj⟩ : NodeId) = .zero) := by
      intro h; simp [NodeId.zero] at h; omega
    rw [List.foldlM_cons, phase2Step, if_neg hne1, if_neg hne0, ha, hp1]
    rw [ha] at h1
    exact h1
  | @dead jj s ds gs hm hd ih =>
    intro a ha hdc hG hjj h
    have hlt : jj < (G i).length := by
      have := congrArg List.length hG
      simp at this; omega
    have hs : (G i)[jj]? = some s := by
      rw [hG, List.getElem?_append_right (by simp; omega)]
      simp [Nat.min_eq_left hjj]
    have hnode := nodeLoop (fun (st : BSt N S) b => st.writeCell i jj b .zero) id (fun _ => a.lowest) jj
      (D := (fun l => D0 l ∨ ∃ c b, c < jj ∧ l = .cell i c b))
      (sp := sp) (top := top) (i := i) (G := G) (st0 := st0)
      (by
        rintro b (h | ⟨c, b', hc, he⟩)
        · exact hD0 _ _ h
        · cases he; omega)
      a.st h (fun _ => False)
      (fun D' b st hD h => by
        obtain ⟨st', h1, _, hf, h2⟩ := ph2_put h (w := sp.child s i b) .zero hD (by omega)
          (by simp [want, hs]) (.inl ⟨rfl, fun h => absurd h hm⟩)
        exact ⟨st', h1, fun hx => (hx.resolve_right id).frame hf, h2⟩)
    obtain ⟨p, hp1, hpE, hp2⟩ := hnode
    obtain ⟨a', h1, h2, hE, h3⟩ := ih ⟨p, a.jj + 1, a.lowest, a.deadCount + 1⟩
      (by simp [ha]) (by show a.deadCount + 1 ≤ _; omega) (by
        have : (G i).take (jj + 1) = (G i).take jj ++ [s] := by
          rw [List.take_add_one, hs]; rfl
        rw [this, List.append_assoc]; exact hG) (by omega) (by
        refine ph2_congr hp2 ?_
        intro l
        constructor
        · rintro ((h | ⟨c, b, hc, h⟩) | ⟨b, h⟩)
          · exact .inl h
          · exact .inr ⟨c, b, by omega, h⟩
          · exact .inr ⟨jj, b, by omega, h⟩
        · rintro (h | ⟨c, b, hc, h⟩)
          · exact .inl (.inl h)
          · by_cases hcj : c = jj
            · exact .inr ⟨b, hcj ▸ h⟩
            · exact .inl (.inr ⟨c, b, by omega, h⟩))
    refine ⟨a', ?_, h2, ?_, h3⟩
    rotate_left
    · rintro (hx | ⟨s', c, hm, hp⟩)
      · exact hE (.inl (hpE (.inl hx)))
      · rcases List.mem_cons.1 hm with hm | hm
        · simp [NodeId.zero] at hm; omega
        · exact hE (.inr ⟨s', c, hm, hp⟩)
    rw [List.foldlM_cons, phase2Step, if_neg (by simp [NodeId.one, NodeId.zero]), if_pos rfl, ha, hp1]
    rw [ha] at h1
    exact h1

end TdZdd
