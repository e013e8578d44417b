import Verif.BuilderMP

/-! Parallel builders, part 1: effects on different locations commute. -/

namespace TdZdd

variable {N : Nat} {S : Type}

theorem upd_upd_comm {α : Type} (f : Nat → α) {i j : Nat} (u v : α) (h : i ≠ j) :
    upd (upd f i u) j v = upd (upd f j v) i u := by
  funext k
  simp only [upd]
  by_cases h1 : k = i <;> by_cases h2 : k = j <;> simp [h1, h2]
  · exact absurd (h1.symm.trans h2) h
  · intro h3; exact absurd h3 h
  · intro h3; exact absurd h3.symm h

theorem upd_upd_same {α : Type} (f : Nat → α) (i : Nat) (u v : α) : upd (upd f i u) i v = upd f i v := by
  funext k; simp only [upd]; split <;> rfl

theorem setBranch_comm (nd : Fin N → Option NodeId) {b b' : Fin N} (v w : NodeId) (h : b ≠ b') :
    setBranch (setBranch nd b v) b' w = setBranch (setBranch nd b' w) b v := by
  funext k
  simp only [setBranch]
  by_cases h1 : k = b <;> by_cases h2 : k = b' <;> simp [h1, h2]
  · exact absurd (h1.symm.trans h2) h
  · intro h3; exact absurd h3 h
  · intro h3; exact absurd h3.symm h

theorem writeCell_comm (st : BSt N S) {r c r' c' : Nat} {b b' : Fin N} (v w : NodeId) (h : ¬ (r = r' ∧ c = c' ∧ b = b')) :
    (st.writeCell r c b v).bind (fun st => st.writeCell r' c' b' w) =
      (st.writeCell r' c' b' w).bind fun st => st.writeCell r c b v := by
  unfold BSt.writeCell
  by_cases h1 : r < st.numRows <;> by_cases h2 : r' < st.numRows
  · rw [if_pos h1, if_pos h2]
    cases e1 : (st.row r)[c]? with
    | none =>
      dsimp only [Option.bind]
      cases e2 : (st.row r')[c']? with
      | none => rfl
      | some nd' =>
        dsimp only
        rw [if_pos h1]
        by_cases hr : r = r'
        · subst hr
          have hc : ¬ c' = c := by rintro rfl; rw [e1] at e2; cases e2
          have e3 : (upd st.row r ((st.row r).set c' (setBranch nd' b' w)) r)[c]? = none := by
            simp only [upd, if_true]; rw [List.getElem?_set, if_neg hc, e1]
          rw [e3]
        · have e3 : (upd st.row r' ((st.row r').set c' (setBranch nd' b' w)) r)[c]? = none := by
            simp only [upd, if_neg hr]; rw [e1]
          rw [e3]
    | some nd =>
      cases e2 : (st.row r')[c']? with
      | none =>
        dsimp only [Option.bind]
        rw [if_pos h2]
        by_cases hr : r' = r
        · subst hr
          have hc : ¬ c = c' := by rintro rfl; rw [e1] at e2; cases e2
          have e3 : (upd st.row r' ((st.row r').set c (setBranch nd b v)) r')[c']? = none := by
            simp only [upd, if_true]; rw [List.getElem?_set, if_neg hc, e2]
          rw [e3]
        · have e3 : (upd st.row r ((st.row r).set c (setBranch nd b v)) r')[c']? = none := by
            simp only [upd, if_neg hr]; rw [e2]
          rw [e3]
      | some nd' =>
        dsimp only [Option.bind]
        rw [if_pos h1, if_pos h2]
        by_cases hr : r' = r
        · subst hr
          have e1' : ∀ (l : List (Fin N → Option NodeId)), upd st.row r' l r' = l := fun l => by simp [upd]
          rw [e1', e1', List.getElem?_set, List.getElem?_set]
          by_cases hc : c = c'
          · subst hc
            rw [e1] at e2
            cases e2
            have hb : b ≠ b' := fun hb => h ⟨rfl, rfl, hb⟩
            have hlt : c < (st.row r').length := getElem?_lt' e1
            simp only [hlt, if_true, upd_upd_same, List.set_set]
            rw [setBranch_comm nd v w hb]
          · rw [if_neg hc, if_neg (fun h => hc h.symm), e1, e2]
            simp only [upd_upd_same]
            rw [List.set_comm _ _ hc]
        · have e1' : upd st.row r ((st.row r).set c (setBranch nd b v)) r' = st.row r' := by simp [upd, hr]
          have e2' : upd st.row r' ((st.row r').set c' (setBranch nd' b' w)) r = st.row r := by
            simp only [upd]; rw [if_neg (fun h => hr h.symm)]
          rw [e1', e2', e1, e2]
          dsimp only
          rw [upd_upd_comm _ _ _ (fun h => hr h.symm)]
  · rw [if_pos h1, if_neg h2]
    cases (st.row r)[c]? with
    | none => rfl
    | some nd => dsimp only [Option.bind]; rw [if_neg h2]
  · rw [if_neg h1, if_pos h2]
    cases (st.row r')[c']? with
    | none => rfl
    | some nd => dsimp only [Option.bind]; rw [if_neg h1]
  · rw [if_neg h1, if_neg h2]; rfl
where
  getElem?_lt' {α : Type} {l : List α} {c : Nat} {x : α} (h : l[c]? = some x) : c < l.length := by
    rcases Nat.lt_or_ge c l.length with h1 | h1
    · exact h1
    · rw [List.getElem?_eq_none h1] at h; cases h

theorem writeCell_root (st : BSt N S) (r c : Nat) (b : Fin N) (v : NodeId) (w : Option NodeId) :
    ({ st with root := w } : BSt N S).writeCell r c b v = (st.writeCell r c b v).map fun st => { st with root := w } := by
  unfold BSt.writeCell
  by_cases h1 : r < st.numRows
  · rw [if_pos h1, if_pos h1]
    cases (st.row r)[c]? <;> rfl
  · rw [if_neg h1, if_neg h1]; rfl

theorem writeCell_gen {st st' : BSt N S} {r c : Nat} {b : Fin N} {v : NodeId} (h : st.writeCell r c b v = some st') :
    st'.gen = st.gen ∧ st'.numRows = st.numRows ∧ st'.root = st.root := by
  unfold BSt.writeCell at h
  split at h
  · split at h
    · cases h
    · cases h; exact ⟨rfl, rfl, rfl⟩
  · cases h

theorem write_comm (st : BSt N S) {l l' : Loc N} (g g' : Nat) (v w : NodeId) (h : l ≠ l') :
    (st.write l g v).bind (fun st => st.write l' g' w) = (st.write l' g' w).bind fun st => st.write l g v := by
  cases l with
  | root =>
    cases l' with
    | root => exact absurd rfl h
    | cell r c b =>
      dsimp only [BSt.write, Option.bind]
      by_cases hg : st.gen r = g'
      · rw [if_pos hg, if_pos hg]
        show BSt.writeCell { st with root := some v } r c b w = _
        rw [writeCell_root st r c b w (some v)]
        cases st.writeCell r c b w <;> rfl
      · rw [if_neg hg, if_neg hg]
  | cell r c b =>
    cases l' with
    | root =>
      dsimp only [BSt.write, Option.bind]
      by_cases hg : st.gen r = g
      · rw [if_pos hg, if_pos hg]
        show _ = BSt.writeCell { st with root := some w } r c b v
        rw [writeCell_root st r c b v (some w)]
        cases st.writeCell r c b v <;> rfl
      · rw [if_neg hg, if_neg hg]
    | cell r' c' b' =>
      dsimp only [BSt.write]
      have hne : ¬ (r = r' ∧ c = c' ∧ b = b') := by
        rintro ⟨rfl, rfl, rfl⟩; exact h rfl
      have key := writeCell_comm st v w hne
      by_cases hg : st.gen r = g <;> by_cases hg' : st.gen r' = g'
      · rw [if_pos hg, if_pos hg']
        have e1 : (st.writeCell r c b v).bind (fun st => if st.gen r' = g' then st.writeCell r' c' b' w else none) =
            (st.writeCell r c b v).bind (fun st => st.writeCell r' c' b' w) := by
          cases e : st.writeCell r c b v with
          | none => rfl
          | some st1 => dsimp only [Option.bind]; rw [(writeCell_gen e).1, if_pos hg']
        have e2 : (st.writeCell r' c' b' w).bind (fun st => if st.gen r = g then st.writeCell r c b v else none) =
            (st.writeCell r' c' b' w).bind (fun st => st.writeCell r c b v) := by
          cases e : st.writeCell r' c' b' w with
          | none => rfl
          | some st1 => dsimp only [Option.bind]; rw [(writeCell_gen e).1, if_pos hg]
        rw [e1, e2, key]
      · rw [if_pos hg, if_neg hg']
        cases e : st.writeCell r c b v with
        | none => rfl
        | some st1 => dsimp only [Option.bind]; rw [(writeCell_gen e).1, if_neg hg']
      · rw [if_neg hg, if_pos hg']
        cases e : st.writeCell r' c' b' w with
        | none => rfl
        | some st1 => dsimp only [Option.bind]; rw [(writeCell_gen e).1, if_neg hg]
      · rw [if_neg hg, if_neg hg']; rfl

/-! ### Equivalence up to the order of the lists -/

structure BmRun.Eqv (a b : BmRun N S) : Prop where
  core : a.core = b.core
  tab : ∀ y x j, (a.tab y x j).Perm (b.tab y x j)
  lowest : a.lowest = b.lowest
  dead : a.dead = b.dead

theorem BmRun.Eqv.refl (a : BmRun N S) : a.Eqv a := ⟨rfl, fun _ _ _ => .rfl, rfl, rfl⟩

theorem BmRun.Eqv.trans {a b c : BmRun N S} (h : a.Eqv b) (h' : b.Eqv c) : a.Eqv c :=
  ⟨h.1.trans h'.1, fun y x j => (h.2 y x j).trans (h'.2 y x j), h.3.trans h'.3, h.4.trans h'.4⟩

/-- both fail or both succeed with equivalent states -/
def OEqv : Option (BmRun N S) → Option (BmRun N S) → Prop
  | none, none => True
  | some a, some b => a.Eqv b
  | _, _ => False

theorem OEqv.refl (o : Option (BmRun N S)) : OEqv o o := by
  cases o with
  | none => trivial
  | some a => exact BmRun.Eqv.refl a

theorem OEqv.trans {o p q : Option (BmRun N S)} (h : OEqv o p) (h' : OEqv p q) : OEqv o q := by
  cases o <;> cases p <;> cases q <;> first | trivial | exact absurd h id | exact absurd h' id | exact BmRun.Eqv.trans h h'

theorem pushTab_perm {tab tab' : Nat → Nat → Nat → List (SNode N S)} (h : ∀ y x j, (tab y x j).Perm (tab' y x j))
    (y x j : Nat) (p : SNode N S) (y' x' j' : Nat) : (pushTab tab y x j p y' x' j').Perm (pushTab tab' y x j p y' x' j') := by
  unfold pushTab
  split
  · exact (h y x j).cons p
  · exact h _ _ _

theorem pushTab_comm (tab : Nat → Nat → Nat → List (SNode N S)) (y x j : Nat) (p : SNode N S) (y1 x1 j1 : Nat) (p1 : SNode N S)
    (y' x' j' : Nat) : (pushTab (pushTab tab y x j p) y1 x1 j1 p1 y' x' j').Perm
      (pushTab (pushTab tab y1 x1 j1 p1) y x j p y' x' j') := by
  unfold pushTab
  by_cases h1 : y1 = y ∧ x1 = x ∧ j1 = j
  · obtain ⟨rfl, rfl, rfl⟩ := h1
    split
    · simp only [and_self, if_true]; exact .swap _ _ _
    · exact .rfl
  · have h1' : ¬ (y = y1 ∧ x = x1 ∧ j = j1) := by
      rintro ⟨rfl, rfl, rfl⟩; exact h1 ⟨rfl, rfl, rfl⟩
    rw [if_neg h1, if_neg h1']
    by_cases h2 : y' = y1 ∧ x' = x1 ∧ j' = j1
    · obtain ⟨rfl, rfl, rfl⟩ := h2
      rw [if_pos ⟨rfl, rfl, rfl⟩, if_neg h1, if_pos ⟨rfl, rfl, rfl⟩]
    · rw [if_neg h2]
      split <;> exact .rfl

theorem runEff_congr {a b : BmRun N S} (h : a.Eqv b) (e : Eff N S) : OEqv (runEff a e) (runEff b e) := by
  obtain ⟨c, t, l, d⟩ := a
  obtain ⟨c', t', l', d'⟩ := b
  obtain ⟨h1, h2, h3, h4⟩ := h
  dsimp only at h1 h2 h3 h4
  subst h1; subst h3; subst h4
  cases e with
  | write l g v =>
    dsimp only [runEff]
    cases c.write l g v with
    | none => trivial
    | some c1 => exact ⟨rfl, h2, rfl, rfl⟩
  | push y x j p => exact ⟨rfl, pushTab_perm h2 y x j p, rfl, rfl⟩
  | dead => exact ⟨rfl, h2, rfl, rfl⟩
  | fail => trivial

theorem runEffs_congr (es : List (Eff N S)) : ∀ {a b : BmRun N S}, a.Eqv b →
    OEqv (es.foldlM runEff a) (es.foldlM runEff b) := by
  induction es with
  | nil => intro a b h; exact h
  | cons e es ih =>
    intro a b h
    rw [List.foldlM_cons, List.foldlM_cons]
    have := runEff_congr h e
    show OEqv (Option.bind _ _) (Option.bind _ _)
    cases h1 : runEff a e <;> cases h2 : runEff b e <;> rw [h1, h2] at this
    · trivial
    · exact absurd this id
    · exact absurd this id
    · exact ih this

/-- the location written by an effect -/
def Eff.loc? : Eff N S → Option (Loc N)
  | .write l _ _ => some l
  | _ => none

theorem min_comm' (a b l : Nat) : (if a < (if b < l then b else l) then a else (if b < l then b else l)) =
    if b < (if a < l then a else l) then b else (if a < l then a else l) := by
  (repeat' split) <;> omega

theorem runEff_comm (a : BmRun N S) (e e' : Eff N S) (h : ∀ l, e.loc? = some l → e'.loc? = some l → False) :
    OEqv ((runEff a e).bind fun a => runEff a e') ((runEff a e').bind fun a => runEff a e) := by
  cases e with
  | write l g v =>
    cases e' with
    | write l' g' v' =>
      have hl : l ≠ l' := fun hl => h l rfl (by rw [hl]; rfl)
      have key := write_comm a.core g g' v v' hl
      dsimp only [runEff]
      cases e1 : a.core.write l g v with
      | none =>
        rw [e1] at key
        cases e2 : a.core.write l' g' v' with
        | none => trivial
        | some c =>
          rw [e2] at key
          dsimp only [Option.bind, Option.map] at key ⊢
          rw [← key]; trivial
      | some c =>
        rw [e1] at key
        cases e2 : a.core.write l' g' v' with
        | none =>
          rw [e2] at key
          dsimp only [Option.bind, Option.map] at key ⊢
          rw [key]; trivial
        | some c' =>
          rw [e2] at key
          dsimp only [Option.bind, Option.map] at key ⊢
          rw [key]
          exact OEqv.refl _
    | push y x j p =>
      dsimp only [runEff, Option.bind]
      cases a.core.write l g v <;> first | trivial | exact BmRun.Eqv.refl _
    | dead =>
      dsimp only [runEff, Option.bind]
      cases a.core.write l g v <;> first | trivial | exact BmRun.Eqv.refl _
    | fail =>
      dsimp only [runEff, Option.bind]
      cases a.core.write l g v <;> trivial
  | push y x j p =>
    cases e' with
    | write l g v =>
      dsimp only [runEff, Option.bind]
      cases a.core.write l g v <;> first | trivial | exact BmRun.Eqv.refl _
    | push y1 x1 j1 p1 => exact ⟨rfl, pushTab_comm _ _ _ _ _ _ _ _ _, min_comm' _ _ _, rfl⟩
    | dead => exact OEqv.refl _
    | fail => trivial
  | dead =>
    cases e' with
    | write l g v =>
      dsimp only [runEff, Option.bind]
      cases a.core.write l g v <;> first | trivial | exact BmRun.Eqv.refl _
    | push y1 x1 j1 p1 => exact OEqv.refl _
    | dead => exact OEqv.refl _
    | fail => trivial
  | fail =>
    cases e' with
    | write l g v =>
      dsimp only [runEff, Option.bind]
      cases a.core.write l g v <;> trivial
    | push y1 x1 j1 p1 => trivial
    | dead => trivial
    | fail => trivial

/-- The outcome of a list of effects on different locations does not depend on their order. -/
theorem runEffs_perm {es es' : List (Eff N S)} (h : es.Perm es') : (es.filterMap Eff.loc?).Nodup →
    ∀ a : BmRun N S, OEqv (es.foldlM runEff a) (es'.foldlM runEff a) := by
  induction h with
  | nil => intro _ a; exact OEqv.refl _
  | @cons e l1 l2 _ ih =>
    intro hn a
    rw [List.foldlM_cons, List.foldlM_cons]
    show OEqv (Option.bind _ _) (Option.bind _ _)
    have hn' : (List.filterMap Eff.loc? l1).Nodup := by
      rw [List.filterMap_cons] at hn
      split at hn
      · exact hn
      · exact (List.nodup_cons.1 hn).2
    cases runEff a e with
    | none => trivial
    | some a1 => exact ih hn' a1
  | swap e e' l =>
    intro hn a
    rw [List.foldlM_cons, List.foldlM_cons]
    have hc := runEff_comm a e' e (by
      intro x h1 h2
      rw [List.filterMap_cons, h1, List.filterMap_cons, h2] at hn
      simp at hn)
    have e1 : ∀ (e e' : Eff N S), ((runEff a e).bind fun s => (e' :: l).foldlM runEff s) =
        ((runEff a e).bind fun s => runEff s e').bind fun s => l.foldlM runEff s := by
      intro e e'
      cases runEff a e with
      | none => rfl
      | some a1 => rfl
    show OEqv (Option.bind _ _) (Option.bind _ _)
    rw [e1, e1]
    revert hc
    cases (runEff a e').bind fun s => runEff s e with
    | none =>
      cases (runEff a e).bind fun s => runEff s e' with
      | none => intro _; trivial
      | some b => intro h; exact absurd h id
    | some b =>
      cases (runEff a e).bind fun s => runEff s e' with
      | none => intro h; exact absurd h id
      | some b' => intro h; exact runEffs_congr l h
  | trans h1 _ ih1 ih2 =>
    intro hn a
    exact (ih1 hn a).trans (ih2 ((h1.filterMap _).nodup_iff.1 hn) a)

end TdZdd
