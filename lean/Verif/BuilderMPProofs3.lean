import Verif.BuilderMPProofs2

/-! Parallel builders, part 3: the second loop in the order of the groups. -/

namespace TdZdd

variable {N : Nat} {S : Type}

/-! ### States without pending nodes -/

theorem writeCell_bare (st : BSt N S) (r c : Nat) (b : Fin N) (v : NodeId) :
    st.bare.writeCell r c b v = (st.writeCell r c b v).map BSt.bare := by
  unfold BSt.writeCell
  show (if r < st.numRows then _ else _) = _
  by_cases h : r < st.numRows
  · rw [if_pos h, if_pos h]
    show (match (st.row r)[c]? with | none => none | some nd => _) = _
    cases (st.row r)[c]? <;> rfl
  · rw [if_neg h, if_neg h]; rfl

theorem write_bare (st : BSt N S) (l : Loc N) (g : Nat) (v : NodeId) :
    st.bare.write l g v = (st.write l g v).map BSt.bare := by
  cases l with
  | root => rfl
  | cell r c b =>
    dsimp only [BSt.write]
    show (if st.gen r = g then _ else _) = _
    by_cases h : st.gen r = g
    · rw [if_pos h, if_pos h, writeCell_bare]
    · rw [if_neg h, if_neg h]; rfl

theorem writeCell_frame {st st' : BSt N S} {r c : Nat} {b : Fin N} {v : NodeId} (h : st.writeCell r c b v = some st') :
    st'.pend = st.pend ∧ st'.gen = st.gen := by
  unfold BSt.writeCell at h
  split at h
  · split at h
    · cases h
    · cases h; exact ⟨rfl, rfl⟩
  · cases h

/-! ### The lists as one list -/

/-- all nodes of level `j` in the order of groups and threads -/
def absP (threads : Nat) (groups : Nat → Nat) (tab : Nat → Nat → Nat → List (SNode N S)) (j : Nat) : List (SNode N S) :=
  (List.range (groups j)).flatMap fun x => bmGroup threads tab x j

theorem flatMap_update_perm {α : Type} {f f' : Nat → List α} {x : Nat} {p : α} (hx : (f' x).Perm (p :: f x))
    (hne : ∀ z, z ≠ x → f' z = f z) : ∀ l : List Nat, l.Nodup → x ∈ l → (l.flatMap f').Perm (p :: l.flatMap f) := by
  intro l
  induction l with
  | nil => intro _ h; cases h
  | cons z l ih =>
    intro hn hm
    rw [List.flatMap_cons, List.flatMap_cons]
    have hn := List.nodup_cons.1 hn
    by_cases hz : z = x
    · subst hz
      have e : l.flatMap f' = l.flatMap f := by
        rw [List.flatMap_def, List.flatMap_def]
        refine congrArg _ (List.map_congr_left fun w hw => hne w ?_)
        rintro rfl
        exact hn.1 hw
      rw [e]
      exact (hx.append_right _)
    · rw [hne z hz]
      have : x ∈ l := by
        rcases List.mem_cons.1 hm with h | h
        · exact absurd h.symm hz
        · exact h
      exact ((ih hn.2 this).append_left _).trans List.perm_middle

theorem absP_push {threads : Nat} {groups : Nat → Nat} (tab : Nat → Nat → Nat → List (SNode N S)) {y x j : Nat}
    (hy : y < threads) (hx : x < groups j) (p : SNode N S) (j' : Nat) :
    (absP threads groups (pushTab tab y x j p) j').Perm
      (if j' = j then p :: absP threads groups tab j' else absP threads groups tab j') := by
  by_cases hj : j' = j
  · subst hj
    rw [if_pos rfl]
    unfold absP
    refine flatMap_update_perm (x := x) ?_ ?_ _ List.nodup_range (List.mem_range.2 hx)
    · unfold bmGroup
      refine flatMap_update_perm (x := y) ?_ ?_ _ List.nodup_range (List.mem_range.2 hy)
      · simp [pushTab]
      · intro z hz; simp [pushTab, hz]
    · intro z hz
      unfold bmGroup
      simp [pushTab, hz]
  · rw [if_neg hj]
    have : ∀ x, bmGroup threads (pushTab tab y x j p) x j' = bmGroup threads tab x j' := by
      intro x; unfold bmGroup; simp [pushTab, hj]
    unfold absP bmGroup
    simp [pushTab, hj]

theorem flatMap_perm' {α : Type} {f g : Nat → List α} (h : ∀ x, (f x).Perm (g x)) : ∀ l : List Nat,
    (l.flatMap f).Perm (l.flatMap g) := by
  intro l
  induction l with
  | nil => exact .nil
  | cons x l ih => rw [List.flatMap_cons, List.flatMap_cons]; exact (h x).append ih

theorem absP_perm {threads : Nat} {groups : Nat → Nat} {tab tab' : Nat → Nat → Nat → List (SNode N S)}
    (h : ∀ y x j, (tab y x j).Perm (tab' y x j)) (j : Nat) : (absP threads groups tab j).Perm (absP threads groups tab' j) := by
  unfold absP bmGroup
  exact flatMap_perm' (fun x => flatMap_perm' (fun y => h y x j) _) _

/-! ### The branch loop -/

/-- a state of the sequential second loop and a state of the parallel one -/
structure BRel (threads : Nat) (groups : Nat → Nat) (i gi : Nat) (st : BSt N S) (lowest : Nat) (r : BmRun N S) : Prop where
  core : r.core = st.bare
  pend : ∀ j, (absP threads groups r.tab j).Perm (st.pend j)
  low : r.lowest = lowest
  gen : st.gen i = gi

theorem oneCase_bare {sp : DdSpec N S} (hm : NoMerge sp) {i jj : Nat} {b : Fin N} {s : S} {st st' : BSt N S}
    (h : oneCase sp i jj b s st = some st') : st.bare.writeCell i jj b .one = some st'.bare ∧ st'.pend = st.pend ∧
      st'.gen = st.gen := by
  have key : ∀ st1, st.writeOne i jj b = some st1 → st.bare.writeCell i jj b .one = some st1.bare ∧ st1.pend = st.pend ∧
      st1.gen = st.gen := by
    intro st1 h1
    unfold BSt.writeOne at h1
    obtain ⟨st2, h2, rfl⟩ := Option.map_eq_some_iff.1 h1
    rw [writeCell_bare, h2]
    exact ⟨rfl, (writeCell_frame h2).1, (writeCell_frame h2).2⟩
  unfold oneCase at h
  by_cases he : st.oneSrc.isEmpty = true
  · rw [if_pos he] at h
    obtain ⟨st2, h2, rfl⟩ := Option.map_eq_some_iff.1 h
    exact key st2 h2
  · rw [if_neg he] at h
    cases ho : st.one with
    | none => rw [ho] at h; cases h
    | some o =>
      rw [ho] at h
      dsimp only at h
      rw [hm, if_neg (by decide), if_neg (by decide)] at h
      exact key _ h

theorem branch_step {sp sp' : DdSpec N S} (hm : NoMerge sp') {key : Nat → S → Nat} {groups : Nat → Nat} {threads i gi y jj : Nat} {s : S}
    (hy : y < threads) {b : Fin N} (hc : sp.child s i b = sp'.child s i b)
    (hk : ∀ j : Nat, 0 < j → (sp'.child s i b).1 = j → key j (sp'.child s i b).2 < groups j)
    {a a' : P2 N S} {r : BmRun N S} (h : BRel threads groups i gi a.st a.lowest r)
    (hs : branchStep sp' i jj s a b = some a') :
    ∃ r', runEff r (bmBranch sp key groups i gi y jj s b) = some r' ∧ BRel threads groups i gi a'.st a'.lowest r' ∧
      r'.dead = r.dead ∧ a'.allZero = (a.allZero && decide ((sp'.child s i b).1 = 0)) := by
  obtain ⟨core, tab, low, dead⟩ := r
  obtain ⟨h1, h2, h3, h4⟩ := h
  dsimp only at h1 h2 h3
  subst h1; subst h3
  unfold branchStep at hs
  dsimp only at hs
  unfold bmBranch
  dsimp only
  rw [hc]
  by_cases c0 : (sp'.child s i b).1 = 0
  · rw [if_pos c0] at hs ⊢
    obtain ⟨st2, e2, rfl⟩ := Option.map_eq_some_iff.1 hs
    have hg : a.st.bare.gen i = gi := h4
    simp only [runEff, BSt.write]
    rw [if_pos hg, writeCell_bare, e2]
    refine ⟨_, rfl, ⟨rfl, ?_, rfl, ?_⟩, rfl, by simp [c0]⟩
    · rw [(writeCell_frame e2).1]; exact h2
    · rw [(writeCell_frame e2).2]; exact h4
  · rw [if_neg c0] at hs ⊢
    by_cases c1 : (sp'.child s i b).1 < 0
    · rw [if_pos c1] at hs ⊢
      obtain ⟨st2, e2, rfl⟩ := Option.map_eq_some_iff.1 hs
      obtain ⟨k1, k2, k3⟩ := oneCase_bare hm e2
      have hg : a.st.bare.gen i = gi := h4
      simp only [runEff, BSt.write]
      rw [if_pos hg, k1]
      refine ⟨_, rfl, ⟨rfl, ?_, rfl, ?_⟩, rfl, by simp [c0]⟩
      · rw [k2]; exact h2
      · rw [k3]; exact h4
    · rw [if_neg c1] at hs ⊢
      by_cases c2 : (sp'.child s i b).1 ≤ (i : Int) - 1
      · rw [if_pos c2] at hs
        cases hs
        have hkk := hk (sp'.child s i b).1.toNat (by omega) (by omega)
        rw [if_pos ⟨c2, hkk⟩]
        refine ⟨_, rfl, ⟨rfl, ?_, rfl, h4⟩, rfl, by simp [c0]⟩
        intro j
        dsimp only
        refine (absP_push tab hy hkk _ j).trans ?_
        by_cases hj : j = (sp'.child s i b).1.toNat
        · subst hj
          rw [if_pos rfl, upd_same, h4]
          exact (h2 _).cons _
        · rw [if_neg hj, upd_ne _ _ hj]; exact h2 j
      · rw [if_neg c2] at hs; cases hs

theorem branch_fold {sp sp' : DdSpec N S} (hm : NoMerge sp') {key : Nat → S → Nat} {groups : Nat → Nat} {threads i gi y jj : Nat} {s : S}
    (hy : y < threads) : ∀ (bs : List (Fin N)) (a a' : P2 N S) (r : BmRun N S),
    (∀ b ∈ bs, sp.child s i b = sp'.child s i b) →
    (∀ b ∈ bs, ∀ j : Nat, 0 < j → (sp'.child s i b).1 = j → key j (sp'.child s i b).2 < groups j) →
    BRel threads groups i gi a.st a.lowest r → bs.foldlM (branchStep sp' i jj s) a = some a' →
    ∃ r', (bs.map (bmBranch sp key groups i gi y jj s)).foldlM runEff r = some r' ∧
      BRel threads groups i gi a'.st a'.lowest r' ∧ r'.dead = r.dead ∧
      a'.allZero = (a.allZero && bs.all fun b => decide ((sp'.child s i b).1 = 0)) := by
  intro bs
  induction bs with
  | nil => intro a a' r _ _ h hs; cases hs; exact ⟨r, rfl, h, rfl, by simp⟩
  | cons b bs ih =>
    intro a a' r hc hk h hs
    rw [List.foldlM_cons] at hs
    obtain ⟨a1, h1, h2⟩ := Option.bind_eq_some_iff.1 hs
    obtain ⟨r1, e1, e2, e3, e4⟩ := branch_step hm hy (hc b (by simp)) (hk b (by simp)) h h1
    obtain ⟨r2, k1, k2, k3, k4⟩ := ih a1 a' r1 (fun b hb => hc b (by simp [hb])) (fun b hb => hk b (by simp [hb])) e2 h2
    refine ⟨r2, ?_, k2, k3.trans e3, ?_⟩
    · rw [List.map_cons, List.foldlM_cons, e1]; exact k1
    · rw [k4, e4, List.all_cons, Bool.and_assoc]

/-- effects of the second loop apart from the source pointers -/
def bmBody (sp : DdSpec N S) (key : Nat → S → Nat) (groups : Nat → Nat) (i gi : Nat) (z : Nat × Nat × (SNode N S × Int)) : List (Eff N S) :=
  if z.2.2.2 ≤ 0 then [] else bmNode sp key groups i gi z.1 (z.2.1 + z.2.2.2.toNat - 1) z.2.2.1.2.2

/-- the source pointer of a node -/
def bmSrc (i : Nat) (z : Nat × Nat × (SNode N S × Int)) : Eff N S :=
  .write z.2.2.1.1 z.2.2.1.2.1 (bmId i z.2.1 z.2.2.2)

theorem bmItem_eq (sp : DdSpec N S) (key : Nat → S → Nat) (groups : Nat → Nat) (i gi : Nat) (z : Nat × Nat × (SNode N S × Int)) :
    bmItem sp key groups i gi z.1 z.2.1 z.2.2 = bmSrc i z :: bmBody sp key groups i gi z := by
  unfold bmItem bmSrc bmBody bmId
  by_cases h : z.2.2.2 ≤ 0
  · rw [if_pos h, if_pos h, if_pos h]
  · rw [if_neg h, if_neg h, if_neg h]

theorem flatMap_cons_perm {α β : Type} (f : α → β) (g : α → List β) : ∀ l : List α,
    (l.flatMap fun x => f x :: g x).Perm (l.map f ++ l.flatMap g) := by
  intro l
  induction l with
  | nil => exact .nil
  | cons x l ih =>
    rw [List.flatMap_cons, List.map_cons, List.flatMap_cons, List.cons_append, List.cons_append]
    refine List.Perm.cons _ ?_
    refine (ih.append_left (g x)).trans ?_
    rw [← List.append_assoc, ← List.append_assoc]
    exact (List.perm_append_comm).append_right _

theorem phase2_fold {sp sp' : DdSpec N S} (hm : NoMerge sp') {key : Nat → S → Nat} {groups : Nat → Nat} {threads i gi : Nat} (hi : 0 < i) :
    ∀ (L : List (Nat × Nat × (SNode N S × Int))) (a a' : P3 N S) (r : BmRun N S) (n : Nat),
    (∀ z ∈ L, z.1 < threads) →
    (∀ z ∈ L, ∀ b, sp.child z.2.2.1.2.2 i b = sp'.child z.2.2.1.2.2 i b) →
    (∀ z ∈ L, ∀ b, ∀ j : Nat, 0 < j → (sp'.child z.2.2.1.2.2 i b).1 = j → key j (sp'.child z.2.2.1.2.2 i b).2 < groups j) →
    BRel threads groups i gi a.st a.lowest r → r.dead = a.deadCount →
    L.filterMap (fun z => if 0 < z.2.2.2 then some (z.2.1 + z.2.2.2.toNat - 1) else none) = List.range' a.jj n →
    (L.map fun z => toDone i z.2.1 z.2.2).foldlM (phase2Step sp' i) a = some a' →
    ∃ r', (L.flatMap (bmBody sp key groups i gi)).foldlM runEff r = some r' ∧
      BRel threads groups i gi a'.st a'.lowest r' ∧ r'.dead = a'.deadCount := by
  intro L
  induction L with
  | nil => intro a a' r n _ _ _ h hd _ hs; cases hs; exact ⟨r, rfl, h, hd⟩
  | cons z L ih =>
    intro a a' r n hy hc hk h hd hn hs
    rw [List.map_cons, List.foldlM_cons] at hs
    obtain ⟨a1, h1, h2⟩ := Option.bind_eq_some_iff.1 hs
    rw [List.flatMap_cons, List.foldlM_append]
    have hy' := fun z hz => hy z (List.mem_cons_of_mem _ hz)
    have hc' := fun z hz => hc z (List.mem_cons_of_mem _ hz)
    have hk' := fun z hz => hk z (List.mem_cons_of_mem _ hz)
    by_cases hz : 0 < z.2.2.2
    · rw [List.filterMap_cons, if_pos hz] at hn
      dsimp only at hn
      cases n with
      | zero => cases hn
      | succ n =>
        rw [List.range'_succ] at hn
        obtain ⟨hj, hn⟩ := List.cons.inj hn
        have e0 : toDone i z.2.1 z.2.2 = (z.2.2.1.2.2, ⟨i, a.jj⟩) := by
          unfold toDone; rw [if_pos hz, hj]
        rw [e0] at h1
        unfold phase2Step at h1
        have n1 : ¬ ((z.2.2.1.2.2, (⟨i, a.jj⟩ : NodeId)).2 = .one) := by
          intro h; have := congrArg NodeId.row h; simp only [NodeId.one, NodeId.zero] at this; omega
        have n2 : ¬ ((z.2.2.1.2.2, (⟨i, a.jj⟩ : NodeId)).2 = .zero) := by
          intro h; have := congrArg NodeId.row h; simp only [NodeId.one, NodeId.zero] at this; omega
        rw [if_neg n1, if_neg n2] at h1
        obtain ⟨p, hp, e1⟩ := Option.map_eq_some_iff.1 h1
        obtain ⟨r1, k1, k2, k3, k4⟩ := branch_fold (sp := sp) (key := key) hm (hy z (by simp)) (List.finRange N) _ p r
          (fun b _ => hc z (by simp) b) (fun b _ => hk z (by simp) b) (by exact h) hp
        have e2 : bmBody sp key groups i gi z = (List.finRange N).map (bmBranch sp key groups i gi z.1 a.jj z.2.2.1.2.2) ++
            if ∀ b, (sp'.child z.2.2.1.2.2 i b).1 = 0 then [.dead] else [] := by
          unfold bmBody bmNode
          rw [if_neg (by omega), hj]
          simp only [hc z (by simp)]
        have k4' : p.allZero = true ↔ ∀ b, (sp'.child z.2.2.1.2.2 i b).1 = 0 := by
          rw [k4]; simp
        subst e1
        rw [e2, List.foldlM_append]
        have k5 : ((List.finRange N).map (bmBranch sp key groups i gi z.1 a.jj z.2.2.1.2.2)).foldlM runEff r = some r1 := k1
        rw [k5]
        by_cases hall : ∀ b, (sp'.child z.2.2.1.2.2 i b).1 = 0
        · rw [if_pos hall]
          rw [if_pos (k4'.2 hall)] at h2
          exact ih _ a' { r1 with dead := r1.dead + 1 } n hy' hc' hk' ⟨k2.core, k2.pend, k2.low, k2.gen⟩
            (by dsimp only; rw [k3, hd]) hn h2
        · rw [if_neg hall]
          rw [if_neg (fun h => hall (k4'.1 h))] at h2
          exact ih _ a' r1 n hy' hc' hk' ⟨k2.core, k2.pend, k2.low, k2.gen⟩
            (by dsimp only; rw [k3, hd]) hn h2
    · rw [List.filterMap_cons, if_neg hz] at hn
      have e0 : toDone i z.2.1 z.2.2 = (z.2.2.1.2.2, .one) := by
        unfold toDone; rw [if_neg hz]
      rw [e0] at h1
      unfold phase2Step at h1
      rw [if_pos rfl] at h1
      cases h1
      have e2 : bmBody sp key groups i gi z = [] := by
        unfold bmBody; rw [if_pos (by omega)]
      rw [e2]
      exact ih a a' r n hy' hc' hk' h hd hn h2

end TdZdd
