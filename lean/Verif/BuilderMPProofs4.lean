import Verif.BuilderMPProofs3

/-! Parallel builders, part 4: a level of a parallel builder is a level of the sequential builder. -/

namespace TdZdd

variable {N : Nat} {S : Type}

/-! ### The sweeper does not look at pending nodes -/

theorem sweepRow_bare (k : Nat) (st : BSt N S) (ids : Nat → List NodeId) (i : Nat) :
    sweepRow k (st.bare, ids) i = (sweepRow k (st, ids) i).map fun p => (p.1.bare, p.2) := by
  unfold sweepRow
  show Option.map _ ((st.row i).foldlM _ _) = _
  cases (st.row i).foldlM (sweepNode k i ids) ([], []) <;> rfl

theorem sweepRow_pend {k : Nat} {a a' : BSt N S × (Nat → List NodeId)} {i : Nat} (h : sweepRow k a i = some a') :
    a'.1.pend = a.1.pend := by
  unfold sweepRow at h
  obtain ⟨q, _, rfl⟩ := Option.map_eq_some_iff.1 h
  rfl

theorem sweepRows_bare (k : Nat) : ∀ (l : List Nat) (st : BSt N S) (ids : Nat → List NodeId) (p : BSt N S × (Nat → List NodeId)),
    l.foldlM (sweepRow k) (st, ids) = some p →
    l.foldlM (sweepRow k) (st.bare, ids) = some (p.1.bare, p.2) ∧ p.1.pend = st.pend := by
  intro l
  induction l with
  | nil => intro st ids p h; cases h; exact ⟨rfl, rfl⟩
  | cons i l ih =>
    intro st ids p h
    rw [List.foldlM_cons] at h ⊢
    obtain ⟨q, h1, h2⟩ := Option.bind_eq_some_iff.1 h
    rw [sweepRow_bare, h1]
    have := ih q.1 q.2 p h2
    exact ⟨this.1, this.2.trans (sweepRow_pend h1)⟩

theorem sweep_bare {k : Nat} {st st' : BSt N S} (h : sweep k st = some st') :
    sweep k st.bare = some st'.bare ∧ st'.pend = st.pend := by
  unfold sweep at h ⊢
  obtain ⟨p, h1, h2⟩ := Option.bind_eq_some_iff.1 h
  obtain ⟨ones, _, h4⟩ := Option.bind_eq_some_iff.1 h2
  obtain ⟨root, h5, h6⟩ := Option.bind_eq_some_iff.1 h4
  obtain ⟨root', h7, rfl⟩ := Option.map_eq_some_iff.1 h6
  have hb := sweepRows_bare k _ _ _ _ h1
  refine ⟨?_, hb.2⟩
  show ((List.range' k (st.numRows - k)).foldlM (sweepRow k) (st.bare, fun _ => [])).bind _ = _
  rw [hb.1]
  show Option.bind p.1.root _ = _
  rw [h5]
  show Option.map _ ((p.2 root.row)[root.col]?) = _
  rw [h7]
  rfl

theorem update_bare {cur child count : Nat} {st st' : BSt N S} (h : update cur child count st = some st') :
    update cur child count st.bare = some st'.bare ∧ st'.pend = st.pend := by
  unfold update at h ⊢
  dsimp only at h ⊢
  by_cases h1 : cur ≤ 1
  · rw [if_pos h1] at h ⊢; cases h; exact ⟨rfl, rfl⟩
  · rw [if_neg h1] at h ⊢
    have e1 : st.bare.sw = st.sw := rfl
    have e2 : st.bare.row = st.row := rfl
    rw [e1, e2]
    generalize (if cur ≥ st.sw.size then { st.sw with size := cur + 1 } else st.sw) = sw at h ⊢
    generalize (if sw.max < sw.all + (st.row cur).length then sw.all + (st.row cur).length else sw.max) = mx at h ⊢
    split at h
    · rename_i hk
      rw [if_pos hk]
      split at h
      · rename_i hd
        rw [if_pos hd]
        cases h
        exact ⟨rfl, rfl⟩
      · rename_i hd
        rw [if_neg hd]
        have := sweep_bare h
        exact ⟨this.1, this.2⟩
    · cases h

/-! ### `initRow` -/

/-- `output.initRow(i, n)` -/
def BSt.initRow (st : BSt N S) (i n : Nat) : BSt N S :=
  { st with row := upd st.row i (List.replicate n fun _ => none), gen := upd st.gen i (st.gen i + 1) }

theorem writeCell_initRow {st st' : BSt N S} {i n r c : Nat} {b : Fin N} {v : NodeId} (hr : r ≠ i)
    (h : st.writeCell r c b v = some st') : (st.initRow i n).writeCell r c b v = some (st'.initRow i n) ∧
      st'.row i = st.row i ∧ st'.gen = st.gen ∧ st'.pend = st.pend := by
  unfold BSt.writeCell at h ⊢
  split at h
  · rename_i h1
    have e1 : (st.initRow i n).row r = st.row r := upd_ne _ _ hr
    rw [if_pos (by exact h1), e1]
    split at h
    · cases h
    · cases h
      refine ⟨?_, upd_ne _ _ (fun h => hr h.symm), rfl, rfl⟩
      dsimp only [BSt.initRow]
      rw [upd_upd_comm _ _ _ (fun h => hr h.symm)]
  · cases h

theorem write_initRow {st st' : BSt N S} {i n : Nat} {l : Loc N} {g : Nat} {v : NodeId} (hl : ∀ r c b, l = .cell r c b → r ≠ i)
    (h : st.write l g v = some st') : (st.initRow i n).write l g v = some (st'.initRow i n) ∧
      st'.row i = st.row i ∧ st'.gen = st.gen ∧ st'.pend = st.pend := by
  cases l with
  | root => cases h; exact ⟨rfl, rfl, rfl, rfl⟩
  | cell r c b =>
    have hr := hl r c b rfl
    dsimp only [BSt.write] at h ⊢
    have e1 : (st.initRow i n).gen r = st.gen r := upd_ne _ _ hr
    rw [e1]
    split at h
    · rename_i hg
      rw [if_pos hg]
      exact writeCell_initRow hr h
    · cases h

theorem src_fold {i n : Nat} : ∀ (L : List (Nat × Nat × (SNode N S × Int))) (st st' : BSt N S) (r : BmRun N S),
    (∀ z ∈ L, ∀ r c b, z.2.2.1.1 = .cell r c b → r ≠ i) → wrFlat i st L = some st' →
    (L.map (bmSrc i)).foldlM runEff { r with core := (st.initRow i n).bare } = some { r with core := (st'.initRow i n).bare } ∧
      st'.row i = st.row i ∧ st'.gen = st.gen ∧ st'.pend = st.pend := by
  intro L
  induction L with
  | nil => intro st st' r _ h; cases h; exact ⟨rfl, rfl, rfl, rfl⟩
  | cons z L ih =>
    intro st st' r hl h
    unfold wrFlat at h
    rw [List.foldlM_cons] at h
    obtain ⟨st1, h1, h2⟩ := Option.bind_eq_some_iff.1 h
    obtain ⟨k1, k2, k3, k4⟩ := write_initRow (n := n) (hl z (by simp)) h1
    obtain ⟨m1, m2, m3, m4⟩ := ih st1 st' r (fun z hz => hl z (by simp [hz])) h2
    refine ⟨?_, m2.trans k2, m3.trans k3, m4.trans k4⟩
    rw [List.map_cons, List.foldlM_cons]
    have e1 : runEff { r with core := (st.initRow i n).bare } (bmSrc i z) = some { r with core := (st1.initRow i n).bare } := by
      unfold bmSrc runEff
      dsimp only
      rw [write_bare, k1]; rfl
    rw [e1]
    exact m1

/-! ### Different locations -/

theorem bmBranch_loc {sp : DdSpec N S} {key : Nat → S → Nat} {groups : Nat → Nat} {i gi y col : Nat} {s : S} {b : Fin N} {l : Loc N}
    (h : (bmBranch sp key groups i gi y col s b).loc? = some l) : l = .cell i col b := by
  unfold bmBranch at h
  dsimp only at h
  split at h
  · exact (Option.some.inj h).symm
  · split at h
    · exact (Option.some.inj h).symm
    · split at h <;> cases h

theorem bmNode_locs (sp : DdSpec N S) (key : Nat → S → Nat) (groups : Nat → Nat) (i gi y col : Nat) (s : S) :
    ((bmNode sp key groups i gi y col s).filterMap Eff.loc?).Nodup ∧
      ∀ l ∈ (bmNode sp key groups i gi y col s).filterMap Eff.loc?, ∃ b, l = .cell i col b := by
  have e : (bmNode sp key groups i gi y col s).filterMap Eff.loc? =
      (List.finRange N).filterMap fun b => (bmBranch sp key groups i gi y col s b).loc? := by
    unfold bmNode
    rw [List.filterMap_append, List.filterMap_map]
    have : (if ∀ b, (sp.child s i b).1 = 0 then [Eff.dead] else []).filterMap (Eff.loc? (N := N) (S := S)) = [] := by
      split <;> rfl
    rw [this, List.append_nil]
    rfl
  rw [e]
  constructor
  · refine List.pairwise_filterMap.2 ?_
    refine List.Pairwise.imp ?_ (List.nodup_finRange N)
    intro b b' hb l hl l' hl' hll
    rw [bmBranch_loc hl, bmBranch_loc hl'] at hll
    cases hll
    exact hb rfl
  · intro l hl
    obtain ⟨b, _, hb⟩ := List.mem_filterMap.1 hl
    exact ⟨b, bmBranch_loc hb⟩

theorem effs_nodup {sp : DdSpec N S} {key : Nat → S → Nat} {groups : Nat → Nat} {i gi m n : Nat}
    (L : List (Nat × Nat × (SNode N S × Int)))
    (hn : L.filterMap (fun z => if 0 < z.2.2.2 then some (z.2.1 + z.2.2.2.toNat - 1) else none) = List.range' m n)
    (hd : (L.map fun z => z.2.2.1.1).Nodup) (hl : ∀ z ∈ L, ∀ r c b, z.2.2.1.1 = .cell r c b → r ≠ i) :
    ((L.map (bmSrc i) ++ L.flatMap (bmBody sp key groups i gi)).filterMap Eff.loc?).Nodup := by
  rw [List.filterMap_append]
  have e1 : (L.map (bmSrc i)).filterMap Eff.loc? = L.map fun z => z.2.2.1.1 := by
    rw [List.filterMap_map]
    have : (Eff.loc? ∘ bmSrc i : Nat × Nat × (SNode N S × Int) → Option (Loc N)) = some ∘ fun z => z.2.2.1.1 := rfl
    rw [this, List.filterMap_eq_map]
  rw [e1]
  have hb : ∀ z l, l ∈ (bmBody sp key groups i gi z).filterMap Eff.loc? →
      0 < z.2.2.2 ∧ ∃ b, l = .cell i (z.2.1 + z.2.2.2.toNat - 1) b := by
    intro z l hl
    unfold bmBody at hl
    split at hl
    · cases hl
    · exact ⟨by omega, (bmNode_locs ..).2 l hl⟩
  refine List.nodup_append.2 ⟨hd, ?_, ?_⟩
  · rw [List.filterMap_flatMap]
    refine List.pairwise_flatMap.2 ⟨?_, ?_⟩
    · intro z _
      unfold bmBody
      split
      · exact List.Pairwise.nil
      · exact (bmNode_locs ..).1
    · have hr : (List.range' m n).Nodup := List.nodup_range'
      rw [← hn] at hr
      refine List.Pairwise.imp ?_ (List.pairwise_filterMap.1 hr)
      intro z z' h l hl l' hl' hll
      obtain ⟨p1, b, e2⟩ := hb z l hl
      obtain ⟨p2, b', e3⟩ := hb z' l' hl'
      rw [e2, e3] at hll
      have := h _ (if_pos p1) _ (if_pos p2)
      exact this (Loc.cell.inj hll).2.1
  · intro l h1 l' h2 hll
    subst hll
    obtain ⟨z, hz, rfl⟩ := List.mem_map.1 h1
    obtain ⟨e, he, h3⟩ := List.mem_filterMap.1 h2
    obtain ⟨z', _, hz'⟩ := List.mem_flatMap.1 he
    obtain ⟨_, b, e2⟩ := hb z' _ (List.mem_filterMap.2 ⟨e, hz', h3⟩)
    exact hl z hz _ _ _ e2 rfl

/-! ### New nodes -/

theorem run_mem : ∀ (es : List (Eff N S)) (a a' : BmRun N S), es.foldlM runEff a = some a' →
    ∀ y x j p, p ∈ a'.tab y x j → p ∈ a.tab y x j ∨ Eff.push y x j p ∈ es := by
  intro es
  induction es with
  | nil => intro a a' h y x j p hp; cases h; exact .inl hp
  | cons e es ih =>
    intro a a' h y x j p hp
    rw [List.foldlM_cons] at h
    obtain ⟨a1, h1, h2⟩ := Option.bind_eq_some_iff.1 h
    rcases ih a1 a' h2 y x j p hp with h3 | h3
    · cases e with
      | write l g v =>
        obtain ⟨c, _, rfl⟩ := Option.map_eq_some_iff.1 h1
        exact .inl h3
      | push y' x' j' p' =>
        cases h1
        simp only [pushTab] at h3
        split at h3
        · rename_i hh
          obtain ⟨rfl, rfl, rfl⟩ := hh
          rcases List.mem_cons.1 h3 with rfl | h3
          · exact .inr (by simp)
          · exact .inl h3
        · exact .inl h3
      | dead => cases h1; exact .inl h3
      | fail => cases h1
    · exact .inr (by simp [h3])

theorem push_mem {sp : DdSpec N S} {key : Nat → S → Nat} {groups : Nat → Nat} {i gi : Nat} {L : List (Nat × Nat × (SNode N S × Int))}
    {y x j : Nat} {p : SNode N S} (h : Eff.push y x j p ∈ L.map (bmSrc i) ++ L.flatMap (bmBody sp key groups i gi)) :
    j < i ∧ x = key j p.2.2 := by
  rcases List.mem_append.1 h with h | h
  · obtain ⟨z, _, hz⟩ := List.mem_map.1 h; cases hz
  · obtain ⟨z, _, hz⟩ := List.mem_flatMap.1 h
    unfold bmBody at hz
    split at hz
    · cases hz
    · unfold bmNode at hz
      rcases List.mem_append.1 hz with hz | hz
      · obtain ⟨b, _, hb⟩ := List.mem_map.1 hz
        unfold bmBranch at hb
        dsimp only at hb
        split at hb
        · cases hb
        · split at hb
          · cases hb
          · split at hb
            · rename_i h1 h2 h3
              cases hb
              exact ⟨by omega, rfl⟩
            · cases hb
      · split at hz
        · rcases List.mem_cons.1 hz with hz | hz <;> cases hz
        · cases hz

theorem absP_cleared (threads : Nat) (groups : Nat → Nat) (tab : Nat → Nat → Nat → List (SNode N S)) (i j : Nat) :
    absP threads groups (fun y x j => if j = i then [] else tab y x j) j =
      upd (absP threads groups tab) i [] j := by
  by_cases hj : j = i
  · subst hj; rw [upd_same]; unfold absP bmGroup; simp
  · rw [upd_ne _ _ hj]; unfold absP bmGroup; simp [hj]

/-! ### One level -/

theorem bmLevel_eq {sp sp' : DdSpec N S} (hm : NoMerge sp') {key : Nat → S → Nat} {groups : Nat → Nat} {threads top i : Nat}
    {sc : BmSched N S} (hsc : sc.Ok threads) {G : Nat → List S} {st : BSt N S} (hi : 0 < i) (hit : i ≤ top)
    (h : Lv sp' top G st (i + 1)) {a : BmSt N S} (hcore : a.core = st.bare)
    (hpd : ∀ j, (absP threads groups a.tab j).Perm (st.pend j))
    (heq : ∀ x < groups i, ∀ q ∈ bmGroup threads a.tab x i, ∀ p ∈ bmGroup threads a.tab x i,
      sp.eqv i q.2.2 p.2.2 = sp'.eqv i q.2.2 p.2.2)
    (hsep : ∀ x < groups i, ∀ x' < groups i, x ≠ x' → ∀ q ∈ bmGroup threads a.tab x i, ∀ p ∈ bmGroup threads a.tab x' i,
      sp'.eqv i q.2.2 p.2.2 = false)
    (hc : ∀ p ∈ absP threads groups a.tab i, ∀ b, sp.child p.2.2 i b = sp'.child p.2.2 i b)
    (hk : ∀ p ∈ absP threads groups a.tab i, ∀ b, ∀ j : Nat, 0 < j → (sp'.child p.2.2 i b).1 = j →
      key j (sp'.child p.2.2 i b).2 < groups j)
    {st1 : BSt N S} (hs : construct sp' { st with pend := absP threads groups a.tab } i = some st1) :
    ∃ a', bmLevel (bmCode0 sp i) sp key groups threads sc 0 a i = some a' ∧ a'.core = st1.bare ∧
      (∀ j, (absP threads groups a'.tab j).Perm (st1.pend j)) ∧
      ∀ y x j p, p ∈ a'.tab y x j → (j ≠ i ∧ p ∈ a.tab y x j) ∨ (j < i ∧ x = key j p.2.2) := by
  obtain ⟨core, tab⟩ := a
  dsimp only at hcore hpd heq hsep hc hk hs
  subst hcore
  have hrow : st.row i = [] := by
    have h1 := h.len i hi
    rw [h.empty i (Nat.lt_succ_self i)] at h1
    exact List.length_eq_zero_iff.1 h1
  unfold construct at hs
  dsimp only at hs
  rw [hrow] at hs
  obtain ⟨p1, h1, h2⟩ := Option.bind_eq_some_iff.1 hs
  obtain ⟨p3, h3, h4⟩ := Option.bind_eq_some_iff.1 h2
  have hg := groups_fold (sp := sp) hm sc.thr (threads := threads) (tab := tab) (List.range (groups i)) _ _ List.nodup_range
    (fun e he => by cases he)
    (fun x hx => heq x (List.mem_range.1 hx))
    (fun x hx x' hx' => hsep x (List.mem_range.1 hx) x' (List.mem_range.1 hx')) h1
  obtain ⟨cs, g1, g2, g3, g4, g5, g6, g7⟩ := hg
  dsimp only [List.length_nil] at g2 g3 g4 g5 g6 g7
  rw [Nat.zero_add] at g2
  rw [List.nil_append] at g3
  generalize hL : bmFlat sc.thr (bmBases 0 cs) = L at g3 g4 g5 g6 g7
  have hmem : ∀ z ∈ L, z.2.2.1 ∈ absP threads groups tab i := by
    intro z hz
    have : z.2.2.1 ∈ L.map fun z => z.2.2.1 := List.mem_map.2 ⟨z, hz, rfl⟩
    rw [g6] at this
    exact this
  have hloc : ∀ z ∈ L, ∀ r c b, z.2.2.1.1 = .cell r c b → r ≠ i := by
    intro z hz r c b e
    have hp : z.2.2.1 ∈ st.pend i := (hpd i).mem_iff.1 (hmem z hz)
    have := (h.inv.pd_ok (l := z.2.2.1.1) (g := z.2.2.1.2.1) (s := z.2.2.1.2.2) hp).1
    rw [e] at this
    have := this.1
    omega
  have hnd : (L.map fun z => z.2.2.1.1).Nodup := by
    have e : (L.map fun z => z.2.2.1.1) = (L.map fun z => z.2.2.1).map Prod.fst := by rw [List.map_map]; rfl
    rw [e, g6]
    exact (((hpd i).map Prod.fst).nodup_iff).2 (h.inv.nodup i)
  have hthr : ∀ z ∈ L, z.1 < threads := by
    intro z hz
    obtain ⟨x, hx⟩ := g7 z hz
    rw [hx]; exact hsc.thr x
  -- source pointers
  obtain ⟨s1, s2, s3, s4⟩ := src_fold (n := bmTotal cs) L _ _
    { core := st.bare, tab := fun y x j => if j = i then [] else tab y x j, lowest := i - 1, dead := 0 } hloc g4
  dsimp only at s1 s2 s3 s4
  -- branches
  have e3 : p1.st.row i ++ List.replicate (p1.m - ([] : List (Fin N → Option NodeId)).length) (fun _ => none) =
      List.replicate (bmTotal cs) fun _ => none := by
    rw [s2, hrow, g2]; rfl
  rw [e3, g3] at h3
  have hph := phase2_fold (sp := sp) (key := key) (groups := groups) (threads := threads) (gi := st.gen i + 1) hm hi L _ p3
    { core := (p1.st.initRow i (bmTotal cs)).bare, tab := fun y x j => if j = i then [] else tab y x j,
      lowest := i - 1, dead := 0 } (bmTotal cs) hthr (fun z hz => hc _ (hmem z hz)) (fun z hz => hk _ (hmem z hz))
    ⟨rfl, (by
        intro j
        dsimp only
        rw [absP_cleared, s4]), rfl, (by dsimp only; rw [upd_same, s3])⟩ rfl (by exact g5) h3
  obtain ⟨r, r1, r2, r3⟩ := hph
  have hrun : (L.map (bmSrc i) ++ L.flatMap (bmBody sp key groups i (st.gen i + 1))).foldlM runEff
      { core := (st.initRow i (bmTotal cs)).bare, tab := fun y x j => if j = i then [] else tab y x j,
        lowest := i - 1, dead := 0 } = some r := by
    rw [List.foldlM_append]
    have s1' : (L.map (bmSrc i)).foldlM runEff
      { core := (st.initRow i (bmTotal cs)).bare, tab := fun y x j => if j = i then [] else tab y x j,
        lowest := i - 1, dead := 0 } =
      some ⟨(p1.st.initRow i (bmTotal cs)).bare, fun y x j => if j = i then [] else tab y x j, i - 1, 0⟩ := s1
    rw [s1']
    exact r1
  have heffs : bmEffs sp key groups i (st.gen i + 1) sc.thr (bmBases 0 cs) =
      L.flatMap fun z => bmSrc i z :: bmBody sp key groups i (st.gen i + 1) z := by
    rw [bmEffs_flat, hL]
    congr 1
    funext z
    exact bmItem_eq ..
  have hperm : (L.map (bmSrc i) ++ L.flatMap (bmBody sp key groups i (st.gen i + 1))).Perm
      (sc.ord (bmEffs sp key groups i (st.gen i + 1) sc.thr (bmBases 0 cs))) := by
    refine List.Perm.trans ?_ (hsc.ord _).symm
    rw [heffs]
    exact (flatMap_cons_perm _ _ L).symm
  generalize hR0 : ({ core := (st.initRow i (bmTotal cs)).bare, tab := fun y x j => if j = i then [] else tab y x j, lowest := i - 1, dead := 0 } : BmRun N S) = R0 at hrun
  have hfin := runEffs_perm hperm (effs_nodup L g5 hnd hloc) R0
  rw [hrun] at hfin
  cases hr' : (sc.ord (bmEffs sp key groups i (st.gen i + 1) sc.thr (bmBases 0 cs))).foldlM runEff R0 with
  | none => rw [hr'] at hfin; exact absurd hfin id
  | some r' =>
    rw [hr'] at hfin
    obtain ⟨u1, u2, u3, u4⟩ : r.Eqv r' := hfin
    obtain ⟨w1, w2⟩ := update_bare h4
    have hnr : i < st.bare.numRows := by
      show i < st.numRows
      rw [h.numRows]; omega
    refine ⟨{ core := st1.bare, tab := r'.tab }, ?_, rfl, ?_, ?_⟩
    · unfold bmLevel
      rw [if_neg (by exact fun hh => hh ⟨hi, hnr⟩), g1]
      dsimp only
      have eg : upd st.bare.gen i (st.bare.gen i + 1) i = st.gen i + 1 := upd_same _ _ _
      rw [eg, Nat.zero_add]
      show ((sc.ord (bmEffs sp key groups i (st.gen i + 1) sc.thr (bmBases 0 cs))).foldlM runEff
        { core := (st.initRow i (bmTotal cs)).bare, tab := fun y x j => if j = i then [] else tab y x j, lowest := i - 1, dead := 0 }).bind _ = _
      rw [hR0, hr']
      dsimp only [Option.bind]
      rw [← u1, ← u3, ← u4, r2.core, r2.low, r3, w1]
      rfl
    · intro j
      dsimp only
      rw [w2]
      exact (absP_perm (fun y x j => (u2 y x j).symm) j).trans (r2.pend j)
    · intro y x j p hp
      dsimp only at hp
      rcases run_mem _ _ _ hr' y x j p hp with hh | hh
      · rw [← hR0] at hh
        dsimp only at hh
        split at hh
        · cases hh
        · rename_i hj; exact .inl ⟨hj, hh⟩
      · exact .inr (push_mem (hperm.mem_iff.2 hh))

end TdZdd
