import Verif.BuilderMPProofs4
import Verif.SubsetterProofs3

/-! Parallel builders, part 5: all levels. -/

namespace TdZdd

variable {N : Nat} {S : Type}

/-- A builder that simulates `construct` up to the order of the pending nodes and parts of the state that `rel` does not
mention keeps the invariant of the sequential builder. -/
theorem levels_rel {M : Type} {sp : DdSpec N S} {top : Nat} (hl : Lawful sp) (htop : sp.root.1 = (top : Int))
    (rel : M → BSt N S → Nat → Prop) (step : M → Nat → Option M)
    (hstep : ∀ (m : M) (st : BSt N S) (i : Nat) (G : Nat → List S), 0 < i → i ≤ top → rel m st i →
      Lv sp top G st (i + 1) → ∃ pd, (∀ j, (pd j).Perm (st.pend j)) ∧ ∀ st1,
        construct sp { st with pend := pd } i = some st1 → ∃ m', step m i = some m' ∧ rel m' st1 (i - 1)) :
    ∀ (n : Nat), n ≤ top → ∀ (m : M) (st : BSt N S) (G : Nat → List S), rel m st n → Lv sp top G st (n + 1) →
      SwOK top G st (n + 1) → (n = top → 0 < n → st.pend top ≠ []) →
      ∃ m' st', (levels n).foldlM step m = some m' ∧ rel m' st' 0 ∧ ∃ G', Lv sp top G' st' 1 := by
  intro n
  induction n with
  | zero => intro _ m st G hr h _ _; exact ⟨m, st, rfl, hr, G, h⟩
  | succ n ih =>
    intro hn m st G hr h hsw hpt
    obtain ⟨pd, hpd, hst⟩ := hstep m st (n + 1) G (Nat.succ_pos n) hn hr h
    obtain ⟨st1, h1, G1, h2, h3⟩ := construct_spec hl htop (Nat.succ_pos n) hn (h.perm hpd)
      (hsw.perm hpd) (fun he => by
        have := hpt he (Nat.succ_pos n)
        dsimp only
        intro h0
        have h4 := hpd top
        rw [h0] at h4
        exact this h4.symm.eq_nil)
    obtain ⟨m', e, hr'⟩ := hst st1 h1
    obtain ⟨m'', st'', e', h4⟩ := ih (by omega) m' st1 G1 hr' h2 h3 (by omega)
    refine ⟨m'', st'', ?_, h4⟩
    rw [levels_succ, List.foldlM_cons, e]
    exact e'

theorem finish_bare (st : BSt N S) : st.bare.finish = st.finish := rfl

theorem mem_absP {threads : Nat} {groups : Nat → Nat} {tab : Nat → Nat → Nat → List (SNode N S)} {x i : Nat} (hx : x < groups i)
    {p : SNode N S} (hp : p ∈ bmGroup threads tab x i) : p ∈ absP threads groups tab i :=
  List.mem_flatMap.2 ⟨x, List.mem_range.2 hx, hp⟩

theorem mem_bmGroup {threads : Nat} {tab : Nat → Nat → Nat → List (SNode N S)} {x i : Nat} {p : SNode N S}
    (hp : p ∈ bmGroup threads tab x i) : ∃ y, p ∈ tab y x i := by
  obtain ⟨y, _, hy⟩ := List.mem_flatMap.1 hp
  exact ⟨y, hy⟩

/-- pending nodes have reachable states -/
theorem pend_reach {sp : DdSpec N S} {top : Nat} {G : Nat → List S} {st : BSt N S} {lo : Nat} (h : Lv sp top G st lo) {i : Nat}
    {p : SNode N S} (hp : p ∈ st.pend i) : Reach sp (i : Int) p.2.2 := by
  obtain ⟨l, g, s⟩ := p
  obtain ⟨_, _, _, hw, _⟩ := h.inv.pd_ok hp
  exact want_reach h.inv hw

/-- where the nodes are before level `n` is built: all in one group, or each in the group of its state -/
def Tagged (key : Nat → S → Nat) (tab : Nat → Nat → Nat → List (SNode N S)) (n : Nat) : Prop :=
  (∃ x0, ∀ y x j p, p ∈ tab y x j → x = x0 ∧ j = n) ∨ ∀ y x j p, p ∈ tab y x j → x = key j p.2.2

theorem Tagged.next {key : Nat → S → Nat} {tab tab' : Nat → Nat → Nat → List (SNode N S)} {n : Nat} (h : Tagged key tab n)
    (h' : ∀ y x j p, p ∈ tab' y x j → (j ≠ n ∧ p ∈ tab y x j) ∨ (j < n ∧ x = key j p.2.2)) :
    ∀ y x j p, p ∈ tab' y x j → x = key j p.2.2 := by
  intro y x j p hp
  rcases h' y x j p hp with ⟨h1, h2⟩ | ⟨_, h2⟩
  · rcases h with ⟨x0, h⟩ | h
    · exact absurd (h y x j p h2).2 h1
    · exact h y x j p h2
  · exact h2

theorem Tagged.sep {key : Nat → S → Nat} {tab : Nat → Nat → Nat → List (SNode N S)} {n : Nat} (h : Tagged key tab n)
    {y x y' x' : Nat} {p q : SNode N S} (hp : p ∈ tab y x n) (hq : q ∈ tab y' x' n) (hx : x ≠ x') :
    key n p.2.2 ≠ key n q.2.2 := by
  rcases h with ⟨x0, h⟩ | h
  · exact absurd ((h _ _ _ _ hp).1.trans (h _ _ _ _ hq).1.symm) hx
  · rw [← h _ _ _ _ hp, ← h _ _ _ _ hq]; exact hx

theorem absP_init {threads : Nat} {groups : Nat → Nat} (st : BSt N S) {x0 n : Nat} (ht : 0 < threads) (hx : x0 < groups n)
    (hp : ∀ j, j ≠ n → st.pend j = []) (j : Nat) : absP threads groups (bmInit st x0).tab j = st.pend j := by
  have hg : ∀ x, bmGroup threads (bmInit st x0).tab x j = if x = x0 then st.pend j else [] := by
    intro x
    unfold bmGroup bmInit
    dsimp only
    obtain ⟨t, rfl⟩ : ∃ t, threads = t + 1 := ⟨threads - 1, by omega⟩
    rw [List.range_succ_eq_map, List.flatMap_cons, List.flatMap_map]
    by_cases h : x = x0
    · simp [h]
    · simp [h]
  unfold absP
  simp only [hg]
  by_cases hj : j = n
  · subst hj
    have : ∀ m, x0 < m → ((List.range m).flatMap fun x => if x = x0 then st.pend j else []) = st.pend j := by
      intro m
      induction m with
      | zero => intro h; omega
      | succ m ih =>
        intro h
        rw [List.range_succ, List.flatMap_append]
        simp only [List.flatMap_cons, List.flatMap_nil, List.append_nil]
        by_cases hm : m = x0
        · subst hm
          rw [if_pos rfl]
          have : ((List.range m).flatMap fun x => if x = m then st.pend j else []) = [] := by
            rw [List.flatMap_eq_nil_iff]
            intro x hx
            rw [if_neg]
            have := List.mem_range.1 hx
            omega
          rw [this, List.nil_append]
        · rw [if_neg hm, List.append_nil]
          exact ih (by omega)
    exact this _ hx
  · rw [hp j hj]; simp

/-- Main theorem about the parallel builder. -/
theorem buildMP_main {sp : DdSpec N S} (hl : Lawful sp) (hm : NoMerge sp) {threads tasks : Nat} (ht : 0 < threads) (hk : 0 < tasks)
    {sched : Nat → BmSched N S} (hsc : ∀ i, (sched i).Ok threads) :
    ∃ D lab, buildMP sp threads tasks sched = some D ∧ Sim sp D lab ∧ D.table.numRows = sp.root.1.toNat + 1 ∧
      D.table.row 0 = terminalRow N ∧ ∀ f, 0 < f.row → D.table.Valid f → D.Live f := by
  by_cases hroot : 0 < sp.root.1
  · have htop : sp.root.1 = (sp.root.1.toNat : Int) := by omega
    obtain ⟨i1, i2, i3⟩ := init_inv hroot
    have hinit : ∀ j, j ≠ sp.root.1.toNat → (initBuild sp).pend j = [] := by
      intro j hj
      unfold initBuild
      dsimp only
      rw [if_neg (by omega)]
      dsimp only
      exact upd_ne _ _ hj
    have key := levels_rel hl htop (M := BmSt N S)
      (fun m st n => m.core = st.bare ∧ (∀ j, (absP threads (fun _ => tasks) m.tab j).Perm (st.pend j)) ∧
        Tagged (fun j s => sp.hash j s % tasks) m.tab n)
      (fun a i => bmLevel (bmCode sp i) sp (fun j s => sp.hash j s % tasks) (fun _ => tasks) threads (sched i)
        (a.core.row i).length a i) ?_
      sp.root.1.toNat (Nat.le_refl _) (bmInit (initBuild sp) 0) (initBuild sp) (fun _ => [])
      ⟨rfl, (fun j => by rw [absP_init _ ht hk hinit]), (by
        left
        refine ⟨0, fun y x j p hp => ?_⟩
        unfold bmInit at hp
        dsimp only at hp
        split at hp
        · rename_i h
          refine ⟨h.2, ?_⟩
          by_cases hj : j = sp.root.1.toNat
          · exact hj
          · rw [hinit j hj] at hp; cases hp
        · cases hp)⟩ i1 i2 (fun _ _ => i3)
    · obtain ⟨m', st', h1, ⟨h2, _⟩, G, h3⟩ := key
      obtain ⟨D, h4, h5, h6, h7, h8, _⟩ := finish_spec hl h3
      refine ⟨D, labOf G, ?_, h5, h6, h7, h8⟩
      unfold buildMP
      rw [h1]
      show m'.core.finish = _
      rw [h2, finish_bare, h4]
    · rintro m st i G hi hit ⟨r1, r2, r3⟩ hlv
      refine ⟨absP threads (fun _ => tasks) m.tab, r2, fun st1 hst1 => ?_⟩
      have hlen : (m.core.row i).length = 0 := by
        rw [r1]
        show (st.row i).length = 0
        rw [hlv.len i hi, hlv.empty i (Nat.lt_succ_self i)]; rfl
      obtain ⟨m', k1, k2, k3, k4⟩ := bmLevel_eq (sp := sp) (key := fun j s => sp.hash j s % tasks) hm (hsc i) hi hit hlv r1 r2
        (fun _ _ _ _ _ _ => rfl) (by
          intro x hx x' hx' hne q hq p hp
          cases he : sp.eqv i q.2.2 p.2.2 with
          | false => rfl
          | true =>
            exfalso
            obtain ⟨y, hy⟩ := mem_bmGroup hq
            obtain ⟨y', hy'⟩ := mem_bmGroup hp
            have hq' := pend_reach hlv ((r2 i).mem_iff.1 (mem_absP (groups := fun _ => tasks) hx hq))
            have hp' := pend_reach hlv ((r2 i).mem_iff.1 (mem_absP (groups := fun _ => tasks) hx' hp))
            refine r3.sep hy hy' hne ?_
            try dsimp only
            rw [hl.hash_eq hi hq' hp' he])
        (fun _ _ _ => rfl) (fun _ _ _ _ _ _ => Nat.mod_lt _ hk) hst1
      refine ⟨m', ?_, k2, k3, Or.inr (r3.next k4)⟩
      try dsimp only
      rw [hlen, bmCode_eq hm]
      exact k1
  · have hn : sp.root.1.toNat = 0 := by omega
    obtain ⟨D, lab, h1, h2, h3, h4, h5, _⟩ := build_main hl
    refine ⟨D, lab, ?_, h2, h3, h4, h5⟩
    rw [← h1]
    unfold buildMP build
    rw [hn]
    rfl

/-! ### The parallel subsetter -/

theorem bmLevel_groups (cstep : BmCodes N S → SNode N S → Option (BmCodes N S)) (sp : DdSpec N S) (key : Nat → S → Nat)
    {groups groups' : Nat → Nat} (threads : Nat) (sc : BmSched N S) (m0 : Nat) (a : BmSt N S) {i : Nat}
    (h : ∀ j, j ≤ i → groups j = groups' j) :
    bmLevel cstep sp key groups threads sc m0 a i = bmLevel cstep sp key groups' threads sc m0 a i := by
  have hb : bmBranch sp key groups i = bmBranch sp key groups' i := by
    funext gi y col s b
    unfold bmBranch
    dsimp only
    by_cases h0 : (sp.child s i b).1 = 0
    · rw [if_pos h0, if_pos h0]
    · rw [if_neg h0, if_neg h0]
      by_cases h1 : (sp.child s i b).1 < 0
      · rw [if_pos h1, if_pos h1]
      · rw [if_neg h1, if_neg h1]
        by_cases h2 : (sp.child s i b).1 ≤ (i : Int) - 1
        · rw [h (sp.child s i b).1.toNat (by omega)]
        · rw [if_neg (fun h => h2 h.1), if_neg (fun h => h2 h.1)]
  have he : ∀ gi thr l, bmEffs sp key groups i gi thr l = bmEffs sp key groups' i gi thr l := by
    intro gi thr l
    unfold bmEffs bmItem bmNode
    rw [hb]
  unfold bmLevel
  rw [h i (Nat.le_refl i)]
  simp only [he]

variable {D : Dd (N + 1)} {sp : DdSpec (N + 1) S} {rt : Int × (NodeId × S)}

/-- states of the pairs at level `n` belong to nodes of row `n` -/
theorem prod_row (hw : D.Wf) (hd : Desc sp) (hrt : PairOk D sp D.spec.root sp.root rt) {n : Nat} {p : NodeId × S} (hn : 0 < n)
    (h : Reach (prodSpec D.table rt sp) (n : Int) p) : p.1.row = n ∧ p.1.col < (D.table.row n).length ∧ n < D.table.numRows := by
  have hr1 := (prod_reach hw hd hrt h (by omega)).1
  obtain ⟨hf, hc⟩ := at_of_reach hw hr1
  have hpos : 0 < p.1.row := by have := rootCode_le p.1; omega
  have hrow : p.1.row = n := by rw [rootCode_pos hpos] at hc; omega
  obtain ⟨nd, hnd, _⟩ := hf.node hw hpos
  unfold Table.node? at hnd
  split at hnd
  · rw [hrow] at hnd
    exact ⟨hrow, getElem?_lt hnd, by omega⟩
  · cases hnd

theorem zddSubsetMP_main (hw : D.Wf) (hl : Lawful sp) (hm : NoMerge sp) (shared : Bool) {threads : Nat} (ht : 0 < threads)
    {sched : Nat → BmSched (N + 1) (NodeId × S)} (hsc : ∀ i, (sched i).Ok threads) :
    ∃ rt D' lab, subRoot D.table D.root sp = some rt ∧ PairOk D sp D.spec.root sp.root rt ∧
      zddSubsetMP D sp shared threads sched = some D' ∧ Sim (prodSpec D.table rt sp) D' lab ∧
      D'.table.numRows = rt.1.toNat + 1 ∧ D'.table.row 0 = terminalRow (N + 1) ∧
      (∀ f, 0 < f.row → D'.table.Valid f → D'.Live f) := by
  have hd := hl.toDesc
  obtain ⟨rt, e, hrt⟩ := subRoot_spec hw hd
  have hpl := prod_lawful hw hl hrt
  have hpm : NoMerge (prodSpec D.table rt sp) := fun s t => hm s.2 t.2
  have hroot : (prodSpec D.table rt sp).root = rt := rfl
  have hinit : subInit rt = initBuild (prodSpec D.table rt sp) := rfl
  by_cases hpos : 0 < rt.1
  · have htop : (prodSpec D.table rt sp).root.1 = (rt.1.toNat : Int) := by rw [hroot]; omega
    have hrtr : rt.2.1.row = rt.1.toNat ∧ rt.2.1.col < (D.table.row rt.1.toNat).length ∧ rt.1.toNat < D.table.numRows := by
      refine prod_row hw hd hrt (by omega) ?_
      rw [← htop]
      exact .root
    obtain ⟨i1, i2, i3⟩ := init_inv (sp := prodSpec D.table rt sp) (by rw [hroot]; exact hpos)
    have hpend : ∀ j, j ≠ rt.1.toNat → (initBuild (prodSpec D.table rt sp)).pend j = [] := by
      intro j hj
      unfold initBuild
      dsimp only
      rw [hroot, if_neg (by omega)]
      dsimp only
      exact upd_ne _ _ hj
    have key := levels_rel hpl htop (M := Table (N + 1) × BmSt (N + 1) (NodeId × S))
      (fun m st n => Upto D m.1 n ∧ m.2.core = st.bare ∧
        (∀ j, (absP threads (fun j => (D.table.row j).length) m.2.tab j).Perm (st.pend j)) ∧
        ∀ y x j p, p ∈ m.2.tab y x j → x = p.2.2.1.col)
      (subsetMPStep sp shared threads sched) ?_
      rt.1.toNat (Nat.le_refl _) (D.table, bmInit (subInit rt) rt.2.1.col) (subInit rt) (fun _ => [])
      ⟨⟨rfl, fun _ _ => rfl⟩, rfl, (fun j => List.Perm.of_eq (absP_init (groups := fun j => (D.table.row j).length) (subInit rt) ht hrtr.2.1 hpend j)), (by
        intro y x j p hp
        unfold bmInit at hp
        dsimp only at hp
        split at hp
        · rename_i h
          by_cases hj : j = rt.1.toNat
          · subst hj
            rw [hinit] at hp
            unfold initBuild at hp
            dsimp only at hp
            rw [hroot, if_neg (by omega)] at hp
            dsimp only at hp
            rw [upd_same, List.mem_singleton] at hp
            rw [hp, h.2]
          · rw [hinit, hpend j hj] at hp; cases hp
        · cases hp)⟩ i1 i2 (fun _ _ => i3)
    · obtain ⟨m', st', h1, ⟨_, h2, _⟩, G, h3⟩ := key
      obtain ⟨D', h4, h5, h6, h7, h8, _⟩ := finish_spec hpl h3
      refine ⟨rt, D', labOf G, e, hrt, ?_, h5, h6, h7, h8⟩
      unfold zddSubsetMP
      rw [e]
      dsimp only
      rw [h1]
      show m'.2.core.finish = _
      rw [h2, finish_bare, h4]
    · rintro ⟨T, m⟩ st i G hi hit ⟨hu, r1, r2, r3⟩ hlv
      dsimp only at hu r1 r2 r3
      refine ⟨absP threads (fun j => (D.table.row j).length) m.tab, r2, fun st1 hst1 => ?_⟩
      have hreach : ∀ p ∈ absP threads (fun j => (D.table.row j).length) m.tab i, Reach (prodSpec D.table rt sp) (i : Int) p.2.2 :=
        fun p hp => pend_reach hlv ((r2 i).mem_iff.1 hp)
      have hchild : ∀ p ∈ absP threads (fun j => (D.table.row j).length) m.tab i, ∀ b,
          (pairSpec T (0, (.zero, sp.root.2)) sp).child p.2.2 i b = (prodSpec D.table rt sp).child p.2.2 i b := by
        intro p hp b
        obtain ⟨q1, q2⟩ := prod_reach hw hd hrt (hreach p hp) (by omega)
        show (subChild T sp (p.2.2.1, p.2.2.2) i b).getD _ = (subChild D.table sp (p.2.2.1, p.2.2.2) i b).getD _
        rw [subChild_congr hw hd hu hi q1 q2 b]
      obtain ⟨m', k1, k2, k3, k4⟩ := bmLevel_eq (sp := pairSpec T (0, (.zero, sp.root.2)) sp) (key := fun _ p => p.1.col)
        hpm (hsc i) hi hit hlv r1 r2 (by
          intro x hx q hq p hp
          have hq' := prod_row hw hd hrt hi (hreach q (mem_absP (groups := fun j => (D.table.row j).length) hx hq))
          have hp' := prod_row hw hd hrt hi (hreach p (mem_absP (groups := fun j => (D.table.row j).length) hx hp))
          obtain ⟨y, hy⟩ := mem_bmGroup hq
          obtain ⟨y', hy'⟩ := mem_bmGroup hp
          have hcol : q.2.2.1.col = p.2.2.1.col := by
            rw [← r3 _ _ _ _ hy, ← r3 _ _ _ _ hy']
          have : q.2.2.1 = p.2.2.1 := by
            cases hq1 : q.2.2.1; cases hp1 : p.2.2.1
            rw [hq1, hp1] at hcol
            rw [hq1] at hq'
            rw [hp1] at hp'
            dsimp only at hcol hq' hp'
            rw [hcol, hq'.1, hp'.1]
          simp only [pairSpec, prodSpec, this, decide_true, Bool.true_and])
        (by
          intro x hx x' hx' hne q hq p hp
          obtain ⟨y, hy⟩ := mem_bmGroup hq
          obtain ⟨y', hy'⟩ := mem_bmGroup hp
          simp only [prodSpec, Bool.and_eq_false_iff, decide_eq_false_iff_not]
          left
          intro h
          exact hne (by rw [r3 _ _ _ _ hy, r3 _ _ _ _ hy', h]))
        hchild (by
          intro p hp b j hj hcj
          refine (prod_row hw hd hrt hj ?_).2.1
          rw [← hcj]
          exact Reach.step b hi (hreach p hp)) hst1
      refine ⟨(if shared then T else { T with row := upd T.row i [] }, m'), ?_, ?_, k2, k3, Tagged.next (key := fun _ (p : NodeId × S) => p.1.col) (Or.inr r3) k4⟩
      · unfold subsetMPStep
        dsimp only
        have hTn : i < T.numRows := by
          rw [hu.1]; omega
        rw [if_neg (fun h => h hTn), bmCodeSub_eq (fun s t => hm s.2 t.2),
          bmLevel_groups _ _ _ (groups' := fun j => (D.table.row j).length) _ _ _ _ (fun j hj => by rw [hu.2 j hj]), k1]
        rfl
      · dsimp only
        split
        · exact ⟨hu.1, fun r hr => hu.2 r (by omega)⟩
        · exact ⟨hu.1, fun r hr => by dsimp only; rw [upd_ne _ _ (by omega)]; exact hu.2 r (by omega)⟩
  · have hn : rt.1.toNat = 0 := by omega
    obtain ⟨D', lab, h1, h2, h3, h4, h5, _⟩ := build_main hpl
    refine ⟨rt, D', lab, e, hrt, ?_, h2, h3, h4, h5⟩
    rw [← h1]
    unfold zddSubsetMP build
    rw [e, hroot]
    dsimp only
    rw [hn]
    rfl

end TdZdd
