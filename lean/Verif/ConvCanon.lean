import Verif.ReduceTop
import Verif.UnreductionProofs

/-! The diagrams of `bdd2zdd` and `zdd2bdd` are reduced if the operand is. -/

namespace TdZdd

variable {N : Nat} {S : Type}

section
variable {sp : DdSpec (N + 1) S} {D : Dd (N + 1)} {lab : NodeId → Option S}

/-- a node accepts what its state accepts -/
theorem Sim.node_acc (h : Sim sp D lab) (hl : Lawful sp) (hm : NoMerge sp) {f : NodeId} {s : S} (hs : lab f = some s)
    (p : Path (N + 1)) : TAcc D.table f p ↔ Accepts sp (f.row : Int) s p := by
  obtain ⟨h0, nd, hnd⟩ := h.lab_node hs
  obtain ⟨s', hs', hr, _⟩ := h.node h0 hnd
  cases hs.symm.trans hs'
  rw [← accepts_iff_tacc (h.wf hl.toDesc).table p (.inr (.inr ⟨h0, nd, hnd⟩))]
  have he : Edge sp lab f ((f.row : Int), s) := .inr (.inr ⟨h0, rfl, s, hs, hl.refl h0 hr, fun _ => Iff.rfl⟩)
  exact ⟨he.sub h p, he.sup h hm p⟩

/-- nodes of different states that are told apart by what they accept have different edges -/
theorem Sim.uniq_of (h : Sim sp D lab) (hl : Lawful sp) (hm : NoMerge sp)
    (h1 : ∀ (n : Nat) s t, 0 < n → Reach sp (n : Int) s → Reach sp (n : Int) t →
      (∀ p, Accepts sp (n : Int) s p ↔ Accepts sp (n : Int) t p) → sp.eqv n s t = true) : D.table.Unique := by
  intro f g nd h0 hr hf hg
  have hg0 : 0 < g.row := by omega
  obtain ⟨s, hs, rs, _⟩ := h.node h0 hf
  obtain ⟨t, ht, rt, _⟩ := h.node hg0 hg
  refine h.uniq hm hs ht hr (h1 _ _ _ h0 rs (hr ▸ rt) fun p => ?_)
  rw [← h.node_acc hl hm hs]
  have := h.node_acc hl hm ht p
  rw [← hr] at this
  rw [← this, tacc_node h0 hf, tacc_node hg0 hg, hr]

theorem Sim.canonZ (h : Sim sp D lab) (hl : Lawful sp) (hm : NoMerge sp)
    (h1 : ∀ (n : Nat) s t, 0 < n → Reach sp (n : Int) s → Reach sp (n : Int) t →
      (∀ p, Accepts sp (n : Int) s p ↔ Accepts sp (n : Int) t p) → sp.eqv n s t = true)
    (h2 : ∀ (n : Nat) s, 0 < n → Reach sp (n : Int) s → ∃ b p, b ≠ 0 ∧ Accepts sp (sp.child s n b).1 (sp.child s n b).2 p) :
    Canon delZ D.table := by
  refine ⟨fun {f nd} h0 hf hd => ?_, h.uniq_of hl hm h1⟩
  obtain ⟨s, hs, rs, he⟩ := h.node h0 hf
  obtain ⟨b, p, hb, hp⟩ := h2 _ s h0 rs
  have e := he b
  rw [hd b hb] at e
  rcases e with ⟨_, e⟩ | ⟨e, _⟩ | ⟨e, _⟩
  · exact e hm p hp
  · cases e
  · exact absurd e (by decide)

theorem Sim.canonB (h : Sim sp D lab) (hl : Lawful sp) (hm : NoMerge sp)
    (h1 : ∀ (n : Nat) s t, 0 < n → Reach sp (n : Int) s → Reach sp (n : Int) t →
      (∀ p, Accepts sp (n : Int) s p ↔ Accepts sp (n : Int) t p) → sp.eqv n s t = true)
    (h2 : ∀ (n : Nat) s, 0 < n → Reach sp (n : Int) s → ∃ b p,
      ¬ (Accepts sp (sp.child s n b).1 (sp.child s n b).2 p ↔ Accepts sp (sp.child s n 0).1 (sp.child s n 0).2 p)) :
    Canon delB D.table := by
  refine ⟨fun {f nd} h0 hf hd => ?_, h.uniq_of hl hm h1⟩
  obtain ⟨s, hs, rs, he⟩ := h.node h0 hf
  obtain ⟨b, p, hp⟩ := h2 _ s h0 rs
  apply hp
  have e : nd b = nd 0 := hd b
  have hb : Accepts D.spec (childCode (nd b)) (nd b) p ↔ _ := ⟨(he b).sub h p, (he b).sup h hm p⟩
  have hz : Accepts D.spec (childCode (nd 0)) (nd 0) p ↔ _ := ⟨(he 0).sub h p, (he 0).sup h hm p⟩
  rw [← hb, ← hz, e]

end

section
variable {D : Dd (N + 1)} {n : Int}

/-- the node of a state of an unreduction of a diagram -/
theorem UnInv.node (hw : D.Wf) {l : Int} {p : Int × NodeId} (h : UnInv D.spec l p) :
    D.table.Valid p.2 ∧ p.1 = childCode p.2 ∧ p.2 ≠ .zero ∧ p.2.row ≤ l.toNat := by
  obtain ⟨hv, hc⟩ := hw.reach h.reach
  have hne := h.ne
  have hle := h.le
  rw [hc] at hne hle
  refine ⟨hv, hc, fun e => hne (by rw [e]; rfl), ?_⟩
  by_cases h0 : 0 < p.2.row
  · rw [childCode_pos h0] at hle; omega
  · omega

theorem satAt_iff (hw : D.Wf) {f : NodeId} (hv : D.table.Valid f) (a : Asg (N + 1)) :
    BddSatAt D.spec (childCode f) f a ↔ TSat D.table f a := by
  simp only [BddSatAt, TSat, accepts_iff_tacc hw.table _ hv]

theorem memAt_iff (hw : D.Wf) {f : NodeId} (hv : D.table.Valid f) (m : Nat) (a : Asg (N + 1)) :
    ZddMemAt D.spec m (childCode f) f a ↔ TMem D.table m f a := by
  simp only [ZddMemAt, TMem, accepts_iff_tacc hw.table _ hv]

theorem Canon.satB (hw : D.Wf) (hc : Canon delB D.table) {f : NodeId} (hv : D.table.Valid f) (h0 : f ≠ .zero) : ∃ a, TSat D.table f a := by
  refine Classical.byContradiction fun h => h0 (hc.eqB hw.table _ (Nat.le_refl _) hv .zero fun a => ?_)
  exact ⟨fun h' => absurd ⟨a, h'⟩ h, fun h' => absurd h' not_tsat_zero⟩

theorem Canon.memZ (hw : D.Wf) (hc : Canon delZ D.table) {f : NodeId} (hv : D.table.Valid f) (h0 : f ≠ .zero) {m : Nat} (hm : f.row ≤ m) :
    ∃ a, TMem D.table m f a := by
  refine Classical.byContradiction fun h => h0 (hc.eqZ hw.table _ (Nat.le_refl _) hv .zero m hm (Nat.zero_le _) fun a => ?_)
  exact ⟨fun h' => absurd ⟨a, h'⟩ h, fun h' => absurd h' not_tmem_zero⟩

theorem bddSatAt_acc {S : Type} {sp : DdSpec (N + 1) S} {l l' : Int} {s t : S} (h : ∀ p, Accepts sp l s p ↔ Accepts sp l' t p) (a : Asg (N + 1)) :
    BddSatAt sp l s a ↔ BddSatAt sp l' t a := by simp only [BddSatAt, h]

theorem zddMemAt_acc {S : Type} {sp : DdSpec (N + 1) S} {l l' : Int} {s t : S} (h : ∀ p, Accepts sp l s p ↔ Accepts sp l' t p) (m : Nat) (a : Asg (N + 1)) :
    ZddMemAt sp m l s a ↔ ZddMemAt sp m l' t a := by simp only [ZddMemAt, h]

theorem UnInv.sat (hw : D.Wf) {l : Int} {p : Int × NodeId} (hr : Reach (bddUnreduction D.spec n) l p) (h : UnInv D.spec l p) (a : Asg (N + 1)) :
    BddSatAt (bddUnreduction D.spec n) l p a ↔ TSat D.table p.2 a := by
  obtain ⟨hv, hc, _⟩ := h.node hw
  have := unred_sat (z := false) (nv := n) hw.desc a (l.toNat + 1) (by omega) hr h
  rw [if_neg (by decide), hc, satAt_iff hw hv] at this
  exact this

theorem UnInv.mem (hw : D.Wf) {l : Int} {p : Int × NodeId} (hr : Reach (zddUnreduction D.spec n) l p) (h : UnInv D.spec l p) (a : Asg (N + 1)) :
    BddSatAt (zddUnreduction D.spec n) l p a ↔ TMem D.table l.toNat p.2 a := by
  obtain ⟨hv, hc, _⟩ := h.node hw
  have := unred_sat (z := true) (nv := n) hw.desc a (l.toNat + 1) (by omega) hr h
  rw [if_pos rfl, hc, memAt_iff hw hv] at this
  exact this

/-- the states of `bdd2zdd` -/
theorem bdd2zdd_canon (hw : D.Wf) (hc : Canon delB D.table) {Z : Dd (N + 1)} (hZ : bdd2zdd D n = some Z) : Canon delZ Z.table := by
  have hu : LawfulC (bddUnreduction D.spec n) := unred_lawful hw.lawful
  have hla := zddLA_lawful hu
  obtain ⟨Z', lab, e, hs, _⟩ := build_main hla.lawful
  cases e.symm.trans hZ
  have hE : zddLookahead (bddUnreduction D.spec n) = ahead (genAhead (allZeroBut0 (bddUnreduction D.spec n)) (bddUnreduction D.spec n)) (bddUnreduction D.spec n) := by
    simp only [zddLookahead, zddAhead_eq]
  have hreach : ∀ {k : Nat} {s}, 0 < k → Reach (zddLookahead (bddUnreduction D.spec n)) (k : Int) s →
      Reach (bddUnreduction D.spec n) (k : Int) s ∧ UnInv D.spec (k : Int) s ∧ allZeroBut0 (bddUnreduction D.spec n) s k = false := by
    intro k s hk hr
    rw [hE] at hr
    obtain ⟨h1, h2⟩ := ahead_reach hu.toDesc hr
    refine ⟨h1, ?_, h2 k hk rfl⟩
    rcases unred_reach hw.desc h1 with h | h
    · omega
    · exact h
  refine hs.canonZ hla.lawful (fun _ _ => rfl) ?_ ?_
  · intro k s t hk hrs hrt hacc
    obtain ⟨rs, is, _⟩ := hreach hk hrs
    obtain ⟨rt, it, _⟩ := hreach hk hrt
    obtain ⟨vs, cs, _⟩ := is.node hw
    obtain ⟨vt, ct, _⟩ := it.node hw
    have key : ∀ {u}, Reach (zddLookahead (bddUnreduction D.spec n)) (k : Int) u → ∀ a,
        (ZddMemAt (zddLookahead (bddUnreduction D.spec n)) k (k : Int) u a ↔ TSat D.table u.2 a) := by
      intro u hru a
      obtain ⟨ru, iu, _⟩ := hreach hk hru
      rw [zddLA_mem hu.toDesc a (k + 1) (by omega) (Int.le_refl _) hru]
      refine (unred_mem (z := false) (nv := n) hw.desc iu).trans ?_
      rw [← iu.sat hw ru a]
      exact ⟨fun h => h.2, fun h => ⟨fun j h1 h2 => by omega, h⟩⟩
    have e : s.2 = t.2 := hc.eqB hw.table _ (Nat.le_refl _) vs vt fun a => by
      rw [← key hrs, ← key hrt]
      exact zddMemAt_acc hacc k a
    have e' : s = t := Prod.ext (by rw [cs, ct, e]) e
    rw [e']
    exact hla.refl hk hrt
  · intro k s hk hrs
    obtain ⟨rs, is, ht⟩ := hreach hk hrs
    simp only [allZeroBut0, decide_eq_false_iff_not] at ht
    obtain ⟨b, ht⟩ := Classical.not_forall.1 ht
    obtain ⟨hb, ht⟩ := Classical.not_imp.1 ht
    rcases unred_child (z := false) (nv := n) hw.desc b hk is with ⟨h, _⟩ | ⟨ic, _⟩
    · exact absurd h ht
    replace ic : UnInv D.spec ((bddUnreduction D.spec n).child s k b).1 ((bddUnreduction D.spec n).child s k b).2 := ic
    have rc : Reach (bddUnreduction D.spec n) _ _ := .step b hk rs
    obtain ⟨vc, cc, c0, _⟩ := ic.node hw
    obtain ⟨a, ha⟩ := hc.satB hw vc c0
    rw [← UnInv.sat hw rc ic] at ha
    have ha : ZddMemAt (bddUnreduction D.spec n) ((bddUnreduction D.spec n).child s k b).1.toNat _ _ a :=
      (unred_mem (z := false) (nv := n) hw.desc ic).2 ⟨fun j h1 h2 => absurd h1 (Nat.not_lt.2 h2), ha⟩
    obtain ⟨d, h1, _, h3, h4, _⟩ := ahead_child (test := allZeroBut0 (bddUnreduction D.spec n)) hu.toDesc
      (fun c d => ∀ (m : Nat) a, c.1 ≤ m → (ZddMemAt (bddUnreduction D.spec n) m c.1 c.2 a ↔ ZddMemAt (bddUnreduction D.spec n) m d.1 d.2 a))
      (fun _ _ _ _ => Iff.rfl) (fun m s d hm hr ht h => zddStep hu.toDesc m s d hm hr ht h) b hk rs
    rw [← hE] at h1
    have hr' : Reach (zddLookahead (bddUnreduction D.spec n)) _ _ := .step b hk hrs
    rw [h1] at hr'
    rw [h4 _ _ (by omega)] at ha
    rw [← zddLA_mem hu.toDesc a (d.1.toNat + 1) (by omega) (by omega) hr'] at ha
    obtain ⟨p, hp, _⟩ := ha
    exact ⟨b, p, hb, by rw [h1]; exact hp⟩

/-- the states of `zdd2bdd` -/
theorem zdd2bdd_canon (hw : D.Wf) (hc : Canon delZ D.table) {B : Dd (N + 1)} (hB : zdd2bdd D n = some B) : Canon delB B.table := by
  have hu : LawfulC (zddUnreduction D.spec n) := unred_lawful hw.lawful
  have hla := bddLA_lawful hu
  obtain ⟨B', lab, e, hs, _⟩ := build_main hla.lawful
  cases e.symm.trans hB
  have hE : bddLookahead (zddUnreduction D.spec n) = ahead (genAhead (allSame (zddUnreduction D.spec n)) (zddUnreduction D.spec n)) (zddUnreduction D.spec n) := by
    simp only [bddLookahead, bddAhead_eq]
  have hreach : ∀ {k : Nat} {s}, 0 < k → Reach (bddLookahead (zddUnreduction D.spec n)) (k : Int) s →
      Reach (zddUnreduction D.spec n) (k : Int) s ∧ UnInv D.spec (k : Int) s ∧ allSame (zddUnreduction D.spec n) s k = false := by
    intro k s hk hr
    rw [hE] at hr
    obtain ⟨h1, h2⟩ := ahead_reach hu.toDesc hr
    refine ⟨h1, ?_, h2 k hk rfl⟩
    rcases unred_reach hw.desc h1 with h | h
    · omega
    · exact h
  have same : ∀ {l : Int} {u v : Int × NodeId}, UnInv D.spec l u → UnInv D.spec l v → (∀ a, TMem D.table l.toNat u.2 a ↔ TMem D.table l.toNat v.2 a) → u = v := by
    intro l u v iu iv h
    obtain ⟨vu, cu, _, lu⟩ := iu.node hw
    obtain ⟨vv, cv, _, lv⟩ := iv.node hw
    have e : u.2 = v.2 := hc.eqZ hw.table _ (Nat.le_refl _) vu vv _ lu lv h
    exact Prod.ext (by rw [cu, cv, e]) e
  refine hs.canonB hla.lawful (fun _ _ => rfl) ?_ ?_
  · intro k s t hk hrs hrt hacc
    obtain ⟨rs, is, _⟩ := hreach hk hrs
    obtain ⟨rt, it, _⟩ := hreach hk hrt
    have e : s = t := same is it fun a => by
      rw [← is.mem hw rs a, ← it.mem hw rt a, ← bddLA_sat hu.lawful a (k + 1) (by omega) hrs, ← bddLA_sat hu.lawful a (k + 1) (by omega) hrt]
      exact bddSatAt_acc hacc a
    rw [e]
    exact hla.refl hk hrt
  · intro k s hk hrs
    obtain ⟨rs, is, ht⟩ := hreach hk hrs
    simp only [allSame, decide_eq_false_iff_not] at ht
    obtain ⟨b, ht⟩ := Classical.not_forall.1 ht
    obtain ⟨hb, ht⟩ := Classical.not_imp.1 ht
    refine Classical.byContradiction fun hno => ht ?_
    have hacc : ∀ p, Accepts (bddLookahead (zddUnreduction D.spec n)) ((bddLookahead (zddUnreduction D.spec n)).child s k b).1
        ((bddLookahead (zddUnreduction D.spec n)).child s k b).2 p ↔
        Accepts (bddLookahead (zddUnreduction D.spec n)) ((bddLookahead (zddUnreduction D.spec n)).child s k 0).1
        ((bddLookahead (zddUnreduction D.spec n)).child s k 0).2 p :=
      fun p => Classical.byContradiction fun h => hno ⟨b, p, h⟩
    have key : ∀ c a, BddSatAt (bddLookahead (zddUnreduction D.spec n)) ((bddLookahead (zddUnreduction D.spec n)).child s k c).1
        ((bddLookahead (zddUnreduction D.spec n)).child s k c).2 a ↔
        BddSatAt (zddUnreduction D.spec n) ((zddUnreduction D.spec n).child s k c).1 ((zddUnreduction D.spec n).child s k c).2 a := by
      intro c a
      obtain ⟨d, h1, _, h3, h4, _⟩ := ahead_child (test := allSame (zddUnreduction D.spec n)) hu.toDesc
        (fun c d => ∀ a, BddSatAt (zddUnreduction D.spec n) c.1 c.2 a ↔ BddSatAt (zddUnreduction D.spec n) d.1 d.2 a)
        (fun _ _ => Iff.rfl) (fun m s d hm hr ht h => bddStep hu.lawful m s d hm hr ht h) c hk rs
      rw [← hE] at h1
      have hr' : Reach (bddLookahead (zddUnreduction D.spec n)) _ _ := .step c hk hrs
      rw [h1] at hr' ⊢
      rw [h4 a]
      exact bddLA_sat hu.lawful a (d.1.toNat + 1) (by omega) hr'
    have hsat : ∀ a, BddSatAt (zddUnreduction D.spec n) ((zddUnreduction D.spec n).child s k b).1 ((zddUnreduction D.spec n).child s k b).2 a ↔
        BddSatAt (zddUnreduction D.spec n) ((zddUnreduction D.spec n).child s k 0).1 ((zddUnreduction D.spec n).child s k 0).2 a := by
      intro a
      rw [← key b a, ← key 0 a]
      exact bddSatAt_acc hacc a
    have rb : Reach (zddUnreduction D.spec n) _ _ := .step b hk rs
    have r0 : Reach (zddUnreduction D.spec n) _ _ := .step 0 hk rs
    have some : ∀ {u : Int × (Int × NodeId)}, Reach (zddUnreduction D.spec n) u.1 u.2 → UnInv D.spec u.1 u.2 → ∃ a, BddSatAt (zddUnreduction D.spec n) u.1 u.2 a := by
      intro u ru iu
      obtain ⟨vu, _, u0, lu⟩ := iu.node hw
      obtain ⟨a, ha⟩ := hc.memZ hw vu u0 lu
      exact ⟨a, (iu.mem hw ru a).2 ha⟩
    rcases unred_child (z := true) (nv := n) hw.desc b hk is with ⟨eb, _⟩ | ⟨ib, eb, _⟩ <;>
      rcases unred_child (z := true) (nv := n) hw.desc 0 hk is with ⟨e0, _⟩ | ⟨i0, e0, _⟩
    · exact ⟨e0.trans eb.symm, .inl (Int.le_of_eq e0)⟩
    · obtain ⟨a, ha⟩ := some r0 i0
      rw [← hsat] at ha
      replace eb : ((zddUnreduction D.spec n).child s k b).1 = 0 := eb
      rw [eb] at ha
      exact absurd ha bddSatAt_zero
    · obtain ⟨a, ha⟩ := some rb ib
      rw [hsat] at ha
      replace e0 : ((zddUnreduction D.spec n).child s k 0).1 = 0 := e0
      rw [e0] at ha
      exact absurd ha bddSatAt_zero
    · have ee : ((zddUnreduction D.spec n).child s k 0).1 = ((zddUnreduction D.spec n).child s k b).1 := e0.trans eb.symm
      refine ⟨ee, ?_⟩
      by_cases hp : ((zddUnreduction D.spec n).child s k 0).1 ≤ 0
      · exact .inl hp
      right
      replace i0 : UnInv D.spec ((zddUnreduction D.spec n).child s k 0).1 ((zddUnreduction D.spec n).child s k 0).2 := i0
      replace ib : UnInv D.spec ((zddUnreduction D.spec n).child s k b).1 ((zddUnreduction D.spec n).child s k b).2 := ib
      have := same i0 (ee ▸ ib) fun a => by
        rw [← i0.mem hw r0 a, ee, ← ib.mem hw rb a, hsat a, ee]
      rw [← this]
      have h : 0 < ((zddUnreduction D.spec n).child s k 0).1.toNat := by omega
      refine hu.refl h ?_
      rw [Int.toNat_of_nonneg (by omega)]
      exact r0

end

end TdZdd
