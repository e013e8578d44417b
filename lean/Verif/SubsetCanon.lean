import Verif.ConvCanon
import Verif.SubsetterProofs3

/-! `zddSubset` of a reduced ZDD with a quasi-reduced diagram of the same family gives a reduced ZDD. -/

namespace TdZdd

variable {N : Nat} {S : Type}

/-- `d` comes from `c` by following 0-edges. -/
inductive Zd (sp : DdSpec (N + 1) S) : Int × S → Int × S → Prop
  | refl (c) : Zd sp c c
  | step {n : Nat} {s : S} {d} : 0 < n → Zd sp (sp.child s n 0) d → Zd sp ((n : Int), s) d

theorem Zd.trans {sp : DdSpec (N + 1) S} {c d e : Int × S} (h : Zd sp c d) (h' : Zd sp d e) : Zd sp c e := by
  induction h with
  | refl => exact h'
  | step hn _ ih => exact .step hn (ih h')

theorem Zd.mem {sp : DdSpec (N + 1) S} (hd : Desc sp) {c d : Int × S} (h : Zd sp c d) {m : Nat} {a : Asg (N + 1)} (hr : Reach sp c.1 c.2)
    (hm : c.1 ≤ m) (ha : ZddMemAt sp m d.1 d.2 a) : ZddMemAt sp m c.1 c.2 a := by
  induction h with
  | refl => exact ha
  | @step n s d hn _ ih =>
    have hr0 : Reach sp (n : Int) s := hr
    have hlt := hd.child_lt 0 hn hr0
    have hr' : Reach sp _ _ := .step 0 hn hr0
    obtain ⟨p, hp, hag, hz⟩ := ih hr' (by dsimp only at hm; omega) ha
    have hlev := accepts_levels hd hp hr'
    have h0 : (a n).val = 0 := hz n hn (by dsimp only at hm; omega) fun b hb => by have := hlev _ hb; dsimp only at this; omega
    refine ⟨(n, 0) :: p, .step hn hp, fun x hx => ?_, fun j h1 h2 h3 => hz j h1 h2 fun b hb => h3 b (.tail _ hb)⟩
    rcases List.mem_cons.1 hx with rfl | hx
    · exact Fin.ext h0
    · exact hag x hx

section
variable {sp : DdSpec (N + 1) S} {D : Dd (N + 1)}

theorem downTableLoop_zd (hw : D.Wf) {z : Int} (hz : 0 ≤ z) : ∀ (fuel : Nat) (f g : NodeId), At D f →
    downTableLoop D.table z fuel f = some g → Zd D.spec (rootCode f, f) (rootCode g, g) := by
  intro fuel
  induction fuel with
  | zero => intro f g _ h; cases h
  | succ fuel ih =>
    intro f g hf h
    unfold downTableLoop at h
    split at h
    next hgt =>
      have hp : 0 < f.row := by omega
      obtain ⟨nd, hnd, hc⟩ := hf.node hw hp
      rw [hnd] at h
      have := ih _ _ (hc 0).1 h
      rw [rootCode_pos hp]
      refine .step hp ?_
      rw [(hc 0).2.2]
      exact this
    next => cases h; exact .refl _

theorem downTable_zd (hw : D.Wf) {f : NodeId} (h : At D f) (hf : 0 < f.row) (b : Fin (N + 1)) (z : Int) {k : Int × NodeId}
    (e : downTable D.table f b z = some k) : Zd D.spec (D.spec.child f f.row b) k := by
  obtain ⟨nd, hnd, hc⟩ := h.node hw hf
  unfold downTable at e
  rw [hnd] at e
  dsimp only at e
  rw [Option.map_eq_some_iff] at e
  obtain ⟨g, e, rfl⟩ := e
  rw [(hc b).2.2]
  exact downTableLoop_zd hw (clampZ_nonneg z) _ _ _ (hc b).1 e

theorem downSpecLoop_zd {z : Int} (hz : 0 ≤ z) : ∀ (fuel : Nat) (c d : Int × S), downSpecLoop sp z fuel c = some d → Zd sp c d := by
  intro fuel
  induction fuel with
  | zero => intro c d h; cases h
  | succ fuel ih =>
    intro c d h
    unfold downSpecLoop at h
    split at h
    next hgt =>
      obtain ⟨i, s⟩ := c
      dsimp only at *
      obtain ⟨n, rfl⟩ := Int.eq_ofNat_of_zero_le (a := i) (by omega)
      exact .step (by omega) (ih _ _ h)
    next => cases h; exact .refl _

theorem downSpec_zd {n : Nat} {s : S} {b : Fin (N + 1)} {z : Int} {d : Int × S} (e : downSpec sp s n b z = some d) :
    Zd sp (sp.child s n b) d := by
  unfold downSpec at e
  split at e
  · cases e
  · exact downSpecLoop_zd (clampZ_nonneg z) _ _ _ e

theorem syncLoop_zd (hw : D.Wf) (hd : Desc sp) : ∀ (fuel : Nat) (f : NodeId) (n : Int × S) (r : (Int × NodeId) × (Int × S)), At D f → Reach sp n.1 n.2 →
    syncLoop D.table sp fuel (rootCode f, f) n = some r → Zd D.spec (rootCode f, f) r.1 ∧ Zd sp n r.2 := by
  intro fuel
  induction fuel with
  | zero => intro f n r _ _ h; cases h
  | succ fuel ih =>
    intro f n r hf hn h
    have g1 := reach_ge hd hn
    have g2 := reach_ge hw.desc hf
    have hle := rootCode_le f
    unfold syncLoop at h
    dsimp only at h
    split at h
    next hc =>
      split at h
      next hlt =>
        rw [if_neg (by omega)] at h
        have hp : 0 < f.row := by omega
        obtain ⟨g, e, a1, _⟩ := downTable_spec (sp := sp) hw hd hf hp 0 n.1
        rw [e] at h
        have := ih g n r a1 hn h
        refine ⟨?_, this.2⟩
        rw [rootCode_pos hp]
        exact .step hp ((downTable_zd hw hf hp 0 n.1 e).trans this.1)
      next hlt =>
        rw [if_neg (by omega)] at h
        obtain ⟨i, s⟩ := n
        dsimp only at *
        obtain ⟨m, rfl⟩ := Int.eq_ofNat_of_zero_le (a := i) (by omega)
        have hm : 0 < m := by omega
        obtain ⟨c', e, b1, _⟩ := downSpec_spec (D := D) hw hd hm hn 0 (z := rootCode f) (by omega)
        rw [e] at h
        have := ih f c' r hf b1 h
        exact ⟨this.1, .step hm ((downSpec_zd e).trans this.2)⟩
    next => cases h; exact ⟨.refl _, .refl _⟩

theorem pairCode_codes {T : Table (N + 1)} {lim : Option Int} {r : (Int × NodeId) × (Int × S)} {c : Int × (NodeId × S)}
    (h1 : -1 ≤ r.1.1) (h2 : -1 ≤ r.2.1) (hfin : r.2.1 = 0 ∨ r.1.1 = 0 ∨ r.2.1 = r.1.1) (e : pairCode T lim r = some c) (h0 : c.1 ≠ 0) :
    r.1 = (c.1, c.2.1) ∧ r.2 = (c.1, c.2.2) := by
  obtain ⟨⟨k, f⟩, ⟨n, s⟩⟩ := r
  unfold pairCode at e
  dsimp only at *
  split at e
  · split at e
    · cases e; exact absurd rfl h0
    · split at e
      · cases e
      · cases e
        constructor <;> refine Prod.ext ?_ rfl <;> dsimp only <;> omega
  · split at e
    · cases e
      constructor <;> refine Prod.ext ?_ rfl <;> dsimp only; omega
    · cases e

theorem subChild_zd (hw : D.Wf) (hd : Desc sp) {n : Nat} {f : NodeId} {s : S} (hn : 0 < n)
    (h1 : Reach D.spec (n : Int) f) (h2 : Reach sp (n : Int) s) (b : Fin (N + 1)) {c : Int × (NodeId × S)}
    (e : subChild D.table sp (f, s) n b = some c) (h0 : c.1 ≠ 0) :
    Zd D.spec (D.spec.child f n b) (c.1, c.2.1) ∧ Zd sp (sp.child s n b) (c.1, c.2.2) := by
  obtain ⟨hf, hc⟩ := at_of_reach hw h1
  have hpos : 0 < f.row := by have := rootCode_le f; omega
  have hrow : f.row = n := by rw [rootCode_pos hpos] at hc; omega
  obtain ⟨g, e1, a1, a2, a3, a4, _⟩ := downTable_spec (sp := sp) hw hd hf hpos b ((n : Int) - 1)
  have hg := rootCode_le g
  have t1 := downTable_zd hw hf hpos b _ e1
  rw [hrow] at t1
  obtain ⟨c', e2, b1, b2, b3, hle, b4⟩ := downSpec_spec (D := D) hw hd hn h2 b (z := rootCode g) (by omega)
  have t2 := downSpec_zd e2
  obtain ⟨r, e3, ok⟩ := syncLoop_spec hw hd (syncFuel (rootCode g) c'.1) g c' a1 b1 (syncFuel_ok _ _)
  have t3 := syncLoop_zd hw hd _ _ _ _ a1 b1 e3
  have e' := e
  unfold subChild at e'
  dsimp only at e'
  rw [e1] at e'; dsimp only at e'
  rw [e2] at e'; dsimp only at e'
  rw [e3] at e'
  obtain ⟨k1, k2⟩ := pairCode_codes (by rw [ok.code]; exact reach_ge hw.desc ok.at1) (reach_ge hd ok.reach) ok.fin e' h0
  rw [← k1, ← k2]
  exact ⟨t1.trans t3.1, t2.trans t3.2⟩

theorem subRoot_zd (hw : D.Wf) (hd : Desc sp) {c : Int × (NodeId × S)} (e : subRoot D.table D.root sp = some c) (h0 : c.1 ≠ 0) :
    Zd D.spec D.spec.root (c.1, c.2.1) ∧ Zd sp sp.root (c.1, c.2.2) := by
  have hf : At D D.root := Reach.root (sp := D.spec)
  obtain ⟨r, e1, ok⟩ := syncLoop_spec hw hd (syncFuel (rootCode D.root) sp.root.1) D.root sp.root hf .root (syncFuel_ok _ _)
  have t := syncLoop_zd hw hd _ _ _ _ hf .root e1
  unfold subRoot at e
  rw [e1] at e
  obtain ⟨k1, k2⟩ := pairCode_codes (by rw [ok.code]; exact reach_ge hw.desc ok.at1) (reach_ge hd ok.reach) ok.fin e h0
  rw [← k1, ← k2]
  exact t

end

section
variable {D Q : Dd (N + 1)}

theorem memAt_node (hw : D.Wf) {l : Int} {f : NodeId} (h : Reach D.spec l f) (m : Nat) (a : Asg (N + 1)) :
    ZddMemAt D.spec m l f a ↔ TMem D.table m f a := by
  obtain ⟨hv, e⟩ := hw.reach h
  rw [e]
  exact memAt_iff hw hv m a

/-- a pair that is reached from two equal families is a pair of equal families -/
theorem pair_same (hw : D.Wf) (hq : Q.Wf) {k : Int × NodeId} {n : Int × NodeId} {c : Int × (NodeId × NodeId)} (rk : Reach D.spec k.1 k.2)
    (rn : Reach Q.spec n.1 n.2) (ok : PairOk D Q.spec k n c) {m : Nat} (hk : k.1 ≤ m) (hn : n.1 ≤ m)
    (z : c.1 ≠ 0 → Zd D.spec k (c.1, c.2.1) ∧ Zd Q.spec n (c.1, c.2.2)) (he : EqZ D.table Q.table m k.2 n.2) (h0 : 0 < c.1) :
    EqZ D.table Q.table c.1.toNat c.2.1 c.2.2 := by
  have h0' : c.1 ≠ 0 := by omega
  obtain ⟨z1, z2⟩ := z h0'
  have r1 := ok.at1 h0'
  have r2 := ok.reach h0'
  have l1 := ok.le1 h0'
  have key : EqZ D.table Q.table m c.2.1 c.2.2 := by
    intro a
    have j1 := jacc_mem hw.desc hq.desc rk rn hk hn a
    have j2 := jacc_mem (c1 := (c.1, c.2.1)) (c2 := (c.1, c.2.2)) hw.desc hq.desc r1 r2 (m := m) (by dsimp only; omega) (by dsimp only; omega) a
    simp only [ok.acc] at j1
    rw [j1] at j2
    rw [memAt_node hw rk, memAt_node hq rn, memAt_node hw r1, memAt_node hq r2] at j2
    have s1 : TMem D.table m c.2.1 a → TMem D.table m k.2 a := by
      rw [← memAt_node hw rk, ← memAt_node hw r1]
      exact z1.mem hw.desc rk hk
    have s2 : TMem Q.table m c.2.2 a → TMem Q.table m n.2 a := by
      rw [← memAt_node hq rn, ← memAt_node hq r2]
      exact z2.mem hq.desc rn hn
    have := he a
    constructor
    · intro h; exact (j2.1 ⟨s1 h, this.1 (s1 h)⟩).2
    · intro h; exact (j2.1 ⟨this.2 (s2 h), s2 h⟩).1
  have row : ∀ {E : Dd (N + 1)} {f}, E.Wf → Reach E.spec c.1 f → f.row ≤ c.1.toNat := by
    intro E f hE hr
    obtain ⟨_, e⟩ := hE.reach hr
    by_cases hp : 0 < f.row
    · rw [childCode_pos hp] at e; omega
    · omega
  exact key.lower hw.table hq.table (row hw r1) (row hq r2) (by omega)

/-- nodes with the same non-empty family on the same level are the same -/
def LevelCanon (Q : Dd (N + 1)) : Prop := ∀ (n : Nat) (q r : NodeId), 0 < n → Reach Q.spec (n : Int) q → Reach Q.spec (n : Int) r →
  (∃ a, TMem Q.table n q a) → EqZ Q.table Q.table n q r → q = r

theorem reach_row (hw : D.Wf) {n : Nat} {f : NodeId} (hn : 0 < n) (h : Reach D.spec (n : Int) f) :
    f.row = n ∧ ∃ nd, D.table.node? f = some nd ∧ ∀ b, D.spec.child f n b = (childCode (nd b), nd b) := by
  obtain ⟨hv, e⟩ := hw.reach h
  have hp : 0 < f.row := by
    rcases hv with rfl | rfl | ⟨h, _⟩
    · have e : (n : Int) = 0 := e
      omega
    · have e : (n : Int) = -1 := e
      omega
    · exact h
  rw [childCode_pos hp] at e
  have hr : f.row = n := by omega
  obtain ⟨nd, hnd⟩ := hv.pos hp
  exact ⟨hr, nd, hnd, fun b => by rw [← hr]; exact Dd.child_eq hp hnd b⟩

/-- the pairs of the subsetter have equal families -/
theorem prod_same (hw : D.Wf) (hq : Q.Wf) {rt : Int × (NodeId × NodeId)} (hrt : PairOk D Q.spec D.spec.root Q.spec.root rt)
    (ert : subRoot D.table D.root Q.spec = some rt) {m : Nat} (hm1 : D.root.row ≤ m) (hm2 : Q.root.row ≤ m)
    (he : EqZ D.table Q.table m D.root Q.root) {l : Int} {p : NodeId × NodeId} (h : Reach (prodSpec D.table rt Q.spec) l p) :
    0 < l → EqZ D.table Q.table l.toNat p.1 p.2 := by
  induction h with
  | root =>
    intro h0
    have k1 := Dd.root_row hw
    have k2 := Dd.root_row hq
    exact pair_same hw hq (k := D.spec.root) (n := Q.spec.root) .root .root hrt (m := m) (by omega) (by omega)
      (fun h => subRoot_zd hw hq.desc ert h) he h0
  | @step n p b hn hr ih =>
    intro h0
    have ih := ih (by omega)
    obtain ⟨r1, r2⟩ := prod_reach hw hq.desc hrt hr (by omega)
    obtain ⟨f, q⟩ := p
    obtain ⟨e1, nd, hnd, hc1⟩ := reach_row hw hn r1
    obtain ⟨e2, nd', hnd', hc2⟩ := reach_row hq hn r2
    dsimp only at *
    have ok := prod_child (rt := rt) (p := (f, q)) hw hq.desc hn r1 r2 b
    have s1 : Reach D.spec _ _ := .step b hn r1
    have s2 : Reach Q.spec _ _ := .step b hn r2
    have d1 := hw.desc.child_lt b hn r1
    have d2 := hq.desc.child_lt b hn r2
    refine pair_same hw hq s1 s2 ok (m := n - 1) (by omega) (by omega) (fun hne => ?_) ?_ h0
    · obtain ⟨c, ec, _⟩ := subChild_spec hw hq.desc hn r1 r2 b
      have hcc : (prodSpec D.table rt Q.spec).child (f, q) n b = c := by
        show (subChild D.table Q.spec (f, q) n b).getD _ = c
        rw [ec]; rfl
      rw [hcc] at hne ⊢
      exact subChild_zd hw hq.desc hn r1 r2 b ec hne
    · rw [hc1, hc2]
      have := EqZ.child_same hw.table hq.table (f := f) (g := q) (by rw [e1]; exact ih) (by omega) (by omega) hnd hnd' b
      rw [e1] at this
      exact this

/-- the result of `zddSubset` with a diagram of the same family is reduced -/
theorem zddSubset_canon (hw : D.Wf) (hc : Canon delZ D.table) (hq : Q.Wf) (hl : LevelCanon Q) {m : Nat} (hm1 : D.root.row ≤ m)
    (hm2 : Q.root.row ≤ m) (he : EqZ D.table Q.table m D.root Q.root) (shared : Bool) :
    ∃ D', zddSubset D Q.spec shared = some D' ∧ D'.Wf ∧ D'.table.row 0 = terminalRow (N + 1) ∧ Canon delZ D'.table := by
  obtain ⟨rt, D', lab, ert, hrt, e, hs, _, h4, _⟩ := zddSubset_main hw hq.lawful.lawful shared
  have hpl := prod_lawful hw hq.lawful.lawful hrt
  have hm : NoMerge (prodSpec D.table rt Q.spec) := fun _ _ => rfl
  have fam : ∀ {n : Nat} {p : NodeId × NodeId}, 0 < n → Reach (prodSpec D.table rt Q.spec) (n : Int) p → ∀ a,
      (ZddMemAt (prodSpec D.table rt Q.spec) n (n : Int) p a ↔ TMem D.table n p.1 a) := by
    intro n p hn hr a
    obtain ⟨r1, r2⟩ := prod_reach hw hq.desc hrt hr (by omega)
    have j := jacc_mem (c1 := ((n : Int), p.1)) (c2 := ((n : Int), p.2)) hw.desc hq.desc r1 r2 (m := n) (Int.le_refl _) (Int.le_refl _) a
    have eq := prod_same hw hq hrt ert hm1 hm2 he hr (by omega)
    unfold ZddMemAt
    simp only [prod_accepts hw hq.desc hrt _ hr]
    rw [j, memAt_node hw r1, memAt_node hq r2]
    rw [Int.toNat_natCast] at eq
    rw [← eq a]
    exact and_self_iff
  refine ⟨D', e, hs.wf hpl.toDesc, h4, hs.canonZ hpl hm ?_ ?_⟩
  · intro n s t hn hrs hrt' hacc
    obtain ⟨r1, r2⟩ := prod_reach hw hq.desc hrt hrs (by omega)
    obtain ⟨r1', r2'⟩ := prod_reach hw hq.desc hrt hrt' (by omega)
    have q1 := prod_same hw hq hrt ert hm1 hm2 he hrs (by omega)
    have q2 := prod_same hw hq hrt ert hm1 hm2 he hrt' (by omega)
    rw [Int.toNat_natCast] at q1 q2
    obtain ⟨e1, nd, hnd, _⟩ := reach_row hw hn r1
    obtain ⟨e1', nd', hnd', _⟩ := reach_row hw hn r1'
    have heq : EqZ D.table D.table n s.1 t.1 := fun a => by
      rw [← fam hn hrs, ← fam hn hrt']
      exact zddMemAt_acc hacc n a
    have f1 : s.1 = t.1 := hc.eqZ hw.table _ (Nat.le_refl _) (Table.valid_of_node (by omega) hnd) (Table.valid_of_node (by omega) hnd') n
      (by omega) (by omega) heq
    have hne : ∃ a, TMem Q.table n s.2 a := by
      obtain ⟨a, ha⟩ := hc.memZ hw (f := s.1) (Table.valid_of_node (by omega) hnd) (fun h => by rw [h] at e1; have : 0 = n := e1; omega) (m := n) (by omega)
      exact ⟨a, (q1 a).1 ha⟩
    have f2 : s.2 = t.2 := hl n _ _ hn r2 r2' hne ((q1.symm.trans heq).trans q2)
    have : s = t := Prod.ext f1 f2
    rw [this]
    exact hpl.refl hn hrt'
  · intro n s hn hrs
    obtain ⟨r1, r2⟩ := prod_reach hw hq.desc hrt hrs (by omega)
    obtain ⟨e1, nd, hnd, hc1⟩ := reach_row hw hn r1
    obtain ⟨e2, nd', hnd', hc2⟩ := reach_row hq hn r2
    have hk := hc.keep (f := s.1) (by omega) hnd
    unfold delZ at hk
    obtain ⟨b, hk⟩ := Classical.not_forall.1 hk
    obtain ⟨hb, hk⟩ := Classical.not_imp.1 hk
    have hch := hw.table.child (f := s.1) (by omega) hnd b
    obtain ⟨a, ha⟩ := hc.memZ hw hch.1 hk (m := n - 1) (by omega)
    have q := prod_same hw hq hrt ert hm1 hm2 he hrs (by omega)
    rw [Int.toNat_natCast] at q
    have q' := EqZ.child_same hw.table hq.table (f := s.1) (g := s.2) (by rw [e1]; exact q) (by omega) (by omega) hnd hnd' b
    rw [e1] at q'
    have s1 : Reach D.spec _ _ := .step b hn r1
    have s2 : Reach Q.spec _ _ := .step b hn r2
    have d1 := hw.desc.child_lt b hn r1
    have d2 := hq.desc.child_lt b hn r2
    have j := (jacc_mem hw.desc hq.desc s1 s2 (m := n - 1) (by omega) (by omega) a).2 (by
      rw [memAt_node hw s1, memAt_node hq s2, hc1, hc2]
      exact ⟨ha, (q' a).1 ha⟩)
    obtain ⟨p, hp, _⟩ := j
    refine ⟨b, p, hb, ?_⟩
    rw [prod_accepts hw hq.desc hrt _ (.step b hn hrs), ← (prod_child (rt := rt) (p := s) hw hq.desc hn r1 r2 b).acc p]
    exact hp

end

end TdZdd
