import Verif.FbSem

/-! Proofs about `FrontierBasedSearch` (8): the recursion over the edges. -/

namespace TdZdd.Fb

open Gr Deg
open Sp (Act Joins adjA addE joins_get)

variable {A : Nat → Nat → Prop} {G : Graph} {i : Nat} {a : Asg 2} {noLoop la : Bool} {numUEC uec : Int} {m : List Mt}

/-! ### legal states -/

/-- a legal state before edge `i` -/
def St (G : Graph) (i : Nat) (s : Int × List Mt) : Prop := ∃ e A, G.info[i]? = some e ∧ Base G i A s.1 s.2

/-- a legal result: terminal or a state at a level up to `l` -/
def Legal (G : Graph) (l : Nat) (r : Int × (Int × List Mt)) : Prop :=
  r.1 = 0 ∨ r.1 = -1 ∨ ∃ i', i' < G.info.length ∧ r.1 = ((G.info.length - i' : Nat) : Int) ∧ G.info.length - i' ≤ l ∧ St G i' r.2

theorem final_some {e : EdgeInfo} {r : Option Int} {u : Int} (h : r.bind (fbFinal e) = some u) : r = some u ∧ (e.finalEdge = true → u ≤ 0) := by
  rw [Option.bind_eq_some_iff] at h
  obtain ⟨v, rfl, h⟩ := h
  unfold fbFinal at h
  by_cases hc : e.finalEdge = true ∧ 0 < v
  · rw [if_pos hc] at h; cases h
  · rw [if_neg hc] at h
    injection h with h
    subst h
    exact ⟨rfl, fun h => by
      apply Classical.byContradiction
      intro hn
      exact hc ⟨h, by omega⟩⟩

theorem final_none {e : EdgeInfo} {r : Option Int} (h : r.bind (fbFinal e) = none) : r = none ∨ ∃ u, r = some u ∧ e.finalEdge = true ∧ 0 < u := by
  cases r with
  | none => exact .inl rfl
  | some u =>
    right
    refine ⟨u, rfl, ?_⟩
    rw [Option.bind_some] at h
    unfold fbFinal at h
    by_cases hc : e.finalEdge = true ∧ 0 < u
    · exact hc
    · rw [if_neg hc] at h; cases h

theorem look_legal (hH : Sp.Hyp G) (hv : G.vMax ≤ 32766) : ∀ (fuel i : Nat) (uec : Int) (m : List Mt), St G i (uec, m) → G.info.length ≤ fuel + i →
    ∃ r, fbLook G noLoop la fuel i uec m = some r ∧ Legal G (G.info.length - i) r
  | 0, i, uec, m, ⟨e, A, he, _⟩, h2 => by
    have := (List.getElem?_eq_some_iff.1 he).1
    omega
  | fuel + 1, i, uec, m, ⟨e, A, he, hB⟩, hf => by
    have hi := (List.getElem?_eq_some_iff.1 he).1
    have hme : Legal G (G.info.length - i) ((G.info.length : Int) - i, (uec, m)) := .inr (.inr ⟨i, hi, by dsimp only; omega, Nat.le_refl _, e, A, he, hB⟩)
    unfold fbLook
    by_cases hla : la = false
    · rw [if_pos hla]; exact ⟨_, rfl, hme⟩
    rw [if_neg hla, he, Option.bind_some]
    obtain ⟨t, ht, _, _⟩ := take_base hH hv he hB noLoop
    rw [ht, Option.bind_some]
    by_cases hts : (t.bind (fbFinal e)).isSome = true
    · rw [if_pos hts]; exact ⟨_, rfl, hme⟩
    rw [if_neg hts]
    obtain ⟨r, hr, hp, _⟩ := leave_base hH hv he hB
    rw [hr, Option.bind_some]
    cases hc : r.bind (fbFinal e) with
    | none => exact ⟨_, rfl, .inl rfl⟩
    | some u =>
      dsimp only
      by_cases hlast : i + 1 = G.info.length
      · rw [if_pos hlast]; exact ⟨_, rfl, .inr (.inl rfl)⟩
      rw [if_neg hlast]
      have hf' : G.info[i + 1]? = some G.info[i + 1] := List.getElem?_eq_getElem (by omega)
      generalize G.info[i + 1] = f at hf'
      have hE := hB.enc
      rw [st_some he] at hE
      obtain ⟨m', hm', hB'⟩ := next_base hH hv he hf' hB.upto hB.one (hp u (final_some hc).1).1 hE
      rw [hf', Option.bind_some, hm', Option.bind_some]
      obtain ⟨r', hr', hleg⟩ := look_legal hH hv fuel (i + 1) u m' ⟨f, A, hf', hB'⟩ (by omega)
      refine ⟨r', hr', ?_⟩
      rcases hleg with h | h | ⟨i', h1, h2, h3, h4⟩
      · exact .inl h
      · exact .inr (.inl h)
      · exact .inr (.inr ⟨i', h1, h2, by omega, h4⟩)

theorem next_legal (hH : Sp.Hyp G) (hv : G.vMax ≤ 32766) {e : EdgeInfo} (he : G.info[i]? = some e) (hA : Upto G A i) (hO : OneColor G A) (hb : uec ≤ 32767) (hE : Enc (world G A e.v0) (sz G) m) :
    ∃ r, fbNext G noLoop la i e uec m = some r ∧ Legal G (G.info.length - i - 1) r := by
  have hi := (List.getElem?_eq_some_iff.1 he).1
  unfold fbNext
  by_cases hlast : i + 1 = G.info.length
  · rw [if_pos hlast]; exact ⟨_, rfl, .inr (.inl rfl)⟩
  rw [if_neg hlast]
  have hf' : G.info[i + 1]? = some G.info[i + 1] := List.getElem?_eq_getElem (by omega)
  generalize G.info[i + 1] = f at hf'
  obtain ⟨m', hm', hB'⟩ := next_base hH hv he hf' hA hO hb hE
  rw [hf', Option.bind_some, hm', Option.bind_some, show G.info.length - i - 1 = G.info.length - (i + 1) by omega]
  exact look_legal hH hv _ _ _ _ ⟨f, A, hf', hB'⟩ (by omega)

theorem child_legal (hH : Sp.Hyp G) (hv : G.vMax ≤ 32766) {s : Int × List Mt} {level : Nat} (take : Bool) (h1 : 1 ≤ level) (h2 : level ≤ G.info.length) (hst : St G (G.info.length - level) s) :
    ∃ r, fbChild G noLoop la s level take = some r ∧ Legal G (level - 1) r := by
  obtain ⟨e, A, he, hB⟩ := hst
  unfold fbChild
  rw [if_neg (by omega), he, Option.bind_some]
  have hlev : level - 1 = G.info.length - (G.info.length - level) - 1 := by omega
  cases take with
  | true =>
    rw [if_pos rfl]
    obtain ⟨t, ht, hp, _⟩ := take_base hH hv he hB noLoop
    rw [ht, Option.bind_some]
    cases hc : t.bind (fbFinal e) with
    | none => exact ⟨_, rfl, .inl rfl⟩
    | some u =>
      obtain ⟨p1, p2, p3, p4, m', p5, p6⟩ := hp u (final_some hc).1
      dsimp only
      rw [p5, Option.bind_some, hlev]
      exact next_legal hH hv he (upto_addE hB.upto he) p3 p1 p6
  | false =>
    rw [if_neg (by simp)]
    obtain ⟨r, hr, hp, _⟩ := leave_base hH hv he hB
    rw [hr, Option.bind_some]
    cases hc : r.bind (fbFinal e) with
    | none => exact ⟨_, rfl, .inl rfl⟩
    | some u =>
      dsimp only
      rw [hlev]
      have hE := hB.enc
      rw [st_some he] at hE
      exact next_legal hH hv he hB.upto hB.one (hp u (final_some hc).1).1 hE

theorem child_eq {s : Int × List Mt} {l : Nat} {b : Fin 2} {r : Int × (Int × List Mt)} (h : fbChild G noLoop la s l (b != 0) = some r) :
    (frontierSearch G numUEC noLoop la).child s l b = r := by
  show (fbChild G noLoop la s l (b != 0)).getD _ = r
  rw [h]; rfl

theorem empty_base (hH : Sp.Hyp G) (hv : G.vMax ≤ 32766) {e : EdgeInfo} (he : G.info[0]? = some e) (hb : uec ≤ 32767) :
    Base G 0 (fun _ _ => False) uec ((List.range G.maxFrontierSize.toNat).map fun k => fbInit G (e.v0 + k)) where
  upto := ⟨fun _ _ h => h, fun _ _ h => h.elim⟩
  one u v h _ _ := by
    rcases Conn.first h with rfl | ⟨_, h⟩
    · rfl
    · exact h.elim
  enc := by rw [st_some he]; exact init_enc hH hv he
  big := hb

theorem root_eq (hH : Sp.Hyp G) (hn : 0 < G.info.length) : ∃ e, G.info[0]? = some e ∧
    (frontierSearch G numUEC noLoop la).root = ((G.info.length : Int), (wrap16 numUEC, (List.range G.maxFrontierSize.toNat).map fun k => fbInit G (e.v0 + k))) := by
  have he : G.info[0]? = some G.info[0] := List.getElem?_eq_getElem hn
  generalize G.info[0] = e at he
  refine ⟨e, he, ?_⟩
  show (fbRoot G numUEC).getD _ = _
  unfold fbRoot
  rw [he, Option.bind_some, if_neg (by have := edge_lt hH he; omega)]; rfl

theorem wrap16_le (x : Int) : -32768 ≤ wrap16 x ∧ wrap16 x ≤ 32767 := by
  unfold wrap16; omega

theorem reach_inv (hH : Sp.Hyp G) (hv : G.vMax ≤ 32766) (hn : 0 < G.info.length) {l : Int} {s : Int × List Mt} (hr : Reach (frontierSearch G numUEC noLoop la) l s) :
    1 ≤ l → l ≤ G.info.length ∧ St G (G.info.length - l.toNat) s := by
  induction hr with
  | root =>
    intro _
    obtain ⟨e, he, h1⟩ := root_eq (numUEC := numUEC) (noLoop := noLoop) (la := la) hH hn
    rw [h1]
    dsimp only
    rw [Int.toNat_natCast, Nat.sub_self]
    exact ⟨Int.le_refl _, e, _, he, empty_base hH hv he (wrap16_le _).2⟩
  | step b hn' hr ih =>
    intro hl
    rename_i n s
    have ih := ih (by omega)
    rw [Int.toNat_natCast] at ih
    obtain ⟨r, er, hleg⟩ := child_legal (noLoop := noLoop) (la := la) hH hv (level := n) (b != 0) (by omega) (by omega) ih.2
    rw [child_eq er] at hl ⊢
    rcases hleg with h1 | h1 | ⟨i', h1, h2, h3, h4⟩
    · omega
    · omega
    · refine ⟨by omega, ?_⟩
      rw [h2, Int.toNat_natCast, show G.info.length - (G.info.length - i') = i' by omega]
      exact h4

theorem desc (hH : Sp.Hyp G) (hv : G.vMax ≤ 32766) (hn : 0 < G.info.length) : Desc (frontierSearch G numUEC noLoop la) where
  root_ge := by
    obtain ⟨e, he, h1⟩ := root_eq (numUEC := numUEC) (noLoop := noLoop) (la := la) hH hn
    rw [h1]; dsimp only; omega
  child_lt b hn' hr := by
    rename_i n s
    have hi := reach_inv hH hv hn hr (by omega)
    rw [Int.toNat_natCast] at hi
    obtain ⟨r, er, hleg⟩ := child_legal (noLoop := noLoop) (la := la) hH hv (level := n) (b != 0) (by omega) (by omega) hi.2
    rw [child_eq er]
    rcases hleg with h1 | h1 | ⟨i', h1, h2, h3, h4⟩ <;> omega
  child_ge b hn' hr := by
    rename_i n s
    have hi := reach_inv hH hv hn hr (by omega)
    rw [Int.toNat_natCast] at hi
    obtain ⟨r, er, hleg⟩ := child_legal (noLoop := noLoop) (la := la) hH hv (level := n) (b != 0) (by omega) (by omega) hi.2
    rw [child_eq er]
    rcases hleg with h1 | h1 | ⟨i', h1, h2, h3, h4⟩ <;> omega

/-! ### the meaning of states -/

theorem st_le (hH : Sp.Hyp G) {e : EdgeInfo} (he : G.info[i]? = some e) : st G i + (st G (i + 1) - st G i) = st G (i + 1) := by
  rcases leave_edge hH he with ⟨_, _, h⟩ | ⟨_, _, _, h⟩ | ⟨_, _, _, _, h⟩ <;> omega

theorem part_final (hH : Sp.Hyp G) {e : EdgeInfo} (he : G.info[i]? = some e) (hfin : e.finalEdge = true) {u : Int} (hu : 0 < u) (hP : Part G noLoop numUEC a (i + 1) (adjA G a (i + 1)) (st G (i + 1)) u) :
    ¬ Valid G noLoop numUEC a := by
  have := (hH.ok.last i e he).1 hfin
  rw [this, st_len] at hP
  exact (part_end hH hP).2 hu

theorem take_part (hH : Sp.Hyp G) (hv : G.vMax ≤ 32766) {e : EdgeInfo} (he : G.info[i]? = some e) (hB : Base G i (adjA G a i) uec m) (hP : Part G noLoop numUEC a i (adjA G a i) (st G i) uec)
    (hta : a (G.info.length - i) = 1) : ∃ t, fbTakable noLoop uec m e = some t ∧ (t = none → ¬ Valid G noLoop numUEC a) ∧
      ∀ u, t = some u → (e.finalEdge = true → u ≤ 0) ∧ u ≤ 32767 ∧ OneColor G (adjA G a (i + 1)) ∧ Part G noLoop numUEC a (i + 1) (adjA G a (i + 1)) (st G (i + 1)) u ∧
        ∃ m', fbMerge m ((e.v1 : Int) - e.v0) ((e.v2 : Int) - e.v0) = some m' ∧ Enc (world G (adjA G a (i + 1)) e.v0) (sz G) m' := by
  have hi := (List.getElem?_eq_some_iff.1 he).1
  obtain ⟨r, hr, hp, hq⟩ := take_base hH hv he hB noLoop
  have hlt := edge_lt hH he
  have hs1 : st G i ≤ e.v1 := by rw [st_some he]; exact hlt.2.1
  have hs2 : st G i ≤ e.v2 := by rw [st_some he]; omega
  have hcnt : (numUEC < 0 ∧ uec = numUEC) ∨ (0 ≤ uec ∧ ∃ reps, (reps.length : Int) + uec = numUEC ∧ Reps G (adjA G a (i + 1)) (st G i) reps) := by
    rw [Sp.adjA_take he hta]
    rcases hP.count with h | ⟨h1, reps, h2, h3⟩
    · exact .inl h
    · exact .inr ⟨h1, reps, h2, reps_addE hs1 hs2 h3⟩
  rw [← Sp.adjA_take he hta] at hp hq
  have hpass : ∀ u, r = some u → Part G noLoop numUEC a (i + 1) (adjA G a (i + 1)) (st G (i + 1)) u := by
    intro u hu
    obtain ⟨p1, p2, p3, p4, _⟩ := hp u hu
    have hP1 : Part G noLoop numUEC a (i + 1) (adjA G a (i + 1)) (st G i) uec :=
      ⟨p3, by rw [Sp.adjA_take he hta]; exact full_addE hs1 hs2 hP.full, fun h => tree_take ⟨e, he, p2 h⟩ (hP.tree h), hcnt⟩
    have := part_pass adjA_sym hP1 p4
    rwa [st_le hH he] at this
  refine ⟨_, hr, fun hn hV => ?_, fun u hu => ?_⟩
  · rcases final_none hn with h | ⟨u, hu, hfin, hpos⟩
    · rcases hq h with ⟨h1, h2⟩ | h | ⟨_, h⟩
      · refine hV.tree h1 i e hi hta he (h2.mono ?_)
        rintro x y ⟨b, hb, hab, hj⟩
        exact ⟨b, by omega, by omega, hab, hj⟩
      · exact h fun u v huv hu hv => (hV.color u v hu hv).1 (conn_final (by omega) huv)
      · exact part_fail hH (i := i + 1) (by omega) (st_le hH he) hcnt h hV
    · exact part_final hH he hfin hpos (hpass u hu) hV
  · obtain ⟨hu, hfin⟩ := final_some hu
    obtain ⟨p1, p2, p3, p4, p5⟩ := hp u hu
    exact ⟨hfin, p1, p3, hpass u hu, p5⟩

theorem leave_part (hH : Sp.Hyp G) (hv : G.vMax ≤ 32766) {e : EdgeInfo} (he : G.info[i]? = some e) (hB : Base G i (adjA G a i) uec m) (hP : Part G noLoop numUEC a i (adjA G a i) (st G i) uec)
    (hta : a (G.info.length - i) ≠ 1) : ∃ t, fbNotTake uec m e = some t ∧ (t = none → ¬ Valid G noLoop numUEC a) ∧
      ∀ u, t = some u → (e.finalEdge = true → u ≤ 0) ∧ u ≤ 32767 ∧ Part G noLoop numUEC a (i + 1) (adjA G a (i + 1)) (st G (i + 1)) u := by
  have hi := (List.getElem?_eq_some_iff.1 he).1
  obtain ⟨r, hr, hp, hq⟩ := leave_base hH hv he hB
  rw [← Sp.adjA_leave hta] at hp hq
  have hP1 : Part G noLoop numUEC a (i + 1) (adjA G a (i + 1)) (st G i) uec := by
    rw [Sp.adjA_leave hta]
    exact ⟨hP.one, hP.full, fun h => tree_leave hta (hP.tree h), hP.count⟩
  have hpass : ∀ u, r = some u → Part G noLoop numUEC a (i + 1) (adjA G a (i + 1)) (st G (i + 1)) u := by
    intro u hu
    have := part_pass adjA_sym hP1 (hp u hu).2
    rwa [st_le hH he] at this
  refine ⟨_, hr, fun hn hV => ?_, fun u hu => ?_⟩
  · rcases final_none hn with h | ⟨u, hu, hfin, hpos⟩
    · exact part_fail hH (i := i + 1) (by omega) (st_le hH he) hP1.count (hq h) hV
    · exact part_final hH he hfin hpos (hpass u hu) hV
  · obtain ⟨hu, hfin⟩ := final_some hu
    exact ⟨hfin, (hp u hu).1, hpass u hu⟩

/-- meaning of the state before edge `i` -/
def Good (G : Graph) (numUEC : Int) (noLoop la : Bool) (a : Asg 2) (i : Nat) : Prop :=
  ∀ e uec m, G.info[i]? = some e → Base G i (adjA G a i) uec m → Part G noLoop numUEC a i (adjA G a i) (st G i) uec →
    Reach (frontierSearch G numUEC noLoop la) ((G.info.length - i : Nat) : Int) (uec, m) →
    (ZddMemAt (frontierSearch G numUEC noLoop la) (G.info.length - i) ((G.info.length - i : Nat) : Int) (uec, m) a ↔ Valid G noLoop numUEC a)

/-- meaning of what `getChild` returns after the edge before `i` -/
def GoodLook (G : Graph) (numUEC : Int) (noLoop la : Bool) (a : Asg 2) (i : Nat) : Prop :=
  ∀ e uec m fuel r, G.info[i]? = some e → Base G i (adjA G a i) uec m → Part G noLoop numUEC a i (adjA G a i) (st G i) uec → G.info.length ≤ fuel + i →
    fbLook G noLoop la fuel i uec m = some r → Reach (frontierSearch G numUEC noLoop la) r.1 r.2 →
    (ZddMemAt (frontierSearch G numUEC noLoop la) (G.info.length - i) r.1 r.2 a ↔ Valid G noLoop numUEC a)

theorem means_zero {n : Nat} {s : Int × List Mt} (h : ¬ Valid G noLoop numUEC a) : ZddMemAt (frontierSearch G numUEC noLoop la) n 0 s a ↔ Valid G noLoop numUEC a :=
  ⟨fun hm => absurd hm zddMemAt_zero, fun h' => absurd h' h⟩

theorem means_one {s : Int × List Mt} {l : Int} (hl : l < 0) (h : Valid G noLoop numUEC a) : ZddMemAt (frontierSearch G numUEC noLoop la) 0 l s a ↔ Valid G noLoop numUEC a := by
  rw [zddMemAt_neg hl]
  exact ⟨fun _ => h, fun _ j h1 h2 => by omega⟩

/-- after the last edge -/
theorem last_valid (hH : Sp.Hyp G) {e : EdgeInfo} (he : G.info[i]? = some e) (hlast : i + 1 = G.info.length) {u : Int} (hu : e.finalEdge = true → u ≤ 0)
    (hP : Part G noLoop numUEC a (i + 1) (adjA G a (i + 1)) (st G (i + 1)) u) : Valid G noLoop numUEC a := by
  have := hu ((hH.ok.last i e he).2 hlast)
  rw [hlast, st_len] at hP
  exact (part_end hH hP).1 this

theorem next_good (hH : Sp.Hyp G) (hv : G.vMax ≤ 32766) {e : EdgeInfo} (he : G.info[i]? = some e) (hnext : i + 1 < G.info.length → GoodLook G numUEC noLoop la a (i + 1)) {u : Int}
    (hO : OneColor G (adjA G a (i + 1))) (hb : u ≤ 32767) (hE : Enc (world G (adjA G a (i + 1)) e.v0) (sz G) m) (hu : e.finalEdge = true → u ≤ 0)
    (hP : Part G noLoop numUEC a (i + 1) (adjA G a (i + 1)) (st G (i + 1)) u) {r : Int × (Int × List Mt)} (hr : fbNext G noLoop la i e u m = some r) (hR : Reach (frontierSearch G numUEC noLoop la) r.1 r.2) :
    ZddMemAt (frontierSearch G numUEC noLoop la) (G.info.length - i - 1) r.1 r.2 a ↔ Valid G noLoop numUEC a := by
  have hi : i < G.info.length := (List.getElem?_eq_some_iff.1 he).1
  unfold fbNext at hr
  by_cases hlast : i + 1 = G.info.length
  · rw [if_pos hlast] at hr
    injection hr with hr
    subst hr
    rw [show G.info.length - i - 1 = 0 by omega]
    exact means_one (by dsimp only; omega) (last_valid hH he hlast hu hP)
  · rw [if_neg hlast] at hr
    have hf' : G.info[i + 1]? = some G.info[i + 1] := List.getElem?_eq_getElem (by omega)
    generalize G.info[i + 1] = f at hf'
    have hA : Upto G (adjA G a (i + 1)) i := ⟨adjA_sym, fun x y ⟨b, hb, _, hj⟩ => ⟨b, by omega, hj⟩⟩
    obtain ⟨m', hm', hB'⟩ := next_base hH hv he hf' hA hO hb hE
    rw [hf', Option.bind_some, hm', Option.bind_some] at hr
    exact hnext (by omega) f u m' _ r hf' hB' hP (by omega) hr hR

theorem good_step (hH : Sp.Hyp G) (hv : G.vMax ≤ 32766) (hnext : i + 1 < G.info.length → GoodLook G numUEC noLoop la a (i + 1)) : Good G numUEC noLoop la a i := by
  intro e uec m he hB hP hR
  have hi : i < G.info.length := (List.getElem?_eq_some_iff.1 he).1
  have hn : 0 < G.info.length := by omega
  obtain ⟨r, er, hleg⟩ := child_legal (noLoop := noLoop) (la := la) hH hv (s := (uec, m)) (level := G.info.length - i) (a (G.info.length - i) != 0) (by omega) (by omega)
    (by rw [show G.info.length - (G.info.length - i) = i by omega]; exact ⟨e, _, he, hB⟩)
  have hRc := Reach.step (a (G.info.length - i)) (by omega) hR
  have hmem := zddMemAt_pos (desc hH hv hn) (by omega) hR (Nat.le_refl _) (a := a)
  rw [child_eq er] at hRc hmem
  have htriv : (∀ j, G.info.length - i < j → j ≤ G.info.length - i → (a j).val = 0) := fun j h1 h2 => by omega
  refine Iff.trans hmem (Iff.trans ⟨fun h => h.2, fun h => ⟨htriv, h⟩⟩ ?_)
  unfold fbChild at er
  rw [if_neg (by omega), show G.info.length - (G.info.length - i) = i by omega, he, Option.bind_some] at er
  by_cases hta : a (G.info.length - i) = 1
  · rw [if_pos (by rw [hta]; rfl)] at er
    obtain ⟨t, ht, hz, hp⟩ := take_part hH hv he hB hP hta
    rw [ht, Option.bind_some] at er
    cases t with
    | none =>
      injection er with er
      subst er
      exact means_zero (hz rfl)
    | some u =>
      obtain ⟨p1, p2, p3, p4, m', p5, p6⟩ := hp u rfl
      dsimp only at er
      rw [p5, Option.bind_some] at er
      exact next_good hH hv he hnext p3 p2 p6 p1 p4 er hRc
  · rw [if_neg (by
      intro h
      have : a (G.info.length - i) ≠ 0 := by simpa using h
      apply hta
      generalize a (G.info.length - i) = x at this ⊢
      revert x; decide)] at er
    obtain ⟨t, ht, hz, hp⟩ := leave_part hH hv he hB hP hta
    rw [ht, Option.bind_some] at er
    cases t with
    | none =>
      injection er with er
      subst er
      exact means_zero (hz rfl)
    | some u =>
      obtain ⟨p1, p2, p3⟩ := hp u rfl
      dsimp only at er
      have hE := hB.enc
      have hO := hB.one
      rw [st_some he, ← Sp.adjA_leave hta] at hE
      rw [← Sp.adjA_leave hta] at hO
      exact next_good hH hv he hnext hO p2 hE p1 p3 er hRc

theorem look_step (hH : Sp.Hyp G) (hv : G.vMax ≤ 32766) (hgood : Good G numUEC noLoop la a i) (hnext : i + 1 < G.info.length → GoodLook G numUEC noLoop la a (i + 1)) : GoodLook G numUEC noLoop la a i := by
  intro e uec m fuel r he hB hP hfuel hr hR
  have hi : i < G.info.length := (List.getElem?_eq_some_iff.1 he).1
  have hn : 0 < G.info.length := by omega
  obtain ⟨fuel, rfl⟩ : ∃ k, fuel = k + 1 := ⟨fuel - 1, by omega⟩
  have hcast : ((G.info.length : Int) - i) = ((G.info.length - i : Nat) : Int) := by omega
  have hr0 := hr
  unfold fbLook at hr
  by_cases hla : la = false
  · rw [if_pos hla, hcast] at hr
    injection hr with hr
    subst hr
    exact hgood e uec m he hB hP hR
  rw [if_neg hla, he, Option.bind_some] at hr
  obtain ⟨t, ht, _, _⟩ := take_base hH hv he hB noLoop
  rw [ht, Option.bind_some] at hr
  by_cases hts : (t.bind (fbFinal e)).isSome = true
  · rw [if_pos hts, hcast] at hr
    injection hr with hr
    subst hr
    exact hgood e uec m he hB hP hR
  rw [if_neg hts] at hr
  have htn : t.bind (fbFinal e) = none := by simpa using hts
  -- nothing is lost if the edge is chosen
  have hno : a (G.info.length - i) = 1 → ¬ Valid G noLoop numUEC a := by
    intro hta
    obtain ⟨t', ht', hz, _⟩ := take_part hH hv he hB hP hta
    rw [ht] at ht'
    injection ht' with ht'
    exact hz (by rw [← ht', htn])
  -- the level is skipped
  have hskip : r.1 < ((G.info.length - i : Nat) : Int) → (ZddMemAt (frontierSearch G numUEC noLoop la) (G.info.length - i) r.1 r.2 a ↔
      a (G.info.length - i) ≠ 1 ∧ ZddMemAt (frontierSearch G numUEC noLoop la) (G.info.length - i - 1) r.1 r.2 a) := by
    intro hlt
    rw [mem_lower (desc hH hv hn) hR hlt (by omega) (Nat.le_refl _)]
    constructor
    · rintro ⟨_, h2, h3⟩
      refine ⟨fun h => ?_, h3⟩
      rw [h] at h2; cases h2
    · rintro ⟨h2, h3⟩
      refine ⟨fun j h1 h2 => by omega, ?_, h3⟩
      generalize a (G.info.length - i) = x at h2
      revert x; decide
  obtain ⟨q, hq, hp, _⟩ := leave_base hH hv he hB
  rw [hq, Option.bind_some] at hr
  cases hc : q.bind (fbFinal e) with
  | none =>
    rw [hc] at hr
    injection hr with hr
    subst hr
    apply means_zero
    by_cases hta : a (G.info.length - i) = 1
    · exact hno hta
    · obtain ⟨t', ht', hz, _⟩ := leave_part hH hv he hB hP hta
      rw [hq] at ht'
      injection ht' with ht'
      exact hz (by rw [← ht', hc])
  | some u =>
    rw [hc] at hr
    dsimp only at hr
    have hpart : a (G.info.length - i) ≠ 1 → (e.finalEdge = true → u ≤ 0) ∧ u ≤ 32767 ∧ Part G noLoop numUEC a (i + 1) (adjA G a (i + 1)) (st G (i + 1)) u := by
      intro hta
      obtain ⟨t', ht', _, hz⟩ := leave_part hH hv he hB hP hta
      rw [hq] at ht'
      injection ht' with ht'
      exact hz u (by rw [← ht', hc])
    by_cases hlast : i + 1 = G.info.length
    · rw [if_pos hlast] at hr
      injection hr with hr
      subst hr
      rw [hskip (by dsimp only; omega)]
      by_cases hta : a (G.info.length - i) = 1
      · exact ⟨fun h => absurd hta h.1, fun h => absurd h (hno hta)⟩
      · have hV := last_valid hH he hlast (hpart hta).1 (hpart hta).2.2
        rw [show G.info.length - i - 1 = 0 by omega]
        exact ⟨fun _ => hV, fun _ => ⟨hta, (means_one (by dsimp only; omega) hV).2 hV⟩⟩
    rw [if_neg hlast] at hr
    have hf' : G.info[i + 1]? = some G.info[i + 1] := List.getElem?_eq_getElem (by omega)
    generalize G.info[i + 1] = f at hf'
    have hE := hB.enc
    rw [st_some he] at hE
    obtain ⟨m', hm', hB'⟩ := next_base hH hv he hf' hB.upto hB.one (hp u (final_some hc).1).1 hE
    rw [hf', Option.bind_some, hm', Option.bind_some] at hr
    obtain ⟨r', hr', hleg⟩ := look_legal (noLoop := noLoop) (la := la) hH hv fuel (i + 1) u m' ⟨f, _, hf', hB'⟩ (by omega)
    rw [hr] at hr'
    injection hr' with hr'
    subst hr'
    rw [hskip (by rcases hleg with h | h | ⟨i', h1, h2, h3, h4⟩ <;> omega)]
    by_cases hta : a (G.info.length - i) = 1
    · exact ⟨fun h => absurd hta h.1, fun h => absurd h (hno hta)⟩
    · rw [← Sp.adjA_leave hta] at hB'
      have key := hnext (by omega) f u m' fuel r hf' hB' (hpart hta).2.2 (by omega) hr hR
      exact ⟨fun h => key.1 h.2, fun h => ⟨hta, key.2 h⟩⟩

theorem good_all (hH : Sp.Hyp G) (hv : G.vMax ≤ 32766) : ∀ k i, i + k = G.info.length → i < G.info.length → Good G numUEC noLoop la a i ∧ GoodLook G numUEC noLoop la a i
  | 0, i, h, hi => by omega
  | k + 1, i, h, hi => by
    have hnext : i + 1 < G.info.length → GoodLook G numUEC noLoop la a (i + 1) := fun hlt => (good_all hH hv k (i + 1) (by omega) hlt).2
    have hg := good_step (la := la) (a := a) hH hv hnext
    exact ⟨hg, look_step hH hv hg hnext⟩

theorem means (hH : Sp.Hyp G) (hv : G.vMax ≤ 32766) (hn : 0 < G.info.length) (h1 : -32768 ≤ numUEC) (h2 : numUEC ≤ 32767) :
    ZddMem (frontierSearch G numUEC noLoop la) G.info.length a ↔ Valid G noLoop numUEC a := by
  obtain ⟨e, he, hr⟩ := root_eq (numUEC := numUEC) (noLoop := noLoop) (la := la) hH hn
  have h0 : adjA G a 0 = fun _ _ => False := by
    funext x y
    apply propext
    exact ⟨fun ⟨b, hb, _⟩ => by omega, fun h => h.elim⟩
  rw [wrap16_eq (by omega) (by omega)] at hr
  unfold ZddMem
  have hR : Reach (frontierSearch G numUEC noLoop la) (frontierSearch G numUEC noLoop la).root.1 (frontierSearch G numUEC noLoop la).root.2 := .root
  rw [hr] at hR ⊢
  have hself : ∀ {u w : Nat}, Conn (adjA G a 0) u w → u = w := by
    intro u w h
    rw [h0] at h
    rcases Conn.first h with h | ⟨_, h⟩
    · exact h
    · exact h.elim
  have hb : Base G 0 (adjA G a 0) numUEC ((List.range G.maxFrontierSize.toNat).map fun k => fbInit G (e.v0 + k)) := by
    rw [h0]; exact empty_base hH hv he h2
  have hst : st G 0 = 1 := by
    have hb := st_bounds hH (i := 0)
    apply Classical.byContradiction
    intro hne
    have hlt := edge_lt hH he
    obtain ⟨b, hb'⟩ := hH.ok.occurs 1 (by omega) (by omega)
    have := (act_iff hH (i := 0) (v := 1) (by omega)).1 ⟨b, by omega, hb'⟩
    omega
  have hp : Part G noLoop numUEC a 0 (adjA G a 0) (st G 0) numUEC := by
    refine ⟨hb.one, fun u v hu hv hs => ?_, fun _ b e hb => by omega, ?_⟩
    · have := hs u .refl
      have := hH.ok.color_out u (by omega)
      omega
    · rcases (show numUEC < 0 ∨ 0 ≤ numUEC by omega) with h | h
      · exact .inl ⟨h, rfl⟩
      · refine .inr ⟨h, [], by simp, List.Pairwise.nil, fun r hr => by simp at hr, fun u ⟨y, hy⟩ => ?_⟩
        rw [h0] at hy
        exact hy.elim
  have := (good_all (la := la) (a := a) hH hv G.info.length 0 (by omega) hn).1 e numUEC _ he hb hp
  rw [Nat.sub_zero] at this
  exact this hR

end TdZdd.Fb
