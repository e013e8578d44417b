import Verif.HashTableProofs
import Verif.BuilderProofs6

/-!
# The builder with its real unique table

`phase1StepH` is the first loop of `DdBuilder::construct` (`DdBuilder.hpp` 267-301) with the
`MyHashTable` model as the unique table. Entries are pointers to specification nodes, modelled as
(position in the list of processed nodes, state); two pointers are equal iff the positions are.
-/

namespace TdZdd

variable {N : Nat} {S : Type}

/-- Local variables of the first loop. -/
structure P1H (N : Nat) (S : Type) where
  st : BSt N S
  m : Nat
  done : List (S × NodeId)
  tab : HT (Nat × S)

/-- `Hasher` (`DdBuilder.hpp` 87-103). -/
def hasherHash (sp : DdSpec N S) (i : Nat) (e : Nat × S) : Nat := sp.hash i e.2
/-- `Hasher` (`DdBuilder.hpp` 87-103). -/
def hasherEq (sp : DdSpec N S) (i : Nat) (e f : Nat × S) : Bool := sp.eqv i e.2 f.2

/-- Body of the first loop (273-299). -/
def phase1StepH (sp : DdSpec N S) (i : Nat) (a : P1H N S) (x : Loc N × Nat × S) :
    Option (P1H N S) :=
  let s := x.2.2
  -- SpecNode*& p0 = uniq.add(p)
  match HT.add (hasherHash sp i) (hasherEq sp i) a.tab (a.done.length, s) with
  | none => none
  | some (tab, k) =>
    match tab.mem k with
    | none => none
    | some p0 =>
      if p0.1 = a.done.length then
        match a.st.write x.1 x.2.1 ⟨i, a.m⟩ with
        | none => none
        | some st' => some { st := st', m := a.m + 1, done := a.done ++ [(s, ⟨i, a.m⟩)], tab := tab }
      else if sp.merge p0.2 s = 1 then
        match a.st.write x.1 x.2.1 ⟨i, a.m⟩ with
        | none => none
        | some st' =>
          some { st := st', m := a.m + 1, done := a.done.set p0.1 (p0.2, .zero) ++ [(s, ⟨i, a.m⟩)],
                 tab := { tab with mem := upd tab.mem k (some (a.done.length, s)) } }
      else if sp.merge p0.2 s = 2 then
        match a.st.write x.1 x.2.1 .zero with
        | none => none
        | some st' => some { st := st', m := a.m, done := a.done ++ [(s, .one)], tab := tab }
      else
        match a.done[p0.1]? with
        | none => none
        | some q =>
          match a.st.write x.1 x.2.1 q.2 with
          | none => none
          | some st' => some { st := st', m := a.m, done := a.done ++ [(s, .one)], tab := tab }

/-- `DdBuilder::construct(i)` (258-388) with the hash table; the rest is as in `construct`. -/
def constructH (sp : DdSpec N S) (st : BSt N S) (i : Nat) : Option (BSt N S) :=
  let j0 := (st.row i).length
  (HT.init ((st.pend i).length * 2) HT.empty).bind fun tab =>
  ((st.pend i).foldlM (phase1StepH sp i) { st := st, m := j0, done := [], tab := tab }).bind fun a =>
  let st := { a.st with
    row := upd a.st.row i (a.st.row i ++ List.replicate (a.m - j0) fun _ => none),
    gen := upd a.st.gen i (a.st.gen i + 1),
    pend := upd a.st.pend i [] }
  (a.done.foldlM (phase2Step sp i) { st := st, jj := j0, lowest := i - 1, deadCount := 0 }).bind
  fun p => update i p.lowest p.deadCount p.st

/-- `DdStructure(spec)` with the hash table. -/
def buildH (sp : DdSpec N S) : Option (Dd N) :=
  ((levels sp.root.1.toNat).foldlM (constructH sp) (initBuild sp)).bind BSt.finish

variable {sp : DdSpec N S}

/-- the abstract and the concrete local variables agree -/
structure HRel (sp : DdSpec N S) (i : Nat) (a : P1 N S) (h : P1H N S) : Prop where
  st : h.st = a.st
  m : h.m = a.m
  done : h.done = a.done
  ok : HT.Ok (hasherHash sp i) (hasherEq sp i) (fun e => Reach sp (i : Int) e.2) h.tab
  has : ∀ e, h.tab.Has e ↔ e ∈ a.uniq
  pos : ∀ e ∈ a.uniq, e.1 < a.done.length
  inj : ∀ e ∈ a.uniq, ∀ f ∈ a.uniq, e.1 = f.1 → e = f

theorem hasher_law (hl : Lawful sp) {i : Nat} (hi : 0 < i) :
    HT.Law (hasherHash sp i) (hasherEq sp i) (fun e => Reach sp (i : Int) e.2) :=
  ⟨fun hx => hl.refl hi hx, fun hx hy h => hl.symm hi hx hy h,
   fun hx hy hz h h' => hl.trans hi hx hy hz h h', fun hx hy h => hl.hash_eq hi hx hy h⟩

theorem HRel.step (hl : Lawful sp) {i : Nat} (hi : 0 < i) {a : P1 N S} {h : P1H N S}
    (hr : HRel sp i a h) {x : Loc N × Nat × S} (hx : Reach sp (i : Int) x.2.2) :
    (phase1Step sp i a x = none ∧ phase1StepH sp i h x = none) ∨
    ∃ a' h', phase1Step sp i a x = some a' ∧ phase1StepH sp i h x = some h' ∧ HRel sp i a' h' := by
  have hlaw := hasher_law hl hi
  obtain ⟨st, m, done, uniq⟩ := a
  obtain ⟨hst, hm, hdone, tab⟩ := h
  obtain ⟨e1, e2, e3, hok, hhas, hpos, hinj⟩ := hr
  dsimp only at e1 e2 e3 hok hhas hpos hinj
  subst e1 e2 e3
  obtain ⟨tab', k, hadd, hok', hspec⟩ := HT.add_spec hok hlaw (x := (hdone.length, x.2.2)) hx
  simp only [phase1StepH, hadd, phase1Step]
  have hlast : ∀ e ∈ uniq, e.1 ≠ hdone.length := fun e he => by have := hpos e he; omega
  cases hf : uniq.find? (fun e => sp.eqv i e.2 x.2.2) with
  | none =>
    have hnew : ∀ e, tab.Has e → hasherEq sp i e (hdone.length, x.2.2) = false := by
      intro e he
      have := List.find?_eq_none.1 hf e ((hhas e).1 he)
      simpa [hasherEq] using this
    obtain ⟨_, n2, n3⟩ := hspec.new hnew
    rw [n2]
    dsimp only
    rw [if_pos rfl]
    cases hw : hst.write x.1 x.2.1 ⟨i, hm⟩ with
    | none => exact .inl ⟨rfl, rfl⟩
    | some st' =>
      refine .inr ⟨_, _, rfl, rfl, rfl, rfl, rfl, hok', ?_, ?_, ?_⟩
      · intro e; rw [n3, hhas, List.mem_cons]; exact or_comm
      · intro e he
        simp only [List.length_append, List.length_cons, List.length_nil]
        rcases List.mem_cons.1 he with rfl | he
        · simp only; omega
        · have := hpos e he; omega
      · intro e he f hf' hef
        rcases List.mem_cons.1 he with rfl | he <;> rcases List.mem_cons.1 hf' with rfl | hf'
        · rfl
        · exact absurd hef.symm (hlast f hf')
        · exact absurd hef (hlast e he)
        · exact hinj e he f hf' hef
  | some e0 =>
    have he0 := List.mem_of_find?_eq_some hf
    have heq0 : sp.eqv i e0.2 x.2.2 = true := by
      have := List.find?_some hf; simpa using this
    obtain ⟨rfl, e, hme, hee⟩ := hspec.old ⟨e0, (hhas e0).2 he0, heq0⟩
    have hmem : tab'.Has e := ⟨k, hspec.idx, hme⟩
    have hee0 : e = e0 := by
      obtain ⟨j, hj, hmj⟩ := (hhas e0).2 he0
      have hP := hok.dom hspec.idx hme
      have hP0 := hok.dom hj hmj
      have : hasherEq sp i e e0 = true := hlaw.trans (y := (hdone.length, x.2.2)) hP hx hP0 hee (hlaw.symm hP0 hx heq0)
      have := hok.pw hspec.idx hj hme hmj this
      subst this
      rw [hme] at hmj; exact Option.some.inj hmj
    subst hee0
    rw [hme]
    dsimp only
    rw [if_neg (hlast e he0)]
    by_cases h1 : sp.merge e.2 x.2.2 = 1
    · rw [if_pos h1, if_pos h1]
      cases hw : hst.write x.1 x.2.1 ⟨i, hm⟩ with
      | none => exact .inl ⟨rfl, rfl⟩
      | some st' =>
        refine .inr ⟨_, _, rfl, rfl, rfl, rfl, rfl, hok.replace hlaw hspec.idx hme hx hee, ?_, ?_, ?_⟩
        · intro f
          simp only [List.mem_map]
          constructor
          · rintro ⟨j, hj, hmj⟩
            simp only [upd] at hmj
            split at hmj
            · exact ⟨e, he0, by rw [if_pos rfl]; exact Option.some.inj hmj⟩
            · rename_i hjk
              have hfm := (hhas f).1 ⟨j, hj, hmj⟩
              refine ⟨f, hfm, ?_⟩
              rw [if_neg]
              intro hfe
              have := hinj f hfm e he0 hfe
              subst this
              exact hjk (hok.pw hj hspec.idx hmj hme (hlaw.refl (hok.dom hj hmj)))
          · rintro ⟨f', hf', hff⟩
            split at hff
            · refine ⟨k, hspec.idx, ?_⟩
              simp only [upd, if_true]; rw [hff]
            · rename_i hne
              subst hff
              obtain ⟨j, hj, hmj⟩ := (hhas f').2 hf'
              refine ⟨j, hj, ?_⟩
              simp only [upd]
              rw [if_neg]
              · exact hmj
              · intro hjk; subst hjk; rw [hme] at hmj; cases hmj; exact hne rfl
        · intro f hf'
          simp only [List.length_append, List.length_set, List.length_cons, List.length_nil]
          obtain ⟨f', hfu, hff⟩ := List.mem_map.1 hf'
          split at hff
          · subst hff; simp only; omega
          · subst hff; have := hpos f' hfu; omega
        · intro f hf' g hg hfg
          obtain ⟨f', hfu, hff⟩ := List.mem_map.1 hf'
          obtain ⟨g', hg', hgg⟩ := List.mem_map.1 hg
          split at hff <;> split at hgg
          · exact hff.symm.trans hgg
          · subst hff; subst hgg; exact absurd hfg.symm (hlast g' hg')
          · subst hff; subst hgg; exact absurd hfg (hlast f' hfu)
          · subst hff; subst hgg; exact hinj f' hfu g' hg' hfg
    · rw [if_neg h1, if_neg h1]
      have hpos' : ∀ e ∈ uniq, e.1 < (hdone ++ [(x.2.2, NodeId.one)]).length := by
        intro f hf'
        have := hpos f hf'
        simp only [List.length_append, List.length_cons, List.length_nil]; omega
      by_cases h2 : sp.merge e.2 x.2.2 = 2
      · rw [if_pos h2, if_pos h2]
        cases hw : hst.write x.1 x.2.1 .zero with
        | none => exact .inl ⟨rfl, rfl⟩
        | some st' => exact .inr ⟨_, _, rfl, rfl, rfl, rfl, rfl, hok, hhas, hpos', hinj⟩
      · rw [if_neg h2, if_neg h2]
        cases hq : hdone[e.1]? with
        | none => exact .inl ⟨rfl, rfl⟩
        | some q =>
          dsimp only
          cases hw : hst.write x.1 x.2.1 q.2 with
          | none => exact .inl ⟨rfl, rfl⟩
          | some st' => exact .inr ⟨_, _, rfl, rfl, rfl, rfl, rfl, hok, hhas, hpos', hinj⟩

theorem phase1H (hl : Lawful sp) {i : Nat} (hi : 0 < i) : ∀ (l : List (Loc N × Nat × S))
    {a : P1 N S} {h : P1H N S}, HRel sp i a h → (∀ x ∈ l, Reach sp (i : Int) x.2.2) →
    (l.foldlM (phase1Step sp i) a = none ∧ l.foldlM (phase1StepH sp i) h = none) ∨
    ∃ a' h', l.foldlM (phase1Step sp i) a = some a' ∧ l.foldlM (phase1StepH sp i) h = some h' ∧
      HRel sp i a' h' := by
  intro l
  induction l with
  | nil => intro a h hr _; exact .inr ⟨a, h, rfl, rfl, hr⟩
  | cons x l ih =>
    intro a h hr hx
    simp only [List.foldlM_cons]
    rcases hr.step hl hi (hx x (by simp)) with ⟨h1, h2⟩ | ⟨a', h', h1, h2, h3⟩
    · rw [h1, h2]; exact .inl ⟨rfl, rfl⟩
    · rw [h1, h2]; exact ih h3 (fun y hy => hx y (by simp [hy]))

theorem constructH_eq (hl : Lawful sp) {i : Nat} (hi : 0 < i) (st : BSt N S)
    (hx : ∀ x ∈ st.pend i, Reach sp (i : Int) x.2.2) : constructH sp st i = construct sp st i := by
  obtain ⟨tab, h1, h2, _, _, _, h6⟩ := HT.init_spec (hash := hasherHash sp i)
    (eq := hasherEq sp i) (P := fun e => Reach sp (i : Int) e.2) ((st.pend i).length * 2) HT.empty
  unfold constructH construct
  dsimp only
  rw [h1, Option.bind_some]
  rcases phase1H hl hi (st.pend i) (a := ⟨st, (st.row i).length, [], []⟩)
      (h := ⟨st, (st.row i).length, [], tab⟩)
      ⟨rfl, rfl, rfl, h2, fun e => by simp [h6 e], by simp, by simp⟩ hx with
    ⟨e1, e2⟩ | ⟨a', h', e1, e2, hr⟩
  · rw [e1, e2]; rfl
  · rw [e1, e2]
    simp only [Option.bind_some, hr.st, hr.m, hr.done]

theorem levelsH (hl : Lawful sp) {top : Nat} (htop : sp.root.1 = (top : Int)) :
    ∀ (n : Nat), n ≤ top → ∀ (st : BSt N S) (G : Nat → List S), Lv sp top G st (n + 1) →
      SwOK top G st (n + 1) → (n = top → 0 < n → st.pend top ≠ []) →
      (levels n).foldlM (constructH sp) st = (levels n).foldlM (construct sp) st := by
  intro n
  induction n with
  | zero => intro _ st G h _ _; rfl
  | succ n ih =>
    intro hn st G h hsw hpt
    have hx : ∀ x ∈ st.pend (n + 1), Reach sp ((n + 1 : Nat) : Int) x.2.2 := by
      intro x hx
      obtain ⟨l, g, s⟩ := x
      exact want_reach h.inv (h.inv.pd_ok hx).2.2.2.1
    obtain ⟨st1, h1, G1, h2, h3⟩ := construct_spec hl htop (Nat.succ_pos n) hn h hsw
      (fun he => hpt he (Nat.succ_pos n))
    rw [levels_succ, List.foldlM_cons, List.foldlM_cons, constructH_eq hl (Nat.succ_pos n) st hx, h1]
    exact ih (by omega) st1 G1 h2 h3 (by omega)

/-- The hash table based builder computes exactly what the abstract one does. -/
theorem buildH_eq (hl : Lawful sp) : buildH sp = build sp := by
  unfold buildH build
  congr 1
  by_cases hroot : 0 < sp.root.1
  · have htop : sp.root.1 = (sp.root.1.toNat : Int) := by omega
    obtain ⟨h1, h2, h3⟩ := init_inv hroot
    exact levelsH hl htop _ (Nat.le_refl _) _ _ h1 h2 (fun _ _ => h3)
  · have : sp.root.1.toNat = 0 := by omega
    rw [this]; rfl

end TdZdd
