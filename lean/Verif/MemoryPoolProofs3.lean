import Verif.MemoryPoolProofs2

/-! Proofs about `MemoryPool`: programs. -/

namespace TdZdd

theorem plSplice_spec {m : PlMem} {d : PlData} {p o : Pool} {P Q : PsPool} {c c' : List Nat} (k : PoolOk m d p P c) (q : PoolOk m d o Q c')
    (h0 : m.blk 0 = none) (hlen : c'.length ≤ m.fresh) (hdisj : ∀ a ∈ c, a ∉ c') :
    ∃ m' p', plSplice m p o = some (m', p', Pool.init) ∧ m'.fresh = m.fresh ∧ (∀ a, a ∉ c' → m'.blk a = m.blk a) ∧ (∀ a, m'.blk a ≠ none → m.blk a ≠ none) ∧
      PoolOk m' d p' ⟨Q.live ++ P.live, Q.used || P.used, Q.large || P.large⟩ (c' ++ c) := by
  have key : ∀ (m' : PlMem) (p' : Pool), SameData m m' (c' ++ c) → Chain m' p'.list (c' ++ c) → p'.next = o.next → (o.next < blockUnits → p'.list = o.list) →
      (p'.list = 0 ↔ o.list = 0 ∧ p.list = 0) →
      PoolOk m' d p' ⟨Q.live ++ P.live, Q.used || P.used, Q.large || P.large⟩ (c' ++ c) := by
    intro m' p' hsd hch hnx hli hz
    have onz : o.next < blockUnits → o.list ≠ 0 := fun h e => by
      obtain ⟨b, g, _⟩ := q.room h
      rw [e, h0] at g
      cases g
    have fwd : ∀ h ∈ Q.live ++ P.live, ∃ a o' n, PlRgn m d h a o' n ∧ PlRgn m' d h a o' n ∧ a ∈ c' ++ c ∧
        ((h ∈ Q.live ∧ a ∈ c') ∨ (h ∈ P.live ∧ a ∈ c)) ∧ (o.next < blockUnits → a = o.list → o' + (n + 7) / 8 ≤ o.next) := by
      intro h hh
      rcases List.mem_append.1 hh with hh | hh
      · obtain ⟨a, o', n, r, ha, ht⟩ := q.reg h hh
        have hm := List.mem_append_left c ha
        exact ⟨a, o', n, r, r.mono hsd hm rfl rfl fun _ => rfl, hm, .inl ⟨hh, ha⟩, ht⟩
      · obtain ⟨a, o', n, r, ha, ht⟩ := k.reg h hh
        have hm := List.mem_append_right c' ha
        refine ⟨a, o', n, r, r.mono hsd hm rfl rfl fun _ => rfl, hm, .inr ⟨hh, ha⟩, fun hx e => ?_⟩
        exact absurd (e ▸ q.chain.mem (onz hx)) (hdisj a ha)
    refine ⟨hch, ?_, by rw [hnx]; exact q.one, fun h => ?_, ?_, fun h a ha => ?_, fun h hh => ?_, fun h hh h' hh' hne a o1 n a' o' n' r r' => ?_⟩
    · exact List.nodup_append.2 ⟨q.nodup, k.nodup, fun a ha b hb e => hdisj b hb (e ▸ ha)⟩
    · rw [hnx] at h
      obtain ⟨b, g1, g2⟩ := q.room h
      obtain ⟨b', g3, g4, _⟩ := hsd o.list (List.mem_append_left _ (q.chain.mem (onz h))) b g1
      exact ⟨b', by rw [hli h]; exact g3, by omega⟩
    · dsimp only
      rw [q.used, k.used]
      by_cases x : o.list = 0 <;> by_cases y : p.list = 0 <;> simp [hz, x, y]
    · dsimp only at h
      rw [Bool.or_eq_false_iff] at h
      have : ∃ b, m.blk a = some b ∧ blockUnits ≤ b.len := by
        rcases List.mem_append.1 ha with ha | ha
        · exact q.large h.1 a ha
        · exact k.large h.2 a ha
      obtain ⟨b, g1, g2⟩ := this
      obtain ⟨b', g3, g4, _⟩ := hsd a ha b g1
      exact ⟨b', g3, by omega⟩
    · obtain ⟨a, o', n, _, r, ha, _, ht⟩ := fwd h hh
      refine ⟨a, o', n, r, ha, fun h1 h2 => ?_⟩
      rw [hnx] at h1 ⊢
      exact ht h1 (by rw [h2, hli h1])
    · obtain ⟨b1, p1, q1, s1, s1', _, x1, _⟩ := fwd h hh
      obtain ⟨b2, p2, q2, s2, s2', _, x2, _⟩ := fwd h' hh'
      obtain ⟨rfl, rfl, rfl⟩ := s1'.loc r
      obtain ⟨rfl, rfl, rfl⟩ := s2'.loc r'
      rcases x1 with ⟨y1, z1⟩ | ⟨y1, z1⟩ <;> rcases x2 with ⟨y2, z2⟩ | ⟨y2, z2⟩
      · exact q.sep h y1 h' y2 hne _ _ _ _ _ _ s1 s2
      · exact .inl fun e => hdisj _ z2 (e ▸ z1)
      · exact .inl fun e => hdisj _ z1 (e ▸ z2)
      · exact k.sep h y1 h' y2 hne _ _ _ _ _ _ s1 s2
  unfold plSplice
  by_cases h1 : p.list = 0
  · rw [if_pos h1]
    have hc : c = [] := k.chain.nil_iff.1 h1
    refine ⟨m, o, rfl, rfl, fun _ _ => rfl, fun _ h => h, key m o (SameData.refl _ _) ?_ rfl (fun _ => rfl) ⟨fun h => ⟨h, h1⟩, fun h => h.1⟩⟩
    rw [hc, List.append_nil]
    exact q.chain
  · rw [if_neg h1]
    by_cases h2 : o.list = 0
    · rw [if_pos h2]
      have hc : c' = [] := q.chain.nil_iff.1 h2
      refine ⟨m, _, rfl, rfl, fun _ _ => rfl, fun _ h => h, key m _ (SameData.refl _ _) ?_ rfl (fun h => ?_) ⟨fun h => ⟨h2, h⟩, fun h => h.2⟩⟩
      · rw [hc, List.nil_append]
        exact k.chain
      · obtain ⟨b, g, _⟩ := q.room h
        rw [h2, h0] at g
        cases g
    · rw [if_neg h2]
      have hc : c' ≠ [] := fun e => h2 (q.chain.nil_iff.2 e)
      have ec := List.dropLast_concat_getLast hc
      have hch := q.chain
      have hnd := q.nodup
      rw [← ec] at hch hnd
      have hcl : 0 < c'.length := List.length_pos_iff.2 hc
      rw [plLast_spec c'.dropLast (c'.getLast hc) m.fresh m o.list hch (by rw [List.length_dropLast]; omega), Option.bind_some]
      have hmem := List.getLast_mem hc
      have hx : c'.getLast hc ∉ c'.dropLast := fun h => (List.nodup_append.1 hnd).2.2 _ h _ (List.mem_singleton.2 rfl) rfl
      have hlast : ∃ nx, m.load (c'.getLast hc) 0 = some nx := by
        have : ∀ (c1 : List Nat) (b a : Nat), Chain m a (c1 ++ [b]) → ∃ nx, m.load b 0 = some nx := by
          intro c1
          induction c1 with
          | nil => intro b a h; obtain ⟨rfl, _, nx, h, _⟩ := h; exact ⟨nx, h⟩
          | cons x c1 ih => intro b a h; obtain ⟨_, _, nx, _, h⟩ := h; exact ih b nx h
        exact this _ _ _ hch
      obtain ⟨nx, hnx⟩ := hlast
      obtain ⟨b, g1, g2, g3⟩ := CMem.load_blk hnx
      obtain ⟨m', e1, e2, e3, e4⟩ := CMem.store_spec g1 g2 p.list
      rw [e1]
      refine ⟨m', o, rfl, e2, fun a ha => e4 a fun e => ha (e ▸ hmem), fun a ha => ?_, key m' o ?_ ?_ rfl (fun _ => rfl) ⟨fun h => absurd h h2, fun h => h.1⟩⟩
      · by_cases e : a = c'.getLast hc
        · rw [e, g1]; simp
        · rw [e4 a e] at ha; exact ha
      · intro a _ b' hb'
        by_cases e : a = c'.getLast hc
        · subst e
          rw [g1] at hb'
          cases hb'
          exact ⟨_, e3, rfl, fun i hi => upd_ne _ _ (by omega)⟩
        · exact ⟨b', by rw [e4 a e]; exact hb', rfl, fun _ _ => rfl⟩
      · have hap := Chain.append (m := m) (m' := m') (c' := c) (l := p.list) (k.chain.congr fun a ha => CMem.load_congr (e4 a fun e => hdisj a ha (e ▸ hmem)))
          c'.dropLast (c'.getLast hc) o.list hch (fun d hd => CMem.load_congr (e4 d fun e => hx (e ▸ hd))) (CMem.load_of e3 g2 (by dsimp only; rw [upd_same]))
        rw [ec] at hap
        exact hap

def PlSt.data (st : PlSt) (ps : PsSt) : PlData := ⟨st.ptr, ps.size, ps.val⟩

/-- the state `st` stands for `ps`; `C x` are the blocks of the pool `x` -/
structure PlInv (st : PlSt) (ps : PsSt) (C : Nat → List Nat) : Prop where
  fresh : 0 < st.mem.fresh
  bound : ∀ a, st.mem.blk a ≠ none → 0 < a ∧ a < st.mem.fresh
  dead : ∀ x, ps.pool x = none → st.pool x = none ∧ C x = []
  alive : ∀ x P, ps.pool x = some P → ∃ p, st.pool x = some p ∧ PoolOk st.mem (st.data ps) p P (C x)
  disj : ∀ x y a, a ∈ C x → a ∈ C y → x = y
  own : ∀ a, st.mem.blk a ≠ none → ∃ x, a ∈ C x
  len : st.ptr.length = ps.size.length
  future : ∀ h i, ps.size.length ≤ h → ps.val h i = none

theorem PlInv.zero {st : PlSt} {ps : PsSt} {C : Nat → List Nat} (k : PlInv st ps C) : st.mem.blk 0 = none := by
  cases e : st.mem.blk 0 with
  | none => rfl
  | some b => have := k.bound 0 (by rw [e]; simp); omega

theorem PlInv.blk {st : PlSt} {ps : PsSt} {C : Nat → List Nat} (k : PlInv st ps C) {x a : Nat} (h : a ∈ C x) : st.mem.blk a ≠ none := by
  cases e : ps.pool x with
  | none => rw [(k.dead x e).2] at h; cases h
  | some P =>
    obtain ⟨p, _, hp⟩ := k.alive x P e
    exact hp.chain.blk a h

theorem PlInv.len_chain {st : PlSt} {ps : PsSt} {C : Nat → List Nat} (k : PlInv st ps C) {x : Nat} {p : Pool} {P : PsPool} (h : PoolOk st.mem (st.data ps) p P (C x)) :
    (C x).length ≤ st.mem.fresh :=
  chain_length h.nodup fun a ha => (k.bound a (k.blk ha)).2

/-- a change of one pool -/
theorem PlInv.put {st : PlSt} {ps : PsSt} {C : Nat → List Nat} (k : PlInv st ps C) {x : Nat} {m' : PlMem} {ptr' : List (Nat × Nat)} {size' : List Nat}
    {val' : Nat → Nat → Option Nat} {o : Option Pool} {O : Option PsPool} {c' : List Nat} (hf : st.mem.fresh ≤ m'.fresh)
    (hb : ∀ a, m'.blk a ≠ none → 0 < a ∧ a < m'.fresh) (hn : O = none → o = none ∧ c' = [])
    (hs : ∀ P, O = some P → ∃ p, o = some p ∧ PoolOk m' ⟨ptr', size', val'⟩ p P c')
    (hm : ∀ a, a ∉ C x → a < st.mem.fresh → m'.blk a = st.mem.blk a)
    (hnew : ∀ a ∈ c', a ∈ C x ∨ st.mem.fresh ≤ a) (hown : ∀ a, m'.blk a ≠ none → a ∈ c' ∨ (a ∉ C x ∧ st.mem.blk a ≠ none)) (hlen : ptr'.length = size'.length)
    (hd : ∀ y P h, y ≠ x → ps.pool y = some P → h ∈ P.live → ptr'[h]? = st.ptr[h]? ∧ size'[h]? = ps.size[h]? ∧ ∀ i, val' h i = ps.val h i)
    (hfut : ∀ h i, size'.length ≤ h → val' h i = none) :
    PlInv ⟨m', upd st.pool x o, ptr'⟩ ⟨upd ps.pool x O, size', val'⟩ (upd C x c') := by
  have hlt : ∀ y a, a ∈ C y → a < st.mem.fresh := fun y a ha => (k.bound a (k.blk ha)).2
  refine ⟨Nat.lt_of_lt_of_le k.fresh hf, hb, fun y hy => ?_, fun y P hy => ?_, fun y z a hy hz => ?_, fun a ha => ?_, hlen, hfut⟩
  · dsimp only at hy ⊢
    by_cases e : y = x
    · subst e
      rw [upd_same] at hy
      rw [upd_same, upd_same]
      exact hn hy
    · rw [upd_ne _ _ e] at hy
      rw [upd_ne _ _ e, upd_ne _ _ e]
      exact k.dead y hy
  · dsimp only at hy ⊢
    by_cases e : y = x
    · subst e
      rw [upd_same] at hy
      rw [upd_same, upd_same]
      exact hs P hy
    · rw [upd_ne _ _ e] at hy
      rw [upd_ne _ _ e, upd_ne _ _ e]
      obtain ⟨p, g1, g2⟩ := k.alive y P hy
      refine ⟨p, g1, g2.frame k.zero (fun a ha => hm a (fun h => e (k.disj y x a ha h)) (hlt y a ha)) fun h hh => hd y P h e hy hh⟩
  · by_cases e : y = x <;> by_cases e' : z = x
    · rw [e, e']
    · subst e
      rw [upd_same] at hy
      rw [upd_ne _ _ e'] at hz
      rcases hnew a hy with h | h
      · exact k.disj _ _ a h hz
      · have := hlt z a hz; omega
    · subst e'
      rw [upd_same] at hz
      rw [upd_ne _ _ e] at hy
      rcases hnew a hz with h | h
      · exact k.disj _ _ a hy h
      · have := hlt y a hy; omega
    · rw [upd_ne _ _ e] at hy
      rw [upd_ne _ _ e'] at hz
      exact k.disj _ _ a hy hz
  · rcases hown a ha with h | ⟨h, h'⟩
    · exact ⟨x, by rw [upd_same]; exact h⟩
    · obtain ⟨y, hy⟩ := k.own a h'
      refine ⟨y, ?_⟩
      have e : y ≠ x := fun e => h (e ▸ hy)
      rw [upd_ne _ _ e]
      exact hy

theorem plClear_spec {st : PlSt} {ps : PsSt} {C : Nat → List Nat} (k : PlInv st ps C) {x : Nat} {p : Pool} {P : PsPool} (h : PoolOk st.mem (st.data ps) p P (C x)) :
    plClear st.mem p = some (st.mem.del (C x), Pool.init) := by
  unfold plClear
  rw [plClearLoop_spec (C x) _ _ _ h.chain h.nodup (k.len_chain h)]
  rfl

theorem plStep_spec {st : PlSt} {ps : PsSt} {C : Nat → List Nat} (k : PlInv st ps C) {op : PlOp} {ps' : PsSt} {r : PlRes} (h : psStep ps op = some (ps', r)) :
    ∃ st' C', plStep st op = some (st', r) ∧ PlInv st' ps' C' := by
  cases op with
  | new x =>
    dsimp only [psStep] at h
    dsimp only [plStep]
    cases hx : ps.pool x with
    | some P => rw [hx] at h; cases h
    | none =>
      rw [hx] at h
      obtain ⟨rfl, rfl⟩ : _ ∧ _ := by simpa using h
      obtain ⟨g1, g2⟩ := k.dead x hx
      rw [g1]
      refine ⟨_, _, rfl, k.put (m' := st.mem) (c' := []) (Nat.le_refl _) k.bound (fun e => by cases e) (fun P e => ?_) (fun _ _ _ => rfl) (fun _ h => by cases h)
        (fun a ha => .inr ⟨by rw [g2]; simp, ha⟩) k.len (fun _ _ _ _ _ _ => ⟨rfl, rfl, fun _ => rfl⟩) k.future⟩
      cases e
      exact ⟨_, rfl, poolOk_init ..⟩
  | copy x y =>
    dsimp only [psStep] at h
    dsimp only [plStep]
    cases hy : ps.pool y with
    | none => rw [hy] at h; cases h
    | some Q =>
      obtain ⟨q, q1, _⟩ := k.alive y Q hy
      rw [hy, Option.bind_some] at h
      rw [q1, Option.bind_some]
      cases hx : ps.pool x with
      | some P => rw [hx] at h; cases h
      | none =>
        rw [hx] at h
        obtain ⟨rfl, rfl⟩ : _ ∧ _ := by simpa using h
        obtain ⟨g1, g2⟩ := k.dead x hx
        rw [g1]
        refine ⟨_, _, rfl, k.put (m' := st.mem) (c' := []) (Nat.le_refl _) k.bound (fun e => by cases e) (fun P e => ?_) (fun _ _ _ => rfl) (fun _ h => by cases h)
          (fun a ha => .inr ⟨by rw [g2]; simp, ha⟩) k.len (fun _ _ _ _ _ _ => ⟨rfl, rfl, fun _ => rfl⟩) k.future⟩
        cases e
        exact ⟨_, rfl, poolOk_init ..⟩
  | move x y =>
    dsimp only [psStep] at h
    dsimp only [plStep]
    cases hy : ps.pool y with
    | none => rw [hy] at h; cases h
    | some Q =>
      obtain ⟨q, q1, q2⟩ := k.alive y Q hy
      rw [hy, Option.bind_some] at h
      rw [q1, Option.bind_some]
      cases hx : ps.pool x with
      | some P => rw [hx] at h; cases h
      | none =>
        rw [hx] at h
        obtain ⟨rfl, rfl⟩ : _ ∧ _ := by simpa using h
        obtain ⟨g1, g2⟩ := k.dead x hx
        have hxy : x ≠ y := fun e => by rw [e, hy] at hx; cases hx
        rw [g1]
        refine ⟨_, upd (upd C y []) x (C y), rfl, k.fresh, k.bound, fun z hz => ?_, fun z P hz => ?_, fun z w a hz hw => ?_, fun a ha => ?_, k.len, k.future⟩
        · dsimp only at hz ⊢
          by_cases e : z = x
          · subst e; rw [upd_same] at hz; cases hz
          · rw [upd_ne _ _ e] at hz
            rw [upd_ne _ _ e, upd_ne _ _ e]
            by_cases e' : z = y
            · subst e'; rw [upd_same, upd_same]; exact ⟨rfl, rfl⟩
            · rw [upd_ne _ _ e'] at hz
              rw [upd_ne _ _ e', upd_ne _ _ e']
              exact k.dead z hz
        · dsimp only at hz ⊢
          by_cases e : z = x
          · subst e
            rw [upd_same] at hz
            rw [upd_same, upd_same]
            cases hz
            exact ⟨q, rfl, q2⟩
          · rw [upd_ne _ _ e] at hz
            rw [upd_ne _ _ e, upd_ne _ _ e]
            by_cases e' : z = y
            · subst e'; rw [upd_same] at hz; cases hz
            · rw [upd_ne _ _ e'] at hz
              rw [upd_ne _ _ e', upd_ne _ _ e']
              exact k.alive z P hz
        · have : ∀ z, a ∈ upd (upd C y []) x (C y) z → (z = x ∧ a ∈ C y) ∨ (z ≠ x ∧ z ≠ y ∧ a ∈ C z) := by
            intro z hz
            by_cases e : z = x
            · subst e; rw [upd_same] at hz; exact .inl ⟨rfl, hz⟩
            · rw [upd_ne _ _ e] at hz
              by_cases e' : z = y
              · subst e'; rw [upd_same] at hz; cases hz
              · rw [upd_ne _ _ e'] at hz; exact .inr ⟨e, e', hz⟩
          rcases this z hz with ⟨a1, a2⟩ | ⟨a1, a2, a3⟩ <;> rcases this w hw with ⟨b1, b2⟩ | ⟨b1, b2, b3⟩
          · rw [a1, b1]
          · exact absurd (k.disj _ _ a b3 a2) b2
          · exact absurd (k.disj _ _ a a3 b2) a2
          · exact k.disj _ _ a a3 b3
        · obtain ⟨z, hz⟩ := k.own a ha
          by_cases e' : z = y
          · exact ⟨x, by rw [upd_same, ← e']; exact hz⟩
          · have e : z ≠ x := fun e => by rw [e, g2] at hz; cases hz
            exact ⟨z, by rw [upd_ne _ _ e, upd_ne _ _ e']; exact hz⟩
  | destroy x =>
    dsimp only [psStep] at h
    dsimp only [plStep]
    cases hx : ps.pool x with
    | none => rw [hx] at h; cases h
    | some P =>
      obtain ⟨p, g1, g2⟩ := k.alive x P hx
      rw [hx] at h
      obtain ⟨rfl, rfl⟩ : _ ∧ _ := by simpa using h
      rw [g1, Option.bind_some, plClear_spec k g2]
      refine ⟨_, _, rfl, k.put (m' := st.mem.del (C x)) (c' := []) (Nat.le_refl _) (fun a ha => k.bound a (CMem.del_some ha).2) (fun _ => ⟨rfl, rfl⟩) (fun P e => by cases e)
        (fun a ha _ => CMem.del_not ha) (fun _ h => by cases h) (fun a ha => .inr (CMem.del_some ha)) k.len (fun _ _ _ _ _ _ => ⟨rfl, rfl, fun _ => rfl⟩) k.future⟩
  | clear x =>
    dsimp only [psStep] at h
    dsimp only [plStep]
    cases hx : ps.pool x with
    | none => rw [hx] at h; cases h
    | some P =>
      obtain ⟨p, g1, g2⟩ := k.alive x P hx
      rw [hx] at h
      obtain ⟨rfl, rfl⟩ : _ ∧ _ := by simpa using h
      rw [g1, Option.bind_some, plClear_spec k g2]
      refine ⟨_, _, rfl, k.put (m' := st.mem.del (C x)) (c' := []) (Nat.le_refl _) (fun a ha => k.bound a (CMem.del_some ha).2) (fun e => by cases e) (fun P e => ?_)
        (fun a ha _ => CMem.del_not ha) (fun _ h => by cases h) (fun a ha => .inr (CMem.del_some ha)) k.len (fun _ _ _ _ _ _ => ⟨rfl, rfl, fun _ => rfl⟩) k.future⟩
      cases e
      exact ⟨_, rfl, poolOk_init ..⟩
  | reuse x =>
    dsimp only [psStep] at h
    dsimp only [plStep]
    cases hx : ps.pool x with
    | none => rw [hx] at h; cases h
    | some P =>
      obtain ⟨p, g1, g2⟩ := k.alive x P hx
      rw [hx, Option.bind_some] at h
      cases hl : P.large with
      | true => rw [hl] at h; cases h
      | false =>
        rw [hl] at h
        obtain ⟨rfl, rfl⟩ : _ ∧ _ := by simpa using h
        obtain ⟨p', c1, c', e1, e2, e3⟩ := plReuse_spec g2 (k.len_chain g2) hl
        rw [g1, Option.bind_some, e1]
        refine ⟨_, _, rfl, k.put (m' := st.mem.del c1) (c' := c') (Nat.le_refl _) (fun a ha => k.bound a (CMem.del_some ha).2) (fun e => by cases e) (fun P e => ?_)
          (fun a ha _ => CMem.del_not fun h => ha (e2 ▸ List.mem_append_left _ h)) (fun a ha => .inl (e2 ▸ List.mem_append_right _ ha)) (fun a ha => ?_) k.len
          (fun _ _ _ _ _ _ => ⟨rfl, rfl, fun _ => rfl⟩) k.future⟩
        · cases e
          exact ⟨p', rfl, by rw [hl] at e3; exact e3⟩
        · obtain ⟨h1, h2⟩ := CMem.del_some ha
          by_cases h3 : a ∈ c'
          · exact .inl h3
          · refine .inr ⟨fun h4 => ?_, h2⟩
            rw [e2] at h4
            rcases List.mem_append.1 h4 with h4 | h4
            · exact h1 h4
            · exact h3 h4
  | splice x y =>
    dsimp only [psStep] at h
    dsimp only [plStep]
    cases hx : ps.pool x with
    | none => rw [hx] at h; cases h
    | some P =>
      rw [hx, Option.bind_some] at h
      cases hy : ps.pool y with
      | none => rw [hy] at h; cases h
      | some Q =>
        rw [hy, Option.bind_some] at h
        by_cases hxy : x = y
        · rw [if_pos hxy] at h; cases h
        · rw [if_neg hxy] at h
          obtain ⟨rfl, rfl⟩ : _ ∧ _ := by simpa using h
          obtain ⟨p, p1, p2⟩ := k.alive x P hx
          obtain ⟨q, q1, q2⟩ := k.alive y Q hy
          obtain ⟨m', p', e1, e2, e3, e4, e5⟩ := plSplice_spec p2 q2 k.zero (k.len_chain q2) fun a ha ha' => hxy (k.disj x y a ha ha')
          rw [p1, Option.bind_some, q1, Option.bind_some, if_neg hxy, e1]
          have hC : ∀ a z, a ∈ upd (upd C x (C y ++ C x)) y [] z → (z = x ∧ (a ∈ C x ∨ a ∈ C y)) ∨ (z ≠ x ∧ z ≠ y ∧ a ∈ C z) := by
            intro a z hz
            by_cases e : z = y
            · subst e; rw [upd_same] at hz; cases hz
            · rw [upd_ne _ _ e] at hz
              by_cases e' : z = x
              · subst e'
                rw [upd_same] at hz
                exact .inl ⟨rfl, (List.mem_append.1 hz).symm⟩
              · rw [upd_ne _ _ e'] at hz; exact .inr ⟨e', e, hz⟩
          refine ⟨_, upd (upd C x (C y ++ C x)) y [], rfl, by rw [e2]; exact k.fresh, fun a ha => by rw [e2]; exact k.bound a (e4 a ha), fun z hz => ?_, fun z R hz => ?_,
            fun z w a hz hw => ?_, fun a ha => ?_, k.len, k.future⟩
          · dsimp only at hz ⊢
            by_cases e : z = y
            · subst e; rw [upd_same] at hz; cases hz
            · rw [upd_ne _ _ e] at hz
              rw [upd_ne _ _ e, upd_ne _ _ e]
              by_cases e' : z = x
              · subst e'; rw [upd_same] at hz; cases hz
              · rw [upd_ne _ _ e'] at hz
                rw [upd_ne _ _ e', upd_ne _ _ e']
                exact k.dead z hz
          · dsimp only at hz ⊢
            by_cases e : z = y
            · subst e
              rw [upd_same] at hz
              rw [upd_same, upd_same]
              cases hz
              exact ⟨_, rfl, poolOk_init ..⟩
            · rw [upd_ne _ _ e] at hz
              rw [upd_ne _ _ e, upd_ne _ _ e]
              by_cases e' : z = x
              · subst e'
                rw [upd_same] at hz
                rw [upd_same, upd_same]
                cases hz
                exact ⟨_, rfl, e5⟩
              · rw [upd_ne _ _ e'] at hz
                rw [upd_ne _ _ e', upd_ne _ _ e']
                obtain ⟨s, s1, s2⟩ := k.alive z R hz
                exact ⟨s, s1, s2.frame k.zero (fun a ha => e3 a fun h => e (k.disj z y a ha h)) fun _ _ => ⟨rfl, rfl, fun _ => rfl⟩⟩
          · rcases hC a z hz with ⟨a1, a2⟩ | ⟨a1, a2, a3⟩ <;> rcases hC a w hw with ⟨b1, b2⟩ | ⟨b1, b2, b3⟩
            · rw [a1, b1]
            · rcases a2 with a2 | a2
              · exact absurd (k.disj _ _ a b3 a2) b1
              · exact absurd (k.disj _ _ a b3 a2) b2
            · rcases b2 with b2 | b2
              · exact absurd (k.disj _ _ a a3 b2) a1
              · exact absurd (k.disj _ _ a a3 b2) a2
            · exact k.disj _ _ a a3 b3
          · obtain ⟨z, hz⟩ := k.own a (e4 a ha)
            by_cases e : z = y
            · exact ⟨x, by rw [upd_ne _ _ hxy, upd_same]; exact List.mem_append_left _ (e ▸ hz)⟩
            · by_cases e' : z = x
              · exact ⟨x, by rw [upd_ne _ _ hxy, upd_same]; exact List.mem_append_right _ (e' ▸ hz)⟩
              · exact ⟨z, by rw [upd_ne _ _ e, upd_ne _ _ e']; exact hz⟩
  | isEmpty x =>
    dsimp only [psStep] at h
    dsimp only [plStep]
    cases hx : ps.pool x with
    | none => rw [hx] at h; cases h
    | some P =>
      obtain ⟨p, g1, g2⟩ := k.alive x P hx
      rw [hx] at h
      obtain ⟨rfl, rfl⟩ : _ ∧ _ := by simpa using h
      rw [g1]
      refine ⟨st, C, ?_, k⟩
      rw [g2.used]
      simp
  | alloc x n =>
    dsimp only [psStep] at h
    dsimp only [plStep]
    cases hx : ps.pool x with
    | none => rw [hx] at h; cases h
    | some P =>
      obtain ⟨p, g1, g2⟩ := k.alive x P hx
      rw [hx, Option.bind_some] at h
      by_cases hn : 0 < n ∧ n ≤ 2 ^ 64 - 8
      · rw [if_pos hn] at h
        obtain ⟨rfl, rfl⟩ : _ ∧ _ := by simpa using h
        obtain ⟨m', p', a, o, c', e1, e2, e3⟩ := plAlloc_spec g2 k.fresh k.bound k.len (fun i => k.future _ i (Nat.le_refl _)) hn.1 hn.2
        rw [g1, Option.bind_some, e1]
        refine ⟨_, _, rfl, k.put (m' := m') (c' := c') e2.fresh e2.bound (fun e => by cases e) (fun P e => ?_) e2.other e2.new (fun b hb => ?_) (by simp [k.len])
          (fun y Q h hy hQ hh => ?_) (fun h i hh => k.future h i (by simp at hh; omega))⟩
        · cases e
          exact ⟨p', rfl, e3⟩
        · by_cases hbc : b ∈ c'
          · exact .inl hbc
          · rcases e2.own b hb with h1 | h1
            · exact .inl h1
            · exact .inr ⟨fun h2 => hbc (e2.sub b h2), h1⟩
        · obtain ⟨q, _, q2⟩ := k.alive y Q hQ
          obtain ⟨_, _, _, r, _⟩ := q2.reg h hh
          have h1 := (List.getElem?_eq_some_iff.1 r.size).1
          have h2 := (List.getElem?_eq_some_iff.1 r.ptr).1
          exact ⟨List.getElem?_append_left h2, List.getElem?_append_left h1, fun _ => rfl⟩
      · rw [if_neg hn] at h; cases h
  | store x hd i w =>
    dsimp only [psStep] at h
    dsimp only [plStep]
    cases hx : ps.pool x with
    | none => rw [hx] at h; cases h
    | some P =>
      obtain ⟨p, g1, g2⟩ := k.alive x P hx
      rw [hx, Option.bind_some] at h
      cases hs : ps.size[hd]? with
      | none => rw [hs] at h; cases h
      | some n =>
        rw [hs, Option.bind_some] at h
        by_cases hc : hd ∈ P.live ∧ 8 * i < n
        · rw [if_pos hc] at h
          obtain ⟨rfl, rfl⟩ : _ ∧ _ := by simpa using h
          obtain ⟨a, o, n', r, _⟩ := g2.reg hd hc.1
          have hnn : n' = n := by
            have := r.size
            rw [show (st.data ps).size = ps.size from rfl, hs] at this
            cases this
            rfl
          subst hnn
          obtain ⟨m', e1, e2, ha, e3, e4, e5⟩ := g2.store hc.1 r hc.2 w
          rw [show st.ptr[hd]? = some (a, o) from r.ptr, Option.bind_some]
          dsimp only
          rw [e1]
          have hblk : ∀ b, m'.blk b ≠ none → st.mem.blk b ≠ none := by
            intro b hb
            by_cases e : b = a
            · rw [e]; exact k.blk ha
            · rw [e3 b e] at hb; exact hb
          have := k.put (x := x) (m' := m') (c' := C x) (ptr' := st.ptr) (size' := ps.size) (val' := upd ps.val hd (upd (ps.val hd) i (some w)))
            (o := st.pool x) (O := ps.pool x) (by rw [e2]; exact Nat.le_refl _) (fun b hb => by rw [e2]; exact k.bound b (hblk b hb)) (fun e => k.dead x e)
            (fun P' e => ?_) (fun b hb _ => e3 b fun e => hb (e ▸ ha)) (fun b hb => .inl hb) (fun b hb => ?_) k.len (fun y Q h' hy hQ hh' => ?_) (fun h' j hh' => ?_)
          · rw [upd_self, upd_self] at this
            exact ⟨_, _, rfl, this⟩
          · rw [hx] at e
            cases e
            exact ⟨p, g1, e5⟩
          · by_cases h1 : b ∈ C x
            · exact .inl h1
            · exact .inr ⟨h1, hblk b hb⟩
          · have hne : h' ≠ hd := by
              rintro rfl
              obtain ⟨q, _, q2⟩ := k.alive y Q hQ
              obtain ⟨a', o', n'', r', ha', _⟩ := q2.reg h' hh'
              obtain ⟨rfl, _, _⟩ := r.loc r'
              exact hy (k.disj y x _ ha' ha)
            exact ⟨rfl, rfl, fun j => by rw [upd_ne _ _ hne]⟩
          · have h1 := (List.getElem?_eq_some_iff.1 hs).1
            rw [upd_ne _ _ (by omega)]
            exact k.future h' j hh'
        · rw [if_neg hc] at h; cases h
  | load x hd i =>
    dsimp only [psStep] at h
    dsimp only [plStep]
    cases hx : ps.pool x with
    | none => rw [hx] at h; cases h
    | some P =>
      obtain ⟨p, g1, g2⟩ := k.alive x P hx
      rw [hx, Option.bind_some] at h
      cases hs : ps.size[hd]? with
      | none => rw [hs] at h; cases h
      | some n =>
        rw [hs, Option.bind_some] at h
        by_cases hc : hd ∈ P.live ∧ 8 * i < n
        · rw [if_pos hc] at h
          cases hv : ps.val hd i with
          | none => rw [hv] at h; cases h
          | some w =>
            rw [hv] at h
            obtain ⟨rfl, rfl⟩ : _ ∧ _ := by simpa using h
            obtain ⟨a, o, n', r, _⟩ := g2.reg hd hc.1
            have hnn : n' = n := by
              have := r.size
              rw [show (st.data ps).size = ps.size from rfl, hs] at this
              cases this
              rfl
            subst hnn
            obtain ⟨b, b1, b2, b3⟩ := r.blk
            rw [show st.ptr[hd]? = some (a, o) from r.ptr, Option.bind_some]
            dsimp only
            rw [CMem.load_of b1 (by omega) (b3 i w hc.2 hv)]
            exact ⟨st, C, rfl, k⟩
        · rw [if_neg hc] at h; cases h

theorem plRun_spec : ∀ (ops : List PlOp) {st : PlSt} {ps : PsSt} {C : Nat → List Nat}, PlInv st ps C → ∀ {ps' : PsSt} {rs : List PlRes}, psRun ps ops = some (ps', rs) →
    ∃ st' C', plRun st ops = some (st', rs) ∧ PlInv st' ps' C'
  | [], st, ps, C, k, ps', rs, h => by
    cases h
    exact ⟨st, C, rfl, k⟩
  | op :: ops, st, ps, C, k, ps', rs, h => by
    unfold psRun at h
    cases h1 : psStep ps op with
    | none => rw [h1] at h; cases h
    | some q =>
      obtain ⟨ps1, r1⟩ := q
      rw [h1, Option.bind_some] at h
      cases h2 : psRun ps1 ops with
      | none => dsimp only at h; rw [h2] at h; cases h
      | some q =>
        obtain ⟨ps2, rs2⟩ := q
        dsimp only at h
        rw [h2] at h
        cases h
        obtain ⟨st1, C1, e1, k1⟩ := plStep_spec k h1
        obtain ⟨st2, C2, e2, k2⟩ := plRun_spec ops k1 h2
        refine ⟨st2, C2, ?_, k2⟩
        unfold plRun
        rw [e1, Option.bind_some]
        dsimp only
        rw [e2]
        rfl

theorem plInv_empty : PlInv PlSt.empty PsSt.empty (fun _ => []) :=
  ⟨by decide, fun _ h => absurd rfl h, fun _ _ => ⟨rfl, rfl⟩, fun _ _ h => (by cases h), fun _ _ _ h => (by cases h), fun _ h => absurd rfl h, rfl, fun _ _ _ => rfl⟩

end TdZdd
