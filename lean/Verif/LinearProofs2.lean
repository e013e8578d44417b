import Verif.LinearProofs

/-! Proofs about `LinearConstraints` (2): `update`. -/

namespace TdZdd

namespace Lin

/-- Slots of the constraints in `P` are distinct and not free. -/
structure SlotInv (P : Nat → Prop) (st : LcIdx) : Prop where
  lt : ∀ id k, st.map id = some k → k < st.size
  free_lt : ∀ k ∈ st.free, k < st.size
  nodup : st.free.Nodup
  used : ∀ id k, P id → st.map id = some k → k ∉ st.free
  inj : ∀ id id' k, P id → P id' → st.map id = some k → st.map id' = some k → id = id'

structure Ext (st st' : LcIdx) : Prop where
  map : ∀ id k, st.map id = some k → st'.map id = some k
  size : st.size ≤ st'.size

theorem Ext.refl (st) : Ext st st := ⟨fun _ _ h => h, Nat.le_refl _⟩
theorem Ext.trans {a b c : LcIdx} (h : Ext a b) (h' : Ext b c) : Ext a c := ⟨fun id k e => h'.map id k (h.map id k e), Nat.le_trans h.size h'.size⟩

theorem slot_inv {P : Nat → Prop} {st : LcIdx} (h : SlotInv P st) {id : Nat} (hP : P id) :
    SlotInv P (lcSlot id st) ∧ Ext st (lcSlot id st) ∧ (∃ k, (lcSlot id st).map id = some k) ∧ ∀ j, j ≠ id → (lcSlot id st).map j = st.map j := by
  unfold lcSlot
  split
  next k hk => exact ⟨h, .refl _, ⟨k, hk⟩, fun _ _ => rfl⟩
  next hnone =>
    split
    next hfree =>
      refine ⟨⟨?_, ?_, ?_, ?_, ?_⟩, ⟨?_, ?_⟩, ⟨st.size, if_pos rfl⟩, fun j hj => if_neg hj⟩ <;> dsimp only
      · intro j k hk
        split at hk
        · injection hk; omega
        · have := h.lt j k hk; omega
      · intro k hk; cases hk
      · exact List.nodup_nil
      · intro j k _ _ hk; cases hk
      · intro j j' k hj hj' e e'
        split at e <;> split at e'
        · omega
        · injection e; have := h.lt j' k e'; omega
        · injection e'; have := h.lt j k e; omega
        · exact h.inj j j' k hj hj' e e'
      · intro j k e
        rw [if_neg (fun hj => by rw [hj, hnone] at e; cases e)]; exact e
      · omega
    next f fs hfree =>
      have hnd := h.nodup
      rw [hfree, List.nodup_cons] at hnd
      have hfl := h.free_lt
      rw [hfree] at hfl
      refine ⟨⟨?_, ?_, ?_, ?_, ?_⟩, ⟨?_, ?_⟩, ⟨f, if_pos rfl⟩, fun j hj => if_neg hj⟩ <;> dsimp only
      · intro j k hk
        split at hk
        · injection hk with hk; subst hk; exact hfl f (List.mem_cons_self ..)
        · exact h.lt j k hk
      · intro k hk; exact hfl k (List.mem_cons_of_mem _ hk)
      · exact hnd.2
      · intro j k hj e hk
        split at e
        · injection e with e; subst e; exact hnd.1 hk
        · exact h.used j k hj e (hfree ▸ List.mem_cons_of_mem _ hk)
      · intro j j' k hj hj' e e'
        split at e <;> split at e'
        · omega
        · injection e with e; subst e
          exact absurd (hfree ▸ List.mem_cons_self ..) (h.used j' _ hj' e')
        · injection e' with e'; subst e'
          exact absurd (hfree ▸ List.mem_cons_self ..) (h.used j _ hj e)
        · exact h.inj j j' k hj hj' e e'
      · intro j k e
        rw [if_neg (fun hj => by rw [hj, hnone] at e; cases e)]; exact e
      · exact Nat.le_refl _

/-- replace the constraint number of an item by its slot -/
def reidx (m : Nat → Option Nat) (t : CheckItem) : CheckItem := { t with index := (m t.index).getD 0 }

theorem assign_inv {P : Nat → Prop} {cid : Nat} : ∀ (ts : List CheckItem) {st : LcIdx}, SlotInv P st → (∀ t ∈ ts, t.index < cid ∧ P t.index) →
    ∃ st', lcAssign cid ts st = some (ts.map (reidx st'.map), st') ∧ SlotInv P st' ∧ Ext st st' ∧ (∀ t ∈ ts, ∃ k, st'.map t.index = some k) ∧
      ∀ j, (∀ t ∈ ts, t.index ≠ j) → st'.map j = st.map j
  | [], st, h, _ => ⟨st, rfl, h, .refl _, fun t ht => (nomatch ht), fun _ _ => rfl⟩
  | t :: ts, st, h, ht => by
    obtain ⟨s1, s2, ⟨k, s3⟩, s4⟩ := slot_inv h (ht t (List.mem_cons_self ..)).2
    obtain ⟨st', e1, e2, e3, e4, e5⟩ := assign_inv ts (st := lcSlot t.index st) s1 fun s hs => ht s (List.mem_cons_of_mem _ hs)
    refine ⟨st', ?_, e2, s2.trans e3, ?_, ?_⟩
    · unfold lcAssign
      rw [if_neg (by have := (ht t (List.mem_cons_self ..)).1; omega)]
      dsimp only
      rw [e1, Option.map_some, List.map_cons]
      congr 3
      unfold reidx
      rw [s3, e3.map _ _ s3]
    · intro s hs
      rcases List.mem_cons.1 hs with e | hs
      · subst e; exact ⟨k, e3.map _ _ s3⟩
      · exact e4 s hs
    · intro j hj
      rw [e5 j fun s hs => hj s (List.mem_cons_of_mem _ hs), s4 j fun e => hj t (List.mem_cons_self ..) e.symm]

theorem mem_release : ∀ (ts : List CheckItem) (fr : List Nat) (k : Nat), k ∈ lcRelease ts fr ↔ k ∈ fr ∨ ∃ t ∈ ts, t.final = true ∧ t.index = k
  | [], fr, k => by simp [lcRelease]
  | t :: ts, fr, k => by
    have := mem_release ts (if t.final then t.index :: fr else fr) k
    unfold lcRelease at this ⊢
    rw [List.foldl_cons, this]
    by_cases hf : t.final = true
    · rw [if_pos hf]; simp only [List.mem_cons, exists_eq_or_imp, hf, true_and]
      constructor
      · rintro ((h | h) | h)
        · exact .inr (.inl h.symm)
        · exact .inl h
        · exact .inr (.inr h)
      · rintro (h | h | h)
        · exact .inl (.inr h)
        · exact .inl (.inl h.symm)
        · exact .inr h
    · rw [if_neg hf]; simp [hf]

theorem nodup_release : ∀ (ts : List CheckItem) (fr : List Nat), fr.Nodup → (∀ t ∈ ts, t.index ∉ fr) → (ts.Pairwise fun s t => s.index ≠ t.index) →
    (lcRelease ts fr).Nodup
  | [], fr, h, _, _ => h
  | t :: ts, fr, h, h1, h2 => by
    rw [List.pairwise_cons] at h2
    unfold lcRelease
    rw [List.foldl_cons]
    apply nodup_release ts _ ?_ ?_ h2.2
    · split
      · exact List.nodup_cons.2 ⟨h1 t (List.mem_cons_self ..), h⟩
      · exact h
    · intro s hs
      split
      · rw [List.mem_cons]
        rintro (e | e)
        · exact h2.1 s hs e.symm
        · exact h1 s (List.mem_cons_of_mem _ hs) e
      · exact h1 s (List.mem_cons_of_mem _ hs)

/-- an item of constraint `id` at level `l` -/
def At (ls : Nat → List CheckItem) (l id : Nat) : Prop := ∃ t ∈ ls l, t.index = id

structure LsOk (cid : Nat) (ls : Nat → List CheckItem) : Prop where
  idx : ∀ l, ∀ t ∈ ls l, t.index < cid
  asc : ∀ l, (ls l).Pairwise fun s t => s.index < t.index
  final : ∀ l, ∀ t ∈ ls l, t.final = true → ∀ k, k < l → ¬ At ls k t.index

/-- constraint `id` has an item at a level in `1..i` -/
def Below (ls : Nat → List CheckItem) (i id : Nat) : Prop := ∃ j, 1 ≤ j ∧ j ≤ i ∧ At ls j id

theorem levels_inv {cid : Nat} {ls0 : Nat → List CheckItem} (h0 : LsOk cid ls0) : ∀ (i : Nat) (ls : Nat → List CheckItem) (st : LcIdx),
    (∀ l, l ≤ i → ls l = ls0 l) → SlotInv (Below ls0 i) st →
    ∃ ls' st', lcLevels cid i ls st = some (ls', st') ∧ Ext st st' ∧ (∀ id k, st'.map id = some k → k < st'.size) ∧
      (∀ l, i < l → ls' l = ls l) ∧ (∀ l, 1 ≤ l → l ≤ i → ls' l = (ls0 l).map (reidx st'.map)) ∧
      (∀ id, Below ls0 i id → ∃ k, st'.map id = some k) ∧
      (∀ l id id' k, 1 ≤ l → l ≤ i → Below ls0 l id → Below ls0 l id' → (st.map id ≠ none ∨ ∃ j, l ≤ j ∧ j ≤ i ∧ At ls0 j id) →
        (st.map id' ≠ none ∨ ∃ j, l ≤ j ∧ j ≤ i ∧ At ls0 j id') → st'.map id = some k → st'.map id' = some k → id = id')
  | 0, ls, st, _, hs => ⟨ls, st, rfl, .refl _, hs.lt, fun _ _ => rfl, fun l h1 h2 => by omega, fun id ⟨j, h1, h2, _⟩ => by omega,
      fun l _ _ _ h1 h2 => by omega⟩
  | i + 1, ls, st, hls, hs => by
    have hb : ∀ t ∈ ls0 (i + 1), Below ls0 (i + 1) t.index := fun t ht => ⟨i + 1, by omega, by omega, t, ht, rfl⟩
    obtain ⟨s1, e1, a1, a2, a3, a4⟩ := assign_inv (ls0 (i + 1)) hs fun t ht => ⟨h0.idx _ t ht, hb t ht⟩
    have hmono : ∀ id, Below ls0 i id → Below ls0 (i + 1) id := fun id ⟨j, h1, h2, h3⟩ => ⟨j, h1, by omega, h3⟩
    have hidx : ∀ t ∈ (ls0 (i + 1)).map (reidx s1.map), ∃ u ∈ ls0 (i + 1), s1.map u.index = some t.index ∧ u.final = t.final := by
      intro t ht
      obtain ⟨u, hu, e⟩ := List.mem_map.1 ht
      obtain ⟨k, hk⟩ := a3 u hu
      subst e
      exact ⟨u, hu, by show _ = some ((s1.map u.index).getD 0); rw [hk]; rfl, rfl⟩
    have hs2 : SlotInv (Below ls0 i) { s1 with free := lcRelease ((ls0 (i + 1)).map (reidx s1.map)) s1.free } := by
      refine ⟨a1.lt, ?_, ?_, ?_, ?_⟩ <;> dsimp only
      · intro k hk
        rcases (mem_release _ _ _).1 hk with h | ⟨t, ht, _, e⟩
        · exact a1.free_lt k h
        · obtain ⟨u, _, hu2, _⟩ := hidx t ht
          exact a1.lt _ _ (e ▸ hu2)
      · apply nodup_release _ _ a1.nodup
        · intro t ht
          obtain ⟨u, hu, hu2, _⟩ := hidx t ht
          exact a1.used _ _ (hb u hu) hu2
        · rw [List.pairwise_map]
          refine List.Pairwise.imp_of_mem ?_ (h0.asc (i + 1))
          intro u v hu hv huv e
          obtain ⟨k, hk⟩ := a3 u hu
          obtain ⟨k', hk'⟩ := a3 v hv
          have e' : (s1.map u.index).getD 0 = (s1.map v.index).getD 0 := e
          rw [hk, hk'] at e'
          simp only [Option.getD_some] at e'
          subst e'
          have := a1.inj _ _ _ (hb u hu) (hb v hv) hk hk'
          omega
      · intro id k hP hk hm
        rcases (mem_release _ _ _).1 hm with h | ⟨t, ht, hf, e⟩
        · exact a1.used id k (hmono id hP) hk h
        · obtain ⟨u, hu, hu2, hu3⟩ := hidx t ht
          rw [e] at hu2
          have := a1.inj id u.index k (hmono id hP) (hb u hu) hk hu2
          subst this
          obtain ⟨j, h1, h2, h3⟩ := hP
          exact h0.final (i + 1) u hu (by rw [hu3]; exact hf) j (by omega) h3
      · intro id id' k hP hP' hk hk'
        exact a1.inj id id' k (hmono id hP) (hmono id' hP') hk hk'
    obtain ⟨ls', st', e2, b1, b2, b3, b4, b5, b6⟩ := levels_inv h0 i (fun j => if j = i + 1 then (ls0 (i + 1)).map (reidx s1.map) else ls j)
      { s1 with free := lcRelease ((ls0 (i + 1)).map (reidx s1.map)) s1.free } (fun l hl => by rw [if_neg (by omega)]; exact hls l (by omega)) hs2
    refine ⟨ls', st', ?_, ⟨fun id k h => b1.map id k (a2.map id k h), Nat.le_trans a2.size b1.size⟩, b2, ?_, ?_, ?_, ?_⟩
    · unfold lcLevels
      rw [hls _ (Nat.le_refl _), e1, Option.bind_some]
      exact e2
    · intro l hl
      rw [b3 l (by omega), if_neg (by omega)]
    · intro l h1 h2
      by_cases hl : l = i + 1
      · rw [b3 l (by omega), if_pos hl, hl]
        apply List.map_congr_left
        intro t ht
        obtain ⟨k, hk⟩ := a3 t ht
        unfold reidx
        rw [hk, b1.map _ _ hk]
      · exact b4 l h1 (by omega)
    · rintro id ⟨j, h1, h2, h3⟩
      by_cases hj : j = i + 1
      · subst hj
        obtain ⟨t, ht, e⟩ := h3
        obtain ⟨k, hk⟩ := a3 t ht
        exact ⟨k, b1.map _ _ (e ▸ hk)⟩
      · exact b5 id ⟨j, h1, by omega, h3⟩
    · have conv : ∀ l id, l ≤ i + 1 → (st.map id ≠ none ∨ ∃ j, l ≤ j ∧ j ≤ i + 1 ∧ At ls0 j id) → s1.map id ≠ none ∨ ∃ j, l ≤ j ∧ j ≤ i ∧ At ls0 j id := by
        rintro l id _ (h | ⟨j, h1, h2, h3⟩)
        · left
          cases hm : st.map id with
          | none => exact absurd hm h
          | some k => rw [a2.map id k hm]; exact fun h => (nomatch h)
        · by_cases hj : j = i + 1
          · subst hj
            obtain ⟨t, ht, e⟩ := h3
            obtain ⟨k, hk⟩ := a3 t ht
            left; rw [← e, hk]; exact fun h => (nomatch h)
          · exact .inr ⟨j, h1, by omega, h3⟩
      intro l id id' k h1 h2 hb1 hb2 hst hst' hk hk'
      have c1 := conv l id h2 hst
      have c2 := conv l id' h2 hst'
      by_cases hl : l = i + 1
      · subst hl
        have nn : ∀ x, (s1.map x ≠ none ∨ ∃ j, i + 1 ≤ j ∧ j ≤ i ∧ At ls0 j x) → st'.map x = some k → s1.map x = some k := by
          rintro x (h | ⟨j, h1, h2, _⟩) hx
          · cases hm : s1.map x with
            | none => exact absurd hm h
            | some k' => rw [b1.map x k' hm] at hx; exact hx
          · omega
        exact a1.inj id id' k hb1 hb2 (nn id c1 hk) (nn id' c2 hk')
      · exact b6 l id id' k h1 (by omega) hb1 hb2 c1 c2 hk hk'

/-- What `update` computes -/
theorem update_inv {L : LinCon} (h0 : LsOk L.constraintId L.lists) : ∃ (L' : LinCon) (slot : Nat → Nat), lcUpdate L = some L' ∧ L'.n = L.n ∧ L'.isFalse = L.isFalse ∧
    (∀ l, 1 ≤ l → l ≤ L.n → L'.lists l = (L.lists l).map fun t => { t with index := slot t.index }) ∧
    (∀ id, Below L.lists L.n id → slot id < L'.arraySize) ∧
    (∀ l id id', 1 ≤ l → l ≤ L.n → Below L.lists l id → Below L.lists l id' → (∃ j, l ≤ j ∧ j ≤ L.n ∧ At L.lists j id) →
      (∃ j, l ≤ j ∧ j ≤ L.n ∧ At L.lists j id') → slot id = slot id' → id = id') := by
  obtain ⟨ls', st', e, b1, b2, b3, b4, b5, b6⟩ := levels_inv h0 L.n L.lists ⟨fun _ => none, [], L.arraySize⟩ (fun _ _ => rfl)
    ⟨fun _ _ h => (nomatch h), fun _ h => (nomatch h), List.nodup_nil, fun _ _ _ h => (nomatch h), fun _ _ _ _ _ h => (nomatch h)⟩
  refine ⟨{ L with lists := ls', arraySize := st'.size }, fun id => (st'.map id).getD 0, ?_, rfl, rfl, ?_, ?_, ?_⟩
  · unfold lcUpdate; rw [e]; rfl
  · exact b4
  · intro id hid
    obtain ⟨k, hk⟩ := b5 id hid
    dsimp only
    rw [hk]
    exact b2 id k hk
  · intro l id id' h1 h2 hb hb' hj hj' heq
    have up : ∀ x, Below L.lists l x → Below L.lists L.n x := fun x ⟨j, g1, g2, g3⟩ => ⟨j, g1, by omega, g3⟩
    obtain ⟨k, hk⟩ := b5 id (up id hb)
    obtain ⟨k', hk'⟩ := b5 id' (up id' hb')
    dsimp only at heq
    rw [hk, hk'] at heq
    simp only [Option.getD_some] at heq
    subst heq
    exact b6 l id id' k h1 h2 hb hb' (.inr hj) (.inr hj') hk hk'

end Lin
end TdZdd
