import Verif.MyListSpec
import Verif.CellsProofs

/-! Proofs about `MyList`: one list. -/

namespace TdZdd

/-- pointers, sizes and values of all elements -/
structure LData where
  ptr : List (Nat × Nat)
  size : List Nat
  val : Nat → Nat → Option Nat

/-- the element `h` of `s` bytes has its link at cell `i` of block `a`, and holds its values -/
structure LEl (m : LMem) (d : LData) (a i h s : Nat) : Prop where
  ptr : d.ptr[h]? = some (a, i + 1)
  size : d.size[h]? = some s
  val : ∀ j w, 8 * j < s → d.val h j = some w → m.load a (i + 1 + j) = some (.data w)
  room : ∃ b, m.blk a = some b ∧ i + (numCells s + 1) ≤ b.len

/-- the elements `hs` fill block `a` from cell `i` on; the link of the last one is `q` -/
def ElRep (m : LMem) (d : LData) (a : Nat) : Nat → List Nat → Nat × Nat → Prop
  | _, [], _ => False
  | i, [h], q => ∃ s, LEl m d a i h s ∧ m.loadPtr a i = some (true, q)
  | i, h :: h' :: hs, q => ∃ s, LEl m d a i h s ∧ m.loadPtr a i = some (false, a, i + (numCells s + 1)) ∧ ElRep m d a (i + (numCells s + 1)) (h' :: hs) q

/-- the data of the elements `hs` are the same -/
def LData.Same (d d' : LData) (hs : List Nat) : Prop := ∀ h ∈ hs, d'.ptr[h]? = d.ptr[h]? ∧ d'.size[h]? = d.size[h]? ∧ ∀ j, d'.val h j = d.val h j

theorem LData.Same.refl (d : LData) (hs : List Nat) : d.Same d hs := fun _ _ => ⟨rfl, rfl, fun _ => rfl⟩

theorem loadPtr_congr {m m' : LMem} {a i : Nat} (h : m'.load a i = m.load a i) : m'.loadPtr a i = m.loadPtr a i := by
  unfold LMem.loadPtr; rw [h]

theorem loadPtr_of {m : LMem} {a i : Nat} {f : Bool} {q : Nat × Nat} (h : m.load a i = some (.ptr f q.1 q.2)) : m.loadPtr a i = some (f, q) := by
  unfold LMem.loadPtr; rw [h]; rfl

theorem LEl.congr {m m' : LMem} {d d' : LData} {a i h s : Nat} (e : LEl m d a i h s) (hm : ∀ k, i < k → k < i + (numCells s + 1) → m'.load a k = m.load a k)
    (hb : ∀ b, m.blk a = some b → ∃ b', m'.blk a = some b' ∧ b'.len = b.len) (hd : d.Same d' [h]) : LEl m' d' a i h s := by
  obtain ⟨h1, h2, h3⟩ := hd h (by simp)
  obtain ⟨b, g1, g2⟩ := e.room
  obtain ⟨b', g3, g4⟩ := hb b g1
  refine ⟨by rw [h1, e.ptr], by rw [h2, e.size], fun j w hj hw => ?_, b', g3, by omega⟩
  rw [h3] at hw
  rw [hm _ (by omega) (by unfold numCells; omega)]
  exact e.val j w hj hw

theorem ElRep.congr {m m' : LMem} {d d' : LData} {a : Nat} : ∀ {hs : List Nat} {i : Nat} {q : Nat × Nat}, ElRep m d a i hs q →
    (∀ k, i ≤ k → m'.load a k = m.load a k) → (∀ b, m.blk a = some b → ∃ b', m'.blk a = some b' ∧ b'.len = b.len) → d.Same d' hs → ElRep m' d' a i hs q
  | [], _, _, h, _, _, _ => h
  | [h], i, q, ⟨s, e, l⟩, hm, hb, hd => ⟨s, e.congr (fun k h1 _ => hm k (by omega)) hb hd, by rw [loadPtr_congr (hm i (Nat.le_refl _))]; exact l⟩
  | h :: h' :: hs, i, q, ⟨s, e, l, r⟩, hm, hb, hd =>
    ⟨s, e.congr (fun k h1 _ => hm k (by omega)) hb fun x hx => hd x (by rw [List.mem_singleton.1 hx]; exact List.mem_cons_self ..),
      by rw [loadPtr_congr (hm i (Nat.le_refl _))]; exact l,
      r.congr (fun k hk => hm k (by omega)) hb fun x hx => hd x (List.mem_cons_of_mem _ hx)⟩

/-- where the elements are -/
theorem ElRep.pos {m : LMem} {d : LData} {a : Nat} : ∀ {hs : List Nat} {i : Nat} {q : Nat × Nat}, ElRep m d a i hs q → ∀ h ∈ hs, ∃ o s, LEl m d a o h s ∧ i ≤ o
  | [h], i, q, ⟨s, e, _⟩, x, hx => by
    rw [List.mem_singleton] at hx
    subst hx
    exact ⟨i, s, e, Nat.le_refl _⟩
  | h :: h' :: hs, i, q, ⟨s, e, _, r⟩, x, hx => by
    rcases List.mem_cons.1 hx with rfl | hx
    · exact ⟨i, s, e, Nat.le_refl _⟩
    · obtain ⟨o, s', e', ho⟩ := r.pos x hx
      exact ⟨o, s', e', by omega⟩

theorem LEl.loc {m m' : LMem} {d : LData} {h a i s a' i' s' : Nat} (e : LEl m d a i h s) (e' : LEl m' d a' i' h s') : a' = a ∧ i' = i ∧ s' = s := by
  have h1 := e.ptr
  rw [e'.ptr] at h1
  have h2 := e.size
  rw [e'.size] at h2
  cases h2
  simp only [Option.some.injEq, Prod.mk.injEq] at h1
  exact ⟨h1.1, by omega, rfl⟩

/-- the elements do not overlap -/
theorem ElRep.sep {m : LMem} {d : LData} {a : Nat} : ∀ {hs : List Nat} {i : Nat} {q : Nat × Nat}, ElRep m d a i hs q → ∀ h ∈ hs, ∀ h' ∈ hs, h ≠ h' →
    ∀ o s o' s', LEl m d a o h s → LEl m d a o' h' s' → o + (numCells s + 1) ≤ o' ∨ o' + (numCells s' + 1) ≤ o
  | [h], i, q, _, x, hx, y, hy, hne, _, _, _, _, _, _ => by
    rw [List.mem_singleton] at hx hy
    exact absurd (hx.trans hy.symm) hne
  | h :: h' :: hs, i, q, ⟨s0, e0, _, r⟩, x, hx, y, hy, hne, o, s, o', s', e, e' => by
    rcases List.mem_cons.1 hx with rfl | hx1 <;> rcases List.mem_cons.1 hy with rfl | hy1
    · exact absurd rfl hne
    · obtain ⟨_, rfl, rfl⟩ := e0.loc e
      obtain ⟨o1, s1, e1, h1⟩ := r.pos y hy1
      obtain ⟨_, rfl, rfl⟩ := e1.loc e'
      exact .inl h1
    · obtain ⟨_, rfl, rfl⟩ := e0.loc e'
      obtain ⟨o1, s1, e1, h1⟩ := r.pos x hx1
      obtain ⟨_, rfl, rfl⟩ := e1.loc e
      exact .inr h1
    · exact r.sep x hx1 y hy1 hne o s o' s' e e'

/-- a write to the data of an element -/
theorem ElRep.store {m m' : LMem} {d : LData} {a h0 o s j w : Nat} (e0 : LEl m d a o h0 s) (hj : 8 * j < s) (hw : m'.load a (o + 1 + j) = some (.data w))
    (hm : ∀ k, k ≠ o + 1 + j → m'.load a k = m.load a k) (hb : ∀ b, m.blk a = some b → ∃ b', m'.blk a = some b' ∧ b'.len = b.len) :
    ∀ {hs : List Nat} {i : Nat} {q : Nat × Nat}, ElRep m d a i hs q → h0 ∈ hs → ElRep m' { d with val := upd d.val h0 (upd (d.val h0) j (some w)) } a i hs q := by
  have self : LEl m' { d with val := upd d.val h0 (upd (d.val h0) j (some w)) } a o h0 s := by
    obtain ⟨b, g1, g2⟩ := e0.room
    obtain ⟨b', g3, g4⟩ := hb b g1
    refine ⟨e0.ptr, e0.size, fun j' w' hj' hw' => ?_, b', g3, by omega⟩
    dsimp only at hw'
    rw [upd_same] at hw'
    by_cases e : j' = j
    · subst e
      rw [upd_same] at hw'
      cases hw'
      exact hw
    · rw [upd_ne _ _ e] at hw'
      rw [hm _ (by omega)]
      exact e0.val j' w' hj' hw'
  have other : ∀ x, x ≠ h0 → d.Same { d with val := upd d.val h0 (upd (d.val h0) j (some w)) } [x] := by
    intro x hx y hy
    rw [List.mem_singleton] at hy
    subst hy
    exact ⟨rfl, rfl, fun k => by dsimp only; rw [upd_ne _ _ hx]⟩
  intro hs
  induction hs with
  | nil => intro i q h _; exact h
  | cons h hs ih =>
    intro i q r hmem
    cases hs with
    | nil =>
      obtain ⟨s1, e1, l1⟩ := r
      rw [List.mem_singleton] at hmem
      subst hmem
      obtain ⟨_, rfl, rfl⟩ := e0.loc e1
      exact ⟨s1, self, by rw [loadPtr_congr (hm i (by omega))]; exact l1⟩
    | cons h' hs =>
      obtain ⟨s1, e1, l1, r1⟩ := r
      by_cases e : h = h0
      · subst e
        obtain ⟨_, rfl, rfl⟩ := e0.loc e1
        refine ⟨s1, self, by rw [loadPtr_congr (hm i (by omega))]; exact l1, r1.congr (fun k hk => hm k ?_) hb fun x hx => ?_⟩
        · unfold numCells at hk; omega
        · refine other x (fun e => ?_) x (by simp)
          subst e
          obtain ⟨o2, s2, e2, h2⟩ := r1.pos x hx
          obtain ⟨_, rfl, rfl⟩ := e0.loc e2
          omega
      · have hmem' : h0 ∈ h' :: hs := by
          rcases List.mem_cons.1 hmem with h1 | h1
          · exact absurd h1.symm e
          · exact h1
        obtain ⟨o2, s2, e2, h2⟩ := r1.pos h0 hmem'
        obtain ⟨_, rfl, rfl⟩ := e0.loc e2
        exact ⟨s1, e1.congr (fun k _ hk => hm k (by omega)) hb (other h e), by rw [loadPtr_congr (hm i (by omega))]; exact l1, ih r1 hmem'⟩

/-- a block: its address, the cell of its first element, its elements -/
structure LBk where
  a : Nat
  i : Nat
  hs : List Nat

/-- the list of blocks -/
def BkRep (m : LMem) (d : LData) : Nat × Nat → List LBk → Prop
  | p, [] => p = (0, 0)
  | p, b :: bs => p = (b.a, b.i) ∧ b.a ≠ 0 ∧ 1 ≤ b.i ∧ m.loadPtr b.a (b.i - 1) = some (false, b.a, 0) ∧ ∃ q, ElRep m d b.a b.i b.hs q ∧ BkRep m d q bs

theorem BkRep.congr {m m' : LMem} {d d' : LData} : ∀ {bs : List LBk} {p : Nat × Nat}, BkRep m d p bs → (∀ b ∈ bs, m'.blk b.a = m.blk b.a) →
    d.Same d' (bs.flatMap LBk.hs) → BkRep m' d' p bs
  | [], _, h, _, _ => h
  | b :: bs, p, ⟨h1, h2, h3, h4, q, h5, h6⟩, hm, hd => by
    have hb := hm b (List.mem_cons_self ..)
    refine ⟨h1, h2, h3, by rw [loadPtr_congr (CMem.load_congr hb)]; exact h4, q,
      h5.congr (fun k _ => CMem.load_congr hb) (fun b' h => ⟨b', by rw [hb]; exact h, rfl⟩) fun h hh => hd h ?_,
      h6.congr (fun b hb => hm b (List.mem_cons_of_mem _ hb)) fun h hh => hd h ?_⟩
    · exact List.mem_flatMap.2 ⟨b, List.mem_cons_self .., hh⟩
    · obtain ⟨b', g1, g2⟩ := List.mem_flatMap.1 hh
      exact List.mem_flatMap.2 ⟨b', List.mem_cons_of_mem _ g1, g2⟩

/-- the list `l` with the blocks `bs` stands for the elements `es` -/
structure LOk (m : LMem) (d : LData) (l : MyL) (es : List Nat) (bs : List LBk) : Prop where
  rep : BkRep m d l.front bs
  nodup : (bs.map LBk.a).Nodup
  els : es = bs.flatMap LBk.hs
  size : l.size = es.length

theorem loadPtr_blk {m : LMem} {a i : Nat} {w : Bool × Nat × Nat} (h : m.loadPtr a i = some w) : ∃ b, m.blk a = some b ∧ i < b.len := by
  unfold LMem.loadPtr at h
  cases e : m.load a i with
  | none => rw [e] at h; cases h
  | some w' =>
    obtain ⟨b, h1, h2, _⟩ := CMem.load_blk e
    exact ⟨b, h1, h2⟩

theorem BkRep.blk {m : LMem} {d : LData} : ∀ {bs : List LBk} {p : Nat × Nat}, BkRep m d p bs → ∀ a ∈ bs.map LBk.a, m.blk a ≠ none
  | b :: bs, p, ⟨h1, h2, h3, h4, q, h5, h6⟩, a, ha => by
    rcases List.mem_cons.1 ha with rfl | ha
    · obtain ⟨b', g, _⟩ := loadPtr_blk h4
      rw [g]; simp
    · exact h6.blk a ha

/-- an element belongs to a block -/
theorem BkRep.pos {m : LMem} {d : LData} : ∀ {bs : List LBk} {p : Nat × Nat}, BkRep m d p bs → ∀ h ∈ bs.flatMap LBk.hs, ∃ b ∈ bs, h ∈ b.hs ∧
    ∃ o s, LEl m d b.a o h s ∧ 1 ≤ o
  | b :: bs, p, ⟨h1, h2, h3, h4, q, h5, h6⟩, h, hh => by
    rw [List.flatMap_cons, List.mem_append] at hh
    rcases hh with hh | hh
    · obtain ⟨o, s, e, ho⟩ := h5.pos h hh
      exact ⟨b, List.mem_cons_self .., hh, o, s, e, by omega⟩
    · obtain ⟨b', g1, g2, g3⟩ := h6.pos h hh
      exact ⟨b', List.mem_cons_of_mem _ g1, g2, g3⟩

theorem BkRep.sep {m : LMem} {d : LData} : ∀ {bs : List LBk} {p : Nat × Nat}, BkRep m d p bs → (bs.map LBk.a).Nodup →
    ∀ h ∈ bs.flatMap LBk.hs, ∀ h' ∈ bs.flatMap LBk.hs, h ≠ h' →
    ∀ a o s a' o' s', LEl m d a o h s → LEl m d a' o' h' s' → a ≠ a' ∨ o + (numCells s + 1) ≤ o' ∨ o' + (numCells s' + 1) ≤ o
  | b :: bs, p, ⟨h1, h2, h3, h4, q, h5, h6⟩, hn, h, hh, h', hh', hne, a, o, s, a', o', s', e, e' => by
    have hnd := List.nodup_cons.1 hn
    rw [List.flatMap_cons, List.mem_append] at hh hh'
    rcases hh with hh | hh <;> rcases hh' with hh' | hh'
    · obtain ⟨o1, s1, e1, _⟩ := h5.pos h hh
      obtain ⟨o2, s2, e2, _⟩ := h5.pos h' hh'
      obtain ⟨rfl, rfl, rfl⟩ := e1.loc e
      obtain ⟨rfl, rfl, rfl⟩ := e2.loc e'
      exact .inr (h5.sep h hh h' hh' hne _ _ _ _ e e')
    · obtain ⟨o1, s1, e1, _⟩ := h5.pos h hh
      obtain ⟨b2, hb2, _, o2, s2, e2, _⟩ := h6.pos h' hh'
      obtain ⟨rfl, rfl, rfl⟩ := e1.loc e
      obtain ⟨rfl, rfl, rfl⟩ := e2.loc e'
      exact .inl fun x => hnd.1 (x ▸ List.mem_map.2 ⟨b2, hb2, rfl⟩)
    · obtain ⟨o1, s1, e1, _⟩ := h5.pos h' hh'
      obtain ⟨b2, hb2, _, o2, s2, e2, _⟩ := h6.pos h hh
      obtain ⟨rfl, rfl, rfl⟩ := e1.loc e'
      obtain ⟨rfl, rfl, rfl⟩ := e2.loc e
      exact .inl fun x => hnd.1 (x ▸ List.mem_map.2 ⟨b2, hb2, rfl⟩)
    · exact h6.sep hnd.2 h hh h' hh' hne a o s a' o' s' e e'

/-- a write to the data of an element -/
theorem BkRep.store {m m' : LMem} {d : LData} {a h0 o s j w : Nat} (e0 : LEl m d a o h0 s) (hj : 8 * j < s) (hw : m'.load a (o + 1 + j) = some (.data w))
    (hm : ∀ k, k ≠ o + 1 + j → m'.load a k = m.load a k) (hb : ∀ b, m.blk a = some b → ∃ b', m'.blk a = some b' ∧ b'.len = b.len)
    (ho : ∀ a', a' ≠ a → m'.blk a' = m.blk a') :
    ∀ {bs : List LBk} {p : Nat × Nat}, BkRep m d p bs → (bs.map LBk.a).Nodup → h0 ∈ bs.flatMap LBk.hs →
      BkRep m' { d with val := upd d.val h0 (upd (d.val h0) j (some w)) } p bs
  | b :: bs, p, ⟨h1, h2, h3, h4, q, h5, h6⟩, hn, hmem => by
    have hnd := List.nodup_cons.1 hn
    have same : ∀ hs, h0 ∉ hs → d.Same { d with val := upd d.val h0 (upd (d.val h0) j (some w)) } hs := fun hs hx y hy =>
      ⟨rfl, rfl, fun k => by dsimp only; rw [upd_ne _ _ fun e : y = h0 => hx (e ▸ hy)]⟩
    by_cases hin : h0 ∈ b.hs
    · obtain ⟨o1, s1, e1, hle⟩ := h5.pos h0 hin
      obtain ⟨ea, eo, es⟩ := e0.loc e1
      have hrest : ∀ b' ∈ bs, b'.a ≠ a := fun b' hb' e => hnd.1 (by rw [ea, ← e]; exact List.mem_map.2 ⟨b', hb', rfl⟩)
      refine ⟨h1, h2, h3, ?_, q, ?_, h6.congr (fun b' hb' => ho _ (hrest b' hb')) (same _ fun hx => ?_)⟩
      · rw [ea, loadPtr_congr (hm _ (by omega)), ← ea]; exact h4
      · rw [ea] at h5 ⊢
        exact h5.store e0 hj hw hm hb hin
      · obtain ⟨b2, hb2, _, o2, s2, e2, _⟩ := h6.pos h0 hx
        exact hrest b2 hb2 (e0.loc e2).1
    · rw [List.flatMap_cons, List.mem_append] at hmem
      rcases hmem with hmem | hmem
      · exact absurd hmem hin
      · obtain ⟨b2, hb2, _, o2, s2, e2, _⟩ := h6.pos h0 hmem
        have hba : b.a ≠ a := fun e => hnd.1 (by rw [e, ← (e0.loc e2).1]; exact List.mem_map.2 ⟨b2, hb2, rfl⟩)
        have hbb := ho _ hba
        exact ⟨h1, h2, h3, by rw [loadPtr_congr (CMem.load_congr hbb)]; exact h4, q,
          h5.congr (fun k _ => CMem.load_congr hbb) (fun b' h => ⟨b', by rw [hbb]; exact h, rfl⟩) (same _ hin),
          h6.store e0 hj hw hm hb ho hnd.2 hmem⟩

end TdZdd
