import Verif.MemoryPoolSpec
import Verif.CellsProofs
import Verif.ReduceCanon

/-! Proofs about `MemoryPool`. -/

namespace TdZdd

/-- the blocks of a list -/
def Chain (m : PlMem) : Nat → List Nat → Prop
  | a, [] => a = 0
  | a, b :: bs => a = b ∧ a ≠ 0 ∧ ∃ nx, m.load a 0 = some nx ∧ Chain m nx bs

theorem Chain.congr {m m' : PlMem} : ∀ {c : List Nat} {a : Nat}, Chain m a c → (∀ b ∈ c, m'.load b 0 = m.load b 0) → Chain m' a c
  | [], _, h, _ => h
  | b :: bs, a, ⟨e, h0, nx, h1, h2⟩, hc =>
    ⟨e, h0, nx, by rw [e, hc b (List.mem_cons_self ..), ← e]; exact h1, h2.congr fun b' hb => hc b' (List.mem_cons_of_mem _ hb)⟩

theorem Chain.blk {m : PlMem} : ∀ {c : List Nat} {a : Nat}, Chain m a c → ∀ b ∈ c, m.blk b ≠ none
  | b :: bs, a, ⟨e, h0, nx, h1, h2⟩, b', hb => by
    rcases List.mem_cons.1 hb with rfl | hb
    · subst e
      intro hn
      unfold CMem.load at h1
      rw [hn] at h1
      cases h1
    · exact h2.blk b' hb

theorem Chain.nil_iff {m : PlMem} {c : List Nat} {a : Nat} (h : Chain m a c) : a = 0 ↔ c = [] := by
  cases c with
  | nil => exact ⟨fun _ => rfl, fun _ => h⟩
  | cons b bs => exact ⟨fun e => absurd e h.2.1, fun e => by cases e⟩

theorem Chain.mem {m : PlMem} {c : List Nat} {a : Nat} (h : Chain m a c) (ha : a ≠ 0) : a ∈ c := by
  cases c with
  | nil => exact absurd h ha
  | cons b bs => rw [h.1]; exact List.mem_cons_self ..

/-- number of blocks -/
theorem chain_length {m : PlMem} {c : List Nat} (hn : c.Nodup) (hf : ∀ a ∈ c, a < m.fresh) : c.length ≤ m.fresh := by
  have := nodup_subset_length c (List.range m.fresh) hn (fun a ha => List.mem_range.2 (hf a ha))
  simpa using this

theorem plClearLoop_spec : ∀ (c : List Nat) (k : Nat) (m : PlMem) (a : Nat), Chain m a c → c.Nodup → c.length ≤ k → plClearLoop k m a = some (m.del c)
  | [], k, m, a, h, _, _ => by
    unfold plClearLoop
    rw [if_pos (show a = 0 from h), CMem.del_nil]
  | b :: bs, 0, m, a, h, _, hk => by cases hk
  | b :: bs, k + 1, m, a, ⟨e, h0, nx, h1, h2⟩, hn, hk => by
    subst e
    have hb : m.blk a ≠ none := Chain.blk (c := a :: bs) ⟨rfl, h0, nx, h1, h2⟩ a (List.mem_cons_self ..)
    unfold plClearLoop
    rw [if_neg h0]
    dsimp only
    rw [h1, Option.bind_some, CMem.free_eq hb, Option.bind_some,
      plClearLoop_spec bs k (m.del [a]) nx (h2.congr fun d hd => CMem.load_congr (CMem.del_not fun hc => (List.nodup_cons.1 hn).1 (List.mem_singleton.1 hc ▸ hd))) (List.nodup_cons.1 hn).2 (by simpa using hk), CMem.del_del]
    rfl

theorem plReuseLoop_spec : ∀ (c : List Nat) (b : Nat) (k : Nat) (m : PlMem) (a : Nat), Chain m a (c ++ [b]) → (c ++ [b]).Nodup → c.length < k →
    plReuseLoop k m a = some (m.del c, b)
  | [], b, 0, m, a, h, _, hk => by cases hk
  | [], b, k + 1, m, a, h, _, _ => by
    obtain ⟨e, h0, nx, h1, h2⟩ := h
    unfold plReuseLoop
    rw [h1, Option.bind_some, if_pos (show nx = 0 from h2), CMem.del_nil, e]
  | b' :: bs, b, 0, m, a, h, _, hk => by cases hk
  | b' :: bs, b, k + 1, m, a, ⟨e, h0, nx, h1, h2⟩, hn, hk => by
    subst e
    have hb : m.blk a ≠ none := Chain.blk (c := a :: (bs ++ [b])) ⟨rfl, h0, nx, h1, h2⟩ a (List.mem_cons_self ..)
    have hx : nx ≠ 0 := fun e => by
      have := h2.nil_iff.1 e
      simp at this
    unfold plReuseLoop
    rw [h1, Option.bind_some, if_neg hx, CMem.free_eq hb, Option.bind_some,
      plReuseLoop_spec bs b k (m.del [a]) nx (h2.congr fun d hd => CMem.load_congr (CMem.del_not fun hc => (List.nodup_cons.1 hn).1 (List.mem_singleton.1 hc ▸ hd))) (List.nodup_cons.1 hn).2 (by simpa using hk), CMem.del_del]
    rfl

theorem plLast_spec : ∀ (c : List Nat) (b : Nat) (k : Nat) (m : PlMem) (a : Nat), Chain m a (c ++ [b]) → c.length < k → plLast k m a = some b
  | [], b, 0, m, a, h, hk => by cases hk
  | [], b, k + 1, m, a, h, _ => by
    obtain ⟨e, h0, nx, h1, h2⟩ := h
    unfold plLast
    rw [h1, Option.bind_some, if_pos (show nx = 0 from h2), e]
  | b' :: bs, b, 0, m, a, h, hk => by cases hk
  | b' :: bs, b, k + 1, m, a, ⟨e, h0, nx, h1, h2⟩, hk => by
    have hx : nx ≠ 0 := fun e => by
      have := h2.nil_iff.1 e
      simp at this
    unfold plLast
    rw [h1, Option.bind_some, if_neg hx, plLast_spec bs b k m nx h2 (by simpa using hk)]

/-- a change of the link of the last block appends a list -/
theorem Chain.append {m m' : PlMem} {c' : List Nat} {l : Nat} (h' : Chain m' l c') : ∀ (c : List Nat) (b a : Nat), Chain m a (c ++ [b]) →
    (∀ d ∈ c, m'.load d 0 = m.load d 0) → m'.load b 0 = some l → Chain m' a (c ++ [b] ++ c')
  | [], b, a, ⟨e, h0, nx, h1, h2⟩, _, hb => ⟨e, h0, l, by rw [e]; exact hb, h'⟩
  | d :: c, b, a, ⟨e, h0, nx, h1, h2⟩, hc, hb =>
    ⟨e, h0, nx, by rw [e, hc d (List.mem_cons_self ..), ← e]; exact h1,
      h'.append c b nx h2 (fun d hd => hc d (List.mem_cons_of_mem _ hd)) hb⟩

end TdZdd
