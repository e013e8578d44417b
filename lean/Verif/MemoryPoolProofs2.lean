import Verif.MemoryPoolProofs

/-! Proofs about `MemoryPool`: one pool. -/

namespace TdZdd

/-- pointers, sizes and values of all allocations -/
structure PlData where
  ptr : List (Nat × Nat)
  size : List Nat
  val : Nat → Nat → Option Nat

/-- the allocation `h` of `n` bytes begins at unit `o` of block `a` and holds its values -/
structure PlRgn (m : PlMem) (d : PlData) (h a o n : Nat) : Prop where
  ptr : d.ptr[h]? = some (a, o)
  size : d.size[h]? = some n
  one : 1 ≤ o
  blk : ∃ b, m.blk a = some b ∧ o + (n + 7) / 8 ≤ b.len ∧ ∀ i w, 8 * i < n → d.val h i = some w → b.cell (o + i) = some w

/-- the pool `p` with the blocks `c` stands for `P` -/
structure PoolOk (m : PlMem) (d : PlData) (p : Pool) (P : PsPool) (c : List Nat) : Prop where
  chain : Chain m p.list c
  nodup : c.Nodup
  one : 1 ≤ p.next
  room : p.next < blockUnits → ∃ b, m.blk p.list = some b ∧ blockUnits ≤ b.len
  used : P.used = !decide (p.list = 0)
  large : P.large = false → ∀ a ∈ c, ∃ b, m.blk a = some b ∧ blockUnits ≤ b.len
  reg : ∀ h ∈ P.live, ∃ a o n, PlRgn m d h a o n ∧ a ∈ c ∧ (p.next < blockUnits → a = p.list → o + (n + 7) / 8 ≤ p.next)
  sep : ∀ h ∈ P.live, ∀ h' ∈ P.live, h ≠ h' → ∀ a o n a' o' n', PlRgn m d h a o n → PlRgn m d h' a' o' n' →
    a ≠ a' ∨ o + (n + 7) / 8 ≤ o' ∨ o' + (n' + 7) / 8 ≤ o

/-- the blocks in `c` are the same except for the links -/
def SameData (m m' : PlMem) (c : List Nat) : Prop :=
  ∀ a ∈ c, ∀ b, m.blk a = some b → ∃ b', m'.blk a = some b' ∧ b'.len = b.len ∧ ∀ i, 1 ≤ i → b'.cell i = b.cell i

theorem PlRgn.mono {m m' : PlMem} {d d' : PlData} {c : List Nat} {h a o n : Nat} (r : PlRgn m d h a o n) (hm : SameData m m' c) (ha : a ∈ c)
    (hp : d'.ptr[h]? = d.ptr[h]?) (hs : d'.size[h]? = d.size[h]?) (hv : ∀ i, d'.val h i = d.val h i) : PlRgn m' d' h a o n := by
  obtain ⟨b, h1, h2, h3⟩ := r.blk
  obtain ⟨b', g1, g2, g3⟩ := hm a ha b h1
  have := r.one
  refine ⟨by rw [hp, r.ptr], by rw [hs, r.size], r.one, b', g1, by omega, fun i w hi hw => ?_⟩
  rw [hv] at hw
  rw [g3 _ (by omega)]
  exact h3 i w hi hw

theorem PlRgn.loc {m m' : PlMem} {d : PlData} {h a o n a' o' n' : Nat} (r : PlRgn m d h a o n) (r' : PlRgn m' d h a' o' n') :
    a' = a ∧ o' = o ∧ n' = n := by
  have h1 := r.ptr
  rw [r'.ptr] at h1
  have h2 := r.size
  rw [r'.size] at h2
  cases h1
  cases h2
  exact ⟨rfl, rfl, rfl⟩

theorem SameData.refl (m : PlMem) (c : List Nat) : SameData m m c := fun _ _ b h => ⟨b, h, rfl, fun _ _ => rfl⟩

theorem SameData.of_eq {m m' : PlMem} {c : List Nat} (h : ∀ a ∈ c, m'.blk a = m.blk a) : SameData m m' c :=
  fun a ha b hb => ⟨b, by rw [h a ha]; exact hb, rfl, fun _ _ => rfl⟩

theorem PoolOk.frame {m m' : PlMem} {d d' : PlData} {p : Pool} {P : PsPool} {c : List Nat} (k : PoolOk m d p P c) (h0 : m.blk 0 = none)
    (hm : ∀ a ∈ c, m'.blk a = m.blk a)
    (hd : ∀ h ∈ P.live, d'.ptr[h]? = d.ptr[h]? ∧ d'.size[h]? = d.size[h]? ∧ ∀ i, d'.val h i = d.val h i) : PoolOk m' d' p P c := by
  have back : ∀ h ∈ P.live, ∀ a o n, PlRgn m' d' h a o n → PlRgn m d h a o n := by
    intro h hh a o n r
    obtain ⟨a', o', n', r', ha', _⟩ := k.reg h hh
    have hx := hd h hh
    have r2 := r'.mono (SameData.of_eq hm) ha' hx.1 hx.2.1 hx.2.2
    obtain ⟨rfl, rfl, rfl⟩ := r2.loc r
    exact r'
  refine ⟨k.chain.congr fun b hb => CMem.load_congr (hm b hb), k.nodup, k.one, fun h => ?_, k.used, fun h a ha => ?_, fun h hh => ?_, fun h hh h' hh' hne a o n a' o' n' r r' => ?_⟩
  · obtain ⟨b, h1, h2⟩ := k.room h
    refine ⟨b, ?_, h2⟩
    rw [hm _ (k.chain.mem fun e => ?_)]
    · exact h1
    · rw [e, h0] at h1; cases h1
  · obtain ⟨b, h1, h2⟩ := k.large h a ha
    exact ⟨b, by rw [hm a ha]; exact h1, h2⟩
  · obtain ⟨a', o', n', r', ha', ht⟩ := k.reg h hh
    have hx := hd h hh
    exact ⟨a', o', n', r'.mono (SameData.of_eq hm) ha' hx.1 hx.2.1 hx.2.2, ha', ht⟩
  · exact k.sep h hh h' hh' hne a o n a' o' n' (back h hh a o n r) (back h' hh' a' o' n' r')

/-- a new pool -/
theorem poolOk_init (m : PlMem) (d : PlData) : PoolOk m d Pool.init ⟨[], false, false⟩ [] :=
  ⟨rfl, List.nodup_nil, by decide, fun h => absurd h (Nat.lt_irrefl _), rfl, fun _ _ h => (by cases h), fun _ h => (by cases h), fun _ h => (by cases h)⟩

/-- a further allocation -/
theorem PoolOk.add {m m' : PlMem} {d d' : PlData} {p p' : Pool} {P : PsPool} {c c' : List Nat} (k : PoolOk m d p P c) (lg : Bool)
    {h0 a o n : Nat} (hh : ∀ h ∈ P.live, h ≠ h0) (hm : SameData m m' c)
    (hd : ∀ h ∈ P.live, d'.ptr[h]? = d.ptr[h]? ∧ d'.size[h]? = d.size[h]? ∧ ∀ i, d'.val h i = d.val h i)
    (hc : Chain m' p'.list c') (hn : c'.Nodup) (hsub : ∀ b ∈ c, b ∈ c') (hl : p'.list ≠ 0) (hone : 1 ≤ p'.next)
    (hroom : p'.next < blockUnits → ∃ b, m'.blk p'.list = some b ∧ blockUnits ≤ b.len)
    (hlg : lg = false → P.large = false ∧ ∀ b ∈ c', b ∈ c ∨ ∃ B, m'.blk b = some B ∧ blockUnits ≤ B.len)
    (r : PlRgn m' d' h0 a o n) (ha : a ∈ c') (ht : p'.next < blockUnits → a = p'.list → o + (n + 7) / 8 ≤ p'.next)
    (htop : p'.next < blockUnits → p'.list ∉ c ∨ (p'.list = p.list ∧ p.next < blockUnits ∧ p.next ≤ p'.next))
    (hsep : a ∉ c ∨ (a = p.list ∧ p.next < blockUnits ∧ p.next ≤ o)) :
    PoolOk m' d' p' ⟨h0 :: P.live, true, lg⟩ c' := by
  have fwd : ∀ h ∈ P.live, ∃ a o n, PlRgn m d h a o n ∧ PlRgn m' d' h a o n ∧ a ∈ c ∧ (p.next < blockUnits → a = p.list → o + (n + 7) / 8 ≤ p.next) := by
    intro h hx
    obtain ⟨a', o', n', r', ha', ht⟩ := k.reg h hx
    have hy := hd h hx
    exact ⟨a', o', n', r', r'.mono hm ha' hy.1 hy.2.1 hy.2.2, ha', ht⟩
  have new : ∀ h ∈ P.live, ∀ a' o' n', PlRgn m' d' h a' o' n' → a ≠ a' ∨ o' + (n' + 7) / 8 ≤ o := by
    intro h hx a' o' n' r'
    obtain ⟨a1, o1, n1, q, q', qa, qt⟩ := fwd h hx
    obtain ⟨rfl, rfl, rfl⟩ := q'.loc r'
    rcases hsep with hs | ⟨hs, h1, h2⟩
    · exact .inl fun e => hs (e ▸ qa)
    · by_cases e : a = a'
      · have := qt h1 (by rw [← e]; exact hs)
        exact .inr (by omega)
      · exact .inl e
  refine ⟨hc, hn, hone, hroom, ?_, fun h b hb => ?_, fun h hx => ?_, fun h hx h' hx' hne a1 o1 n1 a2 o2 n2 r1 r2 => ?_⟩
  · simp [hl]
  · obtain ⟨h1, h2⟩ := hlg h
    rcases h2 b hb with h3 | h3
    · obtain ⟨B, g1, g2⟩ := k.large h1 b h3
      obtain ⟨B', g3, g4, _⟩ := hm b h3 B g1
      exact ⟨B', g3, by omega⟩
    · exact h3
  · rcases List.mem_cons.1 hx with rfl | hx
    · exact ⟨a, o, n, r, ha, ht⟩
    · obtain ⟨a', o', n', q, q', qa, qt⟩ := fwd h hx
      refine ⟨a', o', n', q', hsub _ qa, fun hb e => ?_⟩
      rcases htop hb with h1 | ⟨h1, h2, h3⟩
      · exact absurd (e ▸ qa) h1
      · have := qt h2 (by rw [e, h1])
        omega
  · rcases List.mem_cons.1 hx with rfl | hy
    · obtain ⟨rfl, rfl, rfl⟩ := r.loc r1
      rcases List.mem_cons.1 hx' with rfl | hy'
      · exact absurd rfl hne
      · rcases new h' hy' a2 o2 n2 r2 with h1 | h1
        · exact .inl h1
        · exact .inr (.inr h1)
    · rcases List.mem_cons.1 hx' with rfl | hy'
      · obtain ⟨rfl, rfl, rfl⟩ := r.loc r2
        rcases new h hy a1 o1 n1 r1 with h1 | h1
        · exact .inl fun e => h1 e.symm
        · exact .inr (.inl h1)
      · obtain ⟨b1, p1, q1, s1, s1', _⟩ := fwd h hy
        obtain ⟨b2, p2, q2, s2, s2', _⟩ := fwd h' hy'
        obtain ⟨rfl, rfl, rfl⟩ := s1'.loc r1
        obtain ⟨rfl, rfl, rfl⟩ := s2'.loc r2
        exact k.sep h hy h' hy' hne _ _ _ _ _ _ s1 s2

theorem plAlloc_spec {m : PlMem} {d : PlData} {p : Pool} {P : PsPool} {c : List Nat} (k : PoolOk m d p P c)
    (hf : 0 < m.fresh) (hb : ∀ a, m.blk a ≠ none → 0 < a ∧ a < m.fresh) (hlen : d.ptr.length = d.size.length) (hval : ∀ i, d.val d.size.length i = none)
    {n : Nat} (hn0 : 0 < n) (hn : n ≤ 2 ^ 64 - 8) :
    ∃ m' p' a o c', plAlloc m p n = some (m', p', a, o) ∧ CMem.Ext m m' c c' ∧
      PoolOk m' ⟨d.ptr ++ [(a, o)], d.size ++ [n], d.val⟩ p' ⟨d.size.length :: P.live, true, P.large || decide (40000 < n)⟩ c' := by
  have hz : m.blk 0 = none := by
    cases e : m.blk 0 with
    | none => rfl
    | some b => have := hb 0 (by rw [e]; simp); omega
  have hlt : ∀ a ∈ c, a < m.fresh := fun a ha => (hb a (k.chain.blk a ha)).2
  have hfc : m.fresh ∉ c := fun h => Nat.lt_irrefl _ (hlt _ h)
  have hlive : ∀ h ∈ P.live, h < d.size.length := by
    intro h hh
    obtain ⟨_, _, _, r, _⟩ := k.reg h hh
    exact (List.getElem?_eq_some_iff.1 r.size).1
  have hne : ∀ h ∈ P.live, h ≠ d.size.length := fun h hh => Nat.ne_of_lt (hlive h hh)
  have hdat : ∀ a o, ∀ h ∈ P.live, (PlData.mk (d.ptr ++ [(a, o)]) (d.size ++ [n]) d.val).ptr[h]? = d.ptr[h]? ∧
      (PlData.mk (d.ptr ++ [(a, o)]) (d.size ++ [n]) d.val).size[h]? = d.size[h]? ∧
      ∀ i, (PlData.mk (d.ptr ++ [(a, o)]) (d.size ++ [n]) d.val).val h i = d.val h i := by
    intro a o h hh
    have := hlive h hh
    exact ⟨List.getElem?_append_left (by omega), List.getElem?_append_left (by omega), fun _ => rfl⟩
  have hrgn : ∀ (m' : PlMem) (a o : Nat) (b : PlBlk), 1 ≤ o → m'.blk a = some b → o + (n + 7) / 8 ≤ b.len →
      PlRgn m' ⟨d.ptr ++ [(a, o)], d.size ++ [n], d.val⟩ d.size.length a o n := by
    intro m' a o b h1 h2 h3
    refine ⟨by simp [← hlen], by simp, h1, b, h2, h3, fun i w _ hw => ?_⟩
    rw [show d.val d.size.length i = none from hval i] at hw
    cases hw
  unfold plAlloc
  dsimp only
  have he : (n + (unitSize - 1)) % 2 ^ 64 / unitSize = (n + 7) / 8 := by
    rw [Nat.mod_eq_of_lt (by unfold unitSize; omega)]
    rfl
  rw [he]
  have hmax : maxElementUnits = 5000 := by decide
  have hB : blockUnits = 50000 := by decide
  by_cases h1 : maxElementUnits < (n + 7) / 8
  · rw [if_pos h1]
    have hbig : decide (40000 < n) = true := by rw [decide_eq_true_eq]; omega
    rw [hbig, Bool.or_true]
    by_cases h2 : p.list = 0
    · -- the first block
      rw [if_pos h2]
      obtain ⟨m', e1, e2, e3, e4⟩ := CMem.store_spec (m.new_blk ((n + 7) / 8 + 1)) (i := 0) (Nat.succ_pos _) 0
      rw [e1]
      have hc : c = [] := k.chain.nil_iff.1 h2
      subst hc
      have hp : ¬ p.next < blockUnits := fun h => by
        obtain ⟨b, g, _⟩ := k.room h
        rw [h2, hz] at g
        cases g
      refine ⟨m', { p with list := m.fresh }, m.fresh, 1, [m.fresh], rfl, ⟨by rw [e2]; exact Nat.le_succ _, fun b _ hl => ?_, fun _ h => (by cases h), fun b h => ?_,
        fun b h => ?_, fun b h => ?_⟩, ?_⟩
      · rw [e4 b (by omega), m.new_other _ (by omega)]
      · rw [List.mem_singleton] at h; exact .inr (by omega)
      · by_cases hx : b = m.fresh
        · exact .inl (by simp [hx])
        · rw [e4 b hx, m.new_other _ hx] at h; exact .inr h
      · rw [e2]
        show 0 < b ∧ b < m.fresh + 1
        by_cases hx : b = m.fresh
        · omega
        · rw [e4 b hx, m.new_other _ hx] at h
          have := hb b h
          omega
      · refine k.add true hne (SameData.of_eq fun _ h => (by cases h)) (hdat _ _) ⟨rfl, by show m.fresh ≠ 0; omega, 0, CMem.load_of e3 (Nat.succ_pos _) (by dsimp only; rw [upd_same]), rfl⟩
          ((by simp)) (fun _ h => (by cases h)) (by show m.fresh ≠ 0; omega) k.one (fun h => absurd h hp) (fun h => (by cases h))
          (hrgn m' _ _ _ (Nat.le_refl _) e3 ?_) (by simp) (fun h => absurd h hp) (fun h => absurd h hp) (.inl fun h => by cases h)
        show 1 + (n + 7) / 8 ≤ (n + 7) / 8 + 1
        omega
    · -- behind the first block
      rw [if_neg h2]
      obtain ⟨b0, c1, rfl⟩ : ∃ b0 c1, c = b0 :: c1 := by
        cases c with
        | nil => exact absurd k.chain h2
        | cons b0 c1 => exact ⟨_, _, rfl⟩
      obtain ⟨q1, q2, nx, q3, q4⟩ := k.chain
      subst q1
      obtain ⟨B0, q5, q6, q7⟩ := CMem.load_blk q3
      have hpf : p.list < m.fresh := hlt _ (List.mem_cons_self ..)
      obtain ⟨m1, e1, e2, e3, e4⟩ := CMem.store_spec (m.new_blk ((n + 7) / 8 + 1)) (i := 0) (Nat.succ_pos _) nx
      have g0 : m1.blk p.list = some B0 := by rw [e4 _ (by omega), m.new_other _ (by omega)]; exact q5
      obtain ⟨m2, f1, f2, f3, f4⟩ := CMem.store_spec g0 q6 m.fresh
      rw [show (m.new ((n + 7) / 8 + 1)).load p.list 0 = m.load p.list 0 from CMem.load_congr (m.new_other _ (by omega)), q3, Option.bind_some, e1, Option.bind_some, f1]
      have g1 : m2.blk m.fresh = _ := (f4 m.fresh (by omega)).trans e3
      have g2 : ∀ b, b ≠ p.list → b ≠ m.fresh → m2.blk b = m.blk b := fun b x y => by rw [f4 b x, e4 b y, m.new_other _ y]
      have hnd := List.nodup_cons.1 k.nodup
      refine ⟨m2, p, m.fresh, 1, p.list :: m.fresh :: c1, rfl, ⟨by rw [f2, e2]; exact Nat.le_succ _, fun b hbc hl => ?_, fun b h => ?_, fun b h => ?_,
        fun b h => ?_, fun b h => ?_⟩, ?_⟩
      · exact g2 b (fun h => hbc (by simp [h])) (by omega)
      · rcases List.mem_cons.1 h with rfl | h
        · exact List.mem_cons_self ..
        · exact List.mem_cons_of_mem _ (List.mem_cons_of_mem _ h)
      · rcases List.mem_cons.1 h with rfl | h
        · exact .inl (List.mem_cons_self ..)
        · rcases List.mem_cons.1 h with rfl | h
          · exact .inr (Nat.le_refl _)
          · exact .inl (List.mem_cons_of_mem _ h)
      · by_cases hx : b = m.fresh
        · exact .inl (by simp [hx])
        · by_cases hy : b = p.list
          · exact .inl (by simp [hy])
          · rw [g2 b hy hx] at h; exact .inr h
      · rw [f2, e2]
        show 0 < b ∧ b < m.fresh + 1
        by_cases hx : b = m.fresh
        · omega
        · by_cases hy : b = p.list
          · have := hb p.list (by rw [q5]; simp)
            omega
          · rw [g2 b hy hx] at h
            have := hb b h
            omega
      · have hsd : SameData m m2 (p.list :: c1) := by
          intro a ha b hab
          by_cases hy : a = p.list
          · subst hy
            rw [q5] at hab
            cases hab
            exact ⟨_, f3, rfl, fun i hi => upd_ne _ _ (by omega)⟩
          · exact ⟨b, by rw [g2 a hy (fun e => hfc (e ▸ ha))]; exact hab, rfl, fun _ _ => rfl⟩
        refine k.add true hne hsd (hdat _ _) ⟨rfl, q2, m.fresh, CMem.load_of f3 q6 (by dsimp only; rw [upd_same]), rfl, by omega, nx, CMem.load_of g1 (Nat.succ_pos _) (by dsimp only; rw [upd_same]), q4.congr fun b hbc => ?_⟩
          ?_ (fun b h => ?_) h2 k.one (fun h => ?_) (fun h => (by cases h)) (hrgn m2 _ _ _ (Nat.le_refl _) g1 ?_) (by simp) (fun _ e => ?_)
          (fun h => .inr ⟨rfl, h, Nat.le_refl _⟩) (.inl hfc)
        · refine CMem.load_congr (g2 b (fun e => hnd.1 (e ▸ hbc)) fun e => hfc (e ▸ List.mem_cons_of_mem _ hbc))
        · refine List.nodup_cons.2 ⟨fun h => ?_, List.nodup_cons.2 ⟨fun h => hfc (List.mem_cons_of_mem _ h), hnd.2⟩⟩
          rcases List.mem_cons.1 h with h | h
          · omega
          · exact hnd.1 h
        · rcases List.mem_cons.1 h with rfl | h
          · exact List.mem_cons_self ..
          · exact List.mem_cons_of_mem _ (List.mem_cons_of_mem _ h)
        · obtain ⟨b, x1, x2⟩ := k.room h
          rw [q5] at x1
          cases x1
          exact ⟨_, f3, x2⟩
        · show 1 + (n + 7) / 8 ≤ (n + 7) / 8 + 1
          omega
        · omega
  · rw [if_neg h1]
    have hsmall : decide (40000 < n) = false := by rw [decide_eq_false_iff_not]; omega
    rw [hsmall, Bool.or_false]
    by_cases h2 : blockUnits < p.next + (n + 7) / 8
    · -- a new block
      rw [if_pos h2]
      obtain ⟨m', e1, e2, e3, e4⟩ := CMem.store_spec (m.new_blk blockUnits) (i := 0) (by decide) p.list
      rw [e1]
      refine ⟨m', ⟨m.fresh, 1 + (n + 7) / 8⟩, m.fresh, 1, m.fresh :: c, rfl, ⟨by rw [e2]; exact Nat.le_succ _, fun b _ hl => ?_, fun _ h => List.mem_cons_of_mem _ h,
        fun b h => ?_, fun b h => ?_, fun b h => ?_⟩, ?_⟩
      · rw [e4 b (by omega), m.new_other _ (by omega)]
      · rcases List.mem_cons.1 h with rfl | h
        · exact .inr (Nat.le_refl _)
        · exact .inl h
      · by_cases hx : b = m.fresh
        · exact .inl (by simp [hx])
        · rw [e4 b hx, m.new_other _ hx] at h; exact .inr h
      · rw [e2]
        show 0 < b ∧ b < m.fresh + 1
        by_cases hx : b = m.fresh
        · omega
        · rw [e4 b hx, m.new_other _ hx] at h
          have := hb b h
          omega
      · have hsm : ∀ a ∈ c, m'.blk a = m.blk a := fun a ha => by
          have : a ≠ m.fresh := fun e => hfc (e ▸ ha)
          rw [e4 a this, m.new_other _ this]
        refine k.add P.large hne (SameData.of_eq hsm) (hdat _ _)
          ⟨rfl, by show m.fresh ≠ 0; omega, p.list, CMem.load_of e3 (show 0 < blockUnits by decide) (by dsimp only; rw [upd_same]), k.chain.congr fun b hbc => CMem.load_congr (hsm b hbc)⟩
          (List.nodup_cons.2 ⟨hfc, k.nodup⟩) (fun _ h => List.mem_cons_of_mem _ h) (by show m.fresh ≠ 0; omega) (Nat.le_add_right ..)
          (fun _ => ⟨_, e3, Nat.le_refl _⟩) (fun h => ⟨h, fun b hbc => ?_⟩)
          (hrgn m' _ _ _ (Nat.le_refl _) e3 ?_) (List.mem_cons_self ..) (fun _ _ => Nat.le_refl _) (fun _ => .inl hfc) (.inl hfc)
        · rcases List.mem_cons.1 hbc with rfl | hbc
          · exact .inr ⟨_, e3, Nat.le_refl _⟩
          · exact .inl hbc
        · show 1 + (n + 7) / 8 ≤ blockUnits
          omega
    · -- in the first block
      rw [if_neg h2]
      have hp : p.next < blockUnits := by omega
      obtain ⟨b, x1, x2⟩ := k.room hp
      rw [x1, Option.bind_some, if_pos (by omega)]
      have hl0 : p.list ≠ 0 := fun e => by rw [e, hz] at x1; cases x1
      refine ⟨m, { p with next := p.next + (n + 7) / 8 }, p.list, p.next, c, rfl, ⟨Nat.le_refl _, fun _ _ _ => rfl, fun _ h => h, fun _ h => .inl h, fun _ h => .inr h, hb⟩, ?_⟩
      refine k.add P.large hne (SameData.refl _ _) (hdat _ _) k.chain k.nodup (fun _ h => h) hl0 (by show 1 ≤ p.next + _; have := k.one; omega)
        (fun _ => ⟨b, x1, x2⟩) (fun h => ⟨h, fun _ h => .inl h⟩) (hrgn m _ _ _ k.one x1 (by omega)) (k.chain.mem hl0) (fun _ _ => Nat.le_refl _)
        (fun _ => .inr ⟨rfl, hp, Nat.le_add_right ..⟩) (.inr ⟨rfl, hp, Nat.le_refl _⟩)

/-- a write to an allocation -/
theorem PoolOk.store {m : PlMem} {d : PlData} {p : Pool} {P : PsPool} {c : List Nat} (k : PoolOk m d p P c)
    {h a o n i : Nat} (hh : h ∈ P.live) (r : PlRgn m d h a o n) (hi : 8 * i < n) (w : Nat) :
    ∃ m', m.store a (o + i) w = some m' ∧ m'.fresh = m.fresh ∧ a ∈ c ∧ (∀ a', a' ≠ a → m'.blk a' = m.blk a') ∧ m'.blk a ≠ none ∧
      PoolOk m' { d with val := upd d.val h (upd (d.val h) i (some w)) } p P c := by
  obtain ⟨a1, o1, n1, r1, ha, _⟩ := k.reg h hh
  obtain ⟨rfl, rfl, rfl⟩ := r.loc r1
  obtain ⟨b, hb, hlen, hv⟩ := r.blk
  have ho := r.one
  obtain ⟨m', e1, e2, e3, e4⟩ := CMem.store_spec hb (i := o1 + i) (by omega) w
  have hlink : ∀ a', m'.load a' 0 = m.load a' 0 := by
    intro a'
    by_cases e : a' = a1
    · subst e
      unfold CMem.load
      rw [e3, hb]
      dsimp only [Option.bind_some]
      rw [upd_ne _ _ (by omega)]
    · exact CMem.load_congr (e4 a' e)
  have hl : ∀ a' b', m.blk a' = some b' → ∃ b'', m'.blk a' = some b'' ∧ b''.len = b'.len := by
    intro a' b' hb'
    by_cases e : a' = a1
    · subst e
      rw [hb] at hb'
      cases hb'
      exact ⟨_, e3, rfl⟩
    · exact ⟨b', by rw [e4 a' e]; exact hb', rfl⟩
  have fwd : ∀ h' ∈ P.live, ∀ a' o' n', PlRgn m d h' a' o' n' → PlRgn m' { d with val := upd d.val h (upd (d.val h) i (some w)) } h' a' o' n' := by
    intro h' hh' a' o' n' r'
    obtain ⟨b', x1, x2, x3⟩ := r'.blk
    by_cases e : h' = h
    · subst e
      obtain ⟨rfl, rfl, rfl⟩ := r.loc r'
      rw [hb] at x1
      cases x1
      refine ⟨r'.ptr, r'.size, r'.one, _, e3, hlen, fun j w' hj hw => ?_⟩
      dsimp only at hw ⊢
      rw [upd_same] at hw
      by_cases hij : j = i
      · subst hij
        rw [upd_same] at hw ⊢
        exact hw
      · rw [upd_ne _ _ hij] at hw
        rw [upd_ne _ _ (by omega)]
        exact hv j w' hj hw
    · by_cases ea : a' = a1
      · subst ea
        rw [hb] at x1
        cases x1
        refine ⟨r'.ptr, r'.size, r'.one, _, e3, x2, fun j w' hj hw => ?_⟩
        dsimp only at hw ⊢
        rw [upd_ne _ _ e] at hw
        rw [upd_ne _ _]
        · exact x3 j w' hj hw
        · rcases k.sep h' hh' h hh e _ _ _ _ _ _ r' r with hx | hx | hx
          · exact absurd rfl hx
          · omega
          · omega
      · refine ⟨r'.ptr, r'.size, r'.one, b', by rw [e4 a' ea]; exact x1, x2, fun j w' hj hw => ?_⟩
        dsimp only at hw
        rw [upd_ne _ _ e] at hw
        exact x3 j w' hj hw
  have back : ∀ h' ∈ P.live, ∀ a' o' n', PlRgn m' { d with val := upd d.val h (upd (d.val h) i (some w)) } h' a' o' n' → PlRgn m d h' a' o' n' := by
    intro h' hh' a' o' n' r'
    obtain ⟨a2, o2, n2, r2, _⟩ := k.reg h' hh'
    obtain ⟨rfl, rfl, rfl⟩ := (fwd h' hh' _ _ _ r2).loc r'
    exact r2
  refine ⟨m', e1, e2, ha, e4, by rw [e3]; simp, k.chain.congr fun b _ => hlink b, k.nodup, k.one, fun hx => ?_, k.used, fun hx a' ha' => ?_, fun h' hh' => ?_,
    fun h1 hh1 h2 hh2 hne a o n a' o' n' q q' => k.sep h1 hh1 h2 hh2 hne _ _ _ _ _ _ (back h1 hh1 _ _ _ q) (back h2 hh2 _ _ _ q')⟩
  · obtain ⟨b1, g1, g2⟩ := k.room hx
    obtain ⟨b2, g3, g4⟩ := hl _ _ g1
    exact ⟨b2, g3, by omega⟩
  · obtain ⟨b1, g1, g2⟩ := k.large hx a' ha'
    obtain ⟨b2, g3, g4⟩ := hl _ _ g1
    exact ⟨b2, g3, by omega⟩
  · obtain ⟨a', o', n', r', ha', ht⟩ := k.reg h' hh'
    exact ⟨a', o', n', fwd h' hh' _ _ _ r', ha', ht⟩

/-- `reuse` -/
theorem plReuse_spec {m : PlMem} {d : PlData} {p : Pool} {P : PsPool} {c : List Nat} (k : PoolOk m d p P c) (hlen : c.length ≤ m.fresh) (hl : P.large = false) :
    ∃ p' c1 c', plReuse m p = some (m.del c1, p') ∧ c = c1 ++ c' ∧ PoolOk (m.del c1) d p' { P with live := [] } c' := by
  unfold plReuse
  by_cases h0 : p.list = 0
  · rw [if_pos h0]
    refine ⟨p, [], c, by rw [CMem.del_nil], rfl, ?_⟩
    rw [CMem.del_nil]
    exact ⟨k.chain, k.nodup, k.one, k.room, k.used, k.large, fun _ h => (by cases h), fun _ h => (by cases h)⟩
  · rw [if_neg h0]
    have hc : c ≠ [] := fun e => h0 (k.chain.nil_iff.2 e)
    have ec := List.dropLast_concat_getLast hc
    have hch := k.chain
    have hnd := k.nodup
    rw [← ec] at hch hnd
    have hcl : 0 < c.length := List.length_pos_iff.2 hc
    rw [plReuseLoop_spec c.dropLast (c.getLast hc) m.fresh m p.list hch hnd (by rw [List.length_dropLast]; omega)]
    have hmem := List.getLast_mem hc
    have hb := k.chain.blk _ hmem
    have hx : c.getLast hc ∉ c.dropLast := fun h => (List.nodup_append.1 hnd).2.2 _ h _ (List.mem_singleton.2 rfl) rfl
    obtain ⟨b, g1, g2⟩ := k.large hl _ hmem
    have hlast : Chain m (c.getLast hc) [c.getLast hc] := by
      have : ∀ (c1 : List Nat) (b a : Nat), Chain m a (c1 ++ [b]) → Chain m b [b] := by
        intro c1
        induction c1 with
        | nil => intro b a h; rw [← h.1]; exact ⟨rfl, h.2⟩
        | cons x c1 ih => intro b a h; obtain ⟨_, _, nx, _, h⟩ := h; exact ih b nx h
      exact this _ _ _ hch
    refine ⟨⟨c.getLast hc, 1⟩, c.dropLast, [c.getLast hc], rfl, ec.symm,
      hlast.congr fun b hb => CMem.load_congr (CMem.del_not (by rw [List.mem_singleton.1 hb]; exact hx)), (by simp), Nat.le_refl _,
      fun _ => ⟨b, by rw [CMem.del_not hx]; exact g1, g2⟩, ?_, fun _ a ha => ?_, fun _ h => (by cases h), fun _ h => (by cases h)⟩
    · show P.used = !decide (c.getLast hc = 0)
      rw [k.used]
      have : c.getLast hc ≠ 0 := hlast.2.1
      simp [h0, this]
    · rw [List.mem_singleton.1 ha]
      exact ⟨b, by rw [CMem.del_not hx]; exact g1, g2⟩

end TdZdd
