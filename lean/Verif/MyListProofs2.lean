import Verif.MyListProofs

/-! Proofs about `MyList`: the member functions. -/

namespace TdZdd

theorem ElRep.ne {m : LMem} {d : LData} {a i : Nat} {hs : List Nat} {q : Nat × Nat} (h : ElRep m d a i hs q) : hs ≠ [] := by
  rintro rfl
  exact h

theorem bk_null {m : LMem} {d : LData} {p : Nat × Nat} {bs : List LBk} (h : BkRep m d p bs) : p = (0, 0) ↔ bs = [] := by
  cases bs with
  | nil => exact ⟨fun _ => rfl, fun _ => h⟩
  | cons b bs =>
    refine ⟨fun e => ?_, fun e => by cases e⟩
    rw [h.1] at e
    exact absurd (congrArg Prod.fst e) h.2.1

theorem lGetStart_spec {m : LMem} {d : LData} {p : Nat × Nat} {b : LBk} {bs : List LBk} (h : BkRep m d p (b :: bs)) : lGetStart m p = some (false, b.a, 0) := by
  obtain ⟨h1, h2, h3, h4, _⟩ := h
  unfold lGetStart
  rw [h1]
  dsimp only
  rw [if_neg (by omega), h4]

theorem bk_es_nil {m : LMem} {d : LData} {l : MyL} {es : List Nat} {bs : List LBk} (k : LOk m d l es bs) : es = [] ↔ bs = [] := by
  constructor
  · intro e
    cases bs with
    | nil => rfl
    | cons b bs =>
      obtain ⟨_, _, _, _, q, h5, _⟩ := k.rep
      have := k.els
      rw [e, List.flatMap_cons] at this
      exact absurd (List.append_eq_nil_iff.1 this.symm).1 h5.ne
  · rintro rfl
    exact k.els

theorem lAlloc_spec {B : Nat} (hB : 0 < B) {m : LMem} {d : LData} {l : MyL} {es : List Nat} {bs : List LBk} (k : LOk m d l es bs) (hf : 0 < m.fresh)
    (hb : ∀ a, m.blk a ≠ none → 0 < a ∧ a < m.fresh) (hlen : d.ptr.length = d.size.length) (hval : ∀ i, d.val d.size.length i = none) (n : Nat) :
    ∃ m' a i bs', lAlloc B m l n = some (m', ⟨(a, i), l.size + 1⟩) ∧ CMem.Ext m m' (bs.map LBk.a) (bs'.map LBk.a) ∧
      LOk m' ⟨d.ptr ++ [(a, i + 1)], d.size ++ [n], d.val⟩ ⟨(a, i), l.size + 1⟩ (d.size.length :: es) bs' := by
  have hlt : ∀ a ∈ bs.map LBk.a, a < m.fresh := fun a ha => (hb a (k.rep.blk a ha)).2
  have hfc : m.fresh ∉ bs.map LBk.a := fun h => Nat.lt_irrefl _ (hlt _ h)
  have hdat : ∀ a o, d.Same ⟨d.ptr ++ [(a, o)], d.size ++ [n], d.val⟩ es := by
    intro a o h hh
    rw [k.els] at hh
    obtain ⟨b, _, _, o', s, e, _⟩ := k.rep.pos h hh
    have h1 := (List.getElem?_eq_some_iff.1 e.size).1
    have h2 := (List.getElem?_eq_some_iff.1 e.ptr).1
    exact ⟨List.getElem?_append_left h2, List.getElem?_append_left h1, fun _ => rfl⟩
  have hel : ∀ (m' : LMem) (a i : Nat) (b : CBlk LWord), m'.blk a = some b → i + (numCells n + 1) ≤ b.len →
      LEl m' ⟨d.ptr ++ [(a, i + 1)], d.size ++ [n], d.val⟩ a i d.size.length n := by
    intro m' a i b h1 h2
    refine ⟨by simp [← hlen], by simp, fun j w _ hw => ?_, b, h1, h2⟩
    rw [show d.val d.size.length j = none from hval j] at hw
    cases hw
  have hnew : ∃ m' a i bs', ((lSetStart (m.new (1 + (numCells n + 1) * B)) (m.fresh, 1 + (numCells n + 1) * B - (numCells n + 1)) (.ptr false m.fresh 0)).bind fun m1 =>
      (m1.store m.fresh (1 + (numCells n + 1) * B - (numCells n + 1)) (.ptr true l.front.1 l.front.2)).map fun m2 =>
        (m2, (⟨(m.fresh, 1 + (numCells n + 1) * B - (numCells n + 1)), l.size + 1⟩ : MyL))) = some (m', ⟨(a, i), l.size + 1⟩) ∧
      CMem.Ext m m' (bs.map LBk.a) (bs'.map LBk.a) ∧
      LOk m' ⟨d.ptr ++ [(a, i + 1)], d.size ++ [n], d.val⟩ ⟨(a, i), l.size + 1⟩ (d.size.length :: es) bs' := by
    have hmul : numCells n + 1 ≤ (numCells n + 1) * B := Nat.le_mul_of_pos_right _ hB
    generalize hK : 1 + (numCells n + 1) * B = K
    generalize hi : K - (numCells n + 1) = i
    have hi1 : 1 ≤ i := by omega
    have hiK : i + (numCells n + 1) = K := by omega
    obtain ⟨m1, e1, e2, e3, e4⟩ := CMem.store_spec (m.new_blk K) (i := i - 1) (by show i - 1 < K; omega) (LWord.ptr false m.fresh 0)
    obtain ⟨m2, f1, f2, f3, f4⟩ := CMem.store_spec e3 (i := i) (by show i < K; omega) (LWord.ptr true l.front.1 l.front.2)
    unfold lSetStart
    dsimp only
    rw [if_neg (by omega), e1, Option.bind_some, f1]
    have g : ∀ b, b ≠ m.fresh → m2.blk b = m.blk b := fun b x => by rw [f4 b x, e4 b x, m.new_other _ x]
    refine ⟨m2, m.fresh, i, ⟨m.fresh, i, [d.size.length]⟩ :: bs, rfl, ⟨by rw [f2, e2]; exact Nat.le_succ _, fun b _ h => g b (by omega), fun b h => List.mem_cons_of_mem _ h,
      fun b h => ?_, fun b h => ?_, fun b h => ?_⟩, ⟨rfl, by show m.fresh ≠ 0; omega, hi1, ?_, l.front, ⟨n, hel m2 _ _ _ f3 (by show i + _ ≤ K; omega), ?_⟩, ?_⟩, ?_, ?_, ?_⟩
    · rcases List.mem_cons.1 h with rfl | h
      · exact .inr (Nat.le_refl _)
      · exact .inl h
    · by_cases e : b = m.fresh
      · exact .inl (by rw [e]; exact List.mem_cons_self ..)
      · rw [g b e] at h; exact .inr h
    · rw [f2, e2]
      show 0 < b ∧ b < m.fresh + 1
      by_cases e : b = m.fresh
      · omega
      · rw [g b e] at h
        have := hb b h
        omega
    · refine loadPtr_of (q := (m.fresh, 0)) (CMem.load_of f3 (show i - 1 < K by omega) ?_)
      dsimp only
      rw [upd_ne _ _ (by omega), upd_same]
    · refine loadPtr_of (CMem.load_of f3 (show i < K by omega) ?_)
      dsimp only
      rw [upd_same]
    · exact k.rep.congr (fun b hbs => g _ fun e => hfc (e ▸ List.mem_map.2 ⟨b, hbs, rfl⟩)) (k.els ▸ hdat _ _)
    · exact List.nodup_cons.2 ⟨hfc, k.nodup⟩
    · rw [List.flatMap_cons, ← k.els]; rfl
    · show l.size + 1 = es.length + 1
      rw [k.size]
  unfold lAlloc
  dsimp only
  by_cases h0 : l.front = (0, 0)
  · rw [if_pos h0]
    exact hnew
  · rw [if_neg h0]
    cases bs with
    | nil => exact absurd k.rep h0
    | cons b bs =>
      rw [lGetStart_spec k.rep, Option.bind_some]
      obtain ⟨h1, h2, h3, h4, q, h5, h6⟩ := k.rep
      have hfa : l.front.1 = b.a := by rw [h1]
      have hfi : l.front.2 = b.i := by rw [h1]
      rw [if_pos ⟨rfl, hfa.symm⟩]
      by_cases hr : l.front.2 < 0 + 1 + (numCells n + 1)
      · rw [if_pos hr]
        exact hnew
      · rw [if_neg hr]
        dsimp only
        rw [hfa, hfi]
        generalize hi : b.i - (numCells n + 1) = i
        have hi1 : 1 ≤ i := by omega
        have hib : i + (numCells n + 1) = b.i := by omega
        obtain ⟨bb, hbb, hbi⟩ : ∃ bb, m.blk b.a = some bb ∧ b.i < bb.len := by
          cases hhs : b.hs with
          | nil => exact absurd hhs h5.ne
          | cons x xs =>
            obtain ⟨o, s, e, ho⟩ := h5.pos x (by rw [hhs]; exact List.mem_cons_self ..)
            obtain ⟨bb, g1, g2⟩ := e.room
            exact ⟨bb, g1, by omega⟩
        obtain ⟨m1, e1, e2, e3, e4⟩ := CMem.store_spec hbb (i := i - 1) (by omega) (LWord.ptr false b.a 0)
        obtain ⟨m2, f1, f2, f3, f4⟩ := CMem.store_spec e3 (i := i) (by show i < bb.len; omega) (LWord.ptr false b.a b.i)
        unfold lSetStart
        dsimp only
        rw [if_neg (by omega), e1, Option.bind_some, f1]
        have g : ∀ c, c ≠ b.a → m2.blk c = m.blk c := fun c x => by rw [f4 c x, e4 c x]
        have hnd := List.nodup_cons.1 k.nodup
        have hhi : ∀ j, b.i ≤ j → m2.load b.a j = m.load b.a j := by
          intro j hj
          unfold CMem.load
          rw [f3, hbb]
          dsimp only [Option.bind_some]
          rw [upd_ne _ _ (by omega), upd_ne _ _ (by omega)]
        have hbk : ∀ c, m2.blk c ≠ none → m.blk c ≠ none := fun c h => by
          by_cases e : c = b.a
          · rw [e, hbb]; simp
          · rw [g c e] at h; exact h
        have hse := hdat b.a (i + 1)
        rw [k.els, List.flatMap_cons] at hse
        have htail : ElRep m2 ⟨d.ptr ++ [(b.a, i + 1)], d.size ++ [n], d.val⟩ b.a b.i b.hs q :=
          h5.congr hhi (fun b' hb' => ⟨_, f3, by rw [hbb] at hb'; cases hb'; rfl⟩) fun x hx => hse x (List.mem_append_left _ hx)
        have hlink : LMem.loadPtr m2 b.a i = some (false, b.a, b.i) := by
          refine loadPtr_of (q := (b.a, b.i)) (CMem.load_of f3 (show i < bb.len by omega) ?_)
          dsimp only
          rw [upd_same]
        have hme := hel m2 b.a i _ f3 (show i + (numCells n + 1) ≤ bb.len by omega)
        refine ⟨m2, b.a, i, ⟨b.a, i, d.size.length :: b.hs⟩ :: bs, rfl, ⟨by rw [f2, e2]; exact Nat.le_refl _, fun c h _ => g c fun e => h (by simp [e]), fun c h => h,
          fun c h => .inl h, fun c h => .inr (hbk c h), fun c h => by rw [f2, e2]; exact hb c (hbk c h)⟩, ⟨rfl, h2, hi1, ?_, q, ?_, ?_⟩, k.nodup, ?_, ?_⟩
        · refine loadPtr_of (q := (b.a, 0)) (CMem.load_of f3 (show i - 1 < bb.len by omega) ?_)
          dsimp only
          rw [upd_ne _ _ (by omega), upd_same]
        · show ElRep m2 _ b.a i (d.size.length :: b.hs) q
          generalize b.hs = hs at htail
          cases hs with
          | nil => exact absurd rfl htail.ne
          | cons x xs =>
            exact ⟨n, hme, by rw [hib]; exact hlink, by rw [hib]; exact htail⟩
        · exact h6.congr (fun c hc => g _ fun e => hnd.1 (e ▸ List.mem_map.2 ⟨c, hc, rfl⟩)) fun x hx => hse x (List.mem_append_right _ hx)
        · rw [k.els]; rfl
        · show l.size + 1 = es.length + 1
          rw [k.size]

theorem lDelete_spec {m : LMem} {a : Nat} (h : m.blk a ≠ none) : lDelete m (false, a, 0) = some (m.del [a]) := by
  unfold lDelete
  rw [if_pos ⟨rfl, rfl⟩, CMem.free_eq h]

theorem lPop_spec {m : LMem} {d : LData} {l : MyL} {e : Nat} {es : List Nat} {bs : List LBk} (k : LOk m d l (e :: es) bs) :
    ∃ m' l' bs', lPop m l = some (m', l') ∧ m'.fresh = m.fresh ∧ (∀ a, a ∉ bs.map LBk.a → m'.blk a = m.blk a) ∧ (∀ a ∈ bs'.map LBk.a, a ∈ bs.map LBk.a) ∧
      (∀ a, m'.blk a ≠ none → m.blk a ≠ none ∧ (a ∈ bs.map LBk.a → a ∈ bs'.map LBk.a)) ∧ LOk m' d l' es bs' := by
  cases bs with
  | nil => have := k.els; cases this
  | cons b bs =>
    have hst := lGetStart_spec k.rep
    obtain ⟨h1, h2, h3, h4, q, h5, h6⟩ := k.rep
    have hfa : l.front.1 = b.a := by rw [h1]
    have hfi : l.front.2 = b.i := by rw [h1]
    have hnd := List.nodup_cons.1 k.nodup
    have hels := k.els
    have hsz := k.size
    rw [List.flatMap_cons] at hels
    unfold lPop
    rw [hfa, hfi, hst]
    obtain ⟨a, i, hs⟩ := b
    dsimp only at h1 h2 h3 h4 h5 hels hfa hfi hst ⊢
    cases hs with
    | nil => exact absurd rfl h5.ne
    | cons h hs =>
      rw [List.cons_append] at hels
      injection hels with he1 he2
      subst he1
      cases hs with
      | nil =>
        obtain ⟨s, e1, l1⟩ := h5
        have hblk : m.blk a ≠ none := by
          obtain ⟨_, g, _⟩ := loadPtr_blk l1
          rw [g]; simp
        rw [l1]
        dsimp only [Option.bind_some]
        rw [if_pos rfl, lDelete_spec hblk]
        refine ⟨_, _, bs, rfl, rfl, fun c hc => CMem.del_not fun hx => hc (by rw [List.mem_singleton.1 hx]; exact List.mem_cons_self ..), fun c hc => List.mem_cons_of_mem _ hc,
          fun c hc => ?_, h6.congr (fun c hc => CMem.del_not fun hx => hnd.1 ?_) (.refl _ _), hnd.2, he2, ?_⟩
        · obtain ⟨g1, g2⟩ := CMem.del_some hc
          refine ⟨g2, fun hx => ?_⟩
          rcases List.mem_cons.1 hx with rfl | hx
          · exact absurd (List.mem_singleton.2 rfl) g1
          · exact hx
        · rw [← List.mem_singleton.1 hx]
          exact List.mem_map.2 ⟨c, hc, rfl⟩
        · show l.size - 1 = _
          rw [hsz]; rfl
      | cons h' hs =>
        obtain ⟨s, e1, l1, r1⟩ := h5
        obtain ⟨bb, hbb, hlen⟩ := e1.room
        rw [l1]
        dsimp only [Option.bind_some]
        rw [if_neg (by simp)]
        obtain ⟨m1, f1, f2, f3, f4⟩ := CMem.store_spec hbb (i := i + (numCells s + 1) - 1) (by omega) (LWord.ptr false a 0)
        unfold lSetStart
        dsimp only
        rw [if_neg (by omega), f1]
        refine ⟨_, _, ⟨a, i + (numCells s + 1), h' :: hs⟩ :: bs, rfl, f2, fun c hc => f4 c fun e => hc (by simp [e]), fun c hc => hc, fun c hc => ⟨?_, fun hx => hx⟩,
          ⟨rfl, h2, by show 1 ≤ i + _; omega, ?_, q, ?_, ?_⟩, k.nodup, ?_, ?_⟩
        · by_cases e : c = a
          · rw [e, hbb]; simp
          · rw [f4 c e] at hc; exact hc
        · refine loadPtr_of (q := (a, 0)) (CMem.load_of f3 (show i + (numCells s + 1) - 1 < bb.len by omega) ?_)
          dsimp only
          rw [upd_same]
        · refine r1.congr (fun j hj => ?_) (fun b' hb' => ⟨_, f3, by rw [hbb] at hb'; cases hb'; rfl⟩) (.refl _ _)
          unfold CMem.load
          rw [f3, hbb]
          dsimp only [Option.bind_some]
          rw [upd_ne _ _ (by omega)]
        · exact h6.congr (fun c hc => f4 _ fun e => hnd.1 (e ▸ List.mem_map.2 ⟨c, hc, rfl⟩)) (.refl _ _)
        · rw [he2]; rfl
        · show l.size - 1 = _
          rw [hsz]; rfl

theorem lSkip_spec {m : LMem} {d : LData} {a : Nat} {q : Nat × Nat} : ∀ {hs : List Nat} {i k : Nat}, ElRep m d a i hs q → hs.length ≤ k → lSkip k m (a, i) = some q
  | [], _, _, h, _ => h.elim
  | [h], i, 0, _, hk => by cases hk
  | [h], i, k + 1, ⟨s, _, l⟩, _ => by
    unfold lSkip
    dsimp only
    rw [l]
    rfl
  | h :: h' :: hs, i, 0, _, hk => by cases hk
  | h :: h' :: hs, i, k + 1, ⟨s, _, l, r⟩, hk => by
    unfold lSkip
    dsimp only
    rw [l, Option.bind_some, if_neg (by simp)]
    exact lSkip_spec r (by simpa using hk)

theorem lClearLoop_spec : ∀ (bs : List LBk) {k : Nat} {m : LMem} {d : LData} {p : Nat × Nat}, BkRep m d p bs → (bs.map LBk.a).Nodup → (bs.flatMap LBk.hs).length ≤ k →
    lClearLoop k m p = some (m.del (bs.map LBk.a))
  | [], k, m, d, p, h, _, _ => by
    unfold lClearLoop
    rw [if_pos (show p = (0, 0) from h), List.map_nil, CMem.del_nil]
  | b :: bs, k, m, d, p, h, hn, hk => by
    have hst := lGetStart_spec h
    have hp : p ≠ (0, 0) := fun e => by
      have := (bk_null h).1 e
      cases this
    obtain ⟨h1, h2, h3, h4, q, h5, h6⟩ := h
    have hnd := List.nodup_cons.1 hn
    rw [List.flatMap_cons, List.length_append] at hk
    have hhs : 0 < b.hs.length := List.length_pos_iff.2 h5.ne
    obtain ⟨k, rfl⟩ : ∃ k', k = k' + 1 := ⟨k - 1, by omega⟩
    have hblk : m.blk b.a ≠ none := by
      obtain ⟨_, g, _⟩ := loadPtr_blk h4
      rw [g]; simp
    unfold lClearLoop
    rw [if_neg hp]
    dsimp only
    rw [hst, h1, lSkip_spec h5 (by omega), Option.bind_some, Option.bind_some, lDelete_spec hblk, Option.bind_some,
      lClearLoop_spec bs (h6.congr (fun c hc => CMem.del_not fun hx => hnd.1 ?_) (.refl _ _)) hnd.2 (by omega), CMem.del_del]
    · rfl
    · rw [← List.mem_singleton.1 hx]
      exact List.mem_map.2 ⟨c, hc, rfl⟩

theorem lClear_spec {m : LMem} {d : LData} {l : MyL} {es : List Nat} {bs : List LBk} (k : LOk m d l es bs) :
    lClear m l = some (m.del (bs.map LBk.a), MyL.init) := by
  unfold lClear
  rw [lClearLoop_spec bs k.rep k.nodup (by rw [← k.els, k.size]; exact Nat.le_refl _)]
  rfl

/-- iteration inside of a block and behind it -/
theorem lIter_block {m : LMem} {d : LData} {a : Nat} {q : Nat × Nat} {r : List (Nat × Nat)} (ha : a ≠ 0) : ∀ {hs : List Nat} {i k : Nat}, ElRep m d a i hs q →
    lIter k m q = some r → lIter (k + hs.length) m (a, i) = some (hs.map (fun h => d.ptr.getD h (0, 0)) ++ r)
  | [], _, _, h, _ => h.elim
  | [h], i, k, ⟨s, e, l⟩, hr => by
    show lIter (k + 1) m (a, i) = _
    unfold lIter
    rw [if_neg fun x => ha (congrArg Prod.fst x)]
    dsimp only
    rw [l, Option.bind_some]
    dsimp only
    rw [hr]
    simp [e.ptr]
  | h :: h' :: hs, i, k, ⟨s, e, l, r1⟩, hr => by
    have ih := lIter_block ha r1 hr
    rw [show k + (h :: h' :: hs).length = k + (h' :: hs).length + 1 by simp; omega]
    unfold lIter
    rw [if_neg fun x => ha (congrArg Prod.fst x)]
    dsimp only
    rw [l, Option.bind_some]
    dsimp only
    rw [ih]
    simp [e.ptr]

theorem lIter_spec {m : LMem} {d : LData} : ∀ {bs : List LBk} {p : Nat × Nat}, BkRep m d p bs →
    lIter (bs.flatMap LBk.hs).length m p = some ((bs.flatMap LBk.hs).map fun h => d.ptr.getD h (0, 0))
  | [], p, h => by
    unfold lIter
    rw [if_pos (show p = (0, 0) from h)]
    rfl
  | b :: bs, p, ⟨h1, h2, h3, h4, q, h5, h6⟩ => by
    have := lIter_block h2 h5 (lIter_spec h6)
    rw [h1, List.flatMap_cons, List.length_append, List.map_append, Nat.add_comm]
    exact this

end TdZdd
