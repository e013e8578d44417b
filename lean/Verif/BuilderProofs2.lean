import Verif.BuilderProofs1

/-! Builder proof, part 2: the first loop of `construct`. -/

namespace TdZdd

variable {N : Nat} {S : Type} {sp : DdSpec N S} {top : Nat}

/-- The processed specification nodes and the states of the new nodes, from column `j` on. -/
inductive DoneRel (sp : DdSpec N S) (i : Nat) : Nat → List (S × NodeId) → List S → Prop
  | nil (j : Nat) : DoneRel sp i j [] []
  | skip {j : Nat} {s : S} {ds : List (S × NodeId)} {gs : List S} :
      DoneRel sp i j ds gs → DoneRel sp i j ((s, .one) :: ds) gs
  | act {j : Nat} {s : S} {ds : List (S × NodeId)} {gs : List S} :
      DoneRel sp i (j + 1) ds gs → DoneRel sp i j ((s, ⟨i, j⟩) :: ds) (s :: gs)
  | dead {j : Nat} {s : S} {ds : List (S × NodeId)} {gs : List S} : ¬ NoMerge sp →
      DoneRel sp i (j + 1) ds gs → DoneRel sp i j ((s, .zero) :: ds) (s :: gs)

theorem DoneRel.append_skip {i j : Nat} {ds : List (S × NodeId)} {gs : List S}
    (h : DoneRel sp i j ds gs) (s : S) : DoneRel sp i j (ds ++ [(s, .one)]) gs := by
  induction h with
  | nil j => exact .skip (.nil j)
  | skip _ ih => exact .skip ih
  | act _ ih => exact .act ih
  | dead h _ ih => exact .dead h ih

theorem DoneRel.append_act {i j : Nat} {ds : List (S × NodeId)} {gs : List S}
    (h : DoneRel sp i j ds gs) (s : S) :
    DoneRel sp i j (ds ++ [(s, ⟨i, j + gs.length⟩)]) (gs ++ [s]) := by
  induction h with
  | nil j => exact .act (.nil _)
  | skip _ ih => exact .skip ih
  | act _ ih =>
    refine .act ?_
    simpa [Nat.add_assoc, Nat.add_comm 1] using ih
  | dead h _ ih =>
    refine .dead h ?_
    simpa [Nat.add_assoc, Nat.add_comm 1] using ih

theorem DoneRel.lookup {i j : Nat} (hi : 0 < i) {ds : List (S × NodeId)} {gs : List S}
    (h : DoneRel sp i j ds gs) {t c : Nat} {s : S} (ht : ds[t]? = some (s, ⟨i, c⟩)) :
    j ≤ c ∧ gs[c - j]? = some s := by
  induction h generalizing t with
  | nil j => simp at ht
  | skip _ ih =>
    cases t with
    | zero => simp [NodeId.one] at ht; omega
    | succ t => exact ih (by simpa using ht)
  | @act j s' ds gs _ ih =>
    cases t with
    | zero => simp at ht; obtain ⟨rfl, rfl⟩ := ht; simp
    | succ t =>
      have := ih (t := t) (by simpa using ht)
      refine ⟨by omega, ?_⟩
      rw [show c - j = (c - (j + 1)) + 1 by omega, List.getElem?_cons_succ]
      exact this.2
  | @dead j s' ds gs _ _ ih =>
    cases t with
    | zero => simp [NodeId.zero] at ht; omega
    | succ t =>
      have := ih (t := t) (by simpa using ht)
      refine ⟨by omega, ?_⟩
      rw [show c - j = (c - (j + 1)) + 1 by omega, List.getElem?_cons_succ]
      exact this.2

theorem DoneRel.kill {i j : Nat} (hi : 0 < i) (hm : ¬ NoMerge sp) {ds : List (S × NodeId)}
    {gs : List S} (h : DoneRel sp i j ds gs) {t c : Nat} {s : S}
    (ht : ds[t]? = some (s, ⟨i, c⟩)) : DoneRel sp i j (ds.set t (s, .zero)) gs := by
  induction h generalizing t with
  | nil j => simp at ht
  | skip h ih =>
    cases t with
    | zero => simp [NodeId.one] at ht; omega
    | succ t => exact .skip (ih (by simpa using ht))
  | act h ih =>
    cases t with
    | zero => simp at ht; obtain ⟨rfl, _⟩ := ht; exact .dead hm h
    | succ t => exact .act (ih (by simpa using ht))
  | dead hd h ih =>
    cases t with
    | zero => simp [NodeId.zero] at ht; omega
    | succ t => exact .dead hd (ih (by simpa using ht))

/-- Invariant of the first loop. -/
structure P1Inv (sp : DdSpec N S) (top : Nat) (G : Nat → List S) (st : BSt N S) (i : Nat)
    (D : Loc N → Prop) (pre rem : List (Loc N × Nat × S)) (a : P1 N S) (G' : Nat → List S) :
    Prop where
  inv : Inv sp top G' a.st (upd st.pend i rem) D
  frame : Frame st a.st
  other : ∀ r, r ≠ i → G' r = G r
  m : a.m = (G' i).length
  done : DoneRel sp i 0 a.done (G' i)
  uniq : ∀ e ∈ a.uniq, ∃ c : Nat, a.done[e.1]? = some (e.2, ⟨i, c⟩)
  compl : NoMerge sp → ∀ s ∈ G' i, ∃ e ∈ a.uniq, e.2 = s
  ne : pre ≠ [] → G' i ≠ []
  keep : ∀ l, st.get l ≠ some none → a.st.get l = st.get l
  exi : ∀ x ∈ pre, (∃ p, Accepts sp (i : Int) x.2.2 p) → ∃ e ∈ a.uniq, ∃ p, Accepts sp (i : Int) e.2 p

theorem upd_upd {α : Type} (f : Nat → α) (i : Nat) (u v : α) : upd (upd f i u) i v = upd f i v := by
  funext j; simp only [upd]; split <;> rfl

theorem upd_self {α : Type} (f : Nat → α) (i : Nat) : upd f i (f i) = f := by
  funext j; simp only [upd]; split
  · rename_i h; rw [h]
  · rfl

/-- a new node at the end of row `i` -/
theorem ext_append {G : Nat → List S} {i : Nat} (s : S) (r c : Nat) (x : S)
    (h : (G r)[c]? = some x) : (upd G i (G i ++ [s]) r)[c]? = some x := by
  by_cases hr : r = i
  · subst hr; rw [upd_same]; exact getElem?_append_of_some h
  · rwa [upd_ne _ _ hr]

theorem phase1 (hl : Lawful sp) {i : Nat} (hi : 0 < i) (hit : i ≤ top) {G : Nat → List S}
    {st : BSt N S} {D : Loc N → Prop} (h : Inv sp top G st st.pend D) (hG : G i = []) :
    ∃ a, (st.pend i).foldlM (phase1Step sp i) { st := st, m := 0, done := [], uniq := [] } = some a
      ∧ ∃ G', P1Inv sp top G st i D (st.pend i) [] a G' := by
  have key := foldlM_inv (f := phase1Step sp i)
    (fun pre (a : P1 N S) => ∃ G', ∀ rem, st.pend i = pre ++ rem →
      P1Inv sp top G st i D pre rem a G') (st.pend i)
    { st := st, m := 0, done := [], uniq := [] } ?_ ?_
  · obtain ⟨a, h1, G', h2⟩ := key
    exact ⟨a, h1, G', h2 [] (by simp)⟩
  · refine ⟨G, fun rem hrem => ⟨?_, Frame.refl _, fun _ _ => rfl, by simp [hG], ?_, by simp, ?_, by simp, fun _ _ => rfl,
      by simp⟩⟩
    · have : rem = st.pend i := by simpa using hrem.symm
      rw [this, upd_self]; exact h
    · rw [hG]; exact .nil _
    · rw [hG]; simp
  · rintro pre ⟨l, g, s⟩ post a hsplit ⟨G', hG'⟩
    have H := hG' ((l, g, s) :: post) hsplit
    have hpdi : (upd st.pend i ((l, g, s) :: post)) i = (l, g, s) :: post := upd_same _ _ _
    obtain ⟨hDl, _, hgetl, hwl, hgenl⟩ := H.inv.pd_ok (l := l) (g := g) (s := s) (j := i)
      (by rw [hpdi]; simp)
    have hsr : Reach sp (i : Int) s := want_reach H.inv hwl
    -- creation of a new node
    have newNode : (NoMerge sp → ∀ t ∈ G' i, sp.eqv i t s = false) →
        ∃ st', a.st.write l g ⟨i, a.m⟩ = some st' ∧ Frame a.st st' ∧
        Inv sp top (upd G' i (G' i ++ [s])) st' (upd st.pend i post) D ∧
        ∀ l, st.get l ≠ some none → st'.get l = st.get l := by
      intro hsh
      have := inv_write (G' := upd G' i (G' i ++ [s])) H.inv hpdi ⟨i, a.m⟩ (ext_append s)
        (.inr (.inr (.inl ⟨i, a.m, s, rfl, hi, rfl, by rw [upd_same, H.m]; simp,
          hl.refl hi hsr, fun _ => Iff.rfl⟩)))
        ?_ ?_ ?_
      · obtain ⟨st', h1, h2, h3, h4⟩ := this
        rw [upd_upd] at h3
        exact ⟨st', h1, h2, h3, fun l hl => by
          rw [h4 l (by rw [H.keep l hl]; exact hl), H.keep l hl]⟩
      · intro r t ht
        by_cases hr : r = i
        · subst hr
          rw [upd_same] at ht
          rcases List.mem_append.1 ht with ht | ht
          · exact H.inv.reach ht
          · simp at ht; subst ht; exact ⟨hi, hit, hsr⟩
        · rw [upd_ne _ _ hr] at ht; exact H.inv.reach ht
      · intro hm r
        by_cases hr : r = i
        · subst hr
          rw [upd_same, List.pairwise_append]
          exact ⟨H.inv.share hm r, by simp, fun t ht u hu => by
            simp at hu; subst hu; exact hsh hm t ht⟩
        · rw [upd_ne _ _ hr]; exact H.inv.share hm r
      · intro r c hc
        by_cases hr : r = i
        · subst hr
          rw [upd_same] at hc
          simp at hc
          by_cases hc' : c < (G' r).length
          · exact .inl hc'
          · right; rw [H.m]; congr 1; omega
        · rw [upd_ne _ _ hr] at hc; exact .inl hc
    simp only [phase1Step]
    split
    · -- not found
      rename_i hfind
      obtain ⟨st', h1, h2, h3, hkeep⟩ := newNode (by
        intro hm t ht
        obtain ⟨e, he, rfl⟩ := H.compl hm t ht
        have := List.find?_eq_none.1 hfind e he
        simpa using this)
      rw [h1]
      refine ⟨_, rfl, upd G' i (G' i ++ [s]), fun rem hrem => ?_⟩
      have hrem' : rem = post := by
        rw [hsplit, List.append_assoc] at hrem
        simpa using (List.append_cancel_left hrem).symm
      subst hrem'
      refine ⟨h3, H.frame.trans h2, ?_, ?_, ?_, ?_, ?_, ?_, hkeep, ?_⟩
      · intro r hr; rw [upd_ne _ _ hr]; exact H.other r hr
      · simp [H.m]
      · simp only [upd_same]
        have := H.done.append_act s
        rwa [Nat.zero_add, ← H.m] at this
      · intro e he
        rcases List.mem_cons.1 he with rfl | he
        · exact ⟨a.m, by simp⟩
        · obtain ⟨c, hc⟩ := H.uniq e he
          exact ⟨c, getElem?_append_of_some hc⟩
      · intro hm t ht
        rw [upd_same] at ht
        rcases List.mem_append.1 ht with ht | ht
        · obtain ⟨e, he, rfl⟩ := H.compl hm t ht
          exact ⟨e, by simp [he], rfl⟩
        · simp at ht; subst ht; exact ⟨_, List.mem_cons_self, rfl⟩
      · intro _; rw [upd_same]; simp
      · intro x hx hp
        rcases List.mem_append.1 hx with hx | hx
        · obtain ⟨e, he, hp⟩ := H.exi x hx hp
          exact ⟨e, List.mem_cons_of_mem _ he, hp⟩
        · simp at hx; subst hx
          exact ⟨_, List.mem_cons_self, hp⟩
    · rename_i e hfind
      have he : e ∈ a.uniq := List.mem_of_find?_eq_some hfind
      have heq : sp.eqv i e.2 s = true := by simpa using List.find?_some hfind
      obtain ⟨c, hc⟩ := H.uniq e he
      have hGc : (G' i)[c]? = some e.2 := by simpa using (H.done.lookup hi hc).2
      have her : Reach sp (i : Int) e.2 := (H.inv.reach (mem_of_getElem?' hGc)).2.2
      have hGne : G' i ≠ [] := by intro h0; rw [h0] at hGc; simp at hGc
      have hacc := hl.sound hi her hsr heq
      have hexi : ∀ x ∈ pre ++ [(l, g, s)], (∃ p, Accepts sp (i : Int) x.2.2 p) →
          ∃ e ∈ a.uniq, ∃ p, Accepts sp (i : Int) e.2 p := by
        intro x hx hp
        rcases List.mem_append.1 hx with hx | hx
        · exact H.exi x hx hp
        · simp at hx; subst hx
          obtain ⟨p, hp⟩ := hp
          exact ⟨e, he, p, (hacc p).2 hp⟩
      -- common tail of the cases that create no node
      have oldNode : ∀ v, Rep sp G' (upd (upd st.pend i ((l, g, s) :: post)) i post) l (some v)
            ((i : Int), s) →
          ∃ st', a.st.write l g v = some st' ∧ Frame a.st st' ∧
            Inv sp top G' st' (upd st.pend i post) D ∧
            ∀ l, st.get l ≠ some none → st'.get l = st.get l := by
        intro v hv
        have := inv_write (G' := G') H.inv hpdi v (fun _ _ _ h => h) hv H.inv.reach H.inv.share
          (fun r c hc => .inl hc)
        obtain ⟨st', h1, h2, h3, h4⟩ := this
        rw [upd_upd] at h3
        exact ⟨st', h1, h2, h3, fun l hl => by
          rw [h4 l (by rw [H.keep l hl]; exact hl), H.keep l hl]⟩
      have oldInv : ∀ st', Frame a.st st' → Inv sp top G' st' (upd st.pend i post) D →
          (∀ l, st.get l ≠ some none → st'.get l = st.get l) → ∀ rem, st.pend i = (pre ++ [(l, g, s)]) ++ rem →
          P1Inv sp top G st i D (pre ++ [(l, g, s)]) rem
            { a with st := st', done := a.done ++ [(s, .one)] } G' := by
        intro st' h2 h3 hkeep rem hrem
        have hrem' : rem = post := by
          rw [hsplit, List.append_assoc] at hrem
          simpa using (List.append_cancel_left hrem).symm
        subst hrem'
        refine ⟨h3, H.frame.trans h2, H.other, H.m, H.done.append_skip s, ?_, H.compl,
          fun _ => hGne, hkeep, ?_⟩
        rotate_left
        · exact hexi
        intro e he
        obtain ⟨c, hc⟩ := H.uniq e he
        exact ⟨c, getElem?_append_of_some hc⟩
      split
      · -- merge = 1
        rename_i hmerge
        have hnm : ¬ NoMerge sp := fun hm => by rw [hm] at hmerge; cases hmerge
        obtain ⟨st', h1, h2, h3, hkeep⟩ := newNode (fun hm => absurd hm hnm)
        rw [h1]
        refine ⟨_, rfl, upd G' i (G' i ++ [s]), fun rem hrem => ?_⟩
        have hrem' : rem = post := by
          rw [hsplit, List.append_assoc] at hrem
          simpa using (List.append_cancel_left hrem).symm
        subst hrem'
        have hlen : (a.done.set e.1 (e.2, NodeId.zero)).length = a.done.length := by simp
        refine ⟨h3, H.frame.trans h2, ?_, ?_, ?_, ?_, fun hm => absurd hm hnm, ?_, hkeep, ?_⟩
        · intro r hr; rw [upd_ne _ _ hr]; exact H.other r hr
        · simp [H.m]
        · simp only [upd_same]
          have := (H.done.kill hi hnm hc).append_act s
          rwa [Nat.zero_add, ← H.m] at this
        · intro e' he'
          obtain ⟨e0, he0, rfl⟩ := List.mem_map.1 he'
          by_cases heq0 : e0.1 = e.1
          · rw [if_pos heq0]
            refine ⟨a.m, ?_⟩
            show (_ ++ _)[a.done.length]? = _
            rw [← hlen]; simp
          · rw [if_neg heq0]
            obtain ⟨c', hc'⟩ := H.uniq e0 he0
            refine ⟨c', getElem?_append_of_some ?_⟩
            rw [List.getElem?_set_ne (fun h => heq0 h.symm)]; exact hc'
        · intro _; rw [upd_same]; simp
        · intro x hx hp
          obtain ⟨e0, he0, q, hq⟩ := hexi x hx hp
          by_cases heq0 : e0.1 = e.1
          · obtain ⟨c', hc'⟩ := H.uniq e0 he0
            rw [heq0, hc] at hc'
            simp at hc'
            refine ⟨_, List.mem_map.2 ⟨e0, he0, rfl⟩, q, ?_⟩
            rw [if_pos heq0]
            rw [← hc'.1] at hq
            exact (hacc q).1 hq
          · refine ⟨_, List.mem_map.2 ⟨e0, he0, rfl⟩, q, ?_⟩
            rw [if_neg heq0]; exact hq
      · split
        · -- merge = 2
          rename_i _ hmerge
          have hnm : ¬ NoMerge sp := fun hm => by rw [hm] at hmerge; cases hmerge
          obtain ⟨st', h1, h2, h3, hkeep⟩ := oldNode .zero (.inl ⟨rfl, fun hm => absurd hm hnm⟩)
          rw [h1]
          exact ⟨_, rfl, G', oldInv st' h2 h3 hkeep⟩
        · rw [hc]
          obtain ⟨st', h1, h2, h3, hkeep⟩ := oldNode ⟨i, c⟩ (.inr (.inr (.inl ⟨i, c, e.2, rfl, hi, rfl, hGc,
            heq, hl.sound hi hsr her (hl.symm hi her hsr heq)⟩)))
          simp only [h1]
          exact ⟨_, rfl, G', oldInv st' h2 h3 hkeep⟩

end TdZdd
