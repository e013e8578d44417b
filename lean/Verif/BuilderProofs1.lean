import Verif.Builder
import Verif.ListLemmas

/-! Builder proof, part 1: memory operations and the invariant. -/

namespace TdZdd

variable {N : Nat} {S : Type}

@[simp] theorem upd_same {α : Type} (f : Nat → α) (i : Nat) (v : α) : upd f i v i = v := by
  simp [upd]
theorem upd_ne {α : Type} (f : Nat → α) {i j : Nat} (v : α) (h : j ≠ i) : upd f i v j = f j := by
  simp [upd, h]

/-- content of a location: `none` if it does not exist, `some none` if it is unwritten -/
def BSt.get (st : BSt N S) : Loc N → Option (Option NodeId)
  | .root => some st.root
  | .cell r c b => if r < st.numRows then ((st.row r)[c]?).map (· b) else none

/-- everything but the contents of locations is unchanged -/
structure Frame (st st' : BSt N S) : Prop where
  numRows : st'.numRows = st.numRows
  gen : st'.gen = st.gen
  len : ∀ r, (st'.row r).length = (st.row r).length
  pend : st'.pend = st.pend
  one : st'.one = st.one
  oneSrc : st'.oneSrc = st.oneSrc
  sw : st'.sw = st.sw

theorem Frame.refl (st : BSt N S) : Frame st st := ⟨rfl, rfl, fun _ => rfl, rfl, rfl, rfl, rfl⟩

theorem Frame.trans {a b c : BSt N S} (h : Frame a b) (h' : Frame b c) : Frame a c :=
  ⟨h'.numRows.trans h.numRows, h'.gen.trans h.gen, fun r => (h'.len r).trans (h.len r),
   h'.pend.trans h.pend, h'.one.trans h.one, h'.oneSrc.trans h.oneSrc, h'.sw.trans h.sw⟩

theorem writeCell_spec {st : BSt N S} {r c : Nat} {b : Fin N} {v0 : Option NodeId} (v : NodeId)
    (h : st.get (.cell r c b) = some v0) :
    ∃ st', st.writeCell r c b v = some st' ∧ Frame st st' ∧ 
      ∀ l, st'.get l = if l = .cell r c b then some (some v) else st.get l := by
  simp only [BSt.get] at h
  split at h
  · rename_i hr
    rw [Option.map_eq_some_iff] at h
    obtain ⟨nd, hnd, _⟩ := h
    have hc := getElem?_lt hnd
    refine ⟨{ st with row := upd st.row r ((st.row r).set c (setBranch nd b v)) },
      by simp only [BSt.writeCell, if_pos hr, hnd], ?_, ?_⟩
    · refine ⟨rfl, rfl, fun r' => ?_, rfl, rfl, rfl, rfl⟩
      by_cases h : r' = r
      · subst h; simp
      · simp [upd_ne _ _ h]
    · intro l
      cases l with
      | root => simp [BSt.get]
      | cell r' c' b' =>
        simp only [BSt.get, Loc.cell.injEq]
        by_cases h1 : r' = r
        · subst h1
          rw [if_pos hr, if_pos hr, upd_same]
          by_cases h2 : c' = c
          · subst h2
            rw [List.getElem?_set_self hc, hnd]
            by_cases h3 : b' = b
            · subst h3; simp [setBranch]
            · simp [setBranch, h3]
          · rw [List.getElem?_set_ne (Ne.symm h2)]
            simp [h2]
        · rw [upd_ne _ _ h1]
          simp [h1]
  · cases h

theorem write_spec {st : BSt N S} {l : Loc N} {g : Nat} {v0 : Option NodeId} (v : NodeId)
    (h : st.get l = some v0) (hg : ∀ r c b, l = .cell r c b → st.gen r = g) :
    ∃ st', st.write l g v = some st' ∧ Frame st st' ∧
      ∀ l', st'.get l' = if l' = l then some (some v) else st.get l' := by
  cases l with
  | root =>
    refine ⟨_, rfl, ⟨rfl, rfl, fun _ => rfl, rfl, rfl, rfl, rfl⟩, ?_⟩
    intro l'
    cases l' with
    | root => simp [BSt.get]
    | cell r c b => simp [BSt.get]
  | cell r c b =>
    obtain ⟨st', h1, h2⟩ := writeCell_spec v h
    exact ⟨st', by simp only [BSt.write, if_pos (hg r c b rfl), h1], h2⟩

/-! ### The invariant -/

/-- The (level code, state) a location stands for, given the states `G` of the nodes. -/
def want (sp : DdSpec N S) (G : Nat → List S) : Loc N → Option (Int × S)
  | .root => some sp.root
  | .cell r c b => ((G r)[c]?).map fun s => sp.child s r b

/-- The content `v` of location `l` represents the pair `w`. Without pruning (`NoMerge`) the
0-terminal only represents pairs that accept nothing. -/
def Rep (sp : DdSpec N S) (G : Nat → List S) (pd : Nat → List (Loc N × Nat × S)) (l : Loc N)
    (v : Option NodeId) (w : Int × S) : Prop :=
  (v = some .zero ∧ (NoMerge sp → ∀ p, ¬ Accepts sp w.1 w.2 p)) ∨
  (v = some .one ∧ w.1 < 0) ∨
  (∃ (r c : Nat) (g : S), v = some ⟨r, c⟩ ∧ 0 < r ∧ w.1 = (r : Int) ∧ (G r)[c]? = some g ∧
    sp.eqv r g w.2 = true ∧ ∀ p, Accepts sp (r : Int) w.2 p ↔ Accepts sp (r : Int) g p) ∨
  (v = none ∧ ∃ j g : Nat, 0 < j ∧ w.1 = (j : Int) ∧ (l, g, w.2) ∈ pd j)

/-- Builder invariant: `D` is the set of locations that are in use; `pd` the pending specification
nodes; `G r` the states represented by the nodes of row `r`. -/
structure Inv (sp : DdSpec N S) (top : Nat) (G : Nat → List S) (st : BSt N S)
    (pd : Nat → List (Loc N × Nat × S)) (D : Loc N → Prop) : Prop where
  root_D : D .root
  rep : ∀ {l}, D l → ∃ w v, want sp G l = some w ∧ st.get l = some v ∧ Rep sp G pd l v w
  pd_ok : ∀ {l g s j}, (l, g, s) ∈ pd j → D l ∧ 0 < j ∧ st.get l = some none ∧
    want sp G l = some ((j : Int), s) ∧ (∀ r c b, l = .cell r c b → st.gen r = g)
  nodup : ∀ j, ((pd j).map Prod.fst).Nodup
  reach : ∀ {r s}, s ∈ G r → 0 < r ∧ r ≤ top ∧ Reach sp (r : Int) s
  ref : ∀ {r c}, c < (G r).length → ∃ l, D l ∧ st.get l = some (some ⟨r, c⟩)
  share : NoMerge sp → ∀ r, (G r).Pairwise fun s t => sp.eqv r s t = false

/-- Some 1-edge has been recorded, or some pending specification node accepts a path. -/
def Ex (sp : DdSpec N S) (st : BSt N S) : Prop :=
  st.oneSrc ≠ [] ∨ ∃ (j : Nat) (l : Loc N) (g : Nat) (s : S), (l, g, s) ∈ st.pend j ∧
    ∃ p, Accepts sp (j : Int) s p

theorem Ex.frame {sp : DdSpec N S} {st st' : BSt N S} (h : Ex sp st) (hf : Frame st st') :
    Ex sp st' := by
  unfold Ex; rw [hf.oneSrc, hf.pend]; exact h

variable {sp : DdSpec N S} {top : Nat} {G G' : Nat → List S} {st st' : BSt N S}
  {pd pd' : Nat → List (Loc N × Nat × S)} {D : Loc N → Prop}

theorem want_reach (h : Inv sp top G st pd D) {l : Loc N} {w : Int × S}
    (hw : want sp G l = some w) : Reach sp w.1 w.2 := by
  cases l with
  | root => cases hw; exact .root
  | cell r c b =>
    simp only [want, Option.map_eq_some_iff] at hw
    obtain ⟨s, hs, rfl⟩ := hw
    have := h.reach (mem_of_getElem?' hs)
    exact Reach.step b this.1 this.2.2

theorem want_mono (hG : ∀ (r c : Nat) x, (G r)[c]? = some x → (G' r)[c]? = some x) {l : Loc N}
    {w : Int × S} (hw : want sp G l = some w) : want sp G' l = some w := by
  cases l with
  | root => exact hw
  | cell r c b =>
    simp only [want, Option.map_eq_some_iff] at hw ⊢
    obtain ⟨s, hs, rfl⟩ := hw
    exact ⟨s, hG _ _ _ hs, rfl⟩

theorem rep_mono (hG : ∀ (r c : Nat) x, (G r)[c]? = some x → (G' r)[c]? = some x) {l : Loc N}
    (hp : ∀ j g s, (l, g, s) ∈ pd j → (l, g, s) ∈ pd' j) {v : Option NodeId} {w : Int × S}
    (h : Rep sp G pd l v w) : Rep sp G' pd' l v w := by
  rcases h with h | h | ⟨r, c, g, h1, h2, h3, h4, h5⟩ | ⟨h1, j, g, h2, h3, h4⟩
  · exact .inl h
  · exact .inr (.inl h)
  · exact .inr (.inr (.inl ⟨r, c, g, h1, h2, h3, hG _ _ _ h4, h5⟩))
  · exact .inr (.inr (.inr ⟨h1, j, g, h2, h3, hp _ _ _ h4⟩))

/-- the first pending node of a level is resolved -/
theorem inv_write {i g : Nat} {l : Loc N} {s : S} {rest : List (Loc N × Nat × S)}
    (h : Inv sp top G st pd D) (hpd : pd i = (l, g, s) :: rest) (v : NodeId)
    (hG : ∀ (r c : Nat) x, (G r)[c]? = some x → (G' r)[c]? = some x)
    (hv : Rep sp G' (upd pd i rest) l (some v) ((i : Int), s))
    (hreach : ∀ {r s}, s ∈ G' r → 0 < r ∧ r ≤ top ∧ Reach sp (r : Int) s)
    (hshare : NoMerge sp → ∀ r, (G' r).Pairwise fun s t => sp.eqv r s t = false)
    (href : ∀ r c, c < (G' r).length → c < (G r).length ∨ v = ⟨r, c⟩) :
    ∃ st', st.write l g v = some st' ∧ Frame st st' ∧ Inv sp top G' st' (upd pd i rest) D ∧
      ∀ l, st.get l ≠ some none → st'.get l = st.get l := by
  obtain ⟨hD, hi, hget, hw, hgen⟩ := h.pd_ok (show (l, g, s) ∈ pd i by rw [hpd]; simp)
  obtain ⟨st', hst', hf, hget'⟩ := write_spec v hget hgen
  have hsub : ∀ j x, x ∈ upd pd i rest j → x ∈ pd j := by
    intro j x hx
    by_cases hj : j = i
    · subst hj; rw [upd_same] at hx; rw [hpd]; simp [hx]
    · rwa [upd_ne _ _ hj] at hx
  have hne : ∀ l' g' s' j, (l', g', s') ∈ upd pd i rest j → l' ≠ l := by
    intro l' g' s' j hx he
    subst he
    have := (h.pd_ok (hsub _ _ hx)).2.2.2.1
    rw [hw] at this
    have hj : j = i := by
      have := congrArg Prod.fst (Option.some.inj this)
      simp only at this; omega
    subst hj
    rw [upd_same] at hx
    have hn := h.nodup j
    rw [hpd, List.map_cons, List.nodup_cons] at hn
    exact hn.1 (List.mem_map.2 ⟨_, hx, rfl⟩)
  refine ⟨st', hst', hf, ?_, fun l' hl' => by
    rw [hget', if_neg (fun he => hl' (by rw [he, hget]))]⟩
  refine ⟨h.root_D, ?_, ?_, ?_, hreach, ?_, hshare⟩
  · intro l' hl'
    obtain ⟨w', v', h1, h2, h3⟩ := h.rep hl'
    by_cases he : l' = l
    · subst he
      rw [hw] at h1; cases h1
      exact ⟨_, _, want_mono hG hw, by rw [hget', if_pos rfl], hv⟩
    · refine ⟨w', v', want_mono hG h1, by rw [hget', if_neg he, h2], rep_mono hG ?_ h3⟩
      intro j g' s' hx
      by_cases hj : j = i
      · subst hj
        rw [hpd] at hx
        rw [upd_same]
        rcases List.mem_cons.1 hx with hx | hx
        · cases hx; exact absurd rfl he
        · exact hx
      · rwa [upd_ne _ _ hj]
  · intro l' g' s' j hx
    obtain ⟨h1, h2, h3, h4, h5⟩ := h.pd_ok (hsub _ _ hx)
    refine ⟨h1, h2, by rw [hget', if_neg (hne _ _ _ _ hx), h3], want_mono hG h4, ?_⟩
    intro r c b he
    rw [hf.gen]; exact h5 r c b he
  · intro j
    by_cases hj : j = i
    · subst hj
      have hn := h.nodup j
      rw [hpd, List.map_cons, List.nodup_cons] at hn
      rw [upd_same]; exact hn.2
    · rw [upd_ne _ _ hj]; exact h.nodup j
  · intro r c hc
    rcases href r c hc with hc | hc
    · obtain ⟨l', h1, h2⟩ := h.ref hc
      refine ⟨l', h1, ?_⟩
      rw [hget', if_neg, h2]
      intro he; subst he
      rw [hget] at h2; cases h2
    · exact ⟨l, hD, by rw [hget', if_pos rfl, hc]⟩

/-- a new cell receives a value -/
theorem inv_put {i jj : Nat} {b : Fin N} {w : Int × S} (h : Inv sp top G st pd D) (v : NodeId)
    (hD : ¬ D (.cell i jj b)) (hget : st.get (.cell i jj b) = some none)
    (hw : want sp G (.cell i jj b) = some w)
    (hv : Rep sp G pd (.cell i jj b) (some v) w) :
    ∃ st', st.writeCell i jj b v = some st' ∧ Frame st st' ∧
      (∀ l, st'.get l = if l = .cell i jj b then some (some v) else st.get l) ∧
      Inv sp top G st' pd (fun l => D l ∨ l = .cell i jj b) := by
  obtain ⟨st', hst', hf, hget'⟩ := writeCell_spec v hget
  have hne : ∀ l, D l → l ≠ .cell i jj b := fun l hl he => hD (he ▸ hl)
  refine ⟨st', hst', hf, hget', ?_⟩
  refine ⟨.inl h.root_D, ?_, ?_, h.nodup, h.reach, ?_, h.share⟩
  · intro l hl
    rcases hl with hl | rfl
    · obtain ⟨w', v', h1, h2, h3⟩ := h.rep hl
      exact ⟨w', v', h1, by rw [hget', if_neg (hne l hl), h2], h3⟩
    · exact ⟨w, _, hw, by rw [hget', if_pos rfl], hv⟩
  · intro l g s j hx
    obtain ⟨h1, h2, h3, h4, h5⟩ := h.pd_ok hx
    refine ⟨.inl h1, h2, by rw [hget', if_neg (hne l h1), h3], h4, ?_⟩
    intro r c b he
    rw [hf.gen]; exact h5 r c b he
  · intro r c hc
    obtain ⟨l, h1, h2⟩ := h.ref hc
    exact ⟨l, .inl h1, by rw [hget', if_neg (hne l h1), h2]⟩

/-- a new cell becomes pending -/
theorem inv_push {i jj j : Nat} {b : Fin N} {s : S} (h : Inv sp top G st pd D)
    (hD : ¬ D (.cell i jj b)) (hget : st.get (.cell i jj b) = some none) (hj : 0 < j)
    (hw : want sp G (.cell i jj b) = some ((j : Int), s)) :
    Inv sp top G st (upd pd j ((.cell i jj b, st.gen i, s) :: pd j))
      (fun l => D l ∨ l = .cell i jj b) := by
  have hsub : ∀ j' x, x ∈ pd j' → x ∈ upd pd j ((.cell i jj b, st.gen i, s) :: pd j) j' := by
    intro j' x hx
    by_cases hj : j' = j
    · subst hj; rw [upd_same]; simp [hx]
    · rwa [upd_ne _ _ hj]
  refine ⟨.inl h.root_D, ?_, ?_, ?_, h.reach, ?_, h.share⟩
  · intro l hl
    rcases hl with hl | rfl
    · obtain ⟨w', v', h1, h2, h3⟩ := h.rep hl
      exact ⟨w', v', h1, h2, rep_mono (fun _ _ _ h => h) (fun j g s hx => hsub _ _ hx) h3⟩
    · exact ⟨_, _, hw, hget, .inr (.inr (.inr ⟨rfl, j, st.gen i, hj, rfl, by simp⟩))⟩
  · intro l g s' j' hx
    by_cases hjj : j' = j
    · subst hjj
      rw [upd_same] at hx
      rcases List.mem_cons.1 hx with hx | hx
      · cases hx
        exact ⟨.inr rfl, hj, hget, hw, by rintro r c b he; cases he; rfl⟩
      · obtain ⟨h1, h2⟩ := h.pd_ok hx
        exact ⟨.inl h1, h2⟩
    · rw [upd_ne _ _ hjj] at hx
      obtain ⟨h1, h2⟩ := h.pd_ok hx
      exact ⟨.inl h1, h2⟩
  · intro j'
    by_cases hjj : j' = j
    · subst hjj
      rw [upd_same, List.map_cons, List.nodup_cons]
      refine ⟨?_, h.nodup j'⟩
      intro hm
      obtain ⟨⟨l, g, s'⟩, hx, he⟩ := List.mem_map.1 hm
      simp only at he
      subst he
      exact hD (h.pd_ok hx).1
    · rw [upd_ne _ _ hjj]; exact h.nodup j'
  · intro r c hc
    obtain ⟨l, h1, h2⟩ := h.ref hc
    exact ⟨l, .inl h1, h2⟩

/-- a recorded 1-edge is redirected to the 0-terminal (only with pruning) -/
theorem inv_zero {r c : Nat} {b : Fin N} {v : NodeId} (h : Inv sp top G st pd D)
    (hne : ¬ NoMerge sp) (hv : v.row = 0) (hget : st.get (.cell r c b) = some (some v)) :
    ∃ st', st.writeCell r c b .zero = some st' ∧ Frame st st' ∧
      (∀ l, st'.get l = if l = .cell r c b then some (some .zero) else st.get l) ∧
      Inv sp top G st' pd D := by
  obtain ⟨st', hst', hf, hget'⟩ := writeCell_spec .zero hget
  refine ⟨st', hst', hf, hget', ?_⟩
  refine ⟨h.root_D, ?_, ?_, h.nodup, h.reach, ?_, h.share⟩
  · intro l hl
    obtain ⟨w', v', h1, h2, h3⟩ := h.rep hl
    by_cases he : l = .cell r c b
    · exact ⟨w', _, h1, by rw [hget', if_pos he], .inl ⟨rfl, fun h => absurd h hne⟩⟩
    · exact ⟨w', v', h1, by rw [hget', if_neg he, h2], h3⟩
  · intro l g s j hx
    obtain ⟨h1, h2, h3, h4, h5⟩ := h.pd_ok hx
    refine ⟨h1, h2, ?_, h4, ?_⟩
    · rw [hget', if_neg, h3]
      intro he; rw [he, hget] at h3; cases h3
    · intro r c b he
      rw [hf.gen]; exact h5 r c b he
  · intro r' c' hc
    obtain ⟨l, h1, h2⟩ := h.ref hc
    refine ⟨l, h1, ?_⟩
    rw [hget', if_neg, h2]
    intro he
    rw [he, hget] at h2
    have hr : r' = 0 := by
      have := congrArg NodeId.row (Option.some.inj (Option.some.inj h2))
      simpa [hv] using this.symm
    obtain ⟨x, hx⟩ := getElem?_of_lt hc
    have := (h.reach (mem_of_getElem?' hx)).1
    omega

/-- the invariant only depends on the locations in use and the generations of their rows -/
theorem inv_congr (h : Inv sp top G st pd D) (hget : ∀ l, D l → st'.get l = st.get l)
    (hgen : ∀ r c b, D (.cell r c b) → st'.gen r = st.gen r) : Inv sp top G st' pd D := by
  refine ⟨h.root_D, ?_, ?_, h.nodup, h.reach, ?_, h.share⟩
  · intro l hl
    obtain ⟨w', v', h1, h2, h3⟩ := h.rep hl
    exact ⟨w', v', h1, by rw [hget l hl, h2], h3⟩
  · intro l g s j hx
    obtain ⟨h1, h2, h3, h4, h5⟩ := h.pd_ok hx
    refine ⟨h1, h2, by rw [hget l h1, h3], h4, ?_⟩
    intro r c b he
    rw [hgen r c b (he ▸ h1)]; exact h5 r c b he
  · intro r c hc
    obtain ⟨l, h1, h2⟩ := h.ref hc
    exact ⟨l, h1, by rw [hget l h1, h2]⟩

/-- equivalent sets of locations and equal pending lists -/
theorem inv_congr_D {D' : Loc N → Prop} (h : Inv sp top G st pd D) (hD : ∀ l, D l ↔ D' l)
    (hpd : ∀ j, pd' j = pd j) : Inv sp top G st pd' D' := by
  have e1 : D' = D := funext fun l => propext (hD l).symm
  have e2 : pd' = pd := funext hpd
  rw [e1, e2]; exact h

end TdZdd
