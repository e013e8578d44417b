import Verif.AttrProofs5

/-! The preparation of the binary reduction, and the binary reduction as a whole. -/

namespace TdZdd

namespace Attr

theorem foldlM_keep {α β : Type} {f : β → α → Option β} (P : β → Prop) (h : ∀ x a x', P x → f x a = some x' → P x') :
    ∀ (l : List α) (x y : β), P x → l.foldlM f x = some y → P y := by
  intro l
  induction l with
  | nil => intro x y hx e; cases e; exact hx
  | cons a l ih =>
    intro x y hx e
    rw [List.foldlM_cons, Option.bind_eq_bind, Option.bind_eq_some_iff] at e
    obtain ⟨x', e1, e2⟩ := e
    exact ih x' y (h x a x' hx e1) e2

/-- ids of terminals do not have the bit -/
def Term0 {N : Nat} (nr : Nat) (T : Rows N) (s : Bits N) : Prop :=
  ∀ {f : NodeId} {nd : Node N} (b : Fin N), nodeAt nr T f = some nd → (nd b).row = 0 → s.input f b = false

section
variable {N : Nat} {bdd zdd : Bool} {nr : Nat}

/-- what the preparation keeps -/
structure BReady (nr : Nat) (s0 : Bits (N + 1)) (x : Rows (N + 1) × Bits (N + 1)) : Prop where
  term : Term0 nr x.1 x.2
  newId : x.2.newId = s0.newId
  root : x.2.root = s0.root

theorem readyNode_bits {i : Nat} {s0 : Bits (N + 1)} (x : Rows (N + 1) × Bits (N + 1)) (j : Nat) (x' : Rows (N + 1) × Bits (N + 1))
    (h : BReady nr s0 x) (e : readyNode bdd zdd nr i x j = some x') : BReady nr s0 x' := by
  unfold readyNode at e
  simp only [Option.bind_eq_bind, Option.bind_eq_some_iff] at e
  obtain ⟨nd, hnd, T, hT, e⟩ := e
  cases e
  refine ⟨?_, h.newId, h.root⟩
  unfold TdZdd.readyNode at hT
  rw [hnd] at hT
  simp only [Option.bind_some, Option.bind_eq_some_iff] at hT
  obtain ⟨nd', hmap, hT⟩ := hT
  obtain ⟨T', w0, w⟩ := setNode_spec nd' hnd
  rw [hT] at w0
  cases w0
  have hr : ∀ b, TdZdd.redirect bdd zdd nr x.1 (nd b) = some (nd' b) := fun b => congrFun (allSome_some hmap) b
  intro f nd2 b hn h0
  dsimp only at hn
  rw [w.at'] at hn
  by_cases e : f = ⟨i, j⟩
  · rw [if_pos e] at hn
    cases hn
    subst e
    dsimp only [Bits.setNode]
    rw [if_pos rfl]
    have := hr b
    unfold TdZdd.redirect at this
    unfold redirect
    by_cases hz : (nd b).row = 0
    · rw [if_pos hz]
      exact h.term b hnd hz
    · rw [if_neg hz] at this
      rw [if_neg hz]
      cases hc : nodeAt nr x.1 (nd b) with
      | none => rw [hc] at this; cases this
      | some c =>
        rw [hc] at this
        simp only [Option.map_some, Option.some.injEq] at this
        dsimp only
        by_cases hd : ∀ b : Fin (N + 1), ((bdd || zdd) = true → b ≠ 0) → c b = (if bdd then c 0 else .zero)
        · rw [if_pos hd] at this
          rw [if_pos hd]
          exact h.term 0 hc (by rw [this]; exact h0)
        · rw [if_neg hd] at this
          rw [this] at hz
          exact absurd h0 hz
  · rw [if_neg e] at hn
    dsimp only [Bits.setNode]
    rw [if_neg e]
    exact h.term b hn h0

theorem makeReady_bits {s0 : Bits (N + 1)} {x x' : Rows (N + 1) × Bits (N + 1)} (h : BReady nr s0 x)
    (e : makeReady bdd zdd nr x = some x') : BReady nr s0 x' := by
  unfold makeReady at e
  refine foldlM_keep (BReady nr s0) ?_ _ x x' h e
  intro y i y' hy e
  unfold readyRow at e
  exact foldlM_keep (BReady nr s0) (fun x j x' => readyNode_bits x j x') _ y y' hy e

end

open Classical in
theorem reduce2_bits {bdd zdd : Bool} {D : Dd 2} (hw : D.Wf) {inp : NodeId → Fin 2 → Bool} {root : Bool}
    (hr0 : D.root.row = 0 → root = false)
    (hi0 : ∀ {f : NodeId} {nd : Node 2} (b : Fin 2), 0 < f.row → D.table.node? f = some nd → (nd b).row = 0 → inp f b = false) :
    ∃ D' s, reduce2 bdd zdd D inp root = some (D', s) ∧ TdZdd.reduce2 bdd zdd D = some D' ∧ Good D' s := by
  have hwt : Table.Wf ⟨D.table.numRows, (reduceInit D).input⟩ := Table.wf_congr (reduceInit_node D) hw.table
  obtain ⟨_, lo0, e0, _⟩ := makeIndex_spec hwt.down
  by_cases hr : D.root.row = 0
  · have e : reduce2 bdd zdd D inp root = some (reduceResult D (reduceInit D), start inp root) := by
      unfold reduce2
      simp only [e0, Option.bind_eq_bind, Option.bind_some]
      rw [if_pos hr]
    refine ⟨_, _, e, ?_, fun _ => false, fun _ _ => rfl, hr0 hr, ?_⟩
    · rw [← reduce2_fst bdd zdd D inp root, e]; rfl
    · intro f nd h0 hn
      have : (reduceResult D (reduceInit D)).table.row f.row = [] := by
        show (if f.row = 0 then _ else []) = _
        rw [if_neg (by omega)]
      unfold Table.node? at hn
      rw [this] at hn
      split at hn <;> simp at hn
  · obtain ⟨S, eS, hS0, hSlen, hcomp⟩ := makeReady_spec (bdd := bdd) (zdd := zdd) hwt
    have hwS := hcomp.wf hwt
    obtain ⟨hi1, lo1, e1, hlo⟩ := makeIndex_spec hwS.down
    have hfst := makeReady_fst bdd zdd D.table.numRows ((reduceInit D).input, start inp root)
    rw [eS, Option.map_eq_some_iff] at hfst
    obtain ⟨⟨S', s1⟩, eM, e''⟩ := hfst
    dsimp only at e''
    subst e''
    have hready : BReady D.table.numRows (start inp root) (S', s1) := by
      refine makeReady_bits ⟨?_, rfl, rfl⟩ eM
      intro f nd b hn h0
      show (if f.row = 0 then (fun _ : Fin 2 => false) else inp f) b = false
      by_cases hf : f.row = 0
      · rw [if_pos hf]
      · rw [if_neg hf]
        refine hi0 b (by omega) ?_ h0
        rw [← reduceInit_node D f (by omega)]
        exact hn
    obtain ⟨nd, hnd⟩ := hw.root.pos (by omega)
    have hrlt : D.root.row < D.table.numRows ∧ D.root.col < (D.table.row D.root.row).length :=
      nodeAt_lt (T := D.table.row) hnd
    have hrc : D.root.col < (S' D.root.row).length := by
      rw [hSlen]
      unfold reduceInit upd
      dsimp only
      rw [if_neg hr]
      exact hrlt.2
    have hnoDel : bdd = true ∨ NoDelEdge zdd D.table.numRows S' := by
      cases bdd with
      | true => exact .inl rfl
      | false =>
        right
        intro g nd b nd' h0 hn hb hn' hz h1
        refine comp_noDel hwt hcomp _ (Nat.le_refl _) h0 hn hb hn' ?_
        intro b' hb'
        rw [hz] at hb'
        have : b' = 1 := (fin2_cases b').resolve_left (hb' rfl)
        rw [this, h1]; rfl
    obtain ⟨y, e2, ⟨nid, h⟩, E, hE, _⟩ := levelsUp_fold
      (f := algorithmR bdd zdd D.table.numRows D.root.row lo1)
      (fun k (x : RSt 2 × Bits 2) => (∃ nid, RInv bdd zdd D.table.numRows D.root.row S' D.root k nid x.1) ∧
        ∃ E, BInv D.root.row k E x.1 x.2 ∧ ∀ f : NodeId, k < f.row → x.2.input f = s1.input f)
      D.root.row ({ reduceInit D with input := S' }, s1)
      ⟨⟨id, ⟨redOf_zero fun r h0 => by unfold reduceInit; dsimp only; rw [if_neg (by omega)], fun _ _ => rfl,
        by dsimp only; rw [hSlen]; rfl, fun r h0 h1 => by omega, by
          intro f nd hf hn
          dsimp only at hn
          unfold nodeAt at hn
          rw [if_pos (by omega), show f.row = 0 by omega, hS0] at hn
          have hf2 := getElem?_lt hn
          have : f.col = 0 ∨ f.col = 1 := by
            have : f.col < 2 := hf2
            omega
          rcases this with e | e <;> rw [e] at hn <;> cases hn <;> exact Nat.le_refl _,
        fun r h0 h1 => by omega, fun r h0 => by unfold reduceInit; dsimp only; rw [if_neg (by omega)],
        by rw [if_pos (by omega)]; rfl, rfl⟩⟩,
       _, BInv.start (st := { reduceInit D with input := S' }) hr0 rfl rfl hready.newId hready.root, fun _ _ => rfl⟩
      (by
        rintro t ⟨st, s⟩ ht ⟨⟨nid, h⟩, E, hE, hin⟩
        obtain ⟨nid', st', e, h'⟩ := h.stepWith (lower := lo1) (lev := fun st0 i => if
            ∃ st' s' E', algorithmR bdd zdd D.table.numRows D.root.row lo1 (st, s) i = some (st', s') ∧
              TdZdd.algorithmR bdd zdd D.table.numRows D.root.row lo1 st i = some st' ∧ BInv D.root.row i E' st' s' ∧
              ∀ f : NodeId, i < f.row → s'.input f = s.input f
            then TdZdd.algorithmR bdd zdd D.table.numRows D.root.row lo1 st0 i else none) hwS hnoDel (by
          intro c hp h1 h2
          obtain ⟨st', s', ids, out, e, L, B, hhigh⟩ := algorithmR_bits (bdd := bdd) (zdd := zdd) (top := D.root.row) (lower := lo1)
            (s0 := s) (E := E) hp h1 h2 (by
              intro j nd b hj
              obtain ⟨g1, g2⟩ := hp.map b hj
              unfold TdZdd.remap at g2
              unfold remap
              by_cases hz : (nd b).row = 0
              · rw [if_neg (by simpa using hz)] at g2 ⊢
                rw [← Option.some.inj g2, hE.term _ hz, hin _ (Nat.lt_succ_self t)]
                refine hready.term (f := ⟨t + 1, j⟩) b ?_ hz
                unfold nodeAt
                rw [if_pos (by dsimp only; omega)]
                exact hj
              · rw [if_pos hz] at g2 ⊢
                refine (hE.ids (f := nd b) (by omega) ?_).2
                rw [← g2]
                unfold RSt.look upd
                dsimp only
                rw [if_neg (by omega)])
          have ep : TdZdd.algorithmR bdd zdd D.table.numRows D.root.row lo1 st (t + 1) = some st' := by
            rw [← algorithmR_fst bdd zdd D.table.numRows D.root.row lo1 (st, s) (t + 1), e]; rfl
          obtain ⟨E', hE'⟩ := hE.extend (fun b hj => hp.low b hj)
            ⟨L.len, fun hj => by
              obtain ⟨id, g1, g2⟩ := L.node hj
              refine ⟨id, g1, ?_⟩
              rcases g2 with g2 | ⟨g2, g3⟩
              · exact .inl g2
              · exact .inr ⟨by rw [g2]; exact Bool.false_ne_true, g3⟩, L.hit, L.nodup⟩ L.newId L.other L.out L.root B
          refine ⟨st', ids, out, ?_, L⟩
          exact (if_pos ⟨st', s', E', e, ep, hE', hhigh⟩).trans ep) hlo rfl hrc (by omega)
        dsimp only at e
        split at e
        · rename_i hex
          obtain ⟨st2, s2, E2, g1, g2, g3, g4⟩ := hex
          rw [g2] at e
          cases e
          exact ⟨_, g1, ⟨nid', h'⟩, E2, g3, fun f hf => by rw [g4 f hf]; exact hin f (by omega)⟩
        · cases e)
    have e : reduce2 bdd zdd D inp root = some (reduceResult D y.1, y.2) := by
      unfold reduce2
      simp only [e0, Option.bind_eq_bind, Option.bind_some]
      rw [if_neg hr]
      simp only [eM, e1, e2, Option.bind_some]
    refine ⟨_, _, e, ?_, E, hE.term, ?_, ?_⟩
    · rw [← reduce2_fst bdd zdd D inp root, e]; rfl
    · exact (hE.root (by omega)).2
    · intro f nd h0 hn
      have hn' : nodeAt D.table.numRows y.1.output f = some nd := hn
      have hf : f.row ≤ D.root.row := by
        apply Classical.byContradiction
        intro hlt
        have := (nodeAt_lt hn').2
        rw [h.outHigh _ (by omega)] at this
        simp at this
      have hq : (y.1.output f.row)[f.col]? = some nd := by
        unfold nodeAt at hn'
        by_cases hc : f.row < D.table.numRows
        · rw [if_pos hc] at hn'; exact hn'
        · rw [if_neg hc] at hn'; cases hn'
      obtain ⟨g1, g2⟩ := hE.node h0 hf hq
      exact ⟨g1, fun b => (g2 b).2⟩

end Attr

end TdZdd
