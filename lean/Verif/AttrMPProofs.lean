import Verif.AttrMP
import Verif.AttrProofs3
import Verif.ReducerMPProofs

/-! The bits set by the parallel reducer. -/

namespace TdZdd

namespace Attr

variable {N : Nat}

/-! ## leaving out the bits -/

theorem mpScan_fst (bdd zdd : Bool) (nr i tasks : Nat) (x : MpSt N × Bits (N + 1)) (e : Nat × Nat) :
    (mpScan bdd zdd nr i tasks x e).map (·.1) = TdZdd.mpScan bdd zdd nr i tasks x.1 e := by
  unfold mpScan TdZdd.mpScan
  simp only [Option.bind_eq_bind, Option.map_bind, Function.comp_def, apply_ite (Option.map _), Option.map_some, Option.map_none]

theorem mpEntry_fst (i x : Nat) (a : TaskSt N × Bits (N + 1)) (e : Nat × Node (N + 1)) :
    (mpEntry i x a e).map (·.1) = TdZdd.mpEntry i x a.1 e := by
  unfold mpEntry TdZdd.mpEntry
  simp only [Option.bind_eq_bind, Option.map_bind, Function.comp_def, apply_ite (Option.map _), Option.map_some, Option.map_none]

theorem mpTask_fst (i threads : Nat) (a : MpSt N × Bits (N + 1)) (e : Nat × Nat) :
    (mpTask i threads a e).map (·.1) = TdZdd.mpTask i threads a.1 e := by
  unfold mpTask TdZdd.mpTask
  simp only [Option.bind_eq_bind, Option.map_bind, Function.comp_def, apply_ite (Option.map _), Option.map_some]
  congr 1
  cases HT.init ((taskList threads a.1.matrix e.2).length * 2) (a.1.uniq e.1) with
  | none => rfl
  | some u =>
    simp only [Option.bind_some]
    rw [← foldlM_fst Prod.fst (mpEntry_fst i e.2) _ ({ st := a.1.st, uniq := u, j := 0 }, a.2)]
    cases (taskList threads a.1.matrix e.2).foldlM (mpEntry i e.2) ({ st := a.1.st, uniq := u, j := 0 }, a.2) <;> rfl

theorem mpCopy_fst (nr i tasks : Nat) (base : Nat → Nat) (a : (RSt (N + 1) × List (Option (Node (N + 1)))) × Bits (N + 1)) (j : Nat) :
    (mpCopy nr i tasks base a j).map (·.1) = TdZdd.mpCopy nr i tasks base a.1 j := by
  unfold mpCopy TdZdd.mpCopy
  simp only [Option.bind_eq_bind, Option.map_bind, Function.comp_def, apply_ite (Option.map _), Option.map_some, Option.map_none]

/-- a level without the bits -/
theorem mpLevel_fst (bdd zdd : Bool) (threads tasks nr top : Nat) (lower : Nat → List Nat) (sched : Nat → MpSched) (a : (RSt (N + 1) × (Nat → Nat)) × Bits (N + 1)) (i : Nat) :
    (mpLevel bdd zdd threads tasks nr top lower sched a i).map (·.1) = TdZdd.mpLevel bdd zdd threads tasks nr top lower sched a.1 i := by
  unfold mpLevel TdZdd.mpLevel
  simp only [Option.bind_eq_bind, Option.map_bind, Function.comp_def, Option.map_some]
  rw [← foldlM_fst Prod.fst (mpScan_fst bdd zdd nr i tasks) _ ({ st := { a.1.1 with newId := upd a.1.1.newId i (List.replicate (a.1.1.input i).length none) }, matrix := fun _ _ => [], uniq := fun _ => HT.empty, base := a.1.2 }, a.2)]
  cases (sched i).p1.foldlM (mpScan bdd zdd nr i tasks) ({ st := { a.1.1 with newId := upd a.1.1.newId i (List.replicate (a.1.1.input i).length none) }, matrix := fun _ _ => [], uniq := fun _ => HT.empty, base := a.1.2 }, a.2) with
  | none => rfl
  | some x =>
    simp only [Option.bind_some, Option.map_some]
    rw [← foldlM_fst Prod.fst (mpTask_fst i threads) _ ({ x.1 with st := { x.1.st with newId := clearIds (lower i) x.1.st.newId } }, x.2)]
    cases (sched i).p2.foldlM (mpTask i threads) ({ x.1 with st := { x.1.st with newId := clearIds (lower i) x.1.st.newId } }, x.2) with
    | none => rfl
    | some y =>
      simp only [Option.bind_some, Option.map_some]
      rw [← foldlM_fst Prod.fst (mpCopy_fst nr i tasks (mpSums tasks y.1.base)) _ ((y.1.st, List.replicate (mpSums tasks y.1.base tasks) none), y.2)]
      cases (sched i).p3.foldlM (mpCopy nr i tasks (mpSums tasks y.1.base)) ((y.1.st, List.replicate (mpSums tasks y.1.base tasks) none), y.2) with
      | none => rfl
      | some z => rfl

theorem reduceMP_fst (bdd zdd : Bool) (threads tasks : Nat) (E : Nat → List NodeId) (sched : Nat → MpSched) (D : Dd (N + 1)) (inp : NodeId → Fin (N + 1) → Bool) (root : Bool) :
    (reduceMP bdd zdd threads tasks E sched D inp root).map (·.1) = D.reduceMP bdd zdd threads tasks E sched := by
  unfold reduceMP Dd.reduceMP
  simp only [Option.bind_eq_bind, Option.map_bind, Function.comp_def, Option.map_some]
  cases makeIndexOrd (D.table.numRows - 1) E with
  | none => rfl
  | some idx =>
    simp only [Option.bind_some]
    rw [← foldlM_fst Prod.fst (mpLevel_fst bdd zdd threads tasks D.table.numRows D.root.row idx.2 sched) _ ((reduceInit D, fun _ => 0), start inp root)]
    cases (levelsUp D.root.row).foldlM (mpLevel bdd zdd threads tasks D.table.numRows D.root.row idx.2 sched) ((reduceInit D, fun _ => 0), start inp root) <;> rfl

/-! ## the bits of one level -/

section
variable {bdd zdd : Bool} {nr i m tasks threads : Nat} {c : Nat → Node (N + 1)} {row : List (Node (N + 1))} {E : NodeId → Bool}

/-- the first loop; `pre` are the executed iterations -/
structure MB1 (bdd zdd : Bool) (i : Nat) (c : Nat → Node (N + 1)) (E : NodeId → Bool) (s0 : Bits (N + 1)) (pre : List (Nat × Nat)) (s : Bits (N + 1)) : Prop where
  cells : ∀ {j : Nat}, j ∈ pre.map (·.2) → ∀ b, s.input ⟨i, j⟩ b = E (c j b)
  del : ∀ {j : Nat}, j ∈ pre.map (·.2) → delN bdd zdd (c j) = true → s.newId i j = E (c j 0)
  other : ∀ r, r ≠ i → s.newId r = s0.newId r
  out : s.output = s0.output
  root : s.root = s0.root

theorem mpScan_bits {p0 : MpSt N} (hp : PreN nr i m c row p0.st) (htask : 0 < tasks) {s0 : Bits (N + 1)}
    (hb : ∀ {j : Nat} {nd : Node (N + 1)} (b : Fin (N + 1)), row[j]? = some nd → s0.newId (nd b).row (nd b).col = E (c j b))
    {pre : List (Nat × Nat)} {e : Nat × Nat} (hj : e.2 < m) (hnew : e.2 ∉ pre.map (·.2)) {x : MpSt N × Bits (N + 1)}
    (h : J1 bdd zdd nr i m tasks c row p0 pre x.1) (hs : MB1 bdd zdd i c E s0 pre x.2) :
    ∃ x', mpScan bdd zdd nr i tasks x e = some x' ∧ J1 bdd zdd nr i m tasks c row p0 (pre ++ [e]) x'.1 ∧ MB1 bdd zdd i c E s0 (pre ++ [e]) x'.2 := by
  obtain ⟨a', ea, h'⟩ := mpScan_spec hp htask hj hnew h
  have hfst := mpScan_fst bdd zdd nr i tasks x e
  rw [ea, Option.map_eq_some_iff] at hfst
  obtain ⟨x', e', rfl⟩ := hfst
  refine ⟨x', e', h', ?_⟩
  obtain ⟨y, t⟩ := e
  dsimp only at hj hnew
  obtain ⟨nd, hnd⟩ := getElem?_of_lt (l := row) (i := t) (by rw [hp.len]; exact hj)
  have hat : nodeAt nr x.1.st.input ⟨i, t⟩ = some nd := by rw [h.todo hnew, hnd]
  have hmap : mapNode x.1.st.look nd = some (c t) := by
    refine allSome_of fun b => ?_
    obtain ⟨h1, h2⟩ := hp.map b hnd
    rw [← h2]
    unfold RSt.look
    rw [h.ids _ (by omega)]
  obtain ⟨T1, e1, w1⟩ := setNode_spec (c t) hat
  have hcb : ∀ b, x.2.newId (nd b).row (nd b).col = E (c t b) := by
    intro b
    rw [hs.other _ (by have := (hp.map b hnd).1; omega)]
    exact hb b hnd
  have hmem : ∀ {j : Nat}, j ∈ (pre ++ [(y, t)]).map (·.2) ↔ j ∈ pre.map (·.2) ∨ j = t := by
    intro j; simp
  have cells : ∀ {j : Nat}, j ∈ (pre ++ [(y, t)]).map (·.2) → ∀ b, (x.2.setNode ⟨i, t⟩ fun b => x.2.newId (nd b).row (nd b).col).input ⟨i, j⟩ b = E (c j b) := by
    intro j hj b
    dsimp only [Bits.setNode]
    by_cases e : j = t
    · subst e; rw [if_pos rfl]; exact hcb b
    · rw [if_neg (fun e' => e (congrArg NodeId.col e'))]; exact hs.cells ((hmem.1 hj).resolve_right e) b
  unfold mpScan at e'
  simp only [hat, hmap, e1, Option.bind_eq_bind, Option.bind_some] at e'
  by_cases hdel : delN bdd zdd (c t) = true
  · rw [if_pos hdel, setId_spec (st := { x.1.st with input := T1 }) _ (show t < (x.1.st.newId i).length by rw [h.idlen]; exact hj)] at e'
    simp only [Option.bind_some, Option.some.injEq] at e'
    subst e'
    refine ⟨cells, ?_, ?_, hs.out, hs.root⟩
    · intro j hj' hd
      dsimp only [Bits.setId]
      by_cases e : j = t
      · subst e; rw [if_pos ⟨rfl, rfl⟩]; exact cells hj' 0
      · rw [if_neg (fun e' => e e'.2)]; exact hs.del ((hmem.1 hj').resolve_right e) hd
    · intro r hr
      dsimp only [Bits.setId, Bits.setNode]
      funext q
      rw [if_neg (fun e' => hr e'.1), hs.other r hr]
  · rw [if_neg hdel, if_neg (by omega)] at e'
    simp only [Option.some.injEq] at e'
    subst e'
    refine ⟨cells, ?_, hs.other, hs.out, hs.root⟩
    intro j hj' hd
    refine hs.del ((hmem.1 hj').resolve_right fun e => ?_) hd
    rw [e] at hd; exact hdel hd

/-- one task; `pre` are the handled entries -/
structure MB2 (i : Nat) (c : Nat → Node (N + 1)) (E : NodeId → Bool) (s0 : Bits (N + 1)) (pre : List (Nat × Node (N + 1))) (s : Bits (N + 1)) : Prop where
  fin : ∀ {j : Nat}, j ∈ pre.map (·.1) → s.newId i j = hasEmpty (c j 0) (E (c j 0))
  old : ∀ {j : Nat}, j ∉ pre.map (·.1) → s.newId i j = s0.newId i j
  other : ∀ r, r ≠ i → s.newId r = s0.newId r
  inp : s.input = s0.input
  out : s.output = s0.output
  root : s.root = s0.root

theorem mpEntry_bits {x : Nat} {st0 : RSt (N + 1)} (hix : i + x < 2 ^ 20) {pre : List (Nat × Node (N + 1))} {s0 : Bits (N + 1)}
    {t : Nat} (ht : t < m) (hnew : t ∉ pre.map (·.1)) {outs : List Nat} {a : TaskSt N × Bits (N + 1)}
    (hc : ∀ b, s0.input ⟨i, t⟩ b = E (c t b))
    (h : J2 i m x c st0 pre outs a.1) (hs : MB2 i c E s0 pre a.2) :
    ∃ outs' a', mpEntry i x a (t, c t) = some a' ∧ J2 i m x c st0 (pre ++ [(t, c t)]) outs' a'.1 ∧ MB2 i c E s0 (pre ++ [(t, c t)]) a'.2 := by
  obtain ⟨outs', a', ea, h'⟩ := mpEntry_spec hix ht hnew h
  have hfst := mpEntry_fst i x a (t, c t)
  rw [ea, Option.map_eq_some_iff] at hfst
  obtain ⟨a', e', rfl⟩ := hfst
  refine ⟨outs', a', e', h', ?_⟩
  have hlen : (a.1.st.newId i).length = m := by
    obtain ⟨l, hl, e⟩ := h.eqs
    rw [e]; simp [upd, hl]
  have hmem : ∀ {j : Nat}, j ∈ (pre ++ [(t, c t)]).map (·.1) ↔ j ∈ pre.map (·.1) ∨ j = t := by
    intro j; simp
  have fin : ∀ v, v = hasEmpty (c t 0) (E (c t 0)) → MB2 i c E s0 (pre ++ [(t, c t)]) (a.2.setId i t v) := by
    intro v hv
    refine ⟨?_, ?_, ?_, hs.inp, hs.out, hs.root⟩
    · intro j hj
      dsimp only [Bits.setId]
      by_cases e : j = t
      · subst e; rw [if_pos ⟨rfl, rfl⟩]; exact hv
      · rw [if_neg (fun e' => e e'.2)]; exact hs.fin ((hmem.1 hj).resolve_right e)
    · intro j hj
      dsimp only [Bits.setId]
      rw [if_neg (fun e' => hj (hmem.2 (.inr e'.2)))]
      exact hs.old fun e => hj (hmem.2 (.inl e))
    · intro r hr
      dsimp only [Bits.setId]
      funext q
      rw [if_neg (fun e' => hr e'.1), hs.other r hr]
  unfold mpEntry at e'
  obtain ⟨u, z, e2, h2, _, h3⟩ := h.tab.add nodeLaw (x := (t, c t)) trivial
  simp only [e2, Option.bind_eq_bind, Option.bind_some, h3] at e'
  cases hf : (outs.map fun k => (k, c k)).find? (fun e => nodeEq e (t, c t)) with
  | none =>
    rw [hf] at e'
    simp only [Option.getD_none, if_true] at e'
    rw [if_pos hix, setId_spec _ (by rw [hlen]; exact ht)] at e'
    simp only [Option.bind_some, Option.some.injEq] at e'
    subst e'
    exact fin _ (by rw [hs.inp, hc])
  | some e =>
    rw [hf] at e'
    have hmem' := List.mem_of_find?_eq_some hf
    obtain ⟨k, hk, rfl⟩ := List.mem_map.1 hmem'
    have hck : c k = c t := nodeEq_iff.1 (by simpa using List.find?_some hf)
    have hkt : k ≠ t := fun e => hnew (by rw [← e]; exact h.outsOk hk)
    obtain ⟨q, hq⟩ := List.mem_iff_getElem?.1 hk
    simp only [Option.getD_some] at e'
    have hl : a.1.st.look ⟨i, k⟩ = some ⟨i + x, q⟩ := by
      unfold RSt.look; dsimp only; rw [h.keep hq]; rfl
    rw [if_neg hkt, hl] at e'
    simp only [Option.bind_some] at e'
    rw [setId_spec _ (by rw [hlen]; exact ht)] at e'
    simp only [Option.bind_some, Option.some.injEq] at e'
    subst e'
    exact fin _ (by rw [hs.fin (h.outsOk hk), hck])

/-- the second loop; `pre` are the finished tasks -/
structure MB3 (bdd zdd : Bool) (i m tasks : Nat) (c : Nat → Node (N + 1)) (E : NodeId → Bool) (s0 : Bits (N + 1)) (pre : List Nat) (s : Bits (N + 1)) : Prop where
  fin : ∀ {x j : Nat}, x ∈ pre → j < m → InTask bdd zdd tasks c x j → s.newId i j = hasEmpty (c j 0) (E (c j 0))
  del : ∀ {j : Nat}, j < m → delN bdd zdd (c j) = true → s.newId i j = s0.newId i j
  other : ∀ r, r ≠ i → s.newId r = s0.newId r
  inp : s.input = s0.input
  out : s.output = s0.output
  root : s.root = s0.root

theorem mpTask_bits {p1 : MpSt N} {x y : Nat} (hix : i + x < 2 ^ 20) {s0 : Bits (N + 1)}
    (hl : ∀ j d, (j, d) ∈ taskList threads p1.matrix x ↔ j < m ∧ d = c j ∧ InTask bdd zdd tasks c x j)
    (hnd : ((taskList threads p1.matrix x).map (·.1)).Nodup) {pre : List Nat} (hx : x ∉ pre) {outs : Nat → List Nat}
    (hc : ∀ {j : Nat}, j < m → ∀ b, s0.input ⟨i, j⟩ b = E (c j b))
    {a : MpSt N × Bits (N + 1)} (h : J3 bdd zdd i m tasks c p1 pre outs a.1) (hs : MB3 bdd zdd i m tasks c E s0 pre a.2) :
    ∃ outs' a', mpTask i threads a (y, x) = some a' ∧ J3 bdd zdd i m tasks c p1 (pre ++ [x]) outs' a'.1 ∧ MB3 bdd zdd i m tasks c E s0 (pre ++ [x]) a'.2 := by
  obtain ⟨outs', a', ea, h'⟩ := mpTask_spec (y := y) hix hl hnd hx h
  have hfst := mpTask_fst i threads a (y, x)
  rw [ea, Option.map_eq_some_iff] at hfst
  obtain ⟨a', e', rfl⟩ := hfst
  refine ⟨outs', a', e', h', ?_⟩
  have hmem : ∀ {x' : Nat}, x' ∈ pre ++ [x] ↔ x' ∈ pre ∨ x' = x := by
    intro x'; simp
  unfold mpTask at e'
  dsimp only at e'
  rw [h.mat] at e'
  by_cases h0 : (taskList threads p1.matrix x).length = 0
  · rw [if_pos h0] at e'
    have hemp : taskList threads p1.matrix x = [] := List.eq_nil_of_length_eq_zero h0
    simp only [Option.some.injEq] at e'
    subst e'
    refine ⟨?_, hs.del, hs.other, hs.inp, hs.out, hs.root⟩
    intro x' j hx' hj hin
    rcases hmem.1 hx' with hx' | rfl
    · exact hs.fin hx' hj hin
    · have := (hl j (c j)).2 ⟨hj, rfl, hin⟩
      rw [hemp] at this; cases this
  · rw [if_neg h0] at e'
    obtain ⟨u, eu, hok, _, _, hsz, hemp⟩ := HT.init_spec (hash := nodeHash (N := N)) (eq := nodeEq) (P := fun _ => True)
      ((taskList threads p1.matrix x).length * 2) (a.1.uniq y)
    obtain ⟨lst, hlst, est⟩ := h.eqs
    obtain ⟨r, er, os, hr, hbr⟩ := foldlM_inv (f := mpEntry i x)
      (fun pre (r : TaskSt N × Bits (N + 1)) => ∃ os, J2 i m x c a.1.st pre os r.1 ∧ MB2 i c E a.2 pre r.2) (taskList threads p1.matrix x)
      ({ st := a.1.st, uniq := u, j := 0 }, a.2)
      ⟨[], ⟨⟨lst, hlst, by
          dsimp only
          rw [est]
          dsimp only
          congr 1
          funext r
          unfold upd
          by_cases hr : r = i
          · rw [if_pos hr, if_pos hr]
          · rw [if_neg hr, if_neg hr]⟩, fun _ => rfl, fun hj => by simp at hj, fun hq => by simp at hq,
        fun hk => by simp at hk, fun hq => by simp at hq, ⟨hok, fun e => by simp [hemp e], by simpa using hsz, by simp⟩, rfl⟩,
        ⟨fun hj => by simp at hj, fun _ => rfl, fun _ _ => rfl, rfl, rfl, rfl⟩⟩
      (by
        rintro pre e post r he ⟨os, hr, hbr⟩
        obtain ⟨j, d⟩ := e
        obtain ⟨h1, h2, h3⟩ := (hl j d).1 (by rw [he]; simp)
        subst h2
        rw [he, List.map_append, List.map_cons] at hnd
        obtain ⟨os', r', e', hr', hbr'⟩ := mpEntry_bits hix h1 (by
          intro hm
          exact (List.nodup_append.1 hnd).2.2 _ hm _ (by simp) rfl) (by rw [hs.inp]; exact hc h1) hr hbr
        exact ⟨r', e', os', hr', hbr'⟩)
    simp only [eu, er, Option.bind_eq_bind, Option.bind_some, Option.some.injEq] at e'
    subst e'
    have hcols : ∀ {j}, j ∈ (taskList threads p1.matrix x).map (·.1) ↔ j < m ∧ InTask bdd zdd tasks c x j := by
      intro j
      constructor
      · intro hm
        obtain ⟨⟨j', d⟩, h1, h2⟩ := List.mem_map.1 hm
        dsimp only at h2
        subst h2
        obtain ⟨h3, _, h4⟩ := (hl _ _).1 h1
        exact ⟨h3, h4⟩
      · rintro ⟨h1, h2⟩
        exact List.mem_map.2 ⟨(j, c j), (hl _ _).2 ⟨h1, rfl, h2⟩, rfl⟩
    refine ⟨?_, ?_, ?_, hbr.inp.trans hs.inp, hbr.out.trans hs.out, hbr.root.trans hs.root⟩
    · intro x' j hx' hj hin
      by_cases e : x' = x
      · subst e
        exact hbr.fin (hcols.2 ⟨hj, hin⟩)
      · dsimp only
        rw [hbr.old fun hm => e (hin.2.symm.trans (hcols.1 hm).2.2)]
        exact hs.fin ((hmem.1 hx').resolve_right e) hj hin
    · intro j hj hd
      dsimp only
      rw [hbr.old fun hm => by
        have := (hcols.1 hm).2.1
        rw [hd] at this; cases this]
      exact hs.del hj hd
    · intro r' hr'
      dsimp only
      rw [hbr.other r' hr', hs.other r' hr']

theorem foldlM_exec {α β : Type} {f : β → α → Option β} (P : β → Prop) (h : ∀ x a x', P x → f x a = some x' → P x') :
    ∀ (l : List α) {x y : β}, P x → l.foldlM f x = some y → P y := by
  intro l
  induction l with
  | nil => intro x y hx e; rw [List.foldlM_nil] at e; exact Option.some.inj e ▸ hx
  | cons a l ih =>
    intro x y hx e
    rw [List.foldlM_cons] at e
    cases hf : f x a with
    | none => rw [hf] at e; cases e
    | some x' => rw [hf] at e; exact ih (h _ _ _ hx hf) e

/-- the third loop -/
structure MB4 (i : Nat) (E : NodeId → Bool) (T : Rows (N + 1)) (s0 : Bits (N + 1)) (a : (RSt (N + 1) × List (Option (Node (N + 1)))) × Bits (N + 1)) : Prop where
  tab : a.1.1.input = T
  row : ∀ {p : Nat} {nd : Node (N + 1)}, a.1.2[p]? = some (some nd) → ∀ b, a.2.output ⟨i, p⟩ b = E (nd b)
  ids : a.2.newId = s0.newId
  inp : a.2.input = s0.input
  low : ∀ f : NodeId, f.row ≠ i → a.2.output f = s0.output f
  root : a.2.root = s0.root

theorem setId_input {st st' : RSt (N + 1)} {i j : Nat} {v : NodeId} (h : st.setId i j v = some st') : st'.input = st.input ∧ st'.root = st.root := by
  unfold RSt.setId at h
  split at h
  · cases h; exact ⟨rfl, rfl⟩
  · cases h

theorem mpCopy_bits {base : Nat → Nat} {T : Rows (N + 1)} {s0 : Bits (N + 1)}
    (hc : ∀ {j : Nat} {nd : Node (N + 1)}, nodeAt nr T ⟨i, j⟩ = some nd → ∀ b, s0.input ⟨i, j⟩ b = E (nd b))
    {a a' : (RSt (N + 1) × List (Option (Node (N + 1)))) × Bits (N + 1)} {j : Nat} (h : MB4 i E T s0 a) (e : mpCopy nr i tasks base a j = some a') :
    MB4 i E T s0 a' := by
  unfold mpCopy at e
  simp only [Option.bind_eq_bind] at e
  rw [Option.bind_eq_some_iff] at e
  obtain ⟨ff, _, e⟩ := e
  split at e
  · split at e
    · rw [Option.bind_eq_some_iff] at e
      obtain ⟨st, e1, e⟩ := e
      rw [Option.bind_eq_some_iff] at e
      obtain ⟨nd, e2, e⟩ := e
      have hst : st.input = T := (setId_input e1).1.trans h.tab
      rw [hst] at e2
      split at e
      · rename_i hlt
        cases e
        refine ⟨hst, ?_, ?_, h.inp, ?_, h.root⟩
        · intro p nd' hp b
          dsimp only [Bits.setOut] at hp ⊢
          by_cases ep : p = ff.col + base (ff.row - i)
          · rw [ep, List.getElem?_set_self hlt] at hp
            cases hp
            rw [ep, if_pos rfl, h.inp]
            exact hc e2 b
          · rw [List.getElem?_set_ne (by omega)] at hp
            rw [if_neg (fun e' => ep (congrArg NodeId.col e'))]
            exact h.row hp b
        · rw [← h.ids]
          dsimp only [Bits.setOut, Bits.setId]
          funext r q
          by_cases hrq : r = i ∧ q = j
          · rw [if_pos hrq, hrq.1, hrq.2]
          · rw [if_neg hrq]
        · intro f hf
          dsimp only [Bits.setOut]
          rw [if_neg (fun e' => hf (by rw [e']))]
          exact h.low f hf
      · cases e
    · cases e
  · cases e; exact h

theorem fullRow_inv {l : List (Option (Node N))} {r : List (Node N)} (h : fullRow l = some r) {p : Nat} {x : Node N} (hx : r[p]? = some x) :
    l[p]? = some (some x) := by
  have : ∀ (l : List (Option (Node N))) (r : List (Node N)), fullRow l = some r → l = r.map some := by
    intro l
    induction l with
    | nil =>
      intro r h
      have : r = [] := by simpa [fullRow] using h.symm
      rw [this]; rfl
    | cons a l ih =>
      intro r h
      unfold fullRow at h
      rw [List.mapM_cons] at h
      simp only [id, Option.bind_eq_bind] at h
      rw [Option.bind_eq_some_iff] at h
      obtain ⟨y, e1, h⟩ := h
      rw [Option.bind_eq_some_iff] at h
      obtain ⟨ys, e2, h⟩ := h
      cases h
      rw [List.map_cons, ← ih ys e2, e1]
  rw [this l r h, List.getElem?_map, hx]; rfl

theorem mpLevel_bits {top : Nat} {lower : Nat → List Nat} {sched : Nat → MpSched} {st : RSt (N + 1)} {base : Nat → Nat} {s0 : Bits (N + 1)}
    (hp : PreN nr i m c row { st with newId := upd st.newId i (List.replicate m none) })
    (hlo : ∀ r ∈ lower i, r < i) (hroot : i = top → st.root.col < m) (htask : 0 < tasks) (hix : i + tasks ≤ 2 ^ 20)
    (hs : (sched i).Ok threads tasks m) (hb0 : base 0 = 0)
    (hb : ∀ {j : Nat} {nd : Node (N + 1)} (b : Fin (N + 1)), row[j]? = some nd → s0.newId (nd b).row (nd b).col = E (c j b)) :
    ∃ st' base' s' ids out, mpLevel bdd zdd threads tasks nr top lower sched ((st, base), s0) i = some ((st', base'), s') ∧
      LevelN bdd zdd top i m c (lower i) st st' ids out ∧ base' 0 = 0 ∧ BLevel (delN bdd zdd) top i m c E out st.root.col s0 s' := by
  obtain ⟨st', base', ids, out, e, L, hb'⟩ := mpLevel_spec (bdd := bdd) (zdd := zdd) (top := top) (lower := lower) (base := base) hp hlo hroot htask hix hs hb0
  have hfst := mpLevel_fst bdd zdd threads tasks nr top lower sched ((st, base), s0) i
  rw [e, Option.map_eq_some_iff] at hfst
  obtain ⟨⟨st'', s'⟩, e', e''⟩ := hfst
  dsimp only at e''
  subst e''
  refine ⟨st', base', s', ids, out, e', L, hb', ?_⟩
  have hm : (st.input i).length = m := by rw [← hp.len, ← hp.inp]
  have hni : i ∉ lower i := fun h => absurd (hlo i h) (Nat.lt_irrefl _)
  -- first loop
  have hnd1 : ((sched i).p1.map (·.2)).Nodup := hs.cols1.nodup_iff.2 List.nodup_range
  obtain ⟨x1, e1, h1, b1⟩ := foldlM_inv (f := mpScan bdd zdd nr i tasks)
    (fun pre (a : MpSt N × Bits (N + 1)) => J1 bdd zdd nr i m tasks c row
      { st := { st with newId := upd st.newId i (List.replicate m none) }, matrix := fun _ _ => [], uniq := fun _ => HT.empty,
        base := base } pre a.1 ∧ MB1 bdd zdd i c E s0 pre a.2) (sched i).p1
    ({ st := { st with newId := upd st.newId i (List.replicate m none) }, matrix := fun _ _ => [], uniq := fun _ => HT.empty, base := base }, s0)
    ⟨⟨fun hj => by simp at hj, fun _ => by unfold nodeAt; rw [if_pos hp.hi]; exact congrArg (·[_]?) hp.inp, fun _ _ => rfl,
      fun _ _ => rfl, by simp [upd], fun hj => by simp at hj, fun y x j d => by simp, fun y x => by simp, rfl, rfl, rfl⟩,
      ⟨fun hj => by simp at hj, fun hj => by simp at hj, fun _ _ => rfl, rfl, rfl⟩⟩
    (by
      intro pre e post a he h
      have hmem : e.2 ∈ (sched i).p1.map (·.2) := by rw [he]; simp
      refine mpScan_bits hp htask hb (List.mem_range.1 (hs.cols1.mem_iff.1 hmem)) ?_ h.1 h.2
      rw [he, List.map_append, List.map_cons] at hnd1
      intro hm
      exact (List.nodup_append.1 hnd1).2.2 _ hm _ (by simp) rfl)
  have hcol1 : ∀ {j}, j < m → j ∈ (sched i).p1.map (·.2) := fun hj => hs.cols1.mem_iff.2 (List.mem_range.2 hj)
  -- second loop
  have hnd2 : ((sched i).p2.map (·.2)).Nodup := hs.tasks2.nodup_iff.2 List.nodup_range
  have hclr : clearIds (lower i) x1.1.st.newId i = x1.1.st.newId i := by rw [clearIds_at, if_neg hni]
  generalize hs1' : ({ x1.1 with st := { x1.1.st with newId := clearIds (lower i) x1.1.st.newId } } : MpSt N) = s1'
  have e_mat : s1'.matrix = x1.1.matrix := by rw [← hs1']
  have e_id : s1'.st.newId i = x1.1.st.newId i := by rw [← hs1']; exact hclr
  obtain ⟨x2, e2, outs, h2, b2⟩ := foldlM_inv (f := mpTask i threads)
    (fun pre (a : MpSt N × Bits (N + 1)) => ∃ outs, J3 bdd zdd i m tasks c s1' (pre.map (·.2)) outs a.1 ∧ MB3 bdd zdd i m tasks c E x1.2 (pre.map (·.2)) a.2) (sched i).p2 (s1', x1.2)
    ⟨fun _ => [], ⟨⟨s1'.st.newId i, by rw [e_id]; exact h1.idlen, by
        have : upd s1'.st.newId i (s1'.st.newId i) = s1'.st.newId := by
          funext r
          by_cases hr : r = i
          · rw [hr, upd_eq_self]
          · rw [upd_eq_ne _ _ hr]
        rw [this]⟩, fun _ _ => rfl, rfl, fun hx => by simp at hx, fun hx => by simp at hx, rfl⟩,
      ⟨fun hx => by simp at hx, fun _ _ => rfl, fun _ _ => rfl, rfl, rfl, rfl⟩⟩
    (by
      rintro pre ⟨y, x⟩ post a he ⟨outs, h, hB⟩
      have hmem : x ∈ (sched i).p2.map (·.2) := by rw [he]; simp
      have hxt : x < tasks := List.mem_range.1 (hs.tasks2.mem_iff.1 hmem)
      obtain ⟨t1, t2⟩ := taskList_spec hs h1 x
      rw [← e_mat] at t1 t2
      obtain ⟨outs', a', e', h', hB'⟩ := mpTask_bits (y := y) (pre := pre.map (·.2)) (by omega) t1 t2 (by
        rw [he, List.map_append, List.map_cons] at hnd2
        intro hm
        exact (List.nodup_append.1 hnd2).2.2 _ hm _ (by simp) rfl) (fun hj => b1.cells (hcol1 hj)) h hB
      refine ⟨a', e', outs', ?_⟩
      rw [List.map_append]
      exact ⟨h', hB'⟩)
  have hids2 : ∀ {j : Nat}, j < m → x2.2.newId i j = bitOf (delN bdd zdd (c j)) E (c j) := by
    intro j hj
    unfold bitOf
    cases hd : delN bdd zdd (c j) with
    | true => rw [if_pos rfl, b2.del hj hd]; exact b1.del (hcol1 hj) hd
    | false =>
      rw [if_neg Bool.false_ne_true]
      exact b2.fin (hs.tasks2.mem_iff.2 (List.mem_range.2 (Nat.mod_lt _ htask))) hj ⟨hd, rfl⟩
  obtain ⟨l2, hl2, est2⟩ := h2.eqs
  have hin2 : x2.1.st.input = x1.1.st.input := by rw [est2, ← hs1']
  have hroot2 : x2.1.st.root = st.root := by rw [est2, ← hs1']; exact h1.root
  have hcell : ∀ {j : Nat} {nd : Node (N + 1)}, nodeAt nr x1.1.st.input ⟨i, j⟩ = some nd → ∀ b, x2.2.input ⟨i, j⟩ b = E (nd b) := by
    intro j nd hnd b
    have hj : j < m := by
      apply Classical.byContradiction
      intro hge
      rw [h1.todo fun hm => hge (List.mem_range.1 (hs.cols1.mem_iff.1 hm))] at hnd
      exact hge (by rw [← hp.len]; exact getElem?_lt hnd)
    rw [h1.done (hcol1 hj)] at hnd
    cases hnd
    rw [b2.inp]
    exact b1.cells (hcol1 hj) b
  -- third loop
  unfold mpLevel at e'
  simp only [hm, Option.bind_eq_bind, e1, Option.bind_some, hs1', e2] at e'
  rw [Option.bind_eq_some_iff] at e'
  obtain ⟨z, e3, e'⟩ := e'
  rw [Option.bind_eq_some_iff] at e'
  obtain ⟨orow, e4, e'⟩ := e'
  rw [Option.bind_eq_some_iff] at e'
  obtain ⟨st4, e5, e'⟩ := e'
  simp only [Option.some.injEq, Prod.mk.injEq] at e'
  obtain ⟨⟨e6, _⟩, e7⟩ := e'
  subst e6
  have b4 : MB4 i E x1.1.st.input x2.2 z := foldlM_exec (MB4 i E x1.1.st.input x2.2) (fun _ _ _ h e => mpCopy_bits hcell h e) _
    ⟨hin2, (fun hp => by
      rw [List.getElem?_replicate] at hp
      split at hp
      · cases hp
      · cases hp), rfl, rfl, fun _ _ => rfl, rfl⟩ e3
  have hroot3 : z.1.1.root = st.root := by
    refine foldlM_exec (fun z : (RSt (N + 1) × List (Option (Node (N + 1)))) × Bits (N + 1) => z.1.1.root = st.root) ?_ _ hroot2 e3
    intro a j a' ha ea
    unfold mpCopy at ea
    simp only [Option.bind_eq_bind] at ea
    rw [Option.bind_eq_some_iff] at ea
    obtain ⟨ff, _, ea⟩ := ea
    split at ea
    · split at ea
      · rw [Option.bind_eq_some_iff] at ea
        obtain ⟨st, g1, ea⟩ := ea
        rw [Option.bind_eq_some_iff] at ea
        obtain ⟨nd, _, ea⟩ := ea
        split at ea
        · cases ea; exact (setId_input g1).2.trans ha
        · cases ea
      · cases ea
    · cases ea; exact ha
  have hout : st4.output i = orow := by
    unfold rootUpdate at e5
    by_cases ht : i = top
    · rw [if_pos ht, Option.map_eq_some_iff] at e5
      obtain ⟨f, _, e5⟩ := e5
      rw [← e5]; exact upd_eq_self _ _ _
    · rw [if_neg ht] at e5
      cases e5
      exact upd_eq_self _ _ _
  have horow : orow = out := by rw [← hout, L.out, upd_eq_self]
  subst horow
  have keyn : s'.newId = x2.2.newId := by
    rw [← e7]; unfold Bits.rootUpdate; by_cases ht : i = top
    · rw [if_pos ht]; exact b4.ids
    · rw [if_neg ht]; exact b4.ids
  have keyo : s'.output = z.2.output := by
    rw [← e7]; unfold Bits.rootUpdate; by_cases ht : i = top
    · rw [if_pos ht]
    · rw [if_neg ht]
  refine ⟨?_, ?_, ?_, ?_, ?_⟩
  · intro j hj; rw [keyn]; exact hids2 hj
  · intro r hr; rw [keyn, b2.other r hr, b1.other r hr]
  · intro q nd hq b
    rw [keyo]
    exact b4.row (fullRow_inv e4 hq) b
  · intro f hf; rw [keyo, b4.low f hf, b2.out, b1.out]
  · rw [keyn, ← e7]; unfold Bits.rootUpdate
    by_cases ht : i = top
    · rw [if_pos ht, if_pos ht]
      dsimp only
      rw [b4.ids, hroot3]
    · rw [if_neg ht, if_neg ht, b4.root, b2.root, b1.root]

end

/-! ## the whole reduction -/

open Classical in
theorem reduceMP_bits {bdd zdd : Bool} {threads tasks : Nat} {E : Nat → List NodeId} {sched : Nat → MpSched}
    {D : Dd (N + 1)} (hw : D.Wf) {inp : NodeId → Fin (N + 1) → Bool} {root : Bool} (hr0 : D.root.row = 0 → root = false)
    (htask : 0 < tasks) (hrow : D.root.row + tasks ≤ 2 ^ 20)
    (hE : ∀ i, 1 ≤ i → (E i).Perm (rowEdges (D.table.row i)))
    (hs : ∀ i, 1 ≤ i → i ≤ D.root.row → (sched i).Ok threads tasks (D.table.row i).length) :
    ∃ D' s, reduceMP bdd zdd threads tasks E sched D inp root = some (D', s) ∧ D.reduceMP bdd zdd threads tasks E sched = some D' ∧ Good D' s := by
  have hwt : Table.Wf ⟨D.table.numRows, (reduceInit D).input⟩ := Table.wf_congr (reduceInit_node D) hw.table
  have hin : ∀ i, 1 ≤ i → (reduceInit D).input i = D.table.row i := by
    intro i hi
    unfold reduceInit
    dsimp only
    rw [upd_eq_ne _ _ (by omega)]
  obtain ⟨hi0, lo, e0, hlo⟩ := makeIndexOrd_spec (E := fun i => if i = 0 then rowEdges ((reduceInit D).input 0) else E i)
    hwt.down (by
      intro i f
      by_cases h0 : i = 0
      · rw [if_pos h0, h0]
      · rw [if_neg h0, hin i (by omega)]
        exact (hE i (by omega)).mem_iff)
  rw [makeIndexOrd_congr (E' := E) fun i hi => if_neg (by omega)] at e0
  have hstart : ∃ nid, RInvN bdd zdd D.table.numRows D.root.row (reduceInit D).input D.root 0 nid (reduceInit D) := by
    refine ⟨id, redOf_zero fun r h0 => by unfold reduceInit; dsimp only; rw [if_neg (by omega)], fun _ _ => rfl,
      rfl, fun r h0 h1 => by omega, fun r h0 => by unfold reduceInit; dsimp only; rw [if_neg (by omega)], ?_, rfl⟩
    by_cases h : 0 < D.root.row
    · rw [if_pos h]; rfl
    · rw [if_neg h]; rfl
  obtain ⟨y, e2, ⟨nid, h⟩, _, F, hF⟩ := levelsUp_fold
    (f := mpLevel bdd zdd threads tasks D.table.numRows D.root.row lo sched)
    (fun k (x : (RSt (N + 1) × (Nat → Nat)) × Bits (N + 1)) =>
      (∃ nid, RInvN bdd zdd D.table.numRows D.root.row (reduceInit D).input D.root k nid x.1.1) ∧ x.1.2 0 = 0 ∧
      ∃ F, BInv D.root.row k F x.1.1 x.2)
    D.root.row ((reduceInit D, fun _ => 0), start inp root) ⟨hstart, rfl, _, BInv.start hr0 rfl rfl rfl rfl⟩
    (by
      rintro t ⟨⟨st, base⟩, s⟩ ht ⟨⟨nid, h⟩, hb, F, hF⟩
      dsimp only at h hb hF
      obtain ⟨nd, hnd⟩ := hw.root.pos (by omega)
      have hrlt : D.root.row < D.table.numRows ∧ D.root.col < (D.table.row D.root.row).length :=
        nodeAt_lt (T := D.table.row) hnd
      have hrc : D.root.col < ((reduceInit D).input D.root.row).length := by
        rw [hin _ (by omega)]
        exact hrlt.2
      have hso := hs (t + 1) (by omega) (by omega)
      rw [← hin (t + 1) (by omega)] at hso
      obtain ⟨nid', st', e, h'⟩ := h.stepWith (lower := lo) (lev := fun st0 i => if
          ∃ st' base' s' F', mpLevel bdd zdd threads tasks D.table.numRows D.root.row lo sched ((st, base), s) i = some ((st', base'), s') ∧
            (TdZdd.mpLevel bdd zdd threads tasks D.table.numRows D.root.row lo sched (st, base) i).map (·.1) = some st' ∧ base' 0 = 0 ∧ BInv D.root.row i F' st' s'
          then (TdZdd.mpLevel bdd zdd threads tasks D.table.numRows D.root.row lo sched (st0, base) i).map (·.1) else none) hwt (by
        intro c hp h1 h2
        obtain ⟨st', base', s', ids, out, e, L, hb', B⟩ := mpLevel_bits (bdd := bdd) (zdd := zdd) (threads := threads) (tasks := tasks) (sched := sched)
          (top := D.root.row) (lower := lo) (s0 := s) (E := F) hp h1 h2 htask (by omega) hso hb (by
            intro j nd b hj
            obtain ⟨g1, g2⟩ := hp.map b hj
            refine (hF.ids (f := nd b) (by omega) ?_).2
            rw [← g2]
            unfold RSt.look upd
            dsimp only
            rw [if_neg (by omega)])
        have ep : (TdZdd.mpLevel bdd zdd threads tasks D.table.numRows D.root.row lo sched (st, base) (t + 1)).map (·.1) = some st' := by
          rw [← mpLevel_fst bdd zdd threads tasks D.table.numRows D.root.row lo sched ((st, base), s) (t + 1), e]; rfl
        obtain ⟨F', hF'⟩ := hF.extend (fun b hj => hp.low b hj) L.row L.newId L.other L.out L.root B
        refine ⟨st', ids, out, ?_, L⟩
        exact (if_pos ⟨st', base', s', F', e, ep, hb', hF'⟩).trans ep) hlo rfl hrc (by omega)
      split at e
      · rename_i hex
        obtain ⟨st2, base2, s2, F2, g1, g2, g3, g4⟩ := hex
        rw [g2] at e
        cases e
        exact ⟨_, g1, ⟨nid', h'⟩, g3, F2, g4⟩
      · cases e)
  have e : reduceMP bdd zdd threads tasks E sched D inp root = some (reduceResult D y.1.1, y.2) := by
    unfold reduceMP
    simp only [e0, Option.bind_eq_bind, Option.bind_some, e2]
  refine ⟨_, _, e, ?_, F, hF.term, ?_, ?_⟩
  · rw [← reduceMP_fst bdd zdd threads tasks _ sched D inp root, e]; rfl
  · exact (hF.root (by omega)).2
  · intro f nd h0 hn
    have hn' : nodeAt D.table.numRows y.1.1.output f = some nd := hn
    have hf : f.row ≤ D.root.row := by
      apply Classical.byContradiction
      intro hlt
      have := (nodeAt_lt hn').2
      rw [h.outHigh _ (by omega)] at this
      simp at this
    have hq : (y.1.1.output f.row)[f.col]? = some nd := by
      unfold nodeAt at hn'
      by_cases hc : f.row < D.table.numRows
      · rw [if_pos hc] at hn'; exact hn'
      · rw [if_neg hc] at hn'; cases hn'
    obtain ⟨g1, g2⟩ := hF.node h0 hf hq
    exact ⟨g1, fun b => (g2 b).2⟩

end Attr

end TdZdd
