import Verif.AppParallel
import Verif.AppOpsProofs
import Verif.Props.QueensApp
import Verif.Props.NumlinApp
import Verif.Props.Cardinality
import Verif.Props.DdPaths

/-!
# C95: the option `-p` does not change what `ddqueens` and `ddnumlin` compute
-/

namespace TdZdd

open Queens Nl

/-- descending lists with the same members are equal -/
theorem desc_ext {x y : List Nat} (hx : x.Pairwise (· > ·)) (hy : y.Pairwise (· > ·)) (h : ∀ i, i ∈ x ↔ i ∈ y) : x = y := by
  have := CnfB.sorted_ext (List.pairwise_reverse.2 hx) (List.pairwise_reverse.2 hy) fun i => by rw [List.mem_reverse, List.mem_reverse, h]
  rw [← List.reverse_reverse x, this, List.reverse_reverse]

theorem SetLt.irrefl (x : List Nat) : ¬ SetLt x x := fun ⟨_, h1, h2, _⟩ => h1 h2

theorem SetLt.trans {x y z : List Nat} (h : SetLt x y) (h' : SetLt y z) : SetLt x z := by
  obtain ⟨i, h1, h2, h3⟩ := h
  obtain ⟨j, k1, k2, k3⟩ := h'
  rcases Nat.lt_trichotomy i j with h | h | h
  · exact ⟨j, fun hm => k1 ((h3 j h).1 hm), k2, fun l hl => (h3 l (by omega)).trans (k3 l hl)⟩
  · subst h; exact absurd h2 k1
  · exact ⟨i, h1, (k3 i h).1 h2, fun l hl => (h3 l hl).trans (k3 l (by omega))⟩

/-- lists in the order of the iterator with the same members are equal -/
theorem setLt_unique : ∀ {L L' : List (List Nat)}, L.Pairwise SetLt → L'.Pairwise SetLt → (∀ x, x ∈ L ↔ x ∈ L') → L = L'
  | [], [], _, _, _ => rfl
  | [], y :: L', _, _, h => absurd ((h y).2 (List.mem_cons_self ..)) (fun h => nomatch h)
  | x :: L, [], _, _, h => absurd ((h x).1 (List.mem_cons_self ..)) (fun h => nomatch h)
  | x :: L, y :: L', h1, h2, h => by
    rw [List.pairwise_cons] at h1 h2
    have hxy : x = y := by
      rcases List.mem_cons.1 ((h x).1 (List.mem_cons_self ..)) with e | e
      · exact e
      · rcases List.mem_cons.1 ((h y).2 (List.mem_cons_self ..)) with e' | e'
        · exact e'.symm
        · exact absurd ((h2.1 x e).trans (h1.1 y e')) (SetLt.irrefl _)
    subst hxy
    rw [setLt_unique h1.2 h2.2 fun z => ⟨fun hz => ?_, fun hz => ?_⟩]
    · rcases List.mem_cons.1 ((h z).1 (List.mem_cons_of_mem _ hz)) with e | e
      · subst e; exact absurd (h1.1 _ hz) (SetLt.irrefl _)
      · exact e
    · rcases List.mem_cons.1 ((h z).2 (List.mem_cons_of_mem _ hz)) with e | e
      · subst e; exact absurd (h2.1 _ hz) (SetLt.irrefl _)
      · exact e

/-- what the iterator yields depends on the family only -/
theorem Has.iterate_eq {n : Nat} {F : Asg 2 → Prop} {D D' : Dd 2} (h : Has n F D) (h' : Has n F D') {fuel steps fuel' steps' : Nat} {L L' : List (List Nat)}
    (e : D.iterate fuel steps = some L) (e' : D'.iterate fuel' steps' = some L') : L = L' := by
  refine setLt_unique (C34_order D h.wf _ _ _ e) (C34_order D' h'.wf _ _ _ e') fun x => ?_
  have key : ∀ {D D' : Dd 2} {f s f' s' : Nat} {L L' : List (List Nat)}, Has n F D → Has n F D' → D.iterate f s = some L → D'.iterate f' s' = some L' → x ∈ L → x ∈ L' := by
    intro D D' f s f' s' L L' h h' e e' hx
    obtain ⟨_, k1, k2⟩ := (C33_iteration D h.wf).2 _ _ _ e
    obtain ⟨_, _, k3⟩ := (C33_iteration D' h'.wf).2 _ _ _ e'
    have hb : ∀ i ∈ x, 1 ≤ i ∧ i ≤ n := fun i hi => ⟨((k1 x hx).2 i hi).1, Nat.le_trans ((k1 x hx).2 i hi).2 h.le⟩
    exact (k3 n h'.le x (k1 x hx).1 hb).2 ((h'.mem _).2 ((h.mem _).1 ((k2 n h.le x (k1 x hx).1 hb).1 hx)))
  exact ⟨key h h' e e', key h' h e' e⟩

/-- reduced structures with the same family are equal -/
theorem DdS.eq_of_family {n : Nat} {F : Asg 2 → Prop} {f g : DdS} (hf : f.Is n F) (hg : g.Is n F) (rf : f.Reduced) (rg : g.Reduced) : ddEq false f.dd g.dd = some true := by
  have hc : ∀ {f : DdS}, f.Reduced → Canon delZ f.dd.table := fun {f} r => ⟨fun {p nd} h0 hn hd => r.keep p nd h0 hn (hd 1 (by decide)), fun {p q nd} => r.uniq p q nd⟩
  obtain ⟨r, e, _, h2⟩ := C15_eq false f.dd g.dd hf.wf hg.wf hf.row0 hg.row0 (fun h => nomatch h)
  rw [e, (h2 (hc rf).uniq (hc rg).uniq).2]
  refine (hc rf).isoZ hf.wf.table hg.wf.table (hc rg) _ (Nat.le_refl _) hf.wf.root hg.wf.root n hf.le hg.le fun a => ?_
  rw [← hf.wf.zddMem_iff, ← hg.wf.zddMem_iff, hf.mem, hg.mem]

theorem Queens.madeP_is {S : Type} {e : Par} {n : Nat} (he : e.Ok n) (k : Nat) {sp : DdSpec 2 S} (p : Bool) {F : Asg 2 → Prop} (hl : LawfulC sp) (hm : NoMerge sp) (hn : sp.root.1 ≤ n)
    (hF : ∀ a, ZddMem sp n a ↔ F a) : ∃ f, madeP e k sp p = some f ∧ f.mp = p ∧ f.Is n F ∧ f.Reduced := by
  obtain ⟨f, e1, m1, h1⟩ := Par.make_is he k p hl.lawful hm hn hF
  obtain ⟨f', e2, m2, h2, r2⟩ := Par.reduce_is he (k + 1) h1
  exact ⟨f', by unfold madeP; rw [e1]; exact e2, m2.trans m1, h2, r2⟩

theorem Queens.cutByP_is {S : Type} {e : Par} {n : Nat} (he : e.Ok n) (k : Nat) {f : DdS} {sp : DdSpec 2 S} {F G : Asg 2 → Prop} (h : f.Is n F) (hl : LawfulC sp) (hm : NoMerge sp) (hn : sp.root.1 ≤ n)
    (hG : ∀ a, F a → (ZddMem sp n a ↔ G a)) : ∃ f', cutByP e k f sp = some f' ∧ f'.mp = f.mp ∧ (f'.Is n fun a => F a ∧ G a) ∧ f'.Reduced := by
  obtain ⟨f1, e1, m1, h1⟩ := Par.subset_is he k h hl.lawful hm hn hG
  obtain ⟨f', e2, m2, h2, r2⟩ := Par.reduce_is he (k + 1) h1
  exact ⟨f', by unfold cutByP; rw [e1]; exact e2, m2.trans m1, h2, r2⟩

/-- without `-p` the program is the one of C67 -/
theorem Queens.madeP_false {S : Type} (e : Par) (k : Nat) (sp : DdSpec 2 S) : madeP e k sp false = (made sp).map fun D => ⟨D, false⟩ := by
  unfold madeP made Par.make Par.reduce
  rw [if_neg (by decide)]
  cases build sp with
  | none => rfl
  | some D => rfl

theorem Queens.cutByP_false {S : Type} (e : Par) (k : Nat) (D : Dd 2) (sp : DdSpec 2 S) : cutByP e k ⟨D, false⟩ sp = (cutBy D sp false).map fun D => ⟨D, false⟩ := by
  unfold cutByP cutBy Par.subset Par.reduce
  rw [if_neg Bool.false_ne_true]
  cases zddSubset D sp false with
  | none => rfl
  | some D => rfl

/-- C95: `ddqueens -p n` makes, for every schedule, a structure that is equal to the one of `ddqueens n`. -/
theorem C95_plain (n : Nat) (h1 : 1 ≤ n) (hn : n ≤ 31) {e : Par} (he : e.Ok (n * n)) (p : Bool) :
    ∃ f D, plainP e n p = some f ∧ plain n = some D ∧ f.mp = p ∧ f.dd.Wf ∧ ddEq false f.dd D = some true ∧ ∀ a, ZddMem f.dd.spec (n * n) a ↔ IsPlacement false n a := by
  have key := fun p => madeP_is he 0 p (C63_lawful false n none h1 hn (show 0 < n by omega)) (fun _ _ => rfl) (spec_root_le _ _ _) (C63_placements false n h1 hn)
  obtain ⟨f, e1, m1, i1, r1⟩ := key p
  obtain ⟨g, e2, _, i2, r2⟩ := key false
  rw [madeP_false] at e2
  obtain ⟨D, e3, rfl⟩ := Option.map_eq_some_iff.1 e2
  exact ⟨f, D, e1, e3, m1, i1.wf, DdS.eq_of_family i1 i2 r1 r2, i1.mem⟩

/-- C95: the same for `ddqueens -rook`. -/
theorem C95_rook (n : Nat) (h1 : 1 ≤ n) (hn : n ≤ 31) {e : Par} (he : e.Ok (n * n)) (p : Bool) :
    ∃ f D, viaRooksP e n p = some f ∧ viaRooks n = some D ∧ f.mp = p ∧ f.dd.Wf ∧ ddEq false f.dd D = some true ∧ ∀ a, ZddMem f.dd.spec (n * n) a ↔ IsPlacement false n a := by
  have key := fun p => madeP_is he 0 p (C63_lawful true n none h1 hn (show 0 < n by omega)) (fun _ _ => rfl) (spec_root_le _ _ _) (C63_placements true n h1 hn)
  have cut := fun (f : DdS) (h : f.Is (n * n) (IsPlacement true n)) => cutByP_is he 2 (f := f) h (C63_lawful false n none h1 hn (show 0 < n by omega)) (fun _ _ => rfl) (spec_root_le _ _ _) (fun a _ => C63_placements false n h1 hn a)
  obtain ⟨f1, e1, m1, i1, _⟩ := key p
  obtain ⟨f2, e2, m2, i2, r2⟩ := cut f1 i1
  obtain ⟨g1, e3, m3, i3, _⟩ := key false
  obtain ⟨g2, e4, m4, i4, r4⟩ := cut g1 i3
  rw [madeP_false] at e3
  obtain ⟨D1, e5, rfl⟩ := Option.map_eq_some_iff.1 e3
  rw [cutByP_false] at e4
  obtain ⟨D2, e6, rfl⟩ := Option.map_eq_some_iff.1 e4
  refine ⟨f2, D2, by unfold viaRooksP; rw [e1]; exact e2, by unfold viaRooks; rw [e5]; exact e6, m2.trans m1, i2.wf, DdS.eq_of_family i2 i4 r2 r4, fun a => ?_⟩
  refine (i2.mem a).trans ⟨fun h => h.2, fun h => ⟨⟨h.1, ?_⟩, h⟩⟩
  intro i c i' c' hi hc hi' hc' ha ha' hne
  have := h.2 i c i' c' hi hc hi' hc' ha ha' hne
  exact ⟨this.1, this.2.1, fun h => by cases h⟩

/-- C95: the same for `ddqueens -colored1`. -/
theorem C95_colored1 (n : Nat) (h1 : 1 ≤ n) (hn : n ≤ 31) {e : Par} (he : e.Ok (n * n * n)) (p : Bool) :
    ∃ f D, colored1P e n p = some f ∧ colored1 n = some D ∧ f.mp = p ∧ f.dd.Wf ∧ ddEq false f.dd D = some true ∧ ∀ a, ZddMem f.dd.spec (n * n * n) a ↔ IsColored false n a := by
  have key := fun p => madeP_is he 0 p (C64_lawful false n h1 hn) (fun _ _ => rfl) (cspec_root_le _ _) (C64_colored false n h1 hn)
  obtain ⟨f, e1, m1, i1, r1⟩ := key p
  obtain ⟨g, e2, _, i2, r2⟩ := key false
  rw [madeP_false] at e2
  obtain ⟨D, e3, rfl⟩ := Option.map_eq_some_iff.1 e2
  exact ⟨f, D, e1, e3, m1, i1.wf, DdS.eq_of_family i1 i2 r1 r2, i1.mem⟩

/-- C95: `ddqueens -colored -p n` makes a structure of the same family as without `-p`. -/
theorem C95_colored (n : Nat) (h1 : 1 ≤ n) (hn : n ≤ 31) {e : Par} (he : e.Ok (n * n)) (p : Bool) :
    ∃ D, colouredP e n p = some D ∧ D.Wf ∧ ∀ a, ZddMem D.spec (n * n * n) a ↔ IsColoredMirror n a := by
  have hnn : 0 < n * n := Nat.mul_pos h1 h1
  obtain ⟨fs, e1, hq⟩ := Queens.mapM_spec (f := fun k => madeP e (2 * k) (spec false n (some k)) p) (R := fun k f => Has (n * n) (fun a => IsPlacement false n a ∧ a ((n - 1) * n + (n - 1 - k) + 1) = 1) f.dd) (List.range n) fun k hk => by
    obtain ⟨f, e1, _, h, _⟩ := madeP_is he (2 * k) p (C63_lawful false n (some k) h1 hn (show k < n from List.mem_range.1 hk)) (fun _ _ => rfl) (spec_root_le _ _ _) (C63_first false n k (List.mem_range.1 hk) hn)
    exact ⟨f, e1, h.toHas⟩
  obtain ⟨oh, e2, ho⟩ := has_build (F := OneHot n) (n := n * n * n) ((C65_lawful n (n * n) hnn).1 h1).lawful (fun _ _ => rfl) (by
    show (if 1 ≤ n ∧ 1 ≤ n * n then _ else _ : Int × Unit).1 ≤ _
    rw [if_pos ⟨h1, hnn⟩, Nat.mul_assoc n n n]
    exact Int.le_refl _) fun a => by rw [Nat.mul_assoc]; exact C65_oneHot n (n * n) h1 hnn a
  have hq' : ∀ k, k < n → ∃ D, (fs.map DdS.dd)[k]? = some D ∧ Has (n * n) (fun a => IsPlacement false n a ∧ a ((n - 1) * n + (n - 1 - k) + 1) = 1) D := fun k hk => by
    obtain ⟨f, e, h⟩ := hq k k (List.getElem?_range hk)
    exact ⟨f.dd, by rw [List.getElem?_map, e]; rfl, h⟩
  obtain ⟨Dq, e3, hD⟩ := hq' (n - 1) (by omega)
  obtain ⟨D1, e4, h4⟩ := colourK_has (by omega) e3 hD ho
  obtain ⟨D, e5, h5⟩ := colourLoop_has hq' ho (n - 1) (by omega) D1 (h4.congr fun a => by
    constructor
    · rintro ⟨x, y⟩
      exact ⟨x, fun k' h1 h2 => by rw [show k' = n - 1 by omega]; exact y⟩
    · rintro ⟨x, y⟩
      exact ⟨x, y (n - 1) (Nat.le_refl _) (by omega)⟩)
  refine ⟨D, by unfold colouredP; rw [e1]; show Option.bind (build _) _ = _; rw [e2]; show Option.bind (colourK _ _ _ _) _ = _; rw [e4]; exact e5, h5.wf, fun a => (h5.mem a).trans ?_⟩
  constructor
  · rintro ⟨x, y⟩
    exact ⟨fun k hk => (y k hk).1, fun i c hi hc => x (i * n + c) (idx_lt hi hc), fun k hk => (y k hk).2⟩
  · rintro ⟨x, y, z⟩
    refine ⟨fun t ht => ?_, fun k hk => ⟨x k hk, z k hk⟩⟩
    have := y (t / n) (t % n) (Nat.div_lt_of_lt_mul ht) (Nat.mod_lt _ h1)
    rw [Nat.mul_comm (t / n) n, Nat.div_add_mod] at this
    exact this

namespace Nl

theorem diagramP_is {q : Board} (hq : q.Ok) (hn : 2 ≤ q.cols) (hs : ∀ i j, i < q.rows → j < q.cols → q.cols + q.num (i, j) ≤ 255) (all : Bool) {k : Int} (hk : k ≤ 65535) {e : Par} (he : e.Ok q.top) (p : Bool) :
    ∃ f, diagramP e q all k p = some f ∧ (f.Is q.top fun a => ∃ v, Good q all k ⟨hOf q a, v⟩) ∧ f.Reduced := by
  have lN := C69_lawful hq hn hs hk
  unfold diagramP
  cases all with
  | true =>
    rw [if_pos rfl]
    have lD := C68_lawful hq hn
    obtain ⟨D, e1, _, h, _⟩ := madeP_is he 0 p (C26_zddLookahead _ lD) (fun _ _ => rfl) (ahead_le lD.toDesc degree_root_le) (fun a => (C21_zddLookahead _ lD.toDesc _ degree_root_le a).trans (C68_degree hq hn a))
    obtain ⟨D', e', _, h', r'⟩ := cutByP_is he 2 h (C26_zddLookahead _ lN) (fun _ _ => rfl) (ahead_le lN.toDesc numlin_root_le) (fun a _ => (C21_zddLookahead _ lN.toDesc _ numlin_root_le a).trans (C69_numlin hq hn hs hk a))
    refine ⟨D', by rw [e1]; exact e', h'.congr fun a => ⟨?_, ?_⟩, r'⟩
    · rintro ⟨_, v, h1, h2⟩
      exact ⟨v, h1, (fun h => nomatch h), h2⟩
    · rintro ⟨v, h1, _, h2⟩
      exact ⟨⟨v, h1.degrees⟩, v, h1, h2⟩
  | false =>
    rw [if_neg Bool.false_ne_true]
    have lC := C70_lawful hq hn
    have lI := C26_zddIntersection _ _ lC lN
    have hle := inter_le lC.toDesc lN.toDesc constraint_root_le (n := q.top)
    obtain ⟨D, e1, _, h, r⟩ := madeP_is he 0 p (C26_zddLookahead _ lI) (fun _ _ => by show ((0 : Nat) ||| 0) = 0; rfl) (ahead_le lI.toDesc hle) (fun a => ((C21_zddLookahead _ lI.toDesc _ hle a).trans
      (C18_zddIntersection _ _ lC.toDesc lN.toDesc _ constraint_root_le numlin_root_le a)).trans (C70_both hq hn hs hk a))
    refine ⟨D, e1, h.congr fun a => ⟨?_, ?_⟩, r⟩
    · rintro ⟨v, h1, h2, h3⟩
      exact ⟨v, h1, fun _ => h2, h3⟩
    · rintro ⟨v, h1, h2, h3⟩
      exact ⟨v, h1, h2 rfl, h3⟩

end Nl

theorem Par.Ok.mono {e : Par} {n m : Nat} (h : e.Ok n) (hm : m ≤ n) : e.Ok m :=
  ⟨h.threads, h.buildTasks, h.redTasks, Nat.le_trans (Nat.add_le_add_right hm _) h.bits, h.build, h.edges, h.red⟩

theorem Nl.outLoop_length {g : Grid} {tr : Bool} {m : Int} : ∀ {L : List (List Nat)} {c : Nat} {r : List Grid}, outLoop g tr m L c = some r → ((c + L.length : Nat) : Int) < m → r.length = L.length
  | [], c, r, h, _ => by
    unfold outLoop at h
    rw [← Option.some.inj h]
    rfl
  | s :: L, c, r, h, hm => by
    rw [List.length_cons] at hm ⊢
    unfold outLoop at h
    rw [if_pos (by omega)] at h
    obtain ⟨b, _, h⟩ := Option.bind_eq_some_iff.1 h
    rw [if_neg (by omega)] at h
    obtain ⟨bs, e, rfl⟩ := Option.map_eq_some_iff.1 h
    rw [List.length_cons, outLoop_length e (by omega)]

/-- the text that is printed for the number is the number of the sets that are iterated -/
theorem card_iterate {f : DdS} {n : Nat} {F : Asg 2 → Prop} (h : f.Is n F) {sched : Nat → List (Nat × Nat)} (hs : EvSched f.dd sched) {fuel steps : Nat} {L : List (List Nat)}
    (e : f.dd.iterate fuel steps = some L) : f.dd.zddCardinality sched = some (toString L.length) := by
  obtain ⟨c, hc, e2⟩ := C30_zddCardinality f.dd h.wf h.row0 h.rows sched hs n h.le
  obtain ⟨h1, h2, h3⟩ := (C33_iteration f.dd h.wf).2 fuel steps L e
  rw [e2]
  have hv : ∀ x : List Nat, (∀ i ∈ x, 1 ≤ i ∧ i ≤ n) → vecAsg ((List.range n).map fun k => asgOf x (k + 1)) = asgOf x := by
    intro x hx
    funext j
    unfold vecAsg
    by_cases h0 : j = 0
    · subst h0
      rw [if_pos rfl]
      unfold asgOf
      rw [if_neg (fun h => absurd (hx 0 h).1 (by decide))]
    · rw [if_neg h0, List.getElem?_map]
      by_cases hj : j ≤ n
      · rw [List.getElem?_range (by omega)]
        show asgOf x (j - 1 + 1) = _
        rw [show j - 1 + 1 = j by omega]
      · rw [List.getElem?_eq_none (by simp; omega)]
        unfold asgOf
        rw [if_neg (fun h => absurd (hx j h).2 hj)]
        rfl
  have hb : ∀ x ∈ L, ∀ i ∈ x, 1 ≤ i ∧ i ≤ n := fun x hx i hi => ⟨((h2 x hx).2 i hi).1, Nat.le_trans ((h2 x hx).2 i hi).2 h.le⟩
  have hcnt : HasCount (fun x : List Nat => x ∈ L) L.length := ⟨L, h1, fun _ => Iff.rfl, rfl⟩
  have hz : ZddCount f.dd.spec n L.length := by
    refine HasCount.image hcnt (fun x => (List.range n).map fun k => asgOf x (k + 1)) (fun x y hx hy he => ?_) fun v => ⟨?_, ?_⟩
    · have ha : asgOf x = asgOf y := by rw [← hv x (hb x hx), ← hv y (hb y hy)]; exact congrArg vecAsg he
      have key : ∀ {x y : List Nat}, asgOf x = asgOf y → ∀ i, i ∈ x → i ∈ y := by
        intro x y ha i hi
        have := congrFun ha i
        unfold asgOf at this
        rw [if_pos hi] at this
        apply Classical.byContradiction
        intro hn
        rw [if_neg hn] at this
        cases this
      exact (desc_ext (h2 x hx).1 (h2 y hy).1 fun i => ⟨key ha i, key ha.symm i⟩)
    · rintro ⟨hl, hm⟩
      have hp : ((List.range (n + 1)).reverse.filter fun i => decide (1 ≤ i ∧ vecAsg v i = 1)).Pairwise (· > ·) :=
        List.Pairwise.filter _ (List.pairwise_reverse.2 List.pairwise_lt_range)
      have hm' : ∀ i, i ∈ (List.range (n + 1)).reverse.filter (fun i => decide (1 ≤ i ∧ vecAsg v i = 1)) ↔ vecAsg v i = 1 := by
        intro i
        rw [List.mem_filter, List.mem_reverse, List.mem_range, decide_eq_true_eq]
        refine ⟨fun h => h.2.2, fun h => ?_⟩
        have h0 : i ≠ 0 := by rintro rfl; unfold vecAsg at h; rw [if_pos rfl] at h; cases h
        have hn : i ≤ n := by
          apply Classical.byContradiction
          intro hi
          unfold vecAsg at h
          rw [if_neg h0, List.getElem?_eq_none (by omega)] at h
          cases h
        exact ⟨by omega, by omega, h⟩
      have ha : asgOf ((List.range (n + 1)).reverse.filter fun i => decide (1 ≤ i ∧ vecAsg v i = 1)) = vecAsg v := by
        funext i
        unfold asgOf
        by_cases h : vecAsg v i = 1
        · rw [if_pos ((hm' i).2 h), h]
        · rw [if_neg (fun g => h ((hm' i).1 g))]
          rcases fin2_cases (vecAsg v i) with e | e
          · exact e.symm
          · exact absurd e h
      have hbd : ∀ i ∈ (List.range (n + 1)).reverse.filter (fun i => decide (1 ≤ i ∧ vecAsg v i = 1)), 1 ≤ i ∧ i ≤ n := by
        intro i hi
        rw [List.mem_filter, List.mem_reverse, List.mem_range, decide_eq_true_eq] at hi
        exact ⟨hi.2.1, by omega⟩
      refine ⟨_, (h3 n h.le _ hp hbd).2 (by rw [ha]; exact hm), ?_⟩
      show (List.range n).map (fun k => asgOf _ (k + 1)) = v
      rw [ha]
      refine List.ext_getElem (by simp [hl]) fun i a b => ?_
      rw [List.getElem_map, List.getElem_range]
      unfold vecAsg
      rw [if_neg (by omega), Nat.add_sub_cancel, List.getElem?_eq_getElem b]
      rfl
    · rintro ⟨x, hx, rfl⟩
      refine ⟨by simp, ?_⟩
      show ZddMem _ n (vecAsg ((List.range n).map fun k => asgOf x (k + 1)))
      rw [hv x (hb x hx)]
      exact (h3 n h.le x (h2 x hx).1 (hb x hx)).1 hx
  rw [HasCount.unique hc hz]

/-- C95: for every schedule `ddnumlin -p` prints the same boards in the same order as `ddnumlin`, and the number that it prints first is the number of all these boards,
however few of them are printed. -/
theorem C95_numlin {g : Grid} (hg : g.Ok) (hr : 2 ≤ g.rows) (hc : 2 ≤ g.cols) (hs : ∀ i j, i < g.rows → j < g.cols → min g.rows g.cols + g.num (i, j) ≤ 255) (all : Bool) {k : Int} (hk : k ≤ 65535)
    {e : Par} (he : e.Ok (g.rows * g.cols)) (p : Bool) {sched : Dd 2 → Nat → List (Nat × Nat)} (hsch : ∀ D, EvSched D (sched D)) :
    ∃ bs, Prints g all k bs ∧ ∀ m, (∃ fuel steps r, g.runP e sched all k m p fuel steps = some r) ∧
      (∀ fuel steps r, g.runP e sched all k m p fuel steps = some r → r = (toString bs.length, bs.take m.toNat)) ∧
      ∀ fuel steps r, g.run all k m fuel steps = some r → r = bs.take m.toNat := by
  have hq : ∃ q, g.turn = some q ∧ q.Ok ∧ 2 ≤ q.cols ∧ (∀ i j, i < q.rows → j < q.cols → q.cols + q.num (i, j) ≤ 255) ∧ q.top ≤ g.rows * g.cols := by
    by_cases ht : g.rows < g.cols
    · obtain ⟨q, e, hq, hT, hl⟩ := Grid.transpose_ok hg hr
      have hqc : q.cols = g.rows := hT.cols
      have hqr : q.rows = g.cols := hT.rows
      refine ⟨q, by unfold Grid.turn; rw [if_pos ht]; exact e, hq, by omega, fun i j hi hj => ?_, ?_⟩
      · have := hs j i (by omega) (by omega)
        rw [show q.num (i, j) = g.num (j, i) from hT.num i j]; omega
      · unfold Board.top
        rw [hqc, hqr, Nat.mul_comm g.rows]
        exact Nat.mul_le_mul_left _ (Nat.sub_le _ _)
    · exact ⟨g, by unfold Grid.turn; rw [if_neg ht], hg, hc, fun i j hi hj => by have := hs i j hi hj; omega, Nat.mul_le_mul_left _ (Nat.sub_le _ _)⟩
  obtain ⟨q, eq, oq, cq, sq, tq⟩ := hq
  obtain ⟨f, ef, hf, _⟩ := diagramP_is oq.board cq sq all hk (he.mono tq) p
  obtain ⟨D, eD, hD⟩ := diagram_has oq.board cq sq all hk
  obtain ⟨⟨f1, s1, Ls, hi⟩, _⟩ := C33_iteration f.dd hf.wf
  have hall : ∀ fuel steps L, f.dd.iterate fuel steps = some L → L = Ls := fun _ _ _ h => hf.toHas.iterate_eq hf.toHas h hi
  have hall' : ∀ fuel steps L, D.iterate fuel steps = some L → L = Ls := fun _ _ _ h => hD.iterate_eq hf.toHas h hi
  have hcard := card_iterate hf (hsch f.dd) hi
  obtain ⟨bs, hP, hrun⟩ := C71_run hg hr hc hs all hk
  have hX : ∀ m, (if m = 0 then some [] else outLoop q (decide (g.rows < g.cols)) m Ls 0) = some (bs.take m.toNat) := by
    intro m
    obtain ⟨⟨fuel, steps, r, hrr⟩, hu⟩ := hrun m
    have hr' := hu _ _ _ hrr
    unfold Grid.run at hrr
    rw [eq, Option.bind_some, eD, Option.bind_some] at hrr
    by_cases h0 : m = 0
    · rw [if_pos h0, h0]; rfl
    · rw [if_neg h0] at hrr ⊢
      obtain ⟨L, hL, ho⟩ := Option.bind_eq_some_iff.1 hrr
      rw [hall' _ _ _ hL] at ho
      rw [ho, hr']
  have hlen : Ls.length = bs.length := by
    have := hX ((Ls.length + bs.length + 1 : Nat) : Int)
    rw [if_neg (by omega)] at this
    have h1 := outLoop_length this (by omega)
    rw [List.take_of_length_le (by omega)] at h1
    exact h1.symm
  refine ⟨bs, hP, fun m => ⟨⟨f1, s1, (toString Ls.length, bs.take m.toNat), ?_⟩, fun fuel steps r h => ?_, (hrun m).2⟩⟩
  · unfold Grid.runP
    rw [eq, Option.bind_some, ef, Option.bind_some, hcard, Option.bind_some, hi, Option.bind_some, hX]
    rfl
  · unfold Grid.runP at h
    rw [eq, Option.bind_some, ef, Option.bind_some, hcard, Option.bind_some] at h
    obtain ⟨bs', hb, rfl⟩ := Option.map_eq_some_iff.1 h
    have hm := hX m
    by_cases h0 : m = 0
    · rw [if_pos h0] at hb hm
      rw [hlen, show bs' = [] from (Option.some.inj hb).symm, ← Option.some.inj hm]
    · rw [if_neg h0] at hb hm
      obtain ⟨L, hL, ho⟩ := Option.bind_eq_some_iff.1 hb
      rw [hall _ _ _ hL, hm] at ho
      rw [hlen, Option.some.inj ho]

/-! ### examples -/

/-- four queens, with two threads that do everything backwards -/
example : ∃ f g, viaRooksP DdPaths.samplePar 4 true = some f ∧ ZddMem f.dd.spec 16 sol4 ∧ plainP DdPaths.samplePar 4 true = some g ∧ ZddMem g.dd.spec 16 sol4 := by
  obtain ⟨f, _, h1, _, _, _, _, h4⟩ := C95_rook 4 (by decide) (by decide) (DdPaths.samplePar_ok (by decide)) true
  obtain ⟨g, _, h1', _, _, _, _, h4'⟩ := C95_plain 4 (by decide) (by decide) (DdPaths.samplePar_ok (by decide)) true
  have : IsPlacement false 4 sol4 := by
    rw [← C63_placements false 4 (by decide) (by decide), ← zddRun_mem (C63_lawful false 4 none (by decide) (by decide) (by decide)).toDesc (by decide +kernel)]
    decide +kernel
  exact ⟨f, g, h1, (h4 _).2 this, h1', (h4' _).2 this⟩

example : ∃ f D, colored1P DdPaths.samplePar 5 true = some f ∧ colored1 5 = some D ∧ ddEq false f.dd D = some true := by
  obtain ⟨f, D, h1, h2, _, _, h3, _⟩ := C95_colored1 5 (by decide) (by decide) (DdPaths.samplePar_ok (by decide)) true
  exact ⟨f, D, h1, h2, h3⟩

/-- three boards, of which two are printed -/
example : wide.runP DdPaths.samplePar seqSched true (-1) 2 true 100 100 =
    some ("3", [{ wide with hlink := [[true, false], [true, false]], vlink := [[false, true, true]] }, { wide with vlink := [[true, false, true]] }]) := by
  decide +kernel

example : ∃ bs, Prints wide true (-1) bs ∧ ∀ fuel steps r, wide.runP DdPaths.samplePar seqSched true (-1) 2 true fuel steps = some r → r = (toString bs.length, bs.take 2) := by
  obtain ⟨bs, h, h'⟩ := C95_numlin wide_ok (by decide) (by decide) wide_small true (k := -1) (by decide) (e := DdPaths.samplePar) (DdPaths.samplePar_ok (by decide)) true seqSched_ok
  exact ⟨bs, h, (h' 2).2.1⟩

end TdZdd
