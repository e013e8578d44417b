import Verif.EvaluateProofs

/-! Counting value vectors. -/

namespace TdZdd

variable {N : Nat}

/-- Exactly `k` objects have property `P`. -/
def HasCount {α : Type} (P : α → Prop) (k : Nat) : Prop :=
  ∃ L : List α, L.Nodup ∧ (∀ x, x ∈ L ↔ P x) ∧ L.length = k

/-- The assignment of a value vector `l` over the levels `1..l.length`: the `j`-th element is the value of level
`j`; other levels get value 0. -/
def vecAsg (l : List (Fin (N + 1))) : Asg (N + 1) := fun j => if j = 0 then 0 else (l[j - 1]?).getD 0

/-- The family of a specification over the levels `1..n` has exactly `k` members. -/
def ZddCount {S : Type} (sp : DdSpec (N + 1) S) (n k : Nat) : Prop :=
  HasCount (fun l : List (Fin (N + 1)) => l.length = n ∧ ZddMem sp n (vecAsg l)) k

/-- Exactly `k` assignments to the levels `1..n` satisfy the Boolean function of a specification. -/
def BddCount {S : Type} (sp : DdSpec (N + 1) S) (n k : Nat) : Prop :=
  HasCount (fun l : List (Fin (N + 1)) => l.length = n ∧ BddSat sp (vecAsg l)) k

theorem HasCount.unique {α : Type} {P : α → Prop} {k k' : Nat} (h : HasCount P k) (h' : HasCount P k') : k = k' := by
  obtain ⟨L, h1, h2, h3⟩ := h
  obtain ⟨L', h1', h2', h3'⟩ := h'
  haveI : DecidableEq α := fun a b => Classical.propDecidable _
  have a := nodup_subset_length L L' h1 fun x hx => (h2' x).2 ((h2 x).1 hx)
  have b := nodup_subset_length L' L h1' fun x hx => (h2 x).2 ((h2' x).1 hx)
  omega

theorem HasCount.congr {α : Type} {P Q : α → Prop} {k : Nat} (h : HasCount P k) (hpq : ∀ x, P x ↔ Q x) : HasCount Q k := by
  obtain ⟨L, h1, h2, h3⟩ := h
  exact ⟨L, h1, fun x => (h2 x).trans (hpq x), h3⟩

theorem hasCount_none {α : Type} {P : α → Prop} (h : ∀ x, ¬ P x) : HasCount P 0 :=
  ⟨[], List.nodup_nil, fun x => ⟨fun hx => (by cases hx), fun hx => absurd hx (h x)⟩, rfl⟩

theorem hasCount_one {α : Type} (a : α) : HasCount (fun x => x = a) 1 :=
  ⟨[a], by simp, fun x => by simp, rfl⟩

theorem ofFn_eq_map_finRange {α : Type} {M : Nat} (k : Fin M → α) : List.ofFn k = (List.finRange M).map k := by
  apply List.ext_getElem
  · simp
  · intro i h1 h2
    simp

theorem ofFn_const' {α : Type} (M : Nat) (x : α) : (List.ofFn fun _ : Fin M => x) = List.replicate M x := by
  apply List.ext_getElem
  · simp
  · intro i h1 h2
    simp

/-- disjoint union over an injective tagging -/
theorem hasCount_union {α β : Type} {M : Nat} (g : Fin M → α → β) (hinj : ∀ b b' x x', g b x = g b' x' → b = b' ∧ x = x')
    {P : Fin M → α → Prop} {k : Fin M → Nat} (h : ∀ b, HasCount (P b) (k b)) :
    HasCount (fun y => ∃ b x, y = g b x ∧ P b x) (List.ofFn k).sum := by
  let L : Fin M → List α := fun b => Classical.choose (h b)
  have hL : ∀ b, (L b).Nodup ∧ (∀ x, x ∈ L b ↔ P b x) ∧ (L b).length = k b := fun b => Classical.choose_spec (h b)
  refine ⟨(List.finRange M).flatMap fun b => (L b).map (g b), ?_, ?_, ?_⟩
  · have gen : ∀ l : List (Fin M), l.Nodup → (l.flatMap fun b => (L b).map (g b)).Nodup := by
      intro l
      induction l with
      | nil => intro _; simp
      | cons b l ih =>
        intro hl
        rw [List.nodup_cons] at hl
        rw [List.flatMap_cons, List.nodup_append]
        refine ⟨?_, ih hl.2, ?_⟩
        · rw [List.Nodup, List.pairwise_map]
          exact (hL b).1.imp fun hne he => hne (hinj _ _ _ _ he).2
        · intro y hy y' hy' e
          subst e
          obtain ⟨x, _, rfl⟩ := List.mem_map.1 hy
          obtain ⟨b', hb', hm⟩ := List.mem_flatMap.1 hy'
          obtain ⟨x', _, e⟩ := List.mem_map.1 hm
          have := (hinj _ _ _ _ e).1
          subst this
          exact hl.1 hb'
    exact gen _ (List.nodup_finRange M)
  · intro y
    rw [List.mem_flatMap]
    constructor
    · rintro ⟨b, _, hm⟩
      obtain ⟨x, hx, rfl⟩ := List.mem_map.1 hm
      exact ⟨b, x, rfl, ((hL b).2.1 x).1 hx⟩
    · rintro ⟨b, x, rfl, hp⟩
      exact ⟨b, List.mem_finRange b, List.mem_map.2 ⟨x, ((hL b).2.1 x).2 hp, rfl⟩⟩
  · rw [List.length_flatMap]
    simp only [List.length_map, (hL _).2.2]
    congr 1
    exact (ofFn_eq_map_finRange k).symm

theorem hasCount_snoc {n : Nat} {P : Fin (N + 1) → List (Fin (N + 1)) → Prop} {k : Fin (N + 1) → Nat}
    (h : ∀ b, HasCount (fun l => l.length = n ∧ P b l) (k b)) :
    HasCount (fun l => l.length = n + 1 ∧ ∃ b l', l = l' ++ [b] ∧ P b l') (List.ofFn k).sum := by
  refine (hasCount_union (fun b l => l ++ [b]) ?_ h).congr ?_
  · intro b b' x x' e
    have := List.append_inj' e rfl
    exact ⟨by simpa using this.2, this.1⟩
  · intro y
    constructor
    · rintro ⟨b, x, rfl, hx, hp⟩
      exact ⟨by simp [hx], b, x, rfl, hp⟩
    · rintro ⟨hl, b, x, rfl, hp⟩
      exact ⟨b, x, rfl, by simpa using hl, hp⟩

theorem snoc_exists {α : Type} {n : Nat} {l : List α} (h : l.length = n + 1) : ∃ l' b, l = l' ++ [b] ∧ l'.length = n := by
  have hne : l ≠ [] := by intro e; rw [e] at h; cases h
  refine ⟨l.dropLast, l.getLast hne, (List.dropLast_concat_getLast hne).symm, ?_⟩
  rw [List.length_dropLast]; omega

theorem vecAsg_last {l : List (Fin (N + 1))} {b : Fin (N + 1)} : vecAsg (l ++ [b]) (l.length + 1) = b := by
  unfold vecAsg
  rw [if_neg (by omega)]
  simp

theorem vecAsg_init {l : List (Fin (N + 1))} {b : Fin (N + 1)} {j : Nat} (h : j ≤ l.length) :
    vecAsg (l ++ [b]) j = vecAsg l j := by
  unfold vecAsg
  by_cases h0 : j = 0
  · rw [if_pos h0, if_pos h0]
  · rw [if_neg h0, if_neg h0, List.getElem?_append_left (by omega)]

section
variable {T : Table (N + 1)}

/-- number of members below a node over the levels `1..m` -/
theorem tmem_count (hw : T.Wf) (m : Nat) : ∀ {f : NodeId}, f.row ≤ m → T.Valid f → ∃ k,
    FoldVal T (fun j => j) (fun _ vs => (List.ofFn fun b => (vs b).1).sum) f k ∧
    HasCount (fun l : List (Fin (N + 1)) => l.length = m ∧ TMem T m f (vecAsg l)) k := by
  induction m with
  | zero =>
    intro f hf hv
    rcases hv.row0 (by omega) with rfl | rfl
    · exact ⟨0, .term rfl, hasCount_none fun l h => not_tmem_zero h.2⟩
    · refine ⟨1, .term rfl, (hasCount_one []).congr fun l => ?_⟩
      rw [tmem_one]
      constructor
      · rintro rfl; exact ⟨rfl, fun j h1 h2 => by omega⟩
      · rintro ⟨h, _⟩; exact List.eq_nil_of_length_eq_zero h
  | succ m ih =>
    intro f hf hv
    by_cases hfm : f.row ≤ m
    · obtain ⟨k, h1, h2⟩ := ih hfm hv
      refine ⟨k, h1, ?_⟩
      have key := hasCount_union (M := 1) (fun _ (l : List (Fin (N + 1))) => l ++ [0]) (fun b b' x x' e =>
        ⟨Subsingleton.elim _ _, (List.append_inj' e rfl).1⟩) (fun _ => h2)
      have e : (List.ofFn fun _ : Fin 1 => k).sum = k := by simp
      rw [e] at key
      refine key.congr fun l => ?_
      rw [tmem_raise hw hfm (Nat.le_succ m)]
      constructor
      · rintro ⟨_, l', rfl, hl, hm⟩
        refine ⟨by simp [hl], ?_, ?_⟩
        · intro j h1 h2
          have : j = l'.length + 1 := by omega
          rw [this, vecAsg_last]; rfl
        · exact tmem_congr hw hfm (fun j _ h2 => (vecAsg_init (by omega)).symm) hm
      · rintro ⟨hl, hz, hm⟩
        obtain ⟨l', b, rfl, hl'⟩ := snoc_exists hl
        have hb := hz (l'.length + 1) (by omega) (by omega)
        rw [vecAsg_last] at hb
        have : b = 0 := Fin.ext hb
        subst this
        exact ⟨0, l', rfl, hl', tmem_congr hw hfm (fun j _ h2 => vecAsg_init (by omega)) hm⟩
    · have hrow : f.row = m + 1 := by omega
      obtain ⟨nd, hn⟩ := hv.pos (by omega)
      have hc : ∀ b, ∃ k, FoldVal T (fun j => j) (fun _ vs => (List.ofFn fun b => (vs b).1).sum) (nd b) k ∧
          HasCount (fun l : List (Fin (N + 1)) => l.length = m ∧ TMem T m (nd b) (vecAsg l)) k := by
        intro b
        obtain ⟨h1, h2⟩ := hw.child (by omega) hn b
        exact ih (by omega) h1
      let ks : Fin (N + 1) → Nat := fun b => Classical.choose (hc b)
      have hks : ∀ b, FoldVal T (fun j => j) (fun _ vs => (List.ofFn fun b => (vs b).1).sum) (nd b) (ks b) ∧
          HasCount (fun l : List (Fin (N + 1)) => l.length = m ∧ TMem T m (nd b) (vecAsg l)) (ks b) :=
        fun b => Classical.choose_spec (hc b)
      refine ⟨_, .node (by omega) hn fun b => (hks b).1, (hasCount_snoc fun b => (hks b).2).congr fun l => ?_⟩
      have hcl : ∀ b, (nd b).row ≤ m := fun b => by have := (hw.child (by omega) hn b).2; omega
      have hnode := tmem_node (by omega) hn (a := vecAsg l)
      rw [hrow] at hnode
      rw [hnode, show m + 1 - 1 = m by omega]
      constructor
      · rintro ⟨hl, b, l', rfl, hm⟩
        have hl' : l'.length = m := by simpa using hl
        refine ⟨hl, ?_⟩
        have e : vecAsg (l' ++ [b]) (m + 1) = b := by rw [← hl']; exact vecAsg_last
        rw [e]
        exact tmem_congr hw (hcl b) (fun j _ h2 => (vecAsg_init (by omega)).symm) hm
      · rintro ⟨hl, hm⟩
        obtain ⟨l', b, rfl, hl'⟩ := snoc_exists hl
        have e : vecAsg (l' ++ [b]) (m + 1) = b := by rw [← hl']; exact vecAsg_last
        rw [e] at hm
        exact ⟨hl, b, l', rfl, tmem_congr hw (hcl b) (fun j _ h2 => vecAsg_init (by omega)) hm⟩

/-- the node function of the BDD counter -/
def bddNv (i : Nat) (vs : Fin (N + 1) → Nat × Nat) : Nat :=
  (List.ofFn fun b => (vs b).1 * (N + 1) ^ (i - (vs b).2 - 1)).sum

/-- number of satisfying assignments below a node over the levels `1..m` -/
theorem tsat_count (hw : T.Wf) (m : Nat) : ∀ {f : NodeId}, f.row ≤ m → T.Valid f → ∃ k,
    FoldVal T (fun j => j) bddNv f k ∧
    HasCount (fun l : List (Fin (N + 1)) => l.length = m ∧ TSat T f (vecAsg l)) (k * (N + 1) ^ (m - f.row)) := by
  induction m with
  | zero =>
    intro f hf hv
    rcases hv.row0 (by omega) with rfl | rfl
    · exact ⟨0, .term rfl, by rw [Nat.zero_mul]; exact hasCount_none fun l h => not_tsat_zero h.2⟩
    · refine ⟨1, .term rfl, (hasCount_one []).congr fun l => ?_⟩
      constructor
      · rintro rfl; exact ⟨rfl, tsat_one⟩
      · rintro ⟨h, _⟩; exact List.eq_nil_of_length_eq_zero h
  | succ m ih =>
    intro f hf hv
    by_cases hfm : f.row ≤ m
    · obtain ⟨k, h1, h2⟩ := ih hfm hv
      refine ⟨k, h1, ?_⟩
      have key := hasCount_snoc (fun _ : Fin (N + 1) => h2)
      have e : (List.ofFn fun _ : Fin (N + 1) => k * (N + 1) ^ (m - f.row)).sum = k * (N + 1) ^ (m + 1 - f.row) := by
        rw [ofFn_const', List.sum_replicate_nat, show m + 1 - f.row = m - f.row + 1 by omega, Nat.pow_succ]
        rw [Nat.mul_comm (N + 1), Nat.mul_assoc]
      rw [e] at key
      refine key.congr fun l => ?_
      constructor
      · rintro ⟨hl, b, l', rfl, hm⟩
        have hl' : l'.length = m := by simpa using hl
        exact ⟨hl, tsat_congr hw (fun j _ h2 => (vecAsg_init (by omega)).symm) hm⟩
      · rintro ⟨hl, hm⟩
        obtain ⟨l', b, rfl, hl'⟩ := snoc_exists hl
        exact ⟨hl, b, l', rfl, tsat_congr hw (fun j _ h2 => vecAsg_init (by omega)) hm⟩
    · have hrow : f.row = m + 1 := by omega
      obtain ⟨nd, hn⟩ := hv.pos (by omega)
      have hcl : ∀ b, (nd b).row ≤ m := fun b => by have := (hw.child (by omega) hn b).2; omega
      have hc : ∀ b, ∃ k, FoldVal T (fun j => j) bddNv (nd b) k ∧
          HasCount (fun l : List (Fin (N + 1)) => l.length = m ∧ TSat T (nd b) (vecAsg l)) (k * (N + 1) ^ (m - (nd b).row)) :=
        fun b => ih (hcl b) (hw.child (by omega) hn b).1
      let ks : Fin (N + 1) → Nat := fun b => Classical.choose (hc b)
      have hks : ∀ b, FoldVal T (fun j => j) bddNv (nd b) (ks b) ∧
          HasCount (fun l : List (Fin (N + 1)) => l.length = m ∧ TSat T (nd b) (vecAsg l)) (ks b * (N + 1) ^ (m - (nd b).row)) :=
        fun b => Classical.choose_spec (hc b)
      refine ⟨_, .node (by omega) hn fun b => (hks b).1, ?_⟩
      rw [hrow, Nat.sub_self, Nat.pow_zero, Nat.mul_one]
      have e : bddNv (m + 1) (fun b => (ks b, (nd b).row)) = (List.ofFn fun b => ks b * (N + 1) ^ (m - (nd b).row)).sum := by
        unfold bddNv
        congr 1
        congr 1
        funext b
        rw [show m + 1 - (nd b).row - 1 = m - (nd b).row by omega]
      rw [e]
      refine (hasCount_snoc fun b => (hks b).2).congr fun l => ?_
      have hnode := tsat_node (by omega) hn (a := vecAsg l)
      rw [hrow] at hnode
      rw [hnode]
      constructor
      · rintro ⟨hl, b, l', rfl, hm⟩
        have hl' : l'.length = m := by simpa using hl
        refine ⟨hl, ?_⟩
        have e : vecAsg (l' ++ [b]) (m + 1) = b := by rw [← hl']; exact vecAsg_last
        rw [e]
        exact tsat_congr hw (fun j _ h2 => (vecAsg_init (by have := hcl b; omega)).symm) hm
      · rintro ⟨hl, hm⟩
        obtain ⟨l', b, rfl, hl'⟩ := snoc_exists hl
        have e : vecAsg (l' ++ [b]) (m + 1) = b := by rw [← hl']; exact vecAsg_last
        rw [e] at hm
        exact ⟨hl, b, l', rfl, tsat_congr hw (fun j _ h2 => vecAsg_init (by have := hcl b; omega)) hm⟩

end

theorem zddCount_iff {D : Dd (N + 1)} (hw : D.Wf) {n k : Nat} (hn : D.root.row ≤ n) :
    ZddCount D.spec n k ↔ FoldVal D.table (fun j => j) (fun _ vs => (List.ofFn fun b => (vs b).1).sum) D.root k := by
  obtain ⟨k', h1, h2⟩ := tmem_count hw.table n hn hw.root
  have h3 : ZddCount D.spec n k' := h2.congr fun l => by rw [hw.zddMem_iff]
  constructor
  · intro h; rw [h.unique h3]; exact h1
  · intro h; rw [h.unique h1]; exact h3

theorem bddCount_iff {D : Dd (N + 1)} (hw : D.Wf) {n c : Nat} (hn : D.root.row ≤ n) :
    BddCount D.spec n c ↔ ∃ k, FoldVal D.table (fun j => j) bddNv D.root k ∧ c = k * (N + 1) ^ (n - D.root.row) := by
  obtain ⟨k', h1, h2⟩ := tsat_count hw.table n hn hw.root
  have h3 : BddCount D.spec n _ := h2.congr fun l => by rw [hw.bddSat_iff]
  constructor
  · intro h; exact ⟨k', h1, h.unique h3⟩
  · rintro ⟨k, h, rfl⟩; rw [h.unique h1]; exact h3

end TdZdd
