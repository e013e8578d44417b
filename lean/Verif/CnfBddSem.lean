import Verif.CnfBddTab
import Verif.CnfBddCudd
import Verif.SpecInv

/-! The meaning of the states of `CnfToBdd`. -/

namespace TdZdd

namespace CnfB

open Cnf Cudd Sap

variable {nv : Nat} {cnf : List Clause}

/-- the clauses in `S` and those that have not been entered above the level `n` are satisfied by the literals at the levels up to `n` -/
def Sem (nv : Nat) (cnf : List Clause) (n : Nat) (S : List Nat) (u : Nat → Bool) : Prop :=
  ∀ j c, At cnf j c → j ∈ S ∨ entry nv c ≤ n → ∃ x ∈ c, lev nv x ≤ n ∧ Lit u x

/-- the sets of clauses that can be reached -/
inductive RS (nv : Nat) (cnf : List Clause) : Nat → List Nat → Prop
  | top : RS nv cnf nv []
  | step {n : Nat} {S T : List Nat} (b : Bool) : RS nv cnf (n + 1) S → Stepped nv cnf b (n + 1) S T → RS nv cnf n T

theorem lit_iff {u : Nat → Bool} {x : Int} : Lit u x ↔ decide (0 < x) = u x.natAbs := by
  unfold Lit
  by_cases h : 0 < x
  · rw [if_pos h, decide_eq_true h]; exact eq_comm
  · rw [if_neg h, decide_eq_false h]; exact eq_comm

theorem Stepped.valid {b : Bool} {n : Nat} {S T : List Nat} (h : Stepped nv cnf b n S T) (hS : ∀ j ∈ S, ∃ c, At cnf j c) : ∀ j ∈ T, ∃ c, At cnf j c := by
  intro j hj
  rcases ((h j).1 hj).1 with g | g
  · exact hS j g
  · obtain ⟨c, _, g, _⟩ := mem_enter.1 g
    exact ⟨c, g⟩

theorem RS.valid {n : Nat} {S : List Nat} (h : RS nv cnf n S) : ∀ j ∈ S, ∃ c, At cnf j c := by
  induction h with
  | top => intro j h; cases h
  | step b _ hs ih => exact hs.valid ih

theorem RS.le {n : Nat} {S : List Nat} (h : RS nv cnf n S) : n ≤ nv := by
  induction h with
  | top => exact Nat.le_refl _
  | step b _ hs ih => omega

theorem sem_step (h : Good nv cnf) {b : Bool} {n : Nat} {S T : List Nat} (hs : Stepped nv cnf b (n + 1) S T) {u : Nat → Bool} (hu : u (nv - n) = b) :
    Sem nv cnf (n + 1) S u ↔ Sem nv cnf n T u := by
  have hx : ∀ {c x}, c ∈ cnf → x ∈ c → lev nv x = n + 1 → (Lit u x ↔ decide (0 < x) = b) := by
    intro c x hc hx e
    have := (h.ord c hc).var x hx
    rw [lit_iff, ← hu]
    unfold lev at e
    rw [show x.natAbs = nv - n by omega]
  constructor
  · intro hS j c hj hc
    rcases hc with hc | hc
    · obtain ⟨h1, h2⟩ := (hs j).1 hc
      obtain ⟨x, hxc, hl, hu'⟩ := hS j c hj (by
        rcases h1 with h1 | h1
        · exact .inl h1
        · exact .inr (by have := (mem_enter' h hj).1 h1; omega))
      refine ⟨x, hxc, ?_, hu'⟩
      have : lev nv x ≠ n + 1 := by
        intro e
        exact h2 (mem_satBy.2 ⟨c, hj, x, hxc, e, (hx hj.mem hxc e).1 hu'⟩)
      omega
    · obtain ⟨x, hxc, hl, hu'⟩ := hS j c hj (.inr (by omega))
      exact ⟨x, hxc, Nat.le_trans (lev_le_entry h hj.mem hxc) hc, hu'⟩
  · intro hT j c hj hc
    by_cases hsat : j ∈ satBy nv cnf b (n + 1)
    · obtain ⟨d, hd, x, hxd, e, hb⟩ := mem_satBy.1 hsat
      rw [hd.unique hj] at hxd
      exact ⟨x, hxd, by omega, (hx hj.mem hxd e).2 hb⟩
    · obtain ⟨x, hxc, hl, hu'⟩ := hT j c hj (by
        rcases hc with hc | hc
        · exact .inl ((hs j).2 ⟨.inl hc, hsat⟩)
        · by_cases e : entry nv c = n + 1
          · exact .inl ((hs j).2 ⟨.inr ((mem_enter' h hj).2 e), hsat⟩)
          · exact .inr (by omega))
      exact ⟨x, hxc, by omega, hu'⟩

theorem sem_top (h : Good nv cnf) {u : Nat → Bool} : Sem nv cnf nv [] u ↔ Sat u cnf := by
  constructor
  · intro hs c hc
    obtain ⟨j, hj⟩ := exists_at hc
    obtain ⟨x, hx, _, hu⟩ := hs j c hj (.inr (entry_le h hc).2)
    exact ⟨x, hx, hu⟩
  · intro hs j c hj _
    obtain ⟨x, hx, hu⟩ := hs c hj.mem
    exact ⟨x, hx, (lev_pos h hj.mem hx).2, hu⟩

theorem sem_done (h : Good nv cnf) {n : Nat} (hn : n ≤ completing nv cnf) {u : Nat → Bool} : Sem nv cnf n [] u := by
  intro j c hj hc
  have h1 := completing_le (nv := nv) hj.mem
  have h2 := entry_le h hj.mem
  rcases hc with hc | hc
  · cases hc
  · omega

theorem sem_zero (h : Good nv cnf) {S : List Nat} {j : Nat} {c : Clause} (hj : At cnf j c) (hS : j ∈ S) {u : Nat → Bool} : ¬ Sem nv cnf 0 S u := by
  intro hs
  obtain ⟨x, hx, h0, _⟩ := hs j c hj (.inl hS)
  have := lev_pos h hj.mem hx
  omega

theorem sem_congr {n : Nat} {S : List Nat} {u v : Nat → Bool} (h : Good nv cnf) (hu : ∀ t, nv - n < t → u t = v t) (hs : Sem nv cnf n S u) : Sem nv cnf n S v := by
  intro j c hj hc
  obtain ⟨x, hx, hl, hx'⟩ := hs j c hj hc
  refine ⟨x, hx, hl, ?_⟩
  have := (h.ord c hj.mem).var x hx
  rw [lit_iff] at hx' ⊢
  rw [hx', hu]
  unfold lev at hl
  omega

/-! ## States with the same remaining literals -/

/-- the same literals at the levels up to `n` -/
def Same (nv n : Nat) (c d : Clause) : Prop := ∀ x, lev nv x ≤ n → (x ∈ c ↔ x ∈ d)

/-- each clause in `S` has the same remaining literals as one in `T` -/
def Sub (nv : Nat) (cnf : List Clause) (n : Nat) (S T : List Nat) : Prop := ∀ j ∈ S, ∀ c, At cnf j c → ∃ k ∈ T, ∃ d, At cnf k d ∧ Same nv n c d

theorem Sub.sem {n : Nat} {S T : List Nat} (hs : Sub nv cnf n S T) {u : Nat → Bool} (hT : Sem nv cnf n T u) : Sem nv cnf n S u := by
  intro j c hj hc
  rcases hc with hc | hc
  · obtain ⟨k, hk, d, hd, hsame⟩ := hs j hc c hj
    obtain ⟨x, hx, hl, hu⟩ := hT k d hd (.inl hk)
    exact ⟨x, (hsame x hl).2 hx, hl, hu⟩
  · obtain ⟨x, hx, hl, hu⟩ := hT j c hj (.inr hc)
    exact ⟨x, hx, hl, hu⟩

theorem Sub.step {n : Nat} {b : Bool} {S T S' T' : List Nat} (hs : Sub nv cnf (n + 1) S T) (hS : Stepped nv cnf b (n + 1) S S') (hT : Stepped nv cnf b (n + 1) T T') : Sub nv cnf n S' T' := by
  intro j hj c hc
  obtain ⟨h1, h2⟩ := (hS j).1 hj
  by_cases he : j ∈ enter nv cnf (n + 1)
  · exact ⟨j, (hT j).2 ⟨.inr he, h2⟩, c, hc, fun x _ => Iff.rfl⟩
  · obtain ⟨k, hk, d, hd, hsame⟩ := hs j (h1.resolve_right he) c hc
    refine ⟨k, (hT k).2 ⟨.inl hk, fun g => h2 ?_⟩, d, hd, fun x hx => hsame x (by omega)⟩
    obtain ⟨d', hd', x, hx, e, hb⟩ := mem_satBy.1 g
    rw [hd'.unique hd] at hx
    exact mem_satBy.2 ⟨c, hc, x, (hsame x (by omega)).2 hx, e, hb⟩

/-! ## The specification -/

/-- no set of clauses from which there is a solution is found to be bad -/
def Sound (nv : Nat) (cnf : List Clause) (bad : Nat → List Nat → Option Bool) : Prop :=
  ∀ n w, RS nv cnf n w → w.Pairwise (· < ·) → bad n w = some true → ∀ u, ¬ Sem nv cnf n w u

/-- the map keeps the remaining literals -/
def MapOk (nv : Nat) (cnf : List Clause) (cm : CMap) : Prop := ∀ i, i ≤ nv → ∀ j c, At cnf j c → ∃ d, At cnf (cm i j) d ∧ Same nv i c d

/-- the states at a level -/
structure Inv (nv : Nat) (cnf : List Clause) (useMap : Bool) (cm : CMap) (n : Nat) (s : List Nat × List Nat) : Prop where
  sorted : s.1.Pairwise (· < ·)
  reach : RS nv cnf n s.1
  ids : s.2.Pairwise (· < ·)
  id : ∀ x, x ∈ s.2 ↔ if useMap then ∃ j ∈ s.1, x = cm n j else x ∈ s.1

variable {bad : Nat → List Nat → Option Bool} {useMap : Bool} {cm : CMap} {hash : List Nat → Nat}

/-- the sets of clauses after a step -/
def work (nv : Nat) (cnf : List Clause) (S : List Nat) (level : Nat) (b : Fin 2) : List Nat :=
  combine (S.length + (enter nv cnf level).length) S (enter nv cnf level) (satBy nv cnf (decide (b.val ≠ 0)) level)

theorem child_eq {s : List Nat × List Nat} {n : Nat} {b : Fin 2} : (specWith nv cnf bad useMap cm hash).child s (n + 1) b =
    (bad n (work nv cnf s.1 (n + 1) b)).elim (((n + 1 : Nat) : Int), s) fun bad =>
      if bad = true then (0, s)
      else if n ≤ completing nv cnf ∧ work nv cnf s.1 (n + 1) b = [] then (-1, s)
      else ((n : Int), nextState useMap (cm n) (work nv cnf s.1 (n + 1) b)) := by
  have : satBy nv cnf (decide (b.val ≠ 0)) (n + 1) = if b.val ≠ 0 then posi nv cnf (n + 1) else nega nv cnf (n + 1) := by
    unfold satBy
    by_cases hb : b.val ≠ 0
    · rw [decide_eq_true hb, if_pos rfl, if_pos hb]
    · rw [decide_eq_false hb, if_neg Bool.false_ne_true, if_neg hb]
  unfold work
  rw [this]
  rfl

theorem next_inv (hm : MapOk nv cnf cm) (hn : cnf.length ≤ 65535) {n : Nat} {w : List Nat} (hw : w.Pairwise (· < ·)) (hr : RS nv cnf n w) : Inv nv cnf useMap cm n (nextState useMap (cm n) w) := by
  have hv := hr.valid
  unfold nextState
  rw [toSet_id hw]
  refine ⟨hw, hr, ?_, fun x => ?_⟩
  · cases useMap
    · exact hw
    · exact toSet_spec.1
  · cases useMap
    · exact Iff.rfl
    · show x ∈ toSet (w.map fun j => short (cm n j)) ↔ ∃ j ∈ w, x = cm n j
      rw [toSet_spec.2, List.mem_map]
      have : ∀ j ∈ w, short (cm n j) = cm n j := by
        intro j hj
        obtain ⟨c, hc⟩ := hv j hj
        obtain ⟨d, hd, _⟩ := hm n hr.le j c hc
        have := hd.range
        exact Nat.mod_eq_of_lt (by omega)
      constructor
      · rintro ⟨j, hj, e⟩; exact ⟨j, hj, by rw [← e, this j hj]⟩
      · rintro ⟨j, hj, e⟩; exact ⟨j, hj, by rw [e, this j hj]⟩

/-- what a step does -/
theorem step_cases (h : Good nv cnf) (hn : cnf.length ≤ 65535) (hf : Sound nv cnf bad) {n : Nat} {s : List Nat × List Nat} (hi : Inv nv cnf useMap cm (n + 1) s) (b : Fin 2) :
    ∃ w : List Nat, w.Pairwise (· < ·) ∧ Stepped nv cnf (decide (b.val ≠ 0)) (n + 1) s.1 w ∧ RS nv cnf n w ∧ (
      bad n w = none ∧ (specWith nv cnf bad useMap cm hash).child s (n + 1) b = (((n + 1 : Nat) : Int), s) ∨
      (∀ u, ¬ Sem nv cnf n w u) ∧ ((specWith nv cnf bad useMap cm hash).child s (n + 1) b).1 = 0 ∨
      (n ≤ completing nv cnf ∧ w = []) ∧ ((specWith nv cnf bad useMap cm hash).child s (n + 1) b).1 = -1 ∨
      0 < n ∧ ¬ (n ≤ completing nv cnf ∧ w = []) ∧ (specWith nv cnf bad useMap cm hash).child s (n + 1) b = ((n : Int), nextState useMap (cm n) w)) := by
  obtain ⟨w1, w2⟩ := work_spec h hn hi.sorted hi.reach.valid (decide (b.val ≠ 0)) (n + 1)
  have hr := hi.reach.step _ w2
  refine ⟨work nv cnf s.1 (n + 1) b, w1, w2, hr, ?_⟩
  rw [child_eq]
  have hw : (work nv cnf s.1 (n + 1) b).Pairwise (· < ·) := w1
  have hr : RS nv cnf n (work nv cnf s.1 (n + 1) b) := hr
  generalize work nv cnf s.1 (n + 1) b = w at hw hr
  cases e : bad n w with
  | none => exact .inl ⟨rfl, rfl⟩
  | some r =>
    refine .inr ?_
    dsimp only [Option.elim]
    cases r with
    | true =>
      refine .inl ⟨fun u hu => ?_, rfl⟩
      exact hf n w hr hw e u hu
    | false =>
      rw [if_neg Bool.false_ne_true]
      split
      · rename_i hc
        exact .inr (.inl ⟨hc, rfl⟩)
      · rename_i hc
        by_cases h0 : n = 0
        · subst h0
          refine .inl ⟨fun u hu => ?_, rfl⟩
          cases w with
          | nil => exact hc ⟨Nat.zero_le _, rfl⟩
          | cons j w =>
            obtain ⟨c, hj⟩ := hr.valid j List.mem_cons_self
            exact sem_zero h hj List.mem_cons_self hu
        · exact .inr (.inr ⟨by omega, hc, rfl⟩)

theorem spec_root (hv : 0 < nv) : (specWith nv cnf bad useMap cm hash).root = ((nv : Int), [], []) := if_neg (by omega)

theorem inv_root : Inv nv cnf useMap cm nv ([], []) := by
  refine ⟨.nil, .top, .nil, fun x => ?_⟩
  cases useMap
  · exact Iff.rfl
  · simp

theorem spec_inv (h : Good nv cnf) (hn : cnf.length ≤ 65535) (hf : Sound nv cnf bad) (hm : MapOk nv cnf cm) (hv : 0 < nv) {n : Nat} {s : List Nat × List Nat} (h0 : 0 < n) (hr : Reach (specWith nv cnf bad useMap cm hash) (n : Int) s) : Inv nv cnf useMap cm n s := by
  refine reach_inv (Inv := Inv nv cnf useMap cm) (spec_root hv) inv_root ?_ hr n h0 rfl
  intro n s b k hn0 hk hi e
  obtain ⟨n, rfl⟩ : ∃ m, n = m + 1 := ⟨n - 1, by omega⟩
  obtain ⟨w, w1, w2, w3, g⟩ := step_cases (bad := bad) (hash := hash) h hn hf hi b
  rcases g with ⟨_, g⟩ | ⟨_, g⟩ | ⟨_, g⟩ | ⟨_, _, g⟩
  · rw [g] at e ⊢
    have e : ((n + 1 : Nat) : Int) = k := e
    have : n + 1 = k := by omega
    exact this ▸ hi
  · rw [g] at e; omega
  · rw [g] at e; omega
  · rw [g] at e ⊢
    have e : (n : Int) = k := e
    have : n = k := by omega
    exact this ▸ next_inv hm hn w1 w3

/-- The levels descend unless a loop of `badState` runs beyond the end. -/
theorem desc_of (h : Good nv cnf) (hn : cnf.length ≤ 65535) (hf : Sound nv cnf bad) (hm : MapOk nv cnf cm) (hv : 0 < nv) (ho : ∀ n w, RS nv cnf n w → w.Pairwise (· < ·) → bad n w ≠ none) : Desc (specWith nv cnf bad useMap cm hash) := by
  have key : ∀ {n : Nat} {s : List Nat × List Nat} (b : Fin 2), 0 < n → Reach (specWith nv cnf bad useMap cm hash) (n : Int) s → ((specWith nv cnf bad useMap cm hash).child s n b).1 < n ∧ -1 ≤ ((specWith nv cnf bad useMap cm hash).child s n b).1 := by
    intro n s b h0 hr
    have hi := spec_inv h hn hf hm hv h0 hr
    obtain ⟨n, rfl⟩ : ∃ m, n = m + 1 := ⟨n - 1, by omega⟩
    obtain ⟨w, w1, w2, w3, g⟩ := step_cases (bad := bad) (hash := hash) h hn hf hi b
    rcases g with ⟨g, _⟩ | ⟨_, g⟩ | ⟨_, g⟩ | ⟨_, _, g⟩
    · exact absurd g (ho n w w3 w1)
    · rw [g]; omega
    · rw [g]; omega
    · rw [g]; dsimp only; omega
  refine ⟨?_, fun b h0 hr => (key b h0 hr).1, fun b h0 hr => (key b h0 hr).2⟩
  rw [spec_root hv]
  show -1 ≤ (nv : Int)
  omega

/-- the truth assignment of a vector of values -/
def val (nv : Nat) (a : Asg 2) (v : Nat) : Bool := decide ((a (nv + 1 - v)).val ≠ 0)

/-- what a step does if nothing is undefined -/
theorem step_desc (h : Good nv cnf) (hn : cnf.length ≤ 65535) (hf : Sound nv cnf bad) (hm : MapOk nv cnf cm) (hd : Desc (specWith nv cnf bad useMap cm hash)) (hv : 0 < nv) {n : Nat} {s : List Nat × List Nat}
    (hr : Reach (specWith nv cnf bad useMap cm hash) ((n + 1 : Nat) : Int) s) (b : Fin 2) :
    ∃ w : List Nat, Stepped nv cnf (decide (b.val ≠ 0)) (n + 1) s.1 w ∧ RS nv cnf n w ∧ (
      (∀ u, ¬ Sem nv cnf n w u) ∧ ((specWith nv cnf bad useMap cm hash).child s (n + 1) b).1 = 0 ∨
      (n ≤ completing nv cnf ∧ w = []) ∧ ((specWith nv cnf bad useMap cm hash).child s (n + 1) b).1 = -1 ∨
      0 < n ∧ ¬ (n ≤ completing nv cnf ∧ w = []) ∧ ((specWith nv cnf bad useMap cm hash).child s (n + 1) b).1 = (n : Int) ∧ ((specWith nv cnf bad useMap cm hash).child s (n + 1) b).2.1 = w) := by
  have hi := spec_inv h hn hf hm hv (Nat.succ_pos _) hr
  obtain ⟨w, w1, w2, w3, g⟩ := step_cases (bad := bad) (hash := hash) h hn hf hi b
  refine ⟨w, w2, w3, ?_⟩
  rcases g with ⟨_, g⟩ | g | g | ⟨g1, g2, g⟩
  · have := hd.child_lt b (Nat.succ_pos _) hr
    rw [g] at this
    exact absurd this (Int.lt_irrefl _)
  · exact .inl g
  · exact .inr (.inl g)
  · refine .inr (.inr ⟨g1, g2, ?_⟩)
    rw [g]
    exact ⟨rfl, toSet_id w1⟩

theorem spec_sat (h : Good nv cnf) (hn : cnf.length ≤ 65535) (hf : Sound nv cnf bad) (hm : MapOk nv cnf cm) (hd : Desc (specWith nv cnf bad useMap cm hash)) (hv : 0 < nv) (a : Asg 2) :
    BddSat (specWith nv cnf bad useMap cm hash) a ↔ Sat (val nv a) cnf := by
  have key : ∀ (n : Nat) s, 0 < n → Reach (specWith nv cnf bad useMap cm hash) (n : Int) s → (BddSatAt (specWith nv cnf bad useMap cm hash) n s a ↔ Sem nv cnf n s.1 (val nv a)) := by
    intro n
    induction n with
    | zero => intro s h0; omega
    | succ n ih =>
      intro s _ hr
      have hi := spec_inv h hn hf hm hv (Nat.succ_pos _) hr
      have hle := hi.reach.le
      obtain ⟨w, w2, w3, g⟩ := step_desc h hn hf hm hd hv hr (a (n + 1))
      rw [bddSatAt_pos (Nat.succ_pos _), sem_step h w2 (u := val nv a) (by unfold val; rw [show nv + 1 - (nv - n) = n + 1 by omega])]
      have hrc : Reach (specWith nv cnf bad useMap cm hash) _ _ := .step (a (n + 1)) (Nat.succ_pos _) hr
      rcases g with ⟨g1, g⟩ | ⟨g1, g⟩ | ⟨g1, _, g, g'⟩
      · rw [g]
        exact ⟨fun k => absurd k bddSatAt_zero, fun k => absurd k (g1 _)⟩
      · rw [g, g1.2]
        exact ⟨fun _ => sem_done h g1.1, fun _ => bddSatAt_neg (by decide)⟩
      · rw [g] at hrc
        rw [g, ih _ g1 hrc, g']
  have hr := Reach.root (sp := specWith nv cnf bad useMap cm hash)
  unfold BddSat
  rw [spec_root hv] at hr ⊢
  rw [key nv _ hv hr]
  exact sem_top h

/-- an accepting path gives an assignment -/
theorem sem_of_accepts (h : Good nv cnf) (hn : cnf.length ≤ 65535) (hf : Sound nv cnf bad) (hm : MapOk nv cnf cm) (hd : Desc (specWith nv cnf bad useMap cm hash)) (hv : 0 < nv) {p : Path 2} :
    ∀ {n : Nat} {s : List Nat × List Nat}, 0 < n → Reach (specWith nv cnf bad useMap cm hash) (n : Int) s → Accepts (specWith nv cnf bad useMap cm hash) n s p → ∃ u, Sem nv cnf n s.1 u := by
  induction p with
  | nil =>
    intro n s h0 hr ha
    obtain ⟨_, _, e, _⟩ := (accepts_pos h0).1 ha
    cases e
  | cons x p ih =>
    intro n s h0 hr ha
    obtain ⟨b, q, e, ha⟩ := (accepts_pos h0).1 ha
    cases e
    obtain ⟨n, rfl⟩ : ∃ m, n = m + 1 := ⟨n - 1, by omega⟩
    have hle := (spec_inv h hn hf hm hv (Nat.succ_pos _) hr).reach.le
    obtain ⟨w, w2, w3, g⟩ := step_desc h hn hf hm hd hv hr b
    have hrc : Reach (specWith nv cnf bad useMap cm hash) _ _ := .step b (Nat.succ_pos _) hr
    have : ∃ u, Sem nv cnf n w u := by
      rcases g with ⟨g1, g⟩ | ⟨g1, g⟩ | ⟨g1, _, g, g'⟩
      · rw [g] at ha
        exact absurd ha not_accepts_zero
      · exact ⟨fun _ => true, g1.2 ▸ sem_done h g1.1⟩
      · rw [g] at ha hrc
        obtain ⟨u, hu⟩ := ih g1 hrc ha
        exact ⟨u, g' ▸ hu⟩
    obtain ⟨u, hu⟩ := this
    refine ⟨fun t => if t = nv - n then decide (b.val ≠ 0) else u t, (sem_step h w2 (if_pos rfl)).2 (sem_congr h (fun t ht => ?_) hu)⟩
    rw [if_neg (by omega)]

theorem accepts_sub (h : Good nv cnf) (hn : cnf.length ≤ 65535) (hf : Sound nv cnf bad) (hm : MapOk nv cnf cm) (hd : Desc (specWith nv cnf bad useMap cm hash)) (hv : 0 < nv) {p : Path 2} :
    ∀ {n : Nat} {s t : List Nat × List Nat}, 0 < n → Reach (specWith nv cnf bad useMap cm hash) (n : Int) s → Reach (specWith nv cnf bad useMap cm hash) (n : Int) t → Sub nv cnf n s.1 t.1 → Sub nv cnf n t.1 s.1 →
      Accepts (specWith nv cnf bad useMap cm hash) n s p → Accepts (specWith nv cnf bad useMap cm hash) n t p := by
  induction p with
  | nil =>
    intro n s t h0 hr _ _ _ ha
    obtain ⟨_, _, e, _⟩ := (accepts_pos h0).1 ha
    cases e
  | cons x p ih =>
    intro n s t h0 hr hrt hst hts ha
    obtain ⟨b, q, e, ha⟩ := (accepts_pos h0).1 ha
    cases e
    obtain ⟨n, rfl⟩ : ∃ m, n = m + 1 := ⟨n - 1, by omega⟩
    refine .step h0 ?_
    obtain ⟨w, w2, w3, g⟩ := step_desc h hn hf hm hd hv hr b
    obtain ⟨v, v2, v3, k⟩ := step_desc h hn hf hm hd hv hrt b
    have hrc : Reach (specWith nv cnf bad useMap cm hash) _ _ := .step b (Nat.succ_pos _) hr
    have hrk : Reach (specWith nv cnf bad useMap cm hash) _ _ := .step b (Nat.succ_pos _) hrt
    have hwv := hst.step w2 v2
    have hvw := hts.step v2 w2
    have nil_iff : w = [] ↔ v = [] := by
      have : ∀ {w v : List Nat}, RS nv cnf n w → Sub nv cnf n w v → v = [] → w = [] := by
        intro w v hr hs hv
        cases w with
        | nil => rfl
        | cons j w =>
          obtain ⟨c, hc⟩ := hr.valid j List.mem_cons_self
          obtain ⟨k, hk, _⟩ := hs j List.mem_cons_self c hc
          rw [hv] at hk
          cases hk
      exact ⟨this v3 hvw, this w3 hwv⟩
    rcases g with ⟨g1, g⟩ | ⟨g1, g⟩ | ⟨g1, g2, g, g'⟩
    · rw [g] at ha
      exact absurd ha not_accepts_zero
    · rw [g] at ha
      rw [(accepts_neg (by decide)).1 ha]
      have hve := nil_iff.1 g1.2
      rcases k with ⟨k1, k⟩ | ⟨k1, k⟩ | ⟨_, k2, _⟩
      · exact absurd (hve ▸ sem_done h g1.1) (k1 fun _ => true)
      · rw [k]; exact .one (by decide)
      · exact absurd ⟨g1.1, hve⟩ k2
    · rw [g] at ha hrc
      rcases k with ⟨k1, k⟩ | ⟨k1, k⟩ | ⟨k1, k2, k, k'⟩
      · obtain ⟨u, hu⟩ := sem_of_accepts h hn hf hm hd hv g1 hrc ha
        rw [g'] at hu
        exact absurd (hvw.sem hu) (k1 u)
      · exact absurd ⟨k1.1, nil_iff.2 k1.2⟩ g2
      · rw [k] at hrk ⊢
        exact ih g1 hrc hrk (by rw [g', k']; exact hwv) (by rw [g', k']; exact hvw) ha

theorem sub_of_id (hm : MapOk nv cnf cm) {n : Nat} {s t : List Nat × List Nat} (hs : Inv nv cnf useMap cm n s) (ht : Inv nv cnf useMap cm n t) (e : s.2 = t.2) : Sub nv cnf n s.1 t.1 := by
  intro j hj c hc
  cases useMap with
  | false =>
    refine ⟨j, ?_, c, hc, fun x _ => Iff.rfl⟩
    have h1 := (hs.id j).2 hj
    rw [e] at h1
    exact (ht.id j).1 h1
  | true =>
    have h1 := (hs.id (cm n j)).2 ⟨j, hj, rfl⟩
    rw [e] at h1
    obtain ⟨k, hk, ek⟩ : ∃ k ∈ t.1, cm n j = cm n k := (ht.id _).1 h1
    obtain ⟨d, hd⟩ := ht.reach.valid k hk
    obtain ⟨c', hc', h1⟩ := hm n hs.reach.le j c hc
    obtain ⟨d', hd', h2⟩ := hm n hs.reach.le k d hd
    rw [ek] at hc'
    rw [hc'.unique hd'] at h1
    exact ⟨k, hk, d, hd, fun x hx => (h1 x hx).trans (h2 x hx).symm⟩

theorem spec_lawful (h : Good nv cnf) (hn : cnf.length ≤ 65535) (hf : Sound nv cnf bad) (hm : MapOk nv cnf cm) (hd : Desc (specWith nv cnf bad useMap cm hash)) (hv : 0 < nv) : Lawful (specWith nv cnf bad useMap cm hash) where
  toDesc := hd
  refl := fun _ _ => decide_eq_true rfl
  symm := fun _ _ _ e => decide_eq_true (of_decide_eq_true e).symm
  trans := fun _ _ _ _ e e' => decide_eq_true ((of_decide_eq_true e).trans (of_decide_eq_true e'))
  hash_eq := fun _ _ _ e => congrArg hash (of_decide_eq_true e)
  sound := fun h0 hs ht e p => by
    have is := spec_inv h hn hf hm hv h0 hs
    have it := spec_inv h hn hf hm hv h0 ht
    have e := of_decide_eq_true e
    have h1 := sub_of_id hm is it e
    have h2 := sub_of_id hm it is e.symm
    exact ⟨accepts_sub h hn hf hm hd hv h0 hs ht h1 h2, accepts_sub h hn hf hm hd hv h0 ht hs h2 h1⟩

end CnfB

end TdZdd
