import Verif.PathCounter
import Verif.Counting
import Verif.BigNumberProofs2

/-! Proofs about `PathCounter`: weights of nodes, and the loop over nodes and branches. -/

namespace TdZdd

open Big

variable {N : Nat} {S α : Type} {sp : DdSpec N S}

/-- The result satisfies `P`; undefined behaviour implies `u.1`, an exception implies `u.2`. -/
def Post {α : Type} (u : Prop × Prop) (x : Out α) (P : α → Prop) : Prop :=
  match x with
  | .ub => u.1
  | .throw => u.2
  | .ok a => P a

theorem Post.bind {α β : Type} {u : Prop × Prop} {x : Out α} {f : α → Out β} {P : α → Prop} {Q : β → Prop} (h : Post u x P)
    (hf : ∀ a, P a → Post u (f a) Q) : Post u (x.bind f) Q := by
  cases x with
  | ub => exact h
  | throw => exact h
  | ok a => exact hf a h

theorem Post.imp {α : Type} {u : Prop × Prop} {x : Out α} {P Q : α → Prop} (h : Post u x P) (hf : ∀ a, P a → Q a) : Post u x Q := by
  cases x with
  | ub => exact h
  | throw => exact h
  | ok a => exact hf a h

/-- loops -/
theorem Post.fold {α β γ : Type} {u : Prop × Prop} {f : β → α → Out β} (g : γ → α) (I : List γ → β → Prop)
    (h : ∀ c cs b, I (c :: cs) b → Post u (f b (g c)) (I cs)) : ∀ (l : List γ) (b : β), I l b →
    Post u (Out.fold f (l.map g) b) (I []) := by
  intro l
  induction l with
  | nil => intro b hb; exact hb
  | cons c cs ih => intro b hb; exact (h c cs b hb).bind fun b' hb' => ih b' hb'

/-! ### Weights -/

/-- total weight of the nodes of a level; a node is a state, the representation of its number and the number -/
def rowSum (c : Nat → S → Nat) (j : Nat) (L : List (S × α × Nat)) : Nat := (L.map fun x => x.2.2 * c j x.1).sum

/-- total weight of the levels `1..i` -/
def below (c : Nat → S → Nat) (G : Nat → List (S × α × Nat)) : Nat → Nat
  | 0 => 0
  | i + 1 => below c G i + rowSum c (i + 1) (G (i + 1))

theorem rowSum_cons {c : Nat → S → Nat} {j : Nat} {x : S × α × Nat} {L : List (S × α × Nat)} :
    rowSum c j (x :: L) = x.2.2 * c j x.1 + rowSum c j L := rfl

theorem rowSum_append {c : Nat → S → Nat} {j : Nat} {L L' : List (S × α × Nat)} :
    rowSum c j (L ++ L') = rowSum c j L + rowSum c j L' := by simp [rowSum]

theorem rowSum_set {c : Nat → S → Nat} {j k : Nat} {x x' : S × α × Nat} {L : List (S × α × Nat)} (h : L[k]? = some x) :
    rowSum c j (L.set k x') + x.2.2 * c j x.1 = rowSum c j L + x'.2.2 * c j x'.1 := by
  induction L generalizing k with
  | nil => cases h
  | cons y L ih =>
    cases k with
    | zero =>
      have : y = x := by simpa using h
      subst this
      simp only [List.set_cons_zero, rowSum_cons]; omega
    | succ k =>
      have := ih (k := k) (by simpa using h)
      simp only [List.set_cons_succ, rowSum_cons]; omega

theorem le_rowSum {c : Nat → S → Nat} {j k : Nat} {x : S × α × Nat} {L : List (S × α × Nat)} (h : L[k]? = some x) :
    x.2.2 * c j x.1 ≤ rowSum c j L := by
  induction L generalizing k with
  | nil => cases h
  | cons y L ih =>
    rw [rowSum_cons]
    cases k with
    | zero =>
      have : y = x := by simpa using h
      subst this; omega
    | succ k => have := ih (k := k) (by simpa using h); omega

theorem below_above {c : Nat → S → Nat} {G : Nat → List (S × α × Nat)} {i j : Nat} {L : List (S × α × Nat)} (h : i < j) :
    below c (upd G j L) i = below c G i := by
  induction i with
  | zero => rfl
  | succ i ih => rw [below, below, ih (by omega), upd_ne _ _ (by omega)]

theorem below_upd {c : Nat → S → Nat} {G : Nat → List (S × α × Nat)} {i j : Nat} {L : List (S × α × Nat)} (h0 : 0 < j) (h : j ≤ i) :
    below c (upd G j L) i + rowSum c j (G j) = below c G i + rowSum c j L := by
  induction i with
  | zero => omega
  | succ i ih =>
    rw [below, below]
    by_cases hj : j = i + 1
    · subst hj
      rw [below_above (by omega), upd_same]; omega
    · rw [upd_ne _ _ (by omega)]
      have := ih (by omega); omega

theorem rowSum_le_below {c : Nat → S → Nat} {G : Nat → List (S × α × Nat)} {i j : Nat} (h0 : 0 < j) (h : j ≤ i) :
    rowSum c j (G j) ≤ below c G i := by
  induction i with
  | zero => omega
  | succ i ih =>
    rw [below]
    by_cases hj : j = i + 1
    · subst hj; omega
    · have := ih (by omega); omega

/-! ### Number of accepted paths -/

/-- weight of a level code and state -/
def cc (c : Nat → S → Nat) (x : Int × S) : Nat := if x.1 < 0 then 1 else if x.1 = 0 then 0 else c x.1.toNat x.2

/-- number of accepted paths -/
noncomputable def cntF (sp : DdSpec N S) (j : Nat) (s : S) : Nat :=
  open Classical in if h : ∃ k, HasCount (fun p : Path N => Accepts sp (j : Int) s p) k then Classical.choose h else 0

theorem cntF_eq {j : Nat} {s : S} {k : Nat} (h : HasCount (fun p : Path N => Accepts sp (j : Int) s p) k) : cntF sp j s = k := by
  have he : ∃ k, HasCount (fun p : Path N => Accepts sp (j : Int) s p) k := ⟨k, h⟩
  unfold cntF
  rw [dif_pos he]
  exact (Classical.choose_spec he).unique h

theorem count_all (hd : Desc sp) : ∀ (r : Nat) (l : Int) (s : S), l ≤ r → -1 ≤ l → Reach sp l s →
    HasCount (fun p : Path N => Accepts sp l s p) (cc (cntF sp) (l, s)) ∧
    ∀ n : Nat, l = n → 0 < n → cntF sp n s = (List.ofFn fun b => cc (cntF sp) (sp.child s n b)).sum := by
  intro r
  induction r with
  | zero =>
    intro l s hl hge hr
    refine ⟨?_, fun n hn h0 => by omega⟩
    unfold cc
    by_cases h : l < 0
    · dsimp only
      rw [if_pos h]
      refine (hasCount_one ([] : Path N)).congr fun p => ?_
      constructor
      · rintro rfl; exact .one h
      · intro hp
        cases hp with
        | one _ => rfl
        | step h0 _ => omega
    · have : l = 0 := by omega
      subst this
      exact hasCount_none fun p => not_accepts_zero
  | succ r ih =>
    intro l s hl hge hr
    by_cases hlr : l ≤ r
    · exact ih l s hlr hge hr
    · have hl : l = ((r + 1 : Nat) : Int) := by omega
      subst hl
      have hb : ∀ b, HasCount (fun p : Path N => Accepts sp (sp.child s (r + 1) b).1 (sp.child s (r + 1) b).2 p)
          (cc (cntF sp) (sp.child s (r + 1) b)) := by
        intro b
        have h1 := hd.child_lt b (Nat.succ_pos r) hr
        have h2 := hd.child_ge b (Nat.succ_pos r) hr
        exact (ih _ _ (by omega) h2 (.step b (Nat.succ_pos r) hr)).1
      have key : HasCount (fun p : Path N => Accepts sp ((r + 1 : Nat) : Int) s p)
          (List.ofFn fun b => cc (cntF sp) (sp.child s (r + 1) b)).sum := by
        refine (hasCount_union (fun (b : Fin N) (p : Path N) => (r + 1, b) :: p) ?_ hb).congr ?_
        · intro b b' x x' e
          simp only [List.cons.injEq, Prod.mk.injEq, true_and] at e
          exact e
        · intro p
          rw [accepts_pos (Nat.succ_pos r)]
      have e := cntF_eq key
      refine ⟨?_, ?_⟩
      · rw [← e] at key
        unfold cc
        dsimp only
        rw [if_neg (by omega), if_neg (by omega), show (((r + 1 : Nat) : Int)).toNat = r + 1 from by omega]
        exact key
      · intro n hn _
        have : n = r + 1 := by omega
        subst this
        exact e

/-- the weight that bounds the numbers -/
def pot (N : Nat) : Nat → S → Nat := fun j _ => N ^ j

theorem cc_pot_le {x : Int × S} {i : Nat} (hN : 0 < N) (h0 : 0 < i) (h : x.1 < i) : cc (pot N) x ≤ N ^ (i - 1) := by
  unfold cc
  have h1 : 1 ≤ N ^ (i - 1) := Nat.pow_pos hN
  split
  · exact h1
  · split
    · omega
    · exact Nat.pow_le_pow_right hN (by omega)

theorem pc_ofFn_sum_le {M k : Nat} {f : Fin M → Nat} (h : ∀ b, f b ≤ k) : (List.ofFn f).sum ≤ M * k := by
  have : ∀ l : List Nat, (∀ x ∈ l, x ≤ k) → l.sum ≤ l.length * k := by
    intro l
    induction l with
    | nil => intro _; simp
    | cons a l ih =>
      intro hl
      have h1 := ih fun x hx => hl x (List.mem_cons_of_mem _ hx)
      have h2 := hl a (List.mem_cons_self ..)
      rw [List.sum_cons, List.length_cons, Nat.succ_mul]; omega
  have := this (List.ofFn f) (by
    intro x hx
    obtain ⟨b, rfl⟩ := List.mem_ofFn.1 hx
    exact h b)
  rwa [List.length_ofFn] at this

/-! ### The loop over the nodes of a level -/

/-- Parameters of the proof: `X` describes the representation of the lists, `T` that of `total`, `K` is the final count
modulo `M`, `Bt` bounds the total weight and `Br` that of the lists. -/
structure PcInv (sp : DdSpec N S) (X : (Nat → List (S × α × Nat)) → Nat → Prop) (T : α → Nat → Prop) (K M Bt Br i rc rp : Nat)
    (G : Nat → List (S × α × Nat)) (t : Nat) (st : PcSt S α) : Prop where
  rows : ∀ j, st.rows j = (G j).map fun x => (x.1, x.2.1)
  reach : ∀ j, 0 < j → ∀ x ∈ G j, Reach sp (j : Int) x.1
  rep : X G st.words
  tot : T st.total t
  cnt : (t + below (cntF sp) G i + rc) % M = K % M
  bt : t + below (pot N) G i + rp ≤ Bt
  br : below (pot N) G i + rp ≤ Br

/-- some ghost values satisfy the invariant -/
def PcI (sp : DdSpec N S) (X : (Nat → List (S × α × Nat)) → Nat → Prop) (T : α → Nat → Prop) (K M Bt Br i rc rp : Nat)
    (st : PcSt S α) : Prop := ∃ G t, PcInv sp X T K M Bt Br i rc rp G t st

section level

variable {ops : CountOps α} {X : (Nat → List (S × α × Nat)) → Nat → Prop} {T : α → Nat → Prop} {K M Bt Br i : Nat}
  {ins : Nat → S → α → PcSt S α → Out (PcSt S α)} {E : α → Nat → Prop} {u : Prop × Prop}

/-- What the level loop needs to know about the operations. -/
structure PcOk (sp : DdSpec N S) (ops : CountOps α) (X : (Nat → List (S × α × Nat)) → Nat → Prop) (T E : α → Nat → Prop)
    (K M Bt Br i : Nat) (ins : Nat → S → α → PcSt S α → Out (PcSt S α)) (u : Prop × Prop) : Prop where
  ins : ∀ (ii : Nat) (s : S) (x : α) (v : Nat) (rc rp : Nat) (st : PcSt S α), 0 < ii → ii < i → Reach sp (ii : Int) s →
    (∃ s' b, Reach sp (i : Int) s' ∧ (sp.child s' i b).1 = ii) → E x v → 0 < v →
    PcI sp X T K M Bt Br (i - 1) (v * cntF sp ii s + rc) (v * pot N ii s + rp) st →
    Post u (ins ii s x st) (PcI sp X T K M Bt Br (i - 1) rc rp)
  add : ∀ (t x : α) (a v : Nat), T t a → E x v → a + v ≤ Bt → Post u (ops.add t x) fun r => T r.1 (a + v)
  zero : ∀ (x : α) (v : Nat), E x v → Post u (ops.isZero x) fun z => (z = true → v % M = 0) ∧ (z = false → 0 < v)

theorem pcChild_post (hd : Desc sp) (ho : PcOk sp ops X T E K M Bt Br i ins u) (h0 : 0 < i) {s : S} (hr : Reach sp (i : Int) s)
    (b : Fin N) {x : α} {v : Nat} (hE : E x v) (hv : 0 < v) {rc rp : Nat} {st : PcSt S α}
    (h : PcI sp X T K M Bt Br (i - 1) (v * cc (cntF sp) (sp.child s i b) + rc) (v * cc (pot N) (sp.child s i b) + rp) st) :
    Post u (pcChild ops ins i x st (sp.child s i b)) (PcI sp X T K M Bt Br (i - 1) rc rp) := by
  have hlt := hd.child_lt b h0 hr
  have hge := hd.child_ge b h0 hr
  have hreach : Reach sp _ _ := .step b h0 hr
  have hex : ∀ ii : Nat, (sp.child s i b).1 = ii → ∃ s' b, Reach sp (i : Int) s' ∧ (sp.child s' i b).1 = ii :=
    fun ii e => ⟨s, b, hr, e⟩
  obtain ⟨c, hc⟩ : ∃ c, c = sp.child s i b := ⟨_, rfl⟩
  rw [← hc] at hlt hge hreach hex h ⊢
  unfold pcChild
  by_cases h1 : c.1 ≤ 0
  · rw [if_pos h1]
    by_cases h2 : c.1 = 0
    · rw [if_neg (not_not_intro h2)]
      have e : ∀ k : Nat → S → Nat, cc k c = 0 := by
        intro k; unfold cc; rw [if_neg (by omega), if_pos h2]
      rw [e, e, Nat.mul_zero, Nat.zero_add, Nat.zero_add] at h
      exact h
    · rw [if_pos h2]
      have e : ∀ k : Nat → S → Nat, cc k c = 1 := by
        intro k; unfold cc; rw [if_pos (by omega)]
      rw [e, e, Nat.mul_one] at h
      obtain ⟨G, t, hi⟩ := h
      refine (ho.add st.total x t v hi.tot hE (by have := hi.bt; omega)).bind fun r hr => ?_
      refine ⟨G, t + v, hi.rows, hi.reach, hi.rep, hr, ?_, ?_, ?_⟩
      · rw [← hi.cnt]; congr 1; omega
      · have := hi.bt; omega
      · have := hi.br; omega
  · rw [if_neg h1, if_pos hlt]
    have et : ((c.1.toNat : Nat) : Int) = c.1 := by omega
    have e : ∀ k : Nat → S → Nat, cc k c = k c.1.toNat c.2 := by
      intro k; unfold cc; rw [if_neg (by omega), if_neg (by omega)]
    rw [e, e] at h
    exact ho.ins c.1.toNat c.2 x v rc rp st (by omega) (by omega) (by rw [et]; exact hreach) (hex _ et.symm) hE hv h

theorem mod_drop {a b v c M : Nat} (h : v % M = 0) : (a + (v * c + b)) % M = (a + b) % M := by
  have : v * c % M = 0 := by rw [Nat.mul_mod, h, Nat.zero_mul, Nat.zero_mod]
  rw [show a + (v * c + b) = (a + b) + v * c from by omega, Nat.add_mod, this, Nat.add_zero, Nat.mod_mod]

theorem sum_map_mul {β : Type} (l : List β) (f : β → Nat) (v : Nat) : (l.map fun b => v * f b).sum = v * (l.map f).sum := by
  induction l with
  | nil => simp
  | cons a l ih => simp [ih, Nat.mul_add]

theorem pcNode_post (hd : Desc sp) (hN : 0 < N) (ho : PcOk sp ops X T E K M Bt Br i ins u) (h0 : 0 < i) {s : S}
    (hr : Reach sp (i : Int) s) {x : α} {v : Nat} (hE : E x v) {rc rp : Nat} {st : PcSt S α}
    (h : PcI sp X T K M Bt Br (i - 1) (v * cntF sp i s + rc) (v * pot N i s + rp) st) :
    Post u (pcNode ops sp ins i st (s, x)) (PcI sp X T K M Bt Br (i - 1) rc rp) := by
  unfold pcNode
  refine (ho.zero x v hE).bind fun z hz => ?_
  cases z with
  | true =>
    rw [if_pos rfl]
    obtain ⟨G, t, hi⟩ := h
    refine ⟨G, t, hi.rows, hi.reach, hi.rep, hi.tot, ?_, ?_, ?_⟩
    · rw [← hi.cnt, mod_drop (hz.1 rfl)]
    · have := hi.bt; omega
    · have := hi.br; omega
  | false =>
    rw [if_neg (by decide)]
    have ec : cntF sp i s = ((List.finRange N).map fun b => cc (cntF sp) (sp.child s i b)).sum := by
      rw [(count_all hd i i s (Int.le_refl _) (by omega) hr).2 i rfl h0, ofFn_eq_map_finRange]
    have ep : ((List.finRange N).map fun b => cc (pot N) (sp.child s i b)).sum ≤ pot N i s := by
      rw [← ofFn_eq_map_finRange]
      refine Nat.le_trans (pc_ofFn_sum_le (k := N ^ (i - 1)) fun b => cc_pot_le hN h0 (hd.child_lt b h0 hr)) ?_
      show N * N ^ (i - 1) ≤ N ^ i
      obtain ⟨m, rfl⟩ : ∃ m, i = m + 1 := ⟨i - 1, by omega⟩
      rw [Nat.add_sub_cancel, Nat.pow_succ, Nat.mul_comm]
      exact Nat.le_refl _
    have := Post.fold (u := u) (f := fun st b => pcChild ops ins i x st (sp.child s i b)) id
      (fun bs st => PcI sp X T K M Bt Br (i - 1) ((bs.map fun b => v * cc (cntF sp) (sp.child s i b)).sum + rc)
        ((bs.map fun b => v * cc (pot N) (sp.child s i b)).sum + rp) st) ?_ (List.finRange N) st ?_
    · rw [List.map_id] at this
      refine this.imp fun st h => ?_
      simpa using h
    · intro b bs st h
      rw [List.map_cons, List.map_cons, List.sum_cons, List.sum_cons, Nat.add_assoc, Nat.add_assoc] at h
      exact pcChild_post hd ho h0 hr b hE (hz.2 rfl) h
    · obtain ⟨G, t, hi⟩ := h
      have : v * ((List.finRange N).map fun b => cc (pot N) (sp.child s i b)).sum ≤ v * pot N i s := Nat.mul_le_mul_left _ ep
      refine ⟨G, t, hi.rows, hi.reach, hi.rep, hi.tot, ?_, ?_, ?_⟩
      · rw [sum_map_mul, ← ec]; exact hi.cnt
      · rw [sum_map_mul]; have := hi.bt; omega
      · rw [sum_map_mul]; have := hi.br; omega

/-- all nodes `L` of a level -/
theorem pcNodes_post (hd : Desc sp) (hN : 0 < N) (ho : PcOk sp ops X T E K M Bt Br i ins u) (h0 : 0 < i)
    (L : List (S × α × Nat)) (hL : ∀ x ∈ L, Reach sp (i : Int) x.1 ∧ E x.2.1 x.2.2) {st : PcSt S α}
    (h : PcI sp X T K M Bt Br (i - 1) (rowSum (cntF sp) i L) (rowSum (pot N) i L) st) :
    Post u (Out.fold (pcNode ops sp ins i) (L.map fun x => (x.1, x.2.1)) st) (PcI sp X T K M Bt Br (i - 1) 0 0) := by
  have := Post.fold (u := u) (f := pcNode ops sp ins i) (fun x : S × α × Nat => (x.1, x.2.1))
    (fun l st => (∀ x ∈ l, Reach sp (i : Int) x.1 ∧ E x.2.1 x.2.2) ∧
      PcI sp X T K M Bt Br (i - 1) (rowSum (cntF sp) i l) (rowSum (pot N) i l) st) ?_ L st ⟨hL, h⟩
  · exact this.imp fun st h => h.2
  · intro x xs st ⟨hx, hi⟩
    rw [rowSum_cons, rowSum_cons] at hi
    have hx0 := hx x (List.mem_cons_self ..)
    exact (pcNode_post hd hN ho h0 hx0.1 hx0.2 hi).imp fun st h => ⟨fun y hy => hx y (List.mem_cons_of_mem _ hy), h⟩

end level

end TdZdd
