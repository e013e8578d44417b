import Verif.LinearConstraints
import Verif.Dense

/-! Proofs about `LinearConstraints` (1): sums, `addConstraint`. -/

namespace TdZdd

namespace Lin

/-- sum of `f key weight` over the entries of a map -/
def wsum (f : Nat → Int → Int) (e : List (Nat × Int)) : Int := (e.map fun p => f p.1 p.2).sum

@[simp] theorem wsum_nil (f) : wsum f [] = 0 := rfl
@[simp] theorem wsum_cons (f) (p : Nat × Int) (e) : wsum f (p :: e) = f p.1 p.2 + wsum f e := rfl

theorem wsum_le {f g : Nat → Int → Int} {e : List (Nat × Int)} (h : ∀ p ∈ e, f p.1 p.2 ≤ g p.1 p.2) : wsum f e ≤ wsum g e := by
  induction e with
  | nil => exact Int.le_refl _
  | cons p e ih =>
    have h1 := h p (List.mem_cons_self ..)
    have h2 := ih fun q hq => h q (List.mem_cons_of_mem _ hq)
    simp only [wsum_cons]; omega

theorem wsum_congr {f g : Nat → Int → Int} {e : List (Nat × Int)} (h : ∀ p ∈ e, f p.1 p.2 = g p.1 p.2) : wsum f e = wsum g e :=
  Int.le_antisymm (wsum_le fun p hp => Int.le_of_eq (h p hp)) (wsum_le fun p hp => Int.le_of_eq (h p hp).symm)

theorem wsum_zero {f : Nat → Int → Int} {e : List (Nat × Int)} (h : ∀ p ∈ e, f p.1 p.2 = 0) : wsum f e = 0 := by
  rw [wsum_congr (g := fun _ _ => 0) h]
  induction e with
  | nil => rfl
  | cons p e ih => rw [wsum_cons, ih fun q hq => h q (List.mem_cons_of_mem _ hq)]; rfl

/-- keys in strictly ascending order -/
abbrev Asc (e : List (Nat × Int)) : Prop := e.Pairwise fun p q => p.1 < q.1

/-- sum over keys `≤ l` under an assignment -/
def rest (e : List (Nat × Int)) (l : Nat) (a : Asg 2) : Int := wsum (fun k w => if k ≤ l then w * (a k).val else 0) e
/-- least / greatest sum over keys `< l` -/
def minS (e : List (Nat × Int)) (l : Nat) : Int := wsum (fun k w => if k < l then (if w < 0 then w else 0) else 0) e
def maxS (e : List (Nat × Int)) (l : Nat) : Int := wsum (fun k w => if k < l then (if 0 < w then w else 0) else 0) e

theorem term_bound (w : Int) (b : Fin 2) : (if w < 0 then w else 0) ≤ w * b.val ∧ w * b.val ≤ (if 0 < w then w else 0) := by
  have : b.val = 0 ∨ b.val = 1 := by have := b.isLt; omega
  rcases this with h | h <;> rw [h] <;> simp only [Int.natCast_zero, Int.natCast_one, Int.mul_zero, Int.mul_one] <;>
    (constructor <;> split <;> omega)

theorem min_rest (e l a) : minS e (l + 1) ≤ rest e l a := by
  apply wsum_le; intro p _
  by_cases h : p.1 ≤ l
  · rw [if_pos h, if_pos (by omega)]; exact (term_bound _ _).1
  · rw [if_neg h, if_neg (by omega)]; exact Int.le_refl _

theorem rest_max (e l a) : rest e l a ≤ maxS e (l + 1) := by
  apply wsum_le; intro p _
  by_cases h : p.1 ≤ l
  · rw [if_pos h, if_pos (by omega)]; exact (term_bound _ _).2
  · rw [if_neg h, if_neg (by omega)]; exact Int.le_refl _

theorem minS_nonpos (e l) : minS e l ≤ 0 := by
  rw [← wsum_zero (f := fun _ _ => 0) (e := e) fun _ _ => rfl]
  apply wsum_le; intro p _
  split <;> (try split) <;> omega

theorem maxS_nonneg (e l) : 0 ≤ maxS e l := by
  rw [← wsum_zero (f := fun _ _ => 0) (e := e) fun _ _ => rfl]
  apply wsum_le; intro p _
  split <;> (try split) <;> omega

/-- the weight of a key -/
def HasKey (e : List (Nat × Int)) (l : Nat) : Prop := ∃ w, (l, w) ∈ e

theorem split_at {f g h : Nat → Int → Int} {e : List (Nat × Int)} {l : Nat} {w : Int} (hs : Asc e) (hm : (l, w) ∈ e)
    (h1 : ∀ p ∈ e, p.1 ≠ l → f p.1 p.2 = g p.1 p.2) (h2 : f l w = h l w + g l w) : wsum f e = h l w + wsum g e := by
  induction e with
  | nil => cases hm
  | cons p e ih =>
    rw [wsum_cons, wsum_cons]
    replace hs := List.pairwise_cons.1 hs
    rcases List.mem_cons.1 hm with e1 | hm'
    · subst e1
      have : wsum f e = wsum g e := wsum_congr fun q hq => h1 q (List.mem_cons_of_mem _ hq) (by have := hs.1 q hq; dsimp only at this; omega)
      rw [this]; dsimp only; rw [h2]; omega
    · have h3 := ih hs.2 hm' fun q hq => h1 q (List.mem_cons_of_mem _ hq)
      have h4 := hs.1 _ hm'
      have h5 := h1 p (List.mem_cons_self ..) (by dsimp only at h4; omega)
      rw [h3, h5]; omega

theorem rest_key {e : List (Nat × Int)} {l : Nat} {w : Int} (hs : Asc e) (hm : (l + 1, w) ∈ e) (a : Asg 2) :
    rest e (l + 1) a = w * (a (l + 1)).val + rest e l a := by
  refine split_at (h := fun k w => w * (a k).val) hs hm (fun p _ hp => ?_) ?_
  · by_cases h : p.1 ≤ l
    · rw [if_pos (by omega), if_pos h]
    · rw [if_neg (by omega), if_neg h]
  · rw [if_pos (by omega), if_neg (by omega)]; omega

theorem rest_nokey {e : List (Nat × Int)} {l : Nat} (hk : ¬ HasKey e (l + 1)) (a : Asg 2) : rest e (l + 1) a = rest e l a := by
  apply wsum_congr; intro p hp
  have : p.1 ≠ l + 1 := fun h => hk ⟨p.2, h ▸ hp⟩
  by_cases h : p.1 ≤ l
  · rw [if_pos (by omega), if_pos h]
  · rw [if_neg (by omega), if_neg h]

theorem minS_key {e : List (Nat × Int)} {l : Nat} {w : Int} (hs : Asc e) (hm : (l, w) ∈ e) :
    minS e (l + 1) = (if w < 0 then w else 0) + minS e l := by
  refine split_at (h := fun k w => if w < 0 then w else 0) hs hm (fun p _ hp => ?_) ?_
  · by_cases h : p.1 < l
    · rw [if_pos (by omega), if_pos h]
    · rw [if_neg (by omega), if_neg h]
  · rw [if_pos (Nat.lt_succ_self l), if_neg (Nat.lt_irrefl l), Int.add_zero]

theorem maxS_key {e : List (Nat × Int)} {l : Nat} {w : Int} (hs : Asc e) (hm : (l, w) ∈ e) :
    maxS e (l + 1) = (if 0 < w then w else 0) + maxS e l := by
  refine split_at (h := fun k w => if 0 < w then w else 0) hs hm (fun p _ hp => ?_) ?_
  · by_cases h : p.1 < l
    · rw [if_pos (by omega), if_pos h]
    · rw [if_neg (by omega), if_neg h]
  · rw [if_pos (Nat.lt_succ_self l), if_neg (Nat.lt_irrefl l), Int.add_zero]

theorem minS_nokey {e : List (Nat × Int)} {l : Nat} (hk : ¬ HasKey e l) : minS e (l + 1) = minS e l := by
  apply wsum_congr; intro p hp
  have : p.1 ≠ l := fun h => hk ⟨p.2, h ▸ hp⟩
  by_cases h : p.1 < l
  · rw [if_pos (by omega), if_pos h]
  · rw [if_neg (by omega), if_neg h]

theorem maxS_nokey {e : List (Nat × Int)} {l : Nat} (hk : ¬ HasKey e l) : maxS e (l + 1) = maxS e l := by
  apply wsum_congr; intro p hp
  have : p.1 ≠ l := fun h => hk ⟨p.2, h ▸ hp⟩
  by_cases h : p.1 < l
  · rw [if_pos (by omega), if_pos h]
  · rw [if_neg (by omega), if_neg h]

theorem rest_none {e : List (Nat × Int)} {l : Nat} (h : ∀ k, k ≤ l → ¬ HasKey e k) (a) : rest e l a = 0 :=
  wsum_zero fun p hp => if_neg fun hle => h _ hle ⟨p.2, hp⟩

theorem minS_none {e : List (Nat × Int)} {l : Nat} (h : ∀ k, k < l → ¬ HasKey e k) : minS e l = 0 :=
  wsum_zero fun p hp => if_neg fun hle => h _ hle ⟨p.2, hp⟩

theorem maxS_none {e : List (Nat × Int)} {l : Nat} (h : ∀ k, k < l → ¬ HasKey e k) : maxS e l = 0 :=
  wsum_zero fun p hp => if_neg fun hle => h _ hle ⟨p.2, hp⟩

theorem rest_full {e : List (Nat × Int)} {n : Nat} (h : ∀ p ∈ e, p.1 ≤ n) (a : Asg 2) :
    rest e n a = wsum (fun k w => w * (a k).val) e := wsum_congr fun p hp => if_pos (h p hp)

/-- sum of the negative / positive weights -/
def neg (e : List (Nat × Int)) : Int := wsum (fun _ w => if w < 0 then w else 0) e
def pos (e : List (Nat × Int)) : Int := wsum (fun _ w => if 0 < w then w else 0) e

theorem minS_full {e : List (Nat × Int)} {n : Nat} (h : ∀ p ∈ e, p.1 < n) : minS e n = neg e := wsum_congr fun p hp => if_pos (h p hp)
theorem maxS_full {e : List (Nat × Int)} {n : Nat} (h : ∀ p ∈ e, p.1 < n) : maxS e n = pos e := wsum_congr fun p hp => if_pos (h p hp)

theorem neg_le_minS (e l) : neg e ≤ minS e l := by
  apply wsum_le; intro p _; split <;> split <;> omega
theorem maxS_le_pos (e l) : maxS e l ≤ pos e := by
  apply wsum_le; intro p _; split <;> split <;> omega
theorem neg_nonpos (e) : neg e ≤ 0 := Int.le_trans (neg_le_minS e 0) (minS_nonpos e 0)
theorem pos_nonneg (e) : 0 ≤ pos e := Int.le_trans (maxS_nonneg e 0) (maxS_le_pos e 0)

@[simp] theorem neg_cons (p : Nat × Int) (e) : neg (p :: e) = (if p.2 < 0 then p.2 else 0) + neg e := rfl
@[simp] theorem pos_cons (p : Nat × Int) (e) : pos (p :: e) = (if 0 < p.2 then p.2 else 0) + pos e := rfl

/-! ### `addConstraint` -/

theorem chk_some {R : TRange} {x : Int} (h1 : R.lo ≤ x) (h2 : x ≤ R.hi) : R.chk x = some x := if_pos ⟨h1, h2⟩

theorem bounds_eq {R : TRange} : ∀ (e : List (Nat × Int)) (mn mx : Int), R.lo ≤ mn + neg e → mn ≤ 0 → 0 ≤ mx → mx + pos e ≤ R.hi → R.lo ≤ 0 → 0 ≤ R.hi →
    lcBounds R e mn mx = some (mn + neg e, mx + pos e)
  | [], mn, mx, _, _, _, _, _, _ => by simp [lcBounds, neg, pos]
  | (k, w) :: e, mn, mx, h1, h2, h3, h4, h5, h6 => by
    have hn := neg_nonpos e
    have hp := pos_nonneg e
    simp only [neg_cons, pos_cons] at h1 h4 ⊢
    unfold lcBounds
    by_cases hw : 0 < w
    · rw [if_pos hw]
      rw [if_pos hw] at h4 ⊢
      rw [if_neg (by omega)] at h1 ⊢
      rw [chk_some (by omega) (by omega), Option.bind_some, bounds_eq e mn (mx + w) (by omega) h2 (by omega) (by omega) h5 h6]
      congr 2 <;> omega
    · rw [if_neg hw]
      rw [if_neg hw] at h4 ⊢
      by_cases hw' : w < 0
      · rw [if_pos hw']
        rw [if_pos hw'] at h1 ⊢
        rw [chk_some (by omega) (by omega), Option.bind_some, bounds_eq e (mn + w) mx (by omega) (by omega) h3 (by omega) h5 h6]
        congr 2 <;> omega
      · rw [if_neg hw']
        rw [if_neg hw'] at h1 ⊢
        rw [bounds_eq e mn mx (by omega) h2 h3 (by omega) h5 h6]
        congr 2 <;> omega

/-- What `lcPush` appends at level `l` -/
theorem push_eq {R : TRange} {n id : Nat} {lb ub : Int} : ∀ (e : List (Nat × Int)) (mn mx : Int) (fc : Bool) (ls : Nat → List CheckItem), Asc e →
    (∀ p ∈ e, p.1 ≤ n) → R.lo ≤ mn + neg e → mn ≤ 0 → 0 ≤ mx → mx + pos e ≤ R.hi →
    ∃ ls', lcPush R n id lb ub e mn mx fc ls = some ls' ∧ ∀ l,
      (¬ HasKey e l → ls' l = ls l) ∧
      (∀ w, (l, w) ∈ e → ∃ f, ls' l = ls l ++ [⟨id, w, mn + minS e l, mx + maxS e l, lb, ub, f⟩] ∧ (f = true ↔ fc = true ∧ ∀ k, k < l → ¬ HasKey e k))
  | [], mn, mx, fc, ls, _, _, _, _, _, _ => ⟨ls, rfl, fun l => ⟨fun _ => rfl, fun w hw => (nomatch hw)⟩⟩
  | (k, w) :: e, mn, mx, fc, ls, hs, hk, h1, h2, h3, h4 => by
    replace hs := List.pairwise_cons.1 hs
    have hn := neg_nonpos e
    have hp := pos_nonneg e
    have hsm : ∀ l, l ≤ k → ¬ HasKey e l := fun l hl ⟨w', h⟩ => by have := hs.1 _ h; dsimp only at this; omega
    generalize hls1 : (fun i => if i = k then ls i ++ [(⟨id, w, mn, mx, lb, ub, fc⟩ : CheckItem)] else ls i) = ls1
    have key : ∀ mn' mx', mn' = mn + (if w < 0 then w else 0) → mx' = mx + (if 0 < w then w else 0) → ∀ (ls' : Nat → List CheckItem),
        (∀ l, (¬ HasKey e l → ls' l = ls1 l) ∧ (∀ w, (l, w) ∈ e → ∃ f, ls' l = ls1 l ++ [⟨id, w, mn' + minS e l, mx' + maxS e l, lb, ub, f⟩] ∧
          (f = true ↔ false = true ∧ ∀ k, k < l → ¬ HasKey e k))) →
        ∀ l, (¬ HasKey ((k, w) :: e) l → ls' l = ls l) ∧
          (∀ w', (l, w') ∈ (k, w) :: e → ∃ f, ls' l = ls l ++ [⟨id, w', mn + minS ((k, w) :: e) l, mx + maxS ((k, w) :: e) l, lb, ub, f⟩] ∧
            (f = true ↔ fc = true ∧ ∀ j, j < l → ¬ HasKey ((k, w) :: e) j)) := by
      intro mn' mx' e1 e2 ls' hl' l
      constructor
      · intro hno
        have hk1 : l ≠ k := fun h => hno ⟨w, h ▸ List.mem_cons_self ..⟩
        rw [(hl' l).1 fun ⟨w', h⟩ => hno ⟨w', List.mem_cons_of_mem _ h⟩, ← hls1]
        exact if_neg hk1
      · intro w' hm
        rcases List.mem_cons.1 hm with e3 | hm'
        · cases e3
          refine ⟨fc, ?_, ⟨fun h => ⟨h, ?_⟩, fun h => h.1⟩⟩
          · rw [(hl' k).1 (hsm k (Nat.le_refl _)), ← hls1]
            dsimp only
            rw [if_pos rfl]
            have hz1 : minS ((k, w) :: e) k = 0 := minS_none fun j hj ⟨w', h⟩ => by
              rcases List.mem_cons.1 h with e4 | h
              · cases e4; omega
              · exact hsm j (by omega) ⟨w', h⟩
            have hz2 : maxS ((k, w) :: e) k = 0 := maxS_none fun j hj ⟨w', h⟩ => by
              rcases List.mem_cons.1 h with e4 | h
              · cases e4; omega
              · exact hsm j (by omega) ⟨w', h⟩
            rw [hz1, hz2, Int.add_zero, Int.add_zero]
          · rintro j hj ⟨w', h⟩
            rcases List.mem_cons.1 h with e4 | h
            · cases e4; omega
            · exact hsm j (by omega) ⟨w', h⟩
        · have hkl : k < l := hs.1 _ hm'
          obtain ⟨f, hf, hf2⟩ := (hl' l).2 w' hm'
          refine ⟨f, ?_, ?_⟩
          · rw [hf, ← hls1]
            dsimp only
            rw [if_neg (by omega)]
            have hz1 : minS ((k, w) :: e) l = (if w < 0 then w else 0) + minS e l := by
              show wsum _ _ = _; rw [wsum_cons]; dsimp only; rw [if_pos hkl]; rfl
            have hz2 : maxS ((k, w) :: e) l = (if 0 < w then w else 0) + maxS e l := by
              show wsum _ _ = _; rw [wsum_cons]; dsimp only; rw [if_pos hkl]; rfl
            rw [hz1, hz2, e1, e2, Int.add_assoc, Int.add_assoc]
          · constructor
            · intro h; exact absurd (hf2.1 h).1 (by decide)
            · intro h; exact absurd ⟨w, List.mem_cons_self ..⟩ (h.2 k hkl)
    have hk0 := hk _ (List.mem_cons_self ..)
    have hk' : ∀ p ∈ e, p.1 ≤ n := fun p hp => hk p (List.mem_cons_of_mem _ hp)
    unfold lcPush
    simp only [neg_cons, pos_cons] at h1 h4
    rw [if_neg (by dsimp only at hk0; omega)]
    dsimp only
    rw [hls1]
    by_cases hw : 0 < w
    · rw [if_pos hw]
      rw [if_pos hw] at h4
      rw [if_neg (by omega)] at h1
      rw [chk_some (by omega) (by omega), Option.bind_some]
      obtain ⟨ls', e1, e2⟩ := push_eq e mn (mx + w) false ls1 hs.2 hk' (by omega) h2 (by omega) (by omega) (R := R) (id := id) (lb := lb) (ub := ub)
      exact ⟨ls', e1, key _ _ (by rw [if_neg (by omega)]; omega) (by rw [if_pos hw]) ls' e2⟩
    · rw [if_neg hw]
      rw [if_neg hw] at h4
      by_cases hw' : w < 0
      · rw [if_pos hw']
        rw [if_pos hw'] at h1
        rw [chk_some (by omega) (by omega), Option.bind_some]
        obtain ⟨ls', e1, e2⟩ := push_eq e (mn + w) mx false ls1 hs.2 hk' (by omega) (by omega) (by omega) (by omega) (R := R) (id := id) (lb := lb) (ub := ub)
        exact ⟨ls', e1, key _ _ (by rw [if_pos hw']) (by rw [if_neg (by omega)]; omega) ls' e2⟩
      · rw [if_neg hw']
        rw [if_neg hw'] at h1
        obtain ⟨ls', e1, e2⟩ := push_eq e mn mx false ls1 hs.2 hk' (by omega) (by omega) (by omega) (by omega) (R := R) (id := id) (lb := lb) (ub := ub)
        exact ⟨ls', e1, key _ _ (by rw [if_neg hw']; omega) (by rw [if_neg hw]; omega) ls' e2⟩

/-- What the caller of `addConstraint` has to keep to: variables `1..n`, bounds in `T`, sums of the negative and of the positive weights in `T`. -/
structure OkArg (R : TRange) (n : Nat) (c : LinArg) : Prop where
  asc : Asc c.expr
  keys : ∀ p ∈ c.expr, 1 ≤ p.1 ∧ p.1 ≤ n
  lb_lo : R.lo ≤ c.lb
  ub_hi : c.ub ≤ R.hi
  neg_lo : R.lo ≤ neg c.expr
  pos_hi : pos c.expr ≤ R.hi

/-- The check items at level `l` are those of the constraints `act`. -/
structure Lists (act : List LinArg) (ls : Nat → List CheckItem) : Prop where
  mem : ∀ l t, t ∈ ls l ↔ ∃ c w, act[t.index]? = some c ∧ (l, w) ∈ c.expr ∧ t.weight = w ∧ t.addMin = minS c.expr l ∧ t.addMax = maxS c.expr l ∧
    t.lower = c.lb ∧ t.upper = c.ub ∧ (t.final = true ↔ ∀ k, k < l → ¬ HasKey c.expr k)
  asc : ∀ l, (ls l).Pairwise fun s t => s.index < t.index

def Holds (a : Asg 2) (c : LinArg) : Prop := c.lb ≤ wsum (fun k w => w * (a k).val) c.expr ∧ wsum (fun k w => w * (a k).val) c.expr ≤ c.ub

/-- State after some calls of `addConstraint` with arguments `cs` -/
structure AddInv (R : TRange) (n : Nat) (cs : List LinArg) (L : LinCon) (act : List LinArg) : Prop where
  n_eq : L.n = n
  size : L.arraySize = 0
  fls : L.isFalse = true → ∀ a, ¬ ∀ c ∈ cs, Holds a c
  tru : L.isFalse = false → ∀ a, (∀ c ∈ cs, Holds a c) ↔ ∀ c ∈ act, Holds a c
  cid : L.constraintId = act.length
  lists : Lists act L.lists
  ok : ∀ c ∈ act, OkArg R n c
  ne : ∀ c ∈ act, c.expr ≠ []

theorem holds_bounds {c : LinArg} (a : Asg 2) :
    neg c.expr ≤ wsum (fun k w => w * (a k).val) c.expr ∧ wsum (fun k w => w * (a k).val) c.expr ≤ pos c.expr :=
  ⟨wsum_le fun _ _ => (term_bound _ _).1, wsum_le fun _ _ => (term_bound _ _).2⟩

theorem add_inv {R : TRange} {n : Nat} {cs : List LinArg} {L : LinCon} {act : List LinArg} (h : AddInv R n cs L act) {c : LinArg} (hc : OkArg R n c) :
    ∃ L' act', lcAdd R L c = some L' ∧ AddInv R n (cs ++ [c]) L' act' := by
  have hn := neg_nonpos c.expr
  have hp := pos_nonneg c.expr
  have h1 := hc.neg_lo
  have h2 := hc.pos_hi
  have hb : ∀ a : Asg 2, _ := fun a => holds_bounds (c := c) a
  unfold lcAdd
  by_cases hf : L.isFalse = true
  · rw [if_pos hf]
    refine ⟨L, act, rfl, h.n_eq, h.size, fun _ a ha => h.fls hf a fun d hd => ha d (List.mem_append_left _ hd), fun h' => ?_, h.cid, h.lists, h.ok, h.ne⟩
    rw [hf] at h'; cases h'
  · rw [if_neg hf, bounds_eq c.expr 0 0 (by omega) (by omega) (by omega) (by omega) (by omega) (by omega), Option.bind_some]
    simp only [Int.zero_add]
    have hf' : L.isFalse = false := by simpa using hf
    have t1 := h.cid
    have t2 := h.lists
    have t3 := h.tru hf'
    have triv : (∀ a, Holds a c) → AddInv R n (cs ++ [c]) L act := fun hall =>
      ⟨h.n_eq, h.size, fun h' => absurd h' hf, fun _ a => by
        rw [← t3 a]
        constructor
        · exact fun ha d hd => ha d (List.mem_append_left _ hd)
        · intro ha d hd
          rcases List.mem_append.1 hd with hd | hd
          · exact ha d hd
          · rw [List.mem_singleton.1 hd]; exact hall a, t1, t2, h.ok, h.ne⟩
    by_cases g1 : c.lb ≤ neg c.expr ∧ pos c.expr ≤ c.ub
    · rw [if_pos g1]
      exact ⟨L, act, rfl, triv fun a => ⟨by have := hb a; omega, by have := hb a; omega⟩⟩
    · rw [if_neg g1]
      by_cases g2 : c.ub < c.lb ∨ pos c.expr < c.lb ∨ c.ub < neg c.expr
      · rw [if_pos g2]
        refine ⟨_, act, rfl, h.n_eq, h.size, fun _ a ha => ?_, fun h' => (nomatch h'), t1, t2, h.ok, h.ne⟩
        have h3 := ha c (List.mem_append_right _ (List.mem_singleton.2 rfl))
        have h4 := hb a
        obtain ⟨h5, h6⟩ := h3
        omega
      · rw [if_neg g2]
        by_cases g3 : c.expr.isEmpty = true
        · rw [if_pos g3]
          exfalso
          rw [List.isEmpty_iff.1 g3] at g1 g2
          simp only [neg, pos, wsum_nil] at g1 g2
          omega
        · rw [if_neg g3]
          obtain ⟨ls', e1, e2⟩ := push_eq (R := R) (n := L.n) (id := L.constraintId) (lb := c.lb) (ub := c.ub) c.expr 0 0 true L.lists hc.asc
            (fun p hp => by rw [h.n_eq]; exact (hc.keys p hp).2) (by omega) (by omega) (by omega) (by omega)
          rw [e1]
          refine ⟨_, act ++ [c], rfl, h.n_eq, h.size, fun h' => absurd h' hf, ?_, ?_, ⟨?_, ?_⟩, ?_, ?_⟩
          · intro _ a
            rw [List.forall_mem_append, List.forall_mem_append, t3 a]
          · simp [t1]
          · intro l t
            show t ∈ ls' l ↔ _
            constructor
            · intro ht
              by_cases hk : HasKey c.expr l
              · obtain ⟨w, hw⟩ := hk
                obtain ⟨f, hf1, hf2⟩ := (e2 l).2 w hw
                rw [hf1] at ht
                rcases List.mem_append.1 ht with ht | ht
                · obtain ⟨d, w, hd, r⟩ := (t2.mem l t).1 ht
                  exact ⟨d, w, by rw [List.getElem?_append_left (List.getElem?_eq_some_iff.1 hd).1]; exact hd, r⟩
                · rw [List.mem_singleton] at ht
                  subst ht
                  refine ⟨c, w, ?_, hw, rfl, ?_, ?_, rfl, rfl, ?_⟩
                  · rw [t1]; simp
                  · exact Int.zero_add _
                  · exact Int.zero_add _
                  · dsimp only; rw [hf2]; simp
              · rw [(e2 l).1 hk] at ht
                obtain ⟨d, w, hd, r⟩ := (t2.mem l t).1 ht
                exact ⟨d, w, by rw [List.getElem?_append_left (List.getElem?_eq_some_iff.1 hd).1]; exact hd, r⟩
            · rintro ⟨d, w, hd, hm, r1, r2, r3, r4, r5, r6⟩
              by_cases hlt : t.index < act.length
              · rw [List.getElem?_append_left hlt] at hd
                have ht := (t2.mem l t).2 ⟨d, w, hd, hm, r1, r2, r3, r4, r5, r6⟩
                by_cases hk : HasKey c.expr l
                · obtain ⟨w, hw⟩ := hk
                  obtain ⟨f, hf1, _⟩ := (e2 l).2 w hw
                  rw [hf1]; exact List.mem_append_left _ ht
                · rw [(e2 l).1 hk]; exact ht
              · rw [List.getElem?_append_right (by omega)] at hd
                obtain ⟨hd1, hd2⟩ := List.getElem?_eq_some_iff.1 hd
                rw [List.length_singleton] at hd1
                have hidx : t.index = L.constraintId := by omega
                have hdc : d = c := by
                  rw [show t.index - act.length = 0 from by omega] at hd
                  simpa using hd.symm
                subst hdc
                obtain ⟨f, hf1, hf2⟩ := (e2 l).2 w hm
                rw [hf1]
                apply List.mem_append_right
                rw [List.mem_singleton]
                obtain ⟨ti, tw, tmn, tmx, tl, tu, tf⟩ := t
                dsimp only at *
                have : tf = f := by
                  rw [Bool.eq_iff_iff, hf2, r6]; simp
                simp [*]
          · intro l
            show (ls' l).Pairwise _
            by_cases hk : HasKey c.expr l
            · obtain ⟨w, hw⟩ := hk
              obtain ⟨f, hf1, _⟩ := (e2 l).2 w hw
              rw [hf1, List.pairwise_append]
              refine ⟨t2.asc l, List.pairwise_singleton _ _, fun s hs t ht => ?_⟩
              rw [List.mem_singleton] at ht
              subst ht
              obtain ⟨d, _, hd, _⟩ := (t2.mem l s).1 hs
              have := (List.getElem?_eq_some_iff.1 hd).1
              dsimp only; omega
            · rw [(e2 l).1 hk]; exact t2.asc l
          · intro d hd
            rcases List.mem_append.1 hd with hd | hd
            · exact h.ok d hd
            · rw [List.mem_singleton.1 hd]; exact hc
          · intro d hd
            rcases List.mem_append.1 hd with hd | hd
            · exact h.ne d hd
            · rw [List.mem_singleton.1 hd]; simpa using g3

theorem all_inv {R : TRange} {n : Nat} : ∀ (cs' cs : List LinArg) {L : LinCon} {act : List LinArg}, AddInv R n cs L act → (∀ c ∈ cs', OkArg R n c) →
    ∃ L' act', lcAll R cs' L = some L' ∧ AddInv R n (cs ++ cs') L' act'
  | [], cs, L, act, h, _ => ⟨L, act, rfl, by rw [List.append_nil]; exact h⟩
  | c :: cs', cs, L, act, h, hok => by
    obtain ⟨L1, act1, e1, h1⟩ := add_inv h (hok c (List.mem_cons_self ..))
    obtain ⟨L2, act2, e2, h2⟩ := all_inv cs' (cs ++ [c]) h1 fun d hd => hok d (List.mem_cons_of_mem _ hd)
    refine ⟨L2, act2, ?_, ?_⟩
    · unfold lcAll; rw [e1]; exact e2
    · rw [List.append_assoc] at h2; exact h2

theorem init_inv (R : TRange) (n : Nat) : AddInv R n [] (lcInit n) [] :=
  ⟨rfl, rfl, fun h => (nomatch h), fun _ _ => Iff.rfl, rfl,
    ⟨fun l t => ⟨fun h => (nomatch h), fun ⟨_, _, h, _⟩ => (nomatch h)⟩, fun _ => List.Pairwise.nil⟩, fun _ h => (nomatch h), fun _ h => (nomatch h)⟩

end Lin
end TdZdd
