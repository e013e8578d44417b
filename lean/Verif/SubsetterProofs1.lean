import Verif.Subsetter
import Verif.StructureProofs

/-! Subsetter proof, part 1: joining the paths of two specifications. -/

namespace TdZdd

variable {N : Nat} {S1 S2 : Type} {s1 : DdSpec (N + 1) S1} {s2 : DdSpec (N + 1) S2}

/-- `Joins p q r`: the zero-suppressed paths `p` and `q` describe the same set, and `r` lists the
levels that occur on both. -/
inductive Joins : Path (N + 1) → Path (N + 1) → Path (N + 1) → Prop
  | nil : Joins [] [] []
  | both {n : Nat} {b : Fin (N + 1)} {p q r} : (∀ x ∈ p, x.1 < n) → (∀ x ∈ q, x.1 < n) →
      Joins p q r → Joins ((n, b) :: p) ((n, b) :: q) ((n, b) :: r)
  | left {n : Nat} {p q r} : (∀ x ∈ p, x.1 < n) → (∀ x ∈ q, x.1 < n) → Joins p q r →
      Joins ((n, 0) :: p) q r
  | right {n : Nat} {p q r} : (∀ x ∈ p, x.1 < n) → (∀ x ∈ q, x.1 < n) → Joins p q r →
      Joins p ((n, 0) :: q) r

theorem Joins.sub {p q r : Path (N + 1)} (h : Joins p q r) : ∀ x ∈ r, x ∈ p ∧ x ∈ q := by
  induction h with
  | nil => simp
  | both _ _ _ ih =>
    intro x hx
    rcases List.mem_cons.1 hx with rfl | hx
    · simp
    · have := ih x hx; simp [this]
  | left _ _ _ ih => intro x hx; have := ih x hx; simp [this]
  | right _ _ _ ih => intro x hx; have := ih x hx; simp [this]

theorem Joins.rest {p q r : Path (N + 1)} (h : Joins p q r) :
    (∀ x ∈ p, x ∈ r ∨ (x.2 = 0 ∧ ∀ b, (x.1, b) ∉ q)) ∧
    (∀ x ∈ q, x ∈ r ∨ (x.2 = 0 ∧ ∀ b, (x.1, b) ∉ p)) := by
  induction h with
  | nil => simp
  | @both n b p q r hp hq _ ih =>
    constructor
    · intro x hx
      rcases List.mem_cons.1 hx with rfl | hx1
      · simp
      · rcases ih.1 x hx1 with h | ⟨h, h'⟩
        · exact .inl (by simp [h])
        · refine .inr ⟨h, fun b' hb => ?_⟩
          rcases List.mem_cons.1 hb with hb | hb
          · have := hp x hx1; cases hb; omega
          · exact h' b' hb
    · intro x hx
      rcases List.mem_cons.1 hx with rfl | hx1
      · simp
      · rcases ih.2 x hx1 with h | ⟨h, h'⟩
        · exact .inl (by simp [h])
        · refine .inr ⟨h, fun b' hb => ?_⟩
          rcases List.mem_cons.1 hb with hb | hb
          · have := hq x hx1; cases hb; omega
          · exact h' b' hb
  | @left n p q r hp hq _ ih =>
    constructor
    · intro x hx
      rcases List.mem_cons.1 hx with rfl | hx
      · refine .inr ⟨rfl, fun b hb => ?_⟩
        have := hq _ hb; simp at this
      · exact ih.1 x hx
    · intro x hx
      rcases ih.2 x hx with h | ⟨h, h'⟩
      · exact .inl h
      · refine .inr ⟨h, fun b' hb => ?_⟩
        rcases List.mem_cons.1 hb with hb | hb
        · cases hb; have := hq x hx; omega
        · exact h' b' hb
  | @right n p q r hp hq _ ih =>
    constructor
    · intro x hx
      rcases ih.1 x hx with h | ⟨h, h'⟩
      · exact .inl h
      · refine .inr ⟨h, fun b' hb => ?_⟩
        rcases List.mem_cons.1 hb with hb | hb
        · cases hb; have := hp x hx; omega
        · exact h' b' hb
    · intro x hx
      rcases List.mem_cons.1 hx with rfl | hx
      · refine .inr ⟨rfl, fun b hb => ?_⟩
        have := hp _ hb; simp at this
      · exact ih.2 x hx

/-- two descending paths that agree with the same assignment can be joined -/
theorem joins_exists (a : Asg (N + 1)) : ∀ (k : Nat) (p q : Path (N + 1)), p.length + q.length ≤ k →
    p.Pairwise (fun x y => y.1 < x.1) → q.Pairwise (fun x y => y.1 < x.1) →
    Agrees p a → Agrees q a →
    (∀ x ∈ p, (∀ b, (x.1, b) ∉ q) → (a x.1).val = 0) →
    (∀ x ∈ q, (∀ b, (x.1, b) ∉ p) → (a x.1).val = 0) →
    ∃ r, Joins p q r ∧ ∀ x, x ∈ p → x ∈ q → x ∈ r := by
  intro k
  induction k with
  | zero =>
    intro p q hk _ _ _ _ _ _
    have hp : p = [] := List.eq_nil_of_length_eq_zero (by omega)
    have hq : q = [] := List.eq_nil_of_length_eq_zero (by omega)
    subst hp; subst hq
    exact ⟨[], .nil, by simp⟩
  | succ k ih =>
    -- the two cases in which one path has a level of its own
    have hleft : ∀ (n : Nat) (b : Fin (N + 1)) (p q : Path (N + 1)), p.length + 1 + q.length ≤ k + 1 →
        ((n, b) :: p).Pairwise (fun x y => y.1 < x.1) → q.Pairwise (fun x y => y.1 < x.1) →
        Agrees ((n, b) :: p) a → Agrees q a →
        (∀ x ∈ (n, b) :: p, (∀ b, (x.1, b) ∉ q) → (a x.1).val = 0) →
        (∀ x ∈ q, (∀ b', (x.1, b') ∉ (n, b) :: p) → (a x.1).val = 0) → (∀ x ∈ q, x.1 < n) →
        b = 0 ∧ ∃ r, Joins p q r ∧ ∀ x, x ∈ p → x ∈ q → x ∈ r := by
      intro n b p q hk hp hq ap aq zp zq hlt
      rw [List.pairwise_cons] at hp
      refine ⟨?_, ?_⟩
      · have h1 : a n = b := ap (n, b) (by simp)
        have h2 := zp (n, b) (by simp) (fun b' hb => by have := hlt _ hb; simp at this)
        dsimp only at h2
        rw [h1] at h2
        exact Fin.ext h2
      · refine ih p q (by omega) hp.2 hq (fun x hx => ap x (by simp [hx])) aq
          (fun x hx => zp x (by simp [hx])) (fun x hx h => zq x hx fun b' hb => ?_)
        rcases List.mem_cons.1 hb with hb | hb
        · have := hlt x hx; cases hb; omega
        · exact h b' hb
    intro p q hk hp hq ap aq zp zq
    cases p with
    | nil =>
      cases q with
      | nil => exact ⟨[], .nil, by simp⟩
      | cons y q =>
        obtain ⟨n, b⟩ := y
        have hq' := hq
        rw [List.pairwise_cons] at hq'
        obtain ⟨rfl, r, h1, h2⟩ := hleft n b q [] (by simpa using hk) hq .nil aq ap zq zp (by simp)
        obtain ⟨r, h1, h2⟩ := ih [] q (by simpa using hk) .nil hq'.2 ap
          (fun x hx => aq x (by simp [hx])) (by simp) (fun x hx h => zq x (by simp [hx]) h)
        exact ⟨r, .right (by simp) hq'.1 h1, by simp⟩
    | cons x p =>
      obtain ⟨n, b⟩ := x
      have hp' := hp
      rw [List.pairwise_cons] at hp'
      cases q with
      | nil =>
        obtain ⟨rfl, r, h1, h2⟩ := hleft n b p [] (by simpa using hk) hp hq ap aq zp zq (by simp)
        exact ⟨r, .left hp'.1 (by simp) h1, by simp⟩
      | cons y q =>
        obtain ⟨n', b'⟩ := y
        have hq' := hq
        rw [List.pairwise_cons] at hq'
        simp only [List.length_cons] at hk
        rcases Nat.lt_trichotomy n n' with h | h | h
        · -- the second path has the higher level
          have hlt : ∀ x ∈ (n, b) :: p, x.1 < n' := by
            intro x hx
            rcases List.mem_cons.1 hx with rfl | hx
            · exact h
            · have := hp'.1 x hx; dsimp only at this; omega
          have h1 : a n' = b' := aq (n', b') (by simp)
          have h2 := zq (n', b') (by simp) (fun c hb => by have := hlt _ hb; simp at this)
          dsimp only at h2
          rw [h1] at h2
          have hb : b' = 0 := Fin.ext h2
          subst hb
          obtain ⟨r, h1, h2⟩ := ih ((n, b) :: p) q (by simp; omega) hp hq'.2 ap
            (fun x hx => aq x (by simp [hx]))
            (fun x hx h => zp x hx fun c hc => by
              rcases List.mem_cons.1 hc with hc | hc
              · have := hlt x hx; cases hc; omega
              · exact h c hc)
            (fun x hx => zq x (by simp [hx]))
          refine ⟨r, .right hlt hq'.1 h1, fun x hx hy => ?_⟩
          rcases List.mem_cons.1 hy with rfl | hy
          · have := hlt _ hx; simp at this
          · exact h2 x hx hy
        · subst h
          have h1 : a n = b := ap (n, b) (by simp)
          have h2 : a n = b' := aq (n, b') (by simp)
          have hb : b' = b := by rw [← h1, ← h2]
          subst hb
          have lift : ∀ {u v : Path (N + 1)}, (∀ x ∈ u, x.1 < n) →
              (∀ x ∈ (n, b') :: u, (∀ b, (x.1, b) ∉ (n, b') :: v) → (a x.1).val = 0) →
              ∀ x ∈ u, (∀ b, (x.1, b) ∉ v) → (a x.1).val = 0 := by
            intro u v hu h x hx hv
            refine h x (by simp [hx]) fun c hc => ?_
            rcases List.mem_cons.1 hc with hc | hc
            · have := hu x hx; cases hc; omega
            · exact hv c hc
          obtain ⟨r, h3, h4⟩ := ih p q (by omega) hp'.2 hq'.2 (fun x hx => ap x (by simp [hx]))
            (fun x hx => aq x (by simp [hx])) (lift hp'.1 zp) (lift hq'.1 zq)
          refine ⟨(n, b') :: r, .both hp'.1 hq'.1 h3, fun x hx hy => ?_⟩
          rcases List.mem_cons.1 hx with rfl | hx
          · simp
          · rcases List.mem_cons.1 hy with rfl | hy
            · simp
            · simp [h4 x hx hy]
        · have hlt : ∀ x ∈ (n', b') :: q, x.1 < n := by
            intro x hx
            rcases List.mem_cons.1 hx with rfl | hx
            · exact h
            · have := hq'.1 x hx; dsimp only at this; omega
          obtain ⟨rfl, r, h1, h2⟩ := hleft n b p ((n', b') :: q) (by simp; omega) hp hq ap aq zp zq hlt
          refine ⟨r, .left hp'.1 hlt h1, fun x hx hy => ?_⟩
          rcases List.mem_cons.1 hx with rfl | hx
          · have := hlt _ hy; simp at this
          · exact h2 x hx hy

/-- joint acceptance of two (level code, state) pairs -/
def JAcc (s1 : DdSpec (N + 1) S1) (s2 : DdSpec (N + 1) S2) (c1 : Int × S1) (c2 : Int × S2)
    (r : Path (N + 1)) : Prop :=
  ∃ p q, Accepts s1 c1.1 c1.2 p ∧ Accepts s2 c2.1 c2.2 q ∧ Joins p q r

theorem jacc_zero_left {c1 : Int × S1} {c2 : Int × S2} {r : Path (N + 1)} (h : c1.1 = 0) :
    ¬ JAcc s1 s2 c1 c2 r := by
  rintro ⟨p, q, h1, _⟩
  rw [h] at h1; exact not_accepts_zero h1

theorem jacc_zero_right {c1 : Int × S1} {c2 : Int × S2} {r : Path (N + 1)} (h : c2.1 = 0) :
    ¬ JAcc s1 s2 c1 c2 r := by
  rintro ⟨p, q, _, h1, _⟩
  rw [h] at h1; exact not_accepts_zero h1

theorem jacc_neg {c1 : Int × S1} {c2 : Int × S2} {r : Path (N + 1)} (h1 : c1.1 < 0) (h2 : c2.1 < 0) :
    JAcc s1 s2 c1 c2 r ↔ r = [] := by
  constructor
  · rintro ⟨p, q, a1, a2, j⟩
    rw [accepts_neg h1] at a1
    rw [accepts_neg h2] at a2
    subst a1; subst a2
    cases j; rfl
  · rintro rfl
    exact ⟨[], [], .one h1, .one h2, .nil⟩

theorem jacc_left (d1 : Desc s1) (d2 : Desc s2) {n : Nat} {s : S1} {c2 : Int × S2}
    {r : Path (N + 1)} (hn : 0 < n) (r1 : Reach s1 (n : Int) s) (r2 : Reach s2 c2.1 c2.2)
    (hlt : c2.1 < n) : JAcc s1 s2 ((n : Int), s) c2 r ↔ JAcc s1 s2 (s1.child s n 0) c2 r := by
  have lt := d1.child_lt 0 hn r1
  constructor
  · rintro ⟨p, q, a1, a2, j⟩
    obtain ⟨b, p', rfl, a1'⟩ := (accepts_pos hn).1 a1
    have lq := accepts_levels d2 a2 r2
    cases j with
    | both _ _ _ => have := lq _ (List.mem_cons_self); simp at this; omega
    | left _ _ j => exact ⟨p', q, a1', a2, j⟩
    | right hp _ _ =>
      have h1 := lq _ (List.mem_cons_self)
      have h2 := hp _ (List.mem_cons_self)
      dsimp only at h1 h2; omega
  · rintro ⟨p, q, a1, a2, j⟩
    have lp := accepts_levels d1 a1 (Reach.step 0 hn r1)
    have lq := accepts_levels d2 a2 r2
    refine ⟨(n, 0) :: p, q, .step hn a1, a2, .left (fun x hx => ?_) (fun x hx => ?_) j⟩
    · have := lp x hx; omega
    · have := lq x hx; omega

theorem jacc_right (d1 : Desc s1) (d2 : Desc s2) {n : Nat} {s : S2} {c1 : Int × S1}
    {r : Path (N + 1)} (hn : 0 < n) (r2 : Reach s2 (n : Int) s) (r1 : Reach s1 c1.1 c1.2)
    (hlt : c1.1 < n) : JAcc s1 s2 c1 ((n : Int), s) r ↔ JAcc s1 s2 c1 (s2.child s n 0) r := by
  have lt := d2.child_lt 0 hn r2
  constructor
  · rintro ⟨p, q, a1, a2, j⟩
    obtain ⟨b, p', rfl, a2'⟩ := (accepts_pos hn).1 a2
    have lq := accepts_levels d1 a1 r1
    cases j with
    | both _ _ _ => have := lq _ (List.mem_cons_self); simp at this; omega
    | right _ _ j => exact ⟨p, p', a1, a2', j⟩
    | left _ hp _ =>
      have h1 := lq _ (List.mem_cons_self)
      have h2 := hp _ (List.mem_cons_self)
      dsimp only at h1 h2; omega
  · rintro ⟨p, q, a1, a2, j⟩
    have lp := accepts_levels d1 a1 r1
    have lq := accepts_levels d2 a2 (Reach.step 0 hn r2)
    refine ⟨p, (n, 0) :: q, a1, .step hn a2, .right (fun x hx => ?_) (fun x hx => ?_) j⟩
    · have := lp x hx; omega
    · have := lq x hx; omega

theorem jacc_both (d1 : Desc s1) (d2 : Desc s2) {n : Nat} {s : S1} {t : S2} {r : Path (N + 1)}
    (hn : 0 < n) (r1 : Reach s1 (n : Int) s) (r2 : Reach s2 (n : Int) t) :
    JAcc s1 s2 ((n : Int), s) ((n : Int), t) r ↔
      ∃ b r', r = (n, b) :: r' ∧ JAcc s1 s2 (s1.child s n b) (s2.child t n b) r' := by
  constructor
  · rintro ⟨p, q, a1, a2, j⟩
    obtain ⟨b, p', rfl, a1'⟩ := (accepts_pos hn).1 a1
    obtain ⟨b', q', rfl, a2'⟩ := (accepts_pos hn).1 a2
    cases j with
    | both _ _ j => exact ⟨b, _, rfl, p', q', a1', a2', j⟩
    | left _ h _ => have := h _ (List.mem_cons_self); simp at this
    | right h _ _ => have := h _ (List.mem_cons_self); simp at this
  · rintro ⟨b, r', rfl, p, q, a1, a2, j⟩
    have lp := accepts_levels d1 a1 (Reach.step b hn r1)
    have lq := accepts_levels d2 a2 (Reach.step b hn r2)
    have l1 := d1.child_lt b hn r1
    have l2 := d2.child_lt b hn r2
    refine ⟨_, _, .step hn a1, .step hn a2, .both (fun x hx => ?_) (fun x hx => ?_) j⟩
    · have := lp x hx; omega
    · have := lq x hx; omega

theorem accepts_sorted {S : Type} {sp : DdSpec N S} (hd : Desc sp) {l : Int} {s : S} {p : Path N}
    (h : Accepts sp l s p) (hr : Reach sp l s) : p.Pairwise (fun x y => y.1 < x.1) := by
  induction h with
  | one _ => exact .nil
  | @step n s b p hn ha ih =>
    have hr' := Reach.step b hn hr
    have := hd.child_lt b hn hr
    refine List.pairwise_cons.2 ⟨fun x hx => ?_, ih hr'⟩
    have := accepts_levels hd ha hr' x hx
    dsimp only; omega

/-- joint acceptance is membership in both families -/
theorem jacc_mem (d1 : Desc s1) (d2 : Desc s2) {c1 : Int × S1} {c2 : Int × S2}
    (r1 : Reach s1 c1.1 c1.2) (r2 : Reach s2 c2.1 c2.2) {m : Nat} (l1 : c1.1 ≤ m) (l2 : c2.1 ≤ m)
    (a : Asg (N + 1)) :
    (∃ r, JAcc s1 s2 c1 c2 r ∧ Agrees r a ∧ ∀ j, 1 ≤ j → j ≤ m → (∀ b, (j, b) ∉ r) → (a j).val = 0) ↔
      ZddMemAt s1 m c1.1 c1.2 a ∧ ZddMemAt s2 m c2.1 c2.2 a := by
  constructor
  · rintro ⟨r, ⟨p, q, a1, a2, j⟩, ha, hz⟩
    have lp := accepts_levels d1 a1 r1
    have lq := accepts_levels d2 a2 r2
    have hs := j.sub
    have hr := j.rest
    refine ⟨⟨p, a1, fun x hx => ?_, fun i h1 h2 h3 => hz i h1 h2 fun b hb => h3 b (hs _ hb).1⟩,
      ⟨q, a2, fun x hx => ?_, fun i h1 h2 h3 => hz i h1 h2 fun b hb => h3 b (hs _ hb).2⟩⟩
    · rcases hr.1 x hx with h | ⟨h, h'⟩
      · exact ha x h
      · have := lp x hx
        rw [h]
        exact Fin.ext (hz x.1 (by omega) (by omega) fun b hb => h' b (hs _ hb).2)
    · rcases hr.2 x hx with h | ⟨h, h'⟩
      · exact ha x h
      · have := lq x hx
        rw [h]
        exact Fin.ext (hz x.1 (by omega) (by omega) fun b hb => h' b (hs _ hb).1)
  · rintro ⟨⟨p, a1, ap, zp⟩, ⟨q, a2, aq, zq⟩⟩
    have lp := accepts_levels d1 a1 r1
    have lq := accepts_levels d2 a2 r2
    obtain ⟨r, j, h⟩ := joins_exists a _ p q (Nat.le_refl _) (accepts_sorted d1 a1 r1)
      (accepts_sorted d2 a2 r2) ap aq
      (fun x hx h => by have := lp x hx; exact zq x.1 (by omega) (by omega) h)
      (fun x hx h => by have := lq x hx; exact zp x.1 (by omega) (by omega) h)
    refine ⟨r, ⟨p, q, a1, a2, j⟩, fun x hx => ap x (j.sub x hx).1, fun i h1 h2 h3 => ?_⟩
    by_cases hp : ∀ b, (i, b) ∉ p
    · exact zp i h1 h2 hp
    by_cases hq : ∀ b, (i, b) ∉ q
    · exact zq i h1 h2 hq
    simp only [Classical.not_forall, Classical.not_not] at hp hq
    obtain ⟨b, hb⟩ := hp
    obtain ⟨b', hb'⟩ := hq
    have e1 : a i = b := ap _ hb
    have e2 : a i = b' := aq _ hb'
    have : b' = b := by rw [← e1, ← e2]
    subst this
    exact absurd (h _ hb hb') (h3 _)

end TdZdd
