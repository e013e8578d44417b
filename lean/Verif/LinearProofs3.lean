import Verif.LinearProofs2

/-! Proofs about `LinearConstraints` (3): `getChild`. -/

namespace TdZdd

namespace Lin

/-- value of a slot after the item's choice -/
def upd (take : Bool) (t : CheckItem) (x : Int) : Int := if take then x + t.weight else x
def Bad (t : CheckItem) (x1 : Int) : Prop := x1 + t.addMax < t.lower ∨ t.upper < x1 + t.addMin
def comp (t : CheckItem) (x1 : Int) : Int :=
  if t.final then 0 else if t.lower ≤ x1 + t.addMin ∧ x1 + t.addMax ≤ t.upper then t.lower - t.addMin else x1

structure Safe (R : TRange) (t : CheckItem) (x1 : Int) : Prop where
  mn : t.addMin ≤ 0
  mx : 0 ≤ t.addMax
  lo : R.lo ≤ x1 + t.addMin
  hi : x1 + t.addMax ≤ R.hi
  lb : R.lo ≤ t.lower

theorem getD_set (v : List Int) (i k : Nat) (x : Int) (hi : i < v.length) : (v.set i x).getD k 0 = if k = i then x else v.getD k 0 := by
  rw [List.getD_eq_getElem?_getD, List.getD_eq_getElem?_getD, List.getElem?_set]
  by_cases h : i = k
  · subst h; rw [if_pos rfl, if_pos hi, if_pos rfl]; rfl
  · rw [if_neg h, if_neg fun e => h e.symm]

theorem scan_eq {R : TRange} (take : Bool) : ∀ (ts : List CheckItem) (v : List Int), (ts.Pairwise fun s t => s.index ≠ t.index) →
    (∀ t ∈ ts, t.index < v.length) → (∀ t ∈ ts, Safe R t (upd take t (v.getD t.index 0))) →
    ∃ ok v', lcScan R take ts v = some (ok, v') ∧ (ok = true ↔ ∀ t ∈ ts, ¬ Bad t (upd take t (v.getD t.index 0))) ∧
      v'.length = v.length ∧ (ok = true → (∀ t ∈ ts, v'.getD t.index 0 = comp t (upd take t (v.getD t.index 0))) ∧
        ∀ k, (∀ t ∈ ts, t.index ≠ k) → v'.getD k 0 = v.getD k 0)
  | [], v, _, _, _ => ⟨true, v, rfl, ⟨fun _ t ht => (nomatch ht), fun _ => rfl⟩, rfl, fun _ => ⟨fun t ht => (nomatch ht), fun _ _ => rfl⟩⟩
  | t :: ts, v, hpw, hlen, hsafe => by
    rw [List.pairwise_cons] at hpw
    have hl := hlen t (List.mem_cons_self ..)
    have hx : v[t.index]? = some (v.getD t.index 0) := by
      rw [List.getD_eq_getElem?_getD, List.getElem?_eq_getElem hl]; rfl
    have hs := hsafe t (List.mem_cons_self ..)
    unfold lcScan
    rw [hx, Option.bind_some]
    generalize hx0 : v.getD t.index 0 = x at hs ⊢
    have h1 : (if take = true then R.chk (x + t.weight) else some x) = some (upd take t x) := by
      unfold upd at hs ⊢
      have := hs.lo; have := hs.hi; have := hs.mn; have := hs.mx
      cases take with
      | false => rfl
      | true => simp only [if_true] at *; exact chk_some (by omega) (by omega)
    rw [h1, Option.bind_some]
    generalize hx1 : upd take t x = x1 at hs ⊢
    have := hs.lo; have := hs.hi; have := hs.mn; have := hs.mx; have := hs.lb
    rw [chk_some (by omega) (by omega), Option.bind_some, chk_some (by omega) (by omega), Option.bind_some]
    by_cases hbad : x1 + t.addMax < t.lower ∨ t.upper < x1 + t.addMin
    · rw [if_pos hbad]
      refine ⟨false, _, rfl, ⟨fun h => (nomatch h), fun h => ?_⟩, by rw [List.length_set], fun h => (nomatch h)⟩
      exact absurd (by rw [hx0, hx1]; exact hbad) (h t (List.mem_cons_self ..))
    · rw [if_neg hbad]
      have h2 : (if t.lower ≤ x1 + t.addMin ∧ x1 + t.addMax ≤ t.upper then R.chk (t.lower - t.addMin) else some x1) =
          some (if t.lower ≤ x1 + t.addMin ∧ x1 + t.addMax ≤ t.upper then t.lower - t.addMin else x1) := by
        by_cases h : t.lower ≤ x1 + t.addMin ∧ x1 + t.addMax ≤ t.upper
        · rw [if_pos h, if_pos h]; exact chk_some (by omega) (by omega)
        · rw [if_neg h, if_neg h]
      rw [h2, Option.bind_some]
      generalize hv1 : v.set t.index (if t.final = true then 0 else
        if t.lower ≤ x1 + t.addMin ∧ x1 + t.addMax ≤ t.upper then t.lower - t.addMin else x1) = v1
      have hg : ∀ k, v1.getD k 0 = if k = t.index then comp t x1 else v.getD k 0 := by
        intro k; rw [← hv1, getD_set _ _ _ _ hl]; rfl
      have hvl : v1.length = v.length := by rw [← hv1, List.length_set]
      have same : ∀ s ∈ ts, v1.getD s.index 0 = v.getD s.index 0 := fun s hs => by rw [hg, if_neg fun e => hpw.1 s hs e.symm]
      obtain ⟨ok, v', e1, e2, e3, e4⟩ := scan_eq (R := R) take ts v1 hpw.2 (fun s hs => by rw [hvl]; exact hlen s (List.mem_cons_of_mem _ hs))
        (fun s hs => by rw [same s hs]; exact hsafe s (List.mem_cons_of_mem _ hs))
      refine ⟨ok, v', e1, ?_, by rw [e3, hvl], ?_⟩
      · rw [e2, List.forall_mem_cons]
        constructor
        · intro h
          exact ⟨by rw [hx0, hx1]; exact hbad, fun s hs => by rw [← same s hs]; exact h s hs⟩
        · intro h s hs; rw [same s hs]; exact h.2 s hs
      · intro hok
        obtain ⟨f1, f2⟩ := e4 hok
        constructor
        · intro s hs
          rcases List.mem_cons.1 hs with e | hs
          · subst e
            rw [f2 _ fun u hu e => hpw.1 u hu e.symm, hg, if_pos rfl, hx0, hx1]
          · rw [f1 s hs, same s hs]
        · intro k hk
          rw [f2 k fun s hs => hk s (List.mem_cons_of_mem _ hs), hg, if_neg fun e => hk t (List.mem_cons_self ..) e.symm]

/-- constraint with a variable at a level `≤ l` / `> l` -/
def Lo (c : LinArg) (l : Nat) : Prop := ∃ k, k ≤ l ∧ HasKey c.expr k
def Hi (c : LinArg) (l : Nat) : Prop := ∃ k, l < k ∧ HasKey c.expr k

/-- Everything about the finished object that `getChild` relies on -/
structure Sys (R : TRange) (n : Nat) (act : List LinArg) (L : LinCon) (slot : Nat → Nat) : Prop where
  ok : ∀ c ∈ act, OkArg R n c
  mem : ∀ l, 1 ≤ l → l ≤ n → ∀ t, t ∈ L.lists l ↔ ∃ id c w, act[id]? = some c ∧ (l, w) ∈ c.expr ∧ t.index = slot id ∧ t.weight = w ∧
    t.addMin = minS c.expr l ∧ t.addMax = maxS c.expr l ∧ t.lower = c.lb ∧ t.upper = c.ub ∧ (t.final = true ↔ ∀ k, k < l → ¬ HasKey c.expr k)
  ne : ∀ l, 1 ≤ l → l ≤ n → (L.lists l).Pairwise fun s t => s.index ≠ t.index
  lt : ∀ (id : Nat) c, act[id]? = some c → Lo c n → slot id < L.arraySize
  inj : ∀ l, 1 ≤ l → l ≤ n → ∀ (id : Nat) c (id' : Nat) c', act[id]? = some c → act[id']? = some c' → Lo c l → Lo c' l →
    Hi c (l - 1) → Hi c' (l - 1) → slot id = slot id' → id = id'

/-- Invariant of the array when level `l` is about to be processed -/
structure VInv (R : TRange) (act : List LinArg) (L : LinCon) (slot : Nat → Nat) (l : Nat) (v : List Int) : Prop where
  len : v.length = L.arraySize
  zero : ∀ k, (∀ (id : Nat) c, act[id]? = some c → Lo c l → Hi c l → slot id ≠ k) → v.getD k 0 = 0
  lo : ∀ (id : Nat) c, act[id]? = some c → Lo c l → Hi c l → R.lo ≤ v.getD (slot id) 0 + minS c.expr (l + 1)
  hi : ∀ (id : Nat) c, act[id]? = some c → Lo c l → Hi c l → v.getD (slot id) 0 + maxS c.expr (l + 1) ≤ R.hi

/-- The sum of the variables above `l` as far as the array remembers it -/
noncomputable def base (slot : Nat → Nat) (l : Nat) (v : List Int) (id : Nat) (c : LinArg) : Int :=
  open Classical in if Lo c l ∧ Hi c l then v.getD (slot id) 0 else 0

/-- The constraints still to be checked hold -/
def Todo (act : List LinArg) (slot : Nat → Nat) (l : Nat) (v : List Int) (a : Asg 2) : Prop :=
  ∀ (id : Nat) c, act[id]? = some c → Lo c l → c.lb ≤ base slot l v id c + rest c.expr l a ∧ base slot l v id c + rest c.expr l a ≤ c.ub

section
variable {R : TRange} {n : Nat} {act : List LinArg} {L : LinCon} {slot : Nat → Nat}

theorem Sys.okc (h : Sys R n act L slot) {id : Nat} {c : LinArg} (e : act[id]? = some c) : OkArg R n c := h.ok c (List.mem_of_getElem? e)

theorem Sys.step (h : Sys R n act L slot) {m : Nat} (hm : m + 1 ≤ n) {v : List Int} (hv : VInv R act L slot (m + 1) v) (take : Bool) :
    ∃ ok v', lcScan R take (L.lists (m + 1)) v = some (ok, v') ∧ (ok = true → VInv R act L slot m v') ∧
      ∀ a : Asg 2, (decide ((a (m + 1)).val ≠ 0) = take) → (Todo act slot (m + 1) v a ↔ ok = true ∧ Todo act slot m v' a) := by
  -- value of the slot of a constraint with a variable at this level
  have hbase : ∀ (id : Nat) c w, act[id]? = some c → (m + 1, w) ∈ c.expr →
      base slot (m + 1) v id c = v.getD (slot id) 0 ∧ R.lo ≤ v.getD (slot id) 0 + minS c.expr (m + 2) ∧ v.getD (slot id) 0 + maxS c.expr (m + 2) ≤ R.hi := by
    intro id c w hc hw
    have hlo : Lo c (m + 1) := ⟨m + 1, Nat.le_refl _, w, hw⟩
    have hok := h.okc hc
    by_cases hh : Hi c (m + 1)
    · exact ⟨if_pos ⟨hlo, hh⟩, hv.lo id c hc hlo hh, hv.hi id c hc hlo hh⟩
    · have hz : v.getD (slot id) 0 = 0 := by
        apply hv.zero
        intro id' c' hc' hlo' hh' e
        have := h.inj (m + 1) (by omega) hm id' c' id c hc' hc hlo' hlo
          (by obtain ⟨k, h1, h2⟩ := hh'; exact ⟨k, by omega, h2⟩) ⟨m + 1, by omega, w, hw⟩ e
        subst this
        rw [hc] at hc'
        cases hc'
        exact hh hh'
      refine ⟨by unfold base; rw [if_neg fun x => hh x.2, hz], ?_, ?_⟩
      · have := neg_le_minS c.expr (m + 2); have := hok.neg_lo; omega
      · have := maxS_le_pos c.expr (m + 2); have := hok.pos_hi; omega
  have htake : ∀ (w : Int) (t : CheckItem) (x : Int), t.weight = w →
      x + (if w < 0 then w else 0) ≤ upd take t x ∧ upd take t x ≤ x + (if 0 < w then w else 0) := by
    intro w t x e
    unfold upd
    rw [e]
    cases take <;> simp only [if_true, Bool.false_eq_true, if_false] <;> (constructor <;> split <;> omega)
  have hitem : ∀ t ∈ L.lists (m + 1), Safe R t (upd take t (v.getD t.index 0)) ∧ t.index < v.length := by
    intro t ht
    obtain ⟨id, c, w, hc, hw, e1, e2, e3, e4, e5, e6, _⟩ := (h.mem (m + 1) (by omega) hm t).1 ht
    obtain ⟨_, b2, b3⟩ := hbase id c w hc hw
    have hok := h.okc hc
    have k1 : minS c.expr (m + 2) = _ := minS_key hok.asc hw
    have k2 : maxS c.expr (m + 2) = _ := maxS_key hok.asc hw
    have ht := htake w t (v.getD (slot id) 0) e2
    refine ⟨⟨?_, ?_, ?_, ?_, ?_⟩, ?_⟩
    · rw [e3]; exact minS_nonpos _ _
    · rw [e4]; exact maxS_nonneg _ _
    · rw [e3, e1]; omega
    · rw [e4, e1]; omega
    · rw [e5]; exact hok.lb_lo
    · rw [hv.len, e1]; exact h.lt id c hc ⟨m + 1, hm, w, hw⟩
  obtain ⟨ok, v', s1, s2, s3, s4⟩ := scan_eq (R := R) take (L.lists (m + 1)) v (h.ne (m + 1) (by omega) hm) (fun t ht => (hitem t ht).2)
    (fun t ht => (hitem t ht).1)
  -- the item of a constraint
  have hmk : ∀ (id : Nat) c w, act[id]? = some c → (m + 1, w) ∈ c.expr → ∃ t ∈ L.lists (m + 1), t.index = slot id ∧ t.weight = w ∧
      t.addMin = minS c.expr (m + 1) ∧ t.addMax = maxS c.expr (m + 1) ∧ t.lower = c.lb ∧ t.upper = c.ub ∧
      (t.final = true ↔ ∀ k, k < m + 1 → ¬ HasKey c.expr k) := by
    intro id c w hc hw
    open Classical in
    refine ⟨⟨slot id, w, minS c.expr (m + 1), maxS c.expr (m + 1), c.lb, c.ub, decide (∀ k, k < m + 1 → ¬ HasKey c.expr k)⟩,
      (h.mem (m + 1) (by omega) hm _).2 ⟨id, c, w, hc, hw, rfl, rfl, rfl, rfl, rfl, rfl, decide_eq_true_iff⟩, rfl, rfl, rfl, rfl, rfl, rfl, decide_eq_true_iff⟩
  -- slots of constraints without a variable at this level are untouched
  have hother : ok = true → ∀ (id : Nat) c, act[id]? = some c → ¬ HasKey c.expr (m + 1) → Lo c m → Hi c (m + 1) → v'.getD (slot id) 0 = v.getD (slot id) 0 := by
    intro hok id c hc hk hlo hhi
    apply (s4 hok).2
    intro t ht e
    obtain ⟨id', c', w', hc', hw', e1, _⟩ := (h.mem (m + 1) (by omega) hm t).1 ht
    have := h.inj (m + 1) (by omega) hm id' c' id c hc' hc ⟨m + 1, by omega, w', hw'⟩
      (by obtain ⟨k, h1, h2⟩ := hlo; exact ⟨k, by omega, h2⟩) ⟨m + 1, by omega, w', hw'⟩
      (by obtain ⟨k, h1, h2⟩ := hhi; exact ⟨k, by omega, h2⟩) (by rw [← e1, e])
    subst this
    rw [hc] at hc'
    cases hc'
    exact hk ⟨w', hw'⟩
  have hLo : ∀ c, ¬ HasKey c.expr (m + 1) → Lo c (m + 1) → Lo c m := by
    rintro c hk ⟨k, h1, h2⟩
    refine ⟨k, ?_, h2⟩
    have : k ≠ m + 1 := fun e => hk (e ▸ h2)
    omega
  have hHi : ∀ c, ¬ HasKey c.expr (m + 1) → Hi c m → Hi c (m + 1) := by
    rintro c hk ⟨k, h1, h2⟩
    refine ⟨k, ?_, h2⟩
    have : k ≠ m + 1 := fun e => hk (e ▸ h2)
    omega
  have hLo' : ∀ c, Lo c m → Lo c (m + 1) := fun c ⟨k, h1, h2⟩ => ⟨k, by omega, h2⟩
  have hHi' : ∀ c, Hi c (m + 1) → Hi c m := fun c ⟨k, h1, h2⟩ => ⟨k, by omega, h2⟩
  refine ⟨ok, v', s1, ?_, ?_⟩
  · intro hok
    have bounds : ∀ (id : Nat) c, act[id]? = some c → Lo c m → Hi c m →
        R.lo ≤ v'.getD (slot id) 0 + minS c.expr (m + 1) ∧ v'.getD (slot id) 0 + maxS c.expr (m + 1) ≤ R.hi := by
      intro id c hc hlo hhi
      by_cases hk : HasKey c.expr (m + 1)
      · obtain ⟨w, hw⟩ := hk
        obtain ⟨t, ht, e1, e2, e3, e4, e5, e6, e7⟩ := hmk id c w hc hw
        obtain ⟨_, b2, b3⟩ := hbase id c w hc hw
        have hokc := h.okc hc
        have k1 : minS c.expr (m + 2) = _ := minS_key hokc.asc hw
        have k2 : maxS c.expr (m + 2) = _ := maxS_key hokc.asc hw
        have ht' := htake w t (v.getD (slot id) 0) e2
        rw [← e1, (s4 hok).1 t ht, e1]
        have hnf : ¬ t.final = true := fun hf => by
          obtain ⟨k, h1, h2⟩ := hlo
          exact e7.1 hf k (by omega) h2
        unfold comp
        rw [if_neg hnf, e3, e4, e5, e6]
        have := hokc.lb_lo
        have := hokc.ub_hi
        split <;> constructor <;> omega
      · have hhi2 := hHi c hk hhi
        rw [hother hok id c hc hk hlo hhi2, ← minS_nokey hk, ← maxS_nokey hk]
        exact ⟨hv.lo id c hc (hLo' c hlo) hhi2, hv.hi id c hc (hLo' c hlo) hhi2⟩
    refine ⟨by rw [s3, hv.len], ?_, fun id c a b d => (bounds id c a b d).1, fun id c a b d => (bounds id c a b d).2⟩
    intro k hk
    by_cases hex : ∃ t ∈ L.lists (m + 1), t.index = k
    · obtain ⟨t, ht, e⟩ := hex
      obtain ⟨id, c, w, hc, hw, e1, e2, e3, e4, e5, e6, e7⟩ := (h.mem (m + 1) (by omega) hm t).1 ht
      rw [← e, (s4 hok).1 t ht]
      have : t.final = true := e7.2 fun j hj hkey => hk id c hc ⟨j, by omega, hkey⟩ ⟨m + 1, by omega, w, hw⟩ (by rw [← e1, e])
      exact if_pos this
    · rw [(s4 hok).2 k fun t ht e => hex ⟨t, ht, e⟩]
      apply hv.zero
      intro id c hc hlo hhi e
      by_cases hkey : HasKey c.expr (m + 1)
      · obtain ⟨w, hw⟩ := hkey
        obtain ⟨t, ht, e1, _⟩ := hmk id c w hc hw
        exact hex ⟨t, ht, by rw [e1, e]⟩
      · exact hk id c hc (hLo c hkey hlo) (hHi' c hhi) e
  · intro a ha
    have hupd : ∀ (t : CheckItem) (x : Int), upd take t x = x + t.weight * ((a (m + 1)).val : Int) := by
      intro t x
      unfold upd
      rw [← ha]
      have : (a (m + 1)).val = 0 ∨ (a (m + 1)).val = 1 := by have := (a (m + 1)).isLt; omega
      rcases this with h | h <;> simp [h]
    have hother' : ok = true → ∀ (id : Nat) c, act[id]? = some c → ¬ HasKey c.expr (m + 1) → Lo c m → base slot m v' id c = base slot (m + 1) v id c := by
      intro hok id c hc hk hlo
      unfold base
      by_cases hhi : Hi c m
      · have := hHi c hk hhi
        rw [if_pos ⟨hlo, hhi⟩, if_pos ⟨hLo' c hlo, this⟩, hother hok id c hc hk hlo this]
      · rw [if_neg fun x => hhi x.2, if_neg fun x => hhi (hHi' c x.2)]
    constructor
    · intro htodo
      have hok : ok = true := by
        rw [s2]
        intro t ht hbad
        obtain ⟨id, c, w, hc, hw, e1, e2, e3, e4, e5, e6, e7⟩ := (h.mem (m + 1) (by omega) hm t).1 ht
        have := htodo id c hc ⟨m + 1, by omega, w, hw⟩
        rw [(hbase id c w hc hw).1, rest_key (h.okc hc).asc hw] at this
        have h1 := min_rest c.expr m a
        have h2 := rest_max c.expr m a
        unfold Bad at hbad
        rw [hupd, e1, e2, e3, e4, e5, e6] at hbad
        omega
      refine ⟨hok, fun id c hc hlo => ?_⟩
      have htd := htodo id c hc (hLo' c hlo)
      by_cases hk : HasKey c.expr (m + 1)
      · obtain ⟨w, hw⟩ := hk
        obtain ⟨t, ht, e1, e2, e3, e4, e5, e6, e7⟩ := hmk id c w hc hw
        rw [(hbase id c w hc hw).1, rest_key (h.okc hc).asc hw] at htd
        have hb : base slot m v' id c = v'.getD (slot id) 0 := if_pos ⟨hlo, ⟨m + 1, by omega, w, hw⟩⟩
        rw [hb, ← e1, (s4 hok).1 t ht, hupd, e1, e2]
        have hnf : ¬ t.final = true := fun hf => by
          obtain ⟨k, h1, h2⟩ := hlo
          exact e7.1 hf k (by omega) h2
        have h1 := min_rest c.expr m a
        have h2 := rest_max c.expr m a
        unfold comp
        rw [if_neg hnf, e3, e4, e5, e6]
        split <;> omega
      · rw [hother' hok id c hc hk hlo, ← rest_nokey hk]; exact htd
    · rintro ⟨hok, htodo⟩ id c hc hlo
      by_cases hk : HasKey c.expr (m + 1)
      · obtain ⟨w, hw⟩ := hk
        obtain ⟨t, ht, e1, e2, e3, e4, e5, e6, e7⟩ := hmk id c w hc hw
        rw [(hbase id c w hc hw).1, rest_key (h.okc hc).asc hw]
        have hnb := s2.1 hok t ht
        unfold Bad at hnb
        rw [hupd, e1, e2, e3, e4, e5, e6] at hnb
        have h1 := min_rest c.expr m a
        have h2 := rest_max c.expr m a
        by_cases hl : Lo c m
        · have htd := htodo id c hc hl
          have hb : base slot m v' id c = v'.getD (slot id) 0 := if_pos ⟨hl, ⟨m + 1, by omega, w, hw⟩⟩
          rw [hb, ← e1, (s4 hok).1 t ht, hupd, e1, e2] at htd
          have hnf : ¬ t.final = true := fun hf => by
            obtain ⟨k, h1, h2⟩ := hl
            exact e7.1 hf k (by omega) h2
          unfold comp at htd
          rw [if_neg hnf, e3, e4, e5, e6] at htd
          split at htd <;> omega
        · have hno : ∀ k, k < m + 1 → ¬ HasKey c.expr k := fun k hk hkey => hl ⟨k, by omega, hkey⟩
          rw [minS_none hno, maxS_none hno] at hnb
          rw [minS_none hno] at h1
          rw [maxS_none hno] at h2
          omega
      · have hl := hLo c hk hlo
        have htd := htodo id c hc hl
        rw [hother' hok id c hc hk hl, ← rest_nokey hk] at htd
        exact htd

end

end Lin
end TdZdd
