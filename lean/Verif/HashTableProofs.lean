import Verif.HashTable
import Verif.ListLemmas

/-! Proofs about the hash table model. -/

namespace TdZdd

theorem primes_sorted : primes.Pairwise (· < ·) := by decide +kernel

theorem primeLoop_spec (n : Nat) : ∀ fuel lo hi, lo ≤ hi → hi < 38 → hi - lo < fuel →
    (∀ p, primes[hi]? = some p → n ≤ p) → (∀ j p, j < lo → primes[j]? = some p → p < n) →
    ∃ (i : Nat) (p : Nat), primeLoop n fuel lo hi = some p ∧ primes[i]? = some p ∧ n ≤ p ∧
      ∀ (j : Nat) q, j < i → primes[j]? = some q → q < n := by
  intro fuel
  induction fuel with
  | zero => intro lo hi _ _ h; omega
  | succ fuel ih =>
    intro lo hi hle hhi hf hup hdown
    rw [primeLoop]
    have hlen : primes.length = 38 := rfl
    by_cases h : lo < hi
    · rw [if_pos h]
      obtain ⟨p, hp⟩ := getElem?_of_lt (show (lo + hi) / 2 < primes.length by omega)
      rw [hp]
      dsimp only
      by_cases hn : n ≤ p
      · rw [if_pos hn]
        exact ih lo _ (by omega) (by omega) (by omega) (fun q hq => by rw [hp] at hq; cases hq; exact hn)
          hdown
      · rw [if_neg hn]
        refine ih _ hi (by omega) hhi (by omega) hup ?_
        intro j q hj hq
        by_cases hj2 : j = (lo + hi) / 2
        · subst hj2; rw [hp] at hq; cases hq; omega
        · have := List.pairwise_iff_getElem.1 primes_sorted j ((lo + hi) / 2)
            (getElem?_lt hq) (by omega) (by omega)
          rw [List.getElem?_eq_some_iff] at hq hp
          obtain ⟨_, hq⟩ := hq
          obtain ⟨_, hp⟩ := hp
          rw [hq, hp] at this
          omega
    · rw [if_neg h]
      have : (lo + hi) / 2 = lo := by omega
      have hlh : lo = hi := by omega
      rw [this]
      obtain ⟨p, hp⟩ := getElem?_of_lt (show lo < primes.length by omega)
      exact ⟨lo, p, hp, hp, hup p (hlh ▸ hp), fun j q hj hq => hdown j q hj hq⟩

/-- `primeSize n` is the smallest listed prime that is not below `n`, or `n+1`. -/
theorem primeSize_spec (n : Nat) : ∃ p, primeSize n = some p ∧ n ≤ p ∧
    ((∀ q ∈ primes, q < n) ∧ p = n + 1 ∨ p ∈ primes ∧ ∀ q ∈ primes, n ≤ q → p ≤ q) := by
  unfold primeSize
  have h37 : primes[37]? = some (2^40+15) := rfl
  rw [h37]
  dsimp only
  have hsort := List.pairwise_iff_getElem.1 primes_sorted
  by_cases h : n > 2^40+15
  · rw [if_pos h]
    refine ⟨n + 1, rfl, by omega, .inl ⟨?_, rfl⟩⟩
    intro q hq
    have : ∀ q ∈ primes, q ≤ 2^40+15 := by decide +kernel
    have := this q hq
    omega
  · rw [if_neg h]
    obtain ⟨i, p, h1, h2, h3, h4⟩ := primeLoop_spec n 38 0 37 (by omega) (by omega) (by omega)
      (fun p hp => by rw [h37] at hp; cases hp; omega) (fun j p hj => by omega)
    refine ⟨p, h1, h3, .inr ⟨mem_of_getElem?' h2, ?_⟩⟩
    intro q hq hnq
    obtain ⟨j, hj⟩ := List.mem_iff_getElem?.1 hq
    rcases Nat.lt_trichotomy j i with hji | hji | hji
    · have := h4 j q hji hj; omega
    · subst hji; rw [hj] at h2; cases h2; omega
    · have := hsort i j (getElem?_lt h2) (getElem?_lt hj) hji
      rw [List.getElem?_eq_some_iff] at h2 hj
      obtain ⟨_, h2⟩ := h2
      obtain ⟨_, hj⟩ := hj
      rw [h2, hj] at this; omega

namespace HT

variable {E : Type}

/-- number of occupied slots below `n` -/
def cnt (mem : Nat → Option E) : Nat → Nat
  | 0 => 0
  | n + 1 => cnt mem n + if (mem n).isSome then 1 else 0

theorem cnt_none {mem : Nat → Option E} {n : Nat} (h : ∀ i, i < n → mem i = none) : cnt mem n = 0 := by
  induction n with
  | zero => rfl
  | succ n ih => rw [cnt, ih (fun i hi => h i (by omega)), h n (by omega)]; rfl

theorem cnt_full {mem : Nat → Option E} {n : Nat} (h : ∀ i, i < n → (mem i).isSome) : cnt mem n = n := by
  induction n with
  | zero => rfl
  | succ n ih => rw [cnt, ih (fun i hi => h i (by omega)), if_pos (h n (by omega))]

theorem cnt_congr {m m' : Nat → Option E} {n : Nat} (h : ∀ i, i < n → m i = m' i) :
    cnt m n = cnt m' n := by
  induction n with
  | zero => rfl
  | succ n ih => rw [cnt, cnt, ih (fun i hi => h i (by omega)), h n (by omega)]

theorem cnt_upd {mem : Nat → Option E} {n i : Nat} {x : E} (hi : i < n) (h : mem i = none) :
    cnt (upd mem i (some x)) n = cnt mem n + 1 := by
  induction n with
  | zero => omega
  | succ n ih =>
    rw [cnt, cnt]
    by_cases he : i = n
    · subst he
      rw [cnt_congr (m' := mem) (fun j hj => by unfold upd; rw [if_neg (by omega)])]
      simp [upd, h]
    · rw [ih (by omega)]
      have : upd mem i (some x) n = mem n := by unfold upd; rw [if_neg (by omega)]
      rw [this]; omega

theorem entries_length (t : HT E) : t.entries.length = cnt t.mem t.tableSize := by
  unfold entries
  generalize t.tableSize = n
  induction n with
  | zero => rfl
  | succ n ih =>
    rw [List.range_succ, List.filterMap_append, List.length_append, ih, cnt]
    cases h : t.mem n <;> simp [h]

/-- `e` is stored in the table -/
def Has (t : HT E) (e : E) : Prop := ∃ i, i < t.tableSize ∧ t.mem i = some e

theorem mem_entries {t : HT E} {e : E} : e ∈ t.entries ↔ t.Has e := by
  simp [entries, Has, List.mem_filterMap]

/-- `eq` is an equivalence relation on `P` that `hash` respects -/
structure Law (hash : E → Nat) (eq : E → E → Bool) (P : E → Prop) : Prop where
  refl : ∀ {x}, P x → eq x x = true
  symm : ∀ {x y}, P x → P y → eq x y = true → eq y x = true
  trans : ∀ {x y z}, P x → P y → P z → eq x y = true → eq y z = true → eq x z = true
  hash_eq : ∀ {x y}, P x → P y → eq x y = true → hash x = hash y

/-- invariant of the table -/
structure Ok (hash : E → Nat) (eq : E → E → Bool) (P : E → Prop) (t : HT E) : Prop where
  cap : t.tableSize ≤ t.cap
  max : t.maxSize = t.tableSize * 75 / 100
  count : t.size = cnt t.mem t.tableSize
  le : t.size ≤ t.maxSize
  probe : ∀ {i e}, i < t.tableSize → t.mem i = some e → ∃ d, d < t.tableSize ∧
    i = (hash e + d) % t.tableSize ∧ ∀ d', d' < d → (t.mem ((hash e + d') % t.tableSize)).isSome
  pw : ∀ {i j e f}, i < t.tableSize → j < t.tableSize → t.mem i = some e → t.mem j = some f →
    eq e f = true → i = j
  dom : ∀ {i e}, i < t.tableSize → t.mem i = some e → P e

variable {hash : E → Nat} {eq : E → E → Bool} {P : E → Prop} {t : HT E}

theorem next_idx {h d ts : Nat} (hts : 0 < ts) :
    (if (h + d) % ts + 1 ≥ ts then 0 else (h + d) % ts + 1) = (h + (d + 1)) % ts := by
  have hlt := Nat.mod_lt (h + d) hts
  rw [← Nat.add_assoc, Nat.add_mod (h + d) 1]
  by_cases h1 : ts = 1
  · subst h1; simp [Nat.mod_one]
  · rw [Nat.mod_eq_of_lt (show 1 < ts by omega)]
    by_cases h2 : (h + d) % ts + 1 ≥ ts
    · rw [if_pos h2]
      have : (h + d) % ts + 1 = ts := by omega
      rw [this, Nat.mod_self]
    · rw [if_neg h2, Nat.mod_eq_of_lt (show (h + d) % ts + 1 < ts by omega)]

/-- every slot is met by probing -/
theorem idx_exists {h i ts : Nat} (hi : i < ts) : ∃ d, d < ts ∧ i = (h + d) % ts := by
  have hm := Nat.mod_lt h (show 0 < ts by omega)
  by_cases hle : h % ts ≤ i
  · refine ⟨i - h % ts, by omega, ?_⟩
    rw [Nat.add_mod, Nat.mod_eq_of_lt (show i - h % ts < ts by omega)]
    rw [show h % ts + (i - h % ts) = i by omega, Nat.mod_eq_of_lt hi]
  · refine ⟨ts + i - h % ts, by omega, ?_⟩
    rw [Nat.add_mod, Nat.mod_eq_of_lt (show ts + i - h % ts < ts by omega)]
    rw [show h % ts + (ts + i - h % ts) = i + ts by omega, Nat.add_mod_right, Nat.mod_eq_of_lt hi]

/-- the probe loop stops at the first slot that is empty or holds an equivalent entry -/
theorem probe_spec (x : E) (hcap : t.tableSize ≤ t.cap) (hts : 0 < t.tableSize)
    {d0 : Nat} (h0 : t.mem ((hash x + d0) % t.tableSize) = none) :
    ∀ fuel d, d ≤ d0 → d0 < d + fuel →
      (∀ d', d' < d → ∃ e, t.mem ((hash x + d') % t.tableSize) = some e ∧ eq e x = false) →
      ∃ d1, d ≤ d1 ∧ d1 ≤ d0 ∧
        (∀ d', d' < d1 → ∃ e, t.mem ((hash x + d') % t.tableSize) = some e ∧ eq e x = false) ∧
        HT.probe eq t x fuel ((hash x + d) % t.tableSize) =
          some ((hash x + d1) % t.tableSize, t.mem ((hash x + d1) % t.tableSize)) ∧
        ∀ e, t.mem ((hash x + d1) % t.tableSize) = some e → eq e x = true := by
  intro fuel
  induction fuel with
  | zero => intro d _ _; omega
  | succ fuel ih =>
    intro d hd hf hpre
    have hlt := Nat.mod_lt (hash x + d) hts
    rw [HT.probe, if_pos (by omega)]
    cases hm : t.mem ((hash x + d) % t.tableSize) with
    | none => exact ⟨d, Nat.le_refl d, hd, hpre, by rw [hm], by simp [hm]⟩
    | some e =>
      dsimp only
      cases he : eq e x with
      | true =>
        refine ⟨d, Nat.le_refl d, hd, hpre, by rw [hm]; rfl, ?_⟩
        intro e' he'; rw [hm] at he'; cases he'; exact he
      | false =>
        have hne : d ≠ d0 := by intro h; subst h; rw [h0] at hm; cases hm
        rw [next_idx hts]
        obtain ⟨d1, h1, h2⟩ := ih (d + 1) (by omega) (by omega) (by
          intro d' hd'
          by_cases hdd : d' = d
          · subst hdd; exact ⟨e, hm, he⟩
          · exact hpre d' (by omega))
        exact ⟨d1, by omega, h2⟩

theorem Ok.empty_slot (h : Ok hash eq P t) (hts : 0 < t.tableSize) :
    ∃ i, i < t.tableSize ∧ t.mem i = none := by
  apply Classical.byContradiction
  intro hc
  have : cnt t.mem t.tableSize = t.tableSize := cnt_full (fun i hi => by
    cases hm : t.mem i with
    | none => exact absurd ⟨i, hi, hm⟩ hc
    | some _ => rfl)
  have h1 := h.count
  have h2 := h.le
  have h3 := h.max
  omega

/-- the probe loop in a consistent table -/
theorem Ok.probe_run (h : Ok hash eq P t) (hl : Law hash eq P) {x : E} (hx : P x)
    (hts : 0 < t.tableSize) :
    ∃ d, d < t.tableSize ∧
      HT.probe eq t x t.tableSize (hash x % t.tableSize) =
        some ((hash x + d) % t.tableSize, t.mem ((hash x + d) % t.tableSize)) ∧
      (∀ e, t.mem ((hash x + d) % t.tableSize) = some e → eq e x = true) ∧
      (t.mem ((hash x + d) % t.tableSize) = none → ∀ e, t.Has e → eq e x = false) ∧
      (∀ d', d' < d → (t.mem ((hash x + d') % t.tableSize)).isSome) := by
  obtain ⟨i0, hi0, hm0⟩ := h.empty_slot hts
  obtain ⟨d0, hd0, he0⟩ := idx_exists (h := hash x) hi0
  rw [he0] at hm0
  obtain ⟨d, _, h2, h3, h4, h5⟩ := probe_spec (eq := eq) x h.cap hts hm0 t.tableSize 0
    (Nat.zero_le _) (by omega) (by intro d' hd'; omega)
  rw [Nat.add_zero] at h4
  refine ⟨d, by omega, h4, h5, ?_, fun d' hd' => ?_⟩
  · intro hnone e he
    obtain ⟨i, hi, hmi⟩ := he
    cases hex : eq e x with
    | false => rfl
    | true =>
      exfalso
      obtain ⟨d2, hd2, hi2, hpre⟩ := h.probe hi hmi
      rw [hl.hash_eq (h.dom hi hmi) hx hex] at hi2 hpre
      rcases Nat.lt_trichotomy d d2 with hlt | hlt | hlt
      · have := hpre d hlt; rw [hnone] at this; cases this
      · subst hlt; rw [← hi2, hmi] at hnone; cases hnone
      · obtain ⟨e', he', hf⟩ := h3 d2 hlt
        rw [← hi2, hmi] at he'; cases he'; rw [hex] at hf; cases hf
  · obtain ⟨e, he, _⟩ := h3 d' hd'; rw [he]; rfl

/-- a table after `initialize(n)` -/
theorem init_spec (n : Nat) (t0 : HT E) : ∃ t, init n t0 = some t ∧ Ok hash eq P t ∧
    n ≤ t.maxSize ∧ 0 < t.tableSize ∧ t.size = 0 ∧ ∀ e, ¬ t.Has e := by
  obtain ⟨p, hp, hle, _⟩ := primeSize_spec (n * 100 / 75 + 1)
  have hn : n ≤ p * 75 / 100 := by omega
  unfold init
  rw [hp]
  by_cases hc : p ≤ t0.cap
  · refine ⟨_, rfl, ?_⟩
    dsimp only
    rw [if_pos hc]
    have hm : ∀ i, i < p → (if i < p then none else t0.mem i) = none := fun i hi => by rw [if_pos hi]
    refine ⟨⟨hc, rfl, (cnt_none hm).symm, Nat.zero_le _, ?_, ?_, ?_⟩, hn, by simp only; omega, rfl, ?_⟩
    · intro i e hi he; simp only at hi he; rw [hm i hi] at he; cases he
    · intro i j e f hi _ he; simp only at hi he; rw [hm i hi] at he; cases he
    · intro i e hi he; simp only at hi he; rw [hm i hi] at he; cases he
    · rintro e ⟨i, hi, he⟩; simp only at hi he; rw [hm i hi] at he; cases he
  · refine ⟨_, rfl, ?_⟩
    dsimp only
    rw [if_neg hc]
    refine ⟨⟨Nat.le_refl _, rfl, (cnt_none fun _ _ => rfl).symm, Nat.zero_le _, ?_, ?_, ?_⟩, hn,
      by simp only; omega, rfl, ?_⟩
    · intro i e hi he; cases he
    · intro i j e f hi _ he; cases he
    · intro i e hi he; cases he
    · rintro e ⟨i, hi, he⟩; cases he

/-- inserting at the empty slot found by the probe loop -/
theorem Ok.insert (h : Ok hash eq P t) (hl : Law hash eq P) {x : E} (hx : P x)
    (hlt : t.size < t.maxSize) {d : Nat} (hd : d < t.tableSize)
    (hpre : ∀ d', d' < d → (t.mem ((hash x + d') % t.tableSize)).isSome)
    (hnone : t.mem ((hash x + d) % t.tableSize) = none) (hnew : ∀ e, t.Has e → eq e x = false) :
    Ok hash eq P { t with size := t.size + 1,
                          mem := upd t.mem ((hash x + d) % t.tableSize) (some x) } ∧
    ∀ e, Has { t with size := t.size + 1,
                      mem := upd t.mem ((hash x + d) % t.tableSize) (some x) } e ↔ t.Has e ∨ e = x := by
  have hi : (hash x + d) % t.tableSize < t.tableSize := Nat.mod_lt _ (by omega)
  generalize hidx : (hash x + d) % t.tableSize = i at *
  have hsome : ∀ j, (t.mem j).isSome → (upd t.mem i (some x) j).isSome := by
    intro j hj; unfold upd; split
    · rfl
    · exact hj
  have hget : ∀ {j e}, upd t.mem i (some x) j = some e → (j = i ∧ e = x) ∨ (j ≠ i ∧ t.mem j = some e) := by
    intro j e he; unfold upd at he; split at he
    · rename_i hji; exact .inl ⟨hji, (Option.some.inj he).symm⟩
    · rename_i hji; exact .inr ⟨hji, he⟩
  constructor
  · refine ⟨h.cap, h.max, ?_, hlt, ?_, ?_, ?_⟩
    · show t.size + 1 = cnt (upd t.mem i (some x)) t.tableSize
      rw [cnt_upd hi hnone, h.count]
    · intro j e hj he
      rcases hget he with ⟨rfl, rfl⟩ | ⟨_, he⟩
      · exact ⟨d, hd, hidx.symm, fun d' hd' => hsome _ (hpre d' hd')⟩
      · obtain ⟨d2, h1, h2, h3⟩ := h.probe hj he
        exact ⟨d2, h1, h2, fun d' hd' => hsome _ (h3 d' hd')⟩
    · intro j k e f hj hk he hf hef
      rcases hget he with ⟨rfl, rfl⟩ | ⟨_, he'⟩ <;> rcases hget hf with ⟨rfl, rfl⟩ | ⟨_, hf'⟩
      · rfl
      · have := hnew f ⟨k, hk, hf'⟩
        rw [hl.symm hx (h.dom hk hf') hef] at this; cases this
      · have := hnew e ⟨j, hj, he'⟩
        rw [hef] at this; cases this
      · exact h.pw hj hk he' hf' hef
    · intro j e hj he
      rcases hget he with ⟨rfl, rfl⟩ | ⟨_, he⟩
      · exact hx
      · exact h.dom hj he
  · intro e
    constructor
    · rintro ⟨j, hj, he⟩
      rcases hget he with ⟨rfl, rfl⟩ | ⟨_, he⟩
      · exact .inr rfl
      · exact .inl ⟨j, hj, he⟩
    · rintro (⟨j, hj, he⟩ | rfl)
      · refine ⟨j, hj, ?_⟩
        show upd t.mem i (some x) j = some e
        unfold upd; rw [if_neg, he]
        intro hji; rw [hji, hnone] at he; cases he
      · refine ⟨i, hi, ?_⟩
        show upd t.mem i (some _) i = some _
        unfold upd; rw [if_pos rfl]

/-- what `add` does -/
structure AddSpec (eq : E → E → Bool) (t : HT E) (x : E) (t' : HT E) (i : Nat) : Prop where
  idx : i < t'.tableSize
  old : (∃ e, t.Has e ∧ eq e x = true) → t' = t ∧ ∃ e, t.mem i = some e ∧ eq e x = true
  new : (∀ e, t.Has e → eq e x = false) → t'.size = t.size + 1 ∧ t'.mem i = some x ∧
    ∀ e, t'.Has e ↔ t.Has e ∨ e = x

/-- `add` without rehashing -/
theorem addF_direct (h : Ok hash eq P t) (hl : Law hash eq P) {x : E} (hx : P x)
    (hts : 0 < t.tableSize)
    (hroom : t.size < t.maxSize ∨ ∃ e, t.Has e ∧ eq e x = true) (fuel : Nat) :
    ∃ t' i, addF hash eq (fuel + 1) t x = some (t', i) ∧ Ok hash eq P t' ∧ AddSpec eq t x t' i ∧
      t'.maxSize = t.maxSize ∧ t'.tableSize = t.tableSize := by
  obtain ⟨d, h1, h2, h3, h4, h5⟩ := h.probe_run hl hx hts
  rw [addF, if_neg (by omega), h2]
  have hi : (hash x + d) % t.tableSize < t.tableSize := Nat.mod_lt _ hts
  cases hm : t.mem ((hash x + d) % t.tableSize) with
  | some e =>
    have he := h3 e hm
    refine ⟨t, _, rfl, h, ⟨hi, fun _ => ⟨rfl, e, hm, he⟩, fun hnew => ?_⟩, rfl, rfl⟩
    have := hnew e ⟨_, hi, hm⟩
    rw [he] at this; cases this
  | none =>
    have hnew := h4 hm
    have hlt : t.size < t.maxSize := by
      rcases hroom with hr | ⟨e, he, hex⟩
      · exact hr
      · rw [hnew e he] at hex; cases hex
    dsimp only
    rw [if_pos hlt]
    obtain ⟨k1, k2⟩ := h.insert hl hx hlt h1 h5 hm hnew
    refine ⟨_, _, rfl, k1, ⟨hi, ?_, fun _ => ⟨rfl, ?_, k2⟩⟩, rfl, rfl⟩
    · rintro ⟨e, he, hex⟩; rw [hnew e he] at hex; cases hex
    · show upd t.mem _ (some x) _ = some x
      unfold upd; rw [if_pos rfl]

/-- adding a list of new inequivalent elements without rehashing -/
theorem addAll_spec (hl : Law hash eq P) (fuel : Nat) : ∀ (l : List E) {t : HT E},
    Ok hash eq P t → 0 < t.tableSize → t.size + l.length ≤ t.maxSize → (∀ x ∈ l, P x) →
    (∀ x ∈ l, ∀ e, t.Has e → eq e x = false) → l.Pairwise (fun x y => eq x y = false) →
    ∃ t', l.foldlM (fun t e => (addF hash eq (fuel + 1) t e).map (·.1)) t = some t' ∧
      Ok hash eq P t' ∧ t'.maxSize = t.maxSize ∧ t'.tableSize = t.tableSize ∧
      t'.size = t.size + l.length ∧ ∀ e, t'.Has e ↔ t.Has e ∨ e ∈ l := by
  intro l
  induction l with
  | nil => intro t h _ _ _ _ _; exact ⟨t, rfl, h, rfl, rfl, rfl, by simp⟩
  | cons x l ih =>
    intro t h hts hlen hP hnew hpw
    simp only [List.length_cons] at hlen
    have hpw' := List.pairwise_cons.1 hpw
    obtain ⟨t1, i, e1, h1, s1, m1, z1⟩ := addF_direct h hl (hP x (by simp)) hts
      (.inl (by omega)) fuel
    obtain ⟨n1, n2, n3⟩ := s1.new (hnew x (by simp))
    obtain ⟨t2, e2, h2, m2, z2, n4, n5⟩ := ih h1 (by omega) (by omega)
      (fun y hy => hP y (by simp [hy])) (by
        intro y hy e he
        rcases (n3 e).1 he with he | rfl
        · exact hnew y (by simp [hy]) e he
        · exact hpw'.1 y hy) hpw'.2
    refine ⟨t2, ?_, h2, by omega, by omega, by simp only [List.length_cons]; omega, ?_⟩
    · rw [List.foldlM_cons, e1]; exact e2
    · intro e
      rw [n5, n3, List.mem_cons, or_assoc]

theorem Ok.pairwise (h : Ok hash eq P t) : t.entries.Pairwise (fun x y => eq x y = false) := by
  unfold entries
  rw [List.pairwise_filterMap]
  refine List.Pairwise.imp_of_mem ?_ (List.nodup_range (n := t.tableSize))
  intro i j hi hj hne x hx y hy
  cases he : eq x y with
  | false => rfl
  | true => exact absurd (h.pw (List.mem_range.1 hi) (List.mem_range.1 hj) hx hy he) hne

theorem Ok.dom' (h : Ok hash eq P t) {e : E} (he : t.Has e) : P e := by
  obtain ⟨i, hi, hm⟩ := he; exact h.dom hi hm

theorem rehash_spec (hl : Law hash eq P) (fuel n : Nat) (h : Ok hash eq P t) :
    ∃ t', rehashWith (addF hash eq (fuel + 1)) t n = some t' ∧ Ok hash eq P t' ∧
      max t.tableSize n ≤ t'.maxSize ∧ 0 < t'.tableSize ∧ t'.size = t.size ∧
      ∀ e, t'.Has e ↔ t.Has e := by
  obtain ⟨t0, h1, h2, h3, h4, h5, h6⟩ := init_spec (hash := hash) (eq := eq) (P := P) (max t.tableSize n) HT.empty
  have hc := h.count
  have hle := h.le
  have hm := h.max
  have hlen := entries_length t
  obtain ⟨t', e1, k1, k2, k3, k4, k5⟩ := addAll_spec hl fuel t.entries h2 h4
    (by rw [hlen, h5, ← hc]; omega) (fun x hx => h.dom' (mem_entries.1 hx))
    (fun x _ e he => absurd he (h6 e)) h.pairwise
  refine ⟨t', ?_, k1, by omega, by omega, by omega, ?_⟩
  · unfold rehashWith; rw [h1]; exact e1
  · intro e; rw [k5, mem_entries]; simp [h6 e]

/-- `add` in general -/
theorem add_spec (h : Ok hash eq P t) (hl : Law hash eq P) {x : E} (hx : P x) :
    ∃ t' i, add hash eq t x = some (t', i) ∧ Ok hash eq P t' ∧ AddSpec eq t x t' i := by
  -- after rehashing to a table `t1`
  have key : ∀ {t1 : HT E}, Ok hash eq P t1 → 0 < t1.tableSize → t1.size < t1.maxSize →
      t1.size = t.size → (∀ e, t1.Has e ↔ t.Has e) → (∀ e, t.Has e → eq e x = false) →
      ∃ t' i, addF hash eq 1 t1 x = some (t', i) ∧ Ok hash eq P t' ∧ AddSpec eq t x t' i := by
    intro t1 k1 k2 k3 k4 k5 k6
    obtain ⟨t', i, e, g1, g2, _⟩ := addF_direct k1 hl hx k2 (.inl k3) 0
    refine ⟨t', i, e, g1, g2.idx, ?_, ?_⟩
    · rintro ⟨e, he, hex⟩; rw [k6 e he] at hex; cases hex
    · intro hnew
      obtain ⟨p1, p2, p3⟩ := g2.new (fun e he => hnew e ((k5 e).1 he))
      exact ⟨by omega, p2, fun e => by rw [p3, k5]⟩
  have hc := h.count
  have hle := h.le
  have hm := h.max
  by_cases hts : t.tableSize = 0
  · obtain ⟨t1, e1, k1, k2, k3, k4, k5⟩ := rehash_spec hl 0 1 h
    obtain ⟨t', i, e, g⟩ := key k1 k3 (by omega) k4 k5
      (fun e he => by obtain ⟨i, hi, _⟩ := he; omega)
    refine ⟨t', i, ?_, g⟩
    unfold add
    rw [addF, if_pos hts, e1]; exact e
  · by_cases hroom : t.size < t.maxSize ∨ ∃ e, t.Has e ∧ eq e x = true
    · obtain ⟨t', i, e, g1, g2, _⟩ := addF_direct h hl hx (by omega) hroom 1
      exact ⟨t', i, e, g1, g2⟩
    · have hnew : ∀ e, t.Has e → eq e x = false := by
        intro e he
        cases hex : eq e x with
        | false => rfl
        | true => exact absurd (.inr ⟨e, he, hex⟩) hroom
      have hfull : ¬ t.size < t.maxSize := fun hlt => hroom (.inl hlt)
      obtain ⟨t1, e1, k1, k2, k3, k4, k5⟩ := rehash_spec hl 0 (t.size * 2) h
      obtain ⟨t', i, e, g⟩ := key k1 k3 (by omega) k4 k5 hnew
      refine ⟨t', i, ?_, g⟩
      obtain ⟨d, p1, p2, p3, p4, p5⟩ := h.probe_run hl hx (by omega)
      have hnone : t.mem ((hash x + d) % t.tableSize) = none := by
        cases hm' : t.mem ((hash x + d) % t.tableSize) with
        | none => rfl
        | some e =>
          have := hnew e ⟨_, Nat.mod_lt _ (by omega), hm'⟩
          rw [p3 e hm'] at this; cases this
      unfold add
      rw [addF, if_neg hts, p2, hnone]
      dsimp only
      rw [if_neg hfull, e1]; exact e

theorem get_spec (h : Ok hash eq P t) (hl : Law hash eq P) {x : E} (hx : P x) :
    ∃ r, get hash eq t x = some r ∧
      (∀ i e, r = some (i, e) → i < t.tableSize ∧ t.mem i = some e ∧ eq e x = true) ∧
      (r = none → ∀ e, t.Has e → eq e x = false) := by
  unfold get
  by_cases hts : t.tableSize > 0
  · rw [if_pos hts]
    obtain ⟨d, h1, h2, h3, h4, _⟩ := h.probe_run hl hx hts
    rw [h2]
    refine ⟨_, rfl, ?_, ?_⟩
    · intro i e hr
      cases hm : t.mem ((hash x + d) % t.tableSize) with
      | none => rw [hm] at hr; cases hr
      | some e' => rw [hm] at hr; cases hr; exact ⟨Nat.mod_lt _ hts, hm, h3 _ hm⟩
    · intro hr
      cases hm : t.mem ((hash x + d) % t.tableSize) with
      | none => exact h4 hm
      | some e' => rw [hm] at hr; cases hr
  · rw [if_neg hts]
    refine ⟨none, rfl, by simp, ?_⟩
    rintro _ e ⟨i, hi, _⟩; omega

theorem empty_ok : Ok hash eq P (HT.empty : HT E) :=
  ⟨Nat.le_refl 0, by simp [HT.empty], rfl, Nat.le_refl 0, fun hi => absurd hi (by simp [HT.empty]),
   fun hi => absurd hi (by simp [HT.empty]), fun hi => absurd hi (by simp [HT.empty])⟩

/-- replacing an entry by an equivalent one (`p0 = p` in the builder) -/
theorem Ok.replace (h : Ok hash eq P t) (hl : Law hash eq P) {i : Nat} {e x : E} (hi : i < t.tableSize)
    (he : t.mem i = some e) (hx : P x) (hex : eq e x = true) :
    Ok hash eq P { t with mem := upd t.mem i (some x) } := by
  have hget : ∀ {j f}, upd t.mem i (some x) j = some f → (j = i ∧ f = x) ∨ (j ≠ i ∧ t.mem j = some f) := by
    intro j f hf; unfold upd at hf; split at hf
    · rename_i hji; exact .inl ⟨hji, (Option.some.inj hf).symm⟩
    · rename_i hji; exact .inr ⟨hji, hf⟩
  have hsome : ∀ j, (upd t.mem i (some x) j).isSome = (t.mem j).isSome := by
    intro j; unfold upd; split
    · rename_i hji; rw [hji, he]; rfl
    · rfl
  have hPe := h.dom hi he
  refine ⟨h.cap, h.max, ?_, h.le, ?_, ?_, ?_⟩
  · have : ∀ n, cnt (upd t.mem i (some x)) n = cnt t.mem n := by
      intro n
      induction n with
      | zero => rfl
      | succ n ih => rw [cnt, cnt, ih, hsome]
    exact h.count.trans (this _).symm
  · intro j f hj hf
    simp only [hsome]
    rcases hget hf with ⟨rfl, rfl⟩ | ⟨_, hf⟩
    · rw [← hl.hash_eq hPe hx hex]; exact h.probe hj he
    · exact h.probe hj hf
  · intro j k f g hj hk hf hg hfg
    rcases hget hf with ⟨rfl, rfl⟩ | ⟨_, hf'⟩ <;> rcases hget hg with ⟨rfl, rfl⟩ | ⟨_, hg'⟩
    · rfl
    · exact h.pw hj hk he hg' (hl.trans hPe hx (h.dom hk hg') hex hfg)
    · exact h.pw hj hk hf' he (hl.trans (h.dom hj hf') hx hPe hfg (hl.symm hPe hx hex))
    · exact h.pw hj hk hf' hg' hfg
  · intro j f hj hf
    rcases hget hf with ⟨rfl, rfl⟩ | ⟨_, hf⟩
    · exact hx
    · exact h.dom hj hf

end HT

end TdZdd
