import Verif.BigNumberProofs

namespace TdZdd.Big

/-! ### shiftLeft -/

theorem two_pow_split {k : Nat} (hk : k < 63) : 2 ^ 63 = 2 ^ (63 - k) * 2 ^ k := by
  rw [← Nat.pow_add]; congr 1; omega

theorem shl_div {w k x : Nat} (hk : k < 63) (hx : x < 2 ^ k) : (w * 2 ^ k + x) / 2 ^ 63 = w / 2 ^ (63 - k) := by
  rw [two_pow_split hk, Nat.mul_comm (2 ^ (63 - k)), ← Nat.div_div_eq_div_mul, Nat.mul_comm w,
    Nat.mul_add_div (Nat.two_pow_pos k), Nat.div_eq_of_lt hx, Nat.add_zero]

theorem tmp_lt {p k x : Nat} (hk : k < 63) (hx : x < 2 ^ k) : x ||| ((p <<< k) % 2 ^ 64) < 2 ^ 64 := by
  refine Nat.or_lt_two_pow ?_ (Nat.mod_lt _ (by decide))
  exact Nat.lt_of_lt_of_le hx (Nat.pow_le_pow_right (by decide) (by omega))

theorem tmp_low {p k x : Nat} (hk : k < 63) (hx : x < 2 ^ k) :
    (x ||| ((p <<< k) % 2 ^ 64)) % 2 ^ 63 = (p * 2 ^ k + x) % 2 ^ 63 := by
  have e : (p <<< k) % 2 ^ 64 = (p % 2 ^ (64 - k)) * 2 ^ k := by
    rw [Nat.shiftLeft_eq, show 2 ^ 64 = 2 ^ (64 - k) * 2 ^ k by rw [← Nat.pow_add]; congr 1; omega, Nat.mul_mod_mul_right]
  have e2 : x ||| (p % 2 ^ (64 - k)) * 2 ^ k = (p % 2 ^ (64 - k)) * 2 ^ k + x := by
    rw [Nat.or_comm, Nat.mul_comm, Nat.two_pow_add_eq_or_of_lt hx]
  rw [e, e2, ← e, Nat.shiftLeft_eq]
  omega

theorem shiftLoop_spec {k : Nat} (hk : k < 63) {p v s} (h : Num p v s) : ∀ {x : Nat}, x < 2 ^ k →
    Good p (need s (v * 2 ^ k + x)) (v * 2 ^ k + x) (shiftLoop k p x) := by
  induction h with
  | @last w rest hw =>
    intro x hx
    have hd := shl_div (w := w) hk hx
    have hlow : low (x ||| ((w <<< k) % 2 ^ 64)) = (w * 2 ^ k + x) % 2 ^ 63 := by
      rw [low_eq, tmp_low hk hx]
    have hor : (x ||| ((w <<< k) % 2 ^ 64)) ||| MSB = 2 ^ 63 + (w * 2 ^ k + x) % 2 ^ 63 := by
      rw [or_MSB (tmp_lt hk hx), tmp_low hk hx]
    have hs : low w >>> (63 - k) = (w * 2 ^ k + x) / 2 ^ 63 := by
      rw [low_eq, Nat.mod_eq_of_lt hw, Nat.shiftRight_eq_div_pow, hd]
    have hsmall : w / 2 ^ (63 - k) < 2 ^ 63 := Nat.lt_of_le_of_lt (Nat.div_le_self _ _) hw
    rw [shiftLoop.eq_def]
    simp only [hs, hlow, hor, more_lo hw, and_true, if_true]
    rw [← hd] at hsmall
    generalize w * 2 ^ k + x = V at *
    by_cases hV : V < 2 ^ 63
    · rw [if_pos (Nat.div_eq_of_lt hV), show need 1 V = 1 from if_pos hV, Nat.mod_eq_of_lt hV]
      exact ⟨fun _ => ⟨_, rfl, .last hV, rfl, rfl⟩, fun h => absurd h (by simp)⟩
    · rw [if_neg (by omega), show need 1 V = 2 from if_neg hV]
      cases rest with
      | nil => exact ⟨fun h => absurd h (by simp), fun _ => rfl⟩
      | cons p' ps =>
        refine ⟨fun _ => ⟨_, rfl, ?_, rfl, rfl⟩, fun h => absurd h (by simp)⟩
        have := Num.cont (w := V % 2 ^ 63) (rest := V / 2 ^ 63 :: ps) (Nat.mod_lt _ (by decide)) (.last hsmall)
        rwa [show V % 2 ^ 63 + 2 ^ 63 * (V / 2 ^ 63) = V by omega] at this
  | @cont w v s rest hw hr ih =>
    intro x hx
    have hd := shl_div (w := w) hk hx
    have hor : (x ||| (((2 ^ 63 + w) <<< k) % 2 ^ 64)) ||| MSB = 2 ^ 63 + (w * 2 ^ k + x) % 2 ^ 63 := by
      rw [or_MSB (tmp_lt hk hx), tmp_low hk hx, Nat.add_mul, Nat.add_assoc, Nat.mul_add_mod]
    have hs : low (2 ^ 63 + w) >>> (63 - k) = (w * 2 ^ k + x) / 2 ^ 63 := by
      rw [low_eq, Nat.add_mod_left, Nat.mod_eq_of_lt hw, Nat.shiftRight_eq_div_pow, hd]
    have hx' : (w * 2 ^ k + x) / 2 ^ 63 < 2 ^ k := by
      rw [hd]
      apply Nat.div_lt_of_lt_mul
      rw [← two_pow_split hk]
      exact hw
    rw [shiftLoop.eq_def]
    simp only [hs, hor, more_hi hw]
    rw [if_neg (by simp), if_neg (by simp)]
    have := (ih hx').cons (p := 2 ^ 63 + w) (a := (w * 2 ^ k + x) % 2 ^ 63) (Nat.mod_lt _ (by decide))
    rw [← need_cons (Nat.mod_lt _ (by decide))] at this
    rw [show (w + 2 ^ 63 * v) * 2 ^ k + x = (w * 2 ^ k + x) % 2 ^ 63 + 2 ^ 63 * (v * 2 ^ k + (w * 2 ^ k + x) / 2 ^ 63) by
      rw [Nat.add_mul, Nat.mul_assoc]
      generalize v * 2 ^ k = a
      generalize w * 2 ^ k = b
      omega]
    exact this

theorem moveWords_spec {p : List Nat} {s w : Nat} (hs : s ≤ p.length) :
    if s + w ≤ p.length ∨ s = 0 then ∃ r, moveWords p s w = some r ∧ r.length = p.length ∧
      ∀ i : Nat, r[i]? = if w ≤ i ∧ i < s + w then p[i - w]? else p[i]?
    else moveWords p s w = none := by
  unfold moveWords
  by_cases h0 : s = 0
  · rw [if_pos (.inr h0)]
    subst h0
    refine ⟨p, rfl, rfl, fun i => ?_⟩
    rw [if_neg (by omega)]
  by_cases h : s + w ≤ p.length
  · rw [if_pos (.inl h)]
    have gen : ∀ t, t ≤ s → ∀ b : List Nat, b.length = p.length →
        (∀ i : Nat, b[i]? = if t + w ≤ i ∧ i < s + w then p[i - w]? else p[i]?) →
        ∃ r, (List.range t).reverse.foldlM (fun p j =>
          (p[j]?).bind fun x => if j + w < p.length then some (p.set (j + w) x) else none) b = some r ∧ r.length = p.length ∧
          ∀ i : Nat, r[i]? = if w ≤ i ∧ i < s + w then p[i - w]? else p[i]? := by
      intro t
      induction t with
      | zero =>
        intro _ b hl hb
        refine ⟨b, rfl, hl, fun i => ?_⟩
        rw [hb i]
        simp only [Nat.zero_add]
      | succ t ih =>
        intro ht b hl hb
        rw [List.range_succ, List.reverse_append]
        have hbt : b[t]? = some p[t] := by
          rw [hb t, if_neg (by omega), List.getElem?_eq_getElem]
        have key := ih (by omega) (b.set (t + w) p[t]) (by rw [List.length_set]; exact hl) ?_
        · obtain ⟨r, h1, h2, h3⟩ := key
          refine ⟨r, ?_, h2, h3⟩
          show List.foldlM _ b (t :: (List.range t).reverse) = _
          rw [List.foldlM_cons, hbt]
          show (if t + w < b.length then some (b.set (t + w) p[t]) else none).bind _ = _
          rw [if_pos (by omega)]
          exact h1
        · intro i
          rw [List.getElem?_set]
          by_cases e : t + w = i
          · subst e
            rw [if_pos rfl, if_pos (by omega), if_pos (by omega), show t + w - w = t by omega,
              List.getElem?_eq_getElem]
          · rw [if_neg e, hb i]
            by_cases e2 : t + 1 + w ≤ i ∧ i < s + w
            · rw [if_pos e2, if_pos (by omega)]
            · rw [if_neg e2, if_neg (by omega)]
    exact gen s (Nat.le_refl s) p rfl fun i => by rw [if_neg (by omega)]
  · rw [if_neg (by omega)]
    obtain ⟨t, rfl⟩ : ∃ t, s = t + 1 := ⟨s - 1, by omega⟩
    rw [List.range_succ, List.reverse_append]
    show List.foldlM _ p (t :: (List.range t).reverse) = _
    rw [List.foldlM_cons, List.getElem?_eq_getElem (by omega)]
    show (if t + w < p.length then some (p.set (t + w) p[t]) else none).bind _ = _
    rw [if_neg (by omega)]
    rfl

theorem fillWords_spec {p : List Nat} {w : Nat} (hw : w ≤ p.length) : ∃ r, fillWords p w = some r ∧ r.length = p.length ∧
    ∀ i : Nat, r[i]? = if i < w then some MSB else p[i]? := by
  unfold fillWords
  induction w with
  | zero => exact ⟨p, rfl, rfl, fun i => by rw [if_neg (by omega)]⟩
  | succ w ih =>
    obtain ⟨r, h1, h2, h3⟩ := ih (by omega)
    rw [List.range_succ, List.foldlM_append, h1]
    refine ⟨r.set w MSB, ?_, by rw [List.length_set, h2], fun i => ?_⟩
    · simp only [Option.bind_eq_bind, Option.bind_some, List.foldlM_cons, List.foldlM_nil]
      rw [if_pos (by omega)]
      rfl
    · rw [List.getElem?_set]
      by_cases e : w = i
      · subst e
        rw [if_pos rfl, if_pos (by omega), if_pos (by omega)]
      · rw [if_neg e, h3 i]
        by_cases e2 : i < w
        · rw [if_pos e2, if_pos (by omega)]
        · rw [if_neg e2, if_neg (by omega)]

/-- The words needed after a shift of a number of `s` words by `k`. -/
def shiftNeed (s k v : Nat) : Nat := need (s + k / 63) (v * 2 ^ k)

theorem shiftLeft_spec {p v s} (h : Num p v s) (k : Nat) :
    Good p (shiftNeed s k v) (v * 2 ^ k) (shiftLeft p (k : Int)) := by
  have hdef : shiftLeft p (k : Int) = (if 63 ≤ k then (size p).bind fun s => (moveWords p s (k / 63)).bind fun p =>
      fillWords p (k / 63) else some p).bind fun p => shiftLoop (k % 63) p 0 := by
    unfold shiftLeft
    rw [if_neg (by omega)]
    rfl
  have hk : k % 63 < 63 := Nat.mod_lt _ (by decide)
  have hpow : 2 ^ (63 * (k / 63)) * 2 ^ (k % 63) = 2 ^ k := by
    rw [← Nat.pow_add]; congr 1; omega
  rw [hdef]
  unfold shiftNeed
  by_cases h63 : 63 ≤ k
  · rw [if_pos h63, size_spec h]
    have hpos := h.pos
    have hlen := h.len
    have hwpos : 1 ≤ k / 63 := by omega
    have hneed : s + k / 63 ≤ need (s + k / 63) (v * 2 ^ k) := by unfold need; split <;> omega
    generalize hw : k / 63 = w at *
    have hm := moveWords_spec (w := w) hlen
    by_cases hc : s + w ≤ p.length
    · rw [if_pos (.inl hc)] at hm
      obtain ⟨r, h1, h2, h3⟩ := hm
      obtain ⟨r', h1', h2', h3'⟩ := fillWords_spec (p := r) (w := w) (by omega)
      have er : r' = List.replicate w MSB ++ (p.take s ++ p.drop (s + w)) := by
        apply List.ext_getElem?
        intro i
        rw [h3' i, List.getElem?_append, List.length_replicate]
        by_cases e : i < w
        · rw [if_pos e, if_pos e, List.getElem?_replicate, if_pos e]
        · rw [if_neg e, if_neg e, h3 i, List.getElem?_append, List.length_take, Nat.min_eq_left hlen]
          by_cases e2 : i < s + w
          · rw [if_pos ⟨by omega, e2⟩, if_pos (by omega), List.getElem?_take, if_pos (by omega)]
          · rw [if_neg (by omega), if_neg (by omega), List.getElem?_drop]
            congr 1
            omega
      have hnum : Num r' (v * 2 ^ (63 * w)) (s + w) := by
        rw [er]
        exact (h.take _).shift w
      have key := shiftLoop_spec hk hnum (x := 0) (Nat.two_pow_pos _)
      rw [Nat.add_zero, Nat.mul_assoc, hpow] at key
      have e : (some s).bind (fun s => (moveWords p s w).bind fun p => fillWords p w) = some r' := by
        show (moveWords p s w).bind _ = _
        rw [h1]
        exact h1'
      rw [e]
      show Good p _ _ (shiftLoop (k % 63) r' 0)
      refine ⟨fun hn => ?_, fun hn => key.short (by omega)⟩
      obtain ⟨b, e1, e2, e3, e4⟩ := key.fits (by omega)
      refine ⟨b, e1, e2, by omega, ?_⟩
      rw [e4]
      apply List.ext_getElem?
      intro i
      rw [List.getElem?_drop, List.getElem?_drop, h3', if_neg (by omega), h3, if_neg (by omega)]
    · rw [if_neg (by omega)] at hm
      have e : (some s).bind (fun s => (moveWords p s w).bind fun p => fillWords p w) = none := by
        show (moveWords p s w).bind _ = _
        rw [hm]
        rfl
      rw [e]
      exact ⟨fun hn => by omega, fun _ => rfl⟩
  · rw [if_neg h63, show k / 63 = 0 by omega, Nat.add_zero]
    have key := shiftLoop_spec hk h (x := 0) (Nat.two_pow_pos _)
    rw [Nat.add_zero] at key
    rw [show k % 63 = k by omega] at key
    show Good p _ _ (shiftLoop (k % 63) p 0)
    rw [show k % 63 = k by omega]
    exact key

/-! ### divide -/

theorem or_add {a b k : Nat} (hb : b < 2 ^ k) : (a <<< k) ||| b = a * 2 ^ k + b := by
  rw [← Nat.shiftLeft_add_eq_or_of_lt hb, Nat.shiftLeft_eq]

theorem lldiv10_eq {r : Nat} (h : r < 2 ^ 63) : lldiv10 r = some (r / 10, r % 10) := if_pos h

theorem divWord_spec {p w r : Nat} {cont : Bool} (hw : w < 2 ^ 63) (hp : p = w ∨ p = 2 ^ 63 + w) (hr : r < 10) :
    ∃ q, q < 2 ^ 63 ∧ q = (r * 2 ^ 63 + w) / 10 ∧
      divWord p r cont = some ((if cont then 2 ^ 63 else 0) + q, (r * 2 ^ 63 + w) % 10,
        cont || (if cont then 2 ^ 63 else 0) + q != 0) := by
  have hl : low p = w := by
    rw [low_eq]
    rcases hp with rfl | rfl
    · exact Nat.mod_eq_of_lt hw
    · rw [Nat.add_mod_left, Nat.mod_eq_of_lt hw]
  have e1 : ((r <<< 31) % 2 ^ 64) ||| (low p >>> 32) = r * 2 ^ 31 + w / 2 ^ 32 := by
    rw [hl, Nat.shiftRight_eq_div_pow, Nat.mod_eq_of_lt (by rw [Nat.shiftLeft_eq]; omega), or_add (by omega)]
  have e2 : p &&& (2 ^ 32 - 1) = w % 2 ^ 32 := by
    rw [Nat.and_two_pow_sub_one_eq_mod]
    rcases hp with rfl | rfl <;> omega
  refine ⟨(r * 2 ^ 63 + w) / 10, by omega, rfl, ?_⟩
  unfold divWord
  rw [e1, e2, lldiv10_eq (by omega)]
  obtain ⟨d, hd⟩ : ∃ d, d = (r * 2 ^ 31 + w / 2 ^ 32) / 10 := ⟨_, rfl⟩
  obtain ⟨m, hm⟩ : ∃ m, m = (r * 2 ^ 31 + w / 2 ^ 32) % 10 := ⟨_, rfl⟩
  rw [← hd, ← hm]
  have e3 : (m <<< 32) ||| (w % 2 ^ 32) = m * 2 ^ 32 + w % 2 ^ 32 := or_add (Nat.mod_lt _ (by decide))
  have e4 : d <<< 32 = d * 2 ^ 32 := Nat.shiftLeft_eq _ _
  have e5 : add64 (add64 (if cont = true then MSB else 0) (d * 2 ^ 32)) ((m * 2 ^ 32 + w % 2 ^ 32) / 10) =
      (if cont = true then 2 ^ 63 else 0) + (r * 2 ^ 63 + w) / 10 := by
    rw [MSB_eq]
    cases cont
    · simp only [Bool.false_eq_true, if_false]
      rw [add64_eq (a := 0) (by omega), add64_eq (by omega)]
      omega
    · simp only [if_true]
      rw [add64_eq (a := 2 ^ 63) (by omega), add64_eq (by omega)]
      omega
  have e6 : (m * 2 ^ 32 + w % 2 ^ 32) % 10 = (r * 2 ^ 63 + w) % 10 := by omega
  rw [Option.bind_some]
  dsimp only
  rw [e4, if_neg (by omega), e3, lldiv10_eq (by omega), Option.map_some]
  dsimp only
  rw [e5, e6]

theorem Canon.cons {q v s : Nat} (h : Canon v s) (hv : v ≠ 0) : Canon (q + 2 ^ 63 * v) (s + 1) := by
  right
  rcases h with rfl | h
  · show 2 ^ 63 ≤ _
    have : 2 ^ 63 * 1 ≤ 2 ^ 63 * v := Nat.mul_le_mul (Nat.le_refl _) (by omega)
    omega
  · have : 2 ^ 63 * 2 ^ (63 * (s - 1)) ≤ 2 ^ 63 * v := Nat.mul_le_mul (Nat.le_refl _) h
    rw [show 63 * (s + 1 - 1) = 63 * s by omega]
    by_cases hs : s = 0
    · subst hs
      simp
      omega
    · rw [show 63 * s = 63 * (s - 1 + 1) by congr 1; omega, pow63_succ]
      omega

theorem divLoop_spec {p v s} (h : Num p v s) : ∃ r s', divLoop p = some (r, v % 10, decide (v / 10 ≠ 0)) ∧
    Num r (v / 10) s' ∧ Canon (v / 10) s' ∧ s' ≤ s ∧ r.length = p.length ∧ r.drop s = p.drop s := by
  induction h with
  | @last w rest hw =>
    obtain ⟨q, hq, e, hd⟩ := divWord_spec (cont := false) hw (.inl rfl) (r := 0) (by decide)
    simp only [Bool.false_eq_true, if_false, Nat.zero_mul, Nat.zero_add, Bool.false_or] at hd e
    refine ⟨q :: rest, 1, ?_, ?_, .inl rfl, Nat.le_refl 1, rfl, rfl⟩
    · simp only [divLoop, more_lo hw, Bool.false_eq_true, if_false, Option.bind_some, hd, Option.map_some]
      rw [e]
      congr 3
      by_cases h : w / 10 = 0 <;> simp [h]
    · rw [← e]; exact .last hq
  | @cont w v s rest hw hr ih =>
    obtain ⟨r, s', e, h1, h2, h3, h4, h5⟩ := ih
    have hpos := hr.pos
    obtain ⟨q, hq, eq, hd⟩ := divWord_spec (cont := decide (v / 10 ≠ 0)) hw (.inr rfl) (r := v % 10) (Nat.mod_lt _ (by decide))
    have ev : (w + 2 ^ 63 * v) / 10 = q + 2 ^ 63 * (v / 10) := by omega
    have er : (v % 10 * 2 ^ 63 + w) % 10 = (w + 2 ^ 63 * v) % 10 := by omega
    by_cases hc : v / 10 = 0
    · simp only [hc, ne_eq, not_true, decide_false, Bool.false_eq_true, if_false, Nat.zero_add, Bool.false_or] at hd
      refine ⟨q :: r, 1, ?_, ?_, .inl rfl, by omega, by simp [h4], by simpa using h5⟩
      · simp only [divLoop, more_hi hw, if_true, e, Option.bind_some]
        simp only [hc, ne_eq, not_true, decide_false, hd, Option.map_some, er, ev]
        congr 3
        by_cases h : q = 0 <;> simp [h]
      · rw [ev, hc, Nat.mul_zero, Nat.add_zero]; exact .last hq
    · simp only [hc, ne_eq, not_false_eq_true, decide_true, if_true, Bool.true_or] at hd
      refine ⟨(2 ^ 63 + q) :: r, s' + 1, ?_, ?_, ?_, by omega, by simp [h4], by simpa using h5⟩
      · simp only [divLoop, more_hi hw, if_true, e, Option.bind_some]
        simp only [hc, ne_eq, not_false_eq_true, decide_true, hd, Option.map_some, er, ev]
        congr 3
        rw [eq_comm, decide_eq_true_iff]
        omega
      · rw [ev]; exact .cont hq h1
      · rw [ev]; exact h2.cons hc

theorem divide_spec {p v s} (h : Num p v s) (n : Nat) : ∃ r s', divide p n = some (r, v % 10) ∧
    Num r (v / 10) s' ∧ Canon (v / 10) s' ∧ s' ≤ s ∧ r.length = p.length ∧ r.drop s = p.drop s := by
  obtain ⟨r, s', e, h'⟩ := divLoop_spec h
  exact ⟨r, s', by unfold divide; rw [e]; rfl, h'⟩

/-! ### comparison -/

theorem Canon.unique {p q v s t} (h : Num p v s) (h' : Num q v t) (c : Canon v s) (c' : Canon v t) : s = t := by
  have a := h.lt
  have b := h'.lt
  have p1 := h.pos
  have p2 := h'.pos
  have key : ∀ s t : Nat, 1 ≤ s → Canon v s → v < 2 ^ (63 * t) → 1 ≤ t → s ≤ t := by
    intro s t h1 hc hlt ht
    rcases hc with rfl | hc
    · exact ht
    · by_cases hst : s ≤ t
      · exact hst
      · have : 2 ^ (63 * t) ≤ 2 ^ (63 * (s - 1)) := Nat.pow_le_pow_right (by decide) (Nat.mul_le_mul (Nat.le_refl _) (by omega))
        omega
  exact Nat.le_antisymm (key s t p1 c b p2) (key t s p2 c' a p1)

theorem eq_spec {p v s} (h : Num p v s) : ∀ {q u t}, Num q u t → eq p q = some (decide (v = u ∧ s = t)) := by
  induction h with
  | @last w rest hw =>
    intro q u t hq
    cases q with
    | nil => exact hq.ne_nil.elim
    | cons q qs =>
      rcases hq.inv with ⟨rfl, rfl, hw'⟩ | ⟨w', v', s', hw', rfl, rfl, rfl, hr'⟩
      · simp only [eq, more_lo hw']
        by_cases e : w = u
        · simp [e]
        · simp [e]
      · have := hr'.pos
        simp only [eq]
        rw [if_pos (by omega)]
        congr 1
        symm
        rw [decide_eq_false_iff_not]
        omega
  | @cont w v s rest hw hr ih =>
    intro q u t hq
    have := hr.pos
    cases q with
    | nil => exact hq.ne_nil.elim
    | cons q qs =>
      rcases hq.inv with ⟨rfl, rfl, hw'⟩ | ⟨w', v', s', hw', rfl, rfl, rfl, hr'⟩
      · simp only [eq]
        rw [if_pos (by omega)]
        congr 1
        symm
        rw [decide_eq_false_iff_not]
        omega
      · simp only [eq, more_hi hw', if_true, ih hr']
        by_cases e : w = w'
        · subst e
          rw [if_neg (by simp)]
          congr 1
          rw [decide_eq_decide]
          omega
        · rw [if_pos (by omega)]
          congr 1
          symm
          rw [decide_eq_false_iff_not]
          omega

theorem eqWord_spec {p v s} (h : Num p v s) (c : Canon v s) {n : Nat} (hn : n < 2 ^ 64) :
    eqWord p n = some (decide (v = n)) := by
  cases p with
  | nil => exact h.ne_nil.elim
  | cons q qs =>
    rcases h.inv with ⟨rfl, rfl, hw'⟩ | ⟨w', v', s', hw', rfl, rfl, rfl, hr'⟩
    · simp only [eqWord]
      by_cases e : v = n
      · subst e
        simp [more_lo hw']
      · simp [e]
    · have hpos := hr'.pos
      have hv' : v' ≠ 0 := by
        intro e
        rcases c with c | c
        · omega
        · have : 2 ^ 63 ≤ 2 ^ (63 * (s' + 1 - 1)) := Nat.pow_le_pow_right (by decide) (by omega)
          omega
      simp only [eqWord]
      by_cases e : 2 ^ 63 + w' = n
      · rw [if_pos e, ← e, more_hi hw', if_pos rfl]
        cases qs with
        | nil => exact hr'.ne_nil.elim
        | cons q2 qs =>
          show some (decide (q2 = 1)) = _
          congr 1
          rw [decide_eq_decide]
          rcases hr'.inv with ⟨_, rfl, h3⟩ | ⟨w2, v2, s2, h3, rfl, rfl, rfl, h4⟩
          · omega
          · have := h4.pos
            rcases c with c | c
            · omega
            · have : 2 ^ 126 ≤ 2 ^ (63 * (s2 + 1 + 1 - 1)) := Nat.pow_le_pow_right (by decide) (by omega)
              omega
      · rw [if_neg e]
        congr 1
        symm
        rw [decide_eq_false_iff_not]
        omega

/-! ### translate, print -/

theorem translate_spec {p v s} (h : Num p v s) : translate p = some v := by
  induction h with
  | last hw => simp [translate, more_lo hw]
  | @cont w v s rest hw _ ih =>
    simp only [translate, more_hi hw, if_true, ih, Option.map_some, low_eq, Nat.shiftLeft_eq]
    congr 1
    omega

theorem toString_step {v : Nat} (h : 10 ≤ v) : toString v = toString (v / 10) ++ toString (v % 10) := by
  apply String.toList_inj.1
  show v.repr.toList = ((v / 10).repr ++ (v % 10).repr).toList
  rw [String.toList_append, Nat.toList_repr, Nat.toList_repr, Nat.toList_repr, Nat.toDigits_of_base_le (by decide) h,
    Nat.toDigits_of_lt_base (Nat.mod_lt v (by decide))]

theorem printHelper_spec (fuel : Nat) : ∀ {p v s}, Num p v s → v < 10 ^ fuel → 1 ≤ fuel →
    printHelper fuel p = some (toString v) := by
  induction fuel with
  | zero => intro p v s h _ h1; omega
  | succ fuel ih =>
    intro p v s h hv _
    obtain ⟨r, s', e, h1, h2, _⟩ := divide_spec h 10
    have ez := eqWord_spec h1 h2 (n := 0) (by decide)
    simp only [printHelper, e, ez, Option.bind_eq_bind, Option.bind_some]
    by_cases h10 : v / 10 = 0
    · simp only [h10, decide_true, if_true, Option.bind_some]
      have : v % 10 = v := by omega
      rw [this]
      simp
    · simp only [h10, decide_false, Bool.false_eq_true, if_false]
      rw [ih h1 (by rw [Nat.pow_succ] at hv; omega) (by
        apply Classical.byContradiction
        intro hf
        have : fuel = 0 := by omega
        subst this
        rw [Nat.zero_add, Nat.pow_one] at hv
        omega)]
      simp only [Option.bind_some]
      rw [← toString_step (by omega)]

theorem print_spec {p v s} (h : Num p v s) : print p = some (toString v) := by
  have hpos := h.pos
  obtain ⟨r, e, h1, h2, _⟩ := (store_spec h (List.replicate s 0)).fits (by simp)
  unfold print
  simp only [size_spec h, e, Option.bind_eq_bind, Option.bind_some]
  refine printHelper_spec _ h1 ?_ (by omega)
  refine Nat.lt_of_lt_of_le h.lt ?_
  rw [Nat.pow_mul, Nat.pow_mul]
  exact Nat.pow_le_pow_left (by decide) s

end TdZdd.Big
