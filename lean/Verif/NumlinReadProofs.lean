import Verif.NumlinRead
import Verif.NumlinReadSpec
import Verif.NumlinAnswer
import Verif.GraphillionProofs

/-! Proofs about `Board::readNumbers`. -/

namespace TdZdd.Nl

open IStr Gz

/-- a stream that has not failed -/
abbrev st (b r : List Char) (e : Bool) : IStr := ⟨b, r, e, false⟩

theorem sign_space {c : Char} (h : ¬ Blank [c]) : space c = false := by
  cases hs : space c with
  | false => rfl
  | true => exact absurd (fun x hx => by rw [List.mem_singleton] at hx; subst hx; exact blank_iff.1 hs) h

theorem sign_digit {c : Char} (h : Sign c) : digit c = false := by
  cases hd : digit c with
  | false => rfl
  | true => exact absurd (digit_iff.1 hd) h.2

theorem Ends.nd {r : List Char} (h : Ends r) : ∀ c r', r = c :: r' → digit c = false := fun c r' e => by
  cases hd : digit c with
  | false => rfl
  | true => exact absurd (digit_iff.1 hd) (h c r' e)

/-! ### The head and the size -/

theorem readHead_ok {h : List Char} (hh : Head h) : ∀ {fuel : Nat} {b r : List Char} {d : Char}, digit d = true → (h ++ d :: r).length + 1 ≤ fuel → ∃ b', readHead fuel (st b (h ++ d :: r) false) = .ok (st b' (d :: r) false) := by
  induction hh with
  | done hs =>
    rename_i s
    intro fuel b r d hd hf
    cases fuel with
    | zero => omega
    | succ fuel =>
      have e : getSkip (st b (s ++ d :: r) false) = (some d, st (d :: (s.reverse ++ b)) r false) := getSkip_at hs.sp (digit_space hd)
      rw [readHead, if_neg Bool.false_ne_true, e]
      rw [if_pos (show isDigit (some d) = true from hd)]
      exact ⟨s.reverse ++ b, rfl⟩
  | other hs hc hr hh ih =>
    rename_i s r0 t c
    intro fuel b r d hd hf
    cases fuel with
    | zero => omega
    | succ fuel =>
      have e : getSkip (st b (s ++ c :: (r0 ++ '\n' :: t) ++ d :: r) false) = (some c, st (c :: (s.reverse ++ b)) (r0 ++ '\n' :: (t ++ d :: r)) false) := by
        have : s ++ c :: (r0 ++ '\n' :: t) ++ d :: r = s ++ c :: (r0 ++ '\n' :: (t ++ d :: r)) := by simp
        rw [this]
        exact getSkip_at hs.sp (sign_space hc.1)
      rw [readHead, if_neg Bool.false_ne_true, e]
      rw [if_neg (show ¬ isDigit (some c) = true by show ¬ digit c = true; rw [sign_digit hc]; exact Bool.false_ne_true)]
      obtain ⟨b', e'⟩ := skipLine_at (b := c :: (s.reverse ++ b)) (t := t ++ d :: r) hr
      obtain ⟨b'', e''⟩ := ih (b := b') (fuel := fuel) (r := r) hd (by simp at hf ⊢; omega)
      refine ⟨b'', ?_⟩
      rw [← e'']
      exact congrArg _ e'

theorem readInt_ok {b x r : List Char} {v : Nat} (hx : Numeral x v) (hv : v ≤ 2147483647) (hr : Ends r) : ∃ b', readInt (st b (x ++ r) false) = (some (v : Int), st b' r r.isEmpty) := by
  obtain ⟨h1, h2, h3⟩ := hx.spec
  obtain ⟨b', e⟩ := num_pos_gen (lo := -2147483648) (hi := 2147483647) (b := b) (s := []) (by simp) h1 h2 hr.nd (by omega) (by omega)
  rw [h3] at e
  exact ⟨b', e⟩

theorem numeral_cons {x : List Char} {v : Nat} (hx : Numeral x v) : ∃ d x', x = d :: x' ∧ digit d = true := by
  obtain ⟨h1, h2, _⟩ := hx.spec
  cases x with
  | nil => exact absurd rfl h1
  | cons d x' => exact ⟨d, x', rfl, h2 d (List.mem_cons_self ..)⟩

theorem blank_ends {s r : List Char} (hs : Blank s) (hr : Ends r) : Ends (s ++ r) := by
  cases s with
  | nil => exact hr
  | cons c s =>
    intro d r' e hd
    rw [List.cons_append] at e
    injection e with e1 e2
    have := hs.sp c (by simp)
    rw [e1, digit_space (digit_iff.2 hd)] at this
    exact absurd this Bool.false_ne_true

theorem readSize_ok {b x s r : List Char} {v : Nat} (hs : Blank s) (hx : Numeral x v) (hv : v ≤ 2147483647) (hr : Ends r) : ∃ b', readSize (getSkip (st b (s ++ (x ++ r)) false)) = .ok ((v : Int), st b' r r.isEmpty) := by
  obtain ⟨d, x', rfl, hd⟩ := numeral_cons hx
  have e : getSkip (st b (s ++ (d :: x' ++ r)) false) = (some d, st (d :: (s.reverse ++ b)) (x' ++ r) false) := getSkip_at hs.sp (digit_space hd)
  rw [e]
  obtain ⟨b', e'⟩ := readInt_ok (b := s.reverse ++ b) hx hv hr
  refine ⟨b', ?_⟩
  unfold readSize
  rw [if_pos (show isDigit (some d) = true from hd)]
  have : (st (d :: (s.reverse ++ b)) (x' ++ r) false).unget = st (s.reverse ++ b) (d :: x' ++ r) false := rfl
  dsimp only
  rw [this, e']
  rfl

theorem readSizes_pre {z : List Char} {rows cols : Nat} (hz : Sizes z rows cols) (hr' : rows ≤ 2147483647) (hc' : cols ≤ 2147483647) {b e : List Char} (he : Ends e) :
    ∃ b', readSizes (st b (z ++ e) false) = if (cols : Int) < 1 ∨ (rows : Int) < 1 then .thrown else .ok ((rows : Int), (cols : Int), st b' e e.isEmpty) := by
  cases hz with
  | space hx hs hne hy =>
    rename_i x s y
    obtain ⟨d, y', ey, hd⟩ := numeral_cons hy
    obtain ⟨b1, e1⟩ := readInt_ok (b := b) (r := s ++ (y ++ e)) hx hc' (by
      cases s with
      | nil => exact absurd rfl hne
      | cons c s =>
        intro d r' e hd
        rw [List.cons_append] at e
        injection e with e1 e2
        have := hs.sp c (by simp)
        rw [e1, digit_space (digit_iff.2 hd)] at this
        exact absurd this Bool.false_ne_true)
    have hemp : (s ++ (y ++ e)).isEmpty = false := by cases s with
      | nil => exact absurd rfl hne
      | cons c s => rfl
    rw [hemp] at e1
    have ea : x ++ (s ++ y) ++ e = x ++ (s ++ (y ++ e)) := by simp
    obtain ⟨b2, e2⟩ := readSize_ok (b := b1) hs hy hr' he
    refine ⟨b2, ?_⟩
    unfold readSizes
    rw [ea, e1]
    dsimp only [Option.elim]
    have hnc : ¬ (st b1 (s ++ (y ++ e)) false).getSkip.1 = some ',' := by
      have : getSkip (st b1 (s ++ (y ++ e)) false) = (some d, st (d :: (s.reverse ++ b1)) (y' ++ e) false) := by rw [ey]; exact getSkip_at hs.sp (digit_space hd)
      rw [this]
      intro h
      injection h with h
      subst h
      exact absurd hd (by decide)
    rw [if_neg hnc, e2]
    rfl
  | comma hx hs hs' hy =>
    rename_i x s s' y
    obtain ⟨b1, e1⟩ := readInt_ok (b := b) (r := s ++ ',' :: (s' ++ (y ++ e))) hx hr' (blank_ends hs fun c r' e hd => by
      injection e with e1 e2
      subst e1
      exact absurd (digit_iff.2 hd) (by decide))
    have hemp : (s ++ ',' :: (s' ++ (y ++ e))).isEmpty = false := by cases s <;> rfl
    rw [hemp] at e1
    have ea : x ++ (s ++ ',' :: (s' ++ y)) ++ e = x ++ (s ++ ',' :: (s' ++ (y ++ e))) := by simp
    have e3 : getSkip (st b1 (s ++ ',' :: (s' ++ (y ++ e))) false) = (some ',', st (',' :: (s.reverse ++ b1)) (s' ++ (y ++ e)) false) := getSkip_at hs.sp (by decide)
    obtain ⟨b2, e2⟩ := readSize_ok (b := ',' :: (s.reverse ++ b1)) hs' hy hc' he
    refine ⟨b2, ?_⟩
    unfold readSizes
    rw [ea, e1]
    dsimp only [Option.elim]
    rw [e3, if_pos rfl]
    dsimp only
    rw [e2]
    rfl

theorem readSizes_ok {z : List Char} {rows cols : Nat} (hz : Sizes z rows cols) (hr : 1 ≤ rows) (hc : 1 ≤ cols) (hr' : rows ≤ 2147483647) (hc' : cols ≤ 2147483647) {b e : List Char} (he : Ends e) :
    ∃ b', readSizes (st b (z ++ e) false) = .ok ((rows : Int), (cols : Int), st b' e e.isEmpty) := by
  obtain ⟨b', h⟩ := readSizes_pre hz hr' hc' (b := b) he
  exact ⟨b', by rw [h, if_neg (by omega)]⟩

theorem sizes_cons {z : List Char} {rows cols : Nat} (hz : Sizes z rows cols) : ∃ d z', z = d :: z' ∧ digit d = true := by
  cases hz with
  | space hx _ _ _ => obtain ⟨d, x', rfl, hd⟩ := numeral_cons hx; exact ⟨d, _, rfl, hd⟩
  | comma hx _ _ _ => obtain ⟨d, x', rfl, hd⟩ := numeral_cons hx; exact ⟨d, _, rfl, hd⟩

/-! ### The boxes -/

section boxes

variable {rows cols : Nat}

theorem skipLines_blank {s t : List Char} (hs : Blank s) (hn : '\n' ∉ s) : ∀ {i : Int} {j : Nat} {b : List Char}, skipLines i j b (s ++ t) = skipLines i j (s.reverse ++ b) t := by
  induction s with
  | nil => intro i j b; rfl
  | cons c s ih =>
    intro i j b
    rw [List.mem_cons, not_or] at hn
    rw [List.cons_append, skipLines, if_pos (hs.sp c (by simp)), if_neg fun h => hn.1 h.symm, ih (fun x hx => hs x (List.mem_cons_of_mem _ hx)) hn.2]
    simp

theorem skipGet_eq {i : Int} {j : Nat} {b r : List Char} : skipGet i j (st b r false) =
    ((skipLines i j b r).1, (skipLines i j b r).2.1, IStr.get ⟨(skipLines i j b r).2.2.1, (skipLines i j b r).2.2.2, false, false⟩) := rfl

theorem boxes_blank {s t : List Char} (hs : Blank s) (hn : '\n' ∉ s) {fuel : Nat} {i : Int} {j : Nat} {a : List (List Nat)} {b : List Char} :
    readBoxes rows cols fuel i j a (st b (s ++ t) false) = readBoxes rows cols fuel i j a (st (s.reverse ++ b) t false) := by
  have : skipGet i j (st b (s ++ t) false) = skipGet i j (st (s.reverse ++ b) t false) := by
    rw [skipGet_eq, skipGet_eq, skipLines_blank hs hn]
  cases fuel with
  | zero => rfl
  | succ fuel =>
    rw [readBoxes, readBoxes, this]

theorem boxes_newline {t : List Char} {fuel : Nat} {i : Int} {j : Nat} {a : List (List Nat)} {b : List Char} :
    readBoxes rows cols fuel i j a (st b ('\n' :: t) false) = readBoxes rows cols fuel (i + 1) 0 a (st ('\n' :: b) t false) := by
  have : skipGet i j (st b ('\n' :: t) false) = skipGet (i + 1) 0 (st ('\n' :: b) t false) := rfl
  cases fuel with
  | zero => rfl
  | succ fuel =>
    rw [readBoxes, readBoxes, this]

theorem boxes_end {fuel : Nat} {i : Int} {j : Nat} {a : List (List Nat)} {b : List Char} {e : Bool} : readBoxes rows cols (fuel + 1) i j a (st b [] e) = .ok a := by
  cases e <;> rfl

theorem skipGet_sign {i : Int} {j : Nat} {b r : List Char} {c : Char} (hc : space c = false) : skipGet i j (st b (c :: r) false) = (i, j, some c, st (c :: b) r false) := by
  rw [skipGet_eq, skipLines, if_neg (by rw [hc]; exact Bool.false_ne_true)]
  rfl

/-- outside of the board everything is skipped -/
theorem boxes_skip {i : Int} {j : Nat} {a : List (List Nat)} (ho : i < 0 ∨ (rows : Int) ≤ i ∨ cols ≤ j) {l r : List Char} : ∀ {fuel : Nat} {b : List Char}, '\n' ∉ l → (l ++ r).length + 1 ≤ fuel →
    ∃ fuel' b', r.length + 1 ≤ fuel' ∧ readBoxes rows cols fuel i j a (st b (l ++ r) false) = readBoxes rows cols fuel' i j a (st b' r false) := by
  induction l with
  | nil => intro fuel b _ hf; exact ⟨fuel, b, hf, rfl⟩
  | cons c l ih =>
    intro fuel b hn hf
    rw [List.mem_cons, not_or] at hn
    by_cases hc : space c = true
    · have := boxes_blank (rows := rows) (cols := cols) (s := [c]) (t := l ++ r) (fun x hx => by rw [List.mem_singleton] at hx; subst hx; exact blank_iff.1 hc) (by rw [List.mem_singleton]; exact hn.1) (fuel := fuel) (i := i) (j := j) (a := a) (b := b)
      obtain ⟨f', b', h1, h2⟩ := ih (fuel := fuel) (b := c :: b) hn.2 (by simp at hf ⊢; omega)
      exact ⟨f', b', h1, this.trans h2⟩
    · have hc' : space c = false := Bool.eq_false_iff.2 hc
      cases fuel with
      | zero => omega
      | succ fuel =>
        obtain ⟨f', b', h1, h2⟩ := ih (fuel := fuel) (b := c :: b) hn.2 (by simp at hf ⊢; omega)
        refine ⟨f', b', h1, ?_⟩
        rw [← h2, List.cons_append, readBoxes, if_neg Bool.false_ne_true, skipGet_sign hc']
        dsimp only
        rw [if_neg Bool.false_ne_true]
        by_cases k : i < 0 ∨ (rows : Int) ≤ i
        · rw [if_pos k]
        · rw [if_neg k, if_pos (by omega)]

/-- the numbers after the boxes `vs` from column `j` of row `i` have been stored -/
def Stored (rows cols i j : Nat) (vs : List Nat) (a a' : List (List Nat)) : Prop :=
  Shape rows cols a' ∧ ∀ r c, r < rows → c < cols → get2 a' r c = if r = i ∧ j ≤ c ∧ c < j + vs.length then vs[c - j]? else get2 a r c

theorem stored_nil {i j : Nat} {a : List (List Nat)} (ha : Shape rows cols a) : Stored rows cols i j [] a a :=
  ⟨ha, fun r c _ _ => by rw [if_neg (by simp)]⟩

theorem stored_cons {i j v : Nat} {vs : List Nat} {a a1 a2 : List (List Nat)} (h1 : ∀ r c, r < rows → c < cols → get2 a1 r c = if r = i ∧ c = j then some v else get2 a r c) (h2 : Stored rows cols i (j + 1) vs a1 a2) :
    Stored rows cols i j (v :: vs) a a2 := by
  refine ⟨h2.1, fun r c hr hc => ?_⟩
  rw [h2.2 r c hr hc, h1 r c hr hc, List.length_cons]
  by_cases k1 : r = i ∧ j + 1 ≤ c ∧ c < j + 1 + vs.length
  · rw [if_pos k1, if_pos (by omega), show c - j = (c - (j + 1)) + 1 by omega, List.getElem?_cons_succ]
  · rw [if_neg k1]
    by_cases k2 : r = i ∧ c = j
    · rw [if_pos k2, if_pos (by omega), k2.2, Nat.sub_self]; rfl
    · rw [if_neg k2, if_neg (by omega)]

/-- the boxes of a line -/
theorem boxes_line {l : List Char} {vs : List Nat} (hl : Boxes l vs) : ∀ {fuel i j : Nat} {a : List (List Nat)} {b r : List Char} {e : Bool}, '\n' ∉ l → (r = [] ∨ ∃ t, r = '\n' :: t) → i < rows → j ≤ cols → Shape rows cols a →
    (∀ c, j + c < cols → ∀ v, vs[c]? = some v → v ≤ 2147483647) → (e = true → l ++ r = []) → (l ++ r).length + 1 ≤ fuel →
    (∀ r' c, r' = i → j ≤ c → c < cols → get2 a r' c = some 0) →
    ∃ fuel' b' j' a' e', r.length + 1 ≤ fuel' ∧ (e' = true → r = []) ∧ Stored rows cols i j vs a a' ∧ readBoxes rows cols fuel i j a (st b (l ++ r) e) = readBoxes rows cols fuel' i j' a' (st b' r e') := by
  -- columns outside of the board
  have out : ∀ {l : List Char} {vs : List Nat} {fuel i j : Nat} {a : List (List Nat)} {b r : List Char}, cols ≤ j → Shape rows cols a → '\n' ∉ l → (l ++ r).length + 1 ≤ fuel →
      ∃ fuel' b' j' a' e', r.length + 1 ≤ fuel' ∧ (e' = true → r = []) ∧ Stored rows cols i j vs a a' ∧ readBoxes rows cols fuel i j a (st b (l ++ r) false) = readBoxes rows cols fuel' i j' a' (st b' r e') := by
    intro l vs fuel i j a b r hj ha hn hf
    obtain ⟨f', b', h1, h2⟩ := boxes_skip (rows := rows) (cols := cols) (i := (i : Int)) (j := j) (a := a) (.inr (.inr hj)) (l := l) (r := r) (fuel := fuel) (b := b) hn hf
    exact ⟨f', b', j, a, false, h1, (fun h => nomatch h), ⟨ha, fun r c _ hc => by rw [if_neg (by omega)]⟩, h2⟩
  induction hl with
  | done hs =>
    rename_i s
    intro fuel i j a b r e hn hr hi hj ha hv he hf _
    cases e with
    | true =>
      have h0 := List.append_eq_nil_iff.1 (he rfl)
      refine ⟨fuel, b, j, a, true, by simp at hf; omega, fun _ => h0.2, stored_nil ha, by rw [h0.1]; rfl⟩
    | false => exact ⟨fuel, s.reverse ++ b, j, a, false, by simp at hf; omega, (fun h => nomatch h), stored_nil ha, boxes_blank hs hn⟩
  | number hs hx hE hB ih =>
    rename_i s x l' v vs
    intro fuel i j a b r e hn hr hi hj ha hv he hf h0
    obtain ⟨d, x', ex, hd⟩ := numeral_cons hx
    have ef : e = false := by
      cases e with
      | false => rfl
      | true => have := he rfl; rw [ex] at this; simp at this
    subst ef
    by_cases hjc : cols ≤ j
    · exact out hjc ha hn hf
    · have hn' : '\n' ∉ s ∧ '\n' ∉ x ∧ '\n' ∉ l' := by simpa [List.mem_append, not_or] using hn
      have ea : s ++ (x ++ l') ++ r = s ++ (x ++ (l' ++ r)) := by simp
      have hends : Ends (l' ++ r) := by
        intro c r' e
        cases l' with
        | nil =>
          rcases hr with rfl | ⟨t, rfl⟩
          · cases e
          · rw [List.nil_append] at e
            injection e with e1 _
            subst e1
            decide
        | cons c' l' =>
          rw [List.cons_append] at e
          injection e with e1 _
          exact hE c l' (by rw [e1])
      obtain ⟨b1, e1⟩ := readInt_ok (b := s.reverse ++ b) hx (hv 0 (by omega) v rfl) hends
      obtain ⟨a1, g1, s1, g2⟩ := set2_ok ha (i := i) (j := j) hi (by omega) v
      cases fuel with
      | zero => omega
      | succ fuel =>
        have hlen : (l' ++ r).length + 1 ≤ fuel := by rw [ex] at hf; simp at hf ⊢; omega
        obtain ⟨f', b', j', a', e', p1, p2, p3, p4⟩ := ih (fuel := fuel) (i := i) (j := j + 1) (a := a1) (b := b1) (r := r) (e := (l' ++ r).isEmpty) hn'.2.2 hr hi (by omega) s1 (fun c hc w hw => hv (c + 1) (by omega) w hw) (fun h => List.isEmpty_iff.1 h) hlen
          (fun r' c hr' hc hc' => by rw [g2, if_neg (by omega)]; exact h0 r' c hr' (by omega) hc')
        refine ⟨f', b', j', a', e', p1, p2, stored_cons (fun r c _ _ => g2 r c) p3, ?_⟩
        rw [← p4, ea, boxes_blank hs hn'.1]
        have ed : x ++ (l' ++ r) = d :: (x' ++ (l' ++ r)) := by rw [ex]; rfl
        have eu : (st (d :: (s.reverse ++ b)) (x' ++ (l' ++ r)) false).unget = st (s.reverse ++ b) (x ++ (l' ++ r)) false := by rw [ed]; rfl
        rw [readBoxes, if_neg Bool.false_ne_true, ed, skipGet_sign (digit_space hd)]
        dsimp only
        rw [if_neg Bool.false_ne_true, if_neg (by omega), if_neg hjc, if_pos (show isDigit (some d) = true from hd), eu, e1]
        dsimp only [Option.elim]
        rw [Int.toNat_natCast, Int.toNat_natCast, g1]
  | other hs hc hB ih =>
    rename_i s l' c vs
    intro fuel i j a b r e hn hr hi hj ha hv he hf h0
    have ef : e = false := by
      cases e with
      | false => rfl
      | true => have := he rfl; simp at this
    subst ef
    by_cases hjc : cols ≤ j
    · exact out hjc ha hn hf
    · have hn' : '\n' ∉ s ∧ ¬ '\n' = c ∧ '\n' ∉ l' := by simpa [List.mem_append, List.mem_cons, not_or] using hn
      have ea : s ++ c :: l' ++ r = s ++ (c :: (l' ++ r)) := by simp
      cases fuel with
      | zero => omega
      | succ fuel =>
        obtain ⟨f', b', j', a', e', p1, p2, p3, p4⟩ := ih (fuel := fuel) (i := i) (j := j + 1) (a := a) (b := c :: (s.reverse ++ b)) (r := r) (e := false) hn'.2.2 hr hi (by omega) ha (fun c hc w hw => hv (c + 1) (by omega) w hw) (fun h => nomatch h) (by simp at hf ⊢; omega)
          (fun r' c hr' hc hc' => h0 r' c hr' (by omega) hc')
        refine ⟨f', b', j', a', e', p1, p2, stored_cons (fun r c hr hc => ?_) p3, ?_⟩
        · by_cases k : r = i ∧ c = j
          · rw [if_pos k]; exact h0 r c k.1 (by omega) hc
          · rw [if_neg k]
        · rw [← p4, ea, boxes_blank hs hn'.1, readBoxes, if_neg Bool.false_ne_true, skipGet_sign (sign_space hc.1)]
          dsimp only
          rw [if_neg Bool.false_ne_true, if_neg (by omega), if_neg hjc, if_neg (show ¬ isDigit (some c) = true by show ¬ digit c = true; rw [sign_digit hc]; exact Bool.false_ne_true)]

/-- after the last row everything is skipped -/
theorem boxes_rest {a : List (List Nat)} {t : List Char} : ∀ {fuel : Nat} {i : Int} {j : Nat} {b : List Char}, (rows : Int) ≤ i → t.length + 1 ≤ fuel → readBoxes rows cols fuel i j a (st b t false) = .ok a := by
  induction t with
  | nil =>
    intro fuel i j b _ hf
    cases fuel with
    | zero => omega
    | succ fuel => exact boxes_end
  | cons c t ih =>
    intro fuel i j b hi hf
    rw [List.length_cons] at hf
    by_cases hn : c = '\n'
    · subst hn
      rw [boxes_newline]
      exact ih (by omega) (by omega)
    · by_cases hc : space c = true
      · have := boxes_blank (rows := rows) (cols := cols) (s := [c]) (t := t) (fun x hx => by rw [List.mem_singleton] at hx; subst hx; exact blank_iff.1 hc) (by rw [List.mem_singleton]; exact fun h => hn h.symm) (fuel := fuel) (i := i) (j := j) (a := a) (b := b)
        exact this.trans (ih hi (by omega))
      · cases fuel with
        | zero => omega
        | succ fuel =>
          rw [readBoxes, if_neg Bool.false_ne_true, skipGet_sign (Bool.eq_false_iff.2 hc)]
          dsimp only
          rw [if_neg Bool.false_ne_true, if_pos (.inr hi)]
          exact ih hi (by omega)

theorem stored_entry {i : Nat} {vs : List Nat} {vss : List (List Nat)} {a a' : List (List Nat)} (h : Stored rows cols i 0 vs a a') (hi : i < rows) (h0 : ∀ c, c < cols → get2 a i c = some 0) {c : Nat} (hc : c < cols) :
    get2 a' i c = some (entry (vs :: vss) 0 c) := by
  rw [h.2 i c hi hc]
  unfold entry
  rw [List.getElem?_cons_zero, Option.bind_some]
  by_cases k : c < vs.length
  · rw [if_pos (by omega), Nat.sub_zero, List.getElem?_eq_getElem k]; rfl
  · rw [if_neg (by omega), h0 c hc, List.getElem?_eq_none (by omega)]; rfl

theorem boxes_rows {n : Nat} {t : List Char} {vss : List (List Nat)} (ht : RowsText n t vss) : ∀ {fuel i : Nat} {a : List (List Nat)} {b : List Char}, i + n = rows → Shape rows cols a →
    (∀ r c, i ≤ r → r < rows → c < cols → get2 a r c = some 0) → (∀ r c, r < n → c < cols → entry vss r c ≤ 2147483647) → t.length + 1 ≤ fuel →
    ∃ a', readBoxes rows cols fuel i 0 a (st b t false) = .ok a' ∧ Shape rows cols a' ∧ ∀ r c, r < rows → c < cols → get2 a' r c = if r < i then get2 a r c else some (entry vss (r - i) c) := by
  induction ht with
  | stop =>
    intro fuel i a b hi ha h0 hv hf
    exact ⟨a, boxes_rest (by omega) hf, ha, fun r c hr hc => by rw [if_pos (by omega)]⟩
  | last hn hB =>
    rename_i n l vs
    intro fuel i a b hi ha h0 hv hf
    have hvs : ∀ c, 0 + c < cols → ∀ v, vs[c]? = some v → v ≤ 2147483647 := fun c hc v hv' => by
      have := hv 0 c (by omega) (by omega)
      unfold entry at this
      rw [List.getElem?_cons_zero, Option.bind_some, hv'] at this
      exact this
    obtain ⟨f', b', j', a', e', p1, p2, p3, p4⟩ := boxes_line (rows := rows) (cols := cols) hB (fuel := fuel) (i := i) (j := 0) (a := a) (b := b) (r := []) (e := false) hn (.inl rfl) (by omega) (by omega) ha hvs (fun h => nomatch h) (by simpa using hf)
      (fun r c hr _ hc => h0 r c (by omega) (by omega) hc)
    rw [List.append_nil] at p4
    refine ⟨a', ?_, p3.1, fun r c hr hc => ?_⟩
    · rw [p4]
      cases f' with
      | zero => simp at p1
      | succ f' => exact boxes_end
    · by_cases k : r < i
      · rw [if_pos k, p3.2 r c hr hc, if_neg (by omega)]
      · rw [if_neg k]
        by_cases k' : r = i
        · subst k'
          rw [Nat.sub_self]
          exact stored_entry p3 hr (fun c hc => h0 r c (by omega) hr hc) hc
        · rw [p3.2 r c hr hc, if_neg (by omega), h0 r c (by omega) hr hc]
          unfold entry
          rw [List.getElem?_eq_none (by simp; omega)]; rfl
  | line hn hB hR ih =>
    rename_i n l t vs vss
    intro fuel i a b hi ha h0 hv hf
    have hvs : ∀ c, 0 + c < cols → ∀ v, vs[c]? = some v → v ≤ 2147483647 := fun c hc v hv' => by
      have := hv 0 c (by omega) (by omega)
      unfold entry at this
      rw [List.getElem?_cons_zero, Option.bind_some, hv'] at this
      exact this
    obtain ⟨f', b', j', a', e', p1, p2, p3, p4⟩ := boxes_line (rows := rows) (cols := cols) hB (fuel := fuel) (i := i) (j := 0) (a := a) (b := b) (r := '\n' :: t) (e := false) hn (.inr ⟨t, rfl⟩) (by omega) (by omega) ha hvs (fun h => nomatch h) hf
      (fun r c hr _ hc => h0 r c (by omega) (by omega) hc)
    have ee : e' = false := by
      cases e' with
      | false => rfl
      | true => exact absurd (p2 rfl) (by simp)
    subst ee
    obtain ⟨a2, q1, q2, q3⟩ := ih (fuel := f') (i := i + 1) (a := a') (b := '\n' :: b') (by omega) p3.1 (fun r c hr hr' hc => by rw [p3.2 r c hr' hc, if_neg (by omega)]; exact h0 r c (by omega) hr' hc)
      (fun r c hr hc => by
        have := hv (r + 1) c (by omega) hc
        exact this) (by simp at p1; omega)
    refine ⟨a2, ?_, q2, fun r c hr hc => ?_⟩
    · rw [p4, boxes_newline, ← q1]; rfl
    · rw [q3 r c hr hc]
      by_cases k : r < i
      · rw [if_pos (by omega), if_pos k, p3.2 r c hr hc, if_neg (by omega)]
      · by_cases k' : r = i
        · subst k'
          rw [if_pos (by omega), if_neg (by omega), Nat.sub_self]
          exact stored_entry p3 hr (fun c hc => h0 r c (by omega) hr hc) hc
        · rw [if_neg (by omega), if_neg (by omega), show r - i = (r - (i + 1)) + 1 by omega]
          rfl

theorem zeros_shape (m n : Nat) : Shape m n (List.replicate m (List.replicate n (0 : Nat))) := by
  refine ⟨by simp, fun r hr => ?_⟩
  rw [List.eq_of_mem_replicate hr]; simp

theorem zeros_get {m n r c : Nat} (hr : r < m) (hc : c < n) : get2 (List.replicate m (List.replicate n (0 : Nat))) r c = some 0 := by
  unfold get2
  rw [List.getElem?_replicate, if_pos hr, Option.bind_some, List.getElem?_replicate, if_pos hc]

end boxes

/-- the result of reading -/
theorem readNumbers_ok {text : List Char} {rows cols : Nat} {vss : List (List Nat)} (ht : BoardText text rows cols vss) (hr : 1 ≤ rows) (hc : 1 ≤ cols) (hr' : rows ≤ 2147483647) (hc' : cols ≤ 2147483647)
    (hv : ∀ i j, i < rows → j < cols → entry vss i j ≤ 2147483647) :
    readNumbers text = .ok { Grid.init rows cols with number := matOf rows cols (entry vss) } := by
  have key : ∀ (h z e t : List Char), Head h → Sizes z rows cols → Ends (e ++ t) →
      (∀ fuel b, (e ++ t).length + 1 ≤ fuel → readBoxes rows cols fuel (-1) 0 (List.replicate rows (List.replicate cols 0)) (st b (e ++ t) (e ++ t).isEmpty) = .ok (matOf rows cols (entry vss))) →
      readNumbers (h ++ (z ++ (e ++ t))) = .ok { Grid.init rows cols with number := matOf rows cols (entry vss) } := by
    intro h z e t hh hz hE hB
    obtain ⟨d, z', ez, hd⟩ := sizes_cons hz
    obtain ⟨b1, e1⟩ := readHead_ok hh (fuel := (h ++ (z ++ (e ++ t))).length + 2) (b := []) (r := z' ++ (e ++ t)) hd (by rw [ez]; simp)
    obtain ⟨b2, e2⟩ := readSizes_ok hz hr hc hr' hc' (b := b1) hE
    unfold readNumbers
    have e1' : readHead ((h ++ (z ++ (e ++ t))).length + 2) (ofText (h ++ (z ++ (e ++ t)))) = .ok (st b1 (z ++ (e ++ t)) false) := by
      rw [show z ++ (e ++ t) = d :: (z' ++ (e ++ t)) by rw [ez]; rfl] at e1 ⊢
      exact e1
    rw [e1']
    show (readSizes (st b1 (z ++ (e ++ t)) false)).bind _ = _
    rw [e2]
    show (readBoxes (Grid.init (rows : Int).toNat (cols : Int).toNat).rows (Grid.init (rows : Int).toNat (cols : Int).toNat).cols ((e ++ t).length + 2) (-1) 0 (Grid.init (rows : Int).toNat (cols : Int).toNat).number (st b2 (e ++ t) (e ++ t).isEmpty)).bind _ = _
    rw [Int.toNat_natCast, Int.toNat_natCast]
    have := hB ((e ++ t).length + 2) b2 (by omega)
    show (readBoxes rows cols _ _ _ _ _).bind _ = _
    rw [show (Grid.init rows cols).number = List.replicate rows (List.replicate cols 0) from rfl, this]
    rfl
  have hz := zeros_shape rows cols
  cases ht with
  | bare hh hs hn hE =>
    rename_i h z e
    have := key h z e [] hh hs (by rw [List.append_nil]; exact hE) fun fuel b hf => ?_
    · rw [List.append_nil] at this; exact this
    · have e0 : (List.replicate rows (List.replicate cols 0)) = matOf rows cols (entry []) := hz.ext (matOf_shape _) fun i j hi hj => by rw [zeros_get hi hj, matOf_get _ hi hj]; rfl
      rw [← e0]
      by_cases k : e ++ [] = []
      · rw [k] at hf ⊢
        cases fuel with
        | zero => omega
        | succ fuel => exact boxes_end
      · have : (e ++ []).isEmpty = false := by
          cases e with
          | nil => exact absurd rfl k
          | cons c e => rfl
        rw [this]
        obtain ⟨f', b', h1, h2⟩ := boxes_skip (rows := rows) (cols := cols) (i := -1) (j := 0) (a := List.replicate rows (List.replicate cols 0)) (.inl (by omega)) (l := e) (r := []) (fuel := fuel) (b := b) hn hf
        rw [h2]
        cases f' with
        | zero => simp at h1
        | succ f' => exact boxes_end
  | full hh hs hn hE hR =>
    rename_i h z e t
    refine key h z e ('\n' :: t) hh hs (fun c r' ec => ?_) fun fuel b hf => ?_
    · cases e with
      | nil =>
        injection ec with e1 _
        subst e1
        decide
      | cons c' e =>
        injection ec with e1 _
        exact hE c e (by rw [e1])
    · have : (e ++ '\n' :: t).isEmpty = false := by cases e <;> rfl
      rw [this]
      obtain ⟨f', b', h1, h2⟩ := boxes_skip (rows := rows) (cols := cols) (i := -1) (j := 0) (a := List.replicate rows (List.replicate cols 0)) (.inl (by omega)) (l := e) (r := '\n' :: t) (fuel := fuel) (b := b) hn hf
      obtain ⟨a', q1, q2, q3⟩ := boxes_rows hR (rows := rows) (cols := cols) (fuel := f') (i := 0) (a := List.replicate rows (List.replicate cols 0)) (b := '\n' :: b') (by omega) hz (fun r c _ hr hc => zeros_get hr hc) hv (by simp at h1; omega)
      rw [h2, boxes_newline]
      refine Eq.trans q1 (congrArg _ (q2.ext (matOf_shape _) fun i j hi hj => ?_))
      rw [q3 i j hi hj, if_neg (by omega), matOf_get _ hi hj, Nat.sub_zero]

end TdZdd.Nl
