import Verif.Graphillion
import Verif.GraphillionSpec
import Verif.SemanticsLemmas

/-! Proofs about the reader of `GraphillionZdd` -/

namespace TdZdd

namespace IStr

/-- a stream before the text `t` -/
abbrev at' (b t : List Char) : IStr := ⟨b, t, false, false⟩

theorem spaces_app {s t : List Char} : ∀ {b : List Char}, (∀ c ∈ s, space c = true) → spaces b (s ++ t) = spaces (s.reverse ++ b) t := by
  induction s with
  | nil => intro b _; rfl
  | cons c s ih =>
    intro b h
    rw [List.cons_append, spaces, if_pos (h c (List.mem_cons_self ..)), ih fun x hx => h x (List.mem_cons_of_mem _ hx)]
    simp

theorem spaces_stop {b r : List Char} {c : Char} (h : space c = false) : spaces b (c :: r) = (b, c :: r) := by
  rw [spaces, if_neg (by rw [h]; exact Bool.false_ne_true)]

theorem getSkip_at {b s r : List Char} {c : Char} (hs : ∀ c ∈ s, space c = true) (hc : space c = false) : getSkip (at' b (s ++ c :: r)) = (some c, at' (c :: (s.reverse ++ b)) r) := by
  unfold getSkip
  rw [spaces_app hs, spaces_stop hc]
  rfl

theorem getSkip_end {b s : List Char} (hs : ∀ c ∈ s, space c = true) : getSkip (at' b s) = (none, ⟨s.reverse ++ b, [], true, true⟩) := by
  unfold getSkip
  have := spaces_app (b := b) (t := []) hs
  rw [List.append_nil] at this
  rw [this]
  rfl

theorem digit_space {c : Char} (h : digit c = true) : space c = false := by
  unfold digit at h
  unfold space
  rw [Bool.and_eq_true, decide_eq_true_eq, decide_eq_true_eq] at h
  have h1 : c ≠ ' ' := by
    rintro rfl
    have : (' ' : Char).toNat = 32 := rfl
    omega
  have h2 : decide (c.toNat ≤ 13) = false := by rw [decide_eq_false_iff_not]; omega
  rw [h2, decide_eq_false h1]
  simp

theorem takeWhile_app {ds r : List Char} (hd : ∀ c ∈ ds, digit c = true) (hr : ∀ c r', r = c :: r' → digit c = false) : (ds ++ r).takeWhile digit = ds ∧ (ds ++ r).dropWhile digit = r := by
  induction ds with
  | nil =>
    cases r with
    | nil => exact ⟨rfl, rfl⟩
    | cons c r => simp [hr c r rfl]
  | cons d ds ih =>
    obtain ⟨h1, h2⟩ := ih fun c hc => hd c (List.mem_cons_of_mem _ hc)
    simp [hd d (List.mem_cons_self ..), h1, h2]

theorem num_pos_gen {lo hi : Int} {b s ds r : List Char} (hs : ∀ c ∈ s, space c = true) (hne : ds ≠ []) (hd : ∀ c ∈ ds, digit c = true) (hr : ∀ c r', r = c :: r' → digit c = false)
    (h1 : lo ≤ digitsVal ds) (h2 : (digitsVal ds : Int) ≤ hi) : ∃ b', num lo hi (at' b (s ++ (ds ++ r))) = (some (digitsVal ds : Int), ⟨b', r, r.isEmpty, false⟩) := by
  cases ds with
  | nil => exact absurd rfl hne
  | cons d ds =>
    have hdd := hd d (List.mem_cons_self ..)
    have hm : d ≠ '-' ∧ d ≠ '+' := ⟨fun h => by subst h; exact absurd hdd (by decide), fun h => by subst h; exact absurd hdd (by decide)⟩
    have hsig : (decide (d = '-') || decide (d = '+')) = false := by rw [decide_eq_false hm.1, decide_eq_false hm.2]; rfl
    obtain ⟨ht, hw⟩ := takeWhile_app hd hr
    have ht' : List.takeWhile digit (d :: (ds ++ r)) = d :: ds := ht
    have hw' : List.dropWhile digit (d :: (ds ++ r)) = r := hw
    unfold num
    rw [spaces_app hs, List.cons_append, spaces_stop (digit_space hdd)]
    refine ⟨(d :: ds).reverse ++ (s.reverse ++ b), ?_⟩
    dsimp only
    rw [hsig]
    simp only [Bool.or_self, Bool.false_eq_true, if_false]
    rw [ht', hw', if_neg hm.1, if_neg (List.cons_ne_nil d ds), if_neg (by omega), if_neg (by omega), decide_eq_false (show ¬ (digitsVal (d :: ds) : Int) < lo by omega), decide_eq_false (show ¬ hi < (digitsVal (d :: ds) : Int) by omega)]
    rfl

theorem num_neg_gen {lo hi : Int} {b s ds r : List Char} (hs : ∀ c ∈ s, space c = true) (hne : ds ≠ []) (hd : ∀ c ∈ ds, digit c = true) (hr : ∀ c r', r = c :: r' → digit c = false)
    (h1 : lo ≤ -(digitsVal ds : Int)) (h2 : -(digitsVal ds : Int) ≤ hi) : ∃ b', num lo hi (at' b (s ++ ('-' :: (ds ++ r)))) = (some (-(digitsVal ds : Int)), ⟨b', r, r.isEmpty, false⟩) := by
  obtain ⟨ht, hw⟩ := takeWhile_app hd hr
  unfold num
  rw [spaces_app hs, spaces_stop (by decide)]
  refine ⟨ds.reverse ++ '-' :: (s.reverse ++ b), ?_⟩
  dsimp only
  have hsig : (decide (('-' : Char) = '-') || decide (('-' : Char) = '+')) = true := by decide
  rw [hsig]
  simp only [Bool.or_self, Bool.false_eq_true, if_false, if_true]
  rw [ht, hw, if_neg hne, if_neg (by omega), if_neg (by omega), decide_eq_false (show ¬ -(digitsVal ds : Int) < lo by omega), decide_eq_false (show ¬ hi < -(digitsVal ds : Int) by omega)]
  cases ds with
  | nil => exact absurd rfl hne
  | cons d ds => rfl

theorem num_pos {lo hi : Int} {b s ds r : List Char} (hs : ∀ c ∈ s, space c = true) (hne : ds ≠ []) (hd : ∀ c ∈ ds, digit c = true) (hr : ∀ c r', r = c :: r' → digit c = false) (hr0 : r ≠ [])
    (h1 : lo ≤ digitsVal ds) (h2 : (digitsVal ds : Int) ≤ hi) : ∃ b', num lo hi (at' b (s ++ (ds ++ r))) = (some (digitsVal ds : Int), at' b' r) := by
  obtain ⟨b', e⟩ := num_pos_gen (b := b) hs hne hd hr h1 h2
  cases r with
  | nil => exact absurd rfl hr0
  | cons c r => exact ⟨b', e⟩

theorem num_neg {lo hi : Int} {b s ds r : List Char} (hs : ∀ c ∈ s, space c = true) (hne : ds ≠ []) (hd : ∀ c ∈ ds, digit c = true) (hr : ∀ c r', r = c :: r' → digit c = false) (hr0 : r ≠ [])
    (h1 : lo ≤ -(digitsVal ds : Int)) (h2 : -(digitsVal ds : Int) ≤ hi) : ∃ b', num lo hi (at' b (s ++ ('-' :: (ds ++ r)))) = (some (-(digitsVal ds : Int)), at' b' r) := by
  obtain ⟨b', e⟩ := num_neg_gen (b := b) hs hne hd hr h1 h2
  cases r with
  | nil => exact absurd rfl hr0
  | cons c r => exact ⟨b', e⟩

end IStr

namespace Gz

open IStr

theorem blank_iff {c : Char} : space c = true ↔ c ∈ [' ', '\t', '\n', '\x0b', '\x0c', '\r'] := by
  unfold space
  rw [Bool.or_eq_true, Bool.and_eq_true, decide_eq_true_eq, decide_eq_true_eq, decide_eq_true_eq]
  constructor
  · rintro (rfl | ⟨h1, h2⟩)
    · decide
    · have : c = Char.ofNat c.toNat := by simp
      have hc : c.toNat = 9 ∨ c.toNat = 10 ∨ c.toNat = 11 ∨ c.toNat = 12 ∨ c.toNat = 13 := by omega
      rcases hc with h | h | h | h | h <;> rw [this, h] <;> decide
  · intro h
    simp only [List.mem_cons, List.not_mem_nil, or_false] at h
    rcases h with rfl | rfl | rfl | rfl | rfl | rfl <;> decide

theorem Blank.sp {s : List Char} (h : Blank s) : ∀ c ∈ s, space c = true := fun c hc => blank_iff.2 (h c hc)

theorem digit_iff {c : Char} : digit c = true ↔ '0' ≤ c ∧ c ≤ '9' := by
  unfold digit
  rw [Bool.and_eq_true, decide_eq_true_eq, decide_eq_true_eq]
  exact Iff.rfl

theorem Numeral.spec {ds : List Char} {v : Nat} (h : Numeral ds v) : ds ≠ [] ∧ (∀ c ∈ ds, digit c = true) ∧ digitsVal ds = v := by
  induction h with
  | single h1 h2 => exact ⟨by simp, fun x hx => by rw [List.mem_singleton] at hx; subst hx; exact digit_iff.2 ⟨h1, h2⟩, by simp [digitsVal]⟩
  | snoc _ h1 h2 ih =>
    refine ⟨by simp, fun x hx => ?_, ?_⟩
    · rcases List.mem_append.1 hx with hx | hx
      · exact ih.2.1 x hx
      · rw [List.mem_singleton] at hx; subst hx; exact digit_iff.2 ⟨h1, h2⟩
    · have := ih.2.2
      unfold digitsVal at this ⊢
      rw [List.foldl_append, this]
      rfl

/-- the number of a node or terminal in the table -/
def code : Ref → Nat
  | .bot => 0
  | .top => 1
  | .node i => i + 2

/-- the arguments of `addNode` -/
def enc (x : Line) : GzNode := ⟨x.index, code x.lo, code x.hi⟩

/-- the first character after a token -/
def Stops (r : List Char) : Prop := r ≠ [] ∧ ∀ c r', r = c :: r' → space c = true

theorem Stops.nd {r : List Char} (h : Stops r) : ∀ c r', r = c :: r' → digit c = false := by
  intro c r' e
  cases hd : digit c with
  | false => rfl
  | true => have := h.2 c r' e; rw [digit_space hd] at this; exact absurd this (by decide)

theorem stops_blank {s t : List Char} (h : Blank s) (hne : s ≠ []) : Stops (s ++ t) := by
  cases s with
  | nil => exact absurd rfl hne
  | cons c s =>
    refine ⟨by simp, fun d r' e => ?_⟩
    rw [List.cons_append] at e
    injection e with e1 e2
    subst e1
    exact h.sp c (List.mem_cons_self ..)

theorem readId_num {b s ds r : List Char} {v : Nat} (hs : Blank s) (hn : Numeral ds v) (hv : v + 2 < 2 ^ 64) (hr : Stops r) : ∃ b', gzReadId (at' b (s ++ (ds ++ r))) = (some (v + 2), at' b' r) := by
  obtain ⟨h1, h2, h3⟩ := hn.spec
  cases ds with
  | nil => exact absurd rfl h1
  | cons d ds =>
    unfold gzReadId
    have hd := h2 d (List.mem_cons_self ..)
    have e : getSkip (at' b (s ++ (d :: ds ++ r))) = (some d, at' (d :: (s.reverse ++ b)) (ds ++ r)) := getSkip_at hs.sp (digit_space hd)
    rw [e]
    dsimp only
    rw [if_pos hd]
    have e2 : unget (at' (d :: (s.reverse ++ b)) (ds ++ r)) = at' (s.reverse ++ b) ([] ++ ((d :: ds) ++ r)) := rfl
    rw [e2]
    obtain ⟨b', e3⟩ := num_pos (lo := 0) (hi := 2 ^ 64 - 1) (b := s.reverse ++ b) (s := []) (ds := d :: ds) (r := r) (by simp) h1 h2 hr.nd hr.1 (by omega) (by rw [h3]; omega)
    rw [e3]
    dsimp only
    rw [h3, Int.toNat_natCast, Nat.mod_eq_of_lt hv]
    exact ⟨b', rfl⟩

theorem readId_ref {b s l r : List Char} {x : Ref} (hs : Blank s) (hx : RefText l x) (hv : code x < 2 ^ 64) (hr : Stops r) : ∃ b', gzReadId (at' b (s ++ (l ++ r))) = (some (code x), at' b' r) := by
  cases hx with
  | node hn => exact readId_num hs hn hv hr
  | bot =>
    unfold gzReadId
    have e : getSkip (at' b (s ++ (['B'] ++ r))) = (some 'B', at' ('B' :: (s.reverse ++ b)) r) := getSkip_at hs.sp (by decide)
    rw [e]
    exact ⟨_, rfl⟩
  | top =>
    unfold gzReadId
    have e : getSkip (at' b (s ++ (['T'] ++ r))) = (some 'T', at' ('T' :: (s.reverse ++ b)) r) := getSkip_at hs.sp (by decide)
    rw [e]
    exact ⟨_, rfl⟩

theorem num_index {b s x r : List Char} {v : Int} (hs : Blank s) (hx : Integer x v) (h1 : -2147483648 ≤ v) (h2 : v ≤ 2147483647) (hr : Stops r) :
    ∃ b', num (-2147483648) 2147483647 (at' b (s ++ (x ++ r))) = (some v, at' b' r) := by
  cases hx with
  | pos hn =>
    obtain ⟨g1, g2, g3⟩ := hn.spec
    rw [← g3]
    exact num_pos hs.sp g1 g2 hr.nd hr.1 (by omega) (by rw [g3]; exact h2)
  | neg hn =>
    obtain ⟨g1, g2, g3⟩ := hn.spec
    rw [← g3]
    exact num_neg hs.sp g1 g2 hr.nd hr.1 (by rw [g3]; exact h1) (by omega)

theorem line_at {r t : List Char} : ∀ {b : List Char}, '\n' ∉ r → ∃ b', gzLine b (r ++ '\n' :: t) = (b', some t) := by
  induction r with
  | nil => intro b _; exact ⟨'\n' :: b, by simp [gzLine]⟩
  | cons c r ih =>
    intro b h
    rw [List.mem_cons, not_or] at h
    obtain ⟨b', e⟩ := ih (b := c :: b) h.2
    refine ⟨b', ?_⟩
    rw [List.cons_append, gzLine, if_neg (fun h' => h.1 h'.symm), e]

theorem skipLine_at {b r t : List Char} (h : '\n' ∉ r) : ∃ b', gzSkipLine (at' b (r ++ '\n' :: t)) = at' b' t := by
  obtain ⟨b', e⟩ := line_at (t := t) (b := b) h
  unfold gzSkipLine
  dsimp only
  rw [e]
  exact ⟨b', rfl⟩

/-- the numbers of a line fit into their types -/
structure Fits (x : Line) : Prop where
  id : x.id + 2 < 2 ^ 64
  index1 : -2147483648 ≤ x.index
  index2 : x.index ≤ 2147483647
  lo : code x.lo < 2 ^ 64
  hi : code x.hi < 2 ^ 64

theorem skipSpace_at {b s r : List Char} {c : Char} (hs : Blank s) (hc : space c = false) : gzSkipSpace (at' b (s ++ c :: r)) = (some c, at' (s.reverse ++ b) (c :: r)) := by
  unfold gzSkipSpace
  rw [getSkip_at hs.sp hc]
  rfl

theorem step_line {g : Gz} {b s i s1 x s2 l s3 h r t : List Char} {y : Line} (hs : Blank s) (hi : Numeral i y.id) (hs1 : Blank s1) (hs1' : s1 ≠ []) (hx : Integer x y.index) (hs2 : Blank s2) (hs2' : s2 ≠ [])
    (hl : RefText l y.lo) (hs3 : Blank s3) (hs3' : s3 ≠ []) (hh : RefText h y.hi) (hr : '\n' ∉ r) (hr' : ∀ c r', r = c :: r' → Blank [c]) (hf : Fits y) :
    ∃ b', gzStep g (at' b (s ++ (i ++ (s1 ++ (x ++ (s2 ++ (l ++ (s3 ++ (h ++ (r ++ '\n' :: t)))))))))) = (gzAdd g (y.id + 2) (enc y)).bind fun g => .ok (g, at' b' t) := by
  obtain ⟨g1, g2, g3⟩ := hi.spec
  obtain ⟨d, ds, rfl⟩ : ∃ d ds, i = d :: ds := by
    cases i with
    | nil => exact absurd rfl g1
    | cons d ds => exact ⟨d, ds, rfl⟩
  have hd := g2 d (List.mem_cons_self ..)
  have hst : Stops (r ++ '\n' :: t) := by
    cases r with
    | nil => exact ⟨by simp, fun c r' e => by rw [List.nil_append] at e; injection e with e1 e2; subst e1; decide⟩
    | cons c r =>
      refine ⟨by simp, fun c' r' e => ?_⟩
      rw [List.cons_append] at e
      injection e with e1 e2
      subst e1
      exact (hr' c r rfl).sp c (List.mem_cons_self ..)
  unfold gzStep
  rw [List.cons_append, skipSpace_at hs (digit_space hd)]
  dsimp only [Option.map, Option.getD]
  rw [if_pos hd]
  obtain ⟨b1, e1⟩ := readId_num (b := s.reverse ++ b) (s := []) (by intro c hc; cases hc) hi hf.id (stops_blank (t := x ++ (s2 ++ (l ++ (s3 ++ (h ++ (r ++ '\n' :: t)))))) hs1 hs1')
  rw [List.nil_append, List.cons_append] at e1
  rw [e1]
  dsimp only
  obtain ⟨b2, e2⟩ := num_index (b := b1) hs1 hx hf.index1 hf.index2 (stops_blank (t := l ++ (s3 ++ (h ++ (r ++ '\n' :: t)))) hs2 hs2')
  rw [e2]
  dsimp only
  obtain ⟨b3, e3⟩ := readId_ref (b := b2) hs2 hl hf.lo (stops_blank (t := h ++ (r ++ '\n' :: t)) hs3 hs3')
  rw [e3]
  dsimp only
  obtain ⟨b4, e4⟩ := readId_ref (b := b3) hs3 hh hf.hi hst
  rw [e4]
  dsimp only
  obtain ⟨b5, e5⟩ := skipLine_at (b := b4) (t := t) hr
  exact ⟨b5, by rw [e5]; rfl⟩

theorem step_other {g : Gz} {b s r t : List Char} {c : Char} (hs : Blank s) (hb : ¬ Blank [c]) (hd : ¬ ('0' ≤ c ∧ c ≤ '9')) (hr : '\n' ∉ r) :
    ∃ b', gzStep g (at' b (s ++ c :: (r ++ '\n' :: t))) = .ok (g, at' b' t) := by
  have hsp : space c = false := by
    cases h : space c with
    | false => rfl
    | true => exact absurd (fun x hx => by rw [List.mem_singleton] at hx; subst hx; exact blank_iff.1 h) hb
  have hdg : digit c = false := by
    cases h : digit c with
    | false => rfl
    | true => exact absurd (digit_iff.1 h) hd
  have hn : c ≠ '\n' := by rintro rfl; exact absurd hsp (by decide)
  unfold gzStep
  rw [skipSpace_at hs hsp]
  dsimp only [Option.map, Option.getD]
  rw [if_neg (by rw [hdg]; decide)]
  obtain ⟨b', e⟩ := skipLine_at (b := s.reverse ++ b) (r := c :: r) (t := t) (by rw [List.mem_cons, not_or]; exact ⟨fun h => hn h.symm, hr⟩)
  rw [List.cons_append] at e
  exact ⟨b', by rw [e]⟩

theorem step_done {g : Gz} {b s : List Char} (hs : Blank s) : ∃ b', gzStep g (at' b s) = .ok (g, ⟨b', [], false, true⟩) := by
  unfold gzStep gzSkipSpace
  rw [getSkip_end hs.sp]
  exact ⟨_, rfl⟩

/-- `addNode` for each of the nodes -/
def addAll : Gz → List Line → Res Gz
  | g, [] => .ok g
  | g, x :: xs => (gzAdd g (x.id + 2) (enc x)).bind fun g => addAll g xs

theorem read_dump {t : List Char} {ns : List Line} (h : Dump t ns) : ∀ {fuel : Nat} {g : Gz} {b : List Char}, (∀ x ∈ ns, Fits x) → t.length + 2 ≤ fuel → gzRead fuel g (at' b t) = addAll g ns := by
  induction h with
  | done hs =>
    intro fuel g b _ hf
    match fuel, hf with
    | fuel + 2, _ =>
      unfold gzRead
      obtain ⟨b', e⟩ := step_done (g := g) (b := b) hs
      rw [if_neg Bool.false_ne_true, e]
      unfold Res.bind
      dsimp only
      unfold gzRead
      rfl
  | other hs hb hd hr _ ih =>
    intro fuel g b hfit hf
    cases fuel with
    | zero => omega
    | succ fuel =>
      rw [gzRead, if_neg Bool.false_ne_true]
      obtain ⟨b', e⟩ := step_other (g := g) (b := b) hs hb hd hr
      rw [e]
      exact ih hfit (by simp only [List.length_append, List.length_cons] at hf; omega)
  | line hs hi hs1 hs1' hx hs2 hs2' hl hs3 hs3' hh hr hr' _ ih =>
    intro fuel g b hfit hf
    cases fuel with
    | zero => omega
    | succ fuel =>
      rw [gzRead, if_neg Bool.false_ne_true]
      obtain ⟨b', e⟩ := step_line (g := g) (b := b) hs hi hs1 hs1' hx hs2 hs2' hl hs3 hs3' hh hr hr' (hfit _ (List.mem_cons_self ..))
      rw [e, addAll]
      cases gzAdd g _ _ with
      | thrown => rfl
      | ub => rfl
      | ok g' =>
        refine ih (fun x hx => hfit x (List.mem_cons_of_mem _ hx)) ?_
        simp only [List.length_append, List.length_cons] at hf
        omega

theorem parse_dump {t : List Char} {ns : List Line} (h : Dump t ns) (hfit : ∀ x ∈ ns, Fits x) : gzParse t = addAll gzNew ns :=
  read_dump h hfit (Nat.le_refl _)

end Gz

end TdZdd
