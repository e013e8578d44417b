import Verif.SetText
import Verif.Props.MyBitSet
import Verif.Props.MySmallSet
import Std.Data.String.ToInt

/-!
# Property C101: hash codes and texts of `MyBitSet` and `MySmallSet`
-/

namespace TdZdd

namespace SetText

/-! ## texts -/

/-- the rest of the text after `{` or an element -/
def rest : Bool → List (List Char) → List Char
  | _, [] => ['}']
  | comma, w :: ws => (if comma then [','] else []) ++ w ++ rest true ws

theorem bPrintLoop_iter (s : BSet) : ∀ (k : Nat) (t : BIt) (comma : Bool),
    bPrintLoop s k t comma = (bIter s k t).map fun l => rest comma (l.map fun n => (toString n).toList) := by
  intro k
  induction k with
  | zero =>
    intro t comma
    unfold bPrintLoop bIter
    split <;> rfl
  | succ k ih =>
    intro t comma
    unfold bPrintLoop bIter
    split
    · rfl
    · dsimp only
      cases bNext s s.numWords t with
      | none => rfl
      | some t' =>
        simp only [Option.bind_some, ih]
        cases bIter s k t' <;> rfl

theorem bPrint_elems (s : BSet) : bPrint s = (bElems s).map fun l => '{' :: rest false (l.map fun n => (toString n).toList) := by
  unfold bPrint bElems
  cases bBegin s with
  | none => rfl
  | some t =>
    simp only [Option.bind_some, bPrintLoop_iter]
    cases bIter s (64 * s.numWords) t <;> rfl

theorem ssPrintLoop_elems (s : SSet) : ∀ (n k : Nat) (comma : Bool),
    ssPrintLoop s n k comma = (ssElems s n k).map fun l => rest comma (l.map fun v => (toString v).toList) := by
  intro n
  induction n with
  | zero => intro k comma; rfl
  | succ n ih =>
    intro k comma
    unfold ssPrintLoop ssElems
    cases aGet s.arr k with
    | none => rfl
    | some v =>
      simp only [Option.bind_some, ih]
      cases ssElems s n (k + 1) <;> rfl

theorem ssPrint_elems (s : SSet) : ssPrint s = (ssElems s s.size 0).map fun l => '{' :: rest false (l.map fun v => (toString v).toList) := by
  unfold ssPrint
  rw [ssPrintLoop_elems]
  cases ssElems s s.size 0 <;> rfl

theorem rest_true : ∀ ws : List (List Char), rest true ws = (ws.flatMap fun w => ',' :: w) ++ ['}']
  | [] => rfl
  | w :: ws => by
    show ([','] ++ w) ++ rest true ws = _
    rw [rest_true ws, List.flatMap_cons, List.append_assoc, List.append_assoc]
    rfl

theorem intercalate_cons (w : List Char) (ws : List (List Char)) : [','].intercalate (w :: ws) = w ++ ws.flatMap fun w => ',' :: w := by
  induction ws generalizing w with
  | nil => simp [List.intercalate]
  | cons v ws ih =>
    have : [','].intercalate (w :: v :: ws) = w ++ [','] ++ [','].intercalate (v :: ws) := by
      simp [List.intercalate, List.intersperse]
    rw [this, ih, List.flatMap_cons]
    simp

theorem rest_false (ws : List (List Char)) : rest false ws = [','].intercalate ws ++ ['}'] := by
  cases ws with
  | nil => rfl
  | cons w ws =>
    show [] ++ w ++ rest true ws = _
    rw [rest_true, intercalate_cons, List.nil_append, List.append_assoc]

theorem cut {c : Char} {a a' b b' : List Char} (h : a ++ c :: b = a' ++ c :: b') (ha : c ∉ a) (ha' : c ∉ a') : a = a' ∧ b = b' := by
  induction a generalizing a' with
  | nil =>
    cases a' with
    | nil => exact ⟨rfl, (List.cons.inj h).2⟩
    | cons x a' => exact absurd (List.mem_cons.2 (.inl (List.cons.inj h).1)) ha'
  | cons y a ih =>
    cases a' with
    | nil => exact absurd (List.mem_cons.2 (.inl (List.cons.inj h).1.symm)) ha
    | cons x a' =>
      obtain ⟨h1, h2⟩ := List.cons.inj h
      obtain ⟨h3, h4⟩ := ih h2 (fun hm => ha (List.mem_cons_of_mem _ hm)) (fun hm => ha' (List.mem_cons_of_mem _ hm))
      exact ⟨by rw [h1, h3], h4⟩

theorem rest_inj {comma : Bool} : ∀ {ws vs : List (List Char)}, (∀ w ∈ ws, ',' ∉ w ∧ '}' ∉ w ∧ w ≠ []) → (∀ w ∈ vs, ',' ∉ w ∧ '}' ∉ w ∧ w ≠ []) →
    rest comma ws = rest comma vs → ws = vs := by
  -- the text of a non-empty list
  have head : ∀ (w : List Char) (ws : List (List Char)), ∃ c r, rest true ws = c :: r ∧ (c = ',' ∨ c = '}') ∧ (c = '}' ↔ ws = []) := by
    intro w ws
    cases ws with
    | nil => exact ⟨'}', [], rfl, .inr rfl, ⟨fun _ => rfl, fun _ => rfl⟩⟩
    | cons v ws => exact ⟨',', v ++ rest true ws, rfl, .inl rfl, ⟨fun h => absurd h (by decide), fun h => nomatch h⟩⟩
  have step : ∀ {w v : List Char} {ws vs : List (List Char)}, (',' ∉ w ∧ '}' ∉ w) → (',' ∉ v ∧ '}' ∉ v) → w ++ rest true ws = v ++ rest true vs →
      w = v ∧ rest true ws = rest true vs := by
    intro w v ws vs hw hv h
    induction w generalizing v with
    | nil =>
      cases v with
      | nil => exact ⟨rfl, h⟩
      | cons x v =>
        obtain ⟨c, r, e, hc, _⟩ := head [] ws
        rw [List.nil_append, e] at h
        have hx := (List.cons.inj h).1
        rcases hc with hc | hc
        · exact absurd (List.mem_cons.2 (.inl (hc.symm.trans hx))) hv.1
        · exact absurd (List.mem_cons.2 (.inl (hc.symm.trans hx))) hv.2
    | cons y w ih =>
      cases v with
      | nil =>
        obtain ⟨c, r, e, hc, _⟩ := head [] vs
        rw [List.nil_append, e] at h
        have hx := (List.cons.inj h).1
        rcases hc with hc | hc
        · exact absurd (List.mem_cons.2 (.inl (hc.symm.trans hx.symm))) hw.1
        · exact absurd (List.mem_cons.2 (.inl (hc.symm.trans hx.symm))) hw.2
      | cons x v =>
        obtain ⟨h1, h2⟩ := List.cons.inj h
        obtain ⟨h3, h4⟩ := ih ⟨fun hm => hw.1 (List.mem_cons_of_mem _ hm), fun hm => hw.2 (List.mem_cons_of_mem _ hm)⟩
          ⟨fun hm => hv.1 (List.mem_cons_of_mem _ hm), fun hm => hv.2 (List.mem_cons_of_mem _ hm)⟩ h2
        exact ⟨by rw [h1, h3], h4⟩
  intro ws
  induction ws generalizing comma with
  | nil =>
    intro vs _ hv h
    cases vs with
    | nil => rfl
    | cons v vs =>
      exfalso
      obtain ⟨h1, h2, h3⟩ := hv v (List.mem_cons_self ..)
      cases comma with
      | true => exact absurd (List.cons.inj h).1 (by decide)
      | false =>
        cases v with
        | nil => exact h3 rfl
        | cons x v => exact h2 (List.mem_cons.2 (.inl (List.cons.inj h).1))
  | cons w ws ih =>
    intro vs hw hv h
    obtain ⟨g1, g2, g3⟩ := hw w (List.mem_cons_self ..)
    cases vs with
    | nil =>
      exfalso
      cases comma with
      | true => exact absurd (List.cons.inj h).1 (by decide)
      | false =>
        cases w with
        | nil => exact g3 rfl
        | cons x w => exact g2 (List.mem_cons.2 (.inl (List.cons.inj h).1.symm))
    | cons v vs =>
      obtain ⟨h1, h2, h3⟩ := hv v (List.mem_cons_self ..)
      have h' : w ++ rest true ws = v ++ rest true vs := by
        cases comma with
        | true => exact (List.cons.inj h).2
        | false => exact h
      obtain ⟨e1, e2⟩ := step ⟨g1, g2⟩ ⟨h1, h2⟩ h'
      rw [e1, ih (fun x hx => hw x (List.mem_cons_of_mem _ hx)) (fun x hx => hv x (List.mem_cons_of_mem _ hx)) e2]

theorem number_plain (x : Int) {c : Char} (h1 : c.isDigit = false) (h2 : c ≠ '-') : c ∉ (toString x).toList := by
  have hnat : ∀ n : Nat, c ∉ (Nat.repr n).toList := by
    intro n h
    rw [Nat.toList_repr] at h
    have := Nat.isDigit_of_mem_toDigits (by decide) (by decide) h
    rw [h1] at this; cases this
  cases x with
  | ofNat n => exact hnat n
  | negSucc n =>
    show c ∉ ("-" ++ Nat.repr (n + 1)).toList
    rw [String.toList_append, List.mem_append]
    rintro (h | h)
    · have : c = '-' := by simpa using h
      exact h2 this
    · exact hnat _ h

theorem number_ne_nil (x : Int) : (toString x).toList ≠ [] := by
  intro h
  cases x with
  | ofNat n =>
    have h' : (Nat.repr n).toList = [] := h
    rw [Nat.toList_repr] at h'
    exact absurd h' (by simp)
  | negSucc n =>
    have h' : ("-" ++ Nat.repr (n + 1)).toList = [] := h
    rw [String.toList_append] at h'
    simp at h'

theorem numbers_ok (l : List Int) : ∀ w ∈ l.map fun v => (toString v).toList, ',' ∉ w ∧ '}' ∉ w ∧ w ≠ [] := by
  intro w hw
  obtain ⟨v, _, rfl⟩ := List.mem_map.1 hw
  exact ⟨number_plain v (by decide) (by decide), number_plain v (by decide) (by decide), number_ne_nil v⟩

theorem map_inj {α β : Type} {f : α → β} (hf : ∀ a b, f a = f b → a = b) : ∀ {l m : List α}, l.map f = m.map f → l = m := by
  intro l
  induction l with
  | nil => intro m h; cases m with
    | nil => rfl
    | cons => cases h
  | cons a l ih =>
    intro m h
    cases m with
    | nil => cases h
    | cons b m =>
      rw [List.map_cons, List.map_cons] at h
      obtain ⟨h1, h2⟩ := List.cons.inj h
      rw [hf _ _ h1, ih h2]

/-! ## hash codes -/

theorem bHashLoop_eq {s o : BSet} : ∀ (n i : Nat) (h : BitVec 64), bEqLoop s o n i = some true → ∃ v, bHashLoop s n i h = some v ∧ bHashLoop o n i h = some v := by
  intro n
  induction n with
  | zero => intro i h _; exact ⟨h, rfl, rfl⟩
  | succ n ih =>
    intro i h e
    unfold bEqLoop at e
    unfold bHashLoop
    rw [Option.bind_eq_some_iff] at e
    obtain ⟨w, e1, e⟩ := e
    rw [Option.bind_eq_some_iff] at e
    obtain ⟨v, e2, e⟩ := e
    split at e
    · cases e
    · rename_i hne
      have hwv : w = v := Classical.byContradiction hne
      subst hwv
      rw [e1, e2]
      exact ih _ _ e

theorem ssHashLoop_eq {s o : SSet} : ∀ (n k : Nat) (h : BitVec 64), ssEqLoop s o n k = some true → ∃ v, ssHashLoop s n k h = some v ∧ ssHashLoop o n k h = some v := by
  intro n
  induction n with
  | zero => intro i h _; exact ⟨h, rfl, rfl⟩
  | succ n ih =>
    intro i h e
    unfold ssEqLoop at e
    unfold ssHashLoop
    rw [Option.bind_eq_some_iff] at e
    obtain ⟨w, e1, e⟩ := e
    rw [Option.bind_eq_some_iff] at e
    obtain ⟨v, e2, e⟩ := e
    split at e
    · cases e
    · rename_i hne
      have hwv : w = v := Classical.byContradiction hne
      subst hwv
      rw [e1, e2]
      exact ih _ _ e

/-- the sum of the words, each multiplied by a power of 314159257 that grows with the number of words from it on -/
def bitSum : List (BitVec 64) → BitVec 64
  | [] => 0
  | w :: ws => w * 314159257#64 ^ (ws.length + 1) + bitSum ws

theorem bHashLoop_sum {s : BSet} : ∀ (n i : Nat) (h : BitVec 64) (ws : List (BitVec 64)), ws.length = n → (∀ j (hj : j < ws.length), bGet s (i + j) = some ws[j]) →
    bHashLoop s n i h = some (h * 314159257#64 ^ n + bitSum ws) := by
  intro n
  induction n with
  | zero =>
    intro i h ws hl _
    rw [List.eq_nil_of_length_eq_zero hl]
    simp [bHashLoop, bitSum]
  | succ n ih =>
    intro i h ws hl hg
    cases ws with
    | nil => cases hl
    | cons w ws =>
      have hl' : ws.length = n := Nat.succ.inj hl
      unfold bHashLoop
      rw [show bGet s i = some w from hg 0 (Nat.zero_lt_succ _), Option.bind_some, ih (i + 1) _ ws hl' fun j hj => ?_]
      · simp only [bitSum, hl', BitVec.pow_succ]
        congr 1
        grind
      · have := hg (j + 1) (by simpa using hj)
        rw [show i + 1 + j = i + (j + 1) by omega, this]
        rfl

/-- the sum of the codes of the elements, each multiplied by a power of 271828171 that grows with the number of elements after it -/
def smallSum : List Int → BitVec 64
  | [] => 0
  | e :: es => BitVec.ofInt 64 e * 314159257#64 * 271828171#64 ^ es.length + smallSum es

theorem ssHashLoop_sum {s : SSet} : ∀ (n i : Nat) (h : BitVec 64) (es : List Int), es.length = n → (∀ j (hj : j < es.length), aGet s.arr (i + j) = some es[j]) →
    ssHashLoop s n i h = some (h * 271828171#64 ^ n + smallSum es) := by
  intro n
  induction n with
  | zero =>
    intro i h ws hl _
    rw [List.eq_nil_of_length_eq_zero hl]
    simp [ssHashLoop, smallSum]
  | succ n ih =>
    intro i h ws hl hg
    cases ws with
    | nil => cases hl
    | cons w ws =>
      have hl' : ws.length = n := Nat.succ.inj hl
      unfold ssHashLoop
      rw [show aGet s.arr i = some w from hg 0 (Nat.zero_lt_succ _), Option.bind_some, ih (i + 1) _ ws hl' fun j hj => ?_]
      · simp only [smallSum, intHash, hl', BitVec.pow_succ]
        congr 1
        grind
      · have := hg (j + 1) (by simpa using hj)
        rw [show i + 1 + j = i + (j + 1) by omega, this]
        rfl

end SetText

open SetText

/-- C101: bit sets that are `==` have the same hash code, which is defined. -/
theorem C101_bit_hash {s o : BSet} (h : bEq s o = some true) : ∃ v, bHash s = some v ∧ bHash o = some v := by
  unfold bEq at h
  split at h
  · cases h
  · rename_i hn
    have hn' : o.numWords = s.numWords := Classical.byContradiction hn
    unfold bHash
    rw [hn']
    exact bHashLoop_eq _ _ _ h

/-- C101: small sets that are `==` have the same hash code, which is defined. -/
theorem C101_small_hash {s o : SSet} (h : ssEq s o = some true) : ∃ v, ssHash s = some v ∧ ssHash o = some v := by
  unfold ssEq at h
  split at h
  · cases h
  · rename_i hn
    have hn' : s.size = o.size := Classical.byContradiction hn
    unfold ssHash
    rw [← hn']
    exact ssHashLoop_eq _ _ _ h

/-- C101: bit sets made by a program in any two ways, with the same number of words and the same elements, have the same hash code and the same text. -/
theorem C101_bit_same (ops : List BsOp) (r : Nat → Option ISet) (rs : List BsRes) (h : isRun (fun _ => none) ops = some (r, rs)) (x y : Nat) (p q : ISet)
    (hx : r x = some p) (hy : r y = some q) (hw : p.words = q.words) (hm : ∀ i, i < 64 * p.words → p.mem i = q.mem i) :
    ∃ st s o v t, bsRun (fun _ => none) ops = some (st, rs) ∧ st x = some s ∧ st y = some o ∧ bHash s = some v ∧ bHash o = some v ∧ bPrint s = some t ∧ bPrint o = some t := by
  obtain ⟨st, e, k⟩ := bsRun_spec (st := fun _ => none) (fun _ => trivial) h
  obtain ⟨s, hs, ok⟩ := k.get hx
  obtain ⟨o, ho, ok'⟩ := k.get hy
  have heq : bEq s o = some true := by
    rw [bEq_spec ok ok', Option.some.injEq, Bool.and_eq_true, decide_eq_true_iff, List.all_eq_true]
    refine ⟨hw, fun i hi => ?_⟩
    rw [hm i (List.mem_range.1 hi)]
    simp
  obtain ⟨v, h1, h2⟩ := C101_bit_hash heq
  refine ⟨st, s, o, v, _, e, hs, ho, h1, h2, by rw [bPrint_elems, bElems_spec ok]; rfl, ?_⟩
  rw [bPrint_elems, bElems_spec ok', ← hw]
  have : (List.range (64 * p.words)).filter q.mem = (List.range (64 * p.words)).filter p.mem :=
    List.filter_congr fun i hi => (hm i (List.mem_range.1 hi)).symm
  rw [this]
  rfl

/-- C101: the text of a bit set made by a program: its elements in ascending order, separated by commas. -/
theorem C101_bit_text (ops : List BsOp) (r : Nat → Option ISet) (rs : List BsRes) (h : isRun (fun _ => none) ops = some (r, rs)) (x : Nat) (q : ISet) (hx : r x = some q) :
    ∃ (st : _) (s : BSet) (l : List Nat), bsRun (fun _ => none) ops = some (st, rs) ∧ st x = some s ∧ l.Pairwise (· < ·) ∧ (∀ i, i ∈ l ↔ i < 64 * q.words ∧ q.mem i = true) ∧
      bPrint s = some (['{'] ++ [','].intercalate (l.map fun n => (toString n).toList) ++ ['}']) := by
  obtain ⟨st, e, k⟩ := bsRun_spec (st := fun _ => none) (fun _ => trivial) h
  obtain ⟨s, hs, ok⟩ := k.get hx
  refine ⟨st, s, (List.range (64 * q.words)).filter q.mem, e, hs, List.Pairwise.filter _ List.pairwise_lt_range, fun i => ?_, ?_⟩
  · rw [List.mem_filter, List.mem_range]
  · rw [bPrint_elems, bElems_spec ok, Option.map_some, rest_false]
    rfl

/-- C101: small sets made by a program in any two ways with the same elements have the same hash code; the text is the elements in ascending order, separated
by commas, and sets with the same text have the same elements. -/
theorem C101_small (ops : List SsOp) (ft : Nat → Option FSet) (rs : List SsRes) (h : fsRun (fun _ => none) ops = some (ft, rs)) (x y : Nat) (f g : FSet)
    (hx : ft x = some f) (hy : ft y = some g) :
    ∃ (st : _) (s o : SSet) (u v : BitVec 64) (t w : List Char) (l : List Int), ssRun (fun _ => none) ops = some (st, rs) ∧ st x = some s ∧ st y = some o ∧ ssHash s = some u ∧ ssHash o = some v ∧ ssPrint s = some t ∧ ssPrint o = some w ∧
      l.Pairwise (· < ·) ∧ (∀ e, e ∈ l ↔ e ∈ f.els) ∧ t = ['{'] ++ [','].intercalate (l.map fun v => (toString v).toList) ++ ['}'] ∧
      ((∀ e, e ∈ f.els ↔ e ∈ g.els) → u = v) ∧ (t = w ↔ ∀ e, e ∈ f.els ↔ e ∈ g.els) := by
  obtain ⟨st, e, k⟩ := ssRun_spec ops (st := fun _ => none) (fun _ => rfl) h
  obtain ⟨s, hs, ok⟩ := k.some hx
  obtain ⟨o, ho, ok'⟩ := k.some hy
  obtain ⟨es, r1, hp⟩ := ok.rep
  obtain ⟨fs, r2, hq⟩ := ok'.rep
  have self : ∀ {s : SSet} {es : List Int}, SsRep s es → ∃ v, ssHash s = some v := by
    intro s es r
    obtain ⟨v, h1, _⟩ := C101_small_hash (s := s) (o := s) (by rw [ssEq_spec r r]; simp)
    exact ⟨v, h1⟩
  obtain ⟨u, hu⟩ := self r1
  obtain ⟨v, hv⟩ := self r2
  have text : ∀ {s : SSet} {es : List Int}, SsRep s es → ssPrint s = some ('{' :: rest false (es.map fun v => (toString v).toList)) := by
    intro s es r
    rw [ssPrint_elems, r.size, ssElems_spec r es.length 0 (by omega)]
    rfl
  have same : (∀ e, e ∈ f.els ↔ e ∈ g.els) ↔ es = fs := by
    constructor
    · intro hfg
      refine List.Perm.eq_of_pairwise (le := fun a b => a < b) (fun a b _ _ h1 h2 => by omega) r1.sorted r2.sorted ?_
      refine (List.perm_ext_iff_of_nodup (sorted_nodup r1.sorted) (sorted_nodup r2.sorted)).2 fun a => ?_
      rw [hp.mem_iff, hq.mem_iff]
      exact hfg a
    · intro he e
      rw [← hp.mem_iff, ← hq.mem_iff, he]
  refine ⟨st, s, o, u, v, _, _, es, e, hs, ho, hu, hv, text r1, text r2, r1.sorted, fun _ => hp.mem_iff, by rw [rest_false]; rfl, ?_, ?_⟩
  · intro hfg
    obtain ⟨w, h1, h2⟩ := C101_small_hash (s := s) (o := o) (by rw [ssEq_spec r1 r2, same.1 hfg]; simp)
    rw [hu] at h1
    rw [hv] at h2
    rw [Option.some.inj h1, Option.some.inj h2]
  · rw [same]
    constructor
    · intro ht
      exact map_inj (fun a b h => Int.repr_injective (String.toList_inj.1 h)) (rest_inj (numbers_ok es) (numbers_ok fs) (List.cons.inj ht).2)
    · intro he; rw [he]

/-- C101: the hash code of a bit set is the sum of its words multiplied by powers of 314159257, modulo `2^64`. -/
theorem C101_bit_value (ops : List BsOp) (r : Nat → Option ISet) (rs : List BsRes) (h : isRun (fun _ => none) ops = some (r, rs)) (x : Nat) (q : ISet) (hx : r x = some q) :
    ∃ (st : _) (s : BSet) (ws : List (BitVec 64)), bsRun (fun _ => none) ops = some (st, rs) ∧ st x = some s ∧ ws.length = q.words ∧
      (∀ i, i < 64 * q.words → (ws[i / 64]?.getD 0).getLsbD (i % 64) = q.mem i) ∧ bHash s = some (bitSum ws) := by
  obtain ⟨st, e, k⟩ := bsRun_spec (st := fun _ => none) (fun _ => trivial) h
  obtain ⟨s, hs, ok⟩ := k.get hx
  obtain ⟨ws, k1, k2, k3⟩ := ok.rep
  refine ⟨st, s, ws, e, hs, k2, fun i hi => (k3 i hi).symm, ?_⟩
  unfold bHash
  rw [k1.num, bHashLoop_sum _ 0 0 ws rfl fun j hj => by rw [k1.get, Nat.zero_add, List.getElem?_eq_getElem hj]]
  simp

/-- C101: the hash code of a small set is the sum of the codes of its elements in ascending order multiplied by powers of 271828171, modulo `2^64`. -/
theorem C101_small_value (ops : List SsOp) (ft : Nat → Option FSet) (rs : List SsRes) (h : fsRun (fun _ => none) ops = some (ft, rs)) (x : Nat) (f : FSet) (hx : ft x = some f) :
    ∃ (st : _) (s : SSet) (l : List Int), ssRun (fun _ => none) ops = some (st, rs) ∧ st x = some s ∧ l.Pairwise (· < ·) ∧ (∀ e, e ∈ l ↔ e ∈ f.els) ∧ ssHash s = some (smallSum l) := by
  obtain ⟨st, e, k⟩ := ssRun_spec ops (st := fun _ => none) (fun _ => rfl) h
  obtain ⟨s, hs, ok⟩ := k.some hx
  obtain ⟨es, r1, hp⟩ := ok.rep
  refine ⟨st, s, es, e, hs, r1.sorted, fun _ => hp.mem_iff, ?_⟩
  unfold ssHash
  rw [r1.size, ssHashLoop_sum _ 0 0 es rfl fun j hj => by rw [Nat.zero_add]; exact r1.get hj]
  simp

/-- C101: bit sets with the same text have the same elements (also if they have different numbers of words). -/
theorem C101_bit_text_inj (ops : List BsOp) (r : Nat → Option ISet) (rs : List BsRes) (h : isRun (fun _ => none) ops = some (r, rs)) (x y : Nat) (p q : ISet)
    (hx : r x = some p) (hy : r y = some q) :
    ∃ st s o t w, bsRun (fun _ => none) ops = some (st, rs) ∧ st x = some s ∧ st y = some o ∧ bPrint s = some t ∧ bPrint o = some w ∧
      (t = w ↔ ∀ i, (i < 64 * p.words ∧ p.mem i = true) ↔ (i < 64 * q.words ∧ q.mem i = true)) := by
  obtain ⟨st, e, k⟩ := bsRun_spec (st := fun _ => none) (fun _ => trivial) h
  obtain ⟨s, hs, ok⟩ := k.get hx
  obtain ⟨o, ho, ok'⟩ := k.get hy
  refine ⟨st, s, o, _, _, e, hs, ho, by rw [bPrint_elems, bElems_spec ok]; rfl, by rw [bPrint_elems, bElems_spec ok']; rfl, ?_⟩
  have key : ∀ l : List Nat, (l.map fun n => (toString n).toList) = (l.map Int.ofNat).map fun v => (toString v).toList := by
    intro l
    rw [List.map_map]
    rfl
  have hP : ∀ p : ISet, ∀ i, i ∈ (List.range (64 * p.words)).filter p.mem ↔ i < 64 * p.words ∧ p.mem i = true := by
    intro p i; rw [List.mem_filter, List.mem_range]
  constructor
  · intro ht i
    have h1 := (List.cons.inj ht).2
    rw [key, key] at h1
    have h2 := map_inj (fun a b h => Int.repr_injective (String.toList_inj.1 h)) (rest_inj (numbers_ok _) (numbers_ok _) h1)
    have h3 : (List.range (64 * p.words)).filter p.mem = (List.range (64 * q.words)).filter q.mem := map_inj (fun a b h => Int.ofNat.inj h) h2
    rw [← hP, ← hP, h3]
  · intro hpq
    have : (List.range (64 * p.words)).filter p.mem = (List.range (64 * q.words)).filter q.mem := by
      refine List.Perm.eq_of_pairwise (le := fun a b => a < b) (fun a b _ _ h1 h2 => by omega) (List.Pairwise.filter _ List.pairwise_lt_range)
        (List.Pairwise.filter _ List.pairwise_lt_range) ?_
      refine (List.perm_ext_iff_of_nodup (List.nodup_range.filter _) (List.nodup_range.filter _)).2 fun a => ?_
      rw [hP, hP]
      exact hpq a
    rw [this]

/-! ## Examples -/

/-- two bit sets with the elements 1, 64 and 100, made in different ways, and a third one -/
def bitTextProg : List BsOp := [.new 0 2 2 99, .add 0 100, .add 0 64, .new 1 2 0 7, .add 1 64, .add 1 5, .add 1 1, .remove 1 5, .add 1 100, .newPool 2 65 3]

example : ((isRun (fun _ => none) bitTextProg).bind fun r => (r.1 0).bind fun p => (r.1 1).map fun q =>
      (p.N, p.words, (List.range 128).filter p.mem) == (q.N, q.words, (List.range 128).filter q.mem)) = some true ∧
    ((bsRun (fun _ => none) bitTextProg).bind fun r => (r.1 0).bind fun s => (r.1 1).bind fun o => (r.1 2).bind fun q =>
      (bPrint s).bind fun t => (bPrint q).map fun u => (t, u, bHash s == bHash o)) = some ("{1,64,100}".toList, "{}".toList, true) := by
  refine ⟨?_, ?_⟩ <;> decide +kernel

/-- two small sets with the elements -3, 7 and 12 -/
def smallTextProg : List SsOp := [.new 0 5, .add 0 12, .add 0 (-3), .add 0 7, .newCopy 1 [7, 12, 7, -3], .newPool 2 1]

example : ((fsRun (fun _ => none) smallTextProg).map fun r => ((r.1 0).map (·.els), (r.1 1).map (·.els))) = some (some [7, -3, 12], some [-3, 12, 7]) ∧
    ((ssRun (fun _ => none) smallTextProg).bind fun r => (r.1 0).bind fun s => (r.1 1).bind fun o => (r.1 2).bind fun q =>
      (ssPrint s).bind fun t => (ssPrint q).map fun u => (t, u, ssHash s == ssHash o)) = some ("{-3,7,12}".toList, "{}".toList, true) := by
  refine ⟨?_, ?_⟩ <;> decide +kernel

/-- different sets have different codes here -/
example : ssHash ⟨5, 2, [some 1, some 2, none, none, none]⟩ ≠ ssHash ⟨5, 2, [some 2, some 1, none, none, none]⟩ := by decide +kernel

end TdZdd
