import Verif.NumlinFill
import Verif.NumlinPictureProofs
import Verif.ReduceCanon

/-! The recursion of `fillNumbersFrom` on an abstract graph whose boxes have at most two neighbours. -/

namespace TdZdd.Nl.Fill

abbrev Cells := Nat × Nat → Int

def put1 (f : Cells) (x : Nat × Nat) (v : Int) : Cells := fun y => if y = x then v else f y

theorem put1_self {f : Cells} {x : Nat × Nat} {v : Int} : put1 f x v x = v := if_pos rfl

theorem put1_ne {f : Cells} {x y : Nat × Nat} {v : Int} (h : y ≠ x) : put1 f x v y = f y := if_neg h

theorem put1_put1 {f : Cells} {x : Nat × Nat} {v w : Int} : put1 (put1 f x v) x w = put1 f x w := by
  funext y
  unfold put1
  split <;> rfl

theorem put1_id {f : Cells} {x : Nat × Nat} {v : Int} (h : f x = v) : put1 f x v = f := by
  funext y
  unfold put1
  split
  · rename_i e; rw [e, h]
  · rfl

/-- the calls for the neighbours in order -/
def tryAll (call : Nat × Nat → Cells → Option (Int × Cells)) (x : Nat × Nat) : List (Nat × Nat) → Cells → Option (Int × Cells)
  | [], f => some (0, put1 f x 0)
  | y :: ys, f => (call y f).bind fun r => if 0 < r.1 then some (r.1, put1 r.2 x r.1) else tryAll call x ys (put1 r.2 x r.1)

/-- `fillNumbersFrom` on a graph -/
def walk (nbr : Nat × Nat → List (Nat × Nat)) : Nat → Nat × Nat → Cells → Option (Int × Cells)
  | 0, _, _ => none
  | fuel + 1, x, f => if f x < 0 then some (0, f) else if 0 < f x then some (f x, f) else tryAll (walk nbr fuel) x (nbr x) (put1 f x (-1))

/-- the call returns -/
def Stops (nbr : Nat × Nat → List (Nat × Nat)) (x : Nat × Nat) (f : Cells) (r : Int × Cells) : Prop := ∃ N, ∀ fuel, N ≤ fuel → walk nbr fuel x f = some r

variable {nbr : Nat × Nat → List (Nat × Nat)} {f : Cells}

theorem stops_neg {x : Nat × Nat} (h : f x < 0) : Stops nbr x f (0, f) := by
  refine ⟨1, fun fuel hf => ?_⟩
  obtain ⟨n, rfl⟩ : ∃ n, fuel = n + 1 := ⟨fuel - 1, by omega⟩
  rw [walk, if_pos h]

theorem stops_pos {x : Nat × Nat} (h : 0 < f x) : Stops nbr x f (f x, f) := by
  refine ⟨1, fun fuel hf => ?_⟩
  obtain ⟨n, rfl⟩ : ∃ n, fuel = n + 1 := ⟨fuel - 1, by omega⟩
  rw [walk, if_neg (by omega), if_pos h]

theorem stops_nil {x : Nat × Nat} (h : f x = 0) (hn : nbr x = []) : Stops nbr x f (0, f) := by
  refine ⟨1, fun fuel hf => ?_⟩
  obtain ⟨n, rfl⟩ : ∃ n, fuel = n + 1 := ⟨fuel - 1, by omega⟩
  rw [walk, if_neg (by omega), if_neg (by omega), hn, tryAll, put1_put1, put1_id h]

/-- the first neighbour answers with a number -/
theorem stops_first {x y : Nat × Nat} {ys : List (Nat × Nat)} {v : Int} {f' : Cells} (h : f x = 0) (hn : nbr x = y :: ys) (hv : 0 < v) (hy : Stops nbr y (put1 f x (-1)) (v, f')) : Stops nbr x f (v, put1 f' x v) := by
  obtain ⟨N, hN⟩ := hy
  refine ⟨N + 1, fun fuel hf => ?_⟩
  obtain ⟨n, rfl⟩ : ∃ n, fuel = n + 1 := ⟨fuel - 1, by omega⟩
  rw [walk, if_neg (by omega), if_neg (by omega), hn, tryAll, hN n (by omega), Option.bind_some, if_pos hv]

/-- the first neighbour answers with 0, the second one with a number -/
theorem stops_second {x y z : Nat × Nat} {v : Int} {f' : Cells} (h : f x = 0) (hn : nbr x = [y, z]) (hv : 0 < v) (hy : Stops nbr y (put1 f x (-1)) (0, put1 f x (-1))) (hz : Stops nbr z f (v, f')) : Stops nbr x f (v, put1 f' x v) := by
  obtain ⟨N, hN⟩ := hy
  obtain ⟨M, hM⟩ := hz
  refine ⟨N + M + 1, fun fuel hf => ?_⟩
  obtain ⟨n, rfl⟩ : ∃ n, fuel = n + 1 := ⟨fuel - 1, by omega⟩
  rw [walk, if_neg (by omega), if_neg (by omega), hn, tryAll, hN n (by omega), Option.bind_some, if_neg (Int.lt_irrefl 0), put1_put1, put1_id h, tryAll, hM n (by omega), Option.bind_some, if_pos hv]

/-- both answer with 0 -/
theorem stops_none {x y z : Nat × Nat} (h : f x = 0) (hn : nbr x = [y, z]) (hy : Stops nbr y (put1 f x (-1)) (0, put1 f x (-1))) (hz : Stops nbr z f (0, f)) : Stops nbr x f (0, f) := by
  obtain ⟨N, hN⟩ := hy
  obtain ⟨M, hM⟩ := hz
  refine ⟨N + M + 1, fun fuel hf => ?_⟩
  obtain ⟨n, rfl⟩ : ∃ n, fuel = n + 1 := ⟨fuel - 1, by omega⟩
  rw [walk, if_neg (by omega), if_neg (by omega), hn, tryAll, hN n (by omega), Option.bind_some, if_neg (Int.lt_irrefl 0), put1_put1, put1_id h, tryAll, hM n (by omega), Option.bind_some, if_neg (Int.lt_irrefl 0), put1_id h, tryAll, put1_id h]

/-- The boxes of the stack, latest first, up to the next one that is `-1`: the others are 0 and wait for their second neighbour. -/
def BackOk (nbr : Nat × Nat → List (Nat × Nat)) (f : Cells) : Nat × Nat → List (Nat × Nat) → Prop
  | _, [] => False
  | _, [b] => f b < 0
  | nxt, y :: p :: l => f y = 0 ∧ nbr y = [p, nxt] ∧ BackOk nbr f y (p :: l)

theorem BackOk.congr {f' : Cells} : ∀ {l : List (Nat × Nat)} {nxt : Nat × Nat}, (∀ y ∈ l, f' y = f y) → BackOk nbr f nxt l → BackOk nbr f' nxt l
  | [], _, _, h => h
  | [b], _, he, h => by
    show f' b < 0
    rw [he b List.mem_cons_self]; exact h
  | y :: p :: l, _, he, h => ⟨by rw [he y List.mem_cons_self]; exact h.1, h.2.1, BackOk.congr (fun z hz => he z (List.mem_cons_of_mem _ hz)) h.2.2⟩

/-- a call back into the stack answers with 0 and changes nothing -/
theorem back : ∀ {l : List (Nat × Nat)} {f : Cells} {nxt y : Nat × Nat}, BackOk nbr f nxt (y :: l) → (nxt :: y :: l).Nodup → f nxt < 0 → Stops nbr y f (0, f)
  | [], f, nxt, y, h, _, _ => stops_neg h
  | p :: l, f, nxt, y, h, hn, hx => by
    have hy : y ∉ p :: l := (List.nodup_cons.1 (List.nodup_cons.1 hn).2).1
    refine stops_none h.1 h.2.1 (back (l := l) (nxt := y) (h.2.2.congr fun z hz => put1_ne fun e => hy (e ▸ hz)) (List.nodup_cons.1 hn).2 (by rw [put1_self]; decide)) (stops_neg hx)

/-- the boxes in front, up to the first one with a number -/
def Fwd (nbr : Nat × Nat → List (Nat × Nat)) (f : Cells) : Nat × Nat → List (Nat × Nat) → Prop
  | _, [] => False
  | _, [z] => 0 < f z
  | prev, z :: w :: zs => f z = 0 ∧ (nbr z = [prev, w] ∨ nbr z = [w, prev]) ∧ Fwd nbr f z (w :: zs)

theorem Fwd.congr {f' : Cells} : ∀ {l : List (Nat × Nat)} {prev : Nat × Nat}, (∀ y ∈ l, f' y = f y) → Fwd nbr f prev l → Fwd nbr f' prev l
  | [], _, _, h => h
  | [b], _, he, h => by
    show 0 < f' b
    rw [he b List.mem_cons_self]; exact h
  | y :: p :: l, _, he, h => ⟨by rw [he y List.mem_cons_self]; exact h.1, h.2.1, Fwd.congr (fun z hz => he z (List.mem_cons_of_mem _ hz)) h.2.2⟩

def updAll (f : Cells) (l : List (Nat × Nat)) (v : Int) : Cells := fun y => if y ∈ l then v else f y

theorem put1_put1All {f f' : Cells} {x : Nat × Nat} {l : List (Nat × Nat)} {v : Int} (h : ∀ y, y ≠ x → f' y = f y) : put1 (updAll f' l v) x v = updAll f (x :: l) v := by
  funext y
  unfold put1 updAll
  by_cases e : y = x
  · rw [if_pos e, if_pos (by rw [e]; exact List.mem_cons_self)]
  · rw [if_neg e]
    by_cases m : y ∈ l
    · rw [if_pos m, if_pos (List.mem_cons_of_mem _ m)]
    · rw [if_neg m, if_neg (fun h => (List.mem_cons.1 h).elim e m), h y e]

/-- a call in front answers with the number there -/
theorem forward : ∀ {zs : List (Nat × Nat)} {f : Cells} {prev z : Nat × Nat} {l : List (Nat × Nat)} {v : Int}, Fwd nbr f prev (z :: zs) → BackOk nbr f z (prev :: l) → (prev :: l).Nodup → (z :: zs).Nodup → (∀ y ∈ prev :: l, y ∉ z :: zs) →
    (∀ y ∈ z :: zs, 0 < f y → f y = v) → Stops nbr z f (v, updAll f (z :: zs) v)
  | [], f, prev, z, l, v, h, _, _, _, _, hv => by
    have e : f z = v := hv z List.mem_cons_self h
    have : updAll f [z] v = f := by
      funext y
      unfold updAll
      split
      · rename_i m
        rw [List.mem_singleton.1 m]; exact e.symm
      · rfl
    rw [this, ← e]
    exact stops_pos h
  | w :: zs, f, prev, z, l, v, h, hb, hl, hz, hd, hv => by
    obtain ⟨h0, hn, hf⟩ := h
    have hzn := (List.nodup_cons.1 hz).1
    have hzl : z ∉ prev :: l := fun m => hd z m List.mem_cons_self
    have hvp : 0 < v := by
      have : ∀ {l : List (Nat × Nat)} {prev : Nat × Nat}, Fwd nbr f prev l → (∀ y ∈ l, 0 < f y → f y = v) → 0 < v := by
        intro l
        induction l with
        | nil => intro _ h; cases h
        | cons a l ih =>
          intro prev h hv
          cases l with
          | nil => rw [← hv a List.mem_cons_self h]; exact h
          | cons b l => exact ih h.2.2 fun y hy => hv y (List.mem_cons_of_mem _ hy)
      exact this hf fun y hy => hv y (List.mem_cons_of_mem _ hy)
    have hup : ∀ y ∈ w :: zs, put1 f z (-1) y = f y := fun y hy => put1_ne fun e => hzn (e ▸ hy)
    rcases hn with hn | hn
    · have hz' : (z :: prev :: l).Nodup := List.nodup_cons.2 ⟨hzl, hl⟩
      have b1 : BackOk nbr (put1 f z (-1)) z (prev :: l) := hb.congr fun y hy => put1_ne fun e => hzl (e ▸ hy)
      have r := forward (zs := zs) (f := f) (prev := z) (z := w) (l := prev :: l) (v := v) hf ⟨h0, hn, hb⟩ hz' (List.nodup_cons.1 hz).2
        (fun y hy hm => (List.mem_cons.1 hy).elim (fun e => hzn (e ▸ hm)) fun hy => hd y hy (List.mem_cons_of_mem _ hm)) fun y hy => hv y (List.mem_cons_of_mem _ hy)
      have := stops_second h0 hn hvp (back b1 hz' (by rw [put1_self]; decide)) r
      rw [put1_put1All fun y _ => rfl] at this
      exact this
    · have r := forward (zs := zs) (f := put1 f z (-1)) (prev := z) (z := w) (l := []) (v := v) (hf.congr hup) (by show put1 f z (-1) z < 0; rw [put1_self]; decide) (by simp) (List.nodup_cons.1 hz).2
        (fun y hy hm => by rw [List.mem_singleton.1 hy] at hm; exact hzn hm) (fun y hy h => by rw [hup y hy] at h ⊢; exact hv y (List.mem_cons_of_mem _ hy) h)
      have := stops_first h0 hn hvp r
      rw [put1_put1All fun y hy => put1_ne hy] at this
      exact this

/-- a call from outside -/
theorem start {x w : Nat × Nat} {ws zs : List (Nat × Nat)} {v : Int} (h0 : f x = 0) (hn : nbr x = w :: ws) (hf : Fwd nbr f x (w :: zs)) (hd : (x :: w :: zs).Nodup) (hv : ∀ y ∈ w :: zs, 0 < f y → f y = v) (hvp : 0 < v) :
    Stops nbr x f (v, updAll f (x :: w :: zs) v) := by
  obtain ⟨h1, h2⟩ := List.nodup_cons.1 hd
  have hup : ∀ y ∈ w :: zs, put1 f x (-1) y = f y := fun y hy => put1_ne fun e => h1 (e ▸ hy)
  have r := forward (zs := zs) (f := put1 f x (-1)) (prev := x) (z := w) (l := []) (v := v) (hf.congr hup) (by show put1 f x (-1) x < 0; rw [put1_self]; decide) (by simp) h2
    (fun y hy hm => by rw [List.mem_singleton.1 hy] at hm; exact h1 hm) (fun y hy h => by rw [hup y hy] at h ⊢; exact hv y hy h)
  have := stops_first h0 hn hvp r
  rw [put1_put1All fun y hy => put1_ne hy] at this
  exact this

/-! ### Lines are paths -/

/-- the boxes behind, latest first, up to `x`, whose other neighbour is `w` -/
def Lk (nbr : Nat × Nat → List (Nat × Nat)) (x w : Nat × Nat) : List (Nat × Nat) → Nat × Nat → Prop
  | [], _ => False
  | [z], y => z = x ∧ ∀ t, t ∈ nbr z → t = y ∨ t = w
  | z :: u :: l, y => (∀ t, t ∈ nbr z → t = y ∨ t = u) ∧ Lk nbr x w (u :: l) z

theorem Lk.outside {x w : Nat × Nat} : ∀ {l : List (Nat × Nat)} {r u z t : Nat × Nat}, Lk nbr x w (r :: l) u → t ∈ r :: l → z ∈ nbr t → z ≠ u → z ∉ r :: l → t = x ∧ z = w
  | [], r, u, z, t, h, ht, hz, hu, hm => by
    obtain rfl := List.mem_singleton.1 ht
    exact ⟨h.1, (h.2 z hz).resolve_left hu⟩
  | s :: l, r, u, z, t, h, ht, hz, hu, hm => by
    rcases List.mem_cons.1 ht with rfl | ht
    · rcases h.1 z hz with e | e
      · exact absurd e hu
      · exact absurd (by rw [e]; exact List.mem_cons_of_mem _ List.mem_cons_self) hm
    · exact Lk.outside h.2 ht hz (fun e => hm (by rw [e]; exact List.mem_cons_self)) fun m => hm (List.mem_cons_of_mem _ m)

theorem Lk.closed {x w : Nat × Nat} : ∀ {l : List (Nat × Nat)} {y t s : Nat × Nat}, Lk nbr x w l y → t ∈ l → s ∈ nbr t → s ∈ l ∨ s = y ∨ s = w
  | [], _, _, _, h, _, _ => h.elim
  | [z], y, t, s, h, ht, hs => by
    obtain rfl := List.mem_singleton.1 ht
    exact .inr (h.2 s hs)
  | z :: u :: l, y, t, s, h, ht, hs => by
    rcases List.mem_cons.1 ht with rfl | ht
    · rcases h.1 s hs with e | e
      · exact .inr (.inl e)
      · exact .inl (by rw [e]; exact List.mem_cons_of_mem _ List.mem_cons_self)
    · rcases Lk.closed h.2 ht hs with m | e | e
      · exact .inl (List.mem_cons_of_mem _ m)
      · exact .inl (by rw [e]; exact List.mem_cons_self)
      · exact .inr (.inr e)

/-- the next box is new, unless the line is closed -/
theorem Lk.fresh {x w y z : Nat × Nat} {l : List (Nat × Nat)} (hirr : y ≠ z) (h : Lk nbr x w (z :: l) y) (hn : (z :: l).Nodup) (hy : z ∈ nbr y) (hyl : l.head? ≠ some y)
    (hc : ¬ ∀ t ∈ z :: l, ∀ s ∈ nbr t, s ∈ z :: l) : y ∉ z :: l := by
  intro hm
  rcases List.mem_cons.1 hm with rfl | hm'
  · exact hirr rfl
  cases l with
  | nil => cases hm'
  | cons u l =>
    rcases List.mem_cons.1 hm' with rfl | hm'
    · exact hyl rfl
    cases l with
    | nil => cases hm'
    | cons r l =>
      have hz := (List.nodup_cons.1 hn).1
      obtain ⟨e1, e2⟩ := Lk.outside h.2.2 hm' hy (fun e => hz (by rw [e]; exact List.mem_cons_self)) fun m => hz (List.mem_cons_of_mem _ m)
      refine hc fun t ht s hs => ?_
      rcases Lk.closed h ht hs with m | e | e
      · exact m
      · rw [e]; exact hm
      · rw [e, ← e2]; exact List.mem_cons_self

end TdZdd.Nl.Fill
