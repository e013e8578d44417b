import Verif.GridPath
import Verif.GridPathComb

/-! One call of `getChild` of the grid path specification. -/

namespace TdZdd.GridPath

open Sp

/-- the array for the window that begins at `off` -/
def win (size : Nat) (M : Nat → Int) (off : Nat) : List Int := (List.range size).map fun i => M (off + i)

variable {size off nV : Nat} {M : Nat → Int}

theorem win_congr {M' : Nat → Int} (h : ∀ v, off ≤ v → v < off + size → M v = M' v) : win size M off = win size M' off := by
  unfold win
  apply List.map_congr_left
  intro i hi
  exact h _ (by omega) (by have := List.mem_range.1 hi; omega)

theorem rd_win {v : Nat} (h1 : off ≤ v) (h2 : v < off + size) : rd size (win size M off) off v = some (M v) := by
  unfold rd win
  rw [if_pos ⟨h1, by omega⟩, List.getElem?_map, List.getElem?_range (by omega)]
  show some (M (off + (v - off))) = _
  rw [show off + (v - off) = v by omega]

def updI (M : Nat → Int) (v : Nat) (x : Int) : Nat → Int := fun z => if z = v then x else M z

theorem wr_win {v : Nat} (x : Int) (h1 : off ≤ v) (h2 : v < off + size) : wr size (win size M off) off v x = some (win size (updI M v x) off) := by
  unfold wr
  have hlen : (win size M off).length = size := by unfold win; rw [List.length_map, List.length_range]
  rw [if_pos ⟨h1, by omega, by omega⟩]
  congr 1
  unfold win
  apply List.ext_getElem?
  intro i
  rw [List.getElem?_set, List.length_map, List.length_range, List.getElem?_map, List.getElem?_map]
  by_cases hi : i < size
  · rw [List.getElem?_range hi]
    by_cases e : v - off = i
    · rw [if_pos e, if_pos (by omega)]
      show some x = some (if off + i = v then x else M (off + i))
      rw [if_pos (by omega)]
    · rw [if_neg e]
      show some (M (off + i)) = some (if off + i = v then x else M (off + i))
      rw [if_neg (by omega)]
  · rw [if_neg (by omega), List.getElem?_eq_none (by rw [List.length_range]; omega)]
    rfl

theorem wrPos_win {w x : Int} (h : 0 < w → (off : Int) ≤ w ∧ w < off + size) : wrPos size (win size M off) off w x =
    some (win size (fun z => if 0 < w ∧ z = w.toNat then x else M z) off) := by
  unfold wrPos
  by_cases hw : w > 0
  · have := h hw
    rw [if_pos hw, wr_win x (by omega) (by omega)]
    congr 1
    apply win_congr
    intro v _ _
    unfold updI
    by_cases e : v = w.toNat
    · rw [if_pos e, if_pos ⟨hw, e⟩]
    · rw [if_neg e, if_neg (fun h => e h.2)]
  · rw [if_neg hw]
    congr 1
    apply win_congr
    intro v _ _
    rw [if_neg (fun h => hw h.1)]

theorem openEnd_win : ∀ l : List Nat, (∀ v ∈ l, off ≤ v ∧ v < off + size) →
    ∃ b, openEnd size (win size M off) off l = some b ∧ (b = true ↔ ∃ v ∈ l, M v ≠ 0 ∧ M v ≠ v) := by
  intro l
  induction l with
  | nil => intro _; exact ⟨false, rfl, by simp⟩
  | cons v l ih =>
    intro h
    obtain ⟨h1, h2⟩ := h v (.head _)
    obtain ⟨b, e, hb⟩ := ih fun x hx => h x (.tail _ hx)
    unfold openEnd
    rw [rd_win h1 h2, Option.bind_some]
    by_cases hv : M v ≠ 0 ∧ M v ≠ v
    · rw [if_pos hv]
      exact ⟨true, rfl, fun _ => ⟨v, .head _, hv⟩, fun _ => rfl⟩
    · rw [if_neg hv]
      refine ⟨b, e, hb.trans ⟨fun ⟨x, hx, h⟩ => ⟨x, .tail _ hx, h⟩, fun ⟨x, hx, hm⟩ => ?_⟩⟩
      rcases List.mem_cons.1 hx with e' | hx
      · exact absurd (e' ▸ hm) hv
      · exact ⟨x, hx, hm⟩

/-- the array while the window is moved: `k` elements are done -/
def part (M : Nat → Int) (off d k : Nat) : Nat → Int := fun v => if v < off + k then M (v + d) else M v

theorem part_step {d k : Nat} : ∀ v, off ≤ v → updI (part M off d k) (off + k) (M (off + k + d)) v = part M off d (k + 1) v := by
  intro v hv
  unfold updI part
  by_cases e : v = off + k
  · rw [if_pos e, if_pos (by omega), e]
  · rw [if_neg e]
    by_cases e' : v < off + k
    · rw [if_pos e', if_pos (by omega)]
    · rw [if_neg e', if_neg (by omega)]

theorem shift_win {d : Nat} (hd : 0 < d) : ∀ (m k : Nat), d + k + m ≤ size → shiftLoop size off d (win size (part M off d k) off) (List.range' (off + d + k) m) =
    some (win size (part M off d (k + m)) off) := by
  intro m
  induction m with
  | zero => intro k _; rfl
  | succ m ih =>
    intro k h
    rw [List.range'_succ]
    unfold shiftLoop
    have e : part M off d k (off + d + k) = M (off + k + d) := by
      unfold part; rw [if_neg (by omega)]; congr 1; omega
    rw [rd_win (by omega) (by omega), Option.bind_some, e, show off + d + k - d = off + k by omega, wr_win _ (by omega) (by omega), Option.bind_some,
      win_congr fun v h1 _ => part_step v h1, show off + d + k + 1 = off + d + (k + 1) by omega, ih (k + 1) (by omega), show k + 1 + m = k + (m + 1) by omega]

theorem init_win {d : Nat} (hdef : ∀ v, off + size ≤ v → M v = dflt nV v) : ∀ (m k : Nat), k + m = size → size ≤ d + k →
    initLoop size nV off d (win size (part M off d k) off) (List.range' (off + d + k) m) = some (win size (part M off d (k + m)) off) := by
  intro m
  induction m with
  | zero => intro k _ _; rfl
  | succ m ih =>
    intro k h h'
    rw [List.range'_succ]
    unfold initLoop
    have e : dflt nV (off + d + k) = M (off + k + d) := by
      rw [hdef _ (by omega), show off + d + k = off + k + d by omega]
    rw [e, show off + d + k - d = off + k by omega, wr_win _ (by omega) (by omega), Option.bind_some,
      win_congr fun v h1 _ => part_step v h1, show off + d + k + 1 = off + d + (k + 1) by omega, ih (k + 1) (by omega) (by omega), show k + 1 + m = k + (m + 1) by omega]

/-- moving the window by one -/
theorem move_win {vv : Nat} (hs : 1 ≤ size) (h1 : off ≤ vv) (h2 : vv ≤ off + 1) (hdef : ∀ v, off + size ≤ v → M v = dflt nV v) :
    (∃ v, off ≤ v ∧ v < vv ∧ M v ≠ 0 ∧ M v ≠ v ∧ move size nV (win size M off) off vv = some (.ret 0)) ∨
    ((∀ v, off ≤ v → v < vv → M v = 0 ∨ M v = v) ∧ move size nV (win size M off) off vv = some (.go (win size M vv))) := by
  unfold move
  by_cases e : vv = off
  · subst e
    rw [if_neg (by omega)]
    exact .inr ⟨fun v _ _ => by omega, rfl⟩
  · have e : vv = off + 1 := by omega
    subst e
    rw [if_pos (by omega), show off + 1 - off = 1 by omega]
    obtain ⟨b, eb, hb⟩ := openEnd_win (M := M) (size := size) (off := off) (List.range' off 1) (by intro v hv; rw [List.mem_range'_1] at hv; omega)
    rw [eb, Option.bind_some]
    by_cases hbt : b = true
    · rw [if_pos hbt]
      obtain ⟨v, hv, m0, mv⟩ := hb.1 hbt
      rw [List.mem_range'_1] at hv
      exact .inl ⟨v, hv.1, hv.2, m0, mv, rfl⟩
    · rw [if_neg hbt]
      refine .inr ⟨fun v v1 v2 => ?_, ?_⟩
      · apply Classical.byContradiction
        intro hn
        exact hbt (hb.2 ⟨v, by rw [List.mem_range'_1]; omega, fun h => hn (.inl h), fun h => hn (.inr h)⟩)
      · have a1 := shift_win (size := size) (off := off) (M := M) (d := 1) (by omega) (size - 1) 0 (by omega)
        have a2 := init_win (size := size) (nV := nV) (d := 1) hdef 1 (size - 1) (by omega) (by omega)
        have a0 : win size (part M off 1 0) off = win size M off := win_congr fun v h _ => by unfold part; rw [if_neg (by omega)]
        rw [a0, show off + 1 + 0 = off + 1 by omega, show 0 + (size - 1) = size - 1 by omega] at a1
        rw [show off + 1 + (size - 1) = off + size by omega, show size - 1 + 1 = size by omega] at a2
        rw [show off + size - (off + 1) = size - 1 by omega, a1, Option.bind_some, a2]
        show some (Res.go _) = _
        congr 2
        unfold win
        apply List.map_congr_left
        intro i hi
        have := List.mem_range.1 hi
        unfold part
        rw [if_pos (by omega)]
        congr 1
        omega

/-- what is needed of the edges -/
structure EdgeFacts (E : List (Nat × Nat)) (nV size : Nat) : Prop where
  pos : 1 ≤ size
  two : 1 < nV
  edge : ∀ {e v w : Nat}, E[e]? = some (v, w) → 1 ≤ v ∧ v < w ∧ w < v + size ∧ w ≤ nV
  mono : ∀ {e v w v' w' : Nat}, E[e]? = some (v, w) → E[e + 1]? = some (v', w') → v ≤ v' ∧ v' ≤ v + 1
  nodup : E.Nodup

variable {E : List (Nat × Nat)}

theorem EdgeFacts.mono' (hE : EdgeFacts E nV size) : ∀ (d : Nat) {e v w v' w' : Nat}, E[e]? = some (v, w) → E[e + d]? = some (v', w') → v ≤ v' := by
  intro d
  induction d with
  | zero => intro e v w v' w' h h'; rw [Nat.add_zero, h] at h'; cases h'; exact Nat.le_refl _
  | succ d ih =>
    intro e v w v' w' h h'
    have hlt : e + d < E.length := by have := (List.getElem?_eq_some_iff.1 h').1; omega
    have h'' := List.getElem?_eq_getElem hlt
    have a1 := ih h (h''.trans (by rfl : some E[e + d] = some (E[e + d].1, E[e + d].2)))
    have a2 := hE.mono (h''.trans (by rfl : some E[e + d] = some (E[e + d].1, E[e + d].2))) h'
    omega

/-- joined by an edge with a number below `e` -/
def Before (E : List (Nat × Nat)) (e x y : Nat) : Prop := ∃ k, k < e ∧ (E[k]? = some (x, y) ∨ E[k]? = some (y, x))

/-- joined by an edge with number `e` or more -/
def From (E : List (Nat × Nat)) (e x y : Nat) : Prop := ∃ k, e ≤ k ∧ (E[k]? = some (x, y) ∨ E[k]? = some (y, x))

/-- the state before edge `e` -/
structure SI (E : List (Nat × Nat)) (nV size e : Nat) (st : List Int) (A : Nat → Nat → Prop) (M : Nat → Int) : Prop where
  inv : Inv A 1 nV M
  sub : ∀ x y, A x y → Before E e x y
  lt : e < E.length
  st_eq : ∀ v w, E[e]? = some (v, w) → st = win size M v
  low : ∀ v w, E[e]? = some (v, w) → ∀ x, x < v → M x = 0 ∨ M x = x
  high : ∀ v w, E[e]? = some (v, w) → ∀ x, v + size ≤ x → ∀ y, ¬ A x y

/-- a graph with the edges `A` and perhaps edges from `e` on -/
structure Ext (E : List (Nat × Nat)) (e : Nat) (A B : Nat → Nat → Prop) : Prop where
  sub : ∀ x y, A x y → B x y
  new : ∀ x y, B x y → A x y ∨ From E e x y

section
variable {A : Nat → Nat → Prop} {e v w : Nat} {st : List Int}

/-- the edge is new -/
theorem SI.fresh (hE : EdgeFacts E nV size) (h : SI E nV size e st A M) (he : E[e]? = some (v, w)) : ¬ A v w ∧ ¬ A w v := by
  have hv := hE.edge he
  have key : ¬ Before E e v w := by
    rintro ⟨k, hk, hk' | hk'⟩
    · have := (List.getElem?_inj (by have := h.lt; omega) hE.nodup).1 (hk'.trans he.symm)
      omega
    · have := hE.edge hk'
      omega
  refine ⟨fun h' => key (h.sub _ _ h'), fun h' => key ?_⟩
  obtain ⟨k, hk, hk'⟩ := h.sub _ _ h'
  exact ⟨k, hk, hk'.symm⟩

/-- a positive mate lies in the window -/
theorem SI.mate_in (h : SI E nV size e st A M) (he : E[e]? = some (v, w)) {x : Nat} (hx : 0 < x) (x1 : v ≤ x) (x2 : x < v + size) (hm : 0 < M x) :
    (v : Int) ≤ M x ∧ M x < v + size := by
  obtain ⟨u, hu, hend, c⟩ := h.inv.endOf hx (by omega)
  rcases c with ⟨c1, c2, c3, c4, c5⟩ | ⟨_, c, _⟩
  · by_cases hux : u = x
    · omega
    · obtain ⟨y, hy, _⟩ := hend.symm.one (Ne.symm hux)
      have g1 : u < v + size := by
        rcases Nat.lt_or_ge u (v + size) with g | g
        · exact g
        · exact absurd hy (h.high v w he u g y)
      have g2 : v ≤ u := by
        rcases Nat.lt_or_ge u v with g | g
        · have := h.inv.ends _ _ hend.symm
          unfold mateOf at this
          rw [if_neg (fun h => h.elim c3 c4), if_neg (fun h => h.elim c1 c2)] at this
          rcases h.low v w he u g with g' | g' <;> omega
        · exact g
      omega
  · omega

/-- the array after joining -/
theorem SI.join (hE : EdgeFacts E nV size) (h : SI E nV size e st A M) (he : E[e]? = some (v, w)) :
    join size st v w (M v) (M w) = some (win size (joinF M v w) v) := by
  have hv := hE.edge he
  unfold GridPath.join
  rw [h.st_eq v w he, wr_win _ (by omega) (by omega), Option.bind_some, wr_win _ (by omega) (by omega), Option.bind_some,
    wrPos_win (fun hp => h.mate_in he (by omega) (by omega) (by omega) hp), Option.bind_some,
    wrPos_win (fun hp => h.mate_in he (by omega) (by omega) (by omega) hp)]
  congr 1
  apply win_congr
  intro x _ _
  unfold joinF updI
  congr 2
  by_cases x2 : x = w
  · rw [if_pos x2, if_pos (.inr x2)]
  · rw [if_neg x2]
    by_cases x1 : x = v
    · rw [if_pos x1, if_pos (.inl x1)]
    · rw [if_neg x1, if_neg (fun h => h.elim x1 x2)]

/-- the graph after edge `e` -/
def nextA (A : Nat → Nat → Prop) (v w : Nat) (b : Fin 2) : Nat → Nat → Prop := if b = 1 then addE A v w else A

/-- what comes after the branch -/
theorem SI.finish (hE : EdgeFacts E nV size) {A' : Nat → Nat → Prop} {M' : Nat → Int} (he : E[e]? = some (v, w)) (inv : Inv A' 1 nV M')
    (sub : ∀ x y, A' x y → Before E (e + 1) x y) (low : ∀ x, x < v → M' x = 0 ∨ M' x = x) (high : ∀ x, v + size ≤ x → ∀ y, ¬ A' x y) {l : Nat} (hl : e + l = E.length) :
    ∃ c st', finish size nV E e l v (win size M' v) = some (c, st') ∧
      ((c = 0 ∧ ∀ B, Ext E (e + 1) A' B → ¬ IsPath B 1 nV) ∨ (c = (l : Int) - 1 ∧ 1 < l ∧ SI E nV size (e + 1) st' A' M')) := by
  have hv := hE.edge he
  have hlt := (List.getElem?_eq_some_iff.1 he).1
  unfold GridPath.finish
  by_cases hn : e + 1 < E.length
  · rw [if_pos hn, List.getElem?_eq_getElem hn, Option.bind_some]
    have he' : E[e + 1]? = some (E[e + 1].1, E[e + 1].2) := List.getElem?_eq_getElem hn
    have hm := hE.mono he he'
    have hv' := hE.edge he'
    have hdef : ∀ x, v + size ≤ x → M' x = dflt nV x := by
      intro x hx
      rw [inv.alone (high x hx)]
      unfold dflt
      by_cases e' : x = nV
      · rw [if_pos e', if_pos (.inr e')]
      · rw [if_neg e', if_neg (fun h => h.elim (by omega) e')]
    rcases move_win hE.pos hm.1 hm.2 hdef with ⟨x, x1, x2, m0, mx, em⟩ | ⟨hok, em⟩
    · rw [em]
      refine ⟨0, _, rfl, .inl ⟨rfl, fun B hB => inv.leave (by have := hE.two; omega) m0 mx hB.sub fun y hy => ?_⟩⟩
      rcases hB.new x y hy with h | ⟨k, hk, hk'⟩
      · exact h
      · exfalso
        rcases hk' with hk' | hk'
        · have := hE.mono' (k - (e + 1)) he' (by rw [show e + 1 + (k - (e + 1)) = k by omega]; exact hk')
          omega
        · have := hE.mono' (k - (e + 1)) he' (by rw [show e + 1 + (k - (e + 1)) = k by omega]; exact hk')
          have := hE.edge hk'
          omega
    · rw [em]
      refine ⟨_, _, rfl, .inr ⟨rfl, by omega, inv, sub, hn, ?_, ?_, ?_⟩⟩
      · intro v' w' h; rw [he'] at h; cases h; rfl
      · intro v' w' h x hx
        rw [he'] at h; cases h
        by_cases hxv : x < v
        · exact low x hxv
        · exact hok x (by omega) hx
      · intro v' w' h x hx
        rw [he'] at h; cases h
        exact high x (by omega)
  · rw [if_neg hn]
    refine ⟨_, _, rfl, .inl ⟨by omega, fun B hB hp => ?_⟩⟩
    have : ∀ x y, B x y → A' x y := by
      intro x y hxy
      rcases hB.new x y hxy with h | ⟨k, hk, hk'⟩
      · exact h
      · exfalso
        have : E[k]? = none := List.getElem?_eq_none (by omega)
        rw [this] at hk'
        rcases hk' with h | h <;> cases h
    have e1 : B = A' := by
      funext x y
      exact propext ⟨this x y, hB.sub x y⟩
    exact inv.not_path (e1 ▸ hp)

theorem SI.step (hE : EdgeFacts E nV size) (h : SI E nV size e st A M) (he : E[e]? = some (v, w)) {l : Nat} (hl : e + l = E.length) (b : Fin 2) :
    ∃ c st', ((if b = 1 then takeEdge size st v w else some (.go st)).bind fun r => match r with
        | .ret c => some (c, st)
        | .go st => GridPath.finish size nV E e l v st) = some (c, st') ∧
      ((c = 0 ∧ ∀ B, Ext E (e + 1) (nextA A v w b) B → ¬ IsPath B 1 nV) ∨ (c = -1 ∧ IsPath (nextA A v w b) 1 nV) ∨
        (c = (l : Int) - 1 ∧ 1 < l ∧ ∃ M', SI E nV size (e + 1) st' (nextA A v w b) M')) := by
  have hv := hE.edge he
  have hst : 1 ≠ nV := by have := hE.two; omega
  have hfresh := h.fresh hE he
  have hsub : ∀ x y, A x y → Before E (e + 1) x y := by
    intro x y hxy
    obtain ⟨k, hk, hk'⟩ := h.sub x y hxy
    exact ⟨k, by omega, hk'⟩
  by_cases hb : b = 1
  · rw [if_pos hb]
    have hA : nextA A v w b = addE A v w := if_pos hb
    rw [hA]
    have ext : ∀ {B}, Ext E (e + 1) (addE A v w) B → (∀ x y, A x y → B x y) ∧ B v w ∧ B w v := fun hB =>
      ⟨fun x y hxy => hB.sub _ _ (.inl hxy), hB.sub _ _ (.inr (.inl ⟨rfl, rfl⟩)), hB.sub _ _ (.inr (.inr ⟨rfl, rfl⟩))⟩
    unfold takeEdge
    have hst' := h.st_eq v w he
    have r1 : rd size st v v = some (M v) := by rw [hst']; exact rd_win (by omega) (by omega)
    have r2 : rd size st v w = some (M w) := by rw [hst']; exact rd_win (by omega) (by omega)
    rw [r1, Option.bind_some, r2, Option.bind_some]
    by_cases c1 : M v = 0 ∨ M w = 0
    · rw [if_pos c1]
      refine ⟨0, _, rfl, .inl ⟨rfl, fun B hB => ?_⟩⟩
      obtain ⟨x1, x2, x3⟩ := ext hB
      rcases c1 with c1 | c1
      · exact h.inv.zero (by omega) c1 x1 hfresh.1 x2
      · exact h.inv.zero (by omega) c1 x1 hfresh.2 x3
    · rw [if_neg c1]
      by_cases c2 : M v = w
      · rw [if_pos c2]
        refine ⟨0, _, rfl, .inl ⟨rfl, fun B hB => ?_⟩⟩
        obtain ⟨x1, x2, x3⟩ := ext hB
        exact h.inv.cycle (by omega) c2 (by omega) x1 hfresh.1 x2
      · rw [if_neg c2]
        by_cases c3 : M v < 0 ∧ M w < 0
        · rw [if_pos c3]
          obtain ⟨ob, eo, hob⟩ := openEnd_win (M := M) (size := size) (off := v) ((List.range' (v + 1) (size - 1)).filter fun x => decide (x ≠ w)) (by
            intro x hx
            rw [List.mem_filter, List.mem_range'_1] at hx
            omega)
          rw [hst', eo]
          have hmem : ∀ x, x ∈ (List.range' (v + 1) (size - 1)).filter (fun x => decide (x ≠ w)) ↔ v < x ∧ x < v + size ∧ x ≠ w := by
            intro x
            rw [List.mem_filter, List.mem_range'_1, decide_eq_true_iff]
            omega
          simp only [hmem] at hob
          by_cases hbt : ob = true
          · obtain ⟨x, ⟨x1, x2, x3⟩, m0, mx⟩ := hob.1 hbt
            refine ⟨0, _, by rw [hbt]; rfl, .inl ⟨rfl, fun B hB => ?_⟩⟩
            exact h.inv.complete_open hst (by omega) (by omega) (by omega) c3.1 c3.2 m0 mx (by omega) x3 hB.sub
          · refine ⟨-1, _, by rw [Bool.eq_false_iff.2 hbt]; rfl, .inr (.inl ⟨rfl, ?_⟩)⟩
            refine h.inv.complete_ok hst (by omega) (by omega) (by omega) c3.1 c3.2 fun x xv xw => ?_
            rcases Nat.lt_or_ge x v with g | g
            · exact h.low v w he x g
            rcases Nat.lt_or_ge x (v + size) with g' | g'
            · apply Classical.byContradiction
              intro hn
              exact hbt (hob.2 ⟨x, ⟨by omega, g', xw⟩, fun h => hn (.inl h), fun h => hn (.inr h)⟩)
            · -- beyond the window
              have hal := h.high v w he x g'
              have hm := h.inv.alone hal
              by_cases hx : x = 1 ∨ x = nV
              · exfalso
                -- the last vertex would be the end of one of the two paths
                obtain ⟨u1, q1, e1, d1⟩ := h.inv.endOf (v := v) (by omega) (by omega)
                obtain ⟨u2, q2, e2, d2⟩ := h.inv.endOf (v := w) (by omega) (by omega)
                have d1 : u1 = 1 ∨ u1 = nV := by
                  rcases d1 with ⟨_, _, _, _, c⟩ | ⟨c, _⟩
                  · omega
                  · exact c
                have d2 : u2 = 1 ∨ u2 = nV := by
                  rcases d2 with ⟨_, _, _, _, c⟩ | ⟨c, _⟩
                  · omega
                  · exact c
                have hd := h.inv.apart (by omega) (by omega) (by omega) c2 e1 e2
                have j2 := (join_ends e1 e2 (by omega) hd).2.1
                have hxn : x = nV := by omega
                have hself := isEnd_self hal
                rcases d1 with d1 | d1
                · rcases d2 with d2 | d2
                  · exact j2 (d1.trans d2.symm)
                  · rw [d2, ← hxn] at e2
                    exact xw (hself.unique e2.symm)
                · rw [d1, ← hxn] at e1
                  exact xv (hself.unique e1.symm)
              · rw [if_neg hx] at hm
                exact .inr hm
        · rw [if_neg c3, h.join hE he]
          show ∃ c st', GridPath.finish size nV E e l v (win size (joinF M v w) v) = some (c, st') ∧ _
          have hinv := h.inv.join (by omega) (by omega) (by omega) (fun e => c1 (.inl e)) (fun e => c1 (.inr e)) c2 c3
          have f1 : ∀ x y, addE A v w x y → Before E (e + 1) x y := by
            rintro x y (hxy | ⟨rfl, rfl⟩ | ⟨rfl, rfl⟩)
            · exact hsub x y hxy
            · exact ⟨e, by omega, .inl he⟩
            · exact ⟨e, by omega, .inr he⟩
          have f2 : ∀ x, x < v → joinF M v w x = 0 ∨ joinF M v w x = x := by
            intro x hx
            have := h.low v w he x hx
            have g1 : 0 < M v → _ := fun hp => h.mate_in he (x := v) (by omega) (by omega) (by omega) hp
            have g2 : 0 < M w → _ := fun hp => h.mate_in he (x := w) (by omega) (by omega) (by omega) hp
            unfold joinF
            rw [if_neg (by rintro ⟨p, q⟩; have := g2 p; omega), if_neg (by rintro ⟨p, q⟩; have := g1 p; omega), if_neg (by omega)]
            exact this
          have f3 : ∀ x, v + size ≤ x → ∀ y, ¬ addE A v w x y := by
            rintro x hx y (hxy | ⟨rfl, rfl⟩ | ⟨rfl, rfl⟩)
            · exact h.high v w he x hx y hxy
            · omega
            · omega
          obtain ⟨c, st', e1, e2⟩ := SI.finish hE he hinv f1 f2 f3 hl
          refine ⟨c, st', e1, ?_⟩
          rcases e2 with e2 | ⟨e2, e3, e4⟩
          · exact .inl e2
          · exact .inr (.inr ⟨e2, e3, _, e4⟩)
  · rw [if_neg hb]
    have hA : nextA A v w b = A := if_neg hb
    rw [hA]
    show ∃ c st', GridPath.finish size nV E e l v st = some (c, st') ∧ _
    rw [h.st_eq v w he]
    obtain ⟨c, st', e1, e2⟩ := SI.finish hE he h.inv hsub (h.low v w he) (h.high v w he) hl
    refine ⟨c, st', e1, ?_⟩
    rcases e2 with e2 | ⟨e2, e3, e4⟩
    · exact .inl e2
    · exact .inr (.inr ⟨e2, e3, _, e4⟩)

end

end TdZdd.GridPath
