import Verif.IndexFine
import Verif.IndexProofs
import Verif.ReducerFineProofs4

/-! Every interleaving of the parallel `makeIndex` gives the tables of the sequential one. -/

namespace TdZdd

namespace IdxFine

variable {N : Nat} {n T : Nat} {row : List (Node N)}

/-- row of the present edge -/
def At (row : List (Node N)) (e : Nat × Fin N) (r : Nat) : Prop := ∃ nd, row[e.1]? = some nd ∧ (nd e.2).row = r

theorem At.unique {e : Nat × Fin N} {r r' : Nat} (h : At row e r) (h' : At row e r') : r = r' := by
  obtain ⟨nd, h1, h2⟩ := h
  obtain ⟨nd', h1', h2'⟩ := h'
  rw [h1] at h1'
  obtain rfl := Option.some.inj h1'
  exact h2.symm.trans h2'

/-- invariant of the loop; `l` are all its edges -/
structure Inv (n T : Nat) (row : List (Node N)) (l : List (Nat × Fin N)) (a0 : IdxSt) (s : (Nat → Th N) × IdxSt) : Prop where
  sub : ∀ y, y < T → ∀ e ∈ (s.1 y).rest, e ∈ l
  low : s.2.lowest = a0.lowest ∨ ∃ e ∈ l, 0 < s.2.lowest ∧ At row e s.2.lowest
  le : s.2.lowest ≤ a0.lowest
  done : ∀ e ∈ l, ∀ r, 0 < r → At row e r → (∃ y, y < T ∧ e ∈ (s.1 y).rest) ∨ s.2.lowest ≤ r ∧ s.2.mark r = true
  pcs : ∀ y, y < T → ∀ e es r, (s.1 y).rest = e :: es → 0 < r → At row e r →
    match (s.1 y).pc with
    | .test => True
    | .crit => True
    | .mark => s.2.lowest ≤ r
    | .setMy => s.2.lowest ≤ r ∧ a0.mark r = false
    | .setMark => s.2.lowest ≤ r ∧ a0.mark r = false ∧ s.2.my r = true
  mark0 : ∀ r, a0.mark r = true → s.2.mark r = true
  mark : ∀ r, s.2.mark r = true → a0.mark r = true ∨ s.2.my r = true ∧ 0 < r ∧ ∃ e ∈ l, At row e r
  my0 : ∀ r, a0.my r = true → s.2.my r = true
  my : ∀ r, s.2.my r = true → a0.my r = true ∨ a0.mark r = false ∧ 0 < r ∧ ∃ e ∈ l, At row e r

/-- the invariant is kept when thread `y` goes to `th` and the memory to `a` -/
theorem Inv.step {l : List (Nat × Fin N)} {a0 : IdxSt} {s : (Nat → Th N) × IdxSt} (hl : ∀ e ∈ l, ∃ r, r ≤ n ∧ At row e r) (h : Inv n T row l a0 s) {y : Nat} (hy : y < T) :
    ∃ r, step n row (s.1 y) s.2 = some r ∧ Inv n T row l a0 (upd s.1 y r.1, r.2) := by
  obtain ⟨ths, a⟩ := s
  have hsame : ∀ (th : Th N), upd ths y th y = th := fun th => upd_eq_self _ _ _
  have hother : ∀ (th : Th N) {y'}, y' ≠ y → upd ths y th y' = ths y' := fun th y' h => upd_eq_ne _ _ h
  cases hr : (ths y).rest with
  | nil =>
    refine ⟨(ths y, a), by unfold IdxFine.step; rw [hr], ?_⟩
    have : upd ths y (ths y) = ths := funext fun y' => by
      by_cases e : y' = y
      · rw [e, hsame]
      · rw [hother _ e]
    dsimp only
    rw [this]
    exact h
  | cons e es =>
    have hel := h.sub y hy e (by show e ∈ (ths y).rest; rw [hr]; exact List.mem_cons_self ..)
    obtain ⟨r, hrn, hat⟩ := hl e hel
    obtain ⟨nd, hnd, hndr⟩ := hat
    -- leaving the edge
    have sub' : ∀ (pc : Pc) (es' : List (Nat × Fin N)), (∀ e' ∈ es', e' ∈ e :: es) → ∀ y', y' < T → ∀ e' ∈ (upd ths y ⟨pc, es'⟩ y').rest, e' ∈ l := by
      intro pc es' hes y' hy' e' he'
      by_cases hyy : y' = y
      · subst hyy
        rw [hsame] at he'
        exact h.sub y' hy' e' (by show e' ∈ (ths y').rest; rw [hr]; exact hes e' he')
      · rw [hother _ hyy] at he'
        exact h.sub y' hy' e' he'
    have keep : ∀ (pc : Pc) {e' : Nat × Fin N}, (∃ z, z < T ∧ e' ∈ (ths z).rest) → ∃ z, z < T ∧ e' ∈ (upd ths y ⟨pc, e :: es⟩ z).rest := by
      rintro pc e' ⟨z, hz, hm⟩
      refine ⟨z, hz, ?_⟩
      by_cases hyy : z = y
      · subst hyy
        rw [hsame]
        rw [hr] at hm
        exact hm
      · rw [hother _ hyy]
        exact hm
    have leave : ∀ (pc : Pc) {e' : Nat × Fin N}, (∃ z, z < T ∧ e' ∈ (ths z).rest) → e' = e ∨ ∃ z, z < T ∧ e' ∈ (upd ths y ⟨pc, es⟩ z).rest := by
      rintro pc e' ⟨z, hz, hm⟩
      by_cases hyy : z = y
      · subst hyy
        rw [hr] at hm
        rcases List.mem_cons.1 hm with rfl | hm
        · exact .inl rfl
        · exact .inr ⟨z, hz, by rw [hsame]; exact hm⟩
      · exact .inr ⟨z, hz, by rw [hother _ hyy]; exact hm⟩
    have hpc := h.pcs y hy e es r hr
    -- the conditions on the other threads
    have pcs' : ∀ (th : Th N) (a' : IdxSt), a'.lowest ≤ a.lowest → (∀ r, a.my r = true → a'.my r = true) →
        (∀ e' es' r', th.rest = e' :: es' → 0 < r' → At row e' r' →
          match th.pc with
          | .test => True
          | .crit => True
          | .mark => a'.lowest ≤ r'
          | .setMy => a'.lowest ≤ r' ∧ a0.mark r' = false
          | .setMark => a'.lowest ≤ r' ∧ a0.mark r' = false ∧ a'.my r' = true) →
        ∀ y', y' < T → ∀ e' es' r', (upd ths y th y').rest = e' :: es' → 0 < r' → At row e' r' →
          match (upd ths y th y').pc with
          | .test => True
          | .crit => True
          | .mark => a'.lowest ≤ r'
          | .setMy => a'.lowest ≤ r' ∧ a0.mark r' = false
          | .setMark => a'.lowest ≤ r' ∧ a0.mark r' = false ∧ a'.my r' = true := by
      intro th a' hlow hmy hth y' hy' e' es' r' h1 h2 h3
      by_cases hyy : y' = y
      · subst hyy
        rw [hsame] at h1 ⊢
        exact hth e' es' r' h1 h2 h3
      · rw [hother _ hyy] at h1 ⊢
        have := h.pcs y' hy' e' es' r' h1 h2 h3
        dsimp only at this
        generalize (ths y').pc = pc at this ⊢
        cases pc with
        | test => trivial
        | crit => trivial
        | mark => exact Nat.le_trans hlow this
        | setMy => exact ⟨Nat.le_trans hlow this.1, this.2⟩
        | setMark => exact ⟨Nat.le_trans hlow this.1, this.2.1, hmy _ this.2.2⟩
    have head : ∀ {e' : Nat × Fin N} {es' : List (Nat × Fin N)} {r' : Nat}, e :: es = e' :: es' → At row e' r' → r' = r := by
      intro e' es' r' h1 h3
      rw [← (List.cons.inj h1).1] at h3
      exact h3.unique ⟨nd, hnd, hndr⟩
    unfold IdxFine.step
    simp only [hr, hnd, Option.bind_some, hndr]
    by_cases h0 : r = 0
    · rw [if_pos h0]
      refine ⟨_, rfl, sub' _ _ fun e' he' => List.mem_cons_of_mem _ he', h.low, h.le, ?_, ?_, h.mark0, h.mark, h.my0, h.my⟩
      · intro e' he' r' hp hat'
        rcases h.done e' he' r' hp hat' with hd | hd
        · rcases leave .test hd with rfl | hd
          · have := hat'.unique ⟨nd, hnd, hndr⟩
            omega
          · exact .inl hd
        · exact .inr hd
      · exact pcs' ⟨.test, es⟩ a (Nat.le_refl _) (fun _ h => h) fun _ _ _ _ _ _ => trivial
    · rw [if_neg h0]
      have hpos : 0 < r := by omega
      replace hpc := hpc hpos ⟨nd, hnd, hndr⟩
      dsimp only at hpc
      cases epc : (ths y).pc with
      | test =>
        refine ⟨_, rfl, sub' _ _ fun e' he' => he', h.low, h.le, ?_, ?_, h.mark0, h.mark, h.my0, h.my⟩
        · intro e' he' r' hp hat'
          rcases h.done e' he' r' hp hat' with hd | hd
          · exact .inl (keep _ hd)
          · exact .inr hd
        · refine pcs' ⟨_, e :: es⟩ a (Nat.le_refl _) (fun _ h => h) fun e' es' r' h1 _ h3 => ?_
          rw [head h1 h3]
          dsimp only
          by_cases hlt : r < a.lowest
          · rw [if_pos hlt]; trivial
          · rw [if_neg hlt]; exact Nat.le_of_not_lt hlt
      | crit =>
        have hmin : (if r < a.lowest then r else a.lowest) ≤ a.lowest ∧ (if r < a.lowest then r else a.lowest) ≤ r ∧
            ((if r < a.lowest then r else a.lowest) = a.lowest ∨ (if r < a.lowest then r else a.lowest) = r) := by split <;> omega
        refine ⟨_, rfl, sub' _ _ fun e' he' => he', ?_, ?_, ?_, ?_, h.mark0, h.mark, h.my0, h.my⟩
        · dsimp only
          rcases hmin.2.2 with e1 | e1
          · rw [e1]; exact h.low
          · rw [e1]; exact .inr ⟨e, hel, hpos, nd, hnd, hndr⟩
        · exact Nat.le_trans hmin.1 h.le
        · intro e' he' r' hp hat'
          rcases h.done e' he' r' hp hat' with hd | hd
          · exact .inl (keep _ hd)
          · exact .inr ⟨Nat.le_trans hmin.1 hd.1, hd.2⟩
        · refine pcs' ⟨.mark, e :: es⟩ { a with lowest := if r < a.lowest then r else a.lowest } hmin.1 (fun _ h => h) fun e' es' r' h1 _ h3 => ?_
          rw [head h1 h3]
          exact hmin.2.1
      | mark =>
        rw [epc] at hpc
        dsimp only at hpc
        dsimp only
        rw [if_neg (by omega)]
        by_cases hm : a.mark r = true
        · rw [if_pos hm]
          refine ⟨_, rfl, sub' _ _ fun e' he' => List.mem_cons_of_mem _ he', h.low, h.le, ?_, ?_, h.mark0, h.mark, h.my0, h.my⟩
          · intro e' he' r' hp hat'
            rcases h.done e' he' r' hp hat' with hd | hd
            · rcases leave .test hd with rfl | hd
              · have := hat'.unique ⟨nd, hnd, hndr⟩
                rw [this]
                exact .inr ⟨hpc, hm⟩
              · exact .inl hd
            · exact .inr hd
          · exact pcs' ⟨.test, es⟩ a (Nat.le_refl _) (fun _ h => h) fun _ _ _ _ _ _ => trivial
        · rw [if_neg hm]
          have hm0 : a0.mark r = false := by
            cases hmm : a0.mark r with
            | false => rfl
            | true => exact absurd (h.mark0 r hmm) hm
          refine ⟨_, rfl, sub' _ _ fun e' he' => he', h.low, h.le, ?_, ?_, h.mark0, h.mark, h.my0, h.my⟩
          · intro e' he' r' hp hat'
            rcases h.done e' he' r' hp hat' with hd | hd
            · exact .inl (keep _ hd)
            · exact .inr hd
          · refine pcs' ⟨.setMy, e :: es⟩ a (Nat.le_refl _) (fun _ h => h) fun e' es' r' h1 _ h3 => ?_
            rw [head h1 h3]
            exact ⟨hpc, hm0⟩
      | setMy =>
        rw [epc] at hpc
        dsimp only at hpc
        have hmono : ∀ r', a.my r' = true → upd a.my r true r' = true := fun r' h' => by unfold upd; split <;> first | rfl | exact h'
        refine ⟨_, rfl, sub' _ _ fun e' he' => he', h.low, h.le, ?_, ?_, h.mark0, ?_, fun r' h' => hmono r' (h.my0 r' h'), ?_⟩
        · intro e' he' r' hp hat'
          rcases h.done e' he' r' hp hat' with hd | hd
          · exact .inl (keep _ hd)
          · exact .inr hd
        · refine pcs' ⟨.setMark, e :: es⟩ { a with my := upd a.my r true } (Nat.le_refl _) hmono fun e' es' r' h1 _ h3 => ?_
          rw [head h1 h3]
          exact ⟨hpc.1, hpc.2, upd_eq_self _ _ _⟩
        · intro r' h'
          rcases h.mark r' h' with h1 | ⟨h1, h2⟩
          · exact .inl h1
          · exact .inr ⟨hmono r' h1, h2⟩
        · intro r' h'
          by_cases hrr : r' = r
          · subst hrr
            exact .inr ⟨hpc.2, hpos, e, hel, nd, hnd, hndr⟩
          · have h' : upd a.my r true r' = true := h'
            rw [upd_eq_ne _ _ hrr] at h'
            exact h.my r' h'
      | setMark =>
        rw [epc] at hpc
        dsimp only at hpc
        have hmono : ∀ r', a.mark r' = true → upd a.mark r true r' = true := fun r' h' => by unfold upd; split <;> first | rfl | exact h'
        refine ⟨_, rfl, sub' _ _ fun e' he' => List.mem_cons_of_mem _ he', h.low, h.le, ?_, ?_, fun r' h' => hmono r' (h.mark0 r' h'), ?_, h.my0, h.my⟩
        · intro e' he' r' hp hat'
          rcases h.done e' he' r' hp hat' with hd | hd
          · rcases leave .test hd with rfl | hd
            · have := hat'.unique ⟨nd, hnd, hndr⟩
              rw [this]
              exact .inr ⟨hpc.1, upd_eq_self _ _ _⟩
            · exact .inl hd
          · exact .inr ⟨hd.1, hmono _ hd.2⟩
        · exact pcs' ⟨.test, es⟩ { a with mark := upd a.mark r true } (Nat.le_refl _) (fun _ h => h) fun _ _ _ _ _ _ => trivial
        · intro r' h'
          by_cases hrr : r' = r
          · subst hrr
            exact .inr ⟨hpc.2.2, hpos, e, hel, nd, hnd, hndr⟩
          · have h' : upd a.mark r true r' = true := h'
            rw [upd_eq_ne _ _ hrr] at h'
            exact h.mark r' h'

theorem Inv.exec {l : List (Nat × Fin N)} {a0 : IdxSt} (hl : ∀ e ∈ l, ∃ r, r ≤ n ∧ At row e r) : ∀ (w : List Nat) {s : (Nat → Th N) × IdxSt}, Inv n T row l a0 s →
    ∃ s', exec n row T w s = some s' ∧ Inv n T row l a0 s'
  | [], s, h => ⟨s, rfl, h⟩
  | k :: w, s, h => by
    by_cases hk : k < T
    · obtain ⟨r, e, h'⟩ := h.step hl hk
      obtain ⟨s', e', h''⟩ := Inv.exec hl w h'
      refine ⟨s', ?_, h''⟩
      unfold IdxFine.exec
      rw [if_pos hk, e]
      exact e'
    · obtain ⟨s', e', h''⟩ := Inv.exec hl w h
      refine ⟨s', ?_, h''⟩
      unfold IdxFine.exec
      rw [if_neg hk]
      exact e'

/-- number of steps that a thread may still make -/
def left (th : Th N) : Nat :=
  match th.rest with
  | [] => 0
  | _ :: es => 5 * es.length + match th.pc with
    | .test => 5
    | .crit => 4
    | .mark => 3
    | .setMy => 2
    | .setMark => 1

theorem left_le (pc : Pc) (es : List (Nat × Fin N)) : left ⟨pc, es⟩ ≤ 5 * es.length := by
  unfold left
  cases es with
  | nil => exact Nat.zero_le _
  | cons e es => cases pc <;> simp only [List.length_cons] <;> omega

theorem left_step {th : Th N} {a : IdxSt} {r : Th N × IdxSt} (h : step n row th a = some r) : left r.1 ≤ left th - 1 := by
  obtain ⟨pc, rest⟩ := th
  unfold step at h
  cases rest with
  | nil =>
    obtain rfl := Option.some.inj h
    exact Nat.zero_le _
  | cons e es =>
    dsimp only at h
    obtain ⟨nd, _, h⟩ := Option.bind_eq_some_iff.1 h
    have hl : 5 * es.length ≤ left (⟨pc, e :: es⟩ : Th N) - 1 := by
      unfold left
      cases pc <;> dsimp only <;> omega
    by_cases h0 : (nd e.2).row = 0
    · rw [if_pos h0] at h
      obtain rfl := Option.some.inj h
      exact Nat.le_trans (left_le _ _) hl
    · rw [if_neg h0] at h
      cases pc with
      | test =>
        obtain rfl := Option.some.inj h
        show left ⟨if _ then _ else _, e :: es⟩ ≤ _
        split <;> (unfold left; dsimp only; omega)
      | crit =>
        obtain rfl := Option.some.inj h
        unfold left; dsimp only; omega
      | mark =>
        dsimp only at h
        split at h
        · cases h
        · split at h
          · obtain rfl := Option.some.inj h
            exact Nat.le_trans (left_le _ _) hl
          · obtain rfl := Option.some.inj h
            unfold left; dsimp only; omega
      | setMy =>
        obtain rfl := Option.some.inj h
        unfold left; dsimp only; omega
      | setMark =>
        obtain rfl := Option.some.inj h
        exact Nat.le_trans (left_le _ _) hl

theorem left_exec : ∀ (w : List Nat) {s s' : (Nat → Th N) × IdxSt}, exec n row T w s = some s' → ∀ y, y < T → left (s'.1 y) ≤ left (s.1 y) - w.count y
  | [], s, s', h, y, _ => by
    obtain rfl := Option.some.inj h
    exact Nat.le_refl _
  | k :: w, s, s', h, y, hy => by
    unfold exec at h
    by_cases hk : k < T
    · rw [if_pos hk] at h
      obtain ⟨r, e, h⟩ := Option.bind_eq_some_iff.1 h
      have := left_exec w h y hy
      dsimp only at this
      by_cases hyk : k = y
      · subst hyk
        rw [upd_eq_self] at this
        rw [List.count_cons_self]
        have := left_step e
        omega
      · rw [upd_eq_ne _ _ (Ne.symm hyk)] at this
        rw [List.count_cons_of_ne hyk]
        exact this
    · rw [if_neg hk] at h
      have hyk : k ≠ y := by omega
      rw [List.count_cons_of_ne hyk]
      exact left_exec w h y hy

theorem count_finish (f : Nat → Nat) {T y : Nat} (hy : y < T) : f y ≤ (((List.range T).flatMap fun y => List.replicate (f y) y)).count y := by
  induction T with
  | zero => omega
  | succ T ih =>
    rw [List.range_succ, List.flatMap_append, List.count_append]
    by_cases e : y = T
    · subst e
      have : (([y] : List Nat).flatMap fun y => List.replicate (f y) y) = List.replicate (f y) y := by simp
      rw [this, List.count_replicate_self]
      omega
    · have := ih (by omega)
      omega

/-- all interleavings of the loop give the same memory -/
theorem loop_spec {cols : Nat → List Nat} (hc : ((List.range T).flatMap cols).Perm (List.range row.length)) (hn : ∀ nd ∈ row, ∀ b, (nd b).row ≤ n) (w : List Nat) (a : IdxSt) :
    ∃ s, loop n row T cols w a = some s ∧ s.lowest ≤ a.lowest ∧ (∀ f ∈ rowEdges row, 0 < f.row → s.lowest ≤ f.row) ∧ (s.lowest = a.lowest ∨ ∃ f ∈ rowEdges row, 0 < f.row ∧ s.lowest = f.row) ∧
      (∀ r, s.mark r = true ↔ a.mark r = true ∨ 0 < r ∧ ∃ f ∈ rowEdges row, f.row = r) ∧
      (∀ r, s.my r = true ↔ a.my r = true ∨ a.mark r = false ∧ 0 < r ∧ ∃ f ∈ rowEdges row, f.row = r) := by
  let l : List (Nat × Fin N) := (List.range row.length).flatMap fun j => (List.finRange N).map fun b => (j, b)
  have hl : ∀ e, e ∈ l ↔ e.1 < row.length := by
    intro e
    constructor
    · intro h
      obtain ⟨j, hj, hm⟩ := List.mem_flatMap.1 h
      obtain ⟨b, _, rfl⟩ := List.mem_map.1 hm
      exact List.mem_range.1 hj
    · intro h
      exact List.mem_flatMap.2 ⟨e.1, List.mem_range.2 h, List.mem_map.2 ⟨e.2, List.mem_finRange _, rfl⟩⟩
  have hat : ∀ e ∈ l, ∃ r, r ≤ n ∧ At row e r := fun e he => by
    have hlt := (hl e).1 he
    exact ⟨_, hn _ (List.getElem_mem hlt) e.2, row[e.1], List.getElem?_eq_getElem hlt, rfl⟩
  have hrows : ∀ r, (∃ e ∈ l, At row e r) ↔ ∃ f ∈ rowEdges row, f.row = r := by
    intro r
    constructor
    · rintro ⟨e, _, nd, h1, h2⟩
      exact ⟨nd e.2, mem_rowEdges.2 ⟨nd, List.mem_of_getElem? h1, e.2, rfl⟩, h2⟩
    · rintro ⟨f, hf, h2⟩
      obtain ⟨nd, h3, b, rfl⟩ := mem_rowEdges.1 hf
      obtain ⟨j, hj⟩ := List.mem_iff_getElem?.1 h3
      exact ⟨(j, b), (hl _).2 (getElem?_lt hj), nd, hj, h2⟩
  have h0 : Inv n T row l a (threads cols, a) := by
    refine ⟨fun y hy e he => ?_, .inl rfl, Nat.le_refl _, fun e he r _ _ => .inl ?_, fun y hy e es r _ _ _ => trivial, fun _ h => h, fun _ h => .inl h, fun _ h => h, fun _ h => .inl h⟩
    · obtain ⟨j, hj, hm⟩ := List.mem_flatMap.1 he
      obtain ⟨b, _, rfl⟩ := List.mem_map.1 hm
      exact (hl _).2 (List.mem_range.1 (hc.mem_iff.1 (List.mem_flatMap.2 ⟨y, List.mem_range.2 hy, hj⟩)))
    · obtain ⟨y, hy, hj⟩ := List.mem_flatMap.1 (hc.mem_iff.2 (List.mem_range.2 ((hl e).1 he)))
      exact ⟨y, List.mem_range.1 hy, List.mem_flatMap.2 ⟨e.1, hj, List.mem_map.2 ⟨e.2, List.mem_finRange _, rfl⟩⟩⟩
  obtain ⟨s, es, h⟩ := Inv.exec hat (w ++ (List.range T).flatMap fun y => List.replicate (5 * (threads (N := N) cols y).rest.length) y) h0
  have hend : ∀ y, y < T → (s.1 y).rest = [] := by
    intro y hy
    have h1 := left_exec _ es y hy
    have h2 := count_finish (fun y => 5 * (threads (N := N) cols y).rest.length) hy
    have h3 : left (threads (N := N) cols y) ≤ 5 * (threads (N := N) cols y).rest.length := left_le _ _
    rw [List.count_append] at h1
    dsimp only at h1 h2
    have h4 : left (s.1 y) = 0 := by omega
    cases hr : (s.1 y).rest with
    | nil => rfl
    | cons e es =>
      unfold left at h4
      rw [hr] at h4
      dsimp only at h4
      generalize (s.1 y).pc = pc at h4
      cases pc <;> dsimp only at h4 <;> omega
  have hfin : ∀ e ∈ l, ∀ r, 0 < r → At row e r → s.2.lowest ≤ r ∧ s.2.mark r = true := by
    intro e he r hp ha
    rcases h.done e he r hp ha with ⟨y, hy, hm⟩ | hd
    · rw [hend y hy] at hm
      cases hm
    · exact hd
  refine ⟨s.2, by unfold loop; rw [es]; rfl, h.le, ?_, ?_, ?_, ?_⟩
  · intro f hf hp
    obtain ⟨e, he, ha⟩ := (hrows f.row).2 ⟨f, hf, rfl⟩
    exact (hfin e he _ hp ha).1
  · rcases h.low with h1 | ⟨e, he, hp, ha⟩
    · exact .inl h1
    · obtain ⟨f, hf, e2⟩ := (hrows _).1 ⟨e, he, ha⟩
      exact .inr ⟨f, hf, by omega, e2.symm⟩
  · intro r
    constructor
    · intro hm
      rcases h.mark r hm with h1 | ⟨_, h2, h3⟩
      · exact .inl h1
      · exact .inr ⟨h2, (hrows r).1 h3⟩
    · rintro (h1 | ⟨h2, h3⟩)
      · exact h.mark0 r h1
      · obtain ⟨e, he, ha⟩ := (hrows r).2 h3
        exact (hfin e he r h2 ha).2
  · intro r
    constructor
    · intro hm
      rcases h.my r hm with h1 | ⟨h1, h2, h3⟩
      · exact .inl h1
      · exact .inr ⟨h1, h2, (hrows r).1 h3⟩
    · rintro (h1 | ⟨h1, h2, h3⟩)
      · exact h.my0 r h1
      · obtain ⟨e, he, ha⟩ := (hrows r).2 h3
        rcases h.mark r (hfin e he r h2 ha).2 with h4 | ⟨h4, _⟩
        · rw [h1] at h4; cases h4
        · exact h4

theorem bool_ext {f g : Nat → Bool} (h : ∀ r, f r = true ↔ g r = true) : f = g := funext fun r => by
  have := h r
  cases hf : f r <;> cases hg : g r <;> simp_all

/-- the loop gives what the sequential one gives -/
theorem loop_eq {cols : Nat → List Nat} (hc : ((List.range T).flatMap cols).Perm (List.range row.length)) (hn : ∀ nd ∈ row, ∀ b, (nd b).row ≤ n) (w : List Nat) (a : IdxSt) :
    loop n row T cols w a = (rowEdges row).foldlM (idxEdge n) a := by
  obtain ⟨s, e, h1, h2, h3, h4, h5⟩ := loop_spec hc hn w a
  obtain ⟨s', e', h1', h2', h3', h4', h5'⟩ := idxEdges_spec n (rowEdges row) a (fun f hf => by
    obtain ⟨nd, h, b, rfl⟩ := mem_rowEdges.1 hf
    exact hn nd h b)
  rw [e, e']
  have hlow : s.lowest = s'.lowest := by
    rcases h3 with h3 | ⟨f, hf, hp, h3⟩ <;> rcases h3' with h3' | ⟨f', hf', hp', h3'⟩
    · omega
    · have := h2 f' hf' hp'
      omega
    · have := h2' f hf hp
      omega
    · have := h2 f' hf' hp'
      have := h2' f hf hp
      omega
  have hmark : s.mark = s'.mark := bool_ext fun r => (h4 r).trans (h4' r).symm
  have hmy : s.my = s'.my := bool_ext fun r => (h5 r).trans (h5' r).symm
  obtain ⟨_, _, _⟩ := s
  obtain ⟨_, _, _⟩ := s'
  dsimp only at hlow hmark hmy
  rw [hlow, hmark, hmy]

theorem makeIndex_eq {Tb : Rows N} {sched : Nat → ISched} (hd : Down Tb n) (hs : ∀ i, 1 ≤ i → i ≤ n → (sched i).Ok T (Tb i).length) :
    makeIndex n Tb T sched = TdZdd.makeIndex n Tb := by
  unfold makeIndex TdZdd.makeIndex makeIndexOrd
  rw [foldlM_congr_mem (g := idxRow n fun i => rowEdges (Tb i))]
  intro i hi b
  have hin : 1 ≤ i ∧ i ≤ n := by
    unfold levels at hi
    simp at hi
    omega
  unfold IdxFine.row idxRow
  rw [loop_eq (hs i hin.1 hin.2) (fun nd h b => by have := hd i hin.1 hin.2 nd h b; omega)]

/-- `r` is the lowest level that is referred to by the nodes of level `i`, or `i` if there is none -/
def Lowest (T : Rows N) (i r : Nat) : Prop := (r = i ∨ 0 < r ∧ Refs T i r) ∧ r ≤ i ∧ ∀ r', 0 < r' → Refs T i r' → r ≤ r'

theorem index_shape {Tb : Rows N} (hd : Down Tb n) {hi lo : Nat → List Nat} (h : TdZdd.makeIndex n Tb = some (hi, lo)) :
    (∀ i, (lo i).Pairwise (· < ·)) ∧ (∀ r i, i ∈ hi r ↔ 1 ≤ i ∧ i ≤ n ∧ Lowest Tb i r) ∧ ∀ r, (hi r).Pairwise (· > ·) := by
  have key : ∀ k, k ≤ n → ∃ a, (((List.range n).reverse.map (· + 1)).take k).foldlM (idxRow n fun i => rowEdges (Tb i)) (fun _ => [], fun _ => [], fun _ => false) = some a ∧
      (∀ i, (a.2.1 i).Pairwise (· < ·)) ∧ (∀ r i, i ∈ a.1 r ↔ n - k < i ∧ i ≤ n ∧ Lowest Tb i r) ∧ ∀ r, (a.1 r).Pairwise (· > ·) := by
    intro k
    induction k with
    | zero =>
      intro _
      exact ⟨_, rfl, fun _ => .nil, fun r i => ⟨(fun h => nomatch h), fun h => absurd h.1 (by have := h.2.1; clear h; omega)⟩, fun _ => .nil⟩
    | succ k ih =>
      intro hk
      obtain ⟨a, h1, h2, h3, h4⟩ := ih (by omega)
      have hlen : k < ((List.range n).reverse.map (· + 1)).length := by simp; omega
      have hel : ((List.range n).reverse.map (· + 1))[k] = n - k := by
        simp [List.getElem_reverse]; omega
      have htake : ((List.range n).reverse.map (· + 1)).take (k + 1) = ((List.range n).reverse.map (· + 1)).take k ++ [n - k] := by
        rw [List.take_add_one, List.getElem?_eq_getElem hlen, hel]; rfl
      have hedge : ∀ f ∈ rowEdges (Tb (n - k)), f.row ≤ n := by
        intro f hf
        obtain ⟨nd, h4, b, rfl⟩ := mem_rowEdges.1 hf
        have := hd (n - k) (by omega) (by omega) nd h4 b
        omega
      obtain ⟨s, e1, e2, e3, e4, _, _⟩ := idxEdges_spec n (rowEdges (Tb (n - k))) { lowest := n - k, my := fun _ => false, mark := a.2.2 } hedge
      have hlow : ∀ r, Lowest Tb (n - k) r ↔ s.lowest = r := by
        have hL : Lowest Tb (n - k) s.lowest := by
          refine ⟨?_, e2, fun r' hp hr' => ?_⟩
          · rcases e4 with e | ⟨f, hf, hp, e⟩
            · exact .inl e
            · exact .inr ⟨by omega, refs_iff.2 ⟨f, hf, e.symm⟩⟩
          · obtain ⟨f, hf, rfl⟩ := refs_iff.1 hr'
            exact e3 f hf hp
        intro r
        constructor
        · intro h
          obtain ⟨g1, g2, g3⟩ := h
          obtain ⟨k1, k2, k3⟩ := hL
          rcases g1 with g1 | ⟨g1, g4⟩ <;> rcases k1 with k1 | ⟨k1, k4⟩
          · omega
          · have := g3 _ k1 k4; omega
          · have := k3 _ g1 g4; omega
          · have := g3 _ k1 k4
            have := k3 _ g1 g4
            omega
        · rintro rfl
          exact hL
      clear e4
      refine ⟨(upd a.1 s.lowest (a.1 s.lowest ++ [n - k]), upd a.2.1 (n - k) (((List.range (n - k)).filter fun r => s.lowest ≤ r).filter s.my), s.mark), ?_, ?_, ?_, ?_⟩
      · rw [htake, List.foldlM_append, h1]
        simp only [List.foldlM_cons, List.foldlM_nil, Option.bind_eq_bind, Option.bind_some, idxRow, e1, Option.map_some]
        rfl
      · intro i
        dsimp only [upd]
        split
        · exact (List.pairwise_lt_range.filter _).filter _
        · exact h2 i
      · intro r i
        dsimp only [upd]
        by_cases hr : r = s.lowest
        · subst hr
          rw [if_pos rfl, List.mem_append, List.mem_singleton, h3]
          constructor
          · rintro (⟨g1, g2, g3⟩ | rfl)
            · exact ⟨by clear g3; omega, g2, g3⟩
            · exact ⟨by omega, by omega, (hlow _).2 rfl⟩
          · rintro ⟨g1, g2, g3⟩
            by_cases e : i = n - k
            · exact .inr e
            · exact .inl ⟨by clear g3; omega, g2, g3⟩
        · rw [if_neg hr, h3]
          constructor
          · rintro ⟨g1, g2, g3⟩
            exact ⟨by clear g3; omega, g2, g3⟩
          · rintro ⟨g1, g2, g3⟩
            by_cases e : i = n - k
            · subst e
              exact absurd ((hlow r).1 g3).symm hr
            · exact ⟨by clear g3; omega, g2, g3⟩
      · intro r
        dsimp only [upd]
        split
        · rename_i e
          subst e
          refine List.pairwise_append.2 ⟨h4 _, List.pairwise_singleton _ _, fun x hx z hz => ?_⟩
          have := (h3 _ _).1 hx
          have := List.mem_singleton.1 hz
          omega
        · exact h4 r
  obtain ⟨a, h1, h2, h3, h4⟩ := key n (Nat.le_refl _)
  unfold TdZdd.makeIndex makeIndexOrd levels at h
  rw [List.take_of_length_le (by simp)] at h1
  rw [h1] at h
  obtain ⟨rfl, rfl⟩ := Prod.mk.inj (Option.some.inj h)
  refine ⟨h2, fun r i => ?_, h4⟩
  rw [h3]
  constructor
  · rintro ⟨g1, g2, g3⟩; exact ⟨by clear g3; omega, g2, g3⟩
  · rintro ⟨g1, g2, g3⟩; exact ⟨by clear g3; omega, g2, g3⟩

theorem reduce_eq {N : Nat} {D : Dd (N + 1)} (hw : D.Wf) (bdd zdd : Bool) {ths : Nat} (tasks : Nat) {isched : Nat → ISched} (sched : Nat → Fine.Sched)
    (hs : ∀ i, 1 ≤ i → i ≤ D.table.numRows - 1 → (isched i).Ok ths (D.table.row i).length) :
    reduce bdd zdd ths tasks isched sched D = Fine.reduce bdd zdd ths tasks (fun i => rowEdges (D.table.row i)) sched D := by
  have hwt : Table.Wf ⟨D.table.numRows, (reduceInit D).input⟩ := Table.wf_congr (reduceInit_node D) hw.table
  have hin : ∀ i, 1 ≤ i → (reduceInit D).input i = D.table.row i := by
    intro i hi
    unfold reduceInit
    dsimp only
    rw [upd_eq_ne _ _ (by omega)]
  unfold reduce Fine.reduce
  dsimp only
  rw [makeIndex_eq hwt.down (fun i h1 h2 => by rw [hin i h1]; exact hs i h1 h2)]
  unfold TdZdd.makeIndex
  rw [makeIndexOrd_congr (E' := fun i => rowEdges (D.table.row i)) fun i hi => by rw [hin i hi]]

end IdxFine

end TdZdd
