import Verif.NumlinDegree

/-! `NumlinZdd` decides the solutions of Numberlink. -/

namespace TdZdd.Nl.Numlin

open Degree (tot_setH tot_setV tot_le)

/-- value of `mate` -/
def enc (n : Nat) : End (Nat × Nat) → Nat
  | .full => n
  | .vert y => y.2
  | .num t => n + t

/-- blank boxes among the first `c` boxes -/
def cnt (q : Board) (P : Links) (c : Nat) : Nat := ((List.range c).filter fun p => tot q P (p / q.cols, p % q.cols) = 0).length

/-- `mate` holds the ends of the boxes that wait for lines -/
structure Val (q : Board) (i vc : Nat) (M : Nat × Nat → End (Nat × Nat)) (a : List Nat) : Prop where
  len : a.length = q.cols
  val : ∀ k, k < q.cols → rowAt i vc k < q.rows → a[k]? = some (enc q.cols (M (rowAt i vc k, k)))

structure Inv (q : Board) (mb : Int) (P : Links) (i vc : Nat) (s : St) (M : Nat × Nat → End (Nat × Nat)) : Prop where
  minv : MInv q.num (Adj q.rows q.cols P) M
  knd : ∀ x, x.1 < q.rows → x.2 < q.cols → kind x (M x) = tot q P x
  val : Val q i vc M s.2
  done : ∀ r k, r < q.rows → k < q.cols → (r < i ∨ (r = i ∧ k < vc)) → tot q P (r, k) = 0 ∨ tot q P (r, k) = 2
  count : s.1 = if 0 < mb then cnt q P (i * q.cols + vc) else 0
  lim : 0 ≤ mb → (cnt q P (i * q.cols + vc) : Int) ≤ mb

/-- the numbers fit in `mate` -/
def Small (q : Board) : Prop := ∀ i j, q.cols + q.num (i, j) ≤ 255

/-- solutions with a bounded number of blanks -/
def Sol (q : Board) (mb : Int) (L : Links) : Prop := IsSolution q L ∧ (0 ≤ mb → (blanks q L : Int) ≤ mb)

variable {q : Board} {mb : Int} {P L : Links} {i j k hc vc : Nat} {s : St} {M : Nat × Nat → End (Nat × Nat)}

theorem Sol.degOk (h : Sol q mb L) : DegOk q L := by
  intro i j hi hj
  unfold tot lab
  by_cases e : q.num (i, j) = 0
  · rw [if_pos e]; have := h.1.other i j hi hj e; omega
  · rw [if_neg e]; have := h.1.number i j hi hj e; omega

theorem Val.upd (h : Val q i vc M a) (hk : k < q.cols) (e : End (Nat × Nat)) : Val q i vc (upd M (rowAt i vc k, k) e) (a.set k (enc q.cols e)) := by
  refine ⟨by rw [List.length_set]; exact h.len, fun c hc hr => ?_⟩
  rw [Degree.get_set (by rw [h.len]; exact hk)]
  by_cases g : c = k
  · subst g
    rw [if_pos rfl, upd_self]
  · rw [if_neg g, upd_ne (by simp [g])]
    exact h.val c hc hr

/-- a box without lines -/
theorem fresh (h : MInv q.num (Adj q.rows q.cols P) M) {x : Nat × Nat} (hk : kind x (M x) = tot q P x) (hd : deg q.rows q.cols P x = 0) :
    M x = if q.num x = 0 then .vert x else .num (q.num x) := by
  unfold tot at hk
  rw [hd, Nat.add_zero] at hk
  have hal : ∀ z, Conn (Adj q.rows q.cols P) x z → z = x := fun z hz => hz.alone fun _ => no_adj_of_deg hd
  unfold lab at hk
  by_cases e : q.num x = 0
  · rw [if_pos e] at hk ⊢
    match e1 : M x with
    | .full => rw [e1, kind_full] at hk; omega
    | .num t => rw [e1, kind_num] at hk; omega
    | .vert y =>
      rw [e1, kind_vert] at hk
      by_cases g : y = x
      · rw [g]
      · rw [if_neg g] at hk; omega
  · rw [if_neg e] at hk ⊢
    match e1 : M x with
    | .full => rw [e1, kind_full] at hk; omega
    | .num t =>
      obtain ⟨_, ⟨z, hz, ez⟩, _⟩ := h.numb x t e1
      rw [hal z hz] at ez
      rw [ez]
    | .vert y => exact absurd ((h.vert x y e1).2.2 x .refl).1 e

theorem conn_board {x y : Nat × Nat} (h : Conn (Adj q.rows q.cols P) x y) (hne : y ≠ x) : (y.1 < q.rows ∧ y.2 < q.cols) ∧ deg q.rows q.cols P y ≠ 0 := by
  cases h with
  | refl => exact absurd rfl hne
  | tail _ g => exact ⟨(adj_board g).2, fun hd => no_adj_of_deg hd (adj_symm _ _ g)⟩

/-- the ends of the boxes that wait for lines -/
inductive Cell (q : Board) (i vc : Nat) : End (Nat × Nat) → Prop
  | full : Cell q i vc .full
  | num (t : Nat) : 0 < t → q.cols + t ≤ 255 → Cell q i vc (.num t)
  | vert (c : Nat) : c < q.cols → rowAt i vc c < q.rows → Cell q i vc (.vert (rowAt i vc c, c))

theorem Inv.cell (hs : Small q) (h : Inv q mb (part L i hc vc) i vc s M) (hk : k < q.cols) (hr : rowAt i vc k < q.rows) : Cell q i vc (M (rowAt i vc k, k)) := by
  match e : M (rowAt i vc k, k) with
  | .full => exact .full
  | .num t =>
    obtain ⟨h0, ⟨z, _, ez⟩, _⟩ := h.minv.numb _ t e
    exact .num t h0 (ez ▸ hs z.1 z.2)
  | .vert y =>
    obtain ⟨h1, h2, h3⟩ := h.minv.vert _ y e
    by_cases g : y = (rowAt i vc k, k)
    · rw [g]; exact .vert k hk hr
    · obtain ⟨hb, hd⟩ := conn_board h2 g
      have hkd := h.knd y hb.1 hb.2
      rw [h1, kind_vert, if_neg (fun g' => g g'.symm)] at hkd
      have hn := (h3 y h2).1
      have : y.1 = rowAt i vc y.2 := by
        have hnd := h.done y.1 y.2 hb.1 hb.2
        have hnew := deg_new (m := q.rows) (n := q.cols) (L := L) (i := i) (k := y.2) (hc := hc) (vc := vc) (r := y.1)
        unfold rowAt
        by_cases e1 : y.1 < i ∨ (y.1 = i ∧ y.2 < vc)
        · have := hnd e1
          change 1 = tot q (part L i hc vc) (y.1, y.2) at hkd
          omega
        · by_cases e2 : i < y.1 ∧ (y.1 = i + 1 → vc ≤ y.2)
          · exact absurd (hnew e2.1 e2.2) hd
          · split <;> omega
      have e' : y = (rowAt i vc y.2, y.2) := Prod.ext this rfl
      rw [e']
      exact .vert y.2 hb.2 (this ▸ hb.1)

theorem cnt_congr {P P' : Links} {c : Nat} (h : ∀ p, p < c → tot q P (p / q.cols, p % q.cols) = tot q P' (p / q.cols, p % q.cols)) : cnt q P c = cnt q P' c := by
  unfold cnt
  congr 1
  refine List.filter_congr fun p hp => ?_
  rw [h p (List.mem_range.1 hp)]

theorem cnt_succ (q : Board) (P : Links) (hk : k < q.cols) : cnt q P (i * q.cols + (k + 1)) = cnt q P (i * q.cols + k) + if tot q P (i, k) = 0 then 1 else 0 := by
  have e1 : (i * q.cols + k) / q.cols = i := by
    rw [Nat.add_comm, Nat.add_mul_div_right _ _ (by omega), Nat.div_eq_of_lt hk, Nat.zero_add]
  have e2 : (i * q.cols + k) % q.cols = k := by
    rw [Nat.add_comm, Nat.add_mul_mod_self_right, Nat.mod_eq_of_lt hk]
  unfold cnt
  rw [← Nat.add_assoc, List.range_succ, List.filter_append, List.length_append, List.filter_cons, e1, e2]
  congr 1
  by_cases g : tot q P (i, k) = 0
  · simp [g]
  · simp [g]

theorem cnt_le {c c' : Nat} (h : c ≤ c') : cnt q P c ≤ cnt q P c' := by
  unfold cnt
  refine List.Sublist.length_le (List.Sublist.filter _ ?_)
  exact List.range_sublist.2 h

/-- position of an earlier box -/
theorem pos_before {p : Nat} (hn : 0 < q.cols) (h : p < i * q.cols + vc) (hvc : vc ≤ q.cols) : p / q.cols < i ∨ (p / q.cols = i ∧ p % q.cols < vc) := by
  have e := Nat.div_add_mod p q.cols
  have hm := Nat.mod_lt p hn
  by_cases g : p / q.cols < i
  · exact .inl g
  · right
    rcases Nat.lt_or_ge i (p / q.cols) with g' | g'
    · have : q.cols * (i + 1) ≤ q.cols * (p / q.cols) := Nat.mul_le_mul_left _ g'
      rw [Nat.mul_add, Nat.mul_comm q.cols i] at this
      omega
    · have : p / q.cols = i := by omega
      rw [this, Nat.mul_comm] at e
      omega

/-- the lines of an earlier box are drawn -/
theorem deg_done {m n r c : Nat} (h : r < i ∨ (r = i ∧ c < vc ∧ (c < hc ∨ (hc + 1 = n ∧ c + 1 = n)))) : deg m n (part L i hc vc) (r, c) = deg m n L (r, c) := by
  have hh : ∀ j', j' ≤ c → j' + 1 < n → (decide (r < i) || (decide (r = i) && decide (j' < hc))) = true := fun j' hj' hn => by
    simp only [Bool.or_eq_true, Bool.and_eq_true, decide_eq_true_eq]; omega
  have hh' : ∀ j', j' < c → (decide (r < i) || (decide (r = i) && decide (j' < hc))) = true := fun j' hj' => by
    simp only [Bool.or_eq_true, Bool.and_eq_true, decide_eq_true_eq]; omega
  have hv : (decide (r < i) || (decide (r = i) && decide (c < vc))) = true := by
    simp only [Bool.or_eq_true, Bool.and_eq_true, decide_eq_true_eq]; omega
  have hu : 0 < r → (decide (r - 1 < i) || (decide (r - 1 = i) && decide (c < vc))) = true := fun h0 => by
    simp only [Bool.or_eq_true, Bool.and_eq_true, decide_eq_true_eq]; omega
  unfold deg part
  dsimp only
  congr 1
  · congr 1
    · congr 1
      · exact iteEq (and_congr_right fun g => by rw [hh' _ (by omega), Bool.and_true])
      · exact iteEq (and_congr_right fun g => by rw [hh _ (Nat.le_refl _) g, Bool.and_true])
    · exact iteEq (and_congr_right fun g => by rw [hu g, Bool.and_true])
  · exact iteEq (and_congr_right fun g => by rw [hv, Bool.and_true])

theorem cnt_blanks (h : DegOk q L) : blanks q L = cnt q L (q.rows * q.cols) := by
  unfold blanks cnt
  congr 1
  refine List.filter_congr fun p hp => ?_
  have hp := List.mem_range.1 hp
  have hn : 0 < q.cols := by
    rcases Nat.eq_zero_or_pos q.cols with g | g
    · rw [g] at hp; omega
    · exact g
  have h1 : p / q.cols < q.rows := by rw [Nat.div_lt_iff_lt_mul hn]; exact hp
  have := h (p / q.cols) (p % q.cols) h1 (Nat.mod_lt _ hn)
  unfold tot at this ⊢
  have hl : lab q.num (p / q.cols, p % q.cols) ≤ 1 := by unfold lab; split <;> omega
  rw [decide_eq_decide]
  omega

theorem enc_lt (hs : Small q) (h : Cell q i vc e) : enc q.cols e < 256 := by
  have := hs 0 0
  cases h with
  | full => show q.cols < 256; omega
  | num t _ h => show q.cols + t < 256; omega
  | vert c h _ => show c < 256; omega

/-- two boxes that are joined in the next step -/
theorem joined {x y : Nat × Nat} {P' : Links} (h : Inv q mb P i vc s M) (hA : Adj q.rows q.cols P' = addE (Adj q.rows q.cols P) x y)
    (ht : ∀ z, tot q P' z = tot q P z + if z = x ∨ z = y then 1 else 0) (hne : x ≠ y) (hx : M x ≠ .full) (hy : M y ≠ .full) (hcyc : M x ≠ .vert y)
    (hs : ∀ s t, M x = .num s → M y = .num t → s = t) :
    MInv q.num (Adj q.rows q.cols P') (joinM M x y) ∧ ∀ z, z.1 < q.rows → z.2 < q.cols → kind z (joinM M x y z) = tot q P' z := by
  rw [hA]
  refine ⟨join_ok h.minv hne hx hy hcyc hs, fun z h1 h2 => ?_⟩
  rw [kind_join h.minv hne hx hy hcyc, ht, h.knd z h1 h2]

section
variable {x y u w : Nat × Nat} {s t : Nat}
theorem joinM_nn (h1 : M x = .num s) (h2 : M y = .num t) : joinM M x y = upd (upd M x .full) y .full := by unfold joinM; rw [h1, h2]
theorem joinM_nv (h1 : M x = .num s) (h2 : M y = .vert w) : joinM M x y = upd (upd (upd M x .full) y .full) w (.num s) := by unfold joinM; rw [h1, h2]
theorem joinM_vn (h1 : M x = .vert u) (h2 : M y = .num t) : joinM M x y = upd (upd (upd M x .full) y .full) u (.num t) := by unfold joinM; rw [h1, h2]
theorem joinM_vv (h1 : M x = .vert u) (h2 : M y = .vert w) : joinM M x y = upd (upd (upd (upd M x .full) y .full) u (.vert w)) w (.vert u) := by unfold joinM; rw [h1, h2]
end

theorem horz_ok {a : Asg 2} (hsm : Small q) (hi : i < q.rows) (hj : j + 1 < q.cols) (hI : ∃ M, Inv q mb (part (lines q a) i j j) i j s M) :
    Step (horz q.cols j ((lines q a).h i j) s) (fun s' => ∃ M, Inv q mb (part (lines q a) i (j + 1) j) i j s' M) (¬ Sol q mb (lines q a)) := by
  obtain ⟨M, hI⟩ := hI
  have rj : rowAt i j j = i := rowAt_ge (Nat.le_refl j)
  have rk : rowAt i j (j + 1) = i := rowAt_ge (Nat.le_succ j)
  have hj0 := hI.val.val j (by omega) (by rw [rj]; exact hi)
  have hk0 := hI.val.val (j + 1) hj (by rw [rk]; exact hi)
  have cj := hI.cell hsm (k := j) (by omega) (by rw [rj]; exact hi)
  have ck := hI.cell hsm (k := j + 1) hj (by rw [rk]; exact hi)
  rw [rj] at hj0 cj
  rw [rk] at hk0 ck
  have kj := hI.knd (i, j) hi (by show j < q.cols; omega)
  have kk := hI.knd (i, j + 1) hi hj
  unfold horz
  cases hb : (lines q a).h i j with
  | false =>
    rw [part_h_false hb]
    exact ⟨M, hI⟩
  | true =>
    have ep := part_h_true (vc := j) hb
    have ht := fun x => tot_setH (q := q) (part_new_h (L := lines q a) (i := i) (j := j) (vc := j)) hj x
    rw [← ep] at ht
    have hA := adj_setH (L := part (lines q a) i j j) hi hj
    rw [← ep] at hA
    have hle := part_le (lines q a) i (j + 1) j
    have e1 : tot q (part (lines q a) i (j + 1) j) (i, j) = _ := (ht (i, j)).trans (congrArg _ (if_pos (.inl rfl)))
    have e2 : tot q (part (lines q a) i (j + 1) j) (i, j + 1) = _ := (ht (i, j + 1)).trans (congrArg _ (if_pos (.inr rfl)))
    have l1 := tot_le (q := q) hle (i, j)
    have l2 := tot_le (q := q) hle (i, j + 1)
    have hxy : ((i, j) : Nat × Nat) ≠ (i, j + 1) := by simp
    rw [if_pos rfl]
    dsimp only
    rw [hj0, hk0]
    dsimp only [Option.bind_some, Option.map_some]
    have efull : ∀ {e}, Cell q i j e → (enc q.cols e = q.cols ↔ e = .full) := fun {e} h => by
      cases h with
      | full => exact ⟨fun _ => rfl, fun _ => rfl⟩
      | num t h0 _ => exact ⟨fun (g : q.cols + t = q.cols) => by omega, fun g => nomatch g⟩
      | vert c hc _ => exact ⟨fun (g : c = q.cols) => by omega, fun g => nomatch g⟩
    by_cases hf : enc q.cols (M (i, j)) = q.cols ∨ enc q.cols (M (i, j + 1)) = q.cols
    · rw [if_pos hf, ]
      intro hs
      have s1 := hs.degOk i j hi (by omega)
      have s2 := hs.degOk i (j + 1) hi hj
      rcases hf with hf | hf
      · rw [(efull cj).1 hf, kind_full] at kj
        omega
      · rw [(efull ck).1 hf, kind_full] at kk
        omega
    rw [if_neg hf]
    have hfx : M (i, j) ≠ .full := fun g => hf (.inl ((efull cj).2 g))
    have hfy : M (i, j + 1) ≠ .full := fun g => hf (.inr ((efull ck).2 g))
    by_cases hcy : enc q.cols (M (i, j)) = j + 1
    · rw [if_pos hcy]
      have hM : M (i, j) = .vert (i, j + 1) := by
        generalize M (i, j) = e at *
        cases cj with
        | full => exact absurd rfl hfx
        | num t _ _ => change q.cols + t = j + 1 at hcy; omega
        | vert c _ _ => change c = j + 1 at hcy; subst hcy; rw [rk]
      intro hs
      have hcl := join_cycle hI.minv hM
      rw [← hA] at hcl
      have hst : ∀ z, Conn (Adj q.rows q.cols (part (lines q a) i (j + 1) j)) (i, j) z → deg q.rows q.cols (lines q a) z ≤ deg q.rows q.cols (part (lines q a) i (j + 1) j) z := fun z hz => by
        have hb : z.1 < q.rows ∧ z.2 < q.cols := by
          by_cases g : z = (i, j)
          · rw [g]; exact ⟨hi, by show j < q.cols; omega⟩
          · exact (conn_board hz g).1
        have h2 : tot q (part (lines q a) i (j + 1) j) z = 2 := by
          rcases (hcl z hz).2 with g | g | g
          · rw [hM, kind_vert, if_neg (Ne.symm hxy)] at kj
            rw [g]; omega
          · rw [(hI.minv.vert _ _ hM).1, kind_vert, if_neg hxy] at kk
            rw [g]; omega
          · have h3 := hI.knd z hb.1 hb.2
            rw [g, kind_full] at h3
            have h4 := ht z
            rw [if_neg] at h4
            · omega
            · rintro (g' | g')
              · rw [g', hM] at g; cases g
              · rw [g', (hI.minv.vert _ _ hM).1] at g; cases g
        have h5 := hs.degOk z.1 z.2 hb.1 hb.2
        change tot q (lines q a) z = 0 ∨ tot q (lines q a) z = 2 at h5
        unfold tot at h2 h5
        omega
      obtain ⟨y, hy, hn⟩ := hs.1.noLoop i j hi (by omega) (by
        have := hst (i, j) .refl
        unfold tot at e1
        have h6 := no_adj_of_deg (m := q.rows) (n := q.cols) (L := lines q a) (x := (i, j)) (y := (i, j + 1))
        exact fun g => h6 g (.right hi hj hb))
      have : Conn (Adj q.rows q.cols (part (lines q a) i (j + 1) j)) (i, j) y :=
        hy.stay (P := fun z => Conn (Adj q.rows q.cols (part (lines q a) i (j + 1) j)) (i, j) z) (fun x y hx hxy => hx.tail (adj_of_deg hle (hst x hx) hxy)) .refl
      exact hn (hcl y this).1
    rw [if_neg hcy]
    have hncyc : M (i, j) ≠ .vert (i, j + 1) := fun g => hcy (by rw [g]; rfl)
    have hnmod : q.cols % 256 = q.cols := Nat.mod_eq_of_lt (by have := hsm 0 0; omega)
    rw [hnmod]
    have hval := (hI.val.upd (k := j) (by omega) .full).upd (k := j + 1) hj .full
    rw [rj, rk] at hval
    have hdone : ∀ r k, r < q.rows → k < q.cols → (r < i ∨ (r = i ∧ k < j)) → tot q (part (lines q a) i (j + 1) j) (r, k) = 0 ∨ tot q (part (lines q a) i (j + 1) j) (r, k) = 2 := by
      intro r k hr hk hd
      rw [ht, if_neg (by simp only [Prod.mk.injEq]; omega)]
      exact hI.done r k hr hk hd
    have hcnt : cnt q (part (lines q a) i (j + 1) j) (i * q.cols + j) = cnt q (part (lines q a) i j j) (i * q.cols + j) := cnt_congr fun p hp => by
      have := pos_before (q := q) (by omega) hp (by omega)
      rw [ht, if_neg (by simp only [Prod.mk.injEq]; omega)]
      rfl
    have fin : ∀ a', Val q i j (joinM M (i, j) (i, j + 1)) a' → (∀ s t, M (i, j) = .num s → M (i, j + 1) = .num t → s = t) →
        ∃ M, Inv q mb (part (lines q a) i (j + 1) j) i j (s.1, a') M := fun a' hv hnum => by
      obtain ⟨m1, m2⟩ := joined hI hA ht hxy hfx hfy hncyc hnum
      exact ⟨_, m1, m2, hv, hdone, by rw [hcnt]; exact hI.count, by rw [hcnt]; exact hI.lim⟩
    generalize ex : M (i, j) = e at *
    generalize ey : M (i, j + 1) = f at *
    cases cj with
    | full => exact absurd rfl hfx
    | num t1 t10 t11 =>
      cases ck with
      | full => exact absurd rfl hfy
      | num t2 t20 t21 =>
        rw [if_pos (by show q.cols + t1 > q.cols ∧ q.cols + t2 > q.cols; omega)]
        by_cases g : q.cols + t1 = q.cols + t2
        · have : t1 = t2 := by omega
          subst this
          rw [if_neg (by show ¬ q.cols + t1 ≠ q.cols + t1; omega)]
          refine fin _ ?_ (fun s t h1 h2 => by cases h1; cases h2; rfl)
          rw [joinM_nn ex ey]
          exact hval
        · rw [if_pos (by show q.cols + t1 ≠ q.cols + t2; exact g)]
          intro hs
          obtain ⟨z, w, hzw, ez, ew, _, _⟩ := join_clash hI.minv ex ey
          rw [← hA] at hzw
          have := hs.1.same z w (hzw.mono (adj_mono hle)) (by omega) (by omega)
          omega
      | vert c2 c20 c21 =>
        rw [if_neg (by show ¬ (q.cols + t1 > q.cols ∧ c2 > q.cols); omega)]
        refine fin _ ?_ (fun s t h1 h2 => nomatch h2)
        rw [joinM_nv ex ey]
        show Val q i j _ (if c2 < q.cols then List.set (if q.cols + t1 < q.cols then _ else _) _ _ else _)
        rw [if_pos c20, if_neg (by omega)]
        exact hval.upd c20 (.num t1)
    | vert c1 c10 c11 =>
      cases ck with
      | full => exact absurd rfl hfy
      | num t2 t20 t21 =>
        rw [if_neg (by show ¬ (c1 > q.cols ∧ q.cols + t2 > q.cols); omega)]
        refine fin _ ?_ (fun s t h1 h2 => nomatch h1)
        rw [joinM_vn ex ey]
        show Val q i j _ (if q.cols + t2 < q.cols then _ else (if c1 < q.cols then _ else _))
        rw [if_neg (by omega), if_pos c10]
        exact hval.upd c10 (.num t2)
      | vert c2 c20 c21 =>
        rw [if_neg (by show ¬ (c1 > q.cols ∧ c2 > q.cols); omega)]
        refine fin _ ?_ (fun s t h1 h2 => nomatch h1)
        rw [joinM_vv ex ey]
        show Val q i j _ (if c2 < q.cols then List.set (if c1 < q.cols then _ else _) _ _ else _)
        rw [if_pos c20, if_pos c10]
        exact (hval.upd c10 (.vert (rowAt i j c2, c2))).upd c20 (.vert (rowAt i j c1, c1))

/-- a box that stays blank -/
theorem stay_blank {a : Asg 2} (hk : k < q.cols) (hh : k < hc ∨ (hc + 1 = q.cols ∧ k + 1 = q.cols)) (ht : tot q (part (lines q a) i hc k) (i, k) ≠ 1) :
    (lines q a).v i k = false := by
  rw [Bool.eq_false_iff]
  intro g
  exact ht ((vdet_iff (num := q.num) (h := hOf q a) hh (Nat.le_refl k) ((lines_onBoard q a).v _ _ g).1 hk).1 g)

theorem blank_dead {a : Asg 2} (hi : i < q.rows) (hk : k < q.cols) (hh : k < hc ∨ (hc + 1 = q.cols ∧ k + 1 = q.cols)) (ht : tot q (part (lines q a) i hc k) (i, k) = 0)
    (hcn : (cnt q (part (lines q a) i hc k) (i * q.cols + k) : Int) = mb) : ¬ Sol q mb (lines q a) := by
  intro hs
  have h1 := hs.2 (by omega)
  rw [cnt_blanks hs.degOk] at h1
  have h2 := cnt_succ (i := i) q (lines q a) hk
  have h3 : tot q (lines q a) (i, k) = 0 := by
    have e2 := deg_full (L := lines q a) (m := q.rows) (i := i) hh (Nat.le_refl k)
    rw [if_neg (fun g => by rw [stay_blank hk hh (by omega)] at g; exact absurd g.2 (by decide))] at e2
    unfold tot at ht ⊢
    omega
  rw [if_pos h3] at h2
  have h4 : cnt q (lines q a) (i * q.cols + k) = cnt q (part (lines q a) i hc k) (i * q.cols + k) := cnt_congr fun p hp => by
    unfold tot
    rw [deg_done]
    rcases pos_before (q := q) (by omega) hp (by omega) with g | g
    · exact .inl g
    · exact .inr ⟨g.1, g.2, by omega⟩
  have h5 : cnt q (lines q a) (i * q.cols + (k + 1)) ≤ cnt q (lines q a) (q.rows * q.cols) := cnt_le (by
    have : (i + 1) * q.cols ≤ q.rows * q.cols := Nat.mul_le_mul_right _ hi
    rw [Nat.add_mul] at this
    omega)
  omega

/-- the test on the number of blanks -/
theorem blank_step {c N : Nat} (hmb : mb ≤ 65535) (hc : c = if 0 < mb then N else 0) (hl : 0 ≤ mb → (N : Int) ≤ mb) :
    (blank mb c = none ∧ (N : Int) = mb) ∨ (∃ c', blank mb c = some c' ∧ c' = (if 0 < mb then N + 1 else 0) ∧ (0 ≤ mb → ((N + 1 : Nat) : Int) ≤ mb)) := by
  unfold blank
  by_cases h : (c : Int) = mb
  · left
    rw [if_pos h]
    refine ⟨rfl, ?_⟩
    by_cases g : 0 < mb
    · rw [if_pos g] at hc; omega
    · rw [if_neg g] at hc
      have := hl (by omega)
      omega
  · right
    rw [if_neg h]
    refine ⟨_, rfl, ?_, ?_⟩
    · by_cases g : 0 < mb
      · rw [if_pos g] at hc ⊢
        have := hl (by omega)
        rw [if_pos g, hc, Nat.mod_eq_of_lt (by omega)]
      · rw [if_neg g] at hc ⊢
        rw [if_neg g, hc]
    · intro h0
      have := hl h0
      by_cases g : 0 < mb
      · rw [if_pos g] at hc; omega
      · rw [if_neg g] at hc; omega

theorem row_other {c : Nat} (hc : c ≠ k) : rowAt i (k + 1) c = rowAt i k c := by
  unfold rowAt
  by_cases g : c < k
  · rw [if_pos g, if_pos (by omega)]
  · rw [if_neg g, if_neg (by omega)]

theorem vert_ok {a : Asg 2} (hq : q.Ok) (hsm : Small q) (hmb : mb ≤ 65535) (hi : i < q.rows) (hk : k < q.cols) (hh : k < hc ∨ (hc + 1 = q.cols ∧ k + 1 = q.cols))
    (hI : ∃ M, Inv q mb (part (lines q a) i hc k) i k s M) :
    Step (vert q mb i k s) (fun s' => ∃ M, Inv q mb (part (lines q a) i hc (k + 1)) i (k + 1) s' M) (¬ Sol q mb (lines q a)) := by
  obtain ⟨M, hI⟩ := hI
  have rk : rowAt i k k = i := rowAt_ge (Nat.le_refl k)
  have rk' : rowAt i (k + 1) k = i + 1 := rowAt_lt (Nat.lt_succ_self k)
  have hk0 := hI.val.val k hk (by rw [rk]; exact hi)
  have ck := hI.cell hsm (k := k) hk (by rw [rk]; exact hi)
  rw [rk] at hk0 ck
  have kk := hI.knd (i, k) hi hk
  have hnmod : q.cols % 256 = q.cols := Nat.mod_eq_of_lt (by have := hsm 0 0; omega)
  -- the box is not continued
  have close : ∀ (c : Nat) (a' : List Nat), tot q (part (lines q a) i hc k) (i, k) ≠ 1 → Val q i (k + 1) M a' →
      (c = if 0 < mb then cnt q (part (lines q a) i hc k) (i * q.cols + (k + 1)) else 0) → (0 ≤ mb → (cnt q (part (lines q a) i hc k) (i * q.cols + (k + 1)) : Int) ≤ mb) →
      ∃ M, Inv q mb (part (lines q a) i hc (k + 1)) i (k + 1) (c, a') M := by
    intro c a' h1 hv hc1 hc2
    rw [part_v_false (stay_blank hk hh h1)]
    refine ⟨M, hI.minv, hI.knd, hv, fun r c hr hcn hd => ?_, hc1, hc2⟩
    by_cases e : (r, c) = (i, k)
    · rw [e]
      have : kind (i, k) (M (i, k)) ≤ 2 := by
        cases M (i, k) with
        | full => exact Nat.le_refl _
        | num => exact Nat.le_succ _
        | vert y => rw [kind_vert]; split <;> omega
      omega
    · exact hI.done r c hr hcn (by simp only [Prod.mk.injEq] at e; omega)
  have hcnt := cnt_succ (i := i) q (part (lines q a) i hc k) hk
  have hself : enc q.cols (M (i, k)) = k → M (i, k) = .vert (i, k) := fun h => by
    generalize M (i, k) = e at *
    cases ck with
    | full => change q.cols = k at h; omega
    | num t _ _ => change q.cols + t = k at h; omega
    | vert c _ _ => change c = k at h; subst h; rw [rk]
  have hfull : enc q.cols (M (i, k)) = q.cols → M (i, k) = .full := fun h => by
    generalize M (i, k) = e at *
    cases ck with
    | full => rfl
    | num t _ _ => change q.cols + t = q.cols at h; omega
    | vert c _ _ => change c = q.cols at h; omega
  have t0 : enc q.cols (M (i, k)) = k → tot q (part (lines q a) i hc k) (i, k) = 0 := fun h => by
    rw [← kk, hself h, kind_vert, if_pos rfl]
  have t2 : enc q.cols (M (i, k)) = q.cols → tot q (part (lines q a) i hc k) (i, k) = 2 := fun h => by
    rw [← kk, hfull h, kind_full]
  have t1 : enc q.cols (M (i, k)) ≠ k → enc q.cols (M (i, k)) ≠ q.cols → tot q (part (lines q a) i hc k) (i, k) = 1 := fun h1 h2 => by
    rw [← kk]
    generalize M (i, k) = e at *
    cases ck with
    | full => exact absurd rfl h2
    | num t _ _ => rfl
    | vert c _ _ => rw [kind_vert, if_neg]; intro g; exact h1 (congrArg Prod.snd g)
  unfold vert
  rw [hk0]
  dsimp only [Option.bind_some]
  by_cases him : i + 1 < q.rows
  · rw [if_pos (by omega), num_of hq him hk]
    have hMy := fresh hI.minv (hI.knd (i + 1, k) him hk) (deg_new (by omega) fun _ => Nat.le_refl _)
    have hey : enc q.cols (M (i + 1, k)) = (if q.num (i + 1, k) > 0 then q.cols + q.num (i + 1, k) else k) % 256 := by
      rw [hMy]
      have := hsm (i + 1) k
      by_cases g : q.num (i + 1, k) = 0
      · rw [if_pos g, if_neg (by omega), Nat.mod_eq_of_lt (by omega)]; rfl
      · rw [if_neg g, if_pos (by omega), Nat.mod_eq_of_lt (by omega)]; rfl
    have vclose : Val q i (k + 1) M (s.2.set k ((if q.num (i + 1, k) > 0 then q.cols + q.num (i + 1, k) else k) % 256)) := by
      refine ⟨by rw [List.length_set]; exact hI.val.len, fun c hcn hr => ?_⟩
      rw [Degree.get_set (by rw [hI.val.len]; exact hk)]
      by_cases g : c = k
      · subst g; rw [if_pos rfl, rk', hey]
      · rw [if_neg g, row_other g]
        exact hI.val.val c hcn (by rw [← row_other g]; exact hr)
    by_cases hb : enc q.cols (M (i, k)) = k
    · rw [if_pos hb]
      have h0 := t0 hb
      rw [if_pos h0] at hcnt
      rcases blank_step hmb hI.count hI.lim with ⟨e, e'⟩ | ⟨c', e, e1, e2⟩
      · rw [e]
        exact blank_dead hi hk hh h0 e'
      · rw [e]
        dsimp only [Option.map_some]
        rw [if_neg (fun g => g.1 hb)]
        exact close c' _ (by omega) vclose (by rw [hcnt]; exact e1) (by rw [hcnt]; exact e2)
    · rw [if_neg hb]
      dsimp only [Option.map_some]
      by_cases hf : enc q.cols (M (i, k)) = q.cols
      · have h2 := t2 hf
        rw [if_neg (by omega), Nat.add_zero] at hcnt
        rw [if_neg (fun g => g.2 hf)]
        exact close _ _ (by omega) vclose (by rw [hcnt]; exact hI.count) (by rw [hcnt]; exact hI.lim)
      · have h1 := t1 hb hf
        rw [if_pos ⟨hb, hf⟩]
        have hbv : (lines q a).v i k = true := (vdet_iff (num := q.num) (h := hOf q a) hh (Nat.le_refl k) him hk).2 h1
        have ep := part_v_true (hc := hc) hbv
        have ht := fun x => tot_setV (q := q) (part_new_v (L := lines q a) (i := i) (j := k) (hc := hc)) him x
        rw [← ep] at ht
        have hA := adj_setV (L := part (lines q a) i hc k) him hk
        rw [← ep] at hA
        have hle := part_le (lines q a) i hc (k + 1)
        have hxy : ((i, k) : Nat × Nat) ≠ (i + 1, k) := by simp
        have hfx : M (i, k) ≠ .full := fun g => hf (by rw [g]; rfl)
        have hfy : M (i + 1, k) ≠ .full := by rw [hMy]; split <;> exact fun g => nomatch g
        have hncyc : M (i, k) ≠ .vert (i + 1, k) := fun g => by
          have := (hI.minv.vert _ _ g).1
          rw [hMy] at this
          split at this
          · cases this
          · cases this
        have hx2 : tot q (part (lines q a) i hc (k + 1)) (i, k) = 2 := by rw [ht, if_pos (.inl rfl), h1]
        have hdone : ∀ r c, r < q.rows → c < q.cols → (r < i ∨ (r = i ∧ c < k + 1)) → tot q (part (lines q a) i hc (k + 1)) (r, c) = 0 ∨ tot q (part (lines q a) i hc (k + 1)) (r, c) = 2 := by
          intro r c hr hcn hd
          by_cases e : (r, c) = (i, k)
          · rw [e]; exact .inr hx2
          · rw [ht, if_neg (by simp only [Prod.mk.injEq] at e ⊢; omega)]
            exact hI.done r c hr hcn (by simp only [Prod.mk.injEq] at e; omega)
        have hcnt' : cnt q (part (lines q a) i hc (k + 1)) (i * q.cols + (k + 1)) = cnt q (part (lines q a) i hc k) (i * q.cols + k) := by
          rw [cnt_succ q _ hk, if_neg (by omega)]
          refine cnt_congr fun p hp => ?_
          have := pos_before (q := q) (by omega) hp (by omega)
          rw [ht, if_neg (by simp only [Prod.mk.injEq]; omega)]
          rfl
        have fin : ∀ a', Val q i (k + 1) (joinM M (i, k) (i + 1, k)) a' → (∀ s t, M (i, k) = .num s → M (i + 1, k) = .num t → s = t) →
            ∃ M, Inv q mb (part (lines q a) i hc (k + 1)) i (k + 1) (s.1, a') M := fun a' hv hnum => by
          obtain ⟨m1, m2⟩ := joined hI hA ht hxy hfx hfy hncyc hnum
          exact ⟨_, m1, m2, hv, hdone, by rw [hcnt']; exact hI.count, by rw [hcnt']; exact hI.lim⟩
        -- `mate` after the step, by columns
        have mkval : ∀ (J : Nat × Nat → End (Nat × Nat)) (a' : List Nat), a'.length = q.cols → a'[k]? = some (enc q.cols (J (i + 1, k))) →
            (∀ c, c < q.cols → c ≠ k → rowAt i k c < q.rows → a'[c]? = some (enc q.cols (J (rowAt i k c, c)))) → Val q i (k + 1) J a' := by
          intro J a' h1 h2 h3
          refine ⟨h1, fun c hcn hr => ?_⟩
          by_cases g : c = k
          · subst g; rw [rk']; exact h2
          · rw [row_other g] at hr ⊢; exact h3 c hcn g hr
        have hkl : k < s.2.length := by rw [hI.val.len]; exact hk
        generalize ex : M (i, k) = e at *
        by_cases hz : q.num (i + 1, k) = 0
        · rw [if_neg (by omega)]
          rw [if_pos hz] at hMy
          refine fin _ ?_ (fun s t h1 h2 => by rw [hMy] at h2; cases h2)
          cases ck with
          | full => exact absurd rfl hfx
          | num t _ _ =>
            rw [joinM_nv ex hMy]
            refine mkval _ _ hI.val.len ?_ fun c hcn hne hr => ?_
            · rw [upd_self]; exact hk0
            · rw [upd_ne (by simp [hne]), upd_ne (by simp [hne]), upd_ne (by simp [hne])]
              exact hI.val.val c hcn hr
          | vert u hu hur =>
            have huk : u ≠ k := fun g => hb g
            rw [joinM_vv ex hMy]
            refine mkval _ _ hI.val.len ?_ fun c hcn hne hr => ?_
            · rw [upd_self]; exact hk0
            · rw [upd_ne (by simp [hne])]
              by_cases g : c = u
              · subst g
                rw [upd_self, hI.val.val c hcn hr, (hI.minv.vert _ _ ex).1]
                rfl
              · rw [upd_ne (by simp [g]), upd_ne (by simp [hne]), upd_ne (by simp [hne])]
                exact hI.val.val c hcn hr
        · rw [if_pos (by omega)]
          rw [if_neg hz] at hMy
          cases ck with
          | full => exact absurd rfl hfx
          | num t _ _ =>
            rw [if_pos (by show q.cols + t > q.cols; omega)]
            by_cases g : t = q.num (i + 1, k)
            · rw [if_neg (by show ¬ q.cols + t ≠ q.cols + q.num (i + 1, k); omega)]
              refine fin _ ?_ (fun s t h1 h2 => by rw [hMy] at h2; cases h1; cases h2; exact g)
              rw [joinM_nn ex hMy, hnmod]
              refine mkval _ _ (by rw [List.length_set]; exact hI.val.len) ?_ fun c hcn hne hr => ?_
              · rw [upd_self, Degree.get_set hkl, if_pos rfl]; rfl
              · rw [upd_ne (by simp [hne]), upd_ne (by simp [hne]), Degree.get_set hkl, if_neg hne]
                exact hI.val.val c hcn hr
            · rw [if_pos (by show q.cols + t ≠ q.cols + q.num (i + 1, k); omega)]
              intro hs
              obtain ⟨z, w, hzw, ez, ew, _, _⟩ := join_clash hI.minv ex hMy
              rw [← hA] at hzw
              have := hs.1.same z w (hzw.mono (adj_mono hle)) (by omega) (by omega)
              omega
          | vert u hu hur =>
            have huk : u ≠ k := fun g => hb g
            rw [if_neg (by show ¬ u > q.cols; omega)]
            refine fin _ ?_ (fun s t h1 h2 => by cases h1)
            rw [joinM_vn ex hMy, hnmod, Nat.mod_eq_of_lt (by have := hsm (i + 1) k; omega)]
            have hul : u < (s.2.set k q.cols).length := by rw [List.length_set, hI.val.len]; exact hu
            refine mkval _ _ (by rw [List.length_set, List.length_set]; exact hI.val.len) ?_ fun c hcn hne hr => ?_
            · show ((s.2.set k q.cols).set u _)[k]? = _
              rw [upd_ne (by simp [Ne.symm huk]), upd_self, Degree.get_set hul, if_neg (Ne.symm huk), Degree.get_set hkl, if_pos rfl]; rfl
            · show ((s.2.set k q.cols).set u _)[c]? = _
              rw [Degree.get_set hul]
              by_cases g : c = u
              · subst g
                rw [if_pos rfl, upd_self]; rfl
              · rw [if_neg g, upd_ne (by simp [g]), upd_ne (by simp [hne]), upd_ne (by simp [hne]), Degree.get_set hkl, if_neg hne]
                exact hI.val.val c hcn hr
  · rw [if_neg (by omega)]
    have vclose : Val q i (k + 1) M (s.2.set k (q.cols % 256)) := by
      refine ⟨by rw [List.length_set]; exact hI.val.len, fun c hcn hr => ?_⟩
      rw [Degree.get_set (by rw [hI.val.len]; exact hk)]
      by_cases g : c = k
      · subst g; rw [rk'] at hr; omega
      · rw [if_neg g, row_other g]
        exact hI.val.val c hcn (by rw [← row_other g]; exact hr)
    by_cases hb : enc q.cols (M (i, k)) = k
    · rw [if_pos hb]
      have h0 := t0 hb
      rw [if_pos h0] at hcnt
      rcases blank_step hmb hI.count hI.lim with ⟨e, e'⟩ | ⟨c', e, e1, e2⟩
      · rw [e]
        exact blank_dead hi hk hh h0 e'
      · rw [e]
        exact close c' _ (by omega) vclose (by rw [hcnt]; exact e1) (by rw [hcnt]; exact e2)
    · rw [if_neg hb]
      by_cases hf : enc q.cols (M (i, k)) = q.cols
      · have h2 := t2 hf
        rw [if_neg (by omega), Nat.add_zero] at hcnt
        rw [if_neg (fun g => g hf)]
        exact close _ _ (by omega) vclose (by rw [hcnt]; exact hI.count) (by rw [hcnt]; exact hI.lim)
      · rw [if_pos hf]
        have h1 := t1 hb hf
        intro hs
        have h3 := hs.degOk i k hi hk
        have e2 := deg_full (L := lines q a) (m := q.rows) (i := i) hh (Nat.le_refl k)
        rw [if_neg (fun g => him g.1)] at e2
        unfold tot at h1 h3
        omega

theorem root_eq (hq : q.Ok) (hsm : Small q) :
    root q = some (0, (List.range q.cols).map fun j => enc q.cols (if q.num (0, j) = 0 then .vert (0, j) else .num (q.num (0, j)))) := by
  unfold root
  rw [mapM_some (g := fun j => enc q.cols (if q.num (0, j) = 0 then .vert (0, j) else .num (q.num (0, j))))]
  · rfl
  intro j hj
  have := hsm 0 j
  have hj := List.mem_range.1 hj
  rw [num_of hq (by have := hq.rows_pos; omega) hj]
  dsimp only [Option.map_some]
  by_cases g : q.num (0, j) = 0
  · rw [if_pos g, if_neg (by omega), Nat.mod_eq_of_lt (by omega)]; rfl
  · rw [if_neg g, if_pos (by omega), Nat.mod_eq_of_lt (by omega)]; rfl

theorem final {a : Asg 2} (hI : Inv q mb (lines q a) q.rows 0 s M) : Sol q mb (lines q a) := by
  have hd : DegOk q (lines q a) := fun i j hi hj => hI.done i j hi hj (.inl hi)
  refine ⟨⟨fun i j hi hj h => ?_, fun i j hi hj h => ?_, fun i j hi hj h => ?_, fun x y hc hx hy => ?_⟩, fun h => ?_⟩
  · have := hd i j hi hj
    unfold tot lab at this
    rw [if_neg h] at this
    omega
  · have := hd i j hi hj
    unfold tot lab at this
    rw [if_pos h] at this
    omega
  · have h2 := hd i j hi hj
    have hk := hI.knd (i, j) hi hj
    have h2' : tot q (lines q a) (i, j) = 2 := by unfold tot at h2 ⊢; omega
    have hM : M (i, j) = .full := by
      match e : M (i, j) with
      | .full => rfl
      | .num t => rw [e, kind_num] at hk; omega
      | .vert y => rw [e, kind_vert] at hk; split at hk <;> omega
    obtain ⟨z, hz, hn⟩ := hI.minv.full _ hM
    refine ⟨z, hz, ?_⟩
    rcases hn with hn | hn
    · omega
    · by_cases e : z = (i, j)
      · rw [e] at hn; exact absurd hM hn
      · obtain ⟨hb, hdz⟩ := conn_board hz e
        have h3 := hd z.1 z.2 hb.1 hb.2
        have hk' := hI.knd z hb.1 hb.2
        change tot q (lines q a) z = 0 ∨ tot q (lines q a) z = 2 at h3
        have h4 : tot q (lines q a) z = 2 := by unfold tot at h3 ⊢; omega
        rw [h4] at hk'
        match e : M z with
        | .full => exact absurd e hn
        | .num t => rw [e, kind_num] at hk'; omega
        | .vert y => rw [e, kind_vert] at hk'; split at hk' <;> omega
  · exact hI.minv.same x y hc (by omega) (by omega)
  · have := hI.lim h
    rw [cnt_blanks hd]
    exact this

theorem run (hq : q.Ok) (hn : 2 ≤ q.cols) (hsm : Small q) (hmb : mb ≤ 65535) : Desc (numlinZdd q mb) ∧ ∀ a, ZddMem (numlinZdd q mb) q.top a ↔ Sol q mb (lines q a) := by
  refine grid_run (I := fun P i _ vc s => ∃ M, Inv q mb P i vc s M) hq.rows_pos hn
    (s0 := (0, (List.range q.cols).map fun j => enc q.cols (if q.num (0, j) = 0 then .vert (0, j) else .num (q.num (0, j))))) (horz := horz q.cols) (vert := vert q mb) ?_ ?_ ?_ ?_ ?_ ?_ ?_
  · show rootOf q (0, []) (root q) = _
    rw [root_eq hq hsm]; rfl
  · intro s level b i j hi hj
    show childOf s level (child q mb s level (b != 0)) = _
    have hlt : j < q.cols - 1 := by rw [← hj]; exact Nat.mod_lt _ (by omega)
    unfold child
    dsimp only
    rw [hi, hj]
    congr 1
    congr 1
    funext s
    congr 1
    funext s
    by_cases g : j + 1 = q.cols - 1
    · rw [if_pos g, if_neg (by omega)]
    · rw [if_neg g, if_pos (by omega)]
  · intro a
    have e : ∀ x, tot q (part (lines q a) 0 0 0) x = lab q.num x := fun x => by
      unfold tot; rw [deg_none _ _ _ _ (part_zero_h _) (part_zero_v _)]; rfl
    refine ⟨fun x => if q.num x = 0 then .vert x else .num (q.num x), ?_, fun x _ _ => ?_, ⟨by simp, fun k hk _ => ?_⟩, fun r k hr hk hd => by omega, ?_, ?_⟩
    · have : Adj q.rows q.cols (part (lines q a) 0 0 0) = fun _ _ => False := by
        funext x y
        exact propext ⟨fun g => no_adj_of_deg (deg_none _ _ _ _ (part_zero_h _) (part_zero_v _)) g, False.elim⟩
      rw [this]
      exact mInv_init q.num
    · rw [e]
      unfold lab
      by_cases g : q.num x = 0
      · rw [if_pos g, if_pos g, kind_vert, if_pos rfl]
      · rw [if_neg g, if_neg g, kind_num]
    · rw [rowAt_ge (Nat.zero_le _)]
      simp [hk]
    · simp [cnt]
    · intro h; simpa [cnt] using h
  · exact fun a i j s hi hj hI => horz_ok hsm hi hj hI
  · exact fun a i hc k s hi hk hh hI => vert_ok hq hsm hmb hi hk hh hI
  · rintro P i s ⟨M, h⟩
    have e : (i + 1) * q.cols + 0 = i * q.cols + q.cols := by rw [Nat.add_mul, Nat.one_mul, Nat.add_zero]
    refine ⟨M, h.minv, h.knd, ⟨h.val.len, fun k hk hr => ?_⟩, fun r k hr hk hd => h.done r k hr hk (by omega), by rw [e]; exact h.count, by rw [e]; exact h.lim⟩
    have := h.val.val k hk
    rw [rowAt_lt hk] at this
    rw [rowAt_ge (Nat.zero_le _)] at hr ⊢
    exact this hr
  · rintro a s ⟨M, h⟩
    exact final h

end TdZdd.Nl.Numlin

namespace TdZdd.Nl

/-- Some vertical lines give a solution iff the determined ones do. -/
theorem sol_iff {q : Board} {mb : Int} {a : Asg 2} : Numlin.Sol q mb (lines q a) ↔ ∃ v, Numlin.Sol q mb ⟨hOf q a, v⟩ := by
  constructor
  · exact fun h => ⟨_, h⟩
  · rintro ⟨v, hv⟩
    have hA : Agree q.rows q.cols ⟨hOf q a, v⟩ (lines q a) := ⟨fun _ _ _ _ => rfl, fun i j hi hj => vdet_unique hv.degOk i j hi hj⟩
    have hd : DegOk q (lines q a) := degOk_iff.2 ⟨v, hv.degOk⟩
    have e : blanks q (lines q a) = blanks q ⟨hOf q a, v⟩ := by
      rw [Numlin.cnt_blanks hd, Numlin.cnt_blanks hv.degOk]
      refine Numlin.cnt_congr fun p hp => ?_
      have hn : 0 < q.cols := by
        rcases Nat.eq_zero_or_pos q.cols with g | g
        · rw [g] at hp; omega
        · exact g
      have h1 : p / q.cols < q.rows := by rw [Nat.div_lt_iff_lt_mul hn]; exact hp
      unfold tot
      rw [hA.deg h1 (Nat.mod_lt _ hn)]
    refine ⟨⟨fun i j hi hj h => ?_, fun i j hi hj h => ?_, fun i j hi hj h => ?_, fun x y h => ?_⟩, by rw [e]; exact hv.2⟩
    · rw [← hA.deg hi hj]; exact hv.1.number i j hi hj h
    · rw [← hA.deg hi hj]; exact hv.1.other i j hi hj h
    · rw [← hA.deg hi hj] at h; rw [← hA.adj]; exact hv.1.noLoop i j hi hj h
    · rw [← hA.adj] at h; exact hv.1.same x y h

end TdZdd.Nl
