import Verif.HashTableProofs

/-!
# Property C46: the hash table

The reference behaviour is a plain list of pairwise inequivalent entries (`HOp.spec`).
-/

namespace TdZdd

variable {E : Type}

/-- Operations on a table. `modify x f` is `add(x)` followed by a write through the returned
reference (the builder's `p0 = p` and `MyHashMap`'s `map[key] = v`). -/
inductive HOp (E : Type)
  | add (x : E)
  | modify (x : E) (f : E → E)
  | init (n : Nat)
  | clear
  | rehash (n : Nat)
  | copy (n : Nat)

/-- The model of the operations. -/
def HOp.run (hash : E → Nat) (eq : E → E → Bool) (t : HT E) : HOp E → Option (HT E)
  | .add x => (HT.add hash eq t x).map (·.1)
  | .modify x f =>
    (HT.add hash eq t x).bind fun p =>
      (p.1.mem p.2).map fun e => { p.1 with mem := upd p.1.mem p.2 (some (f e)) }
  | .init n => HT.init n t
  | .clear => some HT.empty
  | .rehash n => HT.rehash hash eq t n
  | .copy n => HT.copy hash eq t n

/-- Reference: add an entry unless an equivalent one is present. -/
def addSpec (eq : E → E → Bool) (l : List E) (x : E) : List E :=
  if l.any (fun e => eq e x) then l else l ++ [x]

/-- Reference behaviour of the operations. -/
def HOp.spec (eq : E → E → Bool) (l : List E) : HOp E → List E
  | .add x => addSpec eq l x
  | .modify x f => (addSpec eq l x).map fun e => if eq e x then f e else e
  | .init _ => []
  | .clear => []
  | .rehash _ => l
  | .copy _ => l

/-- The arguments are in the domain `P`, and modifications keep entries equivalent. -/
def HOp.Valid (eq : E → E → Bool) (P : E → Prop) : HOp E → Prop
  | .add x => P x
  | .modify x f => P x ∧ ∀ e, P e → P (f e) ∧ eq e (f e) = true
  | _ => True

/-- the table stores exactly the entries of the list, which are pairwise inequivalent -/
structure HSim (hash : E → Nat) (eq : E → E → Bool) (P : E → Prop) (t : HT E) (l : List E) : Prop where
  ok : HT.Ok hash eq P t
  has : ∀ e, t.Has e ↔ e ∈ l
  size : t.size = l.length
  pw : l.Pairwise fun x y => eq x y = false

variable {hash : E → Nat} {eq : E → E → Bool} {P : E → Prop}

theorem HSim.add (hl : HT.Law hash eq P) {t : HT E} {l : List E} (h : HSim hash eq P t l) {x : E} (hx : P x) :
    ∃ t' i, HT.add hash eq t x = some (t', i) ∧ HSim hash eq P t' (addSpec eq l x) ∧
      i < t'.tableSize ∧ t'.mem i = some (((l.find? fun e => eq e x)).getD x) := by
  obtain ⟨t', i, h1, h2, h3⟩ := HT.add_spec h.ok hl hx
  refine ⟨t', i, h1, ?_⟩
  unfold addSpec
  by_cases hany : l.any (fun e => eq e x) = true
  · rw [if_pos hany]
    obtain ⟨e, he, hex⟩ := List.any_eq_true.1 hany
    obtain ⟨rfl, e', he', hex'⟩ := h3.old ⟨e, (h.has e).2 he, hex⟩
    refine ⟨h, h3.idx, ?_⟩
    rw [he']
    cases hf : l.find? (fun e => eq e x) with
    | none => have := List.find?_eq_none.1 hf e he; rw [hex] at this; simp at this
    | some e2 =>
      have hm2 := List.mem_of_find?_eq_some hf
      have he2 : eq e2 x = true := by have := List.find?_some hf; simpa using this
      obtain ⟨j, hj, hmj⟩ := (h.has e2).2 hm2
      have hP := h.ok.dom h3.idx he'
      have hP2 := h.ok.dom hj hmj
      have := h.ok.pw h3.idx hj he' hmj (hl.trans hP hx hP2 hex' (hl.symm hP2 hx he2))
      subst this
      rw [he'] at hmj
      exact hmj
  · rw [if_neg hany]
    have hno : ∀ e ∈ l, eq e x = false := by
      intro e he
      cases hex : eq e x with
      | false => rfl
      | true => exact absurd (List.any_eq_true.2 ⟨e, he, hex⟩) hany
    obtain ⟨n1, n2, n3⟩ := h3.new (fun e he => hno e ((h.has e).1 he))
    refine ⟨⟨h2, ?_, ?_, ?_⟩, h3.idx, ?_⟩
    · intro e; rw [n3, h.has]; simp
    · rw [n1, h.size]; simp
    · rw [List.pairwise_append]
      exact ⟨h.pw, by simp, fun a ha b hb => by simp at hb; rw [hb]; exact hno a ha⟩
    · rw [n2, List.find?_eq_none.2 (fun e he => by rw [hno e he]; simp)]; rfl

theorem HSim.addAll (hl : HT.Law hash eq P) {t : HT E} {l : List E} (h : HSim hash eq P t l) (n : Nat)
    (fuel : Nat) :
    ∃ t', ((HT.init (max t.tableSize n) HT.empty).bind fun tmp =>
      t.entries.foldlM (fun t e => (HT.addF hash eq (fuel + 1) t e).map (·.1)) tmp) = some t' ∧
      HSim hash eq P t' l := by
  obtain ⟨t', h1, h2, _, _, h5, h6⟩ := HT.rehash_spec hl fuel n h.ok
  exact ⟨t', h1, h2, fun e => by rw [h6, h.has], by rw [h5, h.size], h.pw⟩

theorem HSim.step (hl : HT.Law hash eq P) {t : HT E} {l : List E} (h : HSim hash eq P t l) (op : HOp E)
    (hv : op.Valid eq P) : ∃ t', op.run hash eq t = some t' ∧ HSim hash eq P t' (op.spec eq l) := by
  cases op with
  | add x =>
    obtain ⟨t', i, h1, h2, _⟩ := h.add hl hv
    exact ⟨t', by simp only [HOp.run, h1]; rfl, h2⟩
  | modify x f =>
    obtain ⟨hx, hf⟩ := hv
    obtain ⟨t', i, h1, h2, h3, h4⟩ := h.add hl hx
    simp only [HOp.spec]
    generalize addSpec eq l x = l' at h2 ⊢
    obtain ⟨e, he⟩ : ∃ e, t'.mem i = some e := ⟨_, h4⟩
    have hex : eq e x = true := by
      rw [h4] at he
      cases hfi : l.find? (fun e => eq e x) with
      | none => rw [hfi] at he; cases he; exact hl.refl hx
      | some e2 =>
        rw [hfi] at he; cases he
        have := List.find?_some hfi; simpa using this
    have hPe := h2.ok.dom h3 he
    have huniq : ∀ e', e' ∈ l' → (eq e' x = true ↔ e' = e) := by
      intro e' he'
      constructor
      · intro hex'
        obtain ⟨j, hj, hmj⟩ := (h2.has e').2 he'
        have hPe' := h2.ok.dom hj hmj
        have := h2.ok.pw hj h3 hmj he (hl.trans hPe' hx hPe hex' (hl.symm hPe hx hex))
        subst this; rw [he] at hmj; exact (Option.some.inj hmj).symm
      · rintro rfl; exact hex
    refine ⟨{ t' with mem := upd t'.mem i (some (f e)) }, ?_, ?_⟩
    · simp only [HOp.run, h1, Option.bind_some, he]; rfl
    · have hel : e ∈ l' := (h2.has e).1 ⟨i, h3, he⟩
      obtain ⟨hPf, heqf⟩ := hf e hPe
      refine ⟨h2.ok.replace hl h3 he hPf heqf, ?_, by rw [List.length_map]; exact h2.size, ?_⟩
      · intro g
        rw [List.mem_map]
        constructor
        · rintro ⟨j, hj, hmj⟩
          simp only [upd] at hmj
          split at hmj
          · exact ⟨e, hel, by rw [if_pos hex]; exact Option.some.inj hmj⟩
          · rename_i hji
            have hg := (h2.has g).1 ⟨j, hj, hmj⟩
            refine ⟨g, hg, ?_⟩
            rw [if_neg]
            intro hgx
            have := (huniq g hg).1 hgx
            subst this
            exact hji (h2.ok.pw hj h3 hmj he (hl.refl hPe))
        · rintro ⟨g', hg', hgg⟩
          by_cases hgx : eq g' x = true
          · rw [if_pos hgx] at hgg
            have := (huniq g' hg').1 hgx
            subst this
            refine ⟨i, h3, ?_⟩
            simp only [upd, if_true]; rw [hgg]
          · rw [if_neg hgx] at hgg
            subst hgg
            obtain ⟨j, hj, hmj⟩ := (h2.has g').2 hg'
            refine ⟨j, hj, ?_⟩
            simp only [upd]
            rw [if_neg]
            · exact hmj
            · intro hji; subst hji; rw [he] at hmj; cases hmj; exact hgx hex
      · rw [List.pairwise_map]
        have hPl : ∀ a ∈ l', P a := fun a ha => h2.ok.dom' ((h2.has a).2 ha)
        refine List.Pairwise.imp_of_mem ?_ h2.pw
        intro a b ha hb hab
        have hPa := hPl a ha
        have hPb := hPl b hb
        have key : ∀ u v, P u → P v → eq a u = true → eq b v = true → eq u v = false := by
          intro u v hu hv hau hbv
          cases huv : eq u v with
          | false => rfl
          | true =>
            rw [hl.trans hPa hv hPb (hl.trans hPa hu hv hau huv) (hl.symm hPb hv hbv)] at hab
            cases hab
        split <;> split
        · exact key _ _ (hf a hPa).1 (hf b hPb).1 (hf a hPa).2 (hf b hPb).2
        · exact key _ _ (hf a hPa).1 hPb (hf a hPa).2 (hl.refl hPb)
        · exact key _ _ hPa (hf b hPb).1 (hl.refl hPa) (hf b hPb).2
        · exact hab
  | init n =>
    obtain ⟨t', h1, h2, _, _, h5, h6⟩ := HT.init_spec (hash := hash) (eq := eq) (P := P) n t
    exact ⟨t', h1, h2, fun e => by simp [h6 e, HOp.spec], h5, .nil⟩
  | clear =>
    exact ⟨_, rfl, HT.empty_ok, fun e => by simp [HOp.spec, HT.Has, HT.empty], rfl, .nil⟩
  | rehash n => exact h.addAll hl n 1
  | copy n => exact h.addAll hl n 1

/-- running a sequence of operations -/
def HOp.runAll (hash : E → Nat) (eq : E → E → Bool) (t : HT E) (ops : List (HOp E)) : Option (HT E) :=
  ops.foldlM (HOp.run hash eq) t

/-- C46: after any sequence of operations on a new table, `size()` is the number of entries of the
reference list, `get` finds the reference entry equivalent to `x` or nothing, and `add` returns a
reference to that entry or to the new one. None of the loops runs forever or out of bounds. -/
theorem C46_hash_table (hash : E → Nat) (eq : E → E → Bool) (P : E → Prop) (hl : HT.Law hash eq P)
    (ops : List (HOp E)) (hv : ∀ op ∈ ops, op.Valid eq P) :
    ∃ t, HOp.runAll hash eq HT.empty ops = some t ∧
      t.size = (ops.foldl (HOp.spec eq) []).length ∧
      (∀ x, P x → ∃ r, HT.get hash eq t x = some r ∧
        r.map Prod.snd = (ops.foldl (HOp.spec eq) []).find? fun e => eq e x) ∧
      (∀ x, P x → ∃ t' i, HT.add hash eq t x = some (t', i) ∧
        t'.mem i = some (((ops.foldl (HOp.spec eq) []).find? fun e => eq e x).getD x)) := by
  have key : ∀ (ops : List (HOp E)) (t : HT E) (l : List E), HSim hash eq P t l →
      (∀ op ∈ ops, op.Valid eq P) → ∃ t', HOp.runAll hash eq t ops = some t' ∧
        HSim hash eq P t' (ops.foldl (HOp.spec eq) l) := by
    intro ops
    induction ops with
    | nil => intro t l h _; exact ⟨t, rfl, h⟩
    | cons op ops ih =>
      intro t l h hv
      obtain ⟨t1, h1, h2⟩ := h.step hl op (hv op (by simp))
      obtain ⟨t2, h3, h4⟩ := ih t1 _ h2 (fun o ho => hv o (by simp [ho]))
      exact ⟨t2, by unfold HOp.runAll at h3 ⊢; rw [List.foldlM_cons, h1]; exact h3, h4⟩
  obtain ⟨t, h1, h2⟩ := key ops HT.empty []
    ⟨HT.empty_ok, fun e => by simp [HT.Has, HT.empty], rfl, .nil⟩ hv
  refine ⟨t, h1, h2.size, ?_, ?_⟩
  · intro x hx
    obtain ⟨r, hr, hr1, hr2⟩ := HT.get_spec h2.ok hl hx
    refine ⟨r, hr, ?_⟩
    cases r with
    | none =>
      rw [List.find?_eq_none.2]; · rfl
      intro e he
      rw [hr2 rfl e ((h2.has e).2 he)]; simp
    | some p =>
      obtain ⟨i, e⟩ := p
      obtain ⟨hi, hme, hex⟩ := hr1 i e rfl
      cases hf : List.find? (fun e => eq e x) (ops.foldl (HOp.spec eq) []) with
      | none =>
        have := List.find?_eq_none.1 hf e ((h2.has e).1 ⟨i, hi, hme⟩)
        rw [hex] at this; simp at this
      | some e2 =>
        have hm2 := List.mem_of_find?_eq_some hf
        have he2 : eq e2 x = true := by have := List.find?_some hf; simpa using this
        obtain ⟨j, hj, hmj⟩ := (h2.has e2).2 hm2
        have hP := h2.ok.dom hi hme
        have hP2 := h2.ok.dom hj hmj
        have := h2.ok.pw hi hj hme hmj (hl.trans hP hx hP2 hex (hl.symm hP2 hx he2))
        subst this
        rw [hme] at hmj; exact hmj
  · intro x hx
    obtain ⟨t', i, h3, _, _, h4⟩ := h2.add hl hx
    exact ⟨t', i, h3, h4⟩

/-- C46: assignment between two different tables copies the contents. -/
theorem C46_assign (hash : E → Nat) (eq : E → E → Bool) (P : E → Prop) (hl : HT.Law hash eq P)
    (t o : HT E) (ho : HT.Ok hash eq P o) :
    ∃ t', HT.assign hash eq t o = some t' ∧ HT.Ok hash eq P t' ∧ t'.size = o.size ∧
      ∀ e, t'.Has e ↔ o.Has e := by
  obtain ⟨t0, h1, h2, h3, h4, h5, h6⟩ := HT.init_spec (hash := hash) (eq := eq) (P := P) o.tableSize t
  have hc := ho.count
  have hle := ho.le
  have hm := ho.max
  have hlen := HT.entries_length o
  obtain ⟨t', e1, k1, k2, k3, k4, k5⟩ := HT.addAll_spec hl 1 o.entries h2 h4
    (by rw [hlen, h5, ← hc]; omega) (fun x hx => ho.dom' (HT.mem_entries.1 hx))
    (fun x _ e he => absurd he (h6 e)) ho.pairwise
  refine ⟨t', ?_, k1, by omega, ?_⟩
  · unfold HT.assign; rw [h1]; exact e1
  · intro e; rw [k5, HT.mem_entries]; simp [h6 e]

/-- C46, defect: assigning a table to itself loses every entry (`operator=` has no check for
self-assignment). -/
theorem C46_self_assign_defect (hash : E → Nat) (eq : E → E → Bool) (t : HT E) :
    ∃ t', HT.selfAssign hash eq t = some t' ∧ t'.size = 0 ∧ ∀ e, ¬ t'.Has e := by
  obtain ⟨t0, h1, _, _, _, h5, h6⟩ :=
    HT.init_spec (hash := hash) (eq := eq) (P := fun _ => True) t.tableSize t
  have : t0.entries = [] := by
    apply List.eq_nil_iff_forall_not_mem.2
    intro e he; exact h6 e (HT.mem_entries.1 he)
  refine ⟨t0, ?_, h5, h6⟩
  unfold HT.selfAssign; rw [h1, Option.bind_some, this]; rfl

/-- C46: the table sizes come from the list of primes: the smallest listed prime not below `n`,
or `n + 1` beyond the list. -/
theorem C46_primeSize (n : Nat) : ∃ p, primeSize n = some p ∧ n ≤ p ∧
    ((∀ q ∈ primes, q < n) ∧ p = n + 1 ∨ p ∈ primes ∧ ∀ q ∈ primes, n ≤ q → p ≤ q) :=
  primeSize_spec n

/-- a table keyed by remainders modulo 20 in which all keys collide -/
example : ∃ t, HOp.runAll (fun _ => 0) (fun a b : Nat => decide (a % 20 = b % 20)) HT.empty
      ((List.range 30).map HOp.add ++ [.modify 45 fun e => e + 20]) = some t ∧
      t.size = 20 ∧ HT.get (fun _ => 0) (fun a b => decide (a % 20 = b % 20)) t 5 ≠ some none := by
  obtain ⟨t, h1, h2, h3, _⟩ := C46_hash_table (fun _ => 0) (fun a b : Nat => decide (a % 20 = b % 20))
    (fun _ => True) ⟨fun _ => by simp, fun _ _ h => by simp at h ⊢; omega,
      fun _ _ _ h h' => by simp at h h' ⊢; omega, fun _ _ _ => rfl⟩
    ((List.range 30).map HOp.add ++ [.modify 45 fun e => e + 20])
    (by
      intro op hop
      rw [List.mem_append, List.mem_map] at hop
      rcases hop with ⟨i, _, rfl⟩ | hop
      · trivial
      · simp at hop; subst hop; exact ⟨trivial, fun e _ => ⟨trivial, by simp⟩⟩)
  refine ⟨t, h1, h2.trans (by decide +kernel), ?_⟩
  obtain ⟨r, hr, hr2⟩ := h3 5 trivial
  have : List.find? (fun e => decide (e % 20 = 5 % 20)) (List.foldl (HOp.spec fun a b : Nat => decide (a % 20 = b % 20)) []
    ((List.range 30).map HOp.add ++ [.modify 45 fun e => e + 20])) = some 25 := by decide +kernel
  rw [this] at hr2
  rw [hr]
  intro h; cases h; cases hr2

end TdZdd
