import Verif.Searcher
import Verif.SemanticsLemmas
import Verif.Samples

/-! # Property C35: `DepthFirstSearcher::findOneInstance` -/

namespace TdZdd

variable {N : Nat} {S : Type}

/-- outcome of a search below a state -/
def SearchOk (sp : DdSpec (N + 1) S) (l : Int) (s : S) (st : SearchSt (N + 1)) (r : Option (Bool × SearchSt (N + 1))) : Prop :=
  (∃ k q, r = some (true, (k, st.2 ++ q)) ∧ Accepts sp l s q.reverse) ∨
  (∃ k, r = some (false, (k, st.2)) ∧ ∀ q, ¬ Accepts sp l s q)

theorem searchLoop_spec {sp : DdSpec (N + 1) S} (hd : Desc sp) {recur : S → Nat → SearchSt (N + 1) → Option (Bool × SearchSt (N + 1))}
    {p : S} {i b0 : Nat} (h0 : 0 < i) (hr : Reach sp (i : Int) p)
    (hrec : ∀ (m : Nat) s st, 0 < m → m < i → Reach sp (m : Int) s → SearchOk sp m s st (recur s m st)) :
    ∀ (bs : List Nat) (st : SearchSt (N + 1)),
    (∃ k q, searchLoop sp recur p i b0 bs st = some (true, (k, st.2 ++ q)) ∧ Accepts sp (i : Int) p q.reverse) ∨
    (∃ k, searchLoop sp recur p i b0 bs st = some (false, (k, st.2)) ∧
      ∀ bb ∈ bs, ∀ b : Fin (N + 1), b.val = (b0 + bb) % (N + 1) → ∀ q, ¬ Accepts sp (sp.child p i b).1 (sp.child p i b).2 q) := by
  intro bs
  induction bs with
  | nil => intro st; exact .inr ⟨st.1, rfl, nofun⟩
  | cons bb bs ih =>
    intro st
    rw [searchLoop]
    obtain ⟨b, hb⟩ : ∃ b : Fin (N + 1), b = ⟨(b0 + bb) % (N + 1), Nat.mod_lt _ (Nat.succ_pos N)⟩ := ⟨_, rfl⟩
    rw [← hb]
    have hlt := hd.child_lt b h0 hr
    have hge := hd.child_ge b h0 hr
    have hreach : Reach sp _ _ := .step b h0 hr
    obtain ⟨c, hc⟩ : ∃ c, c = sp.child p i b := ⟨_, rfl⟩
    rw [← hc] at hlt hge hreach ⊢
    have key : SearchOk sp c.1 c.2 st (if c.1 ≤ 0 then some (decide (c.1 ≠ 0), st)
        else if c.1 < (i : Int) then recur c.2 c.1.toNat st else none) := by
      by_cases h1 : c.1 ≤ 0
      · rw [if_pos h1]
        by_cases h2 : c.1 = 0
        · refine .inr ⟨st.1, by rw [decide_eq_false (not_not_intro h2)], ?_⟩
          rw [h2]; exact fun q => not_accepts_zero
        · exact .inl ⟨st.1, [], by rw [decide_eq_true h2, List.append_nil], .one (by omega)⟩
      · rw [if_neg h1, if_pos hlt]
        have e : ((c.1.toNat : Nat) : Int) = c.1 := by omega
        have := hrec c.1.toNat c.2 st (by omega) (by omega) (by rw [e]; exact hreach)
        rwa [e] at this
    rcases key with ⟨k, q, e, hq⟩ | ⟨k, e, hq⟩
    · rw [e, Option.bind_some]
      refine .inl ⟨k, q ++ [(i, b)], by simp, ?_⟩
      rw [List.reverse_append]
      exact .step h0 (by rw [← hc]; exact hq)
    · rw [e, Option.bind_some]
      rcases ih (k, st.2) with ⟨k', q, e', hq'⟩ | ⟨k', e', hq'⟩
      · exact .inl ⟨k', q, e', hq'⟩
      · refine .inr ⟨k', e', ?_⟩
        intro bb' hbb b' hb' q
        rcases List.mem_cons.1 hbb with rfl | hbb
        · have : b' = b := by rw [hb]; exact Fin.ext hb'
          rw [this, ← hc]; exact hq q
        · exact hq' bb' hbb b' hb' q

theorem rotate_surj (b0 : Nat) (b : Fin (N + 1)) (h : b0 < N + 1) : ∃ bb ∈ List.range (N + 1), b.val = (b0 + bb) % (N + 1) := by
  have := b.isLt
  by_cases hb : b0 ≤ b.val
  · exact ⟨b.val - b0, List.mem_range.2 (by omega), by rw [Nat.mod_eq_of_lt (by omega)]; omega⟩
  · refine ⟨N + 1 + b.val - b0, List.mem_range.2 (by omega), ?_⟩
    rw [show b0 + (N + 1 + b.val - b0) = b.val + (N + 1) from by omega, Nat.add_mod_right, Nat.mod_eq_of_lt (by omega)]

theorem searchStep_spec {sp : DdSpec (N + 1) S} (hd : Desc sp) (rnd : Nat → Nat) : ∀ (fuel : Nat) (i : Nat) (p : S) (st : SearchSt (N + 1)),
    0 < i → i ≤ fuel → Reach sp (i : Int) p → SearchOk sp i p st (searchStep sp rnd fuel p i st) := by
  intro fuel
  induction fuel with
  | zero => intro i p st h0 h1; omega
  | succ fuel ih =>
    intro i p st h0 h1 hr
    rw [searchStep]
    rcases searchLoop_spec hd (recur := searchStep sp rnd fuel) (b0 := rnd st.1 % (N + 1)) h0 hr
      (fun m s st hm hmi hr => ih m s st hm (by omega) hr) (List.range (N + 1)) (st.1 + 1, st.2) with ⟨k, q, e, hq⟩ | ⟨k, e, hq⟩
    · exact .inl ⟨k, q, e, hq⟩
    · refine .inr ⟨k, e, ?_⟩
      intro q h
      obtain ⟨b, q, rfl, h2⟩ := (accepts_pos h0).1 h
      obtain ⟨bb, hbb, e⟩ := rotate_surj (rnd st.1 % (N + 1)) b (Nat.mod_lt _ (Nat.succ_pos N))
      exact hq bb hbb b e q h2

/-- C35: for every sequence of random numbers, the search either returns the (level, value) pairs of an accepting run, from
the lowest to the highest level, or there is none and it throws. It never fails an assertion. Only descending levels
are required of the specification. -/
theorem C35_findOneInstance (sp : DdSpec (N + 1) S) (hd : Desc sp) (rnd : Nat → Nat) :
    (∃ vs, findOneInstance sp rnd = some (some vs) ∧ Accepts sp sp.root.1 sp.root.2 vs.reverse) ∨
    (findOneInstance sp rnd = some none ∧ ∀ p, ¬ Accepts sp sp.root.1 sp.root.2 p) := by
  unfold findOneInstance
  by_cases h1 : sp.root.1 ≤ 0
  · simp only [if_pos h1, Option.map_some]
    by_cases h2 : sp.root.1 = 0
    · refine .inr ⟨by rw [decide_eq_false (not_not_intro h2)]; rfl, ?_⟩
      rw [h2]; exact fun q => not_accepts_zero
    · exact .inl ⟨[], by rw [decide_eq_true h2]; rfl, .one (by omega)⟩
  · simp only [if_neg h1]
    have e : ((sp.root.1.toNat : Nat) : Int) = sp.root.1 := by omega
    have := searchStep_spec hd rnd sp.root.1.toNat sp.root.1.toNat sp.root.2 (0, []) (by omega) (Nat.le_refl _)
      (by rw [e]; exact .root)
    rw [e] at this
    rcases this with ⟨k, q, e', hq⟩ | ⟨k, e', hq⟩
    · exact .inl ⟨q, by rw [e']; rfl, hq⟩
    · exact .inr ⟨by rw [e']; rfl, hq⟩

/-- C35, read as itemsets: if the family is not empty, a member is found. -/
theorem C35_member (sp : DdSpec (N + 1) S) (hd : Desc sp) (rnd : Nat → Nat) (n : Nat) (a : Asg (N + 1)) (ha : ZddMem sp n a) :
    ∃ vs, findOneInstance sp rnd = some (some vs) ∧ Accepts sp sp.root.1 sp.root.2 vs.reverse := by
  rcases C35_findOneInstance sp hd rnd with h | ⟨_, h⟩
  · exact h
  · obtain ⟨p, hp, _⟩ := ha
    exact absurd hp (h p)

/-- different random numbers find different members of "at most one of the levels" -/
example : findOneInstance atMostOne (fun _ => 0) ≠ findOneInstance atMostOne (fun k => k + 1) ∧
    (findOneInstance atMostOne (fun _ => 0)).isSome = true := by decide +kernel

end TdZdd
