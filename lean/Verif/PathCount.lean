import Verif.Counting
import Verif.SemanticsLemmas

/-! The number of accepted paths is the number of members of the family. -/

namespace TdZdd

variable {N : Nat} {S : Type} {sp : DdSpec (N + 1) S}

theorem HasCount.image {α β : Type} {P : α → Prop} {Q : β → Prop} {k : Nat} (h : HasCount P k) (f : α → β)
    (hinj : ∀ x y, P x → P y → f x = f y → x = y) (hQ : ∀ y, Q y ↔ ∃ x, P x ∧ f x = y) : HasCount Q k := by
  obtain ⟨L, h1, h2, h3⟩ := h
  refine ⟨L.map f, ?_, ?_, by rw [List.length_map, h3]⟩
  · have : ∀ l : List α, (∀ x ∈ l, P x) → l.Nodup → (l.map f).Nodup := by
      intro l
      induction l with
      | nil => intro _ _; exact List.nodup_nil
      | cons a l ih =>
        intro hl hn
        obtain ⟨ha, hn⟩ := List.nodup_cons.1 hn
        rw [List.map_cons, List.nodup_cons]
        refine ⟨fun hm => ?_, ih (fun x hx => hl x (List.mem_cons_of_mem _ hx)) hn⟩
        obtain ⟨b, hb, e⟩ := List.mem_map.1 hm
        have := hinj b a (hl b (List.mem_cons_of_mem _ hb)) (hl a (List.mem_cons_self ..)) e
        exact ha (this ▸ hb)
    exact this L (fun x hx => (h2 x).1 hx) h1
  · intro y
    rw [List.mem_map, hQ]
    constructor
    · rintro ⟨x, hx, e⟩; exact ⟨x, (h2 x).1 hx, e⟩
    · rintro ⟨x, hx, e⟩; exact ⟨x, (h2 x).2 hx, e⟩

/-- the value at a level of a path, 0 if the level does not occur -/
def pathVal (p : Path (N + 1)) (j : Nat) : Fin (N + 1) := ((p.find? (fun x => x.1 == j)).map (·.2)).getD 0

theorem accepts_agree_unique {l : Int} {s : S} {p p' : Path (N + 1)} {a : Asg (N + 1)} (h : Accepts sp l s p)
    (h' : Accepts sp l s p') (ha : Agrees p a) (ha' : Agrees p' a) : p = p' := by
  induction h generalizing p' with
  | one hl => rw [accepts_neg hl] at h'; exact h'.symm
  | @step n s b p hn h ih =>
    obtain ⟨b', q, rfl, hq⟩ := (accepts_pos hn).1 h'
    have e1 := ha (n, b) (List.mem_cons_self ..)
    have e2 := ha' (n, b') (List.mem_cons_self ..)
    dsimp only at e1 e2
    rw [e1] at e2
    subst e2
    rw [ih hq (fun x hx => ha x (List.mem_cons_of_mem _ hx)) fun x hx => ha' x (List.mem_cons_of_mem _ hx)]

theorem pathVal_agrees (hd : Desc sp) {l : Int} {s : S} {p : Path (N + 1)} (h : Accepts sp l s p) (hr : Reach sp l s) :
    Agrees p (pathVal p) := by
  induction h with
  | one _ => intro x hx; cases hx
  | @step n s b p hn h ih =>
    have hr' : Reach sp _ _ := .step b hn hr
    intro x hx
    rcases List.mem_cons.1 hx with rfl | hx
    · simp [pathVal]
    · have h1 := accepts_levels hd h hr' x hx
      have h2 := hd.child_lt b hn hr
      rw [← ih hr' x hx]
      unfold pathVal
      rw [List.find?_cons_of_neg]
      simp; omega

theorem pathVal_out {p : Path (N + 1)} {j : Nat} (h : ∀ b, (j, b) ∉ p) : pathVal p j = 0 := by
  unfold pathVal
  rw [List.find?_eq_none.2]
  · rfl
  · intro x hx hj
    exact h x.2 (by rw [← eq_of_beq hj]; exact hx)

/-- vector of a path -/
def pathVec (n : Nat) (p : Path (N + 1)) : List (Fin (N + 1)) := (List.range n).map fun j => pathVal p (j + 1)

theorem vecAsg_pathVec {n j : Nat} {p : Path (N + 1)} (h0 : 1 ≤ j) (hj : j ≤ n) : vecAsg (pathVec n p) j = pathVal p j := by
  unfold vecAsg pathVec
  rw [if_neg (by omega), List.getElem?_map, List.getElem?_range (by omega)]
  simp only [Option.map_some, Option.getD_some]
  rw [Nat.sub_add_cancel h0]

theorem zddCount_of_paths (hd : Desc sp) {n k : Nat} (hn : sp.root.1 ≤ n)
    (h : HasCount (fun p => Accepts sp sp.root.1 sp.root.2 p) k) : ZddCount sp n k := by
  have hlev : ∀ {p}, Accepts sp sp.root.1 sp.root.2 p → ∀ x ∈ p, 1 ≤ x.1 ∧ x.1 ≤ n := fun hp x hx => by
    have := accepts_levels hd hp .root x hx
    omega
  have hag : ∀ {p}, Accepts sp sp.root.1 sp.root.2 p → Agrees p (vecAsg (pathVec n p)) := fun {p} hp x hx => by
    rw [vecAsg_pathVec (hlev hp x hx).1 (hlev hp x hx).2]
    exact pathVal_agrees hd hp .root x hx
  refine h.image (pathVec n) ?_ ?_
  · intro p p' hp hp' e
    refine accepts_agree_unique hp hp' (hag hp) ?_
    rw [e]; exact hag hp'
  · intro l
    constructor
    · rintro ⟨hl, p, hp, ha, hz⟩
      refine ⟨p, hp, ?_⟩
      apply List.ext_getElem
      · simp [pathVec, hl]
      · intro j h1 h2
        have hj : j + 1 ≤ n := by omega
        have e1 : vecAsg l (j + 1) = l[j] := by
          unfold vecAsg
          rw [if_neg (by omega), Nat.add_sub_cancel, List.getElem?_eq_getElem h2]; rfl
        have e2 : (pathVec n p)[j] = pathVal p (j + 1) := by simp [pathVec]
        rw [e2, ← e1]
        by_cases hb : ∃ b, (j + 1, b) ∈ p
        · obtain ⟨b, hb⟩ := hb
          have h3 := ha _ hb
          have h4 := pathVal_agrees hd hp .root _ hb
          rw [h3, h4]
        · have hb' : ∀ b, (j + 1, b) ∉ p := fun b h => hb ⟨b, h⟩
          rw [pathVal_out hb']
          exact (Fin.ext (hz (j + 1) (by omega) hj hb')).symm
    · rintro ⟨p, hp, rfl⟩
      refine ⟨by simp [pathVec], p, hp, hag hp, ?_⟩
      intro j h1 h2 hb
      rw [vecAsg_pathVec h1 h2, pathVal_out hb]; rfl

end TdZdd
