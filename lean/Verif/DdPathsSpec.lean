import Verif.DdPathsDegree
import Verif.Props.FrontierSearch
import Verif.Props.Readers

/-! What the specifications mean that `ddpaths` uses, for the graphs that it makes. -/

namespace TdZdd

namespace DdPaths

open Sp

/-- the edge sets that are asked for by the options, without the bounds on their sizes and without `-hamilton` -/
def Wanted (o : Opts) (G : Graph) (a : Asg 2) : Prop :=
  match o.kind with
  | .path => if o.slow && !o.hamilton then ∃ l, IsRing G a l else ∃ P, IsPaths G a P
  | .cycle => ∃ l, IsCycle G a l
  | .cc => WantedOk G o.uec false a
  | .forest => WantedOk G o.uec true a

/-- every vertex has an edge in the set -/
def Spanning (G : Graph) (a : Asg 2) : Prop := ∀ v, 1 ≤ v → v ≤ G.vMax → ∃ b y, Taken G a b ∧ EdgeJoins G b v y

/-- `F` is what is asked for; with `-hamilton` it is between the sets that are and those that visit all vertices -/
structure Between (o : Opts) (G : Graph) (F : Asg 2 → Prop) : Prop where
  sub : ∀ a, F a → Wanted o G a
  sup : ∀ a, Wanted o G a → (o.hamilton = true → (o.kind = .path ∨ o.kind = .cycle) → Spanning G a) → F a

/-- a specification for the family `F` -/
structure Good {S : Type} (n : Nat) (F : Asg 2 → Prop) (sp : DdSpec 2 S) : Prop where
  lawful : Lawful sp
  nomerge : NoMerge sp
  root : sp.root.1 ≤ n
  mem : ∀ a, ZddMem sp n a ↔ F a

theorem spanning_iff {G : Graph} {a : Asg 2} : Spanning G a ↔ AllV G (adjA G a G.info.length) := by
  unfold Spanning AllV
  refine forall_congr' fun v => forall_congr' fun _ => forall_congr' fun _ => ?_
  constructor
  · rintro ⟨b, y, h⟩
    exact ⟨y, taken_iff.2 ⟨b, h⟩⟩
  · rintro ⟨y, h⟩
    obtain ⟨b, h⟩ := taken_iff.1 h
    exact ⟨b, y, h⟩

/-! ### The graph -/

/-- how the graph of `ddpaths` is made -/
structure Made (o : Opts) (E C : List (List Char × List Char)) (G0 G : CGraph) : Prop where
  keys : C.Pairwise fun p q => p.1 ≠ q.1
  update : cgUpdate E C = .ok G0
  edges : E ≠ []
  pairs : o.kind = .path → G0.pairs = true
  graph : G = if o.kind = .cycle then G0.clearColors else G0

theorem intName_inj {v w : Int} (h : intName v = intName w) : v = w := Rd.decimal_inj h

theorem defaultColor_keys (n : Nat) : (defaultColor n).Pairwise fun p q => p.1 ≠ q.1 := by
  unfold defaultColor
  split
  · simp
  next h =>
    rw [List.pairwise_cons]
    refine ⟨fun q hq he => h ?_, by simp⟩
    rw [List.mem_singleton] at hq
    subst hq
    have := intName_inj he
    omega

theorem info_nil {E C : List (List Char × List Char)} {G : CGraph} (hC : C.Pairwise fun p q => p.1 ≠ q.1) (h : cgUpdate E C = .ok G) (hl : G.info.length ≠ 0) : E ≠ [] := by
  rintro rfl
  obtain ⟨D, num, h1, h2, h3, hN, hG⟩ := C41_update hC (Ps.cgUpdate_ok hC h).1
  rw [hN.edges] at hl
  cases D with
  | nil => exact hl rfl
  | cons d D =>
    exact nomatch h1.mem (List.mem_cons_self (a := d))

theorem graphOf_made {o : Opts} {E : List (List Char × List Char)} {C : Option (List (List Char × List Char))} {G : CGraph} (hC : (C.getD []).Pairwise fun p q => p.1 ≠ q.1) (h : graphOf o E C = .ok G) :
    ∃ C' G0, Made o E C' G0 G := by
  unfold graphOf at h
  cases e1 : cgUpdate E (C.getD []) with
  | thrown => rw [e1] at h; cases h
  | ub => rw [e1] at h; cases h
  | ok G1 =>
    rw [e1] at h
    replace h : adjust o E G1 = .ok G := h
    unfold adjust at h
    have key : ∀ (C' : List (List Char × List Char)) (G0 : CGraph), (C'.Pairwise fun p q => p.1 ≠ q.1) → cgUpdate E C' = .ok G0 →
        (if G0.info.length = 0 then Res.thrown else if o.kind = .path ∧ G0.pairs = false then .thrown else .ok (if o.kind = .cycle then G0.clearColors else G0)) = .ok G → Made o E C' G0 G := by
      intro C' G0 hk hu hG
      split at hG
      · cases hG
      next h1 =>
        split at hG
        · cases hG
        next h2 =>
          injection hG with hG
          refine ⟨hk, hu, info_nil hk hu h1, fun hp => ?_, hG.symm⟩
          cases hb : G0.pairs
          · exact absurd ⟨hp, hb⟩ h2
          · rfl
    split at h
    · cases e2 : cgUpdate E (defaultColor G1.vMax) with
      | thrown => rw [e2] at h; cases h
      | ub => rw [e2] at h; cases h
      | ok G2 =>
        rw [e2] at h
        exact ⟨_, _, key _ _ (defaultColor_keys _) e2 h⟩
    · exact ⟨_, _, key _ _ hC e1 h⟩

/-- the colours that have been read have different names -/
theorem readVertexGroups_keys {text : List Char} {C : List (List Char × List Char)} (h : readVertexGroups text = .ok C) : C.Pairwise fun p q => p.1 ≠ q.1 := by
  unfold readVertexGroups at h
  have key : ∀ (fuel n : Nat) (s : IStr) (m : List (List Char × List Char)), (m.Pairwise fun p q => p.1 ≠ q.1) → nlLoop (fun m n v => setName m (intName v) (getColor n)) fuel n s m = .ok C → C.Pairwise fun p q => p.1 ≠ q.1 := by
    intro fuel
    induction fuel with
    | zero => intro n s m _ h; cases h
    | succ fuel ih =>
      intro n s m hm h
      unfold nlLoop at h
      split at h
      · injection h with h; exact h ▸ hm
      · cases e : nlNum n s with
        | thrown => rw [e] at h; cases h
        | ub => rw [e] at h; cases h
        | ok r =>
          obtain ⟨n', v, s'⟩ := r
          rw [e] at h
          cases v with
          | none =>
            replace h : Res.ok m = .ok C := h
            injection h with h; exact h ▸ hm
          | some v => exact ih n' s' _ (Rd.setName_keys hm) h
  exact key _ _ _ _ List.Pairwise.nil h

theorem readGraph_made {o : Opts} {g : List Char} {t : Option (List Char)} {G : CGraph} (h : readGraph o g t = .ok G) : ∃ E C G0, readAdjacencyList g = .ok E ∧ Made o E C G0 G := by
  unfold readGraph at h
  cases e1 : readAdjacencyList g with
  | thrown => rw [e1] at h; cases h
  | ub => rw [e1] at h; cases h
  | ok E =>
    rw [e1] at h
    simp only [Res.bind] at h
    split at h
    case h_1 =>
      cases t with
      | none =>
        obtain ⟨C, G0, hm⟩ := graphOf_made (C := none) List.Pairwise.nil h
        exact ⟨E, C, G0, rfl, hm⟩
      | some t =>
        dsimp only at h
        cases e2 : readVertexGroups t with
        | thrown => rw [e2] at h; cases h
        | ub => rw [e2] at h; cases h
        | ok C0 =>
          rw [e2] at h
          obtain ⟨C, G0, hm⟩ := graphOf_made (C := some C0) (readVertexGroups_keys e2) h
          exact ⟨E, C, G0, rfl, hm⟩
    all_goals cases h

namespace Made

variable {o : Opts} {E C : List (List Char × List Char)} {G0 G : CGraph}

theorem info_eq (h : Made o E C G0 G) : G.info = G0.info := by
  rw [h.graph]; split <;> rfl

theorem vMax_eq (h : Made o E C G0 G) : G.vMax = G0.vMax := by
  rw [h.graph]; split <;> rfl

theorem noLoops (h : Made o E C G0 G) (hl : ∀ e ∈ G.info, e.v1 ≠ e.v2) : ∀ e ∈ E, e.1 ≠ e.2 := by
  intro e he heq
  obtain ⟨D, num, h3, hN, _⟩ := C60_mates h.keys h.update
  have hd : (e.1, e.2) ∈ D := by
    rcases h3 e he with h | h
    · exact h
    · rw [heq] at h ⊢; exact h
  obtain ⟨k, hk⟩ := List.mem_iff_getElem?.1 hd
  obtain ⟨x, hx, h1, h2⟩ := hN.ends k _ _ hk
  refine hl x ?_ (by rw [h1, h2, heq]; omega)
  rw [h.info_eq]
  exact List.mem_of_getElem? hx

theorem hyp (h : Made o E C G0 G) (hl : ∀ e ∈ G.info, e.v1 ≠ e.v2) (hs : G.vMax ≤ 32767) : Ps.Hyp G0 ∧ 0 < G0.info.length :=
  Ps.hyp_of h.keys h.update h.edges (h.noLoops hl) (by rw [← h.vMax_eq]; exact hs)

theorem pairs' (h : Made o E C G0 G) (hp : o.kind = .path) : Sp.Pairs G0.toGraph := by
  have := (C60_pairs h.keys h.update).1 (h.pairs hp)
  exact path_pairs h.keys (Ps.cgUpdate_ok h.keys h.update).1 this.1 (occ_of h.keys h.update) this.2

end Made

end DdPaths

end TdZdd
