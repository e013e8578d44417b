import Verif.DdPathsSpec2
import Verif.DdPathsOutput
import Verif.Props.Builder

/-! The diagram of `ddpaths`. -/

namespace TdZdd

namespace DdPaths

open Sp

variable {o : Opts} {E C : List (List Char × List Char)} {G0 G : CGraph}

/-- number of the levels `1..n` with value 1 -/
def sizeOf (n : Nat) (a : Asg 2) : Nat := ((List.range n).filter fun j => decide (a (j + 1) = 1)).length

/-- the bounds `-lb` and `-ub` -/
def InSize (o : Opts) (m : Nat) : Prop := o.sized = true → o.lb.getD 0 ≤ (m : Int) ∧ (m : Int) ≤ o.ub.getD 2147483647

theorem size_good {n : Nat} (hn : 1 ≤ n) (ho : o.sized = true) (hb : (n : Int) - o.lb.getD 0 ≤ 2147483647) : Good n (fun a => InSize o (sizeOf n a)) (sizeConstraint n (some o.range)) := by
  refine ⟨(C37_lawful n _ hn).1.lawful, (C37_lawful n _ hn).2, ?_, fun a => ?_⟩
  · unfold sizeConstraint
    dsimp only
    split <;> omega
  · unfold Opts.range
    rw [C37_range n hn _ _ 1 (by decide) hb]
    constructor
    · rintro ⟨m, rfl, h1, h2, _⟩ _
      exact ⟨h1, h2⟩
    · intro h
      obtain ⟨h1, h2⟩ := h ho
      exact ⟨_, rfl, h1, h2, _, show _ = o.lb.getD 0 + ((sizeOf n a : Int) - o.lb.getD 0) * 1 by unfold sizeOf; omega⟩

theorem Good.make {S : Type} {e : Par} {n : Nat} {F : Asg 2 → Prop} {sp : DdSpec 2 S} (h : Good n F sp) (he : e.Ok n) (k : Nat) (mp : Bool) : ∃ f, e.make k sp mp = some f ∧ f.Is n F := by
  obtain ⟨f, h1, _, h2⟩ := Par.make_is he k mp h.lawful h.nomerge h.root h.mem
  exact ⟨f, h1, h2⟩

theorem Good.subset {S : Type} {e : Par} {n : Nat} {F G : Asg 2 → Prop} {sp : DdSpec 2 S} (h : Good n G sp) (he : e.Ok n) (k : Nat) {f : DdS} (hf : f.Is n F) : ∃ f', e.subset k f sp = some f' ∧ f'.Is n fun a => F a ∧ G a := by
  obtain ⟨f, h1, _, h2⟩ := Par.subset_is he k hf h.lawful h.nomerge h.root fun a _ => h.mem a
  exact ⟨f, h1, h2⟩

theorem reduce' {e : Par} {n : Nat} {F : Asg 2 → Prop} (he : e.Ok n) (k : Nat) {f : DdS} (hf : f.Is n F) : ∃ f', e.reduce k f = some f' ∧ f'.Is n F ∧ f'.Reduced := by
  obtain ⟨f', h1, _, h2⟩ := Par.reduce_is he k hf
  exact ⟨f', h1, h2⟩

theorem tidy' {e : Par} {n : Nat} {F : Asg 2 → Prop} (he : e.Ok n) (k : Nat) {f : DdS} (hf : f.Is n F) : ∃ f', o.tidy e k f = some f' ∧ f'.Is n F ∧ (o.nored = false → f'.Reduced) := by
  unfold Opts.tidy
  cases hr : o.nored
  · obtain ⟨f', h1, h2, h3⟩ := reduce' he k hf
    exact ⟨f', h1, h2, fun _ => h3⟩
  · exact ⟨f, rfl, hf, fun h => nomatch h⟩

/-- a structure is a specification -/
theorem structure_good {f : DdS} {n : Nat} {F : Asg 2 → Prop} (h : f.Is n F) : Good n F f.dd.spec := by
  refine ⟨(C56_structure_lawful f.dd h.wf).1.lawful, (C56_structure_lawful f.dd h.wf).2, ?_, h.mem⟩
  have := h.le
  show rootCode f.dd.root ≤ n
  unfold rootCode
  split <;> omega

/-- the filters -/
theorem filters_is {e : Par} {n : Nat} {F : Asg 2 → Prop} (hn : G.info.length = n) (hn1 : 1 ≤ n) (he : e.Ok n) (hb : (n : Int) - o.lb.getD 0 ≤ 2147483647) (hdc : o.dc = true ∧ (o.kind = .path ∨ o.kind = .cycle) → Good n F (degreeConstraint G.toGraph (degrees G) true)) :
    ∃ f f', dcFilter e o G = some f ∧ sizeFilter e o G f = some f' ∧ f'.Is n fun a => (o.dc = true ∧ (o.kind = .path ∨ o.kind = .cycle) → F a) ∧ InSize o (sizeOf n a) := by
  have h1 : ∃ f, dcFilter e o G = some f ∧ f.Is n fun a => o.dc = true ∧ (o.kind = .path ∨ o.kind = .cycle) → F a := by
    unfold dcFilter
    by_cases hd : o.dc = true ∧ (o.kind = .path ∨ o.kind = .cycle)
    · rw [if_pos hd]
      obtain ⟨f, e1, i1⟩ := (hdc hd).make he 0 o.p
      obtain ⟨f', e2, i2, _⟩ := reduce' he 1 i1
      exact ⟨f', by rw [e1]; exact e2, i2.congr fun a => ⟨fun h _ => h, fun h => h hd⟩⟩
    · rw [if_neg hd, hn]
      exact ⟨_, rfl, (DdS.all_is n).congr fun a => ⟨fun _ h => absurd h hd, fun _ => trivial⟩⟩
  obtain ⟨f, e1, i1⟩ := h1
  refine ⟨f, ?_⟩
  unfold sizeFilter
  rw [hn]
  by_cases hs : o.sized = true
  · rw [if_pos hs]
    obtain ⟨f2, e2, i2⟩ := (size_good hn1 hs hb).subset he 2 i1
    obtain ⟨f3, e3, i3, _⟩ := reduce' he 3 i2
    exact ⟨f3, e1, by rw [e2]; exact e3, i3⟩
  · rw [if_neg hs]
    exact ⟨f, e1, rfl, i1.congr fun a => ⟨fun h => ⟨h, fun h' => absurd h' hs⟩, fun h => h.1⟩⟩

theorem withSpec_make {e : Par} {n : Nat} {F : Asg 2 → Prop} (he : e.Ok n) (k : Nat) (mp : Bool) (h : o.withSpec (α := Prop) G fun _ sp => Good n F sp) : ∃ f, (o.withSpec G fun _ sp => e.make k sp mp) = some f ∧ f.Is n F := by
  unfold Opts.withSpec at h ⊢
  split at h
  all_goals
    dsimp only at h ⊢
    by_cases h1 : o.hamilton = true
    · rw [if_pos h1] at h ⊢; exact h.make he k mp
    · rw [if_neg h1] at h ⊢
      by_cases h2 : o.slow = true
      · rw [if_pos h2] at h ⊢; exact h.make he k mp
      · rw [if_neg h2] at h ⊢; exact h.make he k mp

theorem withSpec_subset {e : Par} {n : Nat} {F F' : Asg 2 → Prop} (he : e.Ok n) (k : Nat) {f : DdS} (hf : f.Is n F') (h : o.withSpec (α := Prop) G fun _ sp => Good n F sp) :
    ∃ f', (o.withSpec G fun _ sp => e.subset k f sp) = some f' ∧ f'.Is n fun a => F' a ∧ F a := by
  unfold Opts.withSpec at h ⊢
  split at h
  all_goals
    dsimp only at h ⊢
    by_cases h1 : o.hamilton = true
    · rw [if_pos h1] at h ⊢; exact h.subset he k hf
    · rw [if_neg h1] at h ⊢
      by_cases h2 : o.slow = true
      · rw [if_pos h2] at h ⊢; exact h.subset he k hf
      · rw [if_neg h2] at h ⊢; exact h.subset he k hf

/-- **paths and cycles** -/
theorem diagram_simple (h : Made o E C G0 G) (hk : o.kind = .path ∨ o.kind = .cycle) (hl : ∀ e ∈ G.info, e.v1 ≠ e.v2) (hs : G.vMax ≤ 32767) {n : Nat} (hn : G.info.length = n) (hb : (n : Int) - o.lb.getD 0 ≤ 2147483647) {e : Par} (he : e.Ok n) :
    ∃ F f, Between o G.toGraph F ∧ (o.withSpec (α := Prop) G fun _ sp => Good n F sp) ∧ diagram e o G = some f ∧ (f.Is n fun a => F a ∧ InSize o (sizeOf n a)) ∧ (o.nored = false → f.Reduced) := by
  obtain ⟨F, hF, hw⟩ := withSpec_good h hk hl hs
  have hdc := dc_good h hl hs
  rw [hn] at hw hdc
  have hn1 : 1 ≤ n := by
    have := (h.hyp hl hs).2
    rw [← h.info_eq, hn] at this
    exact this
  obtain ⟨f0, f, e0, e1, i1⟩ := filters_is hn hn1 he hb fun _ => hdc
  have hdcF : ∀ a, F a → ∀ v, 1 ≤ v → v ≤ G.vMax → (if G.color v = 0 then intRange 0 2 2 else intRange 1 1 1).contains (edgeDegree G.toGraph a v) = true := fun a ha v _ _ => dc_of_wanted h hk hl hs (hF.sub a ha) v
  have hmid : ∃ f', simple e o G f = some f' ∧ f'.Is n fun a => F a ∧ InSize o (sizeOf n a) := by
    unfold simple
    by_cases hd : o.dc = true
    · rw [if_pos hd]
      obtain ⟨f', e2, i2⟩ := withSpec_subset he 4 i1 hw
      exact ⟨f', e2, i2.congr fun a => ⟨fun h => ⟨h.2, h.1.2⟩, fun h => ⟨⟨fun _ => hdcF a h.1, h.2⟩, h.1⟩⟩⟩
    · rw [if_neg hd]
      obtain ⟨f2, e2, i2⟩ := withSpec_make he 4 o.p hw
      rw [e2, Option.bind_some]
      by_cases hz : o.sized = true
      · rw [if_pos hz]
        obtain ⟨f3, e3, i3, _⟩ := tidy' (o := o) he 5 i2
        obtain ⟨f4, e4, i4⟩ := (structure_good i1).subset he 6 i3
        exact ⟨f4, by unfold restrict; rw [e3]; exact e4, i4.congr fun a => ⟨fun h => ⟨h.1, h.2.2⟩, fun h => ⟨h.1, fun h' => absurd h'.1 hd, h.2⟩⟩⟩
      · rw [if_neg hz]
        exact ⟨f2, rfl, i2.congr fun a => ⟨fun h => ⟨h, fun h' => absurd h' hz⟩, fun h => h.1⟩⟩
  obtain ⟨f2, e2, i2⟩ := hmid
  obtain ⟨f3, e3, i3, r3⟩ := tidy' (o := o) he 7 i2
  refine ⟨F, f3, hF, hw, ?_, i3, r3⟩
  unfold diagram
  rw [e0, Option.bind_some, e1, Option.bind_some, if_pos hk, e2]
  exact e3

/-- **connected components and forests** -/
theorem diagram_search (h : Made o E C G0 G) (hk : o.kind = .cc ∨ o.kind = .forest) (hl : ∀ e ∈ G.info, e.v1 ≠ e.v2) (hs : G.vMax ≤ 32766) (h1 : -32768 ≤ o.uec) (h2 : o.uec ≤ 32767) {n : Nat} (hn : G.info.length = n)
    (hb : (n : Int) - o.lb.getD 0 ≤ 2147483647) {e : Par} (he : e.Ok n) :
    ∃ f, diagram e o G = some f ∧ (f.Is n fun a => Wanted o G.toGraph a ∧ InSize o (sizeOf n a)) ∧ (o.nored = false → f.Reduced) := by
  have hw := fbs_good h hk hl hs h1 h2
  rw [hn] at hw
  have hn1 : 1 ≤ n := by
    have := (h.hyp hl (by omega)).2
    rw [← h.info_eq, hn] at this
    exact this
  have hnk : ¬ (o.kind = .path ∨ o.kind = .cycle) := by
    rcases hk with hk | hk <;> rw [hk] <;> decide
  obtain ⟨f0, f, e0, e1, i1⟩ := filters_is (F := fun _ => True) hn hn1 he hb fun h => absurd h.2 hnk
  have hmid : ∃ f', search e o G f = some f' ∧ f'.Is n fun a => Wanted o G.toGraph a ∧ InSize o (sizeOf n a) := by
    unfold search
    by_cases hz : o.sized = true
    · rw [if_pos hz]
      obtain ⟨f2, e2, i2⟩ := hw.make he 4 o.p
      obtain ⟨f3, e3, i3, _⟩ := tidy' (o := o) he 5 i2
      obtain ⟨f4, e4, i4⟩ := (structure_good i1).subset he 6 i3
      refine ⟨f4, ?_, i4.congr fun a => ⟨fun h => ⟨h.1, h.2.2⟩, fun h => ⟨h.1, fun _ => trivial, h.2⟩⟩⟩
      rw [e2, Option.bind_some]
      unfold restrict
      rw [e3]; exact e4
    · rw [if_neg hz]
      obtain ⟨f2, e2, i2⟩ := hw.make he 4 false
      exact ⟨f2, e2, i2.congr fun a => ⟨fun h => ⟨h, fun h' => absurd h' hz⟩, fun h => h.1⟩⟩
  obtain ⟨f2, e2, i2⟩ := hmid
  obtain ⟨f3, e3, i3, r3⟩ := tidy' (o := o) he 7 i2
  refine ⟨f3, ?_, i3, r3⟩
  unfold diagram
  rw [e0, Option.bind_some, e1, Option.bind_some, if_neg hnk, e2]
  exact e3

/-- the size of a set of edges -/
theorem sizeOf_edges {n : Nat} {s : List Nat} (h1 : s.Pairwise (· < ·)) (h2 : ∀ b ∈ s, b < n) : sizeOf n (edgesAsg n s) = s.length := by
  have hsub : ∀ j, j ∈ (List.range n).filter (fun j => decide (edgesAsg n s (j + 1) = 1)) ↔ j < n ∧ n - (j + 1) ∈ s := by
    intro j
    rw [List.mem_filter, List.mem_range, decide_eq_true_iff]
    refine and_congr_right fun hj => ?_
    unfold edgesAsg
    constructor
    · intro h
      split at h
      next hc => exact hc.2.2
      next => cases h
    · intro h
      rw [if_pos ⟨by omega, by omega, h⟩]
  have hnd : s.Nodup := h1.imp fun h => Nat.ne_of_lt h
  apply Nat.le_antisymm
  · unfold sizeOf
    have : ((List.range n).filter fun j => decide (edgesAsg n s (j + 1) = 1)).length ≤ (s.map fun b => n - 1 - b).length :=
      List.Nodup.length_le_of_subset (List.Pairwise.filter _ List.nodup_range) fun j hj => by
        obtain ⟨hj, hm⟩ := (hsub j).1 hj
        exact List.mem_map.2 ⟨_, hm, by omega⟩
    simpa using this
  · unfold sizeOf
    have : (s.map fun b => n - 1 - b).length ≤ ((List.range n).filter fun j => decide (edgesAsg n s (j + 1) = 1)).length := by
      refine List.Nodup.length_le_of_subset ?_ fun j hj => ?_
      · refine map_nodup' (P := (· < n)) (fun x y hx hy e => by omega) h2 hnd
      · obtain ⟨b, hb, rfl⟩ := List.mem_map.1 hj
        have := h2 b hb
        exact (hsub _).2 ⟨by omega, by rw [show n - (n - 1 - b + 1) = b by omega]; exact hb⟩
    simpa using this

end DdPaths

end TdZdd
