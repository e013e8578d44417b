import Verif.PathByMapProofs6

/-! # `clearColors()` -/

namespace TdZdd.Ps

/-- all colours seen -/
def seen (e : EdgeInfo) : EdgeInfo := { e with allColorsSeen := true }

/-- the cleared graph with the flags `allColorsSeen` as `update()` without colours makes them -/
def seeAll (G : Graph) : Graph := { info := G.info.map seen, vMax := G.vMax, color := fun _ => 0, numColor := 0 }

theorem uses_seen {es : List EdgeInfo} {a v : Nat} : Gr.Uses (es.map seen) a v ↔ Gr.Uses es a v := by
  unfold Gr.Uses
  rw [List.getElem?_map]
  constructor
  · rintro ⟨e, he, h⟩
    cases hg : es[a]? with
    | none => rw [hg] at he; cases he
    | some f =>
      rw [hg] at he
      injection he with he
      subst he
      exact ⟨f, rfl, h⟩
  · rintro ⟨e, he, h⟩
    exact ⟨seen e, by rw [he]; rfl, h⟩

theorem get_seen {es : List EdgeInfo} {a : Nat} {e : EdgeInfo} (h : (es.map seen)[a]? = some e) : ∃ f, es[a]? = some f ∧ e = seen f := by
  rw [List.getElem?_map] at h
  cases hg : es[a]? with
  | none => rw [hg] at h; cases h
  | some f => rw [hg] at h; injection h with h; exact ⟨f, rfl, h.symm⟩

theorem seeAll_ok {G : Graph} (h : G.Ok) : (seeAll G).Ok where
  range a e he := by
    obtain ⟨f, hf, rfl⟩ := get_seen he
    exact h.range a f hf
  simple a b e f he hf h1 h2 := by
    obtain ⟨e', he', rfl⟩ := get_seen he
    obtain ⟨f', hf', rfl⟩ := get_seen hf
    exact h.simple a b e' f' he' hf' h1 h2
  occurs v h1 h2 := by
    obtain ⟨a, ha⟩ := h.occurs v h1 h2
    exact ⟨a, uses_seen.2 ha⟩
  order a v w h1 h2 h3 hu := by
    obtain ⟨b, hb, hb'⟩ := h.order a v w h1 h2 h3 (uses_seen.1 hu)
    exact ⟨b, hb, uses_seen.2 hb'⟩
  final1 a e he := by
    obtain ⟨f, hf, rfl⟩ := get_seen he
    exact (h.final1 a f hf).trans ⟨fun x b hb hu => x b hb (uses_seen.1 hu), fun x b hb hu => x b hb (uses_seen.2 hu)⟩
  final2 a e he := by
    obtain ⟨f, hf, rfl⟩ := get_seen he
    exact (h.final2 a f hf).trans ⟨fun x b hb hu => x b hb (uses_seen.1 hu), fun x b hb hu => x b hb (uses_seen.2 hu)⟩
  second1 a e he := by
    obtain ⟨f, hf, rfl⟩ := get_seen he
    exact (h.second1 a f hf).trans ⟨fun ⟨b, h1, h2, h3⟩ => ⟨b, h1, uses_seen.2 h2, fun c hc hu => h3 c hc (uses_seen.1 hu)⟩,
      fun ⟨b, h1, h2, h3⟩ => ⟨b, h1, uses_seen.1 h2, fun c hc hu => h3 c hc (uses_seen.2 hu)⟩⟩
  second2 a e he := by
    obtain ⟨f, hf, rfl⟩ := get_seen he
    exact (h.second2 a f hf).trans ⟨fun ⟨b, h1, h2, h3⟩ => ⟨b, h1, uses_seen.2 h2, fun c hc hu => h3 c hc (uses_seen.1 hu)⟩,
      fun ⟨b, h1, h2, h3⟩ => ⟨b, h1, uses_seen.1 h2, fun c hc hu => h3 c hc (uses_seen.2 hu)⟩⟩
  window a e he := by
    obtain ⟨f, hf, rfl⟩ := get_seen he
    obtain ⟨h1, h2, ⟨b, hb, hb'⟩, h4⟩ := h.window a f hf
    exact ⟨h1, h2, ⟨b, hb, uses_seen.2 hb'⟩, fun v v1 v2 b hb hu => h4 v v1 v2 b hb (uses_seen.1 hu)⟩
  last a e he := by
    obtain ⟨f, hf, rfl⟩ := get_seen he
    show f.finalEdge = true ↔ a + 1 = (G.info.map seen).length
    rw [List.length_map]
    exact h.last a f hf
  seen a e he := by
    obtain ⟨f, hf, rfl⟩ := get_seen he
    exact ⟨fun _ c c1 c2 => by have : c ≤ 0 := c2; omega, fun _ => rfl⟩
  color_le _ := Nat.le_refl 0
  color_out _ _ := rfl
  color_surj c c1 c2 := by have : c ≤ 0 := c2; omega
  color_asc v _ _ c _ c2 := by have : c < 0 := c2; omega
  vMax_lt := h.vMax_lt
  color_lt := by show 0 ≤ 65535; omega

theorem seeAll_hyp {G : Graph} (h : Sp.Hyp G) : Sp.Hyp (seeAll G) where
  ok := seeAll_ok h.ok
  loop i e he := by
    obtain ⟨f, hf, rfl⟩ := get_seen he
    exact h.loop i f hf
  small := h.small

/-! ### The specifications do not look at `allColorsSeen` -/

/-- the graph without colours -/
def bare (G : Graph) : Graph := { G with color := fun _ => 0, numColor := 0 }

theorem seen_v0 (e : EdgeInfo) : (seen e).v0 = e.v0 := rfl

theorem len_seen (G : Graph) : (seeAll G).info.length = G.info.length := List.length_map ..

theorem front_seen (G : Graph) : (seeAll G).maxFrontierSize = (bare G).maxFrontierSize := by
  unfold Graph.maxFrontierSize seeAll bare
  dsimp only
  rw [List.foldl_map]
  rfl

theorem only_seen (ham : Bool) (e : EdgeInfo) : ∀ (ws : List Int) (k : Nat), spOnly ham (seen e) ws k = spOnly ham e ws k
  | [], _ => rfl
  | w :: ws, k => by
    unfold spOnly
    rw [only_seen ham e ws (k + 1)]
    rfl

theorem takable_seen (ham : Bool) (mate : List Int) (e : EdgeInfo) : spTakable true ham mate (seen e) = spTakable true ham mate e := by
  unfold spTakable
  rw [only_seen]
  rfl

theorem shift_seen (G : Graph) (mate : List Int) (v0 vv0 : Nat) : spShift (seeAll G) mate v0 vv0 = spShift (bare G) mate v0 vv0 := by
  unfold spShift
  rw [front_seen]
  rfl

theorem look_seen (G : Graph) (ham la : Bool) : ∀ (fuel i : Nat) (mate : List Int), spLook (seeAll G) true ham la fuel i mate = spLook (bare G) true ham la fuel i mate
  | 0, _, _ => rfl
  | fuel + 1, i, mate => by
    unfold spLook
    rw [show (seeAll G).info = G.info.map seen from rfl, show (bare G).info = G.info from rfl]
    simp only [List.getElem?_map, List.length_map, shift_seen, look_seen G ham la fuel]
    cases G.info[i]? with
    | none => rfl
    | some e =>
      simp only [Option.map_some, Option.bind_some, takable_seen]
      cases G.info[i + 1]? <;> rfl

theorem next_seen (G : Graph) (ham la : Bool) (i : Nat) (e : EdgeInfo) (mate : List Int) : spNext (seeAll G) true ham la i (seen e) mate = spNext (bare G) true ham la i e mate := by
  unfold spNext
  have h1 : (seeAll G).info.length = (bare G).info.length := len_seen G
  have h2 : (seeAll G).info[i + 1]? = ((bare G).info[i + 1]?).map seen := List.getElem?_map ..
  rw [h1, h2]
  cases (bare G).info[i + 1]? with
  | none => simp only [Option.map_none, Option.bind_none]
  | some f => simp only [Option.map_some, Option.bind_some, seen_v0, shift_seen, look_seen]

theorem leavable_seen (ham : Bool) (mate : List Int) (e : EdgeInfo) : spLeavable ham mate (seen e) = spLeavable ham mate e := rfl

theorem leave_seen (mate : List Int) (e : EdgeInfo) : spLeave mate (seen e) = spLeave mate e := rfl

theorem take_seen (mate : List Int) (e : EdgeInfo) : spTake mate (seen e) = spTake mate e := rfl

theorem seen_v1 (e : EdgeInfo) : (seen e).v1 = e.v1 := rfl

theorem seen_v2 (e : EdgeInfo) : (seen e).v2 = e.v2 := rfl

theorem child_seen (G : Graph) (ham la : Bool) (mate : List Int) (level : Nat) (take : Bool) : spChild (seeAll G) true ham la mate level take = spChild (bare G) true ham la mate level take := by
  unfold spChild
  have h1 : (seeAll G).info.length = (bare G).info.length := len_seen G
  have h2 : ∀ i : Nat, (seeAll G).info[i]? = ((bare G).info[i]?).map seen := fun i => List.getElem?_map ..
  rw [h1, h2]
  cases (bare G).info[(bare G).info.length - level]? with
  | none => simp only [Option.map_none, Option.bind_none]
  | some e => simp only [Option.map_some, Option.bind_some, takable_seen, leavable_seen, leave_seen, take_seen, seen_v1, seen_v2, next_seen]

theorem simpath_seen (G : Graph) (ham la : Bool) : simpath (seeAll G) true ham la = simpath (bare G) true ham la := by
  unfold simpath
  congr 1
  · unfold spRoot
    rw [front_seen, show (seeAll G).info = G.info.map seen from rfl, show (bare G).info = G.info from rfl]
    simp only [List.getElem?_map, List.length_map]
    cases G.info[0]? <;> rfl
  · funext mate level value
    rw [child_seen]

theorem taken_seen {G : Graph} {a : Asg 2} {b : Nat} : Taken (seeAll G) a b ↔ Taken G a b := by
  unfold Taken
  rw [len_seen]

theorem joins_seen {G : Graph} {b x y : Nat} : EdgeJoins (seeAll G) b x y ↔ EdgeJoins G b x y := by
  unfold EdgeJoins
  constructor
  · rintro ⟨e, he, h⟩
    obtain ⟨f, hf, rfl⟩ := get_seen he
    exact ⟨f, hf, h⟩
  · rintro ⟨e, he, h⟩
    refine ⟨seen e, ?_, h⟩
    show (G.info.map seen)[b]? = _
    rw [List.getElem?_map, he]; rfl

theorem cycle_seen {G : Graph} {a : Asg 2} {l : List Nat} : IsCycle (seeAll G) a l ↔ IsCycle G a l := by
  constructor
  · intro h
    refine ⟨h.len, h.nodup, fun x y hxy => ?_, fun b hb => ?_⟩
    · obtain ⟨b, h1, h2⟩ := h.has x y hxy
      exact ⟨b, taken_seen.1 h1, joins_seen.1 h2⟩
    · obtain ⟨x, y, h1, h2⟩ := h.only b (taken_seen.2 hb)
      exact ⟨x, y, h1, joins_seen.1 h2⟩
  · intro h
    refine ⟨h.len, h.nodup, fun x y hxy => ?_, fun b hb => ?_⟩
    · obtain ⟨b, h1, h2⟩ := h.has x y hxy
      exact ⟨b, taken_seen.2 h1, joins_seen.2 h2⟩
    · obtain ⟨x, y, h1, h2⟩ := h.only b (taken_seen.1 hb)
      exact ⟨x, y, h1, joins_seen.2 h2⟩

/-! ### The same for `PathZddByStdMap` -/

def seeAllC (G : CGraph) : CGraph := { toGraph := seeAll G.toGraph, mate := fun _ => 0, pairs := G.pairs }

theorem init_seen (G : CGraph) : ∀ (k v : Nat) (m : List (Int × Int)), psInit (seeAllC G) k v m = psInit G.clearColors k v m
  | 0, _, _ => rfl
  | k + 1, v, m => by
    unfold psInit
    rw [init_seen G k]
    rfl

theorem byMap_seen (G : CGraph) : pathByMap (seeAllC G) = pathByMap G.clearColors := by
  unfold pathByMap
  congr 1
  · rw [init_seen, show (seeAllC G).info.length = G.info.length from List.length_map ..]
    rfl
  · funext m level value
    congr 1
    unfold psChild
    rw [show (seeAllC G).info = G.info.map seen from rfl, show G.clearColors.info = G.info from rfl]
    simp only [List.getElem?_map, List.length_map]
    cases G.info[G.info.length - level]? <;> rfl

theorem seeAllC_hyp {G : CGraph} (h : Sp.Hyp G.toGraph) : Hyp (seeAllC G) where
  toHyp := seeAll_hyp h
  mates v u hu := by
    constructor
    · intro hm
      exfalso
      unfold CGraph.virtualMate at hm
      have : (seeAllC G).mate v = 0 := rfl
      rw [this] at hm
      split at hm <;> omega
    · intro hp
      exact absurd rfl hp.1

end TdZdd.Ps
