import Verif.ReadersProofs
import Std.Data.String.ToInt

/-!
# Properties of the readers of `Graph` (C59)

The words, numbers and lines of a text are defined in `ReadersSpec.lean`. Vertices have names; a number is named by its decimal representation.
-/

namespace TdZdd

open Gz Rd

/-- the decimal representation -/
def decimal (v : Int) : List Char := (toString v).toList

/-- **C59.** `readEdges` on a file in which every line is terminated and has no or two words: the pairs of words are appended to the list of edges. -/
theorem C59_edges {ls : List (List Char × List (List Char))} (h : ∀ p ∈ ls, '\n' ∉ p.1 ∧ Words p.1 p.2) (h2 : ∀ p ∈ ls, p.2.length = 0 ∨ p.2.length = 2) (es : List (List Char × List Char)) :
    readEdges (unlines (ls.map (·.1))) es = .ok (es ++ ls.flatMap fun p => p.2.zip (p.2.drop 1)) := by
  rw [readEdges_eq h]
  clear h
  induction ls generalizing es with
  | nil => simp [finAll]
  | cons p ls ih =>
    obtain ⟨l, ws⟩ := p
    have hp : ws.length = 0 ∨ ws.length = 2 := h2 (l, ws) (List.mem_cons_self ..)
    rw [List.map_cons, finAll]
    match ws, hp with
    | [], _ =>
      show finAll (ls.map (·.2)) es = _
      rw [ih fun q hq => h2 q (List.mem_cons_of_mem _ hq)]
      rfl
    | [x, y], _ =>
      show finAll (ls.map (·.2)) (es ++ [(x, y)]) = _
      rw [ih fun q hq => h2 q (List.mem_cons_of_mem _ hq), List.append_assoc]
      rfl
    | [x], h => simp at h
    | x :: y :: z :: ws, h => simp at h

/-- **C59.** `readEdges` throws if there is a terminated line with one word or more than two. -/
theorem C59_edges_error {ls : List (List Char × List (List Char))} (h : ∀ p ∈ ls, '\n' ∉ p.1 ∧ Words p.1 p.2) (h2 : ∃ p ∈ ls, p.2.length ≠ 0 ∧ p.2.length ≠ 2) (es : List (List Char × List Char)) :
    readEdges (unlines (ls.map (·.1))) es = .thrown := by
  rw [readEdges_eq h]
  clear h
  induction ls generalizing es with
  | nil => obtain ⟨p, hp, _⟩ := h2; cases hp
  | cons p ls ih =>
    obtain ⟨l, ws⟩ := p
    have key : (ws.length ≠ 0 ∧ ws.length ≠ 2) ∨ ∃ q ∈ ls, q.2.length ≠ 0 ∧ q.2.length ≠ 2 := by
      obtain ⟨q, hq, h⟩ := h2
      rcases List.mem_cons.1 hq with rfl | hq
      · exact .inl h
      · exact .inr ⟨q, hq, h⟩
    rw [List.map_cons, finAll]
    match ws, key with
    | [], .inl h => simp at h
    | [], .inr h => exact ih h es
    | [x, y], .inl h => simp at h
    | [x, y], .inr h => exact ih h _
    | [x], _ => rfl
    | x :: y :: z :: ws, _ => rfl

namespace Rd

/-- the numbers with the numbers of their lines -/
def pairs (n : Nat) (vss : List (List Int)) : List (Nat × Int) := (vss.zipIdx n).flatMap fun p => p.1.map fun v => (p.2, v)

theorem calls_eq {α : Type} {f : α → Nat → Int → α} {vss : List (List Int)} : ∀ {n : Nat} {x : α}, calls f n vss x = (pairs n vss).foldl (fun x p => f x p.1 p.2) x := by
  unfold pairs
  induction vss with
  | nil => intro n x; rfl
  | cons vs vss ih =>
    intro n x
    rw [calls, ih, List.zipIdx_cons, List.flatMap_cons, List.foldl_append]
    congr 1
    rw [List.foldl_map]

theorem mem_pairs {vss : List (List Int)} : ∀ {n k : Nat} {v : Int}, (k, v) ∈ pairs n vss ↔ n ≤ k ∧ ∃ vs, vss[k - n]? = some vs ∧ v ∈ vs := by
  unfold pairs
  induction vss with
  | nil => intro n k v; simp
  | cons vs vss ih =>
    intro n k v
    rw [List.zipIdx_cons, List.flatMap_cons, List.mem_append, ih]
    constructor
    · rintro (h | ⟨h1, ws, h2, h3⟩)
      · rw [List.mem_map] at h
        obtain ⟨w, hw, e⟩ := h
        injection e with e1 e2
        subst e1 e2
        exact ⟨Nat.le_refl _, vs, by simp, hw⟩
      · refine ⟨by omega, ws, ?_, h3⟩
        have : k - n = (k - (n + 1)) + 1 := by omega
        rw [this, List.getElem?_cons_succ]
        exact h2
    · rintro ⟨h1, ws, h2, h3⟩
      by_cases hk : k = n
      · subst hk
        rw [Nat.sub_self] at h2
        simp at h2
        subst h2
        exact .inl (List.mem_map.2 ⟨v, h3, rfl⟩)
      · refine .inr ⟨by omega, ws, ?_, h3⟩
        have : k - n = (k - (n + 1)) + 1 := by omega
        rw [this, List.getElem?_cons_succ] at h2
        exact h2

theorem pairs_sorted {vss : List (List Int)} : ∀ {n : Nat}, (pairs n vss).Pairwise fun p q => p.1 ≤ q.1 := by
  induction vss with
  | nil => intro n; exact List.Pairwise.nil
  | cons vs vss ih =>
    intro n
    have e : pairs n (vs :: vss) = vs.map (fun v => (n, v)) ++ pairs (n + 1) vss := by
      unfold pairs
      rw [List.zipIdx_cons, List.flatMap_cons]
    rw [e, List.pairwise_append]
    refine ⟨?_, ih, ?_⟩
    · rw [List.pairwise_map]
      exact List.Pairwise.imp (fun _ => Nat.le_refl _) (List.pairwise_of_forall (R := fun _ _ => True) fun _ _ => trivial)
    · rintro p hp ⟨k, v⟩ hq
      rw [List.mem_map] at hp
      obtain ⟨w, _, rfl⟩ := hp
      have := (mem_pairs.1 hq).1
      show n ≤ k
      omega

theorem setName_mem {K : Type} {m : List (List Char × K)} {v w : List Char} {c d : K} : (w, d) ∈ setName m v c ↔ (w = v ∧ d = c) ∨ (w ≠ v ∧ (w, d) ∈ m) := by
  unfold setName
  split
  · rename_i h
    rw [List.any_eq_true] at h
    obtain ⟨q, hq, hqv⟩ := h
    rw [decide_eq_true_eq] at hqv
    rw [List.mem_map]
    constructor
    · rintro ⟨p, hp, e⟩
      split at e
      · injection e with e1 e2
        exact .inl ⟨e1.symm, e2.symm⟩
      · rename_i hne
        subst e
        exact .inr ⟨hne, hp⟩
    · rintro (⟨rfl, rfl⟩ | ⟨hne, hp⟩)
      · exact ⟨q, hq, by rw [if_pos hqv]⟩
      · exact ⟨_, hp, by rw [if_neg hne]⟩
  · rename_i h
    rw [List.mem_append, List.mem_singleton]
    have hno : ∀ d, (v, d) ∉ m := by
      intro d hd
      exact h (List.any_eq_true.2 ⟨_, hd, by simp⟩)
    constructor
    · rintro (hp | e)
      · exact .inr ⟨fun e => by subst e; exact hno d hp, hp⟩
      · injection e with e1 e2
        exact .inl ⟨e1, e2⟩
    · rintro (⟨rfl, rfl⟩ | ⟨_, hp⟩)
      · exact .inr rfl
      · exact .inl hp

theorem setName_keys {K : Type} {m : List (List Char × K)} {v : List Char} {c : K} (h : m.Pairwise fun p q => p.1 ≠ q.1) : (setName m v c).Pairwise fun p q => p.1 ≠ q.1 := by
  unfold setName
  split
  · rw [List.pairwise_map]
    refine h.imp fun {p q} hne => ?_
    have key : ∀ p : List Char × K, (if p.1 = v then (v, c) else p).1 = p.1 := by
      intro p
      split
      · rename_i h; exact h.symm
      · rfl
    rw [key, key]
    exact hne
  · rename_i hn
    rw [List.pairwise_append]
    refine ⟨h, by simp, fun p hp q hq => ?_⟩
    rw [List.mem_singleton] at hq
    subst hq
    intro e
    exact hn (List.any_eq_true.2 ⟨p, hp, by simpa using e⟩)

theorem decimal_inj {v w : Int} (h : decimal v = decimal w) : v = w := by
  unfold decimal at h
  exact Int.repr_injective (String.toList_inj.1 h)

/-- the map after the assignments `ps` -/
theorem fold_mem {K : Type} {col : Nat → K} {ps : List (Nat × Int)} : ∀ {m : List (List Char × K)} {v : Int} {d : K},
    (decimal v, d) ∈ ps.foldl (fun m p => setName m (decimal p.2) (col p.1)) m ↔
      (∃ pre post k, ps = pre ++ (k, v) :: post ∧ d = col k ∧ ∀ q ∈ post, q.2 ≠ v) ∨ ((∀ q ∈ ps, q.2 ≠ v) ∧ (decimal v, d) ∈ m) := by
  induction ps with
  | nil => intro m v d; simp
  | cons p ps ih =>
    intro m v d
    rw [List.foldl_cons, ih, setName_mem]
    constructor
    · rintro (⟨pre, post, k, rfl, hd, hq⟩ | ⟨hq, ⟨e, hd⟩ | ⟨hne, hm⟩⟩)
      · exact .inl ⟨p :: pre, post, k, rfl, hd, hq⟩
      · refine .inl ⟨[], ps, p.1, ?_, hd, hq⟩
        rw [decimal_inj e]
        rfl
      · refine .inr ⟨fun q hq' => ?_, hm⟩
        rcases List.mem_cons.1 hq' with rfl | hq'
        · exact fun e => hne (by rw [e])
        · exact hq q hq'
    · rintro (⟨pre, post, k, e, hd, hq⟩ | ⟨hq, hm⟩)
      · cases pre with
        | nil =>
          injection e with e1 e2
          subst e1 e2
          exact .inr ⟨hq, .inl ⟨rfl, hd⟩⟩
        | cons p' pre =>
          injection e with e1 e2
          exact .inl ⟨pre, post, k, e2, hd, hq⟩
      · exact .inr ⟨fun q hq' => hq q (List.mem_cons_of_mem _ hq'), .inr ⟨fun e => hq p (List.mem_cons_self ..) (decimal_inj e).symm, hm⟩⟩

theorem last_split {ps : List (Nat × Int)} {v : Int} (h : ∃ k, (k, v) ∈ ps) : ∃ pre post k, ps = pre ++ (k, v) :: post ∧ ∀ q ∈ post, q.2 ≠ v := by
  induction ps with
  | nil => obtain ⟨k, hk⟩ := h; cases hk
  | cons p ps ih =>
    by_cases h' : ∃ k, (k, v) ∈ ps
    · obtain ⟨pre, post, k, e, hq⟩ := ih h'
      exact ⟨p :: pre, post, k, by rw [e]; rfl, hq⟩
    · obtain ⟨k, hk⟩ := h
      rcases List.mem_cons.1 hk with rfl | hk
      · exact ⟨[], ps, k, rfl, fun q hq e => h' ⟨q.1, by rw [← e]; exact hq⟩⟩
      · exact absurd ⟨k, hk⟩ h'

theorem fold_keys {K : Type} {col : Nat → K} {ps : List (Nat × Int)} : ∀ {m : List (List Char × K)}, (m.Pairwise fun p q => p.1 ≠ q.1) →
    (ps.foldl (fun m p => setName m (decimal p.2) (col p.1)) m).Pairwise fun p q => p.1 ≠ q.1 := by
  induction ps with
  | nil => exact fun h => h
  | cons p ps ih => exact fun h => ih (setName_keys h)

theorem fold_names {K : Type} {col : Nat → K} {ps : List (Nat × Int)} : ∀ {m : List (List Char × K)}, (∀ p ∈ m, ∃ v, p.1 = decimal v) →
    ∀ p ∈ ps.foldl (fun m p => setName m (decimal p.2) (col p.1)) m, ∃ v, p.1 = decimal v := by
  induction ps with
  | nil => exact fun h => h
  | cons q ps ih =>
    intro m h
    refine ih fun p hp => ?_
    rcases setName_mem.1 (show (p.1, p.2) ∈ _ from hp) with ⟨e, _⟩ | ⟨_, hm⟩
    · exact ⟨_, e⟩
    · exact h _ hm

theorem hexChar_inj {i j : Nat} (hi : i < 16) (hj : j < 16) (h : hexChar i = hexChar j) : i = j := by
  have key : ∀ i, i < 16 → ∀ j, j < 16 → hexChar i = hexChar j → i = j := by decide +kernel
  exact key i hi j hj h

end Rd

/-- **C59.** `readAdjacencyList`: the line with number `k` has the neighbours of vertex `k`; the last line need not be terminated. -/
theorem C59_adjacency {ls : List (List Char × List Int)} {l : List Char} {vs : List Int} (h : ∀ p ∈ ls, '\n' ∉ p.1 ∧ Ints p.1 p.2 ∧ ∀ v ∈ p.2, -2147483648 ≤ v ∧ v ≤ 2147483647)
    (hl : '\n' ∉ l) (hi : Ints l vs) (hv : ∀ v ∈ vs, -2147483648 ≤ v ∧ v ≤ 2147483647) :
    readAdjacencyList (unlines (ls.map (·.1)) ++ l) = .ok (((ls.map (·.2) ++ [vs]).zipIdx 1).flatMap fun p => p.1.map fun v => (decimal p.2, decimal v)) := by
  unfold readAdjacencyList
  show nlLoop _ _ 1 (IStr.at' [] _) [] = _
  rw [nlLoop_all hl hi hv h (by omega), calls_eq]
  have key : ∀ (ps : List (Nat × Int)) (es : List (List Char × List Char)), ps.foldl (fun es p => es ++ [(intName p.1, intName p.2)]) es = es ++ ps.map fun p => (decimal p.1, decimal p.2) := by
    intro ps
    induction ps with
    | nil => intro es; simp
    | cons p ps ih =>
      intro es
      rw [List.foldl_cons, ih, List.append_assoc]
      rfl
  rw [key, List.nil_append]
  unfold pairs
  rw [List.map_flatMap]
  congr 1
  apply congrArg (fun f => List.flatMap f _)
  funext p
  rw [List.map_map]
  rfl

/-- **C59.** `readVertexGroups`: a vertex has the colour of the last line that it occurs in, and nothing else has a colour. Lines are numbered from 0. -/
theorem C59_groups {ls : List (List Char × List Int)} {l : List Char} {vs : List Int} (h : ∀ p ∈ ls, '\n' ∉ p.1 ∧ Ints p.1 p.2 ∧ ∀ v ∈ p.2, -2147483648 ≤ v ∧ v ≤ 2147483647)
    (hl : '\n' ∉ l) (hi : Ints l vs) (hv : ∀ v ∈ vs, -2147483648 ≤ v ∧ v ≤ 2147483647) :
    ∃ m, readVertexGroups (unlines (ls.map (·.1)) ++ l) = .ok m ∧ (m.Pairwise fun p q => p.1 ≠ q.1) ∧ (∀ p ∈ m, ∃ v, p.1 = decimal v) ∧
      ∀ v c, (decimal v, c) ∈ m ↔ ∃ k g, (ls.map (·.2) ++ [vs])[k]? = some g ∧ v ∈ g ∧ c = getColor k ∧ ∀ k' g', k < k' → (ls.map (·.2) ++ [vs])[k']? = some g' → v ∉ g' := by
  unfold readVertexGroups
  show ∃ m, nlLoop _ _ 0 (IStr.at' [] _) [] = _ ∧ _
  rw [nlLoop_all hl hi hv h (by omega), calls_eq]
  generalize ls.map (·.2) ++ [vs] = vss
  have hd : (fun (m : List (List Char × List Char)) (p : Nat × Int) => setName m (intName p.2) (getColor p.1)) = fun m p => setName m (decimal p.2) (getColor p.1) := rfl
  rw [hd]
  refine ⟨_, rfl, fold_keys List.Pairwise.nil, fold_names (by simp), fun v c => ?_⟩
  rw [fold_mem]
  have hsort := pairs_sorted (vss := vss) (n := 0)
  constructor
  · rintro (⟨pre, post, k, e, hc, hq⟩ | ⟨_, hm⟩)
    · have hk : (k, v) ∈ pairs 0 vss := by rw [e]; simp
      obtain ⟨_, g, hg, hvg⟩ := mem_pairs.1 hk
      refine ⟨k, g, hg, hvg, hc, fun k' g' hlt hg' hv' => ?_⟩
      have hk' : (k', v) ∈ pairs 0 vss := mem_pairs.2 ⟨by omega, g', hg', hv'⟩
      rw [e] at hk' hsort
      rw [List.pairwise_append] at hsort
      rcases List.mem_append.1 hk' with hk' | hk'
      · have : k' ≤ k := hsort.2.2 _ hk' (k, v) (List.mem_cons_self ..)
        omega
      · rcases List.mem_cons.1 hk' with hk' | hk'
        · injection hk' with e1 e2
          omega
        · exact hq _ hk' rfl
    · cases hm
  · rintro ⟨k, g, hg, hvg, hc, hlast⟩
    have hk : (k, v) ∈ pairs 0 vss := mem_pairs.2 ⟨by omega, g, hg, hvg⟩
    obtain ⟨pre, post, k0, e, hq⟩ := last_split ⟨k, hk⟩
    have hk0 : (k0, v) ∈ pairs 0 vss := by rw [e]; simp
    obtain ⟨_, g0, hg0, hvg0⟩ := mem_pairs.1 hk0
    have h1 : ¬ k < k0 := fun hlt => hlast k0 g0 hlt hg0 hvg0
    have h2 : k ≤ k0 := by
      rw [e] at hk hsort
      rw [List.pairwise_append] at hsort
      rcases List.mem_append.1 hk with hk | hk
      · exact hsort.2.2 _ hk (k0, v) (List.mem_cons_self ..)
      · rcases List.mem_cons.1 hk with hk | hk
        · injection hk with e1 e2
          omega
        · exact absurd rfl (hq _ hk)
    have : k0 = k := by omega
    subst this
    exact .inl ⟨pre, post, k0, e, hc, hq⟩

/-- **C59.** The colours of the first 45056 lines are different … -/
theorem C59_colors {k k' : Nat} (h1 : k < 45056) (h2 : k' < 45056) (h : getColor k = getColor k') : k = k' := by
  unfold getColor at h
  injection h with _ h
  injection h with e1 h
  injection h with e2 h
  injection h with _ h
  injection h with e4 h
  injection h with _ h
  injection h with e6 h
  have f1 := hexChar_inj (by omega) (by omega) e1
  have f2 := hexChar_inj (by omega) (by omega) e2
  have f4 := hexChar_inj (by omega) (by omega) e4
  have f6 := hexChar_inj (by omega) (by omega) e6
  clear e1 e2 e4 e6 h
  have g1 : k % 256 = k' % 256 := by omega
  have g2 : k % 4096 = k' % 4096 := by clear f1 f4 f6; omega
  have g3 : k * 3 % 11 = k' * 3 % 11 := by clear f2 f4 f6 g1 g2; omega
  have g4 : k % 11 = k' % 11 := by clear f1 f2 f4 f6 g1 g2; omega
  clear f1 f2 f4 f6 g1 g3
  have key : ∀ q, q < 11 → ∀ q', q' < 11 → 4 * q % 11 = 4 * q' % 11 → q = q' := by decide +kernel
  have g5 : 4 * (k / 4096) % 11 = 4 * (k' / 4096) % 11 := by omega
  have := key _ (by omega) _ (by omega) g5
  omega

/-- … and then they repeat: vertices of different groups get the same colour. -/
theorem C59_colors_wrap (k : Nat) : getColor (k + 45056) = getColor k := by
  have key : ∀ c, c = 45056 → getColor (k + c) = getColor k := by
    intro c hc
    unfold getColor
    have e1 : (k + c) * 3 % 11 = k * 3 % 11 := by omega
    have d2 : (k + c) / 256 = k / 256 + 176 := by omega
    have e2 : (k + c) / 256 % 16 = k / 256 % 16 := by omega
    have e3 : ((k + c) * 5 + 5) % 11 = (k * 5 + 5) % 11 := by omega
    have d4 : (k + c) / 16 = k / 16 + 2816 := by omega
    have e4 : (k + c) / 16 % 16 = k / 16 % 16 := by omega
    have e5 : ((k + c) * 2 + 7) % 11 = (k * 2 + 7) % 11 := by omega
    have e6 : (k + c) % 16 = k % 16 := by omega
    rw [e1, e2, e3, e4, e5, e6]
  exact key _ rfl

/-! ### Examples and counterexamples -/

-- the hypotheses of `C59_edges`
example : Words "a  b ".toList ["a".toList, "b".toList] ∧ '\n' ∉ "a  b ".toList := by
  refine ⟨?_, by decide⟩
  refine Words.cons (s := []) (w := ['a']) (r := "  b ".toList) (by unfold Blank; decide) ⟨by decide, fun c hc => ?_, by decide⟩ (fun c r' e => ?_) ?_
  · rw [List.mem_singleton] at hc; subst hc; unfold Blank; decide
  · injection e with e1 e2; subst e1; unfold Blank; decide
  · refine Words.cons (s := "  ".toList) (w := ['b']) (r := " ".toList) (by unfold Blank; decide) ⟨by decide, fun c hc => ?_, by decide⟩ (fun c r' e => ?_) (.done (by unfold Blank; decide))
    · rw [List.mem_singleton] at hc; subst hc; unfold Blank; decide
    · injection e with e1 e2; subst e1; unfold Blank; decide

example : readEdges "a  b \n\nb c\n".toList [] = .ok [(['a'], ['b']), (['b'], ['c'])] ∧ readEdges "a b\nb\n".toList [] = .thrown ∧ readEdges "a b c\n".toList [] = .thrown := by decide +kernel

-- the hypotheses of `C59_adjacency`
example : Ints "2 3".toList [2, 3] ∧ '\n' ∉ "2 3".toList := by
  refine ⟨?_, by decide⟩
  refine Ints.cons (s := []) (x := ['2']) (r := " 3".toList) (by unfold Blank; decide) (.pos (.single (c := '2') (by decide) (by decide))) (fun c r' e => ?_) ?_
  · injection e with e1 e2; subst e1; unfold Blank; decide
  · exact Ints.cons (s := " ".toList) (x := ['3']) (r := []) (by unfold Blank; decide) (.pos (.single (c := '3') (by decide) (by decide))) (fun c r' e => by cases e) (.done (by unfold Blank; decide))

example : readAdjacencyList "2 3\n\n-4".toList = .ok [(['1'], ['2']), (['1'], ['3']), (['3'], ['-', '4'])] := by decide +kernel

example : readVertexGroups "1 2\n3\n".toList = .ok [(['1'], getColor 0), (['2'], getColor 0), (['3'], getColor 1)] := by decide +kernel

/-- **Last lines that are not terminated** are not read properly by `readEdges`: an edge is an error, a third word and a single word are ignored. -/
theorem C59_last_line : readEdges "a b".toList [] = .thrown ∧ readEdges "a b c".toList [] = .ok [(['a'], ['b'])] ∧ readEdges "a b\nc".toList [] = .ok [(['a'], ['b'])] := by decide +kernel

/-- **Words that are no numbers** end `readAdjacencyList` without an error, and the vertex 0 is added; the same for numbers that are too large, which become 2147483647. -/
theorem C59_no_number : readAdjacencyList "2\nx 1\n1\n".toList = .ok [(['1'], ['2']), (['2'], ['0'])] ∧ readAdjacencyList "3000000000\n1\n".toList = .ok [(['1'], "2147483647".toList)] := by decide +kernel

end TdZdd
