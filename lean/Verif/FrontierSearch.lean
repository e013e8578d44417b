import Verif.Semantics
import Verif.PodArray
import Verif.Graph

/-!
# Model of `FrontierBasedSearch` (`spec/FrontierBasedSearch.hpp`)

The state is a pair of the counter `uec` (`int16_t`) and the array `mate` of `mateSize` elements with two `int16_t` each. A pointer or reference to an element is its index in the array; `this + hoc` is the
sum of the index and the offset. Pointers are only formed, not dereferenced, outside of the array: this is not taken as undefined behaviour here (the tail of a colour may be the number of a vertex that has not
entered the array yet). Undefined behaviour (`none`): an access outside of an array, a violated `assert`, a loop that does not end. `getChild` then has the illegal level code `level`, `getRoot` the illegal level
code -2. `int` is unbounded. Stores into `int16_t` wrap around.
-/

namespace TdZdd

/-- `FrontierBasedSearchMate` (`FrontierBasedSearch.hpp` 64-72); `clear()` and the default constructor give `⟨0, 0⟩` (87-89, 99-102). -/
structure Mt where
  hoc : Int
  nxt : Int
  deriving DecidableEq

/-- `UNCOLORED` (`FrontierBasedSearch.hpp` 67) -/
def fbUnc : Int := 32766

/-- `UNCOLORED_EDGE_COMPONENT` (`FrontierBasedSearch.hpp` 68) -/
def fbUec : Int := 32767

/-- `isIsolated()` with `isHead()` and `isTail()` (`FrontierBasedSearch.hpp` 103-113) -/
def Mt.isolated (w : Mt) : Bool := decide (0 ≤ w.hoc) && decide (w.nxt = 0)

/-- `&mate[i].head()` (`FrontierBasedSearch.hpp` 115-121) -/
def fbHead (m : List Mt) (i : Int) : Option Int := (podGet m i).map fun w => if 0 ≤ w.hoc then i else i + w.hoc

/-- `mate[i].head().hoc` -/
def fbHeadHoc (m : List Mt) (i : Int) : Option Int := (fbHead m i).bind fun h => (podGet m h).map fun w => w.hoc

/-- `mate[i].isColored()` (`FrontierBasedSearch.hpp` 131-133) -/
def fbColored (m : List Mt) (i : Int) : Option Bool := (fbHeadHoc m i).map fun c => decide (c < fbUnc)

/-- `mate[i].isUncoloredEdgeComponent()` (`FrontierBasedSearch.hpp` 135-137) -/
def fbIsUec (m : List Mt) (i : Int) : Option Bool := (fbHeadHoc m i).map fun c => decide (c = fbUec)

/-- `mate[i].isColoredTail()` (`FrontierBasedSearch.hpp` 139-141) -/
def fbColoredTail (m : List Mt) (i : Int) : Option Bool :=
  (podGet m i).bind fun w =>
  if w.hoc = 0 then some true
  else if w.hoc < 0 then (podGet m (i + w.hoc)).map fun u => decide (w.hoc + u.hoc = 0)
  else some false

/-- `p + p->hoc` for the head `p` of `mate[i]` -/
def fbTailOf (m : List Mt) (i : Int) : Option Int := (fbHead m i).bind fun h => (podGet m h).map fun w => h + w.hoc

/-- `mate[i].hasSameColorAs(mate[j])` (`FrontierBasedSearch.hpp` 143-147) -/
def fbSameColor (m : List Mt) (i j : Int) : Option Bool := (fbTailOf m i).bind fun a => (fbTailOf m j).map fun b => decide (a = b)

/-- Loop of `findColorPredecessor` (`FrontierBasedSearch.hpp` 154-157): the indices `lo + k - 1, …, lo` -/
def fbPredLoop (m : List Mt) (lo o : Int) : Nat → Option (Option Int)
  | 0 => some none
  | k + 1 => (fbTailOf m (lo + k)).bind fun t => if t = o then some (some (lo + k)) else fbPredLoop m lo o k

/-- `mate[lo].findColorPredecessor(mate[o])` (`FrontierBasedSearch.hpp` 149-160) -/
def fbPred (m : List Mt) (lo o : Int) : Option (Option Int) :=
  (fbColoredTail m o).bind fun t => if t = false then none else fbPredLoop m lo o (o - lo).toNat

/-- `mate[i].hoc = x` -/
def fbSetHoc (m : List Mt) (i x : Int) : Option (List Mt) := (podGet m i).bind fun w => podSet m i ⟨wrap16 x, w.nxt⟩

/-- `mate[i].nxt = x` -/
def fbSetNxt (m : List Mt) (i x : Int) : Option (List Mt) := (podGet m i).bind fun w => podSet m i ⟨w.hoc, wrap16 x⟩

/-- The elements of the second list get a new head (`FrontierBasedSearch.hpp` 187-190). -/
def fbPoint (p1 : Int) : Nat → Int → List Mt → Option (List Mt)
  | 0, _, _ => none
  | fuel + 1, q, m =>
    (fbSetHoc m q (p1 - q)).bind fun m =>
    (podGet m q).bind fun w => if w.nxt = 0 then some m else fbPoint p1 fuel (q + w.nxt) m

/-- Inner loop of the merging (`FrontierBasedSearch.hpp` 200-204): final `p` and `pp` -/
def fbAdvance (m : List Mt) (q : Int) : Nat → Int → Int → Option (Int × Int)
  | 0, _, _ => none
  | fuel + 1, p, pp =>
    if p < pp ∧ pp < q then
      (podGet m pp).bind fun w =>
      if pp ≤ pp + w.nxt ∧ pp + w.nxt ≠ q then fbAdvance m q fuel pp (pp + w.nxt) else none
    else some (p, pp)

/-- Merging of the two lists (`FrontierBasedSearch.hpp` 195-210): the array and the final `q` -/
def fbZip : Nat → Int → Int → List Mt → Option (List Mt × Int)
  | 0, _, _, _ => none
  | fuel + 1, p, q, m =>
    if p = q then none
    else
      (podGet m p).bind fun w =>
      if p ≤ p + w.nxt ∧ p + w.nxt ≠ q then
        (fbAdvance m q (m.length + 1) p (p + w.nxt)).bind fun r =>
        if r.1 = r.2 ∨ q < r.2 then
          (fbSetNxt m r.1 (q - r.1)).bind fun m =>
          if r.1 = r.2 then some (m, q) else fbZip fuel q r.2 m
        else none
      else none

/-- The last element of the list (`FrontierBasedSearch.hpp` 213-215) -/
def fbLast (m : List Mt) : Nat → Int → Option Int
  | 0, _ => none
  | fuel + 1, q => (podGet m q).bind fun w => if w.nxt = 0 then some q else fbLast m fuel (q + w.nxt)

/-- The tail of a colour moves from `pp` to `q` (`FrontierBasedSearch.hpp` 220-222), for the elements from `p` on. -/
def fbPaint (pp q : Int) : Nat → Int → List Mt → Option (List Mt)
  | 0, _, m => some m
  | k + 1, p, m =>
    (podGet m p).bind fun w =>
    (if p + w.hoc = pp then fbSetHoc m p (q - p) else some m).bind fun m => fbPaint pp q k (p + 1) m

/-- `mate[0].mergeLists(mate[i], mate[j])` (`FrontierBasedSearch.hpp` 162-223) -/
def fbMerge (m : List Mt) (i j : Int) : Option (List Mt) :=
  (fbHead m i).bind fun h1 =>
  (fbHead m j).bind fun h2 =>
  if h1 = h2 then some m
  else
    let p1 := if h2 < h1 then h2 else h1
    let p2 := if h2 < h1 then h1 else h2
    (podGet m p1).bind fun w1 =>
    (podGet m p2).bind fun w2 =>
    let painting := if w2.hoc < fbUnc then decide (fbUnc ≤ w1.hoc) else decide (w1.hoc < fbUnc)
    (if w2.hoc < fbUnc then
      if painting = true ∨ p1 + w1.hoc < p2 + w2.hoc then fbSetHoc m p1 (w2.hoc + (p2 - p1)) else some m
    else
      if w1.hoc = fbUnc then fbSetHoc m p1 fbUec else some m).bind fun m =>
    (fbPoint p1 m.length p2 m).bind fun m =>
    (fbZip m.length p1 p2 m).bind fun r =>
    if painting = true then
      (fbLast r.1 m.length r.2).bind fun q =>
      (podGet r.1 p1).bind fun w =>
      if p1 + w.hoc < q then fbPaint (p1 + w.hoc) q (p1 + w.hoc + 1).toNat 0 r.1 else some r.1
    else some r.1

/-- Loop of `replaceHeadWith` (`FrontierBasedSearch.hpp` 231-234) -/
def fbRehead (nh : Int) : Nat → Int → List Mt → Option (List Mt)
  | 0, _, _ => none
  | fuel + 1, q, m =>
    (podGet m q).bind fun w =>
    if 0 < w.nxt then (fbSetHoc m (q + w.nxt) (nh - (q + w.nxt))).bind fun m => fbRehead nh fuel (q + w.nxt) m
    else some m

/-- `mate[i].replaceHeadWith(mate[nh])` (`FrontierBasedSearch.hpp` 225-235) -/
def fbReplace (m : List Mt) (i nh : Int) : Option (List Mt) :=
  (fbHead m i).bind fun p =>
  (podGet m p).bind fun w =>
  (fbSetHoc m nh (if w.hoc < fbUnc then w.hoc + (p - nh) else w.hoc)).bind fun m => fbRehead nh m.length nh m

/-- Loops of `removeFromList` (`FrontierBasedSearch.hpp` 243-246, 249-251, 254-256): the elements from `p` on; the first `if` is only there if the tail `pp` of the colour is given, and `add` is the summand for `nxt`
(no summand: `nxt = 0`). -/
def fbUnlink (o : Int) (pp add : Option Int) : Nat → Int → List Mt → Option (List Mt)
  | 0, _, m => some m
  | k + 1, p, m =>
    (podGet m p).bind fun w =>
    (match pp with
      | some t => if p + w.hoc = o then fbSetHoc m p (t - p) else some m
      | none => some m).bind fun m =>
    (podGet m p).bind fun w =>
    (if p + w.nxt = o then fbSetNxt m p (match add with
      | some x => w.nxt + x
      | none => 0) else some m).bind fun m => fbUnlink o pp add k (p + 1) m

/-- `mate[0].removeFromList(mate[o])` (`FrontierBasedSearch.hpp` 237-258) -/
def fbRemove (m : List Mt) (o : Int) : Option (List Mt) :=
  (podGet m o).bind fun w =>
  (fbColoredTail m o).bind fun t =>
  if t = true then
    if w.nxt ≠ 0 then none
    else
      (fbPred m 0 o).bind fun r =>
      match r with
      | none => some m
      | some pp => fbUnlink o (some pp) none (pp + 1).toNat 0 m
  else if w.nxt = 0 then fbUnlink o none none (o + 1).toNat 0 m
  else fbUnlink o none (some w.nxt) (o + 1).toNat 0 m

/-- `mate[i].clear()` (`FrontierBasedSearch.hpp` 98-101) -/
def fbClear (m : List Mt) (i : Int) : Option (List Mt) := podSet m i ⟨0, 0⟩

/-- The counter at a component that leaves (`FrontierBasedSearch.hpp` 303-304, 316-317, 373-374): `none` stands for `return false`. -/
def fbCount (uec : Int) : Option Int := if uec = 0 then none else if 0 < uec then some (wrap16 (uec - 1)) else some uec

/-- The component of a coloured vertex leaves at index `o`, and `findColorPredecessor` is called for `lo` and `o'` (`FrontierBasedSearch.hpp` 294-295, 311-312, 355-356, 368-369): may it leave? -/
def fbColorLeaves (m : List Mt) (o lo o' : Int) : Option Bool :=
  (fbColoredTail m o).bind fun t =>
  if t = false then some false else (fbPred m lo o').map fun r => r.isNone

/-- A component leaves together with an edge or as a list of two (`FrontierBasedSearch.hpp` 309-318, 366-375) -/
def fbListLeaves (m : List Mt) (uec i1 i2 : Int) : Option (Option Int) :=
  (fbColored m i1).bind fun c1 =>
  if c1 = true then (fbColorLeaves m i2 i2 1).map fun ok => if ok = true then some uec else none
  else
    (fbIsUec m i1).bind fun u =>
    if u = false then none else some (fbCount uec)

/-- The test on the last edge (`FrontierBasedSearch.hpp` 322, 378) -/
def fbFinal (e : EdgeInfo) (uec : Int) : Option Int := if e.finalEdge = true ∧ 0 < uec then none else some uec

/-- `takable(c, mate, e)` (`FrontierBasedSearch.hpp` 280-324): outer `none` is undefined behaviour, inner `none` is `return false`, otherwise the new counter. -/
def fbTakable (noLoop : Bool) (uec : Int) (m : List Mt) (e : EdgeInfo) : Option (Option Int) :=
  let i1 := (e.v1 : Int) - e.v0
  let i2 := (e.v2 : Int) - e.v0
  (podGet m i1).bind fun w1 =>
  (podGet m i2).bind fun w2 =>
  (fbHead m i1).bind fun h1 =>
  (fbHead m i2).bind fun h2 =>
  (fbColored m i1).bind fun c1 =>
  (fbColored m i2).bind fun c2 =>
  (fbSameColor m i1 i2).bind fun same =>
  if noLoop = true ∧ h1 = h2 then some none
  else if c1 = true ∧ c2 = true ∧ same = false then some none
  else
    (if e.v1final = true ∧ e.v2final = true then
      if w1.isolated = true ∧ w2.isolated = true then
        if c2 = true then (fbColorLeaves m i2 1 i2).map fun ok => if ok = true then some uec else none
        else if c1 = true then (fbColoredTail m i1).map fun t => if t = true then some uec else none
        else some (fbCount uec)
      else if 0 ≤ w1.hoc ∧ i2 = i1 + w1.nxt ∧ w2.nxt = 0 then fbListLeaves m uec i1 i2
      else some (some uec)
    else some (some uec)).map fun r => r.bind (fbFinal e)

/-- An isolated element leaves (`FrontierBasedSearch.hpp` 341-350 with `lo = none`, 352-362 with `lo = 1`). -/
def fbAlone (m : List Mt) (uec i : Int) (lo : Option Int) : Option (Option Int) :=
  (fbColored m i).bind fun c =>
  if c = true then
    match lo with
    | none => (fbColoredTail m i).map fun t => if t = true then some uec else none
    | some lo => (fbColorLeaves m i lo i).map fun ok => if ok = true then some uec else none
  else
    (fbIsUec m i).map fun u => if 0 ≤ uec ∧ u = true then fbCount uec else some uec

/-- `doNotTake(count, mate, e)` (`FrontierBasedSearch.hpp` 336-381), results as for `takable` -/
def fbNotTake (uec : Int) (m : List Mt) (e : EdgeInfo) : Option (Option Int) :=
  let i1 := (e.v1 : Int) - e.v0
  let i2 := (e.v2 : Int) - e.v0
  (podGet m i1).bind fun w1 =>
  (podGet m i2).bind fun w2 =>
  (if e.v1final = true ∧ w1.isolated = true then fbAlone m uec i1 none else some (some uec)).bind fun r1 =>
  match r1 with
  | none => some none
  | some uec =>
    (if e.v2final = true ∧ w2.isolated = true then fbAlone m uec i2 (some 1) else some (some uec)).bind fun r2 =>
    match r2 with
    | none => some none
    | some uec =>
      (if e.v1final = true ∧ e.v2final = true ∧ 0 ≤ w1.hoc ∧ i2 = i1 + w1.nxt ∧ w2.nxt = 0 then fbListLeaves m uec i1 i2
      else some (some uec)).map fun r => r.bind (fbFinal e)

section
variable (G : Graph) (numUEC : Int) (noLoop lookahead : Bool)

/-- `rootOfColor[k]` (`FrontierBasedSearch.hpp` 423-426) after the vertices `1, …, v` -/
def fbRootOf (k : Nat) : Nat → Nat
  | 0 => 0
  | v + 1 => if G.color (v + 1) = k then v + 1 else fbRootOf k v

/-- `initialMate[v]` for an index within the vector (`FrontierBasedSearch.hpp` 420, 427-431) -/
def fbInit (v : Nat) : Mt :=
  if v = 0 then ⟨0, 0⟩
  else if v ≤ G.vMax then ⟨wrap16 (if 0 < G.color v then (fbRootOf G (G.color v) G.vMax : Int) - v else fbUnc), 0⟩
  else ⟨0, 0⟩

/-- Loop of `update` (`FrontierBasedSearch.hpp` 391-396) for the elements from `q` on -/
def fbHeads (pd : Int) : Nat → Int → List Mt → Option (List Mt)
  | 0, _, m => some m
  | k + 1, q, m =>
    (podGet m q).bind fun w =>
    (if pd ≤ q + w.nxt then fbReplace m q (q + w.nxt) else some m).bind fun m => fbHeads pd k (q + 1) m

/-- `update(mate, e, ee)` (`FrontierBasedSearch.hpp` 383-414); the elements `initialMate[ee.v0 + k]` that are read must have an index below `1 + m + mateSize`, those that are moved an index below `mateSize`. -/
def fbUpdate (m : List Mt) (e ee : EdgeInfo) : Option (List Mt) :=
  if ee.v0 < e.v0 then none
  else
    let d := ee.v0 - e.v0
    let p1 := (e.v1 : Int) - e.v0
    let p2 := (e.v2 : Int) - e.v0
    (fbHeads (p1 + d) d p1 m).bind fun m =>
    (if e.v2final = true then (fbRemove m p2).bind fun m => fbClear m p2 else some m).bind fun m =>
    (if e.v1final = true then (fbRemove m p1).bind fun m => fbClear m p1 else some m).bind fun m =>
    if d = 0 then some m
    else if p1 ≠ 0 ∨ m.length < d ∨ G.vMax < ee.v0 then none
    else some (m.drop d ++ (List.range d).map fun k => fbInit G (ee.v0 + (m.length - d + k)))

/-- `while (lookahead)` and the final `return` of `getChild` (`FrontierBasedSearch.hpp` 464-479), for edge `i` -/
def fbLook : Nat → Nat → Int → List Mt → Option (Int × (Int × List Mt))
  | 0, _, _, _ => none
  | fuel + 1, i, uec, m =>
    if lookahead = false then some ((G.info.length : Int) - i, (uec, m))
    else
      (G.info[i]?).bind fun e =>
      (fbTakable noLoop uec m e).bind fun t =>
      if t.isSome = true then some ((G.info.length : Int) - i, (uec, m))
      else
        (fbNotTake uec m e).bind fun r =>
        match r with
        | none => some (0, (uec, m))
        | some uec =>
          if i + 1 = G.info.length then some (-1, (uec, m))
          else
            (G.info[i + 1]?).bind fun f =>
            (fbUpdate G m e f).bind fun m => fbLook fuel (i + 1) uec m

/-- Second half of `getChild` (`FrontierBasedSearch.hpp` 459-479): edge `i` is done. -/
def fbNext (i : Nat) (e : EdgeInfo) (uec : Int) (m : List Mt) : Option (Int × (Int × List Mt)) :=
  if i + 1 = G.info.length then some (-1, (uec, m))
  else
    (G.info[i + 1]?).bind fun f =>
    (fbUpdate G m e f).bind fun m => fbLook G noLoop lookahead G.info.length (i + 1) uec m

/-- `getChild(count, mate, level, take)` (`FrontierBasedSearch.hpp` 447-480) with `doTake` (326-334) -/
def fbChild (s : Int × List Mt) (level : Nat) (take : Bool) : Option (Int × (Int × List Mt)) :=
  if level < 1 ∨ G.info.length < level then none
  else
    (G.info[G.info.length - level]?).bind fun e =>
    if take then
      (fbTakable noLoop s.1 s.2 e).bind fun t =>
      match t with
      | none => some (0, s)
      | some uec => (fbMerge s.2 ((e.v1 : Int) - e.v0) ((e.v2 : Int) - e.v0)).bind fun m => fbNext G noLoop lookahead (G.info.length - level) e uec m
    else
      (fbNotTake s.1 s.2 e).bind fun r =>
      match r with
      | none => some (0, s)
      | some uec => fbNext G noLoop lookahead (G.info.length - level) e uec s.2

/-- `getRoot(count, mate)` (`FrontierBasedSearch.hpp` 435-445) -/
def fbRoot : Option (Int × (Int × List Mt)) :=
  (G.info[0]?).bind fun e =>
  if G.vMax + 1 < e.v0 then none
  else some (G.info.length, (wrap16 numUEC, (List.range G.maxFrontierSize.toNat).map fun k => fbInit G (e.v0 + k)))

/-- `FrontierBasedSearch(graph, numUEC, noLoop, lookahead)` (`FrontierBasedSearch.hpp` 266-485). Edge `i` is at level `n - i`. The hash function takes two elements at a time in the code. -/
def frontierSearch : DdSpec 2 (Int × List Mt) where
  root := (fbRoot G numUEC).getD (-2, (0, []))
  child s level value := (fbChild G noLoop lookahead s level (value != 0)).getD (level, s)
  eqv _ s t := decide (s = t)
  hash _ s := s.2.foldl (fun h w => (h + (w.hoc % 2 ^ 16).toNat + (w.nxt % 2 ^ 16).toNat * 2 ^ 16) * 314159257 % 2 ^ 64) ((s.1 % 2 ^ 64).toNat * 271828171 % 2 ^ 64)
  merge _ _ := 0

end

end TdZdd
