import Verif.CnfApp

/-!
# Model of `apps/cnfbdd/CnfToBdd.hpp` and `CnfToBdd.cpp`

Variables are the numbers `1..nv`; the variable `v` has the level `nv - v + 1`. Clauses have the numbers `1..nc`, in the order of the list `cnf`. The state of the specification is the set of the clauses that have been entered but are not satisfied yet. `readDimacs` has the
same text as that of `CnfToZtdd.cpp`, see `CnfRead.lean`. Arrays that are indexed by levels are functions here. `clauseMapCube`, `clauseMapCond`, `enterCube`, `leaveCube`, `negaCube`… are only modelled where they are used. Messages, `countMinterm`, `dumpCnf`, and
the memory pools (`destructLevel`) are not modelled.
-/

namespace TdZdd

namespace Cudd

/-- `operator|` (`Cudd.hpp` 200-202) -/
def or (f g : Cudd) : Cudd := (f.inv.and g.inv).inv

/-- `Cudd_bddConstrain(f, c)` for `c` with the children `clo` and `chi`; `k0` and `k1` constrain a diagram by the children -/
def constrainNode (m : Nat) (clo chi : Cudd) (k0 k1 : Cudd → Cudd) : Cudd → Cudd
  | leaf b => leaf b
  | node l lo hi =>
    if m < l then mk l (constrainNode m clo chi k0 k1 lo) (constrainNode m clo chi k0 k1 hi)
    else if chi = leaf false then k0 (if l = m then lo else node l lo hi)
    else if clo = leaf false then k1 (if l = m then hi else node l lo hi)
    else mk m (k0 (if l = m then lo else node l lo hi)) (k1 (if l = m then hi else node l lo hi))

/-- `cofactor(c)`, that is `Cudd_bddConstrain(f, c)` (`Cudd.hpp` 234-236) -/
def constrain (f : Cudd) : Cudd → Cudd
  | leaf b => if b then f else leaf false
  | node m clo chi => constrainNode m clo chi (fun g => constrain g clo) (fun g => constrain g chi) f

/-- the part of a cube below the level `l` and at it -/
def cubeFrom (l : Nat) : Cudd → Cudd
  | leaf b => leaf b
  | node m lo hi => if l < m then cubeFrom l hi else node m lo hi

/-- `abstract(cube)`, that is `Cudd_bddExistAbstract(f, cube)` (`Cudd.hpp` 224-227) -/
def exist : Cudd → Cudd → Cudd
  | leaf b, _ => leaf b
  | node l lo hi, c =>
    match cubeFrom l c with
    | leaf _ => node l lo hi
    | node m _ chi => if m = l then (exist lo chi).or (exist hi chi) else mk l (exist lo c) (exist hi c)

/-- the last variable of the cube `support()` (`Cudd.hpp` 220-222, `CnfToBdd.cpp` 265-269): the lowest level in the diagram -/
def lowest : Cudd → Option Nat
  | leaf _ => none
  | node l lo hi => some ((lowest lo).elim ((lowest hi).elim l fun b => b) fun a => (lowest hi).elim a fun b => min a b)

end Cudd

namespace CnfB

open Cnf

/-! ## The tables of `prepare` -/

/-- `levelOfLiteral(lit)` (`CnfToBdd.hpp` 120-123) -/
def lev (nv : Nat) (x : Int) : Nat := nv + 1 - x.natAbs

/-- the numbers of the clauses with a literal at the given level, as they are pushed by the loops (`CnfToBdd.cpp` 130-155), one entry for each literal; `sel` chooses literals of a clause; the second argument is the number of the first clause -/
def pushed (nv : Nat) (sel : Clause → List Int) (level : Nat) : Nat → List Clause → List Nat
  | _, [] => []
  | j, c :: cs => ((sel c).filter fun x => decide (lev nv x = level)).map (fun _ => j) ++ pushed nv sel level (j + 1) cs

/-- `posiClauses[level]` (`CnfToBdd.cpp` 138) -/
def posi (nv : Nat) (cnf : List Clause) (level : Nat) : List Nat := pushed nv (fun c => c.filter fun x => decide (0 < x)) level 1 cnf

/-- `negaClauses[level]` (`CnfToBdd.cpp` 143) -/
def nega (nv : Nat) (cnf : List Clause) (level : Nat) : List Nat := pushed nv (fun c => c.filter fun x => decide (¬ 0 < x)) level 1 cnf

/-- `enterClauses[level]` (`CnfToBdd.cpp` 149) -/
def enter (nv : Nat) (cnf : List Clause) (level : Nat) : List Nat := pushed nv (fun c => c.head?.toList) level 1 cnf

/-- `leaveClauses[level]` (`CnfToBdd.cpp` 153) -/
def leave (nv : Nat) (cnf : List Clause) (level : Nat) : List Nat := pushed nv (fun c => c.getLast?.toList) level 1 cnf

/-- `completingLevel` (`CnfToBdd.cpp` 115, 162) -/
def completing (nv : Nat) (cnf : List Clause) : Nat := cnf.foldl (fun m c => min m (c.head?.elim 0 (lev nv) - 1)) nv

/-- `clauseVar[j]` (`CnfToBdd.cpp` 98) -/
def clauseVar (j : Nat) : Cudd := Cudd.branch j (.const 0) (.const 1)

/-- the conjunction of variables of clauses, `posiCube`, `negaCube`, `enterConstraint` (`CnfToBdd.cpp` 139, 144, 151) -/
def cube (js : List Nat) : Cudd := js.foldl (fun f j => f.and (clauseVar j)) (.const 1)

/-- the conjunction of negated variables of clauses, `posiMask`, `negaMask`, `leaveConstraint` (`CnfToBdd.cpp` 140, 145, 155) -/
def mask (js : List Nat) : Cudd := js.foldl (fun f j => f.and (clauseVar j).inv) (.const 1)

/-! ## The map to canonical clauses -/

/-- `ClauseCmpForRelaxing` (`CnfToBdd.hpp` 188-203), the loop written as a recursion -/
def relaxLt : List Int → List Int → Bool
  | [], _ => false
  | _ :: _, [] => true
  | x :: a, y :: b => if x.natAbs ≠ y.natAbs then decide (x.natAbs > y.natAbs) else if x ≠ y then decide (x > y) else relaxLt a b

/-- `clauseMap`: for each level and number of a clause the number of a clause -/
abbrev CMap := Nat → Nat → Nat

/-- `while (i1 <= nv && clauseMap[i1][j2] != j2) ++i1;` (`CnfToBdd.cpp` 206-208); `n` levels are left -/
def freeLevel (cm : CMap) (j2 : Nat) : Nat → Nat → Nat
  | 0, i => i
  | n + 1, i => if cm i j2 ≠ j2 then freeLevel cm j2 n (i + 1) else i

/-- `for (int i = i1; i < i2; ++i) …` (`CnfToBdd.cpp` 212-221), `n` levels from `i` on; `none` if the assertion fails -/
def mapBand (j1 j2 : Nat) : Nat → Nat → CMap → Option CMap
  | 0, _, cm => some cm
  | n + 1, i, cm => if cm i j2 = j2 then mapBand j1 j2 n (i + 1) (fun i' j => if i' = i ∧ j = j2 then j1 else cm i' j) else none

/-- the loop over the clauses of a group (`CnfToBdd.cpp` 211-226) -/
def mapGroup (j1 n i : Nat) : List (Nat × List Int) → CMap → Option CMap
  | [], cm => some cm
  | q :: g, cm => (mapBand j1 q.1 n i cm).bind (mapGroup j1 n i g)

/-- the body of the loop of `makeClauseMap` for `p` (`CnfToBdd.cpp` 195-228); `rest` are the clauses after `p` up to `to`, and `next` is the call of `makeClauseMap` for `k + 1`. `none` stands for undefined behaviour and failing assertions. -/
def mapFirst (nv k : Nat) (p : Nat × List Int) (rest : List (Nat × List Int)) (next : List (Nat × List Int) → CMap → Option CMap) (cm : CMap) : Option CMap :=
  (rest.head?).elim (some cm) fun q =>
  (p.2[k]?).bind fun t1 =>
  if t1 = 0 then some cm
  else (q.2[k]?).bind fun x =>
    if x ≠ t1 then some cm
    else (p.2[k + 1]?).bind fun t2 =>
      let i1 := freeLevel cm q.1 (nv + 1 - lev nv t1) (lev nv t1)
      let i2 := if t2 ≠ 0 then lev nv t2 else nv + 1
      if i1 > nv then some cm
      else
        let g := rest.takeWhile fun q => decide (q.2[k]? = some t1)
        (mapGroup p.1 (i2 - i1) i1 g cm).bind (next (p :: g))

/-- the loop of `makeClauseMap` (`CnfToBdd.cpp` 194) over the clauses from `from` to `to`; each is given by its number and its literals in reverse order, with 0 at the end -/
def mapLoop (nv k : Nat) (next : List (Nat × List Int) → CMap → Option CMap) : List (Nat × List Int) → CMap → Option CMap
  | [], cm => some cm
  | p :: rest, cm => (mapFirst nv k p rest next cm).bind (mapLoop nv k next rest)

/-- `makeClauseMap(base, from, to, k)` (`CnfToBdd.cpp` 192-230); the first argument bounds the depth of the recursion -/
def makeMap (nv : Nat) : Nat → Nat → List (Nat × List Int) → CMap → Option CMap
  | 0, _, _, _ => none
  | d + 1, k, rows, cm => mapLoop nv k (makeMap nv d (k + 1)) rows cm

/-- the clauses in reverse order with 0 at the end, and their numbers (`CnfToBdd.cpp` 177-186) -/
def revClauses : Nat → List Clause → List (Nat × List Int)
  | _, [] => []
  | j, c :: cs => (j, c.reverse ++ [0]) :: revClauses (j + 1) cs

/-- The end of `prepare` (`CnfToBdd.cpp` 165-190). `cp` is the result of `std::sort`. Without a clause the pointer `to - 1` is undefined. -/
def clauseMap (nv : Nat) (cp : List (Nat × List Int)) : Option CMap :=
  if cp = [] then none else makeMap nv (nv + 2) 0 cp fun _ j => j

/-! ## Reachability analysis -/

/-- the loop that makes a diagram smaller (`CnfToBdd.cpp` 260-273): `size` is the number of nodes of a diagram; the first argument bounds the number of rounds -/
def shrink (size : Cudd → Nat) (limit : Nat) : Nat → Cudd → Option Cudd
  | 0, _ => none
  | n + 1, g => g.lowest.elim (some g) fun v =>
    let h := g.exist (clauseVar v)
    if size h > limit then shrink size limit n h else some h

/-- a round of `traverseTD` (`CnfToBdd.cpp` 247-277); `f` is `frontierSet[i + 1]` -/
def down (nv : Nat) (cnf : List Clause) (size : Cudd → Nat) (limit i : Nat) (f : Cudd) : Option Cudd :=
  let f := if i + 2 ≤ nv then f.constrain (mask (leave nv cnf (i + 2))) else f
  let f := f.and (cube (enter nv cnf (i + 1)))
  let p := (f.exist (cube (posi nv cnf (i + 1)))).and ((mask (posi nv cnf (i + 1))).and (mask (leave nv cnf (i + 1))))
  let q := (f.exist (cube (nega nv cnf (i + 1)))).and ((mask (nega nv cnf (i + 1))).and (mask (leave nv cnf (i + 1))))
  let g := p.or q
  if size g > limit then shrink size limit (cnf.length + 2) g else some g

/-- `traverseTD(limit)` (`CnfToBdd.cpp` 242-281): `frontierSet[nv - k]` -/
def traverseTD (nv : Nat) (cnf : List Clause) (size : Cudd → Nat) (limit : Nat) : Nat → Option Cudd
  | 0 => some (.const 1)
  | k + 1 => (traverseTD nv cnf size limit k).bind (down nv cnf size limit (nv - (k + 1)))

/-- a round of `traverseBU` (`CnfToBdd.cpp` 290-307): `f` is `frontierSet[i - 1]`, and `g` is `frontierSet[i]` before the round -/
def up (nv : Nat) (cnf : List Clause) (i : Nat) (f g : Cudd) : Cudd :=
  let p := (f.constrain (mask (posi nv cnf i))).constrain (cube (enter nv cnf i))
  let p := if i < nv then p.and (mask (leave nv cnf (i + 1))) else p
  let q := (f.constrain (mask (nega nv cnf i))).constrain (cube (enter nv cnf i))
  let q := if i < nv then q.and (mask (leave nv cnf (i + 1))) else q
  g.and (p.or q)

/-- `traverseBU()` (`CnfToBdd.cpp` 283-312): `frontierSet[i]`, where `fs` are the sets before it -/
def traverseBU (nv : Nat) (cnf : List Clause) (fs : Nat → Option Cudd) : Nat → Option Cudd
  | 0 => some (mask (leave nv cnf 1))
  | i + 1 => (traverseBU nv cnf fs i).bind fun f => (fs (i + 1)).map fun g => up nv cnf (i + 1) f g

/-- `traverse(limit)` (`CnfToBdd.cpp` 232-240): `frontierSet[i]` -/
def traverse (nv : Nat) (cnf : List Clause) (size : Cudd → Nat) (limit : Nat) : Nat → Option Cudd :=
  traverseBU nv cnf fun i => if limit > 1 then traverseTD nv cnf size limit (nv - i) else some (.const 1)

/-! ## The specification -/

/-- The loops of `badState` (`CnfToBdd.cpp` 470-497) for the diagram `g` and the clauses from the highest number on. `none`: the clauses have come to their end in the loop of line 487, which goes on to read. The last comparison is with the null pointer, so that
the result is false when the first loop has ended. -/
def walk : Cudd → List Nat → Option Bool
  | .leaf b, _ => some (!b)
  | .node _ _ _, [] => some false
  | .node l lo hi, t :: ts =>
    match (t :: ts).dropWhile fun t => decide (l < t) with
    | [] => none
    | t :: ts => if l = t then walk hi ts else walk lo (t :: ts)

/-- `badState(clauses, level)` (`CnfToBdd.cpp` 470-497), `g` is `frontierSet[level]` -/
def badState (g : Cudd) (clauses : List Nat) : Option Bool := walk g clauses.reverse

/-- a number as it is stored in `work`, which is a `std::vector<uint16_t>` (`CnfToBdd.hpp` 81) -/
def short (x : Nat) : Nat := x % 65536

/-- `{a} + {b} - {c}` (`CnfToBdd.cpp` 411-449): the contents of `work`. The first argument bounds the number of rounds. -/
def combine : Nat → List Nat → List Nat → List Nat → List Nat
  | 0, _, _, _ => []
  | _ + 1, [], [], _ => []
  | n + 1, x :: a, [], c => emit x (c.dropWhile fun z => decide (z < x)) (combine n a [])
  | n + 1, [], y :: b, c => emit y (c.dropWhile fun z => decide (z < y)) (combine n [] b)
  | n + 1, x :: a, y :: b, c =>
    if x < y then emit x (c.dropWhile fun z => decide (z < x)) (combine n a (y :: b))
    else emit y (c.dropWhile fun z => decide (z < y)) (combine n (if x = y then a else x :: a) b)
where
  /-- writes an element unless it is the first one of `c` (`CnfToBdd.cpp` 425-433, 437-445) -/
  emit (x : Nat) (c : List Nat) (k : List Nat → List Nat) : List Nat :=
    match c with
    | [] => short x :: k []
    | z :: c => if z = x then k c else short x :: k (z :: c)

/-- `add(e)` of `MySmallSet` on the elements in increasing order; the array is modelled in `MySmallSet.lean` -/
def addTo (e : Nat) : List Nat → List Nat
  | [] => [e]
  | x :: l => if e < x then e :: x :: l else if e = x then x :: l else x :: addTo e l

/-- `ClauseSet::newInstance(pool, work)` (`MySet.hpp` 570-578) -/
def toSet (work : List Nat) : List Nat := work.foldl (fun l e => addTo e l) []

/-- the new state for `work` and the map at the new level (`CnfToBdd.cpp` 455-465) -/
def nextState (useMap : Bool) (m : Nat → Nat) (work : List Nat) : List Nat × List Nat :=
  (toSet work, if useMap then toSet (work.map fun j => short (m j)) else toSet work)

/-- `CnfToBdd` as a specification (`CnfToBdd.cpp` 401-468, `CnfToBdd.hpp` 260-266). The state consists of `set` and `id`. `bad level clauses` is `badState(clauses, level)`, `cm` is `clauseMap`, and `hash` the hash function of sets. -/
def specWith (nv : Nat) (cnf : List Clause) (bad : Nat → List Nat → Option Bool) (useMap : Bool) (cm : CMap) (hash : List Nat → Nat) : DdSpec 2 (List Nat × List Nat) where
  root := if nv = 0 then (0, [], []) else (nv, [], [])
  child s level b :=
    let ent := enter nv cnf level
    let work := combine (s.1.length + ent.length) s.1 ent (if b.val ≠ 0 then posi nv cnf level else nega nv cnf level)
    (bad (level - 1) work).elim ((level : Int), s) fun bad =>
      if bad then (0, s)
      else if level - 1 ≤ completing nv cnf ∧ work = [] then (-1, s)
      else (((level - 1 : Nat) : Int), nextState useMap (cm (level - 1)) work)
  eqv _ s t := decide (s.2 = t.2)
  hash _ s := hash s.2
  merge _ _ := 0

/-- the specification for the diagrams `fs` (`frontierSet`) -/
def spec (nv : Nat) (cnf : List Clause) (fs : Nat → Cudd) (useMap : Bool) (cm : CMap) (hash : List Nat → Nat) : DdSpec 2 (List Nat × List Nat) :=
  specWith nv cnf (fun level clauses => badState (fs level) clauses) useMap cm hash

end CnfB

end TdZdd
