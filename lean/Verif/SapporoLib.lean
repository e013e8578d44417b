import Verif.CnfApp

/-!
# Model of the interface to SAPPOROBDD

`spec/SapporoZdd.hpp`, `spec/SapporoBdd.hpp`, `eval/ToZBDD.hpp`, `eval/ToBDD.hpp`. The package SAPPOROBDD is not a part of the repository. It has variables `1, 2, …` and levels `1, 2, …` (the highest level is at the top); the correspondence may
be any permutation. A diagram is modelled by its tree of levels, which is unique by the reduction rules and the unique table; the operations are textbook algorithms. A call with a variable or level that does not exist ends the program in
SAPPOROBDD; it is `none` here.
-/

namespace TdZdd

namespace Sap

/-- the variables of SAPPOROBDD: their number, their levels, and the variables of the levels -/
structure VarOrder where
  used : Nat
  lev : Nat → Nat
  var : Nat → Nat

namespace VarOrder

/-- `BDD_LevOfVar(v)`; 0, the variable `Top()` of a constant, has the level 0 -/
def levOfVar (o : VarOrder) (v : Nat) : Option Nat := if v = 0 then some 0 else if v ≤ o.used then some (o.lev v) else none

/-- `BDD_VarOfLev(l)` -/
def varOfLev (o : VarOrder) (l : Int) : Option Nat := if 1 ≤ l ∧ l ≤ o.used then some (o.var l.toNat) else none

/-- `BDD_NewVar()`: a new variable above all others -/
def newVar (o : VarOrder) : VarOrder := ⟨o.used + 1, fun v => if v = o.used + 1 then o.used + 1 else o.lev v, fun l => if l = o.used + 1 then o.used + 1 else o.var l⟩

/-- `k` calls of `BDD_NewVar()` -/
def newVars (o : VarOrder) : Nat → VarOrder
  | 0 => o
  | k + 1 => o.newVar.newVars k

/-- `while (BDD_VarUsed() < n) BDD_NewVar();` (`ToZBDD.hpp` 56-60, `ToBDD.hpp` 53-57) -/
def grow (o : VarOrder) (n : Int) : VarOrder := o.newVars (n - o.used).toNat

end VarOrder

/-! ## ZDDs -/

/-- a ZDD of SAPPOROBDD (`ZBDD`) -/
inductive Zb where
  | leaf (b : Bool)
  | node (l : Nat) (lo hi : Zb)
  deriving DecidableEq

namespace Zb

/-- a node with the given children, if the second one is not empty -/
def mk (l : Nat) (lo hi : Zb) : Zb := if hi = leaf false then lo else node l lo hi

/-- `f.OffSet(v)` for the variable with the level `l`: the sets without it -/
def offSet (l : Nat) : Zb → Zb
  | leaf b => leaf b
  | node m lo hi => if m = l then lo else mk m (offSet l lo) (offSet l hi)

/-- `f.OnSet0(v)` for the variable with the level `l`: the sets with it, but without writing it -/
def onSet0 (l : Nat) : Zb → Zb
  | leaf _ => leaf false
  | node m lo hi => if m = l then hi else mk m (onSet0 l lo) (onSet0 l hi)

/-- `f.Change(v)` for the variable with the level `l`: it is removed from the sets with it and added to the others -/
def change (l : Nat) : Zb → Zb
  | leaf b => mk l (leaf false) (leaf b)
  | node m lo hi => if m = l then mk l hi lo else if m < l then mk l (leaf false) (node m lo hi) else mk m (change l lo) (change l hi)

/-- the union of `{∅}` and a diagram -/
def addEmpty : Zb → Zb
  | leaf _ => leaf true
  | node m lo hi => node m (addEmpty lo) hi

/-- the union of `node l lo hi` and a diagram; `f0` and `f1` are the unions of `lo` and `hi` with a diagram -/
def unionNode (l : Nat) (lo hi : Zb) (f0 f1 : Zb → Zb) : Zb → Zb
  | leaf b => if b then node l (addEmpty lo) hi else node l lo hi
  | node m glo ghi =>
    if l = m then mk l (f0 glo) (f1 ghi)
    else if m < l then mk l (f0 (node m glo ghi)) hi
    else mk m (unionNode l lo hi f0 f1 glo) ghi

/-- `f + g`: the union -/
def union : Zb → Zb → Zb
  | leaf b, g => if b then addEmpty g else g
  | node l lo hi, g => unionNode l lo hi (union lo) (union hi) g

/-- `f.Top()` -/
def top (o : VarOrder) : Zb → Nat
  | leaf _ => 0
  | node l _ _ => o.var l

end Zb

/-- `while (BDD_LevOfVar(f.Top()) >= 1) f = f.OffSet(BDD_VarOfLev(f.Top()));` (`SapporoZdd.hpp` 69-71, 83-85); the first argument bounds the number of rounds. A round that changes `f` removes a level from it, and after one that does not change `f` the
loop goes on forever; so `used + 1` rounds are enough if it ends. -/
def strip (o : VarOrder) : Nat → Zb → Option Zb
  | 0, _ => none
  | fuel + 1, f =>
    (o.levOfVar (f.top o)).bind fun k =>
    if 1 ≤ k then (o.varOfLev (f.top o)).bind fun v => (o.levOfVar v).bind fun l => strip o fuel (f.offSet l) else some f

/-- the level of a diagram, and the diagram that becomes the state (`SapporoZdd.hpp` 66-72, 79-86) -/
def zLevel (o : VarOrder) (offset : Int) (f : Zb) : Option (Int × Zb) :=
  (o.levOfVar (f.top o)).bind fun k =>
  if 1 ≤ (k : Int) - offset then some ((k : Int) - offset, f)
  else (strip o (o.used + 1) f).map fun g => (if g = .leaf true then -1 else 0, g)

/-- `getChild` (`SapporoZdd.hpp` 75-87) -/
def zChild (o : VarOrder) (offset : Int) (f : Zb) (level take : Nat) : Option (Int × Zb) :=
  (o.varOfLev ((level : Int) + offset)).bind fun v => (o.levOfVar v).bind fun l =>
  let g := if take ≠ 0 then f.onSet0 l else f.offSet l
  (o.levOfVar (g.top o)).bind fun k => if (k : Int) - offset < level then zLevel o offset g else none

/-- `SapporoZdd(f, offset)` (`SapporoZdd.hpp` 45-89) as a specification. The hash value is the identifier of the node; here it is any function of the node. -/
def sapporoZdd (o : VarOrder) (hash : Zb → Nat) (f : Zb) (offset : Int) : DdSpec 2 Zb where
  root := (zLevel o offset f).getD (-2, f)
  child s level b := (zChild o offset s level b.val).getD (level, s)
  eqv _ s t := decide (s = t)
  hash _ s := hash s
  merge _ _ := 0

/-- `ToZBDD(offset)` (`ToZBDD.hpp` 44-73). The result is the ZDD together with the variables after the evaluation. -/
def toZbdd (o : VarOrder) (offset : Int) : Evaluator 2 VarOrder Zb (Zb × VarOrder) where
  start topLevel := o.grow ((topLevel : Int) + offset)
  term s value := some (s, .leaf (decide (value ≠ 0)))
  node s level vs :=
    if 0 < (level : Int) + offset then
      (s.varOfLev ((level : Int) + offset)).bind fun v => (s.levOfVar v).map fun l => (s, (vs 0).1.union ((vs 1).1.change l))
    else some (s, (vs 0).1)
  clean s _ := s
  value s f := some (f, s)

/-! ## BDDs

The trees of `CnfApp.lean` are used for the BDDs of SAPPOROBDD as well. -/

/-- `f.Top()` -/
def bTop (o : VarOrder) : Cudd → Nat
  | .leaf _ => 0
  | .node l _ _ => o.var l

/-- the level of a diagram (`SapporoBdd.hpp` 66-70, 77-82); `none` for the exception `invalid offset` -/
def bLevel (o : VarOrder) (offset : Int) (f : Cudd) : Option Int :=
  if bTop o f = 0 then some (if f = .leaf true then -1 else 0)
  else (o.levOfVar (bTop o f)).bind fun k => if 1 ≤ (k : Int) - offset then some ((k : Int) - offset) else none

/-- `getChild` (`SapporoBdd.hpp` 73-83) -/
def bChild (o : VarOrder) (offset : Int) (f : Cudd) (level take : Nat) : Option (Int × Cudd) :=
  (o.varOfLev ((level : Int) + offset)).bind fun v => (o.levOfVar v).bind fun l =>
  let g := f.cof l (decide (take ≠ 0))
  (bLevel o offset g).bind fun k => if bTop o g = 0 ∨ k < level then some (k, g) else none

/-- `SapporoBdd(f, offset)` (`SapporoBdd.hpp` 45-83) as a specification -/
def sapporoBdd (o : VarOrder) (hash : Cudd → Nat) (f : Cudd) (offset : Int) : DdSpec 2 Cudd where
  root := ((bLevel o offset f).getD (-2), f)
  child s level b := (bChild o offset s level b.val).getD (level, s)
  eqv _ s t := decide (s = t)
  hash _ s := hash s
  merge _ _ := 0

/-- `f | g` -/
def bOr (f g : Cudd) : Cudd := (f.inv.and g.inv).inv

/-- `ToBDD(offset)` (`ToBDD.hpp` 45-74); `none` for the exception -/
def toBdd (o : VarOrder) (offset : Int) : Evaluator 2 VarOrder Cudd (Cudd × VarOrder) where
  start topLevel := o.grow ((topLevel : Int) + offset)
  term s value := some (s, .const value)
  node s level vs :=
    if 0 < (level : Int) + offset then
      (s.varOfLev ((level : Int) + offset)).bind fun v => (s.levOfVar v).map fun l =>
        (s, bOr ((vs 0).1.and (Cudd.var l).inv) ((vs 1).1.and (Cudd.var l)))
    else none
  clean s _ := s
  value s f := some (f, s)

end Sap

end TdZdd
