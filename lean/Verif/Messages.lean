import Verif.ListLemmas

/-!
# Model of `util/MessageHandler.hpp`

Any number of `MessageHandler` objects write to one stream (`std::cerr`). They share the static members. An object is identified by a number (its
address). The stream is the list of characters written so far; beside each character stands the object that wrote it (not used by the code).
The results of `std::time` are arbitrary: `Env.time k` is that of call `k`. So are the texts of `ResourceUsage`.

`none` is undefined behaviour (overflow of `int` in the arithmetic of the steps, division by 0) or a loop that does not stop.
Simplifications: the line and column numbers and the indentation are unbounded, characters are those of the C locale,
`flags`, `precision` and `imbue` of the stream are left out.
-/

namespace TdZdd

namespace Msg

/-- what comes from outside of the program -/
structure Env where
  /-- the result of call `k` of `std::time(0)` -/
  time : Nat → Int
  /-- the text of use `k` of a `ResourceUsage` -/
  usage : Nat → List Char

/-- members of a `MessageHandler_` object (110-120) -/
structure Handler where
  name : List Char
  indent : Int
  beginLine : Int
  totalSteps : Int
  stepCount : Int
  dotCount : Int
  dotTime : Int
  stepping : Bool
deriving DecidableEq

/-- static members (103-108), the stream, and the objects -/
structure St where
  enabled : Bool
  indentLevel : Int
  lineno : Int
  column : Int
  lastUser : Option Nat
  /-- the characters written so far, with their writer -/
  out : List (Nat × Char)
  /-- number of uses of `Env` -/
  tick : Nat
  h : Nat → Handler

/-- the handler before its construction -/
def noHandler : Handler :=
  { name := [], indent := 0, beginLine := 0, totalSteps := 0, stepCount := 0, dotCount := 0, dotTime := 0, stepping := false }

/-- the static initialisers (254-267) -/
def St.init : St :=
  { enabled := false, indentLevel := 0, lineno := 1, column := 0, lastUser := none, out := [], tick := 0, h := fun _ => noHandler }

/-- members of object `u` are assigned -/
def St.set (st : St) (u : Nat) (f : Handler → Handler) : St := { st with h := fun v => if v = u then f (st.h v) else st.h v }

/-- `Env` has been used `n` times -/
def St.used (st : St) (n : Nat) : St := { st with tick := st.tick + n }

/-- `indentLevel` changes by `d` -/
def St.nest (st : St) (d : Int) : St := { st with indentLevel := st.indentLevel + d }

/-- `isspace` -/
def isSpace (c : Char) : Bool := c = ' ' || c = '\t' || c = '\n' || c = '\x0b' || c = '\x0c' || c = '\r'

/-- `overflow`, lines 70-77: another object starts a new line -/
def newUser (st : St) (u : Nat) : St :=
  if st.lastUser ≠ some u then
    if st.column ≠ 0 then { st with out := st.out ++ [(u, '\n')], lineno := st.lineno + 1, column := 0, lastUser := some u }
    else { st with lastUser := some u }
  else st

/-- the characters of the indentation (83-86); there are none if `indent` is negative -/
def indentText (u : Nat) (n : Int) : List (Nat × Char) := List.replicate n.toNat (u, ' ')

/-- `overflow(c)` (67-100): one character is written by object `u` -/
def put (u : Nat) (st : St) (c : Char) : St :=
  if st.enabled = false then st
  else
    let st := newUser st u
    if st.column = 0 ∧ isSpace c = true then st
    else
      let st := if st.column = 0 then { st with out := st.out ++ indentText u (st.h u).indent, column := ((st.h u).indent.toNat : Int) } else st
      if c = '\n' then { st with out := st.out ++ [(u, c)], lineno := st.lineno + 1, column := 0 }
      else { st with out := st.out ++ [(u, c)], column := st.column + 1 }

/-- `*this << s` -/
def puts (u : Nat) (st : St) (s : List Char) : St := s.foldl (put u) st

/-- `capitalize` (37-43) -/
def capitalize : List Char → List Char
  | [] => []
  | c :: s => c.toUpper :: s

/-- the digits of a number -/
def digits (n : Int) : List Char := (toString n).toList

/-- `std::setw(3) << std::right << n` -/
def padded (n : Int) : List Char := List.replicate (3 - (digits n).length) ' ' ++ digits n

/-- the value of an `int` -/
def int32 (n : Int) : Option Int := if -2147483648 ≤ n ∧ n ≤ 2147483647 then some n else none

/-- the constructor (123-130) -/
def construct (st : St) (u : Nat) : St := st.set u fun _ => { noHandler with indent := st.indentLevel * 2 }

/-- `setSteps(steps)` (156-164) -/
def setSteps (E : Env) (st : St) (u : Nat) (steps : Int) : St :=
  if st.enabled = false then st
  else (st.set u fun x => { x with totalSteps := steps, stepCount := 0, dotCount := 0, dotTime := E.time st.tick, stepping := false }).used 1

/-- `--indentLevel` and the assignment of `indent` (224, 227) -/
def outdent (st : St) (u : Nat) : St := (st.nest (-1)).set u fun x => { x with indent := (st.indentLevel - 1) * 2 }

/-- the first branch of `end` (212-225) -/
def finishLine (u : Nat) (st : St) (msg info usage : List Char) : St :=
  outdent (puts u (puts u st (if info ≠ [] then ' ' :: info else if msg = [] then " done".toList else ' ' :: msg)) (" in ".toList ++ usage ++ ".\n".toList)) u

/-- the second branch of `end` (227-237) -/
def finishBlock (u : Nat) (st : St) (msg info usage : List Char) : St :=
  let st := puts u (outdent st u) (if msg = [] then "\nDone ".toList ++ (st.h u).name else '\n' :: capitalize msg)
  let st := if info ≠ [] then puts u st (' ' :: info) else st
  puts u st (" in ".toList ++ usage ++ ".\n".toList)

/-- `end(msg, info)` (206-242) -/
def finish (E : Env) (st : St) (u : Nat) (msg info : List Char) : St :=
  if st.enabled = false then st
  else if (st.h u).name = [] then st
  else
    let s := st.used 1
    St.set (if (st.h u).beginLine = st.lineno then finishLine u s msg info (E.usage st.tick) else finishBlock u s msg info (E.usage st.tick)) u
      fun x => { x with name := [] }

/-- `end(n)` (244-247) -/
def finishSize (E : Env) (st : St) (u n : Nat) : St :=
  if st.enabled = false then st else finish E st u [] (('<' :: digits n) ++ ['>'])

/-- `begin(s)` (142-154) after the old name has been ended -/
def startNew (E : Env) (st : St) (u : Nat) (s : List Char) : St :=
  let st := st.set u fun x => { x with name := if s = [] then "level-".toList ++ digits st.indentLevel else s, indent := st.indentLevel * 2 }
  let st := (puts u st ('\n' :: capitalize (st.h u).name)).nest 1
  let st := st.set u fun x => { x with indent := st.indentLevel * 2, beginLine := st.lineno }
  setSteps E st u 10

/-- `begin(s)` (142-154) -/
def start (E : Env) (st : St) (u : Nat) (s : List Char) : St :=
  if st.enabled = false then st
  else startNew E (if (st.h u).name ≠ [] then finish E st u "aborted".toList [] else st) u s

/-- one turn of the loop of `step` (196-199) -/
def oneDot (E : Env) (u : Nat) (st : St) : St :=
  let st := put u (if (st.h u).dotCount = 0 then put u st ' ' else st) '.'
  (st.set u fun x => { x with dotCount := x.dotCount + 1, dotTime := E.time st.tick }).used 1

/-- the loop of `step` (195-200). Each turn increases `dotCount`; for `0 < totalSteps` and `0 ≤ dotCount` it ends after at most `stepCount * 10` turns. -/
def dots (E : Env) (u : Nat) : Nat → St → Option St
  | 0, st =>
    (int32 ((st.h u).dotCount * (st.h u).totalSteps)).bind fun a => (int32 ((st.h u).stepCount * 10)).bind fun b =>
      if a < b then none else some st
  | fuel + 1, st =>
    (int32 ((st.h u).dotCount * (st.h u).totalSteps)).bind fun a => (int32 ((st.h u).stepCount * 10)).bind fun b =>
      if a < b then dots E u fuel (oneDot E u st) else some st

/-- the first statement of `step` (169-172) -/
def startStepping (E : Env) (u : Nat) (st : St) : St :=
  if (st.h u).stepping = false then
    if (st.h u).dotTime + 4 < E.time st.tick then (put u (st.used 1) '\n').set u fun x => { x with stepping := true } else st.used 1
  else st

/-- `step` with rows of marks, first part (175-181): the row is drawn again if the column is not the expected one -/
def redraw (u : Nat) (st : St) : St :=
  if (st.h u).stepCount.tmod 50 ≠ st.column - (st.h u).indent then
    puts u (put u st '\n') (List.replicate ((st.h u).stepCount.tmod 50).toNat '-')
  else st

/-- `++stepCount` -/
def countStep (u : Nat) (st : St) : St := st.set u fun x => { x with stepCount := x.stepCount + 1 }

/-- the end of a row of marks (183-190) -/
def endRow (E : Env) (u : Nat) (st : St) : Option St :=
  if st.column - (st.h u).indent ≥ 50 then
    (int32 ((st.h u).stepCount * 100)).bind fun p =>
      if (st.h u).totalSteps = 0 then none
      else some ((puts u (puts u st (padded (p.tdiv (st.h u).totalSteps)))
        ("% (".toList ++ E.usage st.tick ++ ", ".toList ++ E.usage (st.tick + 1) ++ ")\n".toList)).used 2)
  else some st

/-- `step(dot)` (166-204) -/
def step (E : Env) (st : St) (u : Nat) (dot : Char) : Option St :=
  if st.enabled = false then some st
  else
    let st := startStepping E u st
    if (st.h u).stepping = true then endRow E u (countStep u (put u (redraw u st) dot))
    else
      let st := countStep u st
      dots E u ((st.h u).stepCount * 10).toNat st

/-- the destructor (132-134) -/
def destruct (E : Env) (st : St) (u : Nat) : St := if (st.h u).name ≠ [] then finish E st u "aborted".toList [] else st

/-- the public operations -/
inductive Op
  | construct (u : Nat)
  | showMessages (flag : Bool)
  | write (u : Nat) (s : List Char)
  | start (u : Nat) (s : List Char)
  | setSteps (u : Nat) (n : Int)
  | step (u : Nat) (dot : Char)
  | finish (u : Nat) (msg info : List Char)
  | finishSize (u n : Nat)
  | destruct (u : Nat)

/-- one operation; `showMessages` is 136-140 -/
def exec (E : Env) (st : St) : Op → Option St
  | .construct u => some (Msg.construct st u)
  | .showMessages flag => some { st with enabled := flag }
  | .write u s => some (puts u st s)
  | .start u s => some (Msg.start E st u s)
  | .setSteps u n => some (Msg.setSteps E st u n)
  | .step u dot => Msg.step E st u dot
  | .finish u msg info => some (Msg.finish E st u msg info)
  | .finishSize u n => some (Msg.finishSize E st u n)
  | .destruct u => some (Msg.destruct E st u)

/-- a sequence of operations -/
def run (E : Env) (st : St) (l : List Op) : Option St := l.foldlM (exec E) st

end Msg

end TdZdd
