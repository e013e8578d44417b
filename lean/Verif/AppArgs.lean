import Verif.Readers
import Verif.DdPaths
import Verif.GraphillionApp
import Verif.CnfBddApp

/-!
# Model of the command lines of the applications

The loops over `argv` in the `main` functions of `ddpaths.cpp`, `graphillion_example.cpp`, `cnfbdd.cpp`, `cnf2ztdd2bdd.cpp`, `ddnumlin.cpp` and `ddqueens.cpp`. The first five differ in the points that `App` lists. An argument is a list of characters;
`thrown` is the outcome in which `usage` is called and `main` returns 1. `atoi` of a number that is not an `int` is undefined behaviour.
-/

namespace TdZdd

namespace Args

/-- a command line argument -/
abbrev Str := List Char

/-- the optional sign of a number, and the rest -/
def sign : Str → Bool × Str
  | '-' :: r => (true, r)
  | '+' :: r => (false, r)
  | r => (false, r)

/-- `std::atoi(s)`: white space, a sign, digits; the rest of the text is ignored, and no digit at all means 0 -/
def atoi (s : Str) : Option Int :=
  let p := sign (s.dropWhile IStr.space)
  let v : Int := IStr.digitsVal (p.2.takeWhile IStr.digit)
  let x := if p.1 then -v else v
  if -2147483648 ≤ x ∧ x ≤ 2147483647 then some x else none

/-- the value of a digit for `strtol` -/
def digitOf (c : Char) : Nat :=
  if IStr.digit c then c.toNat - 48
  else if 97 ≤ c.toNat ∧ c.toNat ≤ 122 then c.toNat - 87
  else if 65 ≤ c.toNat ∧ c.toNat ≤ 90 then c.toNat - 55
  else 36

/-- the value of the longest sequence of digits of a base -/
def valueIn (base : Nat) (s : Str) : Nat := (s.takeWhile fun c => digitOf c < base).foldl (fun v c => base * v + digitOf c) 0

/-- the value of a number without sign that may have the prefix `0x` or `0`; `0x` without a hexadecimal digit after it is a 0 -/
def autoBase : Str → Nat
  | '0' :: x :: c :: r => if (x = 'x' ∨ x = 'X') ∧ digitOf c < 16 then valueIn 16 (c :: r) else valueIn 8 (x :: c :: r)
  | '0' :: r => valueIn 8 r
  | r => valueIn 10 r

/-- `std::strtol(s, 0, 0)` where `long` has 64 bits; it is never undefined -/
def strtol (s : Str) : Option Int :=
  let p := sign (s.dropWhile IStr.space)
  let v : Int := autoBase p.2
  let x := if p.1 then -v else v
  some (if x < -9223372036854775808 then -9223372036854775808 else if 9223372036854775807 < x then 9223372036854775807 else x)

/-- what distinguishes the applications: the keys of `options`; `two`: the test `s.size() >= 2` of an option; `strs`: the third branch, in which the value belongs to the key; `files`: the number of file names; `need`: a file name is required;
`conv`: `atoi` or `strtol` -/
structure App where
  keys : List Str
  two : Bool
  strs : Bool
  files : Nat
  need : Bool
  conv : Str → Option Int

/-- `opt`, `optNum`, `optStr` and the file names that are not empty -/
structure St where
  opt : List (Str × Bool)
  num : List (Str × Int)
  str : List (Str × Str)
  files : List Str

/-- `m.count(k)` -/
def count {K : Type} (m : List (Str × K)) (k : Str) : Bool := m.any fun p => p.1 = k

/-- `m[k]`, where a missing key has the value `d` -/
def at' {K : Type} (m : List (Str × K)) (k : Str) (d : K) : K := ((m.find? fun p => p.1 = k).map Prod.snd).getD d

/-- `opt[s] = true` -/
def St.on (st : St) (s : Str) : St := { st with opt := setName st.opt s true }

/-- `optNum[s] = x` -/
def St.setNum (st : St) (s : Str) (x : Int) : St := { st with num := setName st.num s x }

/-- `optStr[s] = x` -/
def St.setStr (st : St) (s x : Str) : St := { st with str := setName st.str s x }

/-- is the argument taken for an option? (`ddpaths.cpp` 123, `graphillion_example.cpp` 108, `cnfbdd.cpp` 130, `ddnumlin.cpp` 152); `s[0]` of an empty string is the null character -/
def App.isOpt (app : App) (a : Str) : Bool := a.head? = some '-' && (!app.two || decide (2 ≤ a.length))

/-- an argument that is not an option (`ddpaths.cpp` 142-150, `graphillion_example.cpp` 127-135, `cnfbdd.cpp` 144-152, `ddnumlin.cpp` 166-171): it is stored in the first variable that is empty -/
def App.file (app : App) (st : St) (a : Str) : Res St :=
  if st.files.length < app.files then .ok (if a = [] then st else { st with files := st.files ++ [a] }) else .thrown

/-- the loop over the arguments (`ddpaths.cpp` 121-151, `graphillion_example.cpp` 106-136, `cnfbdd.cpp` 128-153, `cnf2ztdd2bdd.cpp` 128-153, `ddnumlin.cpp` 150-172) -/
def App.loop (app : App) : List Str → St → Res St
  | [], st => .ok st
  | a :: rest, st =>
    if app.isOpt a then
      if count st.opt a.tail then app.loop rest (st.on a.tail)
      else match rest with
        | [] => .thrown
        | b :: rest' =>
          if count st.opt (a.tail ++ " <n>".toList) then
            match app.conv b with
            | none => .ub
            | some x => app.loop rest' ((st.on a.tail).setNum a.tail x)
          else if app.strs && count st.opt (a.tail ++ ' ' :: b) then app.loop rest' ((st.on a.tail).setStr a.tail b)
          else .thrown
    else
      match app.file st a with
      | .ok st' => app.loop rest st'
      | .thrown => .thrown
      | .ub => .ub

/-- the maps before the loop (`ddpaths.cpp` 111-118, `graphillion_example.cpp` 94-100, `cnfbdd.cpp` 123-125) -/
def App.init (app : App) (num : List (Str × Int)) (str : List (Str × Str)) : St :=
  ⟨app.keys.foldl (fun m k => setName m k false) [], num, str, []⟩

/-- the loop and the test of the file name (`ddpaths.cpp` 153, `cnfbdd.cpp` 155, `ddnumlin.cpp` 174); `args` is `argv` without the name of the program -/
def App.parse (app : App) (num : List (Str × Int)) (str : List (Str × Str)) (args : List Str) : Res St :=
  (app.loop args (app.init num str)).bind fun st => if app.need && st.files.isEmpty then .thrown else .ok st

/-- `ddpaths.cpp` 46-65 -/
def ddpaths : App :=
  { keys := ["t path", "t cycle", "t cc", "t forest", "hamilton", "slow", "nola", "p", "dc", "nored", "ub <n>", "lb <n>", "uec <n>", "count", "graph", "all", "zdd", "zdd1", "export"].map String.toList
    two := true, strs := true, files := 2, need := true, conv := atoi }

/-- `graphillion_example.cpp` 42-59 -/
def graphillion : App :=
  { keys := ["path", "matching", "spanning", "noloop", "uec <n>", "lb <n>", "ub <n>", "st", "nola", "a", "count", "graph", "solutions <n>", "zdd", "sapporo", "import", "export"].map String.toList
    two := false, strs := true, files := 2, need := false, conv := atoi }

/-- `cnfbdd.cpp` 39-49 -/
def cnfbdd : App :=
  { keys := ["s", "n", "b", "limit <n>", "c", "p", "cnf", "dd0", "dd1", "dump"].map String.toList, two := true, strs := false, files := 2, need := true, conv := atoi }

/-- `cnf2ztdd2bdd.cpp` 41-45 -/
def cnf2ztdd2bdd : App :=
  { keys := ["dd0", "dd1", "dd2", "dump"].map String.toList, two := true, strs := false, files := 2, need := true, conv := atoi }

/-- `ddnumlin.cpp` 38-42 -/
def ddnumlin : App :=
  { keys := ["k <n>", "a", "p", "m <n>"].map String.toList, two := true, strs := false, files := 1, need := true, conv := strtol }

/-- `opt[k]` -/
def St.has (st : St) (k : String) : Bool := at' st.opt k.toList false

/-- `optNum[k]` if `opt[k]` -/
def St.numOf (st : St) (k : String) : Option Int := if st.has k then some (at' st.num k.toList 0) else none

/-- `optNum` before the loop of `ddpaths.cpp` (112-114) and `graphillion_example.cpp` (94-96) -/
def limits : List (Str × Int) := [("uec".toList, -1), ("lb".toList, 0), ("ub".toList, 2147483647)]

/-- the type of `ddpaths.cpp` 169-326, `none` for an unknown one -/
def kindOf (s : Str) : Option DdPaths.Kind :=
  if s = "path".toList then some .path
  else if s = "cycle".toList then some .cycle
  else if s = "cc".toList then some .cc
  else if s = "forest".toList then some .forest
  else none

/-- the options of `ddpaths.cpp` as `DdPaths.lean` takes them -/
def ddpathsOpts (st : St) : Option DdPaths.Opts :=
  (kindOf (at' st.str "t".toList [])).map fun k =>
    { kind := k, hamilton := st.has "hamilton", slow := st.has "slow", nola := st.has "nola", p := st.has "p", dc := st.has "dc", nored := st.has "nored", lb := st.numOf "lb", ub := st.numOf "ub", uec := at' st.num "uec".toList 0 }

/-- the options of `graphillion_example.cpp` as `GraphillionApp.lean` takes them -/
def graphillionOpts (st : St) : Gx.Opts :=
  { path := st.has "path", matching := st.has "matching", spanning := st.has "spanning", noloop := st.has "noloop", uec := st.numOf "uec", lb := st.numOf "lb", ub := st.numOf "ub", st := st.has "st", nola := st.has "nola", a := st.has "a" }

/-- the options of `cnfbdd.cpp` (85-98) as `CnfBddApp.lean` takes them; the conversion to `size_t` is modulo 2^64 -/
def cnfbddOpts (st : St) : CnfB.Opts :=
  { sort := st.has "s", useMap := !st.has "c"
    limit := if st.has "n" then none else some (if st.has "b" then 0 else (((st.numOf "limit").getD 2147483647) % 18446744073709551616).toNat) }

/-- `opt["a"]`, `optNum["k"]` as an `int`, and `optNum["m"]` (`ddnumlin.cpp` 182-183, 120) -/
def ddnumlinOpts (st : St) : Bool × Int × Int :=
  (st.has "a", ((st.numOf "k").getD (-1)).bmod 4294967296, (st.numOf "m").getD 10)

/-- `ddqueens.cpp` 41-48 -/
def queensKeys : List Str := ["colored", "colored1", "sat", "rook", "p", "dump", "noreport"].map String.toList

/-- the loop of `ddqueens.cpp` 100-119: the options and `n` -/
def queensLoop : List Str → List (Str × Bool) × Int → Res (List (Str × Bool) × Int)
  | [], st => .ok st
  | a :: rest, st =>
    if a.head? = some '-' then
      if count st.1 a.tail then queensLoop rest (setName st.1 a.tail true, st.2) else .thrown
    else if st.2 = 0 then
      match atoi a with
      | none => .ub
      | some x => queensLoop rest (st.1, x)
    else .thrown

/-- `main` of `ddqueens.cpp` up to line 124 -/
def queens (args : List Str) : Res (List (Str × Bool) × Int) :=
  (queensLoop args (queensKeys.foldl (fun m k => setName m k false) [], 0)).bind fun st => if st.2 < 1 then .thrown else .ok st

end Args

end TdZdd
