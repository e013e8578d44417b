import Verif.Builder

/-!
# Model of `util/MyHashTable.hpp`

An open-addressing hash table. The default entry `Entry()` that marks an empty slot is `none`;
the `assert(!(elem == Entry()))` of `add` and `get` is therefore built into the types.
Simplifications: `size_t` is unbounded; the statistics counter `collisions_` is left out.
`none` as an outcome means an out-of-bounds access or a loop that does not stop.
-/

namespace TdZdd

/-- The table of primes in `MyHashConstant::primeSize` (`MyHashTable.hpp` 39-53). -/
def primes : List Nat :=
  [2^3+3, 2^4+3, 2^5+5, 2^6+3, 2^7+3, 2^8+7, 2^9+9, 2^10+7, 2^11+5, 2^12+3, 2^13+17, 2^14+27,
   2^15+3, 2^16+3, 2^17+29, 2^18+3, 2^19+21, 2^20+7, 2^21+17, 2^22+15, 2^23+9, 2^24+43, 2^25+35,
   2^26+15, 2^27+29, 2^28+3, 2^29+11, 2^30+3, 2^31+11, 2^32+15, 2^33+17, 2^34+25, 2^35+53,
   2^36+31, 2^37+9, 2^38+7, 2^39+23, 2^40+15]

/-- Binary search loop of `primeSize` (60-69). -/
def primeLoop (n : Nat) : Nat → Nat → Nat → Option Nat
  | 0, _, _ => none
  | fuel + 1, lo, hi =>
    if lo < hi then
      match primes[(lo + hi) / 2]? with
      | none => none
      | some p => if n ≤ p then primeLoop n fuel lo ((lo + hi) / 2)
                  else primeLoop n fuel ((lo + hi) / 2 + 1) hi
    else primes[(lo + hi) / 2]?

/-- `MyHashConstant::primeSize` (38-72). -/
def primeSize (n : Nat) : Option Nat :=
  match primes[37]? with
  | none => none
  | some p => if n > p then some (n + 1) else primeLoop n 38 0 37

/-- Members of `MyHashTable` (155-160): `cap` is `tableCapacity_`, `mem` the storage. -/
structure HT (E : Type) where
  cap : Nat
  tableSize : Nat
  maxSize : Nat
  size : Nat
  mem : Nat → Option E

namespace HT

variable {E : Type}

/-- Default constructor and `clear` (165-168, 287-295). -/
def empty : HT E := { cap := 0, tableSize := 0, maxSize := 0, size := 0, mem := fun _ => none }

/-- `initialize(n)` (301-317). -/
def init (n : Nat) (t : HT E) : Option (HT E) :=
  (primeSize (n * 100 / 75 + 1)).map fun ts =>
    if ts ≤ t.cap then
      { t with tableSize := ts, maxSize := ts * 75 / 100, size := 0,
               mem := fun i => if i < ts then none else t.mem i }
    else
      { cap := ts, tableSize := ts, maxSize := ts * 75 / 100, size := 0, mem := fun _ => none }

variable (hash : E → Nat) (eq : E → E → Bool)

/-- The probe loop of `add` (344-349) and `get` (372-376): the index where it stops and the entry
found there. -/
def probe (t : HT E) (x : E) : Nat → Nat → Option (Nat × Option E)
  | 0, _ => none
  | fuel + 1, i =>
    if i < t.cap then
      match t.mem i with
      | none => some (i, none)
      | some e =>
        if eq e x then some (i, some e)
        else probe t x fuel (if i + 1 ≥ t.tableSize then 0 else i + 1)
    else none

/-- The entries in iteration order (`iterator`, 382-413, 454-468). -/
def entries (t : HT E) : List E := (List.range t.tableSize).filterMap t.mem

/-- `rehash(n)` (323-329) with the given `add`. -/
def rehashWith (add : HT E → E → Option (HT E × Nat)) (t : HT E) (n : Nat) : Option (HT E) :=
  (init (max t.tableSize n) empty).bind fun tmp =>
    t.entries.foldlM (fun t e => (add t e).map (·.1)) tmp

/-- `add(elem)` (336-360): the new table and the index of the returned reference. The first
argument bounds the nesting of `rehash` and the rounds of the outer loop. -/
def addF : Nat → HT E → E → Option (HT E × Nat)
  | 0, _, _ => none
  | fuel + 1, t, x =>
    if t.tableSize = 0 then (rehashWith (addF fuel) t 1).bind fun t => addF fuel t x
    else
      match probe eq t x t.tableSize (hash x % t.tableSize) with
      | none => none
      | some (i, some _) => some (t, i)
      | some (i, none) =>
        if t.size < t.maxSize then
          some ({ t with size := t.size + 1, mem := upd t.mem i (some x) }, i)
        else (rehashWith (addF fuel) t (t.size * 2)).bind fun t => addF fuel t x

/-- `add(elem)`: two rounds are enough (`C46`). -/
def add (t : HT E) (x : E) : Option (HT E × Nat) := addF hash eq 2 t x

/-- `rehash(n)` (323-329). -/
def rehash (t : HT E) (n : Nat) : Option (HT E) := rehashWith (add hash eq) t n

/-- `get(elem)` (367-380): the outer option is definedness, the inner one the null pointer. -/
def get (t : HT E) (x : E) : Option (Option (Nat × E)) :=
  if t.tableSize > 0 then
    (probe eq t x t.tableSize (hash x % t.tableSize)).map fun p => p.2.map fun e => (p.1, e)
  else some none

/-- Copy constructor `MyHashTable(o, n)` (188-195). -/
def copy (o : HT E) (n : Nat) : Option (HT E) :=
  (init (max o.tableSize n) empty).bind fun t =>
    o.entries.foldlM (fun t e => (add hash eq t e).map (·.1)) t

/-- `operator=(o)` (197-203) for two different objects. -/
def assign (t o : HT E) : Option (HT E) :=
  (init o.tableSize t).bind fun t =>
    o.entries.foldlM (fun t e => (add hash eq t e).map (·.1)) t

/-- `t = t` (197-203): `o` is the table that has just been initialised. -/
def selfAssign (t : HT E) : Option (HT E) :=
  (init t.tableSize t).bind fun t =>
    t.entries.foldlM (fun t e => (add hash eq t e).map (·.1)) t

end HT

end TdZdd
