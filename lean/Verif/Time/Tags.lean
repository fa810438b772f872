import Verif.Time.Model
import Mathlib.Tactic.Linarith
import Mathlib.Tactic.Ring

/-!
# Serialisation of time objects (C66)

Source: `/repo/weldx/tags/time/timedeltaindex.py` 11-61, `/repo/weldx/tags/time/datetimeindex.py` 13-54,
`/repo/weldx/tags/time/time.py` 9-35, `timedelta.py`, `timestamp.py`.

Parts of pandas that are modelled from its documentation: `inferred_freq` of a `TimedeltaIndex` (at least three values with the same
non-zero difference; the text of the difference is a count and the largest unit that divides it; multiples of seven days have the
unit `W-` and the day of the week), `timedelta_range` (start, start + freq, ... up to end; weeks are no fixed frequency and
raise), and `TimedeltaIndex(values)`/`DatetimeIndex(values)` with integers, which are nanoseconds. The ISO format of a single value is
exact.

Simplifications: the text of a frequency is a count and the text of the unit (digits are not touched by the code). The rules of calendar
frequencies of a `DatetimeIndex` are a parameter. A time zone is an optional number.
-/

namespace Weldx.TimeTags

/-- a `TimedeltaIndex` or `DatetimeIndex`: integers in units of `res` nanoseconds -/
structure Index where
  res : Int
  vals : List Int
  deriving DecidableEq

/-- the points in time in nanoseconds -/
def Index.ns (i : Index) : List Int := i.vals.map (i.res * ·)

/-- exceptions -/
inductive Err | indexError | valueError
  deriving DecidableEq

/-- text of a frequency -/
structure Freq where
  count : Int
  unit : List Char
  deriving DecidableEq

/-- what is stored for an index; "min" and "max" are not read -/
inductive Tree
  | freq (f : Freq) (start «end» : Int)
  | values (l : List Int) (start «end» : Int)
  deriving DecidableEq

/-- `l` with differences `d` -/
def Steps (d : Int) : List Int → Prop
  | [] => True
  | [_] => True
  | a :: b :: t => b = a + d ∧ Steps d (b :: t)

instance (d : Int) : (l : List Int) → Decidable (Steps d l)
  | [] => isTrue trivial
  | [_] => isTrue trivial
  | a :: b :: t => by
    have : Decidable (Steps d (b :: t)) := instDecidableSteps d (b :: t)
    unfold Steps
    exact inferInstance

/-- difference of the values, if there are at least three with the same difference -/
def delta? : List Int → Option Int
  | a :: b :: c :: t => if b - a ≠ 0 ∧ Steps (b - a) (a :: b :: c :: t) then some (b - a) else none
  | _ => none

/-- units of frequencies with their names in recent pandas versions -/
def unitNs : List (List Char × Int) :=
  [(['D'], 86400000000000), (['h'], 3600000000000), (['m', 'i', 'n'], 60000000000), (['s'], 1000000000), (['m', 's'], 1000000),
    (['u', 's'], 1000), (['n', 's'], 1)]

/-- the same with the names of older versions -/
def unitNsOld : List (List Char × Int) :=
  [(['D'], 86400000000000), (['H'], 3600000000000), (['T'], 60000000000), (['S'], 1000000000), (['L'], 1000000),
    (['U'], 1000), (['N'], 1)]

/-- a week in nanoseconds -/
def week : Int := 7 * 86400000000000

/-- names of the days of the week, beginning with the one of 1970-01-01 -/
def weekdays : List (List Char) :=
  [['T', 'H', 'U'], ['F', 'R', 'I'], ['S', 'A', 'T'], ['S', 'U', 'N'], ['M', 'O', 'N'], ['T', 'U', 'E'], ['W', 'E', 'D']]

/-- the day of the week of a point in time (ns since 1970-01-01) -/
def weekday (t : Int) : List Char := weekdays.getD ((t / 86400000000000) % 7).toNat []

/-- text of a difference: the largest unit that divides it -/
def text (names : List (List Char × Int)) (start d : Int) : Freq :=
  if d % week = 0 then ⟨d / week, ['W', '-'] ++ weekday start⟩
  else match names.find? (fun u => d % u.2 = 0) with
    | some u => ⟨d / u.2, u.1⟩
    | none => ⟨d, []⟩

/-- timedeltaindex.py 11: `PANDAS_OLD_UNIT_SUFFIXES` -/
def replaceChar : Char → List Char
  | 'H' => ['h']
  | 'T' => ['m', 'i', 'n']
  | 'S' => ['s']
  | 'L' => ['m', 's']
  | 'U' => ['u', 's']
  | 'N' => ['n', 's']
  | c => [c]

/-- 14-17 `_handle_converted_pd_tdi_units` -/
def handle (f : Freq) : Freq := { f with unit := f.unit.flatMap replaceChar }

/-- pandas: the difference of a fixed frequency with recent names; `none`: not a valid fixed frequency -/
def parse (f : Freq) : Option Int := (unitNs.find? (fun u => u.1 = f.unit)).map fun u => f.count * u.2

/-- `start`, `start + d`, ... with `n + 1` elements -/
def range (start d : Int) : ℕ → List Int
  | 0 => [start]
  | n + 1 => start :: range (start + d) d n

/-- pandas `timedelta_range(start, end, freq)` -/
def timedeltaRange (start stop : Int) (f : Freq) : Except Err (List Int) :=
  match parse f with
  | none => .error .valueError
  | some d =>
    if d = 0 then .error .valueError
    else if 0 ≤ (stop - start) / d then .ok (range start d ((stop - start) / d).toNat) else .ok []

/-- timedeltaindex.py 26-39 `to_yaml_tree`; `names`: of the pandas version -/
def tdiToTree (names : List (List Char × Int)) (i : Index) : Except Err Tree :=
  match i.ns with
  | [] => .error .indexError
  | a :: t =>
    let stop := (a :: t).getLastD 0
    match delta? i.ns with
    | some d => .ok (.freq (text names a d) a stop)
    | none => .ok (.values i.vals a stop)

/-- timedeltaindex.py 41-49 `from_yaml_tree` -/
def tdiFromTree : Tree → Except Err Index
  | .freq f a b => (timedeltaRange a b (handle f)).map (Index.mk 1)
  | .values l _ _ => .ok ⟨1, l⟩

/-- timedeltaindex.py 51-61 `shape_from_tagged` -/
def tdiShape : Tree → Except Err (List ℕ)
  | .freq f a b => (timedeltaRange a b (handle f)).map fun l => [l.length]
  | .values l _ _ => .ok [l.length]

/-! ### `DatetimeIndex` -/

/-- a `DatetimeIndex` with its time zone -/
structure Stamps where
  idx : Index
  tz : Option Int
  deriving DecidableEq

/-- frequencies of pandas for time stamps -/
structure Cal (R : Type) where
  infer : List Int → Option R
  range : Int → Int → R → Except Err (List Int)

/-- the rule that pandas finds generates the index again -/
def Cal.Lawful {R : Type} (c : Cal R) : Prop :=
  ∀ a t r, c.infer (a :: t) = some r → c.range a ((a :: t).getLastD 0) r = .ok (a :: t)

/-- what is stored; the start and the end keep the time zone -/
inductive DTree (R : Type)
  | freq (r : R) (start stop : Int) (tz : Option Int)
  | values (l : List Int)

/-- datetimeindex.py 19-31 `to_yaml_tree` -/
def dtiToTree {R : Type} (c : Cal R) (s : Stamps) : Except Err (DTree R) :=
  match s.idx.ns with
  | [] => .error .indexError
  | a :: t =>
    match c.infer (a :: t) with
    | some r => .ok (.freq r a ((a :: t).getLastD 0) s.tz)
    | none => .ok (.values s.idx.vals)

/-- datetimeindex.py 33-39 `from_yaml_tree` -/
def dtiFromTree {R : Type} (c : Cal R) : DTree R → Except Err Stamps
  | .freq r a b tz => (c.range a b r).map fun l => ⟨⟨1, l⟩, tz⟩
  | .values l => .ok ⟨⟨1, l⟩, none⟩

/-! ### `Time` -/

/-- what is stored for the values of a `Time`: a single value or an index -/
inductive TimeTree (R : Type)
  | stamp (v : Int) | delta (v : Int) | stamps (t : DTree R) | deltas (t : Tree)

/-- time.py 15-20 `to_yaml_tree` -/
def timeToTree {R : Type} (names : List (List Char × Int)) (c : Cal R) (t : Time) : Except Err (TimeTree R × Option Int) :=
  match t.abs, t.vals with
  | true, [v] => .ok (.stamp v, t.ref)
  | false, [v] => .ok (.delta v, t.ref)
  | true, l => (dtiToTree c ⟨⟨1, l⟩, none⟩).map fun x => (.stamps x, t.ref)
  | false, l => (tdiToTree names ⟨1, l⟩).map fun x => (.deltas x, t.ref)

/-- time.py 22-24 `from_yaml_tree` -/
def timeFromTree {R : Type} (c : Cal R) : TimeTree R × Option Int → Except Err (Except TimeError Time)
  | (.stamp v, r) => .ok (Time.make true [v] r)
  | (.delta v, r) => .ok (Time.make false [v] r)
  | (.stamps x, r) => (dtiFromTree c x).map fun s => Time.make true s.idx.ns r
  | (.deltas x, r) => (tdiFromTree x).map fun i => Time.make false i.ns r

end Weldx.TimeTags
