import Verif.Time.Model
import Mathlib.Algebra.Order.Floor.Ring
import Mathlib.Algebra.Order.Round
import Mathlib.Data.Rat.Floor

/-!
# Conversions of `Time` (C80)

Source: `/repo/weldx/time.py` 365-367 (`__getitem__`), 412-430 (`all_close`), 432-457 (`as_quantity`), 465-470 (`as_timedelta_index`),
472-476 (`as_timestamp`), 478-482 (`as_datetime`), 490-499 (`as_pandas_index`), 501-521 (`as_data_array`), 661-680
(`_convert_quantity`), 682-696 (`_convert_xarray`).

Simplifications: as in `Time/Model.lean`; magnitudes of quantities are rational numbers instead of floats; a quantity with one value and
an index with one value are lists of length one.
-/

namespace Weldx.Time

/-- a `pint.Quantity` with a unit of time and the attribute `time_ref`; `unit` is the number of seconds -/
structure TQ where
  mag : List ℚ
  unit : ℚ
  ref : Option Int

/-- an `xarray.DataArray` with the coordinate `time`: kind of the values and attribute `time_ref` -/
structure TDa where
  datetime : Bool
  vals : List Int
  ref : Option Int
deriving DecidableEq

/-- `as_quantity`, `time.py` 432-457 -/
def asQuantity (t : Time) (unit : ℚ) : Except TimeError TQ := do
  let d ← t.asTimedelta
  let mag := d.map fun n : Int => (n : ℚ) / 10 ^ 9 / unit
  if t.abs then .ok ⟨mag, unit, ← t.referenceTime⟩ else .ok ⟨mag, unit, none⟩

/-- `Time(quantity, time_ref)`, `time.py` 277-300 with `_convert_quantity`, 661-680 -/
def ofQuantity (q : TQ) (ref : Option Int) : Except TimeError Time :=
  let delta := q.mag.map fun x => round (x * q.unit * 10 ^ 9)
  match q.ref with
  | some r => make true (delta.map (· + r)) ref
  | none => make false delta ref

/-- `as_data_array`, `time.py` 501-521 -/
def asDataArray (t : Time) (base : Bool) : Except TimeError TDa := do
  let v ← if base then t.asTimedelta else .ok t.vals
  .ok ⟨!base && t.abs, v, ← t.referenceTime⟩

/-- `Time(array, time_ref)`, `time.py` 277-300 with `_convert_xarray`, 682-696: the sum of two time stamps is a `TypeError` -/
def ofDataArray (a : TDa) (ref : Option Int) : Except TimeError Time := match a.ref with
  | some r => if a.datetime then .error .typeError else make true (a.vals.map (· + r)) ref
  | none => make a.datetime a.vals ref

/-- `as_timestamp`, `time.py` 472-476 -/
def asTimestamp (t : Time) : Except TimeError Int := match t.abs, t.vals with
  | true, [x] => .ok x
  | _, _ => .error .typeError

/-- `as_datetime`, `time.py` 478-482 -/
def asDatetime (t : Time) : Except TimeError (List Int) := if t.abs then .ok t.vals else .error .typeError

/-- `as_pandas_index`, `time.py` 490-499: whether it is a `DatetimeIndex`, and its values -/
def asIndex (t : Time) : Bool × List Int := (t.abs, t.vals)

/-- `numpy.isclose` of two times in seconds with its default tolerances (absolute 1e-8, relative 1e-5), here in nanoseconds -/
def close (x y : Int) : Bool := decide (|x - y| * 10 ^ 5 ≤ 10 ^ 6 + |y|)

/-- `all_close`, `time.py` 412-430, for a `Time` -/
def allClose (t other : Time) : Except TimeError Bool := do
  let other ← other.ofTime none
  let r ← t.referenceTime
  let r' ← other.referenceTime
  if r ≠ r' then .ok false
  else do
    let a ← t.asTimedelta
    let b ← other.asTimedelta
    let l ← elementwise close a b
    .ok (l.all id)

/-- `__getitem__`, `time.py` 365-367, with an integer -/
def getItem (t : Time) (i : Int) : Except TimeError Time :=
  let k := if i < 0 then i + t.vals.length else i
  if 0 ≤ k ∧ k < t.vals.length then do
    let r ← t.referenceTime
    make t.abs [t.vals.getD k.toNat 0] r
  else .error .indexError

/-- `__getitem__`, `time.py` 365-367, with a slice: `pos` are the positions of the slice -/
def getItems (t : Time) (pos : List ℕ) : Except TimeError Time := do
  let r ← t.referenceTime
  make t.abs (pos.filterMap (t.vals[·]?)) r

end Weldx.Time
