import Mathlib.Data.List.Sort
import Mathlib.Data.Int.Order.Basic

/-!
# Model of `weldx.time.Time`

Source: `/repo/weldx/time.py`.

Simplifications: time stamps and time deltas are integers (nanoseconds, the resolution of pandas) without
overflow; conversions from strings, quantities and xarray objects (661-721) are left out, so a `Time` is
created from a list of values that are all time stamps or all time deltas.
-/

namespace Weldx

/-- Exceptions raised by `Time` or by the pandas functions it calls. -/
inductive TimeError
  | valueError | typeError | runtimeError | indexError
  deriving DecidableEq, Repr

/-- `Time._time` and `Time._time_ref`, `time.py` 299-300. `abs` tells whether the values are time stamps
(`Timestamp`, `DatetimeIndex`) or time deltas (`Timedelta`, `TimedeltaIndex`). Index objects of length
one are always turned into scalars (319-321), so the scalar types are the lists of length one. -/
structure Time where
  abs : Bool
  vals : List Int
  ref : Option Int
  deriving DecidableEq, Repr

namespace Time

/-- pandas `Index.is_monotonic_increasing` -/
def monotonic (l : List Int) : Bool := match l with
  | [] => true
  | a :: t => (t.foldl (fun (acc : Bool × Int) x => (acc.1 && decide (acc.2 ≤ x), x)) (true, a)).1

/-- `__init__`, `time.py` 277-300, for pandas values. -/
def make (abs : Bool) (vals : List Int) (ref : Option Int) : Except TimeError Time :=
  let (abs, vals) := match ref with
    | some r => if abs then (abs, vals) else (true, vals.map (· + r))
    | none => (abs, vals)
  if monotonic vals then .ok ⟨abs, vals, ref⟩ else .error .valueError

/-- `__init__` for a `Time` (`_get_time_input`, `time.py` 308-310). -/
def ofTime (t : Time) (ref : Option Int) : Except TimeError Time :=
  make t.abs t.vals (match ref with | some r => some r | none => t.ref)

/-- `reference_time`, `time.py` 523-530. `_time[0]` of an empty index is an `IndexError`. -/
def referenceTime (t : Time) : Except TimeError (Option Int) :=
  if t.abs then match t.ref with
    | some r => .ok (some r)
    | none => match t.vals with
      | [] => .error .indexError
      | a :: _ => .ok (some a)
  else .ok none

/-- setter of `reference_time`, `time.py` 532-535 -/
def setReferenceTime (t : Time) (r : Int) : Time := { t with ref := some r }

/-- `as_timedelta`, `time.py` 459-463. -/
def asTimedelta (t : Time) : Except TimeError (List Int) := do
  if t.abs then match ← t.referenceTime with
    | some r => .ok (t.vals.map (· - r))
    | none => .error .typeError
  else .ok t.vals

/-- Element-wise pandas operation: scalars are broadcast, indexes must have the same length. -/
def elementwise {α : Type} (f : Int → Int → α) (a b : List Int) : Except TimeError (List α) :=
  match a, b with
  | [x], b => .ok (b.map (f x))
  | a, [y] => .ok (a.map (f · y))
  | a, b => if a.length = b.length then .ok (List.zipWith f a b) else .error .valueError

/-- `__add__`, `time.py` 324-328. Adding two time stamps is a `TypeError` of pandas. -/
def add (t other : Time) : Except TimeError Time := do
  let other ← other.ofTime none
  let ref ← if t.abs then t.referenceTime else other.referenceTime
  if t.abs && other.abs then .error .typeError
  else do
    let v ← elementwise (· + ·) t.vals other.vals
    make (t.abs || other.abs) v ref

/-- `__sub__`, `time.py` 334-338. Subtracting a time stamp from a time delta is a `TypeError`. -/
def sub (t other : Time) : Except TimeError Time := do
  let other ← other.ofTime none
  let ref ← if other.abs then .ok none else t.referenceTime
  if !t.abs && other.abs then .error .typeError
  else do
    let v ← elementwise (· - ·) t.vals other.vals
    make (t.abs && !other.abs) v ref

/-- `__rsub__`, `time.py` 340-344. (`__radd__`, 330-332, calls `__add__`.) -/
def rsub (t other : Time) : Except TimeError Time := do
  let other ← other.ofTime none
  let ref ← if t.abs then .ok none else other.referenceTime
  if !other.abs && t.abs then .error .typeError
  else do
    let v ← elementwise (· - ·) other.vals t.vals
    make (other.abs && !t.abs) v ref

/-- `__eq__`, `time.py` 346-354: element-wise; values of different kind are never equal. -/
def eq (t other : Time) : Except TimeError (List Bool) := do
  let other ← other.ofTime none
  elementwise (fun x y => decide (x = y) && t.abs == other.abs) t.vals other.vals

/-- `equals`, `time.py` 395-410. -/
def equals (t other : Time) : Except TimeError Bool := do
  let l ← t.eq other
  .ok (l.all id && decide (t.ref = other.ref))

/-- pandas `Index.union` of two sorted indexes of the same kind: sorted, a repeated value occurs as often
as in the argument that has it more often. -/
def unionVals : List Int → List Int → List Int
  | [], ys => ys
  | xs, [] => xs
  | x :: xs, y :: ys =>
    if x < y then x :: unionVals xs (y :: ys)
    else if y < x then y :: unionVals (x :: xs) ys
    else x :: unionVals xs ys
termination_by xs ys => xs.length + ys.length

/-- The `reduce` of `_union_class`, `time.py` 774-777: pandas indexes of the arguments; joining time
stamps with time deltas gives an index of objects, which `Time` rejects with a `TypeError`. -/
def unionLoop (abs : Bool) : List Int → List Time → Except TimeError (List Int)
  | acc, [] => .ok acc
  | acc, t :: ts => if t.abs = abs then unionLoop abs (unionVals acc t.vals) ts else .error .typeError

/-- `_union_class`, `time.py` 771-778; `reduce` of an empty sequence is a `TypeError`. The arguments are
`Time` objects. -/
def union (ts : List Time) : Except TimeError Time := do
  match ← ts.mapM (fun t => t.ofTime none) with
  | [] => .error .typeError
  | t :: ts => do
    let v ← unionLoop t.abs t.vals ts
    make t.abs v none

/-- `_union_instance`, `time.py` 780-782. -/
def unionInstance (t : Time) (ts : List Time) : Except TimeError Time := union (t :: ts)

/-- pandas `timedelta_range(start, end, periods=n)`: `linspace` converted to integers, which cuts off
the fraction. -/
def linspace (t0 t1 : Int) (n : Nat) : List Int :=
  (List.range n).map fun (i : Nat) => (t0 * ((n : Int) - 1) + i * (t1 - t0)).tdiv ((n : Int) - 1)

/-- pandas `timedelta_range(start, end, freq=f)` -/
def arange (t0 t1 f : Int) : List Int :=
  (List.range (((t1 - t0) / f).toNat + 1)).map fun (k : Nat) => t0 + k * f

/-- The argument of `resample`: a number or a time delta. -/
inductive Resampling
  | number (n : Int)
  | interval (f : Int)

/-- `resample`, `time.py` 585-657. -/
def resample (t : Time) (r : Resampling) : Except TimeError Time := do
  if t.vals.length ≤ 1 then .error .runtimeError
  else do
    let tdi ← t.asTimedelta
    match tdi.min?, tdi.max? with
    | some t0, some t1 => do
      let new ← match r with
        | .number n => if n < 2 then Except.error TimeError.valueError else .ok (linspace t0 t1 n.toNat)
        | .interval f => if f ≤ 0 then .error .valueError else .ok (arange t0 t1 f)
      let new := if new.getLast? = some t1 then new else new ++ [t1]
      let ref ← t.referenceTime
      make false new ref
    | _, _ => .error .valueError

/-- `duration`, `time.py` 580-583. -/
def duration (t : Time) : Except TimeError Time :=
  match t.vals.min?, t.vals.max? with
  | some a, some b => make false [b - a] none
  | _, _ => .error .valueError

end Time
end Weldx
