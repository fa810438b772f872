import Verif.Interp.Model

/-!
# Model of `weldx.TimeSeries`

Source: `/repo/weldx/core/time_series.py` 67-80, 146-187 (constructor with discrete values), 188-231 (with an expression),
226-250 (`_interp_time_discrete`, `_interp_time_expression`), 288-320 (`interpolation`, `time`), 344-389 (`interp_time`).

Simplifications: values are elements of a real vector space (arrays of fixed shape with a fixed unit); an expression is a
function of the time delta; `DataArray` objects are not passed to the constructor by the user; the interpolation of relative
data at absolute times (xarray refuses to join the two kinds of index) is a `TypeError`.
-/

namespace Weldx

open Ip

/-- the `DataArray` of a discrete series: time deltas, the attribute `time_ref`, values and the attribute `interpolation` -/
structure Discrete (V : Type) where
  times : List Int
  ref : Option Int
  vals : List V
  method : Method

/-- the points in time of the data: `weldx.time_ref_unset` -/
def Discrete.clock {V : Type} (d : Discrete V) : List Int := d.times.map (· + d.ref.getD 0)

/-- a `TimeSeries` -/
inductive TimeSeries (V : Type)
  | discrete (d : Discrete V)
  | expression (f : Int → V) (ref : Option Int)

namespace TimeSeries
variable {V : Type}

/-- the setter of `interpolation`, `time_series.py` 299-311: a constant always has the method `step` -/
def setMethod (d : Discrete V) (m : Method) : Discrete V := { d with
  method := if d.times.length > 1 then m else .step }

/-- `_initialize_discrete`, `time_series.py` 155-187, for quantities: without a time the value is constant. Sizes that do not fit
are a `ValueError` of xarray. -/
def create (vals : List V) (time : Option Time) (m : Method) (reference : Option Int) : Except TimeError (Discrete V) := do
  let t ← (time.getD ⟨false, [0], none⟩).ofTime reference
  let ds ← t.asTimedelta
  let r ← t.referenceTime
  if ds.length = vals.length then .ok (setMethod ⟨ds, r, vals, .step⟩ m) else .error .valueError

/-- `reset_reference_time`, `util/xarray.py` 815-820 with 831-851: without a reference time the new one is assigned -/
def setReference (d : Discrete V) (r : Int) : Discrete V := match d.ref with
  | none => { d with
      ref := some r }
  | some a => { d with
      times := d.times.map (· - (r - a))
      ref := some r }

/-- `time_series.py` 229-230: a constant gets the reference time of the request -/
def adopt (d : Discrete V) (t : Time) : Except TimeError (Discrete V) :=
  if d.times.length ≤ 1 && t.abs then do
    match ← t.referenceTime with
    | some r => .ok (setReference d r)
    | none => .error TimeError.typeError
  else .ok d

/-- `_interp_time_discrete`, `time_series.py` 226-238: the values at the requested times -/
noncomputable def interpDiscrete [AddCommGroup V] [Module ℝ V] (d : Discrete V) (t : Time) : Except TimeError (List V) := do
  let d ← adopt d t
  if d.ref.isSome ≠ t.abs then .error .typeError
  else match interpLike d.method (d.clock.zip d.vals) t.vals with
    | some l => .ok l
    | none => .error .valueError

/-- `interp_time`, `time_series.py` 373-389 -/
noncomputable def interp [AddCommGroup V] [Module ℝ V] (s : TimeSeries V) (time : Time) : Except TimeError (Discrete V) := do
  let time ← time.ofTime none
  match s with
  | discrete d => do
    let t ← time.ofTime d.ref
    create (← interpDiscrete d t) (some time) d.method none
  | expression f ref => do
    let t ← time.ofTime ref
    let ds ← t.asTimedelta
    .ok (setMethod ⟨ds, ← t.referenceTime, ds.map f, .step⟩ .step)

end TimeSeries
end Weldx
