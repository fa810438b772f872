import Verif.TimeLcs.ConstructProps
import Verif.TimeSeries.Tag

/-!
# Creation of coordinate systems whose coordinates are a discrete time series (C71)

Source: `/repo/weldx/transformations/local_cs.py` 333-345 (`_build_time`), 388-401 (`_coords_from_discrete_time_series`).

Simplifications: as in `TimeLcs/Construct.lean` and `TimeSeries/Model.lean`; the values of the series are vectors of three lengths
(other shapes are refused).
-/

namespace Weldx

open Ip Matrix Csm TLcs TimeSeries

/-- `_coords_from_discrete_time_series`, `local_cs.py` 388-401: the values of a constant, or the array of the series -/
def seriesArg (d : Discrete (Vec3 ℝ)) : XArg (Vec3 ℝ) := match d.vals with
  | [v] => .value v
  | l => .array (some ⟨false, d.times, d.ref⟩) (.series l)

/-- `_build_time`, `local_cs.py` 333-345, if the coordinates are a discrete time series -/
def buildTimeSeries (d : Discrete (Vec3 ℝ)) (time : Option Time) (timeRef : Option Int) : Except TimeError (Option Time) := do
  let t ← match time with
    | some t => Except.ok (some t)
    | none => timeOf d
  match t with
  | none => .ok none
  | some t => do .ok (some (← t.ofTime timeRef))

/-- `__init__`, `local_cs.py` 40-121, for coordinates that are a discrete time series -/
noncomputable def TLcs.constructSeries (S : Slerp) (orientation : XArg (Mat3 ℝ)) (d : Discrete (Vec3 ℝ)) (time : Option Time)
    (timeRef : Option Int) : Except TimeError TLcs := do
  let t ← buildTimeSeries d time timeRef
  let o ← orientation.build 1 t
  let c ← (seriesArg d).build 0 t
  TLcs.assemble S o c (← classRef t)

end Weldx
