import Verif.TimeLcs.ConstructSeriesProps

/-!
# Systems with an expression and their reference times (C75)

Source: `/repo/weldx/transformations/local_cs.py` 40-121 (`__init__`), 333-345 (`_build_time`), 388-401
(`_coords_from_discrete_time_series`), 601-612 (`reference_time`), 704-713 (`_interp_time_coordinates`), 723-772 (`interp_time`),
867-883 (`reset_reference_time`); `/repo/weldx/util/xarray.py` 822-851 (`time_ref`); `/repo/weldx/core/time_series.py` 373-389
(`interp_time`).

Other than in `TimeLcs/Query.lean` and `TimeLcs/Construct.lean` the expression is a time series with its own reference time.
Simplifications: as in `TimeLcs/Construct.lean`; the orientation does not depend on time.
-/

namespace Weldx

open Ip Matrix Csm TLcs TimeSeries

/-- a system whose coordinates are a series with an expression: `seriesRef` is the reference time of the series, `ref` the one of the
system (`_time_ref`) -/
structure SLcs where
  orient : Mat3 ℝ
  expr : Int → Vec3 ℝ
  seriesRef : Option Int
  ref : Option Int

namespace SLcs

/-- the series -/
def series (e : SLcs) : TimeSeries (Vec3 ℝ) := .expression e.expr e.seriesRef

/-- `__init__`, `local_cs.py` 40-121: the reference time of the series is not used -/
def construct (orient : Mat3 ℝ) (expr : Int → Vec3 ℝ) (seriesRef : Option Int) (time : Option Time) (timeRef : Option Int) :
    Except TimeError SLcs := do
  let t ← buildTime time timeRef
  .ok ⟨orient, expr, seriesRef, ← classRef t⟩

/-- the setter of `time_ref`, `util/xarray.py` 831-851, for coordinates -/
def setRef (a : XArg (Vec3 ℝ)) (r : Int) : XArg (Vec3 ℝ) := match a with
  | .array (some t) k => match t.ref with
    | none => .array (some { t with ref := some r }) k
    | some old => .array (some { t with vals := t.vals.map (· - (r - old)), ref := some r }) k
  | a => a

/-- `_interp_time_coordinates`, `local_cs.py` 704-713 -/
noncomputable def coords (e : SLcs) (t : Time) : Except TimeError (XArg (Vec3 ℝ)) := do
  let ti ← t.ofTime e.ref
  let d ← e.series.interp ti
  match e.ref with
  | none => .ok (seriesArg d)
  | some r => .ok (setRef (seriesArg d) r)

/-- `coordinates.ndim == 1` -/
def isStatic : XArg (Vec3 ℝ) → Bool
  | .value _ => true
  | _ => false

/-- `interp_time`, `local_cs.py` 723-772 -/
noncomputable def interpTime (S : Slerp) (e : SLcs) (t : Time) (timeRef : Option Int) : Except TimeError TLcs := do
  let t ← t.ofTime timeRef
  if e.ref.isSome ≠ t.abs then .error .typeError
  else do
    let c ← e.coords t
    TLcs.construct S (.value e.orient) c (if isStatic c then none else some t) none

/-- `reset_reference_time`, `local_cs.py` 867-883: the object after the call and the exception. There is no `time` in the data set, so
that nothing else is changed. -/
def reset (e : SLcs) (r : Option Int) : SLcs × Option TimeError :=
  ({ e with ref := r }, match r with
    | none => some .typeError
    | some _ => none)

end SLcs

end Weldx
