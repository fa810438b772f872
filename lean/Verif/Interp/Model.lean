import Verif.Time.Model
import Verif.Frame.Model
import Mathlib.Algebra.Module.Basic
import Mathlib.Data.Real.Basic
import Mathlib.LinearAlgebra.Matrix.Defs

/-!
# Interpolation of arrays in time

Source: `/repo/weldx/util/xarray.py` 202-226 (`xr_fill_all`), 255-275 (`_add_coord_edges`), 278-395 (`xr_interp_like`),
666-720 (`xr_interp_orientation_in_time`), 723-758 (`xr_interp_coordinates_in_time`).

Simplifications: `time` is the only coordinate; times are integers (nanoseconds), all absolute or all relative; a `DataArray`
with a time dimension is the list of its times and values. Only the methods `linear` and `step`. The indexes of the data
and the requested times have no repeated values. Values are elements of a real vector space (arrays of fixed shape), so that
units are fixed. The interpolation of two rotations by scipy is a parameter.
-/

namespace Weldx.Ip

/-- a `DataArray` with the dimension `time` -/
abbrev Series (V : Type) := List (Int × V)

/-- methods of interpolation -/
inductive Method
  | linear | step

/-- `bfill`: missing values are replaced by the next one -/
def bfill {V : Type} : List (Option V) → List (Option V)
  | [] => []
  | some v :: l => some v :: bfill l
  | none :: l => (bfill l).head?.join :: bfill l

/-- `ffill`: missing values are replaced by the previous one -/
def ffill {V : Type} : List (Option V) → Option V → List (Option V)
  | [], _ => []
  | some v :: l, _ => some v :: ffill l (some v)
  | none :: l, last => last :: ffill l last

/-- `xr_fill_all`, `util/xarray.py` 202-226, with the default order -/
def fillAll {V : Type} (l : List (Option V)) : List (Option V) := ffill (bfill l) none

/-- `_add_coord_edges`, `util/xarray.py` 255-275: the requested times together with the first and the last time of the data;
`combine_first` joins the sorted indexes -/
def addEdges {V : Type} (s : Series V) (ts : List Int) : List Int :=
  match s, s.getLast? with
  | [p], _ => Time.unionVals ts [p.1]
  | p :: _, some q => Time.unionVals ts [p.1, q.1]
  | _, _ => ts

section
variable {V : Type} [AddCommGroup V] [Module ℝ V]

/-- xarray's linear `interp`: no value outside the range of the data -/
noncomputable def lin : Series V → Int → Option V
  | [], _ => none
  | [p], t => if t = p.1 then some p.2 else none
  | p :: q :: l, t =>
    if t < p.1 then none
    else if t ≤ q.1 then some (p.2 + (((t : ℝ) - p.1) / (q.1 - p.1)) • (q.2 - p.2))
    else lin (q :: l) t

/-- `reindex(method="ffill")`: the value at the last time that is not later -/
def stepFill : Series V → Int → Option V
  | [], _ => none
  | p :: l, t => if t < p.1 then none else (stepFill l t).or (some p.2)

/-- the values at one point of the extended index, `util/xarray.py` 361-382. A single value is spread over the whole index by
`broadcast_like` and `xr_fill_all`. -/
noncomputable def raw (m : Method) (s : Series V) (t : Int) : Option V :=
  match s, m with
  | [p], _ => if t = p.1 then some p.2 else none
  | s, .linear => lin s t
  | s, .step => stepFill s t

/-- `xr_interp_like(da, {"time": ts}, method=m)`, `util/xarray.py` 278-395; `none` if a time is not found by `sel` or has no
value -/
noncomputable def interpLike (m : Method) (s : Series V) (ts : List Int) : Option (List V) :=
  let index := addEdges s ts
  let da := fillAll (index.map (raw m s))
  ts.mapM fun t => (da[index.idxOf t]?).join

end

/-- interpolation of two rotations: `Slerp([0, 1], [a, b])(w)` of scipy -/
abbrev Slerp := Mat3 ℝ → Mat3 ℝ → ℝ → Mat3 ℝ

/-- `Slerp(times_key, rotations_key)(t)` of scipy for a time in the range -/
noncomputable def slerpAt (S : Slerp) : Series (Mat3 ℝ) → Int → Mat3 ℝ
  | [], _ => 1
  | [p], _ => p.2
  | p :: q :: l, t =>
    if t ≤ q.1 then S p.2 q.2 (((t : ℝ) - p.1) / (q.1 - p.1)) else slerpAt S (q :: l) t

/-- `xr_interp_orientation_in_time`, `util/xarray.py` 666-720: the values at the requested times. -/
noncomputable def interpOrientation (S : Slerp) (s : Series (Mat3 ℝ)) (ts : List Int) : Option (List (Mat3 ℝ)) :=
  match s, s.getLast? with
  | [p], _ => some (ts.map fun _ => p.2)
  | p :: _, some q =>
    let union := Time.unionVals ts [p.1, q.1]
    let intersect := union.filter fun t => p.1 ≤ t ∧ t ≤ q.1
    interpLike .linear (intersect.map fun t => (t, slerpAt S s t)) ts
  | _, _ => none

/-- `xr_interp_coordinates_in_time`, `util/xarray.py` 723-758: the values at the requested times -/
noncomputable def interpCoordinates {V : Type} [AddCommGroup V] [Module ℝ V] (s : Series V) (ts : List Int) : Option (List V) :=
  interpLike .linear s ts

end Weldx.Ip
