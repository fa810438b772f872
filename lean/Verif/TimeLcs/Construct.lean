import Verif.TimeLcs.InterpCsm

/-!
# Creation of a time dependent `LocalCoordinateSystem` (C71)

Source: `/repo/weldx/transformations/local_cs.py` 40-121 (`__init__`), 268-345 (`_build_orientation`, `_build_coordinates`,
`_build_time`), 403-418 (`_unify_time_axis`); `/repo/weldx/util/xarray.py` 577-663 (`xr_3d_vector`, `xr_3d_matrix`), 799-812
(`time_ref_restore`), 823-846 (`time_ref`).

Simplifications: as in `TimeLcs/Model.lean`. The checks and the normalisation of orientations are in `Frame/Model.lean`, units are
fixed. `xarray.merge` with `join="exact"` is described by what it does with the coordinate `time`: different values are an error, the
attributes are those of the first array that has it. A comparison of time axes of different lengths counts as different.
-/

namespace Weldx

open Ip Matrix Csm

/-- a time coordinate as it is given: time stamps or time deltas, attribute `time_ref` -/
structure RawTime where
  abs : Bool
  vals : List Int
  ref : Option Int

/-- `time_ref_restore`, `util/xarray.py` 799-812: time stamps become time deltas since the attribute or the first time stamp -/
def RawTime.restore (t : RawTime) : Except TimeError (List Int × Option Int) :=
  if t.abs then match t.ref, t.vals with
    | some r, l => .ok (l.map (· - r), some r)
    | none, a :: l => .ok ((a :: l).map (· - a), some a)
    | none, [] => .error .indexError
  else .ok (t.vals, t.ref)

/-- a `DataArray`: the coordinate `time` as time deltas, its attribute `time_ref` and the values -/
structure XArr (V : Type) where
  times : Option (List Int)
  ref : Option Int
  comp : Comp V

/-- values passed to the constructor: nothing, values without or with a leading time dimension, or a `DataArray` -/
inductive XArg (V : Type)
  | none
  | value (v : V)
  | values (l : List V)
  | array (t : Option RawTime) (k : Comp V)

/-- `_build_time`, `local_cs.py` 333-345, if the coordinates are not a discrete time series -/
def buildTime (time : Option Time) (timeRef : Option Int) : Except TimeError (Option Time) := match time, timeRef with
  | some t, r => do .ok (some (← t.ofTime r))
  | none, some r => do .ok (some (← Time.make true [r] (some r)))
  | none, none => .ok none

/-- `_build_orientation` and `_build_coordinates`, `local_cs.py` 268-331, with `xr_3d_matrix` and `xr_3d_vector`: `dflt` is used if
nothing is given -/
def XArg.build {V : Type} (dflt : V) (t : Option Time) : XArg V → Except TimeError (XArr V)
  | .none => .ok ⟨Option.none, Option.none, .static dflt⟩
  | .value v => .ok ⟨Option.none, Option.none, .static v⟩
  | .values l => match t with
    | Option.none => .error .valueError
    | some t => do
      let ds ← t.asTimedelta
      if ds.length = l.length then .ok ⟨some ds, ← t.referenceTime, .series l⟩ else .error .valueError
  | .array Option.none k => .ok ⟨Option.none, Option.none, k⟩
  | .array (some t) k => do
    let (ds, r) ← t.restore
    .ok ⟨some ds, r, k⟩

/-- `xr_interp_orientation_in_time` and `xr_interp_coordinates_in_time`, `util/xarray.py` 666-758, at the times of `u` -/
noncomputable def XArr.interp {V : Type} (f : Series V → List Int → Option (List V)) (x : XArr V) (own u : Time) :
    Except TimeError (XArr V) := match x.comp with
  | .static _ => .ok x
  | .series l => match f (own.vals.zip l) u.vals with
    | none => .error .valueError
    | some [v] => .ok ⟨some (u.vals.map (· - x.ref.getD 0)), x.ref, .static v⟩
    | some vs => .ok ⟨some (u.vals.map (· - x.ref.getD 0)), x.ref, .series vs⟩

/-- `_unify_time_axis`, `local_cs.py` 403-418 -/
noncomputable def unifyAxis (S : Slerp) (o : XArr (Mat3 ℝ)) (c : XArr (Vec3 ℝ)) :
    Except TimeError (XArr (Mat3 ℝ) × XArr (Vec3 ℝ)) :=
  match o.times, c.times with
  | some a, some b =>
    if o.comp.isSeries && c.comp.isSeries && decide (a ≠ b) then do
      let ta ← Time.make false a o.ref
      let tb ← Time.make false b c.ref
      let u ← Time.union [ta, tb]
      .ok (← o.interp (interpOrientation S) ta u, ← c.interp interpCoordinates tb u)
    else .ok (o, c)
  | _, _ => .ok (o, c)

/-- `xr.merge([orientation, coordinates], join="exact")`, `local_cs.py` 110 -/
def mergeArrays (o : XArr (Mat3 ℝ)) (c : XArr (Vec3 ℝ)) : Except TimeError TLcs := match o.times, c.times with
  | some a, some b => if a = b then .ok ⟨some a, o.ref, o.comp, c.comp⟩ else .error .valueError
  | some a, none => .ok ⟨some a, o.ref, o.comp, c.comp⟩
  | none, b => .ok ⟨b, c.ref, o.comp, c.comp⟩

/-- the data set of the system, `local_cs.py` 95-114; `q` is the reference time of `time` -/
noncomputable def TLcs.assemble (S : Slerp) (o : XArr (Mat3 ℝ)) (c : XArr (Vec3 ℝ)) (q : Option Int) : Except TimeError TLcs := do
  let (o, c) ← unifyAxis S o c
  let d ← mergeArrays o c
  match q with
  | none => .ok d
  | some r => .ok (d.reset r)

/-- `time_cls.reference_time if isinstance(time_cls, Time) else None`, `local_cs.py` 112 -/
def classRef : Option Time → Except TimeError (Option Int)
  | none => .ok none
  | some t => t.referenceTime

/-- `__init__`, `local_cs.py` 40-121, for coordinates that are not an expression -/
noncomputable def TLcs.construct (S : Slerp) (orientation : XArg (Mat3 ℝ)) (coordinates : XArg (Vec3 ℝ)) (time : Option Time)
    (timeRef : Option Int) : Except TimeError TLcs := do
  let t ← buildTime time timeRef
  let o ← orientation.build 1 t
  let c ← coordinates.build 0 t
  TLcs.assemble S o c (← classRef t)

/-- a system whose coordinates are an expression: `dsRef` is the reference time of the orientations, `tsRef` the one of the
expression, which is `reference_time` of the system -/
structure XLcs where
  times : Option (List Int)
  dsRef : Option Int
  tsRef : Option Int
  orient : Comp (Mat3 ℝ)
  expr : Int → Vec3 ℝ

/-- `__init__` for coordinates that are an expression -/
noncomputable def XLcs.construct (orientation : XArg (Mat3 ℝ)) (expr : Int → Vec3 ℝ) (time : Option Time) (timeRef : Option Int) :
    Except TimeError XLcs := do
  let t ← buildTime time timeRef
  let o ← orientation.build 1 t
  match ← classRef t with
  | none => .ok ⟨o.times, o.ref, none, o.comp, expr⟩
  | some r =>
    let d := (⟨o.times, o.ref, o.comp, .static 0⟩ : TLcs).reset r
    .ok ⟨d.times, d.ref, some r, o.comp, expr⟩

/-- `interp_time`, `local_cs.py` 723-772, as far as the times are concerned: `time` of the system (611-622) is made of the time
coordinate with its own attribute `time_ref` if the system has no reference time; times of different kinds cannot be compared -/
noncomputable def XLcs.interpTime (S : Slerp) (e : XLcs) (t : Time) (timeRef : Option Int) : Except TimeError TLcs := do
  let t ← t.ofTime timeRef
  if e.tsRef.isSome ≠ t.abs then .error .typeError
  else match e.orient, e.times with
    | .series _, some ds => do
      let own ← Time.make false ds (e.tsRef.or e.dsRef)
      if own.abs ≠ t.abs then .error .typeError
      else (⟨e.times, e.tsRef, e.orient, e.expr⟩ : ELcs).interpTime S t none
    | _, _ => (⟨e.times, e.tsRef, e.orient, e.expr⟩ : ELcs).interpTime S t none

end Weldx
