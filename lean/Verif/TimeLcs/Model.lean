import Verif.Interp.Model

/-!
# Time dependent coordinate systems

Source: `/repo/weldx/transformations/local_cs.py` 40-121 (`__init__`), 130-213 (`__add__`), 213-247 (`__sub__`),
403-418 (`_unify_time_axis`), 569-640 (properties), 693-801 (`interp_time`, `invert`), 867-882 (`reset_reference_time`);
`/repo/weldx/util/xarray.py` 823-846 (`WeldxAccessor.time_ref`).

Simplifications: as in `Interp/Model.lean`; the data set is given by its coordinate `time` (time deltas; a scalar `time` left
by selecting a single time is a list of length one), the attribute `time_ref` of this coordinate, and the two variables, with or
without the dimension `time`. Coordinates described by an expression are in `TimeLcs/Series.lean`. The checks of the
constructor are those of `Frame/Model.lean` and are not repeated.
-/

namespace Weldx

open Ip Matrix

/-- a variable of the data set with or without the dimension `time` -/
inductive Comp (V : Type)
  | static (v : V)
  | series (l : List V)

namespace Comp
variable {A B C : Type}

/-- `"time" in dims` -/
def isSeries : Comp A → Bool
  | static _ => false
  | series _ => true

/-- element-wise operation of xarray; the times of two series agree -/
def map₂ (f : A → B → C) : Comp A → Comp B → Comp C
  | static a, static b => static (f a b)
  | static a, series l => series (l.map (f a))
  | series l, static b => series (l.map (f · b))
  | series l, series m => series (List.zipWith f l m)

/-- element-wise operation with one argument -/
def map (f : A → B) : Comp A → Comp B
  | static a => static (f a)
  | series l => series (l.map f)

end Comp

/-- the data set of a `LocalCoordinateSystem` -/
structure TLcs where
  times : Option (List Int)
  ref : Option Int
  orient : Comp (Mat3 ℝ)
  coord : Comp (Vec3 ℝ)

namespace TLcs

/-- `is_time_dependent`, `local_cs.py` 569-579 -/
def dependent (c : TLcs) : Bool := c.orient.isSeries || c.coord.isSeries

/-- `time`, `local_cs.py` 611-622 -/
def time (c : TLcs) : Except TimeError (Option Time) := match c.times with
  | none => .ok none
  | some l => (Time.make false l c.ref).map some

/-- `reset_reference_time`, `local_cs.py` 867-882, and the setter of `time_ref`, `util/xarray.py` 823-846 -/
def reset (c : TLcs) (r : Int) : TLcs := match c.times with
  | none => c
  | some l => match c.ref with
    | none => { c with ref := some r }
    | some old =>
      if r = old then c else { c with times := some (l.map (· - (r - old))), ref := some r }

/-- `_interp_time_orientation` and `_interp_time_coordinates`, `local_cs.py` 693-721: `own` are the times of the system, `ts`
the requested times -/
noncomputable def interpComp {V : Type} (interp : Series V → List Int → Option (List V)) (own ts : List Int) :
    Comp V → Except TimeError (Comp V)
  | .static v => .ok (.static v)
  | .series l => match ts.max?, ts.min?, own.min?, own.max? with
    | some tmax, some tmin, some omin, some omax =>
      if tmax ≤ omin then match l.head? with
        | some v => .ok (.static v)
        | none => .error .indexError
      else if tmin ≥ omax then match l.getLast? with
        | some v => .ok (.static v)
        | none => .error .indexError
      else match interp (own.zip l) ts with
        | some [v] => .ok (.static v)
        | some vs => .ok (.series vs)
        | none => .error .valueError
    | _, _, _, _ => .error .valueError

/-- all requested times are before or after the times of the system -/
def outside (own ts : List Int) : Bool := match ts.max?, ts.min?, own.min?, own.max? with
  | some tmax, some tmin, some omin, some omax => tmax ≤ omin || tmin ≥ omax
  | _, _, _, _ => false

/-- `interp_time`, `local_cs.py` 723-772 -/
noncomputable def interpTime (S : Slerp) (c : TLcs) (time : Option Time) (timeRef : Option Int) : Except TimeError TLcs :=
  match time with
  | none => .ok c
  | some t =>
    if c.dependent then do
      let t ← t.ofTime timeRef
      if c.ref.isSome ≠ t.abs then .error .typeError
      else match ← c.time with
        | none => .error .typeError
        | some own => do
          let orient ← interpComp (interpOrientation S) own.vals t.vals c.orient
          let coord ← interpComp interpCoordinates own.vals t.vals c.coord
          if orient.isSeries || coord.isSeries then do
            .ok ⟨some (← t.asTimedelta), ← t.referenceTime, orient, coord⟩
          else if outside own.vals t.vals then .ok ⟨none, none, orient, coord⟩
          else .ok ⟨some (t.vals.map (· - c.ref.getD 0)), c.ref, orient, coord⟩
    else .ok c

/-- the coordinate `time` of the sum of two arrays: one with the dimension `time` takes precedence, different scalars are
dropped -/
def mergeTimes (a b : TLcs) : Option (List Int) :=
  if a.dependent then a.times
  else if b.dependent then b.times
  else match a.times, b.times with
    | none, t => t
    | t, none => t
    | some x, some y => if x = y then some x else none

/-- `local_cs.py` 184-201: both reference times are replaced by the earlier one -/
def unifyRefs (lhs rhs : TLcs) : TLcs × TLcs × Option Int := match lhs.ref, rhs.ref with
  | some a, some b =>
    if a ≠ b then if a < b then (lhs, rhs.reset a, some a) else (lhs.reset b, rhs, some b)
    else (lhs, rhs, some a)
  | none, r => (lhs, rhs, r)
  | some a, none => (lhs, rhs, some a)

/-- `__add__`, `local_cs.py` 130-211 -/
noncomputable def add (S : Slerp) (lhs rhs : TLcs) : Except TimeError TLcs := do
  let (lhs, rhs, timeRef) := unifyRefs lhs rhs
  let rhs ← rhs.interpTime S (← lhs.time) timeRef
  let times := mergeTimes lhs rhs
  .ok ⟨times, if times.isSome then timeRef else none,
    Comp.map₂ (· * ·) rhs.orient lhs.orient,
    Comp.map₂ (· + ·) (Comp.map₂ (fun R T => R *ᵥ T) rhs.orient lhs.coord) rhs.coord⟩

/-- `invert`, `local_cs.py` 774-801 -/
noncomputable def invert (c : TLcs) : TLcs :=
  ⟨c.times, c.ref, c.orient.map (·ᵀ), Comp.map₂ (fun R T => Rᵀ *ᵥ (-T)) c.orient c.coord⟩

/-- `__sub__`, `local_cs.py` 213-247 -/
noncomputable def sub (S : Slerp) (lhs rhs : TLcs) : Except TimeError TLcs := lhs.add S rhs.invert

end TLcs
end Weldx
