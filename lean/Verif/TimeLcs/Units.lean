import Verif.TimeLcs.Default

/-!
# Model of coordinate systems with units of length (C99)

Source: `/repo/weldx/transformations/local_cs.py` 130-247 (`__add__`, `__sub__`), 297-331 (`_build_coordinates`),
640-650 (`is_unity_translation`), 693-801 (`interp_time`, `invert`); `/repo/weldx/transformations/cs_manager.py` 1024-1062
(`_get_cs_on_edge`), 1206-1246 (`get_cs`), 1709-1757 (`transform_data`); `/repo/weldx/util/xarray.py` 278-395.

`Verif/TimeLcs/Model.lean` and `Query.lean` have lengths without units. Here a system has the unit of its coordinates in addition;
a unit of length is its size in millimetres. Behaviour of pint that is modelled: the product of a matrix of numbers and a
quantity has the unit of the quantity, a sum of two quantities has the unit of the first one, interpolation keeps the unit, a
sum of a quantity and numbers without unit raises unless all numbers are zero.

Simplifications: as in `Verif/TimeLcs/Query.lean`; data are lists of points, without time; the result of an expression has a
fixed unit.
-/

namespace Weldx

open Ip Matrix

/-- a `LocalCoordinateSystem` with the unit of its coordinates in millimetres -/
structure UTLcs where
  unit : ℝ
  mag : TLcs

namespace UTLcs

/-- `interp_time`, `local_cs.py` 723-772; the unit is kept (`util/xarray.py` 329-330, 370-380) -/
noncomputable def interpTime (S : Slerp) (c : UTLcs) (time : Option Time) (timeRef : Option Int) : Except TimeError UTLcs :=
  (c.mag.interpTime S time timeRef).map fun m => ⟨c.unit, m⟩

/-- `__add__`, `local_cs.py` 130-211; the sum of the coordinates (207-210) has the unit of the left system -/
noncomputable def add (S : Slerp) (lhs rhs : UTLcs) : Except TimeError UTLcs := do
  let (l, r, timeRef) := TLcs.unifyRefs lhs.mag rhs.mag
  let r ← r.interpTime S (← l.time) timeRef
  let times := TLcs.mergeTimes l r
  .ok ⟨lhs.unit, times, if times.isSome then timeRef else none,
    Comp.map₂ (· * ·) r.orient l.orient,
    Comp.map₂ (fun a b => a + (rhs.unit / lhs.unit) • b) (Comp.map₂ (fun R T => R *ᵥ T) r.orient l.coord) r.coord⟩

/-- `invert`, `local_cs.py` 774-801 -/
noncomputable def invert (c : UTLcs) : UTLcs := ⟨c.unit, c.mag.invert⟩

/-- `__sub__`, `local_cs.py` 213-247 -/
noncomputable def sub (S : Slerp) (lhs rhs : UTLcs) : Except TimeError UTLcs := lhs.add S rhs.invert

/-- `LocalCoordinateSystem()`, `local_cs.py` 307-308 -/
def default : UTLcs := ⟨1, none, none, .static 1, .static 0⟩

end UTLcs

open Classical in
/-- `np.allclose(coords, np.zeros(3))`: the absolute tolerance is 1e-8, the relative one does not matter -/
noncomputable def nearZero (l : List (Vec3 ℝ)) : Bool := decide (∀ v ∈ l, ∀ i, |v i| ≤ 1 / 100000000)

/-- `is_unity_translation`, `local_cs.py` 640-650: the magnitude is used in the unit that the coordinates happen to have -/
noncomputable def UTLcs.isUnityTranslation (c : UTLcs) : Bool := match c.mag.coord with
  | .static v => nearZero [v]
  | .series l => nearZero l

/-- the transformation on an edge with the unit of its coordinates -/
structure UEdge where
  unit : ℝ
  mag : TEdge

namespace UEdge

/-- `_add_edges`, `cs_manager.py` 253-274 -/
noncomputable def reverse (e : UEdge) : UEdge := ⟨e.unit, e.mag.reverse⟩

/-- `_get_cs_on_edge`, `cs_manager.py` 1024-1062 -/
noncomputable def onEdge (S : Slerp) (csmRef : Option Int) (t : Time) (tref : Option Int) (own : Bool) (e : UEdge) :
    Except TimeError UTLcs :=
  (e.mag.onEdge S csmRef t tref own).map fun m => ⟨e.unit, m⟩

end UEdge

/-- the rest of the path in `get_cs`, `cs_manager.py` 1244-1246 -/
noncomputable def addEdgesU (S : Slerp) (csmRef : Option Int) (t : Time) (tref : Option Int) :
    List UEdge → UTLcs → Except TimeError UTLcs
  | [], acc => .ok acc
  | e :: es, acc => do
    let c ← e.onEdge S csmRef t tref false
    addEdgesU S csmRef t tref es (← acc.add S c)

/-- `get_cs`, `cs_manager.py` 1206-1246, for a given time -/
noncomputable def getCsU (S : Slerp) (csmRef : Option Int) (edges : List UEdge) (time : Time) (timeRef : Option Int) :
    Except TimeError UTLcs := do
  let tref := timeRef.or csmRef
  let t ← time.ofTime tref
  match edges with
  | [] => .ok .default
  | [e] => e.onEdge S csmRef t tref tref.isNone
  | e :: es => do
    let c ← e.onEdge S csmRef t tref false
    addEdgesU S csmRef t tref es c

/-- the sum along a path of systems that are taken as they are -/
noncomputable def addAllU (S : Slerp) : List UEdge → UTLcs → Except TimeError UTLcs
  | [], acc => .ok acc
  | e :: es, acc => do addAllU S es (← acc.add S ⟨e.unit, e.mag.frame⟩)

/-- `get_cs` with `time=None`, `cs_manager.py` 1206-1246; see `getCsDefault` -/
noncomputable def getCsDefaultU (S : Slerp) (csmRef minRef : Option Int) (es : List UEdge) : Except TimeError UTLcs := do
  match ← timeUnion (csmRef.or minRef) (es.map UEdge.mag) with
  | some t => getCsU S csmRef es t none
  | none => match es with
    | [] => .ok .default
    | e :: es => addAllU S es ⟨e.unit, e.mag.frame⟩

/-- points as they are passed to `transform_data`: a quantity with a unit of length or plain numbers -/
inductive Points
  | quantity (unit : ℝ) (mag : List (Vec3 ℝ))
  | plain (mag : List (Vec3 ℝ))

/-- errors of `transform_data` -/
inductive DataErr
  | dimensionality
  deriving DecidableEq

open Classical in
/-- the last step of `transform_data`, `cs_manager.py` 1754-1757, for a static system; the result is a quantity. A sum of plain
numbers and a quantity has the unit of the quantity and is defined only if all numbers are zero. -/
noncomputable def UTLcs.transform (unit : ℝ) (f : Lcs ℝ) : Points → Except DataErr Points
  | .quantity u l => .ok (.quantity u (l.map fun p => f.orientation *ᵥ p + (unit / u) • f.coordinates))
  | .plain l =>
    let mul := l.map fun p => f.orientation *ᵥ p
    if ∀ p ∈ mul, p = 0 then .ok (.quantity unit (mul.map fun p => p + f.coordinates)) else .error .dimensionality

/-! ### specification -/

namespace TLcs

/-- the same system with all lengths multiplied by a factor -/
noncomputable def scale (k : ℝ) (c : TLcs) : TLcs := ⟨c.times, c.ref, c.orient, c.coord.map (k • ·)⟩

end TLcs

/-- the same expression with all lengths multiplied by a factor -/
noncomputable def ELcs.scale (k : ℝ) (e : ELcs) : ELcs := ⟨e.times, e.ref, e.orient, fun t => k • e.expr t⟩

/-- the same transformation with all lengths multiplied by a factor -/
noncomputable def TEdge.scale (k : ℝ) : TEdge → TEdge
  | .discrete c => .discrete (c.scale k)
  | .expression e i => .expression (e.scale k) i

/-- the system in millimetres -/
noncomputable def UTLcs.mm (c : UTLcs) : TLcs := c.mag.scale c.unit

/-- the transformation in millimetres -/
noncomputable def UEdge.mm (e : UEdge) : TEdge := e.mag.scale e.unit

/-- the points in millimetres -/
noncomputable def Points.mm : Points → List (Vec3 ℝ)
  | .quantity u l => l.map (u • ·)
  | .plain l => l

end Weldx
