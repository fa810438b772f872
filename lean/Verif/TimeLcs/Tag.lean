import Verif.TimeLcs.ConstructProps

/-!
# Coordinate systems in files (C72)

Source: `/repo/weldx/tags/core/transformations/local_coordinate_system.py` 17-75;
`/repo/weldx/transformations/local_cs.py` 635-660 (`is_unity_translation`, `is_unity_rotation`).

Simplifications: as in `TimeLcs/Construct.lean`. Numbers are real numbers, so that the normalisation of rotations does not change
them. The entries of the tree (`Variable`, `TimedeltaIndex`, `Timestamp`, `TimeSeries`) are stored without change. A unit of
length is its factor to millimetres. `numpy.allclose(a, b)` is `|a - b| ≤ 1e-8 + 1e-5 * |b|` for all elements.
-/

namespace Weldx

open Ip Matrix Csm TLcs

/-- a system with the unit of its coordinates (in millimetres); the coordinates of `sys` are the magnitudes -/
structure ULcs where
  sys : TLcs
  unit : ℝ

/-- the stored tree -/
structure LcsTree where
  orientations : Option (Comp (Mat3 ℝ))
  coordinates : Option (Comp (Vec3 ℝ) × ℝ)
  time : Option (List Int)
  reference : Option Int

/-- `numpy.allclose` with the default tolerances for one element -/
def closeTo (x b : ℝ) : Prop := |x - b| ≤ 1 / 10 ^ 8 + 1 / 10 ^ 5 * |b|

/-- `is_unity_rotation`, `local_cs.py` 656-660 -/
def unityRotation (k : Comp (Mat3 ℝ)) : Prop := match k with
  | .static R => ∀ i j, closeTo (R i j) ((1 : Mat3 ℝ) i j)
  | .series l => ∀ R ∈ l, ∀ i j, closeTo (R i j) ((1 : Mat3 ℝ) i j)

/-- `is_unity_translation`, `local_cs.py` 643-653 -/
def unityTranslation (k : Comp (Vec3 ℝ)) : Prop := match k with
  | .static T => ∀ i, closeTo (T i) 0
  | .series l => ∀ T ∈ l, ∀ i, closeTo (T i) 0

open Classical in
/-- `to_yaml_tree`, `local_coordinate_system.py` 17-52, if the coordinates are not an expression -/
noncomputable def ULcs.write (u : ULcs) : Except TimeError LcsTree := do
  let orientations := if ¬ unityRotation u.sys.orient then some u.sys.orient else none
  let coordinates := if ¬ unityTranslation u.sys.coord then some (u.sys.coord, u.unit) else none
  match ← u.sys.time with
  | none => .ok ⟨orientations, coordinates, none, u.sys.ref⟩
  | some t => .ok ⟨orientations, coordinates, some (← t.asTimedelta), u.sys.ref⟩

/-- the data of a `Variable` as argument of the constructor -/
def Comp.arg {V : Type} : Option (Comp V) → XArg V
  | none => .none
  | some (.static v) => .value v
  | some (.series l) => .values l

/-- `from_yaml_tree`, `local_coordinate_system.py` 54-75; without coordinates they are zero in millimetres (`local_cs.py` 308) -/
noncomputable def LcsTree.read (S : Slerp) (t : LcsTree) : Except TimeError ULcs := do
  let c ← TLcs.construct S (Comp.arg t.orientations) (Comp.arg (t.coordinates.map (·.1))) (t.time.map fun l => ⟨false, l, none⟩)
    t.reference
  .ok ⟨c, (t.coordinates.map (·.2)).getD 1⟩

/-- `from_yaml_tree` for the tag `0.1.0`: coordinates were stored without unit and are millimetres -/
noncomputable def LcsTree.readLegacy (S : Slerp) (t : LcsTree) : Except TimeError ULcs := do
  let c ← t.read S
  .ok ⟨c.sys, 1⟩

open Classical in
/-- `to_yaml_tree` for an expression: the orientations, the times and the reference time -/
noncomputable def writeExpr (e : ELcs) : Except TimeError (Option (Comp (Mat3 ℝ)) × Option (List Int) × Option Int) := do
  let orientations := if ¬ unityRotation e.orient then some e.orient else none
  match ← (⟨e.times, e.ref, e.orient, .static 0⟩ : TLcs).time with
  | none => .ok (orientations, none, e.ref)
  | some t => .ok (orientations, some (← t.asTimedelta), e.ref)

/-- `from_yaml_tree` for an expression -/
noncomputable def readExpr (t : Option (Comp (Mat3 ℝ)) × Option (List Int) × Option Int) (f : Int → Vec3 ℝ) : Except TimeError XLcs :=
  XLcs.construct (Comp.arg t.1) f (t.2.1.map fun l => ⟨false, l, none⟩) t.2.2

end Weldx
