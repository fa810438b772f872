import Verif.Geometry.Moves
import Verif.Frame.Rounded
import Verif.Base.Binary64

/-!
# Arcs in the arithmetic of floating point numbers (C109)

Source: `/repo/weldx/geometry.py` 525-577 (`__init__`), 591-638 (`_calculate_arc_angle`, `_check_valid`,
`_update_internals_and_get_series`), 679-730 (`construct_with_radius`), 850-884 (`apply_transformation`,
`apply_translation`), `/repo/weldx/transformations/util.py` 41-58 (`normalize`), 207-251 (`reflection_sign`,
`vector_points_to_left_of_vector`).

Every operation on numbers is followed by a rounding `fl` with a relative error of at most `2 ^ (-53)`, see
`Verif.Frame.Rounded`. `numpy.arccos` is a function `acos` with a small relative error.

Simplifications: overflow and underflow are left out, lengths have the same unit. Products with `1` and `-1` are
exact. Determinants are calculated from the products of the diagonals (`numpy` uses a decomposition). The length,
which is a symbolic integral in the code, is the rounded product of radius and angle; only its sign matters
here. Parameters of the series are left out.
-/

namespace Weldx.Geo

open Matrix

/-- `numpy.arccos` -/
structure Arccosine (acos : ℝ → ℝ) : Prop where
  error : ∀ x, -1 ≤ x → x ≤ 1 → |acos x - Real.arccos x| ≤ Real.arccos x / 2 ^ 50

/-- attributes `_points` and `_sign_winding` of an `ArcSegment` -/
structure ArcF where
  pStart : V
  pEnd : V
  pCenter : V
  sign : ℤ

section
variable (fl : ℝ → ℝ) (acos : ℝ → ℝ)

/-- difference of two points -/
def subF (a b : V) : V := fun i => fl (a i - b i)

/-- sum of two vectors -/
def addF (a b : V) : V := fun i => fl (a i + b i)

/-- `np.dot` -/
def dotF (a b : V) : ℝ := fl (fl (a 0 * b 0) + fl (a 1 * b 1))

/-- `np.linalg.norm` -/
noncomputable def lenF (a : V) : ℝ := fl √(dotF fl a a)

open Classical in
/-- `tf.normalize`, `transformations/util.py` 41-58 -/
noncomputable def normalizeF (a : V) : Except GErr V :=
  if lenF fl a = 0 then .error .valueError else .ok fun i => fl (a i / lenF fl a)

/-- `np.linalg.det` -/
def detF (a b : V) : ℝ := fl (fl (a 0 * b 1) - fl (a 1 * b 0))

/-- `_calculate_arc_angle`, `geometry.py` 591-607 -/
noncomputable def calcAngleF (x : ArcF) : Except GErr ℝ := do
  let unitStart ← normalizeF fl (subF fl x.pStart x.pCenter)
  let unitEnd ← normalizeF fl (subF fl x.pEnd x.pCenter)
  let angle := acos (clip (dotF fl unitStart unitEnd) (-1) 1)
  if |npSign (detF fl unitStart unitEnd) + x.sign| > 0 then .ok angle else .ok (fl (fl (2 * fl Real.pi) - angle))

open Classical in
/-- `_update_internals_and_get_series` (620-638), `_update_internals` (149-154) and `_check_valid` (609-617) -/
noncomputable def ArcF.check (x : ArcF) : Except GErr ArcF := do
  let angle ← calcAngleF fl acos x
  let radiusStart := lenF fl (subF fl x.pStart x.pCenter)
  let radiusEnd := lenF fl (subF fl x.pEnd x.pCenter)
  if fl (radiusStart * angle) ≤ 0 then .error .valueError
  else if |fl (radiusEnd - radiusStart)| ≤ fl (1 / 10 ^ 8) then .ok x
  else .error .valueError

/-- `ArcSegment(points, arc_winding_ccw)`, `geometry.py` 529-577 -/
noncomputable def mkArcF (pStart pEnd pCenter : V) (ccw : Bool) : Except GErr ArcF :=
  ArcF.check fl acos ⟨pStart, pEnd, pCenter, if ccw then 1 else -1⟩

/-- `construct_with_radius`, `geometry.py` 711-723: the center -/
noncomputable def centerF (pStart pEnd : V) (radius : ℝ) (centerLeft : Bool) : V :=
  let vec := subF fl pEnd pStart
  let s : ℝ := if centerLeft then -1 else 1
  let normal : V := ![s * vec 1, -s * vec 0]
  let lengthSq := dotF fl vec vec
  let radiusSq := fl (radius * radius)
  let scaling := fl √(max (fl (fl (radiusSq / lengthSq) - 1 / 4)) 0)
  addF fl pStart (addF fl (fun i => fl (1 / 2 * vec i)) (fun i => fl (normal i * scaling)))

/-- `construct_with_radius`, `geometry.py` 679-730, for different points -/
noncomputable def arcWithRadiusF (pStart pEnd : V) (radius : ℝ) (centerLeft ccw : Bool) : Except GErr ArcF :=
  mkArcF fl acos pStart pEnd (centerF fl pStart pEnd radius centerLeft) ccw

/-- `np.matmul` of a matrix and a point -/
def mulF (m : M) (p : V) : V := fun i => dotF fl (m i) p

/-- `apply_transformation`, `geometry.py` 850-866 -/
noncomputable def ArcF.transform (m : M) (x : ArcF) : Except GErr ArcF :=
  let sign := npSign (detF fl (m 0) (m 1))
  if sign = 0 then .error .valueError
  else ArcF.check fl acos ⟨mulF fl m x.pStart, mulF fl m x.pEnd, mulF fl m x.pCenter, x.sign * sign⟩

/-- `apply_translation`, `geometry.py` 869-884 -/
def ArcF.translate (v : V) (x : ArcF) : ArcF :=
  ⟨addF fl x.pStart v, addF fl x.pEnd v, addF fl x.pCenter v, x.sign⟩

end

/-- changes of an arc -/
inductive Change
  | transform (m : M)
  | translate (v : V)

/-- a sequence of changes -/
noncomputable def ArcF.run (fl acos : ℝ → ℝ) : List Change → ArcF → Except GErr ArcF
  | [], x => .ok x
  | .transform m :: cs, x => match ArcF.transform fl acos m x with
    | .error e => .error e
    | .ok x => ArcF.run fl acos cs x
  | .translate v :: cs, x => ArcF.run fl acos cs (x.translate fl v)

end Weldx.Geo
