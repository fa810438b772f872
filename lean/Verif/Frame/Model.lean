import Mathlib.LinearAlgebra.CrossProduct
import Mathlib.LinearAlgebra.Matrix.NonsingularInverse
import Mathlib.Analysis.Real.Sqrt

/-!
# Model of static `LocalCoordinateSystem`s

Source: `/repo/weldx/transformations/local_cs.py`, `/repo/weldx/transformations/util.py`.

Simplifications: numbers are elements of a commutative ring (the real numbers where a square root is
taken) instead of floats; lengths carry no unit; only systems without a time axis are modelled here
(time dependent systems: `Verif/TimeLcs`).
-/

namespace Weldx

open Matrix

/-- A three dimensional vector / point. -/
abbrev Vec3 (K : Type*) := Fin 3 → K

/-- A 3x3 matrix; `M i j` is row `i` (dimension `c`) and column `j` (dimension `v`). -/
abbrev Mat3 (K : Type*) := Matrix (Fin 3) (Fin 3) K

/-- `local_cs.py` 24-121: the `orientation` matrix and the `coordinates` vector of the data set of a
static local coordinate system. -/
@[ext]
structure Lcs (K : Type*) where
  orientation : Mat3 K
  coordinates : Vec3 K

namespace Lcs
variable {K : Type*} [CommRing K]

/-- `local_cs.py` 40-47 with 275-276 and 307-308: `LocalCoordinateSystem()`. -/
def default : Lcs K := ⟨1, 0⟩

/-- `local_cs.py` 130-211 (`__add__`) for two static systems: 204-210. -/
def add (lhs rhs : Lcs K) : Lcs K :=
  ⟨rhs.orientation * lhs.orientation,
   rhs.orientation *ᵥ lhs.coordinates + rhs.coordinates⟩

/-- `local_cs.py` 774-801 (`invert`), orientation 791, coordinates 792-798. -/
def invert (f : Lcs K) : Lcs K :=
  ⟨f.orientationᵀ, f.orientationᵀ *ᵥ (-f.coordinates)⟩

/-- `local_cs.py` 213-247 (`__sub__`). -/
def sub (lhs rhs : Lcs K) : Lcs K := lhs.add rhs.invert

end Lcs

/-- Errors raised while a system is constructed. -/
inductive LcsError where
  /-- `transformations/util.py` 57 -/
  | zeroLength
  /-- `local_cs.py` 369 -/
  | notOrthogonal
  /-- `local_cs.py` 537 -/
  | tooFewVectors
  deriving DecidableEq, Repr

/-- `transformations/util.py` 41-58 (`normalize`) for a single vector: the l2 norm (line 55). -/
noncomputable def norm2 (v : Vec3 ℝ) : ℝ := Real.sqrt (v 0 ^ 2 + v 1 ^ 2 + v 2 ^ 2)

open Classical in
/-- `local_cs.py` 359-365: `normalize` is applied along dimension `c`, i.e. to each column; it raises
if one of the norms is zero (`transformations/util.py` 56-57). -/
noncomputable def normalizeColumns (M : Mat3 ℝ) : Except LcsError (Mat3 ℝ) :=
  if ∀ j, norm2 (fun i => M i j) ≠ 0 then
    .ok (Matrix.of fun i j => M i j / norm2 (fun i => M i j))
  else .error .zeroLength

open Classical in
/-- `local_cs.py` 347-371 (`_check_and_normalize_orientation`); the orthogonality check is
`util/xarray.py` 178-199, `M * Mᵀ` is the unit matrix. -/
noncomputable def checkAndNormalize (M : Mat3 ℝ) : Except LcsError (Mat3 ℝ) := do
  let N ← normalizeColumns M
  if N * Nᵀ = 1 then .ok N else .error .notOrthogonal

/-- `local_cs.py` 40-121 (`__init__`) for a static orientation and static coordinates. -/
noncomputable def construct (M : Mat3 ℝ) (T : Vec3 ℝ) : Except LcsError (Lcs ℝ) := do
  let N ← checkAndNormalize M
  .ok ⟨N, T⟩

/-- `local_cs.py` 532-537: complete the list of axes. `idx` is the position of the missing axis and
the completion is the cross product of `mat[(idx - 2) % 3]` and `mat[(idx - 1) % 3]`. -/
def completeAxes {K : Type*} [CommRing K] : Option (Vec3 K) → Option (Vec3 K) → Option (Vec3 K) →
    Except LcsError (Fin 3 → Vec3 K)
  | some x, some y, some z => .ok ![x, y, z]
  | none, some y, some z => .ok ![crossProduct y z, y, z]
  | some x, none, some z => .ok ![x, crossProduct z x, z]
  | some x, some y, none => .ok ![x, y, crossProduct x y]
  | _, _, _ => .error .tooFewVectors

/-- `local_cs.py` 477-541 (`from_axis_vectors`): the axes are the columns of the orientation (the
list of axes is transposed, line 540-541). -/
noncomputable def fromAxisVectors (x y z : Option (Vec3 ℝ)) (T : Vec3 ℝ) :
    Except LcsError (Lcs ℝ) := do
  let mat ← completeAxes x y z
  construct (Matrix.of fun i j => mat j i) T

end Weldx
