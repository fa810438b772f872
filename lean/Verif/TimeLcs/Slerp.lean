import Verif.TimeLcs.Spec
import Mathlib.Analysis.SpecialFunctions.Trigonometric.Inverse
import Mathlib.LinearAlgebra.Matrix.Adjugate

/-!
# The interpolation of two rotations (C96)

Source: `/repo/weldx/util/xarray.py` 703-707 (`xr_interp_orientation_in_time`), which uses `scipy.spatial.transform.Slerp`.

`Slerp` turns the first orientation about a fixed axis: it multiplies it with the rotation of a part of the rotation vector from the first
orientation to the second one. Rotation vectors point along the axis and have the angle as length. How scipy finds the rotation vector of
a matrix is a parameter that has to give a rotation vector of the matrix with an angle of at most a half turn.

Simplifications: real numbers instead of floats. The matrices are proper rotations.
-/

namespace Weldx.Turn

open Matrix

/-- the matrix of the cross product with a vector -/
def skew (a : Vec3 ℝ) : Mat3 ℝ := !![0, -a 2, a 1; a 2, 0, -a 0; -a 1, a 0, 0]

/-- the projection to a vector of length one -/
def proj (a : Vec3 ℝ) : Mat3 ℝ := Matrix.of fun i j => a i * a j

/-- the rotation about an axis of length one -/
noncomputable def about (a : Vec3 ℝ) (t : ℝ) : Mat3 ℝ := Real.cos t • (1 : Mat3 ℝ) + Real.sin t • skew a + (1 - Real.cos t) • proj a

/-- `Rotation.from_rotvec` -/
noncomputable def fromRotvec (v : Vec3 ℝ) : Mat3 ℝ := open Classical in
  if v = 0 then 1 else about ((norm2 v)⁻¹ • v) (norm2 v)

/-- what is assumed of `Rotation.as_rotvec` -/
structure RotvecOk (L : Mat3 ℝ → Vec3 ℝ) : Prop where
  inverse : ∀ R, Rotation R → fromRotvec (L R) = R
  small : ∀ R, Rotation R → norm2 (L R) ≤ Real.pi

/-- `Slerp([0, 1], [a, b])(w)` -/
noncomputable def slerp (L : Mat3 ℝ → Vec3 ℝ) : Ip.Slerp := fun a b w => a * fromRotvec (w • L (aᵀ * b))

end Weldx.Turn
