import Verif.Frame.Tolerance

/-!
# Calculations with coordinate systems in the arithmetic of floating point numbers (C107)

Source: as in `Verif.Frame.Tolerance`, and `/repo/weldx/transformations/util.py` 41-58 (`normalize`).

Every operation of the code on numbers is followed by a rounding `fl` with a relative error of at most
`2 ^ (-53)`, which is what IEEE 754 guarantees for numbers with 64 bits unless they are so large or so small
that their exponent does not fit. Sums of three products are added from left to right (`numpy` may use fused
operations, which round less often). `numpy.allclose` is evaluated with rounded numbers as well.

Simplifications: overflow and underflow are left out; static systems.
-/

namespace Weldx

open Matrix

/-- rounding with a significand of 53 bits -/
structure Rounding (fl : ℝ → ℝ) : Prop where
  error : ∀ x, |fl x - x| ≤ |x| / 2 ^ 53

section
variable (fl : ℝ → ℝ)

/-- one element of `numpy.matmul`, called in `util/xarray.py` 158-175 -/
def dotF (a b : Vec3 ℝ) : ℝ := fl (fl (fl (a 0 * b 0) + fl (a 1 * b 1)) + fl (a 2 * b 2))

/-- `xr_matmul` of two matrices, `util/xarray.py` 108-175 -/
def mulF (A B : Mat3 ℝ) : Mat3 ℝ := Matrix.of fun i j => dotF fl (fun k => A i k) (fun k => B k j)

/-- `xr_matmul` of a matrix and a vector, `util/xarray.py` 108-175 -/
def mulVecF (A : Mat3 ℝ) (v : Vec3 ℝ) : Vec3 ℝ := fun i => dotF fl (fun k => A i k) v

/-- the sum of two vectors -/
def addVecF (v w : Vec3 ℝ) : Vec3 ℝ := fun i => fl (v i + w i)

/-- `numpy.linalg.norm`, `transformations/util.py` 55 -/
noncomputable def normF (v : Vec3 ℝ) : ℝ := fl (√(dotF fl v v))

open Classical in
/-- `normalize`, `transformations/util.py` 41-58, applied to the columns (`local_cs.py` 359-365) -/
noncomputable def normalizeF (M : Mat3 ℝ) : Except LcsError (Mat3 ℝ) :=
  if ∀ j, normF fl (fun i => M i j) ≠ 0 then .ok (Matrix.of fun i j => fl (M i j / normF fl (fun i => M i j)))
  else .error .zeroLength

/-- `numpy.allclose` for one element: `abs(x - b) <= atol + rtol * abs(b)` -/
def nearlyF (x b : ℝ) : Prop := |fl (x - b)| ≤ fl (fl (1 / 10 ^ 8) + fl (fl (1 / 10 ^ 5) * |b|))

/-- `xr_is_orthogonal_matrix`, `util/xarray.py` 178-199 -/
def nearlyOrthogonalF (M : Mat3 ℝ) : Prop := ∀ i j, nearlyF fl (mulF fl M Mᵀ i j) ((1 : Mat3 ℝ) i j)

open Classical in
/-- `_check_and_normalize_orientation`, `local_cs.py` 347-371 -/
noncomputable def checkF (M : Mat3 ℝ) : Except LcsError (Mat3 ℝ) :=
  match normalizeF fl M with
  | .error e => .error e
  | .ok N => if nearlyOrthogonalF fl N then .ok N else .error .notOrthogonal

/-- `__init__`, `local_cs.py` 40-121, for a static orientation and static coordinates -/
noncomputable def constructF (M : Mat3 ℝ) (T : Vec3 ℝ) : Except LcsError (Lcs ℝ) :=
  match checkF fl M with
  | .error e => .error e
  | .ok N => .ok ⟨N, T⟩

/-- `__add__`, `local_cs.py` 203-211 -/
noncomputable def addF (lhs rhs : Lcs ℝ) : Except LcsError (Lcs ℝ) :=
  constructF fl (mulF fl rhs.orientation lhs.orientation)
    (addVecF fl (mulVecF fl rhs.orientation lhs.coordinates) rhs.coordinates)

/-- `invert`, `local_cs.py` 790-801 -/
noncomputable def invertF (f : Lcs ℝ) : Except LcsError (Lcs ℝ) :=
  constructF fl f.orientationᵀ (mulVecF fl f.orientationᵀ (-f.coordinates))

/-- a system whose numbers are rounded before they are passed to the constructor -/
noncomputable def storeF (f : Lcs ℝ) : Except LcsError (Lcs ℝ) :=
  constructF fl (Matrix.of fun i j => fl (f.orientation i j)) (fun i => fl (f.coordinates i))

/-- evaluation of a calculation, which stops at the first exception -/
noncomputable def Calc.evalF : Calc → Except LcsError (Lcs ℝ)
  | .system f => storeF fl f
  | .sum a b => match a.evalF with
    | .error e => .error e
    | .ok x => match b.evalF with
      | .error e => .error e
      | .ok y => addF fl x y
  | .inverse a => match a.evalF with
    | .error e => .error e
    | .ok x => invertF fl x

end

end Weldx
