import Verif.Frame.Model

/-!
# Construction of coordinate systems with the tolerance of the orthogonality check (C94)

Source: `/repo/weldx/transformations/local_cs.py` 94-96 (checks of `__init__`), 203-211 (`__add__`), 213-247 (`__sub__`), 347-371
(`_check_and_normalize_orientation`), 774-801 (`invert`); `/repo/weldx/util/xarray.py` 178-199 (`xr_is_orthogonal_matrix`).

`Verif.Frame.Model` compares with equality. Here the check is the one of the code: `numpy.allclose` with its default tolerances. The
results of `__add__` and `invert` are created by the constructor, so they are normalised and checked again.

Simplifications: as in `Verif.Frame.Model`, real numbers instead of floats and static systems.
-/

namespace Weldx

open Matrix

/-- `numpy.allclose` for one element, absolute tolerance `1e-8` and relative tolerance `1e-5` -/
def nearly (x b : ℝ) : Prop := |x - b| ≤ 1 / 10 ^ 8 + 1 / 10 ^ 5 * |b|

/-- `xr_is_orthogonal_matrix`, `xarray.py` 178-199 -/
def nearlyOrthogonal (M : Mat3 ℝ) : Prop := ∀ i j, nearly ((M * Mᵀ) i j) ((1 : Mat3 ℝ) i j)

open Classical in
/-- `_check_and_normalize_orientation`, `local_cs.py` 347-371 -/
noncomputable def checkTol (M : Mat3 ℝ) : Except LcsError (Mat3 ℝ) :=
  match normalizeColumns M with
  | .error e => .error e
  | .ok N => if nearlyOrthogonal N then .ok N else .error .notOrthogonal

/-- `__init__`, `local_cs.py` 40-121, for a static orientation and static coordinates -/
noncomputable def constructTol (M : Mat3 ℝ) (T : Vec3 ℝ) : Except LcsError (Lcs ℝ) :=
  match checkTol M with
  | .error e => .error e
  | .ok N => .ok ⟨N, T⟩

/-- `__add__`, `local_cs.py` 203-211 -/
noncomputable def addTol (lhs rhs : Lcs ℝ) : Except LcsError (Lcs ℝ) :=
  constructTol (rhs.orientation * lhs.orientation) (rhs.orientation *ᵥ lhs.coordinates + rhs.coordinates)

/-- `invert`, `local_cs.py` 790-801 -/
noncomputable def invertTol (f : Lcs ℝ) : Except LcsError (Lcs ℝ) :=
  constructTol f.orientationᵀ (f.orientationᵀ *ᵥ (-f.coordinates))

/-- `__sub__`, `local_cs.py` 246-247 -/
noncomputable def subTol (lhs rhs : Lcs ℝ) : Except LcsError (Lcs ℝ) :=
  match invertTol rhs with
  | .error e => .error e
  | .ok i => addTol lhs i

/-- a calculation with several systems -/
inductive Calc where
  | system (f : Lcs ℝ)
  | sum (a b : Calc)
  | inverse (a : Calc)

/-- evaluation of a calculation, which stops at the first exception -/
noncomputable def Calc.eval : Calc → Except LcsError (Lcs ℝ)
  | .system f => .ok f
  | .sum a b => match a.eval with
    | .error e => .error e
    | .ok x => match b.eval with
      | .error e => .error e
      | .ok y => addTol x y
  | .inverse a => match a.eval with
    | .error e => .error e
    | .ok x => invertTol x

end Weldx
