import Verif.Frame.Spec
import Mathlib.Tactic.Ring
import Mathlib.Tactic.LinearCombination
import Mathlib.Tactic.FinCases
import Mathlib.Tactic.FieldSimp
import Mathlib.Tactic.Positivity

namespace Weldx
open Matrix
variable {K : Type*} [CommRing K]

theorem Lcs.toParent_eq (f : Lcs K) (p : Vec3 K) :
    f.toParent p = f.orientation *ᵥ p + f.coordinates := by
  funext i
  simp [Lcs.toParent, Matrix.mulVec, dotProduct, Fin.sum_univ_three]
  ring

theorem Lcs.orthonormal_iff (f : Lcs K) : f.Orthonormal ↔ f.orientationᵀ * f.orientation = 1 := by
  constructor
  · intro h
    ext i j
    have := h i j
    simp only [Lcs.axis, dot3] at this
    simp only [Matrix.mul_apply, Fin.sum_univ_three, Matrix.transpose_apply, Matrix.one_apply]
    exact this
  · intro h i j
    have := congrFun (congrFun h i) j
    simp only [Matrix.mul_apply, Fin.sum_univ_three, Matrix.transpose_apply, Matrix.one_apply] at this
    simpa only [Lcs.axis, dot3] using this

theorem Lcs.orthonormal_iff' (f : Lcs K) : f.Orthonormal ↔ f.orientation * f.orientationᵀ = 1 := by
  rw [Lcs.orthonormal_iff, mul_eq_one_comm]

theorem Lcs.handedness_eq_det (f : Lcs K) : f.handedness = f.orientation.det := by
  simp [Lcs.handedness, Lcs.axis, dot3, Matrix.det_fin_three, cross_apply]
  ring

/-- A system is determined by how it maps points. -/
theorem Lcs.ext_toParent {f g : Lcs K} (h : ∀ p, f.toParent p = g.toParent p) : f = g := by
  have hT : f.coordinates = g.coordinates := by
    funext i
    have := congrFun (h 0) i
    simpa [Lcs.toParent] using this
  have hR : f.orientation = g.orientation := by
    ext i j
    have := congrFun (h (Pi.single j 1)) i
    simp only [Lcs.toParent, hT] at this
    fin_cases j <;> simpa using this
  exact Lcs.ext hR hT

theorem norm2_sq (v : Vec3 ℝ) : norm2 v ^ 2 = dot3 v v := by
  unfold norm2 dot3
  rw [Real.sq_sqrt (by positivity)]
  ring

theorem norm2_nonneg (v : Vec3 ℝ) : 0 ≤ norm2 v := Real.sqrt_nonneg _

theorem norm2_eq_zero_iff (v : Vec3 ℝ) : norm2 v = 0 ↔ v = 0 := by
  constructor
  · intro h
    have h2 : v 0 ^ 2 + v 1 ^ 2 + v 2 ^ 2 = 0 := by
      have := norm2_sq v
      rw [h] at this
      simp only [dot3] at this
      nlinarith
    funext i
    have h0 : v 0 = 0 := by nlinarith [sq_nonneg (v 0), sq_nonneg (v 1), sq_nonneg (v 2)]
    have h1 : v 1 = 0 := by nlinarith [sq_nonneg (v 0), sq_nonneg (v 1), sq_nonneg (v 2)]
    have h3 : v 2 = 0 := by nlinarith [sq_nonneg (v 0), sq_nonneg (v 1), sq_nonneg (v 2)]
    fin_cases i <;> simp_all
  · rintro rfl
    simp [norm2]

end Weldx
