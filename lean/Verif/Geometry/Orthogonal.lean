import Mathlib.Analysis.Real.Sqrt
import Mathlib.Algebra.BigOperators.Fin
import Mathlib.Data.Matrix.Mul
import Mathlib.LinearAlgebra.Matrix.DotProduct
import Mathlib.Tactic.Ring
import Mathlib.Tactic.FieldSimp
import Mathlib.Tactic.Positivity
import Mathlib.Tactic.Linarith
import Mathlib.Tactic.NormNum

/-!
# Right angles between vectors (C114)

Source: `/repo/weldx/transformations/util.py` 138-159 (`is_orthogonal`).

Simplifications: numbers are real numbers instead of floats, both vectors have the same length (`np.dot` raises otherwise), and they have no
units.
-/

namespace Weldx.Geo

open Matrix

/-! ### model -/

/-- `math.isclose` of the standard library, used in `util.py` 156 and 159; `none` is a `ValueError` -/
noncomputable def mathIsclose (a b rel tol : ℝ) : Option Bool :=
  if rel < 0 ∨ tol < 0 then none
  else if a = b then some true
  else some (decide (|b - a| ≤ |rel * b| ∨ |b - a| ≤ |rel * a| ∨ |b - a| ≤ tol))

/-- `is_orthogonal`, `util.py` 138-159; `none` is a `ValueError` -/
noncomputable def isOrthogonalVec {n : ℕ} (u v : Fin n → ℝ) (tol : ℝ) : Option Bool :=
  match mathIsclose (u ⬝ᵥ u) 0 (1 / 10 ^ 9) 0 with
  | none => none
  | some true => none
  | some false => match mathIsclose (v ⬝ᵥ v) 0 (1 / 10 ^ 9) 0 with
    | none => none
    | some true => none
    | some false => mathIsclose (u ⬝ᵥ v) 0 (1 / 10 ^ 9) tol

/-! ### specification -/

/-- the length of a vector -/
noncomputable def vecLen {n : ℕ} (u : Fin n → ℝ) : ℝ := √(∑ i, u i ^ 2)

/-- the cosine of the angle between two vectors -/
noncomputable def cosAngle {n : ℕ} (u v : Fin n → ℝ) : ℝ := (∑ i, u i * v i) / (vecLen u * vecLen v)

/-! ### lemmas -/

theorem mathIsclose_zero {x tol : ℝ} (ht : 0 ≤ tol) : mathIsclose x 0 (1 / 10 ^ 9) tol = some (decide (|x| ≤ tol)) := by
  unfold mathIsclose
  rw [if_neg (by push Not; exact ⟨by norm_num, ht⟩)]
  split
  · rename_i h; subst h; simp [ht]
  · rename_i h
    have hx : 0 < |x| := abs_pos.2 h
    have h1 : ¬ |x| ≤ 0 := not_le.2 hx
    have h2 : ¬ |x| ≤ |1 / 10 ^ 9 * x| := by
      rw [abs_mul, abs_of_pos (by norm_num : (0 : ℝ) < 1 / 10 ^ 9)]
      rw [not_le]; linarith
    simp only [zero_sub, abs_neg, mul_zero, abs_zero, h1, h2, false_or]

theorem mathIsclose_self {n : ℕ} (u : Fin n → ℝ) : mathIsclose (u ⬝ᵥ u) 0 (1 / 10 ^ 9) 0 = some (decide (u = 0)) := by
  rw [mathIsclose_zero le_rfl]
  congr 1
  simp only [abs_nonpos_iff, dotProduct_self_eq_zero]

theorem isOrthogonalVec_eq {n : ℕ} {u v : Fin n → ℝ} {tol : ℝ} (hu : u ≠ 0) (hv : v ≠ 0) (ht : 0 ≤ tol) :
    isOrthogonalVec u v tol = some (decide (|u ⬝ᵥ v| ≤ tol)) := by
  simp only [isOrthogonalVec, mathIsclose_self, hu, hv, decide_false, mathIsclose_zero ht]

theorem vecLen_pos {n : ℕ} {u : Fin n → ℝ} (hu : u ≠ 0) : 0 < vecLen u := by
  refine Real.sqrt_pos.2 (lt_of_le_of_ne (Finset.sum_nonneg fun _ _ => sq_nonneg _) fun h => hu ?_)
  refine dotProduct_self_eq_zero.1 ?_
  rw [dotProduct, h]
  exact Finset.sum_congr rfl fun _ _ => by ring

/-! ### theorems -/

/-- **C114.** The exception is raised exactly if one of the vectors is zero or the tolerance is negative. -/
theorem C114_raises {n : ℕ} (u v : Fin n → ℝ) (tol : ℝ) : isOrthogonalVec u v tol = none ↔ u = 0 ∨ v = 0 ∨ tol < 0 := by
  by_cases hu : u = 0
  · simp only [isOrthogonalVec, mathIsclose_self, hu, decide_true, true_or]
  by_cases hv : v = 0
  · simp only [isOrthogonalVec, mathIsclose_self, hu, hv, decide_false, decide_true, true_or, or_true]
  by_cases ht : tol < 0
  · simp only [isOrthogonalVec, mathIsclose_self, hu, hv, decide_false, ht, or_true, iff_true]
    unfold mathIsclose
    rw [if_pos (.inr ht)]
  · rw [isOrthogonalVec_eq hu hv (not_lt.1 ht)]
    simp [hu, hv, ht]

/-- **C114.** The answer compares the cosine of the angle with the tolerance divided by both lengths. -/
theorem C114_answer {n : ℕ} {u v : Fin n → ℝ} {tol : ℝ} (hu : u ≠ 0) (hv : v ≠ 0) (ht : 0 ≤ tol) :
    isOrthogonalVec u v tol = some (decide (|cosAngle u v| ≤ tol / (vecLen u * vecLen v))) := by
  rw [isOrthogonalVec_eq hu hv ht]
  have hp : 0 < vecLen u * vecLen v := mul_pos (vecLen_pos hu) (vecLen_pos hv)
  congr 1
  rw [decide_eq_decide, cosAngle, abs_div, abs_of_pos hp, div_le_div_iff_of_pos_right hp]
  rfl

/-- **C114, vectors of length one.** The tolerance is the one of the cosine. -/
theorem C114_unit_partial {n : ℕ} {u v : Fin n → ℝ} {tol : ℝ} (hu : vecLen u = 1) (hv : vecLen v = 1) (ht : 0 ≤ tol) :
    isOrthogonalVec u v tol = some (decide (|cosAngle u v| ≤ tol)) := by
  have hz : vecLen (0 : Fin n → ℝ) = 0 := by simp [vecLen]
  have hu0 : u ≠ 0 := by rintro rfl; rw [hz] at hu; exact zero_ne_one hu
  have hv0 : v ≠ 0 := by rintro rfl; rw [hz] at hv; exact zero_ne_one hv
  rw [C114_answer hu0 hv0 ht, hu, hv, mul_one, div_one]

/-- **C114.** Right angles are always recognised, and without a tolerance nothing else is. -/
theorem C114_right_angle {n : ℕ} {u v : Fin n → ℝ} {tol : ℝ} (hu : u ≠ 0) (hv : v ≠ 0) (ht : 0 ≤ tol) :
    (∑ i, u i * v i = 0 → isOrthogonalVec u v tol = some true) ∧ (isOrthogonalVec u v 0 = some true ↔ ∑ i, u i * v i = 0) := by
  rw [isOrthogonalVec_eq hu hv ht, isOrthogonalVec_eq hu hv le_rfl]
  constructor
  · intro h
    have : u ⬝ᵥ v = 0 := h
    simp [this, ht]
  · simp only [Option.some.injEq, decide_eq_true_eq, abs_nonpos_iff]
    rfl

/-- **C114.** The order, the sense of a vector and a common rotation or reflection do not matter. -/
theorem C114_symmetric {n : ℕ} (u v : Fin n → ℝ) (tol : ℝ) : isOrthogonalVec v u tol = isOrthogonalVec u v tol ∧
    isOrthogonalVec (-u) v tol = isOrthogonalVec u v tol ∧
    ∀ Q : Matrix (Fin n) (Fin n) ℝ, Qᵀ * Q = 1 → isOrthogonalVec (Q *ᵥ u) (Q *ᵥ v) tol = isOrthogonalVec u v tol := by
  have key : ∀ {a b c d : Fin n → ℝ}, (a = 0 ∨ b = 0 ↔ c = 0 ∨ d = 0) → |a ⬝ᵥ b| = |c ⬝ᵥ d| →
      isOrthogonalVec a b tol = isOrthogonalVec c d tol := by
    intro a b c d h1 h2
    by_cases hn : isOrthogonalVec c d tol = none
    · rw [hn, C114_raises]
      rw [C114_raises] at hn
      rw [← or_assoc] at hn ⊢
      rwa [h1]
    · have hn' := hn
      rw [C114_raises, ← or_assoc] at hn
      have hab := hn
      rw [← h1] at hab
      push Not at hn hab
      rw [isOrthogonalVec_eq hab.1.1 hab.1.2 hab.2, isOrthogonalVec_eq hn.1.1 hn.1.2 hn.2, h2]
  refine ⟨key or_comm (by rw [dotProduct_comm]), key (by rw [neg_eq_zero]) (by rw [neg_dotProduct, abs_neg]), fun Q hQ => ?_⟩
  have dot : ∀ a b : Fin n → ℝ, (Q *ᵥ a) ⬝ᵥ (Q *ᵥ b) = a ⬝ᵥ b := by
    intro a b
    rw [dotProduct_mulVec, vecMul_mulVec, ← dotProduct_mulVec, hQ, one_mulVec]
  have zero : ∀ a : Fin n → ℝ, Q *ᵥ a = 0 ↔ a = 0 := by
    intro a
    rw [← dotProduct_self_eq_zero, dot, dotProduct_self_eq_zero]
  exact key (by rw [zero, zero]) (by rw [dot])

/-- **C114 is false in general.** The answer depends on the lengths: with a positive tolerance any two vectors, also parallel ones, are
orthogonal if one of them is short enough, and they are not if it is long enough, unless the angle is exactly right. -/
theorem C114_scale_counterexample {n : ℕ} {u v : Fin n → ℝ} {tol : ℝ} (hu : u ≠ 0) (hv : v ≠ 0) (ht : 0 < tol) :
    (∃ k : ℝ, 0 < k ∧ ∀ c, 0 < c → c ≤ k → isOrthogonalVec (c • u) v tol = some true) ∧
      (∑ i, u i * v i ≠ 0 → ∃ k : ℝ, 0 < k ∧ ∀ c, k < c → isOrthogonalVec (c • u) v tol = some false) := by
  have step : ∀ c : ℝ, 0 < c → isOrthogonalVec (c • u) v tol = some (decide (c * |u ⬝ᵥ v| ≤ tol)) := by
    intro c hc
    rw [isOrthogonalVec_eq (smul_ne_zero hc.ne' hu) hv ht.le, smul_dotProduct, smul_eq_mul, abs_mul, abs_of_pos hc]
  constructor
  · have hp : 0 < |u ⬝ᵥ v| + 1 := by positivity
    refine ⟨tol / (|u ⬝ᵥ v| + 1), by positivity, fun c hc hk => ?_⟩
    rw [step c hc, le_div_iff₀ hp] at *
    simp only [Option.some.injEq, decide_eq_true_eq]
    nlinarith
  · intro h
    have hp : 0 < |u ⬝ᵥ v| := abs_pos.2 h
    have hk : 0 < tol / |u ⬝ᵥ v| := by positivity
    refine ⟨_, hk, fun c hc => ?_⟩
    rw [step c (hk.trans hc)]
    rw [div_lt_iff₀ hp] at hc
    simp only [Option.some.injEq, decide_eq_false_iff_not, not_le]
    exact hc

/-- with the default tolerance a vector of length `1e-5` is orthogonal to itself, the vector of length one in the same direction is not -/
theorem C114_parallel_counterexample : isOrthogonalVec ![1 / 10 ^ 5, 0, 0] ![1 / 10 ^ 5, 0, 0] (1 / 10 ^ 9) = some true ∧
    isOrthogonalVec ![1, 0, 0] ![1, 0, 0] (1 / 10 ^ 9) = some false := by
  have h1 : (![1 / 10 ^ 5, 0, 0] : Fin 3 → ℝ) ≠ 0 := fun h => by simpa using congrFun h 0
  have h2 : (![1, 0, 0] : Fin 3 → ℝ) ≠ 0 := fun h => by simpa using congrFun h 0
  rw [isOrthogonalVec_eq h1 h1 (by norm_num), isOrthogonalVec_eq h2 h2 (by norm_num)]
  constructor
  · simp only [Option.some.injEq, decide_eq_true_eq]
    norm_num [dotProduct, Fin.sum_univ_succ]
  · simp only [Option.some.injEq, decide_eq_false_iff_not]
    norm_num [dotProduct, Fin.sum_univ_succ]

/-- the hypotheses hold for two vectors of length one with a right angle -/
example : vecLen ![3 / 5, 4 / 5] = 1 ∧ vecLen ![-4 / 5, 3 / 5] = 1 ∧ isOrthogonalVec ![3 / 5, 4 / 5] ![-4 / 5, 3 / 5] (1 / 10 ^ 9) = some true := by
  have h1 : vecLen ![3 / 5, 4 / 5] = 1 := by norm_num [vecLen, Fin.sum_univ_succ]
  have h2 : vecLen ![-4 / 5, 3 / 5] = 1 := by norm_num [vecLen, Fin.sum_univ_succ]
  refine ⟨h1, h2, ?_⟩
  rw [C114_unit_partial h1 h2 (by norm_num)]
  norm_num [cosAngle, Fin.sum_univ_succ]

end Weldx.Geo
