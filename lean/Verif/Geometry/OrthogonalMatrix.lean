import Verif.Geometry.Orthogonal
import Mathlib.LinearAlgebra.Matrix.NonsingularInverse

/-!
# Orthogonal matrices in arrays (C115)

Source: `/repo/weldx/transformations/util.py` 162-178 (`is_orthogonal_matrix`).

An array is a family of matrices with `m` rows and `n` columns; the index stands for all leading dimensions. Broadcasting of `np.allclose` is
included. Simplification: numbers are real numbers instead of floats.
-/

namespace Weldx.Geo

open Matrix

variable {ι : Type} {m n : ℕ}

/-! ### model -/

/-- the comparison of `np.allclose` with the default relative tolerance, used in `util.py` 178 -/
def npClose (x y atol : ℝ) : Prop := |x - y| ≤ atol + 1 / 10 ^ 5 * |y|

/-- entries of an axis of length `m` and an axis of length `n` that meet by broadcasting -/
def Meet (i : Fin m) (j : Fin n) : Prop := m = 1 ∨ n = 1 ∨ i.val = j.val

open Classical in
/-- `is_orthogonal_matrix`, `util.py` 162-178: the products of all rows are compared with `np.eye` of the number of columns; `none` is the
`ValueError` for shapes that cannot be broadcast -/
noncomputable def isOrthogonalMatrix (a : ι → Matrix (Fin m) (Fin n) ℝ) (atol : ℝ) : Option Bool :=
  if m = n ∨ m = 1 ∨ n = 1 then
    some (decide (∀ k (i j : Fin m) (p q : Fin n), Meet i p → Meet j q →
      npClose ((a k * (a k)ᵀ) i j) ((1 : Matrix (Fin n) (Fin n) ℝ) p q) atol))
  else none

/-! ### theorems -/

/-- **C115.** The exception is raised exactly for shapes that can neither be compared nor broadcast. -/
theorem C115_raises (a : ι → Matrix (Fin m) (Fin n) ℝ) (atol : ℝ) : isOrthogonalMatrix a atol = none ↔ m ≠ n ∧ m ≠ 1 ∧ n ≠ 1 := by
  unfold isOrthogonalMatrix
  split
  · rename_i h
    simp only [reduceCtorEq, false_iff]
    tauto
  · rename_i h
    simp only [true_iff]
    tauto

/-- **C115, square matrices.** The product of two different rows has to be zero up to the given tolerance. The square of the length of a row
has to be one up to this tolerance and the additional `1e-5`. -/
theorem C115_square (a : ι → Matrix (Fin n) (Fin n) ℝ) (atol : ℝ) : isOrthogonalMatrix a atol = some true ↔
    ∀ k i j, (i ≠ j → |∑ c, a k i c * a k j c| ≤ atol) ∧ |∑ c, a k i c ^ 2 - 1| ≤ atol + 1 / 10 ^ 5 := by
  have rowsq : ∀ k i, (a k * (a k)ᵀ) i i = ∑ c, a k i c ^ 2 := fun k i => by
    rw [mul_apply]
    exact Finset.sum_congr rfl fun c _ => by rw [transpose_apply, sq]
  have meet : ∀ {i j : Fin n}, Meet i j ↔ i = j := by
    intro i j
    refine ⟨?_, fun h => .inr (.inr (by rw [h]))⟩
    rintro (h | h | h)
    · exact Fin.ext (by omega)
    · exact Fin.ext (by omega)
    · exact Fin.ext h
  unfold isOrthogonalMatrix
  rw [if_pos (.inl rfl)]
  simp only [Option.some.injEq, decide_eq_true_eq]
  simp only [meet, npClose]
  constructor
  · intro h k i j
    refine ⟨fun hij => ?_, ?_⟩
    · have := h k i j i j rfl rfl
      rw [one_apply_ne hij, sub_zero, abs_zero, mul_zero, add_zero] at this
      exact this
    · have := h k i i i i rfl rfl
      rw [rowsq, one_apply_eq, abs_one, mul_one] at this
      exact this
  · rintro h k i j _ _ rfl rfl
    by_cases hij : i = j
    · subst hij
      rw [rowsq, one_apply_eq, abs_one, mul_one]
      exact (h k i i).2
    · rw [one_apply_ne hij, sub_zero, abs_zero, mul_zero, add_zero]
      exact (h k i j).1 hij

/-- **C115.** Matrices whose rows or whose columns are orthonormal are accepted. -/
theorem C115_orthogonal (a : ι → Matrix (Fin n) (Fin n) ℝ) {atol : ℝ} (h0 : 0 ≤ atol) (h : ∀ k, a k * (a k)ᵀ = 1 ∨ (a k)ᵀ * a k = 1) :
    isOrthogonalMatrix a atol = some true := by
  rw [C115_square]
  intro k i j
  have hk : a k * (a k)ᵀ = 1 := (h k).elim id fun h => mul_eq_one_comm.1 h
  refine ⟨fun hij => ?_, ?_⟩
  · have := congrFun (congrFun hk i) j
    rw [one_apply_ne hij] at this
    change ∑ c, a k i c * a k j c = 0 at this
    rw [this, abs_zero]
    exact h0
  · have := congrFun (congrFun hk i) i
    rw [one_apply_eq] at this
    change ∑ c, a k i c * a k i c = 1 at this
    rw [Finset.sum_congr rfl fun c _ => sq (a k i c), this, sub_self, abs_zero]
    positivity

/-- **C115.** An array is accepted exactly if all of its matrices are. -/
theorem C115_stack (a : ι → Matrix (Fin m) (Fin n) ℝ) (atol : ℝ) (h : m = n ∨ m = 1 ∨ n = 1) :
    isOrthogonalMatrix a atol = some true ↔ ∀ k, isOrthogonalMatrix (fun _ : Unit => a k) atol = some true := by
  unfold isOrthogonalMatrix
  simp only [if_pos h, Option.some.injEq, decide_eq_true_eq]
  exact ⟨fun h k _ => h k, fun h k => h k ()⟩

/-- **C115 is false for the lengths.** The tolerance is not the given one: without a tolerance a multiple of the identity is accepted
although all of its rows are too long. -/
theorem C115_length_counterexample : ∃ a : Matrix (Fin n) (Fin n) ℝ, (∀ i, ∑ c, a i c ^ 2 = 1 + 1 / 10 ^ 5) ∧
    isOrthogonalMatrix (fun _ : Unit => a) 0 = some true := by
  have hs : √(1 + 1 / 10 ^ 5 : ℝ) ^ 2 = 1 + 1 / 10 ^ 5 := Real.sq_sqrt (by norm_num)
  have hl : ∀ i : Fin n, ∑ c, (√(1 + 1 / 10 ^ 5 : ℝ) • (1 : Matrix (Fin n) (Fin n) ℝ)) i c ^ 2 = 1 + 1 / 10 ^ 5 := by
    intro i
    rw [Finset.sum_eq_single i]
    · rw [Matrix.smul_apply, one_apply_eq, smul_eq_mul, mul_one, hs]
    · intro c _ hc
      rw [Matrix.smul_apply, one_apply_ne hc.symm]
      simp
    · simp
  refine ⟨_, hl, ?_⟩
  rw [C115_square]
  intro _ i j
  refine ⟨fun hij => ?_, ?_⟩
  · rw [Finset.sum_eq_zero, abs_zero]
    intro c _
    rw [Matrix.smul_apply, Matrix.smul_apply]
    by_cases hc : i = c
    · rw [one_apply_ne (fun h => hij (hc.trans h.symm)), smul_zero, mul_zero]
    · rw [one_apply_ne hc, smul_zero, zero_mul]
  · rw [hl]
    norm_num

/-- **C115 is false for other shapes.** A single column of ones is accepted, whatever its length, since the identity with one entry is
broadcast. -/
theorem C115_column_counterexample : isOrthogonalMatrix (fun _ : Unit => (of fun _ _ => 1 : Matrix (Fin m) (Fin 1) ℝ)) 0 = some true := by
  unfold isOrthogonalMatrix
  rw [if_pos (.inr (.inr rfl))]
  simp only [Option.some.injEq, decide_eq_true_eq]
  intro _ i j p q _ _
  have h1 : ((of fun _ _ => 1 : Matrix (Fin m) (Fin 1) ℝ) * (of fun _ _ => 1 : Matrix (Fin m) (Fin 1) ℝ)ᵀ) i j = 1 := by
    simp [mul_apply]
  rw [h1, Subsingleton.elim p q, one_apply_eq]
  norm_num [npClose]

/-- **C115, a single row** with several columns is never accepted, since its product with itself is compared with zero and one. -/
theorem C115_row [Nonempty ι] (a : ι → Matrix (Fin 1) (Fin n) ℝ) {atol : ℝ} (hn : 2 ≤ n) (h : atol < 2 / 5) :
    isOrthogonalMatrix a atol = some false := by
  unfold isOrthogonalMatrix
  rw [if_pos (.inr (.inl rfl))]
  simp only [Option.some.injEq, decide_eq_false_iff_not]
  intro hh
  obtain ⟨k⟩ := ‹Nonempty ι›
  have h1 := hh k 0 0 ⟨0, by omega⟩ ⟨0, by omega⟩ (.inl rfl) (.inl rfl)
  have h2 := hh k 0 0 ⟨0, by omega⟩ ⟨1, by omega⟩ (.inl rfl) (.inl rfl)
  rw [one_apply_eq] at h1
  rw [one_apply_ne (by simp)] at h2
  unfold npClose at h1 h2
  rw [abs_one, abs_le] at h1
  rw [abs_zero, abs_le] at h2
  linarith [h1.1, h2.2]

/-- a rotation in the plane meets the hypothesis of `C115_orthogonal` -/
example : isOrthogonalMatrix (fun _ : Unit => !![(3 / 5 : ℝ), -4 / 5; 4 / 5, 3 / 5]) (1 / 10 ^ 9) = some true := by
  refine C115_orthogonal _ (by norm_num) fun _ => .inl ?_
  ext i j
  fin_cases i <;> fin_cases j <;> norm_num [mul_apply, Fin.sum_univ_succ]

end Weldx.Geo
