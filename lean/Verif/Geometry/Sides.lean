import Mathlib.LinearAlgebra.Matrix.Determinant.Basic
import Mathlib.LinearAlgebra.CrossProduct
import Mathlib.Algebra.Order.Field.Basic
import Mathlib.Tactic.Ring
import Mathlib.Tactic.LinearCombination
import Mathlib.Tactic.FieldSimp
import Mathlib.Tactic.Positivity
import Mathlib.Tactic.Linarith
import Mathlib.Tactic.FinCases
import Mathlib.Tactic.NormNum

/-!
# Side tests (C54)

Source: `/repo/weldx/transformations/util.py` 61-135 and 181-251.

Numbers are elements of an ordered field instead of floats. `math.isclose(x, 0)` without an absolute tolerance is
`x == 0`.
-/

namespace Weldx.Geo

open Matrix

variable {K : Type*} [Field K] [LinearOrder K] [IsStrictOrderedRing K]

/-! ### model -/

/-- `np.sign` -/
def npSign (x : K) : Int := if 0 < x then 1 else if x < 0 then -1 else 0

/-- `vector_points_to_left_of_vector`, `util.py` 231-251 -/
def vectorPointsToLeft (vector reference : Fin 2 → K) : Int := npSign (Matrix.det !![reference 0, reference 1; vector 0, vector 1])

/-- `point_left_of_line`, `util.py` 181-204 -/
def pointLeftOfLine (point lineStart lineEnd : Fin 2 → K) : Int :=
  let vecStartEnd := lineEnd - lineStart
  let vecStartPoint := point - lineStart
  vectorPointsToLeft vecStartPoint vecStartEnd

/-- `reflection_sign`, `util.py` 207-228; `none` stands for the exception -/
def reflectionSign {n : Nat} (m : Matrix (Fin n) (Fin n) K) : Option Int :=
  let sign := npSign m.det
  if sign = 0 then none else some sign

/-- `orientation_point_plane_containing_origin`, `util.py` 61-100; `none` stands for the exception -/
def orientationPlaneOrigin (point pA pB : Fin 3 → K) : Option Int :=
  if pA = 0 ∨ pB = 0 ∨ pB - pA = 0 then none else some (npSign (Matrix.det (Matrix.of ![pA, pB, point])))

/-- `orientation_point_plane`, `util.py` 103-135 -/
def orientationPlane (point pA pB pC : Fin 3 → K) : Option Int :=
  orientationPlaneOrigin (point - pA) (pB - pA) (pC - pA)

/-! ### specification -/

/-- quarter turn, counter-clockwise -/
def turn (v : Fin 2 → K) : Fin 2 → K := ![-v 1, v 0]

/-- the result is 1 if `left` is satisfied for a positive number, -1 for a negative one, 0 for zero -/
def SideOf (offset : K) (r : Int) : Prop := (0 < offset ∧ r = 1) ∨ (offset = 0 ∧ r = 0) ∨ (offset < 0 ∧ r = -1)

omit [IsStrictOrderedRing K] in
theorem sideOf_npSign (x : K) : SideOf x (npSign x) := by
  unfold npSign SideOf
  rcases lt_trichotomy x 0 with h | h | h
  · simp [h, not_lt.2 h.le]
  · simp [h]
  · simp [h]

omit [IsStrictOrderedRing K] in
theorem npSign_eq_zero {x : K} : npSign x = 0 ↔ x = 0 := by
  rcases sideOf_npSign x with ⟨h, e⟩ | ⟨h, e⟩ | ⟨h, e⟩ <;> rw [e] <;> simp [h, ne_of_gt, ne_of_lt]

omit [IsStrictOrderedRing K] in
theorem npSign_eq_one {x : K} : npSign x = 1 ↔ 0 < x := by
  rcases sideOf_npSign x with ⟨h, e⟩ | ⟨h, e⟩ | ⟨h, e⟩ <;> rw [e] <;> simp [h, h.le]

omit [IsStrictOrderedRing K] in
theorem npSign_eq_neg_one {x : K} : npSign x = -1 ↔ x < 0 := by
  rcases sideOf_npSign x with ⟨h, e⟩ | ⟨h, e⟩ | ⟨h, e⟩ <;> rw [e] <;> simp [h, h.le]

theorem npSign_neg (x : K) : npSign (-x) = - npSign x := by
  rcases sideOf_npSign x with ⟨h, e⟩ | ⟨h, e⟩ | ⟨h, e⟩ <;> rw [e]
  · rw [npSign_eq_neg_one]; simpa using h
  · rw [neg_zero, npSign_eq_zero]; simpa using h
  · rw [neg_neg, npSign_eq_one]; simpa using h

theorem npSign_mul (x y : K) : npSign (x * y) = npSign x * npSign y := by
  rcases sideOf_npSign x with ⟨h, e⟩ | ⟨h, e⟩ | ⟨h, e⟩ <;>
  rcases sideOf_npSign y with ⟨h', e'⟩ | ⟨h', e'⟩ | ⟨h', e'⟩ <;> rw [e, e']
  · rw [one_mul, npSign_eq_one]; exact mul_pos h h'
  · rw [mul_zero, npSign_eq_zero, h', mul_zero]
  · rw [one_mul, npSign_eq_neg_one]; exact mul_neg_of_pos_of_neg h h'
  · rw [zero_mul, npSign_eq_zero, h, zero_mul]
  · rw [zero_mul, npSign_eq_zero, h, zero_mul]
  · rw [zero_mul, npSign_eq_zero, h, zero_mul]
  · rw [mul_one, npSign_eq_neg_one]; exact mul_neg_of_neg_of_pos h h'
  · rw [mul_zero, npSign_eq_zero, h', mul_zero]
  · rw [show (-1 : Int) * -1 = 1 by norm_num, npSign_eq_one]; exact mul_pos_of_neg_of_neg h h'

theorem npSign_mul_pos {x y : K} (h : 0 < x) : npSign (x * y) = npSign y := by
  rw [npSign_mul, npSign_eq_one.2 h, one_mul]

/-! ### C54: vectors and lines -/

omit [LinearOrder K] [IsStrictOrderedRing K] in
theorem det_rows (a b : Fin 2 → K) : Matrix.det !![a 0, a 1; b 0, b 1] = a 0 * b 1 - a 1 * b 0 := by
  rw [Matrix.det_fin_two]; simp

theorem sq_pos_of_ne {r : Fin 2 → K} (h : r ≠ 0) : 0 < r 0 * r 0 + r 1 * r 1 := by
  have h0 := mul_self_nonneg (r 0)
  have h1 := mul_self_nonneg (r 1)
  rcases lt_or_eq_of_le (add_nonneg h0 h1) with h2 | h2
  · exact h2
  · exfalso; apply h
    have e0 : r 0 * r 0 = 0 := by linarith
    have e1 : r 1 * r 1 = 0 := by linarith
    funext i; fin_cases i
    · simpa using e0
    · simpa using e1

/-- **C54.** For a reference vector that is not zero: each vector can be written as a multiple of the reference and
a multiple of its left normal in exactly one way, and the result is the sign of the latter. So it is 1 if the
vector points to the left, 0 if it is parallel, and -1 if it points to the right. -/
theorem C54_vector_side {v r : Fin 2 → K} (hr : r ≠ 0) :
    ∃ along offset : K, v = along • r + offset • turn r ∧ SideOf offset (vectorPointsToLeft v r) ∧
      ∀ a o : K, v = a • r + o • turn r → a = along ∧ o = offset := by
  have hp := sq_pos_of_ne hr
  refine ⟨(v 0 * r 0 + v 1 * r 1) / (r 0 * r 0 + r 1 * r 1), (r 0 * v 1 - r 1 * v 0) / (r 0 * r 0 + r 1 * r 1), ?_, ?_, ?_⟩
  · have hp' := hp.ne'
    funext i; fin_cases i <;> simp [turn] <;> rw [eq_comm, div_mul_eq_mul_div, div_mul_eq_mul_div]
    · rw [neg_div', ← add_div, div_eq_iff hp']; ring
    · rw [← add_div, div_eq_iff hp']; ring
  · have : vectorPointsToLeft v r = npSign ((r 0 * v 1 - r 1 * v 0) / (r 0 * r 0 + r 1 * r 1)) := by
      rw [vectorPointsToLeft, det_rows, div_eq_inv_mul, npSign_mul_pos (inv_pos.2 hp)]
    rw [this]
    exact sideOf_npSign _
  · intro a o h
    have h0 := congrFun h 0
    have h1 := congrFun h 1
    simp [turn] at h0 h1
    constructor
    · rw [eq_div_iff hp.ne', h0, h1]; ring
    · rw [eq_div_iff hp.ne', h0, h1]; ring

omit [IsStrictOrderedRing K] in
/-- the remaining case: nothing is left or right of the zero vector -/
theorem C54_zero_vector (v : Fin 2 → K) : vectorPointsToLeft v 0 = 0 := by
  rw [vectorPointsToLeft, det_rows, npSign_eq_zero]; simp

/-- **C54.** A point is on the left (1), on the (infinite) line (0), or on the right (-1). -/
theorem C54_line_side {p a b : Fin 2 → K} (hab : a ≠ b) :
    ∃ along offset : K, p = a + along • (b - a) + offset • turn (b - a) ∧ SideOf offset (pointLeftOfLine p a b) := by
  obtain ⟨x, y, h, hs, -⟩ := C54_vector_side (v := p - a) (r := b - a) (sub_ne_zero.2 hab.symm)
  exact ⟨x, y, by rw [add_assoc, ← h]; abel, hs⟩

/-- **C54.** Exchanging the vectors negates the result. -/
theorem C54_vector_antisymmetric (v r : Fin 2 → K) : vectorPointsToLeft r v = - vectorPointsToLeft v r := by
  rw [vectorPointsToLeft, vectorPointsToLeft, det_rows, det_rows, ← npSign_neg]; congr 1; ring

/-- **C54.** Exchanging start and end of the line negates the result. -/
theorem C54_line_antisymmetric (p a b : Fin 2 → K) : pointLeftOfLine p b a = - pointLeftOfLine p a b := by
  simp only [pointLeftOfLine, vectorPointsToLeft, det_rows, ← npSign_neg]
  congr 1; simp only [Pi.sub_apply]; ring

omit [IsStrictOrderedRing K] in
/-- **C54.** Translations do not change the result. -/
theorem C54_translation (p a b t : Fin 2 → K) : pointLeftOfLine (p + t) (a + t) (b + t) = pointLeftOfLine p a b := by
  simp only [pointLeftOfLine, add_sub_add_right_eq_sub]

/-- **C54.** A transformation multiplies the result with its reflection sign, so rotations do not change it and
reflections negate it; degenerate transformations are refused. -/
theorem C54_transformation (m : Matrix (Fin 2) (Fin 2) K) (v r : Fin 2 → K) :
    match reflectionSign m with
    | some s => vectorPointsToLeft (m *ᵥ v) (m *ᵥ r) = s * vectorPointsToLeft v r
    | none => m.det = 0 ∧ vectorPointsToLeft (m *ᵥ v) (m *ᵥ r) = 0 := by
  have key : vectorPointsToLeft (m *ᵥ v) (m *ᵥ r) = npSign m.det * vectorPointsToLeft v r := by
    rw [vectorPointsToLeft, vectorPointsToLeft, ← npSign_mul, det_rows, det_rows, Matrix.det_fin_two]
    congr 1
    simp [Matrix.mulVec, dotProduct, Fin.sum_univ_two]; ring
  unfold reflectionSign
  by_cases h : npSign m.det = 0
  · simp only [h, if_true]; exact ⟨npSign_eq_zero.1 h, by rw [key, h, zero_mul]⟩
  · simp only [h, if_false]; exact key

/-- the matrix of the reflection at the line through the origin with the normal `n` -/
def IsReflection (m : Matrix (Fin 2) (Fin 2) K) : Prop :=
  ∃ n : Fin 2 → K, n ≠ 0 ∧ m *ᵥ n = -n ∧ m *ᵥ turn n = turn n

/-- a rotation: the image of the first axis, and its left normal, are the columns -/
def IsRotation (m : Matrix (Fin 2) (Fin 2) K) : Prop :=
  ∃ c s : K, c * c + s * s = 1 ∧ m = !![c, -s; s, c]

/-- **C54.** A distance preserving transformation of the plane has the sign -1 exactly if it is a reflection, and 1
exactly if it is a rotation. -/
theorem C54_reflection_sign {m : Matrix (Fin 2) (Fin 2) K} (h : m * mᵀ = 1) :
    (reflectionSign m = some (-1) ↔ IsReflection m) ∧ (reflectionSign m = some 1 ↔ IsRotation m) := by
  have hd : m.det * m.det = 1 := by
    have := congrArg Matrix.det h
    rwa [Matrix.det_mul, Matrix.det_transpose, Matrix.det_one] at this
  have hcases : m.det = 1 ∨ m.det = -1 := mul_self_eq_one_iff.1 hd
  have e00 : m 0 0 * m 0 0 + m 0 1 * m 0 1 = 1 := by
    have := congrFun (congrFun h 0) 0
    simpa [Matrix.mul_apply, Fin.sum_univ_two] using this
  have e01 : m 0 0 * m 1 0 + m 0 1 * m 1 1 = 0 := by
    have := congrFun (congrFun h 0) 1
    simpa [Matrix.mul_apply, Fin.sum_univ_two] using this
  have e11 : m 1 0 * m 1 0 + m 1 1 * m 1 1 = 1 := by
    have := congrFun (congrFun h 1) 1
    simpa [Matrix.mul_apply, Fin.sum_univ_two] using this
  have hdet := Matrix.det_fin_two m
  have sgn : ∀ s : Int, s ≠ 0 → (reflectionSign m = some s ↔ npSign m.det = s) := by
    intro s hs
    unfold reflectionSign
    by_cases h0 : npSign m.det = 0
    · simp only [h0, if_true]; simp [hs.symm]
    · simp only [h0, if_false, Option.some.injEq]
  rw [sgn _ (by norm_num), sgn _ (by norm_num), npSign_eq_neg_one, npSign_eq_one]
  have refl_det : IsReflection m → m.det = -1 := by
    rintro ⟨n, hn, h1, h2⟩
    have hp := sq_pos_of_ne hn
    have a0 := congrFun h1 0
    have a1 := congrFun h1 1
    have b0 := congrFun h2 0
    have b1 := congrFun h2 1
    simp [Matrix.mulVec, dotProduct, Fin.sum_univ_two, turn] at a0 a1 b0 b1
    have key : m.det * (n 0 * n 0 + n 1 * n 1) = -(n 0 * n 0 + n 1 * n 1) := by
      have : m.det * (n 0 * n 0 + n 1 * n 1) =
          (m 0 0 * n 0 + m 0 1 * n 1) * (-(m 1 0 * n 1) + m 1 1 * n 0) -
          (-(m 0 0 * n 1) + m 0 1 * n 0) * (m 1 0 * n 0 + m 1 1 * n 1) := by rw [hdet]; ring
      rw [this, a0, a1, b0, b1]; ring
    exact mul_right_cancel₀ hp.ne' (by linarith)
  have rot_det : IsRotation m → m.det = 1 := by
    rintro ⟨c, s, h1, rfl⟩
    rw [Matrix.det_fin_two]; simp; linarith
  constructor
  · constructor
    · intro hneg
      have hm : m.det = -1 := by
        rcases hcases with h | h
        · rw [h] at hneg; exact absurd hneg (by simp)
        · exact h
      rw [hdet] at hm
      -- the matrix is symmetric with trace 0
      have s1 : m 1 1 = - m 0 0 := by linear_combination (-(m 1 1)) * e00 + m 0 0 * hm + m 0 1 * e01
      have s2 : m 1 0 = m 0 1 := by linear_combination (-(m 1 0)) * e00 - m 0 1 * hm + m 0 0 * e01
      by_cases hz : m 0 0 = 1
      · have hb : m 0 1 = 0 := by
          have : m 0 1 * m 0 1 = 0 := by rw [hz] at e00; linarith
          simpa using this
        refine ⟨![0, 1], ?_, ?_, ?_⟩
        · intro h; have := congrFun h 1; simp at this
        · funext i; fin_cases i <;> simp [Matrix.mulVec, dotProduct, Fin.sum_univ_two, hb, s1, hz]
        · funext i; fin_cases i <;> simp [Matrix.mulVec, dotProduct, Fin.sum_univ_two, turn, hb, s2, hz]
      · refine ⟨![1 - m 0 0, -m 0 1], ?_, ?_, ?_⟩
        · intro h; have := congrFun h 0; simp at this
          exact hz (by linarith)
        · funext i; fin_cases i
          · simp [Matrix.mulVec, dotProduct, Fin.sum_univ_two]; linear_combination -e00
          · simp [Matrix.mulVec, dotProduct, Fin.sum_univ_two, s1, s2]; ring
        · funext i; fin_cases i
          · simp [Matrix.mulVec, dotProduct, Fin.sum_univ_two, turn]; ring
          · simp [Matrix.mulVec, dotProduct, Fin.sum_univ_two, turn, s1, s2]; linear_combination e00
    · intro h; rw [refl_det h]; simp
  · constructor
    · intro hpos
      have hm : m.det = 1 := by
        rcases hcases with h | h
        · exact h
        · rw [h] at hpos; exact absurd hpos (by simp)
      rw [hdet] at hm
      have s1 : m 1 1 = m 0 0 := by linear_combination (-(m 1 1)) * e00 + m 0 0 * hm + m 0 1 * e01
      have s2 : m 0 1 = - m 1 0 := by linear_combination (-(m 1 0)) * e00 - m 0 1 * hm + m 0 0 * e01
      refine ⟨m 0 0, m 1 0, ?_, ?_⟩
      · rw [s2] at e00; linarith
      · funext i j; fin_cases i <;> fin_cases j <;> simp [s1, s2]
    · intro h; rw [rot_det h]; simp

/-! ### C54: planes -/

/-- **C54.** Position of a point relative to the plane through `a`, `b` and `c`: the result is the sign of the
component along the normal `(b - a) × (c - a)`. It is only refused if two of the points are identical; for points
on one line it is always 0. -/
theorem C54_plane_side (p a b c : Fin 3 → K) :
    (orientationPlane p a b c = none ↔ a = b ∨ a = c ∨ b = c) ∧
    (∀ r, orientationPlane p a b c = some r → SideOf ((p - a) ⬝ᵥ ((b - a) ⨯₃ (c - a))) r) := by
  have hdet : Matrix.det (Matrix.of ![b - a, c - a, p - a]) = (p - a) ⬝ᵥ ((b - a) ⨯₃ (c - a)) := by
    rw [cross_apply, Matrix.det_fin_three]
    simp [dotProduct, Fin.sum_univ_three]; ring
  unfold orientationPlane orientationPlaneOrigin
  constructor
  · rw [ite_eq_left_iff]
    simp only [reduceCtorEq, imp_false, not_not, sub_sub_sub_cancel_right, sub_eq_zero]
    constructor
    · rintro (h | h | h)
      exacts [.inl h.symm, .inr (.inl h.symm), .inr (.inr h.symm)]
    · rintro (h | h | h)
      exacts [.inl h.symm, .inr (.inl h.symm), .inr (.inr h.symm)]
  · intro r hr
    split at hr
    · cases hr
    · cases hr; rw [hdet]; exact sideOf_npSign _

/-! ### examples -/

example : pointLeftOfLine (K := ℚ) ![0, 2] ![1, 1] ![3, 2] = 1 ∧ pointLeftOfLine (K := ℚ) ![0, -2] ![1, 1] ![3, 2] = -1 ∧
    pointLeftOfLine (K := ℚ) ![5, 3] ![1, 1] ![3, 2] = 0 := by
  refine ⟨?_, ?_, ?_⟩ <;> simp only [pointLeftOfLine, vectorPointsToLeft, det_rows] <;>
    norm_num [npSign, Matrix.vecHead, Matrix.vecTail]

example : (!![(0 : ℚ), 1; 1, 0]) * (!![(0 : ℚ), 1; 1, 0])ᵀ = 1 ∧ reflectionSign !![(0 : ℚ), 1; 1, 0] = some (-1) := by
  constructor
  · funext i j; fin_cases i <;> fin_cases j <;> simp [Matrix.mul_apply, Fin.sum_univ_two]
  · simp only [reflectionSign, Matrix.det_fin_two]; norm_num [npSign]

end Weldx.Geo
