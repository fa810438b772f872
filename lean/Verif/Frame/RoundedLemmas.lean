import Verif.Frame.Rounded
import Verif.Frame.ToleranceBounds

/-!
# Error bounds for rounded matrix operations
-/

namespace Weldx

open Matrix

/-! ### helpers for norms -/

/-- the matrix of the absolute values -/
def absM (A : Mat3 ℝ) : Mat3 ℝ := Matrix.of fun i j => |A i j|

theorem frob_absM (A : Mat3 ℝ) : frob (absM A) = frob A := by
  simp [frob, absM, sq_abs]

theorem frob_neg (A : Mat3 ℝ) : frob (-A) = frob A := by simp [frob]

theorem frob_transpose (A : Mat3 ℝ) : frob Aᵀ = frob A := by
  rw [frob, frob, Finset.sum_comm]; rfl

theorem norm2_abs (v : Vec3 ℝ) : norm2 (fun i => |v i|) = norm2 v := by
  simp [norm2, sq_abs]

theorem norm2_neg (v : Vec3 ℝ) : norm2 (-v) = norm2 v := by simp [norm2]

theorem norm2_le_of_entries {v w : Vec3 ℝ} {c : ℝ} (hc : 0 ≤ c) (h : ∀ i, |v i| ≤ c * |w i|) :
    norm2 v ≤ c * norm2 w := by
  refine norm2_le_of_sq (mul_nonneg hc (norm2_nonneg w)) ?_
  rw [mul_pow, norm2_sum, norm2_sum, Finset.mul_sum]
  refine Finset.sum_le_sum fun i _ => ?_
  rw [← sq_abs (v i), ← sq_abs (w i), ← mul_pow]
  exact pow_le_pow_left₀ (abs_nonneg _) (h i) 2

theorem norm2_sub_le (v w : Vec3 ℝ) : norm2 v ≤ norm2 w + norm2 (v - w) := by
  have := norm2_add w (v - w)
  rwa [show w + (v - w) = v by abel] at this

theorem frob_sub_le (A B : Mat3 ℝ) : frob A ≤ frob B + frob (A - B) := by
  have := frob_add B (A - B)
  rwa [show B + (A - B) = A by abel] at this

/-- a matrix as the rows of its columns -/
theorem frob_cols (A : Mat3 ℝ) : frob A ^ 2 = ∑ j, norm2 (fun i => A i j) ^ 2 := by
  rw [frob_sq, Finset.sum_comm]
  exact Finset.sum_congr rfl fun j _ => (norm2_sum _).symm

/-- multiplication with an orthogonal matrix keeps the norm -/
theorem frob_orth_left {Q : Mat3 ℝ} (hQ : Qᵀ * Q = 1) (A : Mat3 ℝ) : frob (Q * A) = frob A := by
  have h : frob (Q * A) ^ 2 = frob A ^ 2 := by
    rw [frob_cols, frob_cols]
    refine Finset.sum_congr rfl fun j _ => ?_
    have e1 : (fun i => (Q * A) i j) = Q *ᵥ (fun i => A i j) := by
      funext i; rfl
    rw [e1]
    have hd : defect Q = 0 := by rw [defect, hQ]; simp [frob]
    have e : norm2 (Q *ᵥ fun i => A i j) ^ 2 =
        norm2 (fun i => A i j) ^ 2 + dot3 (fun i => A i j) ((Qᵀ * Q - 1) *ᵥ fun i => A i j) := by
      simp only [norm2_sq, dot3, Matrix.mulVec, dotProduct, Fin.sum_univ_three, Matrix.sub_apply, Matrix.mul_apply,
        Matrix.transpose_apply, Matrix.one_apply]
      simp
      ring
    rw [e, hQ]
    simp [dot3]
  have h0 := frob_nonneg (Q * A)
  have h1 := frob_nonneg A
  nlinarith [sq_nonneg (frob (Q * A) - frob A)]

theorem frob_orth_right {Q : Mat3 ℝ} (hQ : Qᵀ * Q = 1) (A : Mat3 ℝ) : frob (A * Q) = frob A := by
  rw [← frob_transpose, Matrix.transpose_mul, frob_orth_left, frob_transpose]
  rw [Matrix.transpose_transpose]
  exact mul_eq_one_comm.1 hQ

theorem norm2_orth {Q : Mat3 ℝ} (hQ : Qᵀ * Q = 1) (v : Vec3 ℝ) : norm2 (Q *ᵥ v) ≤ norm2 v := by
  have h := norm2_mulVec Q v
  have hd : defect Q = 0 := by rw [defect, hQ]; simp [frob]
  rw [hd] at h
  linarith

theorem col_unit {Q : Mat3 ℝ} (hQ : Qᵀ * Q = 1) (j : Fin 3) : norm2 (fun i => Q i j) = 1 := by
  have h : norm2 (fun i => Q i j) ^ 2 = 1 := by
    rw [norm2_sq, ← gram_col, hQ, Matrix.one_apply_eq]
  have h0 := norm2_nonneg (fun i => Q i j)
  nlinarith

theorem frob_unit_cols {N : Mat3 ℝ} (h : ∀ j, norm2 (fun i => N i j) = 1) : frob N ≤ 1733 / 1000 := by
  have h1 : frob N ^ 2 = 3 := by
    rw [frob_cols]; simp [h]
  have h0 := frob_nonneg N
  nlinarith

/-! ### rounded operations -/

section
variable {fl : ℝ → ℝ} (hfl : Rounding fl)

include hfl

theorem Rounding.zero : fl 0 = 0 := by
  have := hfl.error 0
  simpa using this

theorem Rounding.bounds (x : ℝ) : |fl x| ≤ (1 + 1 / 2 ^ 53) * |x| ∧ |fl x - x| ≤ 1 / 2 ^ 53 * |x| := by
  have h := hfl.error x
  have h2 := abs_sub_abs_le_abs_sub (fl x) x
  constructor <;> linarith

theorem Rounding.nonneg {x : ℝ} (h : 0 ≤ x) : (1 - 1 / 2 ^ 53) * x ≤ fl x := by
  have h1 := hfl.error x
  rw [abs_of_nonneg h] at h1
  have := (abs_le.1 h1).1
  linarith

theorem dotF_error (a b : Vec3 ℝ) :
    |dotF fl a b - dot3 a b| ≤ 4 / 2 ^ 53 * (|a 0| * |b 0| + |a 1| * |b 1| + |a 2| * |b 2|) := by
  rw [dotF, dot3, ← abs_mul, ← abs_mul, ← abs_mul]
  obtain ⟨a0, e0⟩ := hfl.bounds (a 0 * b 0)
  obtain ⟨a1, e1⟩ := hfl.bounds (a 1 * b 1)
  obtain ⟨a2, e2⟩ := hfl.bounds (a 2 * b 2)
  generalize fl (a 0 * b 0) = p0 at *
  generalize fl (a 1 * b 1) = p1 at *
  generalize fl (a 2 * b 2) = p2 at *
  obtain ⟨a3, e3⟩ := hfl.bounds (p0 + p1)
  generalize fl (p0 + p1) = s at *
  obtain ⟨-, e4⟩ := hfl.bounds (s + p2)
  generalize fl (s + p2) = r at *
  have t1 := abs_add_le p0 p1
  have t2 := abs_add_le s p2
  have n0 := abs_nonneg (a 0 * b 0)
  have n1 := abs_nonneg (a 1 * b 1)
  have n2 := abs_nonneg (a 2 * b 2)
  generalize |a 0 * b 0| = x0 at *
  generalize |a 1 * b 1| = x1 at *
  generalize |a 2 * b 2| = x2 at *
  generalize |p0 + p1| = y1 at *
  generalize |s + p2| = y2 at *
  generalize |p0| = q0 at *
  generalize |p1| = q1 at *
  generalize |p2| = q2 at *
  generalize |s| = z at *
  rw [abs_le] at *
  constructor <;> linarith [e0.1, e0.2, e1.1, e1.2, e2.1, e2.2, e3.1, e3.2, e4.1, e4.2]

theorem mulF_error (A B : Mat3 ℝ) : frob (mulF fl A B - A * B) ≤ 4 / 2 ^ 53 * (frob A * frob B) := by
  have h1 : frob (mulF fl A B - A * B) ≤ 4 / 2 ^ 53 * frob (absM A * absM B) := by
    refine frob_le_of_entries (by positivity) fun i j => ?_
    have h := dotF_error hfl (fun k => A i k) (fun k => B k j)
    have e1 : (mulF fl A B - A * B) i j = dotF fl (fun k => A i k) (fun k => B k j) -
        dot3 (fun k => A i k) (fun k => B k j) := by
      simp [mulF, dot3, Matrix.mul_apply, Fin.sum_univ_three]
    have e2 : (absM A * absM B) i j = |A i 0| * |B 0 j| + |A i 1| * |B 1 j| + |A i 2| * |B 2 j| := by
      simp [absM, Matrix.mul_apply, Fin.sum_univ_three]
    rw [e1, e2, abs_of_nonneg (show 0 ≤ |A i 0| * |B 0 j| + |A i 1| * |B 1 j| + |A i 2| * |B 2 j| by positivity)]
    exact h
  have h2 := frob_mul (absM A) (absM B)
  rw [frob_absM, frob_absM] at h2
  exact h1.trans (mul_le_mul_of_nonneg_left h2 (by positivity))

theorem mulVecF_error (A : Mat3 ℝ) (v : Vec3 ℝ) :
    norm2 (mulVecF fl A v - A *ᵥ v) ≤ 4 / 2 ^ 53 * (frob A * norm2 v) := by
  have h1 : norm2 (mulVecF fl A v - A *ᵥ v) ≤ 4 / 2 ^ 53 * norm2 (absM A *ᵥ fun i => |v i|) := by
    refine norm2_le_of_entries (by positivity) fun i => ?_
    have h := dotF_error hfl (fun k => A i k) v
    have e1 : (mulVecF fl A v - A *ᵥ v) i = dotF fl (fun k => A i k) v - dot3 (fun k => A i k) v := by
      simp [mulVecF, dot3, Matrix.mulVec, dotProduct, Fin.sum_univ_three]
    have e2 : (absM A *ᵥ fun i => |v i|) i = |A i 0| * |v 0| + |A i 1| * |v 1| + |A i 2| * |v 2| := by
      simp [absM, Matrix.mulVec, dotProduct, Fin.sum_univ_three]
    rw [e1, e2, abs_of_nonneg (show 0 ≤ |A i 0| * |v 0| + |A i 1| * |v 1| + |A i 2| * |v 2| by positivity)]
    exact h
  have h2 := norm2_mulVec_frob (absM A) (fun i => |v i|)
  rw [frob_absM, norm2_abs] at h2
  exact h1.trans (mul_le_mul_of_nonneg_left h2 (by positivity))

theorem addVecF_error (v w : Vec3 ℝ) : norm2 (addVecF fl v w - (v + w)) ≤ 1 / 2 ^ 53 * norm2 (v + w) := by
  refine norm2_le_of_entries (by positivity) fun i => ?_
  have := (hfl.bounds (v i + w i)).2
  simpa [addVecF] using this

theorem normF_error (v : Vec3 ℝ) : |normF fl v - norm2 v| ≤ 6 / 2 ^ 53 * norm2 v := by
  have h := dotF_error hfl v v
  have e : |v 0| * |v 0| + |v 1| * |v 1| + |v 2| * |v 2| = norm2 v ^ 2 := by
    rw [norm2_sq, dot3, abs_mul_abs_self, abs_mul_abs_self, abs_mul_abs_self]
  rw [e, ← norm2_sq] at h
  have hn := norm2_nonneg v
  generalize norm2 v = n at *
  rw [normF]
  generalize dotF fl v v = q at *
  have hq : 0 ≤ q := by
    have := (abs_le.1 h).1
    nlinarith [sq_nonneg n]
  have hs := Real.sqrt_nonneg q
  have hsq := Real.sq_sqrt hq
  obtain ⟨-, h3⟩ := hfl.bounds (√q)
  rw [abs_of_nonneg hs] at h3
  generalize √q = s at *
  rw [← hsq] at h
  have h4 : |s - n| ≤ 4 / 2 ^ 53 * n := by
    rcases hn.eq_or_lt with h0 | h0
    · rw [← h0] at h ⊢
      norm_num at h
      simp [h]
    · have e2 : s ^ 2 - n ^ 2 = (s - n) * (s + n) := by ring
      rw [e2, abs_mul, abs_of_nonneg (by linarith : 0 ≤ s + n)] at h
      have h5 : |s - n| * n ≤ |s - n| * (s + n) := mul_le_mul_of_nonneg_left (by linarith) (abs_nonneg _)
      have h6 : |s - n| * n ≤ (4 / 2 ^ 53 * n) * n := by nlinarith
      exact le_of_mul_le_mul_right h6 h0
  rw [abs_le] at *
  constructor <;> linarith [h3.1, h3.2, h4.1, h4.2]

theorem normalizeF_ok {M : Mat3 ℝ} (h0 : ∀ j, (fun i => M i j) ≠ 0) :
    ∃ N R, normalizeColumns M = .ok N ∧ normalizeF fl M = .ok R ∧ frob (R - N) ≤ 9 / 2 ^ 53 * frob N := by
  have hp : ∀ j, 0 < norm2 (fun i => M i j) := fun j => norm2_pos (h0 j)
  have hq : ∀ j, 0 < normF fl (fun i => M i j) := fun j => by
    have h1 := (abs_le.1 (normF_error hfl (fun i => M i j))).1
    have h2 := hp j
    norm_num at h1 ⊢
    linarith
  refine ⟨Matrix.of fun i j => M i j / norm2 fun i => M i j, Matrix.of fun i j => fl (M i j / normF fl fun i => M i j),
    ?_, if_pos (fun j => (hq j).ne'), ?_⟩
  · exact if_pos (fun j => (hp j).ne')
  · refine frob_le_of_entries (by positivity) fun i j => ?_
    simp only [Matrix.sub_apply, Matrix.of_apply]
    have h1 := normF_error hfl (fun i => M i j)
    have h2 := hp j
    have h3 := hq j
    generalize norm2 (fun i => M i j) = n at *
    generalize normF fl (fun i => M i j) = m at *
    obtain ⟨h4, h5⟩ := hfl.bounds (M i j / m)
    -- the quotient with the rounded norm
    have h6 : |M i j / m - M i j / n| ≤ 7 / 2 ^ 53 * |M i j / n| := by
      have e : M i j / m - M i j / n = (M i j / n) * ((n - m) / m) := by field_simp
      rw [e, abs_mul, mul_comm]
      refine mul_le_mul_of_nonneg_right ?_ (abs_nonneg _)
      rw [abs_div, abs_of_pos h3, div_le_iff₀ h3, abs_sub_comm]
      have h7 := (abs_le.1 h1).1
      refine h1.trans ?_
      norm_num at h7 ⊢
      linarith
    have h7 : |M i j / m| ≤ (1 + 7 / 2 ^ 53) * |M i j / n| := by
      have := abs_sub_abs_le_abs_sub (M i j / m) (M i j / n)
      linarith
    have h8 := abs_nonneg (M i j / n)
    generalize |M i j / n| = y at *
    generalize |M i j / m| = z at *
    generalize M i j / n = y' at *
    generalize M i j / m = z' at *
    rw [abs_le] at *
    constructor <;> linarith [h5.1, h5.2, h6.1, h6.2]

end

/-! ### normalisation of nearly orthogonal matrices -/

/-- Normalisation does not move a vector away from a unit vector, up to a factor that is nearly one. -/
theorem normalize_vec {v m : Vec3 ℝ} (hm : norm2 m = 1) {d : ℝ} (hd : norm2 (v - m) ≤ d) (hd1 : d ≤ 1 / 100) :
    v ≠ 0 ∧ norm2 ((fun i => v i / norm2 v) - m) ≤ norm2 (v - m) * (1 + d) := by
  have hd0 : 0 ≤ norm2 (v - m) := norm2_nonneg _
  set e := norm2 (v - m) with he
  have ha0 := norm2_nonneg v
  have hv : v ≠ 0 := by
    rintro rfl
    rw [zero_sub, norm2_neg, hm] at he
    linarith
  refine ⟨hv, ?_⟩
  have ha : 0 < norm2 v := norm2_pos hv
  have h1 : e ^ 2 = norm2 v ^ 2 - 2 * dot3 v m + 1 := by
    have : norm2 m ^ 2 = 1 := by rw [hm]; norm_num
    rw [norm2_sq] at this
    rw [he, norm2_sq, norm2_sq]
    simp only [dot3, Pi.sub_apply] at this ⊢
    linarith
  have h2 : norm2 ((fun i => v i / norm2 v) - m) ^ 2 * norm2 v = e ^ 2 - (norm2 v - 1) ^ 2 := by
    have h3 : norm2 m ^ 2 = 1 := by rw [hm]; norm_num
    have h4 := norm2_sq v
    rw [norm2_sq] at h3
    rw [h1, norm2_sq]
    simp only [dot3, Pi.sub_apply] at h3 h4 ⊢
    generalize norm2 v = a at *
    have h5 : (v 0 / a - m 0) * (v 0 / a - m 0) + (v 1 / a - m 1) * (v 1 / a - m 1) + (v 2 / a - m 2) * (v 2 / a - m 2) =
        (v 0 * v 0 + v 1 * v 1 + v 2 * v 2) / a ^ 2 - 2 * (v 0 * m 0 + v 1 * m 1 + v 2 * m 2) / a +
          (m 0 * m 0 + m 1 * m 1 + m 2 * m 2) := by
      field_simp; ring
    rw [h5, h3, ← h4]
    field_simp
    ring
  have h3 : 0 ≤ e ^ 2 - (norm2 v - 1) ^ 2 := by rw [← h2]; positivity
  have h4 : |norm2 v - 1| ≤ e := abs_le_of_sq_le_sq (by linarith) hd0
  have hdd : 0 ≤ d := hd0.trans hd
  refine norm2_le_of_sq (by positivity) ?_
  rw [← mul_le_mul_iff_left₀ ha, h2]
  generalize norm2 v = a at *
  have h5 := (abs_le.1 h4).1
  have h6 : e ^ 2 - (a - 1) ^ 2 ≤ (e * (1 + e)) ^ 2 * a := by
    rcases le_or_gt 1 a with h | h
    · nlinarith [sq_nonneg (a - 1), mul_nonneg hd0 hd0, mul_nonneg (mul_nonneg hd0 hd0) hd0,
        mul_le_mul_of_nonneg_left h (sq_nonneg (e * (1 + e))), mul_nonneg (mul_nonneg hd0 hd0) (mul_nonneg hd0 hd0)]
    · have h7 : 0 ≤ 1 - a := by linarith
      have h8 : 1 - a ≤ e := by linarith
      have h9 : 1 ≤ (1 + e) ^ 2 * a := by nlinarith [mul_nonneg hd0 hd0, mul_nonneg (mul_nonneg hd0 hd0) hd0]
      have h10 := mul_le_mul_of_nonneg_left h9 (sq_nonneg e)
      nlinarith [sq_nonneg (a - 1)]
  refine h6.trans ?_
  refine mul_le_mul_of_nonneg_right ?_ ha.le
  refine pow_le_pow_left₀ (by positivity) ?_ 2
  exact mul_le_mul_of_nonneg_left (by linarith) hd0

theorem normalize_near {M Q : Mat3 ℝ} (hQ : Qᵀ * Q = 1) {e : ℝ} (he : frob (M - Q) ≤ e) (he1 : e ≤ 1 / 100) :
    (∀ j, (fun i => M i j) ≠ 0) ∧ ∀ N, normalizeColumns M = .ok N → frob (N - Q) ≤ e * (1 + e) ∧
      ∀ j, norm2 (fun i => N i j) = 1 := by
  have h0 := frob_nonneg (M - Q)
  have hcol : ∀ j, norm2 ((fun i => M i j) - fun i => Q i j) ≤ e := by
    intro j
    refine le_trans ?_ he
    refine norm2_le_of_sq h0 ?_
    rw [frob_cols]
    exact Finset.single_le_sum (f := fun j => norm2 (fun i => (M - Q) i j) ^ 2) (fun _ _ => sq_nonneg _) (Finset.mem_univ j)
  have hz := fun j => (normalize_vec (col_unit hQ j) (hcol j) he1).1
  refine ⟨hz, fun N hN => ⟨?_, fun j => ?_⟩⟩
  · rcases normalize_cases M with ⟨⟨j, hj⟩, -⟩ | ⟨-, h'⟩
    · exact absurd hj (hz j)
    rw [h'] at hN
    cases hN
    have h1 : frob (Matrix.of (fun i j => M i j / norm2 fun i => M i j) - Q) ^ 2 ≤ (frob (M - Q) * (1 + e)) ^ 2 := by
      rw [frob_cols, mul_pow, frob_cols, Finset.sum_mul]
      refine Finset.sum_le_sum fun j _ => ?_
      rw [← mul_pow]
      exact pow_le_pow_left₀ (norm2_nonneg _) (normalize_vec (col_unit hQ j) (hcol j) he1).2 2
    have h2 := (abs_le_of_sq_le_sq' h1 (mul_nonneg h0 (by linarith))).2
    refine h2.trans (mul_le_mul_of_nonneg_right he (by linarith))
  · have h1 := gram_unit hN j
    rw [gram_col, ← norm2_sq] at h1
    have := norm2_nonneg fun i => N i j
    nlinarith

/-! ### the constructor -/

section
variable {fl : ℝ → ℝ} (hfl : Rounding fl)

include hfl

/-- A matrix that is close to an orthogonal one is accepted by the constructor and stays as close to it, up
to the rounding errors. -/
theorem constructF_near {M Q : Mat3 ℝ} (hQ : Qᵀ * Q = 1) (T : Vec3 ℝ) {e : ℝ} (he : frob (M - Q) ≤ e)
    (he1 : e ≤ 4 / 10 ^ 9) :
    ∃ R, constructF fl M T = .ok ⟨R, T⟩ ∧ frob (R - Q) ≤ e * (1 + e) + 16 / 2 ^ 53 := by
  have he0 : 0 ≤ e := (frob_nonneg _).trans he
  obtain ⟨hz, hnorm⟩ := normalize_near hQ he (by norm_num at he1 ⊢; linarith)
  obtain ⟨N, R, hN, hR, hd⟩ := normalizeF_ok hfl hz
  obtain ⟨h1, h2⟩ := hnorm N hN
  have h3 := frob_unit_cols h2
  have h4 : frob (R - Q) ≤ e * (1 + e) + 16 / 2 ^ 53 := by
    have := frob_add (R - N) (N - Q)
    rw [show R - N + (N - Q) = R - Q by abel] at this
    norm_num at hd ⊢
    linarith
  refine ⟨R, ?_, h4⟩
  have hsmall : frob (R - Q) ≤ 41 / 10 ^ 10 := by
    norm_num at he1 h4 ⊢
    nlinarith
  have hFQ : frob Q ≤ 1733 / 1000 := frob_unit_cols (col_unit hQ)
  have hFR : frob R ≤ 1734 / 1000 := by
    have := frob_sub_le R Q
    norm_num at hsmall ⊢
    linarith
  have hok : nearlyOrthogonalF fl R := by
    intro i j
    -- distance of the rounded product from the unit matrix
    have hQ' : Q * Qᵀ = 1 := mul_eq_one_comm.1 hQ
    have g1 : R * Rᵀ - 1 = (R - Q) * Qᵀ + Q * (R - Q)ᵀ + (R - Q) * (R - Q)ᵀ := by
      rw [Matrix.transpose_sub, Matrix.mul_sub, Matrix.mul_sub, Matrix.sub_mul, Matrix.sub_mul, hQ']
      abel
    have g2 : frob (R * Rᵀ - 1) ≤ 83 / 10 ^ 10 := by
      rw [g1]
      have a1 := frob_add ((R - Q) * Qᵀ + Q * (R - Q)ᵀ) ((R - Q) * (R - Q)ᵀ)
      have a2 := frob_add ((R - Q) * Qᵀ) (Q * (R - Q)ᵀ)
      have a3 : frob ((R - Q) * Qᵀ) = frob (R - Q) :=
        frob_orth_right (by rw [Matrix.transpose_transpose]; exact hQ') _
      have a4 : frob (Q * (R - Q)ᵀ) = frob (R - Q) := by rw [frob_orth_left hQ, frob_transpose]
      have a5 := frob_mul (R - Q) (R - Q)ᵀ
      rw [frob_transpose] at a5
      have a6 := frob_nonneg (R - Q)
      rw [a3, a4] at a2
      refine a1.trans ?_
      generalize frob (R - Q) = x at *
      generalize frob ((R - Q) * Qᵀ + Q * (R - Q)ᵀ) = y at *
      generalize frob ((R - Q) * (R - Q)ᵀ) = z at *
      norm_num at hsmall ⊢
      nlinarith
    have g3 : frob (mulF fl R Rᵀ - R * Rᵀ) ≤ 1 / 10 ^ 14 := by
      refine (mulF_error hfl R Rᵀ).trans ?_
      rw [frob_transpose]
      have := frob_nonneg R
      norm_num at hFR ⊢
      nlinarith
    have g4 : |mulF fl R Rᵀ i j - (1 : Mat3 ℝ) i j| ≤ 84 / 10 ^ 10 := by
      have b1 := entry_le_frob (mulF fl R Rᵀ - 1) i j
      rw [Matrix.sub_apply] at b1
      have b2 := frob_add (mulF fl R Rᵀ - R * Rᵀ) (R * Rᵀ - 1)
      rw [show mulF fl R Rᵀ - R * Rᵀ + (R * Rᵀ - 1) = mulF fl R Rᵀ - 1 by abel] at b2
      norm_num at g2 g3 ⊢
      linarith
    rw [nearlyF]
    have c1 := (hfl.bounds (mulF fl R Rᵀ i j - (1 : Mat3 ℝ) i j)).1
    have c2 : (1 - 1 / 2 ^ 53) * (1 / 10 ^ 8) ≤ fl (1 / 10 ^ 8) := hfl.nonneg (by positivity)
    have c3 : (1 - 1 / 2 ^ 53) * (1 / 10 ^ 5) ≤ fl (1 / 10 ^ 5) := hfl.nonneg (by positivity)
    have c4 : 0 ≤ fl (1 / 10 ^ 5) * |(1 : Mat3 ℝ) i j| :=
      mul_nonneg (by norm_num at c3 ⊢; linarith) (abs_nonneg _)
    have c5 := hfl.nonneg c4
    have c6 : 0 ≤ fl (fl (1 / 10 ^ 5) * |(1 : Mat3 ℝ) i j|) :=
      le_trans (mul_nonneg (by norm_num) c4) c5
    have c7 : 0 ≤ fl (1 / 10 ^ 8) + fl (fl (1 / 10 ^ 5) * |(1 : Mat3 ℝ) i j|) := by
      norm_num at c2 ⊢; linarith
    have c8 := hfl.nonneg c7
    norm_num at c1 c2 c6 c8 g4 ⊢
    linarith
  rw [constructF, checkF, hR]
  simp [hok]

end

end Weldx
