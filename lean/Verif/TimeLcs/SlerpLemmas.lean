import Verif.TimeLcs.Slerp

/-!
# Rotations about axes
-/

namespace Weldx.Turn

open Matrix Real

/-- vectors of length one -/
def Unit3 (a : Vec3 ℝ) : Prop := dot3 a a = 1

theorem Unit3.eq {a : Vec3 ℝ} (h : Unit3 a) : a 0 * a 0 + a 1 * a 1 + a 2 * a 2 = 1 := h

theorem skew_skew {a : Vec3 ℝ} (h : Unit3 a) : skew a * skew a = proj a - 1 := by
  have h := h.eq
  ext i j
  fin_cases i <;> fin_cases j <;> simp [skew, proj, Matrix.mul_apply, Fin.sum_univ_three] <;> linarith

theorem skew_proj (a : Vec3 ℝ) : skew a * proj a = 0 := by
  ext i j
  fin_cases i <;> fin_cases j <;> simp [skew, proj, Matrix.mul_apply, Fin.sum_univ_three] <;> ring

theorem proj_skew (a : Vec3 ℝ) : proj a * skew a = 0 := by
  ext i j
  fin_cases i <;> fin_cases j <;> simp [skew, proj, Matrix.mul_apply, Fin.sum_univ_three] <;> ring

theorem proj_proj {a : Vec3 ℝ} (h : Unit3 a) : proj a * proj a = proj a := by
  have h := h.eq
  ext i j
  simp only [proj, Matrix.mul_apply, Fin.sum_univ_three, Matrix.of_apply]
  linear_combination a i * a j * h

theorem about_mul {a : Vec3 ℝ} (h : Unit3 a) (s t : ℝ) : about a s * about a t = about a (s + t) := by
  unfold about
  simp only [add_mul, mul_add, smul_mul_smul_comm, one_mul, mul_one, skew_skew h, skew_proj, proj_skew, proj_proj h, cos_add, sin_add,
    smul_zero, smul_sub]
  module

theorem about_zero (a : Vec3 ℝ) : about a 0 = 1 := by simp [about]

theorem about_neg (a : Vec3 ℝ) (t : ℝ) : about (-a) t = about a (-t) := by
  have h1 : skew (-a) = -skew a := by ext i j; fin_cases i <;> fin_cases j <;> simp [skew]
  have h2 : proj (-a) = proj a := by ext i j; simp [proj]
  simp [about, h1, h2]

theorem about_transpose (a : Vec3 ℝ) (t : ℝ) : (about a t)ᵀ = about a (-t) := by
  have h1 : (skew a)ᵀ = -skew a := by ext i j; fin_cases i <;> fin_cases j <;> simp [skew]
  have h2 : (proj a)ᵀ = proj a := by ext i j; simp [proj, mul_comm]
  simp [about, h1, h2]

theorem about_rotation {a : Vec3 ℝ} (h : Unit3 a) (t : ℝ) : Rotation (about a t) := by
  have ho : ∀ t, about a t * (about a t)ᵀ = 1 := fun t => by rw [about_transpose, about_mul h, add_neg_cancel, about_zero]
  refine ⟨ho t, ?_⟩
  have h2 : about a t = about a (t / 2) * about a (t / 2) := by rw [about_mul h]; ring_nf
  have h3 := congrArg Matrix.det (ho (t / 2))
  rw [Matrix.det_mul, Matrix.det_transpose, Matrix.det_one] at h3
  rw [h2, Matrix.det_mul, h3]

theorem about_trace {a : Vec3 ℝ} (h : Unit3 a) (t : ℝ) : (about a t).trace = 1 + 2 * cos t := by
  have h := h.eq
  simp [about, skew, proj, Matrix.trace, Fin.sum_univ_three]
  linear_combination (1 - cos t) * h

/-- vectors along the axis do not move -/
theorem about_axis {a : Vec3 ℝ} (h : Unit3 a) (t : ℝ) : about a t *ᵥ a = a := by
  have h := h.eq
  funext i
  fin_cases i <;> simp [about, skew, proj, Matrix.mulVec, dotProduct, Fin.sum_univ_three, Matrix.one_apply]
  · linear_combination (1 - cos t) * a 0 * h
  · linear_combination (1 - cos t) * a 1 * h
  · linear_combination (1 - cos t) * a 2 * h

/-! ## Rotation vectors -/

theorem unit_norm {a : Vec3 ℝ} (h : Unit3 a) : norm2 a = 1 := by
  have := norm2_sq a
  rw [h] at this
  have h0 := norm2_nonneg a
  nlinarith

theorem norm2_smul (t : ℝ) (a : Vec3 ℝ) : norm2 (t • a) = |t| * norm2 a := by
  have h1 : norm2 (t • a) ^ 2 = (|t| * norm2 a) ^ 2 := by
    rw [mul_pow, norm2_sq, norm2_sq, sq_abs]
    simp only [dot3, Pi.smul_apply, smul_eq_mul]
    ring
  exact (pow_left_inj₀ (norm2_nonneg _) (mul_nonneg (abs_nonneg _) (norm2_nonneg _)) (by norm_num)).1 h1

theorem exists_axis (v : Vec3 ℝ) : ∃ a, Unit3 a ∧ v = norm2 v • a := by
  by_cases h : v = 0
  · subst h
    exact ⟨![1, 0, 0], by simp [Unit3, dot3], by simp [norm2]⟩
  · have h0 : norm2 v ≠ 0 := fun h' => h ((norm2_eq_zero_iff v).1 h')
    refine ⟨(norm2 v)⁻¹ • v, ?_, by rw [smul_smul, mul_inv_cancel₀ h0, one_smul]⟩
    have := norm2_sq v
    unfold Unit3
    simp only [dot3, Pi.smul_apply, smul_eq_mul] at this ⊢
    field_simp
    linarith

theorem fromRotvec_axis {a : Vec3 ℝ} (h : Unit3 a) (t : ℝ) : fromRotvec (t • a) = about a t := by
  unfold fromRotvec
  have ha : a ≠ 0 := by
    rintro rfl
    simp [Unit3, dot3] at h
  rcases lt_trichotomy t 0 with ht | rfl | ht
  · rw [if_neg (smul_ne_zero ht.ne ha), norm2_smul, unit_norm h, mul_one, abs_of_neg ht, smul_smul]
    have : (-t)⁻¹ * t = -1 := by rw [inv_neg, neg_mul, inv_mul_cancel₀ ht.ne]
    rw [this, neg_one_smul, about_neg, neg_neg]
  · rw [zero_smul, if_pos rfl, about_zero]
  · rw [if_neg (smul_ne_zero ht.ne' ha), norm2_smul, unit_norm h, mul_one, abs_of_pos ht, smul_smul, inv_mul_cancel₀ ht.ne', one_smul]

theorem fromRotvec_rotation (v : Vec3 ℝ) : Rotation (fromRotvec v) := by
  obtain ⟨a, ha, hv⟩ := exists_axis v
  rw [hv, fromRotvec_axis ha]
  exact about_rotation ha _

theorem fromRotvec_zero : fromRotvec 0 = 1 := by simp [fromRotvec]

/-! ## Rotation vectors of rotations -/

theorem rotation_adjugate {R : Mat3 ℝ} (h : Rotation R) : Rᵀ = R.adjugate := by
  obtain ⟨h, hd⟩ := h
  have h1 : R.adjugate * R = 1 := by rw [Matrix.adjugate_mul, hd, one_smul]
  calc Rᵀ = R.adjugate * R * Rᵀ := by rw [h1, one_mul]
    _ = R.adjugate := by rw [mul_assoc, h, mul_one]

/-- each entry of a rotation is its minor -/
theorem rotation_minors {R : Mat3 ℝ} (h : Rotation R) :
    R 0 0 = R 1 1 * R 2 2 - R 1 2 * R 2 1 ∧ R 0 1 = R 1 2 * R 2 0 - R 1 0 * R 2 2 ∧ R 0 2 = R 1 0 * R 2 1 - R 1 1 * R 2 0 ∧
    R 1 0 = R 0 2 * R 2 1 - R 0 1 * R 2 2 ∧ R 1 1 = R 0 0 * R 2 2 - R 0 2 * R 2 0 ∧ R 1 2 = R 0 1 * R 2 0 - R 0 0 * R 2 1 ∧
    R 2 0 = R 0 1 * R 1 2 - R 0 2 * R 1 1 ∧ R 2 1 = R 0 2 * R 1 0 - R 0 0 * R 1 2 ∧ R 2 2 = R 0 0 * R 1 1 - R 0 1 * R 1 0 := by
  have h := rotation_adjugate h
  rw [Matrix.adjugate_fin_three] at h
  have e := fun i j => congrFun (congrFun h i) j
  have e00 := e 0 0; have e01 := e 0 1; have e02 := e 0 2
  have e10 := e 1 0; have e11 := e 1 1; have e12 := e 1 2
  have e20 := e 2 0; have e21 := e 2 1; have e22 := e 2 2
  simp at e00 e01 e02 e10 e11 e12 e20 e21 e22
  refine ⟨?_, ?_, ?_, ?_, ?_, ?_, ?_, ?_, ?_⟩ <;> linarith

theorem rotation_left {R : Mat3 ℝ} (h : Rotation R) : Rᵀ * R = 1 := mul_eq_one_comm.1 h.1

theorem rotation_transpose {R : Mat3 ℝ} (h : Rotation R) : Rotation Rᵀ :=
  ⟨by rw [Matrix.transpose_transpose]; exact rotation_left h, by rw [Matrix.det_transpose]; exact h.2⟩

theorem rotation_mul {R Q : Mat3 ℝ} (h : Rotation R) (g : Rotation Q) : Rotation (R * Q) :=
  ⟨by rw [Matrix.transpose_mul, Matrix.mul_assoc, ← Matrix.mul_assoc Q, g.1, Matrix.one_mul, h.1], by rw [Matrix.det_mul, h.2, g.2, one_mul]⟩

/-- the cosine of the angle -/
noncomputable def cosine (R : Mat3 ℝ) : ℝ := (R.trace - 1) / 2

/-- the axis times the sine of the angle -/
noncomputable def sineAxis (R : Mat3 ℝ) : Vec3 ℝ := ![(R 2 1 - R 1 2) / 2, (R 0 2 - R 2 0) / 2, (R 1 0 - R 0 1) / 2]

set_option maxHeartbeats 2000000 in
theorem sineAxis_mul {R : Mat3 ℝ} (h : Rotation R) (i j : Fin 3) : sineAxis R i * sineAxis R j =
    (1 + cosine R) * ((R i j + R j i) / 2 - if i = j then cosine R else 0) := by
  obtain ⟨m00, m01, m02, m10, m11, m12, m20, m21, m22⟩ := rotation_minors h
  have r := fun i j => congrFun (congrFun h.1 i) j
  have c := fun i j => congrFun (congrFun (rotation_left h) i) j
  have r00 := r 0 0; have r11 := r 1 1; have r22 := r 2 2; have r01 := r 0 1; have r02 := r 0 2; have r12 := r 1 2
  have c00 := c 0 0; have c11 := c 1 1; have c22 := c 2 2; have c01 := c 0 1; have c02 := c 0 2; have c12 := c 1 2
  simp [Matrix.mul_apply, Fin.sum_univ_three] at r00 r11 r22 r01 r02 r12 c00 c11 c22 c01 c02 c12
  fin_cases i <;> fin_cases j <;> simp [sineAxis, cosine, Matrix.trace, Fin.sum_univ_three] <;> linarith

theorem sineAxis_sq {R : Mat3 ℝ} (h : Rotation R) : norm2 (sineAxis R) ^ 2 = 1 - cosine R ^ 2 := by
  have h0 := sineAxis_mul h 0 0
  have h1 := sineAxis_mul h 1 1
  have h2 := sineAxis_mul h 2 2
  simp only [if_true] at h0 h1 h2
  rw [norm2_sq, dot3, h0, h1, h2]
  simp only [cosine, Matrix.trace, Matrix.diag, Fin.sum_univ_three]
  ring

theorem matrix_parts (R : Mat3 ℝ) (i j : Fin 3) : R i j = (R i j + R j i) / 2 + skew (sineAxis R) i j := by
  fin_cases i <;> fin_cases j <;> simp [skew, sineAxis] <;> ring

/-- a rotation by a half turn -/
theorem halfturn_axis {R : Mat3 ℝ} (h : Rotation R) (hw : sineAxis R = 0) (hc : cosine R = -1) : ∃ a, Unit3 a ∧ R = about a π := by
  obtain ⟨m00, m01, m02, m10, m11, m12, m20, m21, m22⟩ := rotation_minors h
  have w0 := congrFun hw 0
  have w1 := congrFun hw 1
  have w2 := congrFun hw 2
  simp [sineAxis] at w0 w1 w2
  have s12 : R 2 1 = R 1 2 := by linarith
  have s02 : R 2 0 = R 0 2 := by linarith
  have s01 : R 1 0 = R 0 1 := by linarith
  have tr : R 0 0 + R 1 1 + R 2 2 = -1 := by
    simp only [cosine, Matrix.trace, Matrix.diag, Fin.sum_univ_three] at hc
    linarith
  simp only [s12, s02, s01] at m00 m01 m02 m10 m11 m12 m20 m21 m22
  set M : Mat3 ℝ := Matrix.of fun i j => (R i j + if i = j then 1 else 0) / 2 with hM
  have key : ∀ i j k, M i k * M j k = M i j * M k k := by
    intro i j k
    fin_cases i <;> fin_cases j <;> fin_cases k <;> simp [hM, s01, s02, s12] <;> linarith
  have htr : M 0 0 + M 1 1 + M 2 2 = 1 := by simp [hM]; linarith
  obtain ⟨k, hk⟩ : ∃ k, 0 < M k k := by
    by_contra hn
    push Not at hn
    have := hn 0; have := hn 1; have := hn 2
    linarith
  have hsq : √(M k k) * √(M k k) = M k k := Real.mul_self_sqrt hk.le
  have hs : √(M k k) ≠ 0 := (Real.sqrt_pos.2 hk).ne'
  have hmul : ∀ i j, M i k / √(M k k) * (M j k / √(M k k)) = M i j := fun i j => by
    rw [div_mul_div_comm, hsq, key, mul_div_cancel_right₀ _ hk.ne']
  refine ⟨fun i => M i k / √(M k k), ?_, ?_⟩
  · rw [Unit3, dot3, hmul, hmul, hmul]
    exact htr
  · ext i j
    have e : proj (fun i => M i k / √(M k k)) i j = M i j := hmul i j
    simp only [about, Real.cos_pi, Real.sin_pi, Matrix.add_apply, Matrix.smul_apply, zero_smul, Matrix.zero_apply, e, smul_eq_mul]
    simp only [hM, Matrix.of_apply, Matrix.one_apply]
    split <;> simp <;> ring

theorem pm_one {x : ℝ} (h : x ^ 2 = 1) : x = 1 ∨ x = -1 := by
  have : (x - 1) * (x + 1) = 0 := by linarith
  rcases mul_eq_zero.1 this with h' | h'
  · exact Or.inl (by linarith)
  · exact Or.inr (by linarith)

/-- Euler's theorem: each rotation is a rotation about an axis by at most a half turn -/
theorem rotation_axis {R : Mat3 ℝ} (h : Rotation R) : ∃ a t, Unit3 a ∧ 0 ≤ t ∧ t ≤ π ∧ R = about a t := by
  have hsq := sineAxis_sq h
  have hn := norm2_nonneg (sineAxis R)
  by_cases hw : sineAxis R = 0
  · have h0 : cosine R ^ 2 = 1 := by
      rw [hw] at hsq
      have : norm2 (0 : Vec3 ℝ) = 0 := by simp [norm2]
      rw [this] at hsq
      linarith
    rcases pm_one h0 with hc | hc
    · refine ⟨![1, 0, 0], 0, by simp [Unit3, dot3], le_rfl, Real.pi_pos.le, ?_⟩
      rw [about_zero]
      ext i j
      have h1 := sineAxis_mul h i j
      rw [hw, hc] at h1
      rw [matrix_parts R i j, hw]
      have h2 : skew 0 i j = 0 := by fin_cases i <;> fin_cases j <;> simp [skew]
      rw [h2, Matrix.one_apply]
      simp only [Pi.zero_apply, mul_zero] at h1
      linarith
    · obtain ⟨a, ha, hR⟩ := halfturn_axis h hw hc
      exact ⟨a, π, ha, Real.pi_pos.le, le_rfl, hR⟩
  · have hpos : 0 < norm2 (sineAxis R) := lt_of_le_of_ne hn fun h' => hw ((norm2_eq_zero_iff _).1 h'.symm)
    have hc : cosine R ^ 2 < 1 := by nlinarith
    have hc1 : -1 < cosine R ∧ cosine R < 1 := by constructor <;> nlinarith
    have hcos : cos (arccos (cosine R)) = cosine R := Real.cos_arccos hc1.1.le hc1.2.le
    have hsin : sin (arccos (cosine R)) = norm2 (sineAxis R) := by
      rw [Real.sin_arccos, ← hsq, Real.sqrt_sq hn]
    refine ⟨(norm2 (sineAxis R))⁻¹ • sineAxis R, arccos (cosine R), ?_, Real.arccos_nonneg _, Real.arccos_le_pi _, ?_⟩
    · have := norm2_sq (sineAxis R)
      unfold Unit3
      simp only [dot3, Pi.smul_apply, smul_eq_mul] at this ⊢
      field_simp
      linarith
    · ext i j
      have h1 := sineAxis_mul h i j
      have h2 : norm2 (sineAxis R) • skew ((norm2 (sineAxis R))⁻¹ • sineAxis R) = skew (sineAxis R) := by
        ext i j
        fin_cases i <;> fin_cases j <;> simp [skew] <;> field_simp
      rw [about, hcos, hsin, h2, Matrix.add_apply, Matrix.add_apply, Matrix.smul_apply, Matrix.smul_apply, Matrix.one_apply]
      have h3 : (1 - cosine R) * (((norm2 (sineAxis R))⁻¹ * sineAxis R i) * ((norm2 (sineAxis R))⁻¹ * sineAxis R j)) =
          (R i j + R j i) / 2 - if i = j then cosine R else 0 := by
        have : (1 - cosine R) * (((norm2 (sineAxis R))⁻¹ * sineAxis R i) * ((norm2 (sineAxis R))⁻¹ * sineAxis R j)) =
            (1 - cosine R) * (sineAxis R i * sineAxis R j) / norm2 (sineAxis R) ^ 2 := by field_simp
        rw [this, h1, hsq]
        have hne : 1 - cosine R ^ 2 ≠ 0 := by linarith
        rw [div_eq_iff hne]
        ring
      simp only [proj, Matrix.of_apply, Pi.smul_apply, smul_eq_mul] at h3 ⊢
      have hp := matrix_parts R i j
      rw [h3]
      split <;> linarith

/-- rotation vectors of all rotations exist -/
theorem exists_rotvec {R : Mat3 ℝ} (h : Rotation R) : ∃ v, fromRotvec v = R ∧ norm2 v ≤ π := by
  obtain ⟨a, t, ha, h0, h1, hR⟩ := rotation_axis h
  exact ⟨t • a, by rw [fromRotvec_axis ha, hR], by rw [norm2_smul, unit_norm ha, mul_one, abs_of_nonneg h0]; exact h1⟩

theorem about_cosine {a : Vec3 ℝ} (h : Unit3 a) (t : ℝ) : cosine (about a t) = cos t := by
  rw [cosine, about_trace h]; ring

theorem about_sineAxis (a : Vec3 ℝ) (t : ℝ) : sineAxis (about a t) = sin t • a := by
  funext i
  fin_cases i <;> simp [sineAxis, about, skew, proj] <;> ring

/-- the rotation vector of a rotation by less than a half turn is unique -/
theorem axis_unique {a b : Vec3 ℝ} {s t : ℝ} (ha : Unit3 a) (hb : Unit3 b) (hs : 0 ≤ s) (hs' : s ≤ π) (ht : 0 ≤ t) (ht' : t ≤ π)
    (h : about a s = about b t) : s = t ∧ (s = 0 ∨ a = b ∨ s = π ∧ a = -b) := by
  have hc : cos s = cos t := by rw [← about_cosine ha, h, about_cosine hb]
  have hst : s = t := Real.injOn_cos ⟨hs, hs'⟩ ⟨ht, ht'⟩ hc
  subst hst
  refine ⟨rfl, ?_⟩
  rcases hs.eq_or_lt with h0 | h0
  · exact Or.inl h0.symm
  right
  rcases hs'.lt_or_eq with hp | hp
  · left
    have h1 : sin s • a = sin s • b := by rw [← about_sineAxis, h, about_sineAxis]
    exact smul_right_injective _ (Real.sin_pos_of_pos_of_lt_pi h0 hp).ne' h1
  · subst hp
    have h1 : ∀ i j, a i * a j = b i * b j := by
      intro i j
      have := congrFun (congrFun h i) j
      simp [about, proj] at this
      linarith
    obtain ⟨k, hk⟩ : ∃ k, b k ≠ 0 := by
      by_contra hn
      push Not at hn
      have := hb.eq
      simp [hn] at this
    have h2 := h1 k k
    rcases mul_self_eq_mul_self_iff.1 h2 with h3 | h3
    · left
      funext i
      have := h1 i k
      rw [h3] at this
      exact mul_right_cancel₀ hk this
    · right
      refine ⟨rfl, ?_⟩
      funext i
      have := h1 i k
      rw [h3] at this
      have : -a i * b k = b i * b k := by linarith
      have := mul_right_cancel₀ hk this
      simp only [Pi.neg_apply]
      linarith

theorem rotvec_unique {v u : Vec3 ℝ} (hv : norm2 v ≤ π) (hu : norm2 u ≤ π) (h : fromRotvec v = fromRotvec u) :
    v = u ∨ norm2 v = π ∧ v = -u := by
  obtain ⟨a, ha, hva⟩ := exists_axis v
  obtain ⟨b, hb, hub⟩ := exists_axis u
  rw [hva, hub, fromRotvec_axis ha, fromRotvec_axis hb] at h
  obtain ⟨h1, h2⟩ := axis_unique ha hb (norm2_nonneg v) hv (norm2_nonneg u) hu h
  rcases h2 with h2 | h2 | ⟨h2, h3⟩
  · left; rw [hva, hub, ← h1, h2, zero_smul, zero_smul]
  · left; rw [hva, hub, ← h1, h2]
  · right; exact ⟨h2, by rw [hva, hub, ← h1, h3, smul_neg]⟩

/-- rotations turn axes -/
theorem skew_conj {Q : Mat3 ℝ} (h : Rotation Q) (a : Vec3 ℝ) : Q * skew a = skew (Q *ᵥ a) * Q := by
  obtain ⟨m00, m01, m02, m10, m11, m12, m20, m21, m22⟩ := rotation_minors h
  ext i j
  fin_cases i <;> fin_cases j <;>
    simp [skew, Matrix.mul_apply, Fin.sum_univ_three, Matrix.mulVec, dotProduct]
  · linear_combination a 2 * m01 - a 1 * m02
  · linear_combination a 0 * m02 - a 2 * m00
  · linear_combination a 1 * m00 - a 0 * m01
  · linear_combination a 2 * m11 - a 1 * m12
  · linear_combination a 0 * m12 - a 2 * m10
  · linear_combination a 1 * m10 - a 0 * m11
  · linear_combination a 2 * m21 - a 1 * m22
  · linear_combination a 0 * m22 - a 2 * m20
  · linear_combination a 1 * m20 - a 0 * m21

theorem proj_conj {Q : Mat3 ℝ} (h : Rotation Q) (a : Vec3 ℝ) : Q * proj a = proj (Q *ᵥ a) * Q := by
  have h' := rotation_left h
  have e : ∀ i j, ∑ k, Q k i * Q k j = if i = j then 1 else 0 := fun i j => by
    have := congrFun (congrFun h' i) j
    simpa [Matrix.mul_apply, Matrix.one_apply] using this
  ext i j
  have e0 := e 0 j; have e1 := e 1 j; have e2 := e 2 j
  simp only [Fin.sum_univ_three] at e0 e1 e2
  simp only [proj, Matrix.mul_apply, Fin.sum_univ_three, Matrix.mulVec, dotProduct, Matrix.of_apply]
  have ej : a j = a 0 * (if (0 : Fin 3) = j then 1 else 0) + a 1 * (if (1 : Fin 3) = j then 1 else 0) + a 2 * (if (2 : Fin 3) = j then 1 else 0) := by
    fin_cases j <;> simp
  rw [← e0, ← e1, ← e2] at ej
  linear_combination (Q i 0 * a 0 + Q i 1 * a 1 + Q i 2 * a 2) * ej

theorem about_conj {Q : Mat3 ℝ} (h : Rotation Q) (a : Vec3 ℝ) (t : ℝ) : Q * about a t = about (Q *ᵥ a) t * Q := by
  simp only [about, mul_add, add_mul, Matrix.mul_smul, Matrix.smul_mul, skew_conj h, proj_conj h, mul_one, one_mul]

theorem rotation_dot {Q : Mat3 ℝ} (h : Rotation Q) (a : Vec3 ℝ) : dot3 (Q *ᵥ a) (Q *ᵥ a) = dot3 a a := by
  have h' := rotation_left h
  have e : ∀ i j, ∑ k, Q k i * Q k j = if i = j then 1 else 0 := fun i j => by
    have := congrFun (congrFun h' i) j
    simpa [Matrix.mul_apply, Matrix.one_apply] using this
  have e00 := e 0 0; have e01 := e 0 1; have e02 := e 0 2; have e11 := e 1 1; have e12 := e 1 2; have e22 := e 2 2
  simp [Fin.sum_univ_three] at e00 e01 e02 e11 e12 e22
  simp only [dot3, Matrix.mulVec, dotProduct, Fin.sum_univ_three]
  linear_combination a 0 * a 0 * e00 + 2 * a 0 * a 1 * e01 + 2 * a 0 * a 2 * e02 + a 1 * a 1 * e11 + 2 * a 1 * a 2 * e12 + a 2 * a 2 * e22

theorem rotation_norm {Q : Mat3 ℝ} (h : Rotation Q) (a : Vec3 ℝ) : norm2 (Q *ᵥ a) = norm2 a := by
  have h1 : norm2 (Q *ᵥ a) ^ 2 = norm2 a ^ 2 := by rw [norm2_sq, norm2_sq, rotation_dot h]
  exact (pow_left_inj₀ (norm2_nonneg _) (norm2_nonneg _) (by norm_num)).1 h1

theorem fromRotvec_conj {Q : Mat3 ℝ} (h : Rotation Q) (v : Vec3 ℝ) : Q * fromRotvec v = fromRotvec (Q *ᵥ v) * Q := by
  obtain ⟨a, ha, hv⟩ := exists_axis v
  have hb : Unit3 (Q *ᵥ a) := by rw [Unit3, rotation_dot h]; exact ha
  rw [hv, fromRotvec_axis ha, Matrix.mulVec_smul, fromRotvec_axis hb, about_conj h]

theorem fromRotvec_smul_mul (v : Vec3 ℝ) (s t : ℝ) : fromRotvec (s • v) * fromRotvec (t • v) = fromRotvec ((s + t) • v) := by
  obtain ⟨a, ha, hv⟩ := exists_axis v
  rw [hv, smul_smul, smul_smul, smul_smul, fromRotvec_axis ha, fromRotvec_axis ha, fromRotvec_axis ha, about_mul ha]
  ring_nf

theorem fromRotvec_neg (v : Vec3 ℝ) : fromRotvec (-v) = (fromRotvec v)ᵀ := by
  obtain ⟨a, ha, hv⟩ := exists_axis v
  rw [hv, ← neg_smul, fromRotvec_axis ha, fromRotvec_axis ha, about_transpose]

end Weldx.Turn
