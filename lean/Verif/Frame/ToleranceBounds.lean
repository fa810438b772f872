import Verif.Frame.ToleranceProps

/-!
# Calculations with systems that are orthogonal up to a tolerance (C94)
-/

namespace Weldx

open Matrix

theorem accepted_defect {M : Mat3 ℝ} {T : Vec3 ℝ} {f : Lcs ℝ} (h : constructTol M T = .ok f) :
    defect f.orientation ≤ 1416 / 10 ^ 8 := by
  have h1 := accepted_defect_sq h
  apply (abs_le_of_sq_le_sq' _ (by norm_num)).2
  refine h1.trans ?_
  norm_num

/-! ## Lengths of vectors -/

theorem norm2_sum (v : Vec3 ℝ) : norm2 v ^ 2 = ∑ i, v i ^ 2 := by
  rw [norm2_sq, dot3, Fin.sum_univ_three]; ring

theorem norm2_le_of_sq {v : Vec3 ℝ} {c : ℝ} (hc : 0 ≤ c) (h : norm2 v ^ 2 ≤ c ^ 2) : norm2 v ≤ c :=
  (abs_le_of_sq_le_sq' h hc).2

theorem dot3_le (u v : Vec3 ℝ) : dot3 u v ≤ norm2 u * norm2 v := by
  have h := Finset.sum_mul_sq_le_sq_mul_sq (Finset.univ : Finset (Fin 3)) u v
  rw [← norm2_sum, ← norm2_sum, ← mul_pow] at h
  have := (abs_le_of_sq_le_sq' h (mul_nonneg (norm2_nonneg u) (norm2_nonneg v))).2
  rwa [Fin.sum_univ_three] at this

theorem norm2_add (u v : Vec3 ℝ) : norm2 (u + v) ≤ norm2 u + norm2 v := by
  refine norm2_le_of_sq (add_nonneg (norm2_nonneg u) (norm2_nonneg v)) ?_
  have h1 := dot3_le u v
  have h2 : norm2 (u + v) ^ 2 = norm2 u ^ 2 + 2 * dot3 u v + norm2 v ^ 2 := by
    simp only [norm2_sq, dot3, Pi.add_apply]; ring
  rw [h2]
  nlinarith

theorem norm2_mulVec_frob (A : Mat3 ℝ) (v : Vec3 ℝ) : norm2 (A *ᵥ v) ≤ frob A * norm2 v := by
  refine norm2_le_of_sq (mul_nonneg (frob_nonneg A) (norm2_nonneg v)) ?_
  rw [mul_pow, frob_sq, norm2_sum, norm2_sum, Finset.sum_mul]
  refine Finset.sum_le_sum fun i _ => ?_
  exact Finset.sum_mul_sq_le_sq_mul_sq Finset.univ (fun j => A i j) v

/-- a matrix with a small defect nearly keeps lengths -/
theorem norm2_mulVec (R : Mat3 ℝ) (v : Vec3 ℝ) : norm2 (R *ᵥ v) ≤ (1 + defect R) * norm2 v := by
  have hd := defect_nonneg R
  have hv := norm2_nonneg v
  refine norm2_le_of_sq (mul_nonneg (by linarith) hv) ?_
  have e : norm2 (R *ᵥ v) ^ 2 = norm2 v ^ 2 + dot3 v ((Rᵀ * R - 1) *ᵥ v) := by
    simp only [norm2_sq, dot3, Matrix.mulVec, dotProduct, Fin.sum_univ_three, Matrix.sub_apply, Matrix.mul_apply, Matrix.transpose_apply,
      Matrix.one_apply]
    simp
    ring
  have h1 := dot3_le v ((Rᵀ * R - 1) *ᵥ v)
  have h2 := norm2_mulVec_frob (Rᵀ * R - 1) v
  have h3 : frob (Rᵀ * R - 1) = defect R := rfl
  rw [h3] at h2
  have h4 := mul_le_mul_of_nonneg_left h2 hv
  rw [e]
  nlinarith [mul_nonneg hd (sq_nonneg (norm2 v)), mul_nonneg (mul_nonneg hd hd) (sq_nonneg (norm2 v))]

theorem norm2_scale {w v : Vec3 ℝ} {c : ℝ} (hc : 0 ≤ c) (h : ∀ i, |w i| ≤ c) : norm2 (fun i => w i * v i) ≤ c * norm2 v := by
  refine norm2_le_of_sq (mul_nonneg hc (norm2_nonneg v)) ?_
  rw [mul_pow, norm2_sum, norm2_sum, Finset.mul_sum]
  refine Finset.sum_le_sum fun i _ => ?_
  rw [mul_pow]
  refine mul_le_mul_of_nonneg_right ?_ (sq_nonneg _)
  rw [← sq_abs]
  exact pow_le_pow_left₀ (abs_nonneg _) (h i) 2

/-- what normalisation changes -/
theorem normalized_apply {M N : Mat3 ℝ} (h : normalizeColumns M = .ok N) (v : Vec3 ℝ) :
    M *ᵥ v = N *ᵥ (fun j => norm2 (fun i => M i j) * v j) := by
  rcases normalize_cases M with ⟨-, h'⟩ | ⟨h0, h'⟩
  · rw [h'] at h; cases h
  · rw [h'] at h
    cases h
    funext i
    simp only [Matrix.mulVec, dotProduct, Matrix.of_apply]
    refine Finset.sum_congr rfl fun j _ => ?_
    have := (norm2_pos (h0 j)).ne'
    field_simp

theorem col_norm_near {R : Mat3 ℝ} {c : ℝ} (j : Fin 3) (h : |(Rᵀ * R) j j - 1| ≤ c) : |1 - norm2 (fun i => R i j)| ≤ c := by
  rw [gram_col, ← norm2_sq] at h
  have h0 := norm2_nonneg fun i => R i j
  have e : norm2 (fun i => R i j) ^ 2 - 1 = (norm2 (fun i => R i j) - 1) * (norm2 (fun i => R i j) + 1) := by ring
  rw [e, abs_mul, abs_of_nonneg (show (0 : ℝ) ≤ norm2 (fun i => R i j) + 1 by linarith)] at h
  rw [abs_sub_comm]
  nlinarith [abs_nonneg (norm2 (fun i => R i j) - 1)]

/-! ## Error bounds for accepted systems -/

/-- **C94, sums.** If the sum of two accepted systems does not raise an exception, it maps each point to the same place as the systems
one after the other, up to `1.5e-5` times the distance of the point from the origin. -/
theorem C94_sum_error {Ma Mb : Mat3 ℝ} {Ta Tb : Vec3 ℝ} {a b c : Lcs ℝ} (ha : constructTol Ma Ta = .ok a) (hb : constructTol Mb Tb = .ok b)
    (hc : addTol a b = .ok c) (p : Vec3 ℝ) :
    norm2 (c.toParent p - b.toParent (a.toParent p)) ≤ 15 / 10 ^ 6 * norm2 p := by
  obtain ⟨hN, -, hT⟩ := constructTol_ok.1 hc
  have hdb := accepted_defect hb
  have hdc := accepted_defect hc
  have hua := (constructTol_ok.1 ha).1
  set P := b.orientation * a.orientation with hP
  have e : c.toParent p - b.toParent (a.toParent p) = c.orientation *ᵥ fun j => (1 - norm2 fun i => P i j) * p j := by
    have h1 := normalized_apply hN p
    have h2 : b.toParent (a.toParent p) = P *ᵥ p + c.coordinates := by
      rw [Lcs.toParent_eq, Lcs.toParent_eq, Matrix.mulVec_add, Matrix.mulVec_mulVec, hT]
      abel
    rw [Lcs.toParent_eq, h2, h1, add_sub_add_right_eq_sub, ← Matrix.mulVec_sub]
    congr 1
    funext j
    simp only [Pi.sub_apply]
    ring
  have hcol : ∀ j, |1 - norm2 fun i => P i j| ≤ 1416 / 10 ^ 8 := fun j => by
    apply col_norm_near
    set u : Vec3 ℝ := fun i => a.orientation i j with hu
    have hu1 : norm2 u = 1 := by
      have := gram_unit hua j
      rw [gram_col, ← norm2_sq] at this
      have h0 := norm2_nonneg u
      nlinarith
    have e2 : (Pᵀ * P) j j - 1 = dot3 u ((b.orientationᵀ * b.orientation - 1) *ᵥ u) := by
      have h1 : dot3 u u = 1 := by rw [← norm2_sq, hu1]; norm_num
      have h2 : (Pᵀ * P) j j = dot3 u ((b.orientationᵀ * b.orientation) *ᵥ u) := by
        simp only [hP, hu, dot3, Matrix.mulVec, dotProduct, Fin.sum_univ_three, Matrix.mul_apply, Matrix.transpose_apply]
        ring
      rw [h2, Matrix.sub_mulVec, Matrix.one_mulVec]
      have h3 : ∀ x : Vec3 ℝ, dot3 u (x - u) = dot3 u x - dot3 u u := fun x => by simp only [dot3, Pi.sub_apply]; ring
      rw [h3, h1]
    have h4 := norm2_mulVec_frob (b.orientationᵀ * b.orientation - 1) u
    have h5 : frob (b.orientationᵀ * b.orientation - 1) = defect b.orientation := rfl
    rw [hu1, mul_one, h5] at h4
    have h6 := dot3_le u ((b.orientationᵀ * b.orientation - 1) *ᵥ u)
    have h7 := dot3_le (-u) ((b.orientationᵀ * b.orientation - 1) *ᵥ u)
    have h8 : norm2 (-u) = norm2 u := by simp [norm2]
    have h9 : ∀ x : Vec3 ℝ, dot3 (-u) x = -dot3 u x := fun x => by simp only [dot3, Pi.neg_apply]; ring
    rw [h8, hu1, one_mul, h9] at h7
    rw [hu1, one_mul] at h6
    rw [e2, abs_le]
    constructor <;> linarith
  rw [e]
  refine (norm2_mulVec _ _).trans ?_
  have h1 := norm2_scale (v := p) (by norm_num) hcol
  have h2 := defect_nonneg c.orientation
  have h3 := norm2_nonneg p
  have h4 := norm2_nonneg fun j => (1 - norm2 fun i => P i j) * p j
  calc (1 + defect c.orientation) * norm2 (fun j => (1 - norm2 fun i => P i j) * p j)
      ≤ (1 + 1416 / 10 ^ 8) * (1416 / 10 ^ 8 * norm2 p) := mul_le_mul (by linarith) h1 h4 (by norm_num)
    _ ≤ 15 / 10 ^ 6 * norm2 p := by nlinarith

/-- **C94, inverse.** If the inverse of an accepted system does not raise an exception, mapping a point with the system and then with the
inverse gives the point up to `2.5e-5` times its distance from the origin and `1.1e-5` times the distance of the systems. -/
theorem C94_inverse_error {M : Mat3 ℝ} {T : Vec3 ℝ} {f g : Lcs ℝ} (hf : constructTol M T = .ok f) (hg : invertTol f = .ok g) (p : Vec3 ℝ) :
    norm2 (g.toParent (f.toParent p) - p) ≤ 25 / 10 ^ 6 * norm2 p + 11 / 10 ^ 6 * norm2 T := by
  obtain ⟨-, hO, hT⟩ := constructTol_ok.1 hf
  obtain ⟨hN, -, hS⟩ := constructTol_ok.1 hg
  have hdf := accepted_defect hf
  have hdg := accepted_defect hg
  set R := f.orientation with hR
  have hrow : ∀ j, |1 - norm2 fun i => Rᵀ i j| ≤ 1001 / 10 ^ 8 := fun j => by
    apply col_norm_near
    have := hO j j
    rw [nearly, Matrix.one_apply_eq, abs_one] at this
    rw [Matrix.transpose_transpose]
    norm_num at this ⊢
    linarith
  set q := R *ᵥ p + T with hq
  have e : g.toParent (f.toParent p) - p =
      g.orientation *ᵥ (fun j => (1 - norm2 fun i => Rᵀ i j) * q j) + (Rᵀ * R - 1) *ᵥ p := by
    have h1 := normalized_apply hN q
    have h2 : g.orientation *ᵥ (fun j => (1 - norm2 fun i => Rᵀ i j) * q j) = g.orientation *ᵥ q - Rᵀ *ᵥ q := by
      rw [h1, ← Matrix.mulVec_sub]
      congr 1
      funext j
      simp only [Pi.sub_apply]
      ring
    rw [h2, Lcs.toParent_eq, Lcs.toParent_eq, hS, hT, ← hR, ← hq, Matrix.mulVec_neg, Matrix.sub_mulVec, Matrix.one_mulVec,
      ← Matrix.mulVec_mulVec]
    have h3 : Rᵀ *ᵥ q = Rᵀ *ᵥ (R *ᵥ p) + Rᵀ *ᵥ T := by rw [hq, Matrix.mulVec_add]
    rw [h3]
    abel
  rw [e]
  refine (norm2_add _ _).trans ?_
  have h1 := norm2_mulVec g.orientation fun j => (1 - norm2 fun i => Rᵀ i j) * q j
  have h2 := norm2_scale (v := q) (by norm_num) hrow
  have h3 := norm2_add (R *ᵥ p) T
  have h4 := norm2_mulVec R p
  have h5 := norm2_mulVec_frob (Rᵀ * R - 1) p
  have h6 : frob (Rᵀ * R - 1) = defect R := rfl
  rw [h6] at h5
  have n1 := norm2_nonneg p
  have n2 := norm2_nonneg T
  have n3 := norm2_nonneg fun j => (1 - norm2 fun i => Rᵀ i j) * q j
  have n4 := norm2_nonneg q
  have g0 := defect_nonneg g.orientation
  have k1 : (1 + defect g.orientation) * norm2 (fun j => (1 - norm2 fun i => Rᵀ i j) * q j) ≤
      (1 + 1416 / 10 ^ 8) * (1001 / 10 ^ 8 * norm2 q) := mul_le_mul (by linarith) h2 n3 (by norm_num)
  have k2 : (1 + defect R) * norm2 p ≤ (1 + 1416 / 10 ^ 8) * norm2 p := mul_le_mul_of_nonneg_right (by linarith) n1
  have k3 : defect R * norm2 p ≤ 1416 / 10 ^ 8 * norm2 p := mul_le_mul_of_nonneg_right hdf n1
  have k4 : norm2 q ≤ (1 + 1416 / 10 ^ 8) * norm2 p + norm2 T := by linarith
  have k5 := h1.trans k1
  have k6 := h5.trans k3
  clear_value q
  generalize norm2 (g.orientation *ᵥ fun j => (1 - norm2 fun i => Rᵀ i j) * q j) = X at k5 ⊢
  generalize norm2 ((Rᵀ * R - 1) *ᵥ p) = Y at k6 ⊢
  norm_num at k4 k5 k6 ⊢
  linarith

/-- **C94, inverse first.** Mapping a point with the inverse and then with the system gives the point up to `2.6e-5` times its distance from
the origin and `1.5e-5` times the distance of the systems. -/
theorem C94_inverse_first_error {M : Mat3 ℝ} {T : Vec3 ℝ} {f g : Lcs ℝ} (hf : constructTol M T = .ok f) (hg : invertTol f = .ok g)
    (q : Vec3 ℝ) : norm2 (f.toParent (g.toParent q) - q) ≤ 26 / 10 ^ 6 * norm2 q + 15 / 10 ^ 6 * norm2 T := by
  obtain ⟨-, hO, hT⟩ := constructTol_ok.1 hf
  obtain ⟨hN, -, hS⟩ := constructTol_ok.1 hg
  have hdf := accepted_defect hf
  set R := f.orientation with hR
  have hrow : ∀ j, |1 - norm2 fun i => Rᵀ i j| ≤ 1001 / 10 ^ 8 := fun j => by
    apply col_norm_near
    have := hO j j
    rw [nearly, Matrix.one_apply_eq, abs_one] at this
    rw [Matrix.transpose_transpose]
    norm_num at this ⊢
    linarith
  set n : Vec3 ℝ := fun j => norm2 fun i => Rᵀ i j with hn
  have hn0 : ∀ j, 1 - 1001 / 10 ^ 8 ≤ n j := fun j => by
    have := (abs_le.1 (hrow j)).2
    change 1 - n j ≤ _ at this
    linarith
  have hpos : ∀ j, 0 < n j := fun j => by have := hn0 j; norm_num at this; linarith
  set w : Vec3 ℝ := fun j => q j / n j with hw
  have hgq : g.orientation *ᵥ q = Rᵀ *ᵥ w := by
    rw [normalized_apply hN w]
    congr 1
    funext j
    change q j = n j * (q j / n j)
    have := (hpos j).ne'
    field_simp
  have e : f.toParent (g.toParent q) - q = (R * Rᵀ - 1) *ᵥ (w - T) + (w - q) := by
    rw [Lcs.toParent_eq, Lcs.toParent_eq, hS, hT, hgq, ← hR, Matrix.mulVec_neg, ← sub_eq_add_neg, ← Matrix.mulVec_sub, Matrix.mulVec_mulVec,
      Matrix.sub_mulVec, Matrix.one_mulVec]
    abel
  have hwq : norm2 (w - q) ≤ 11 / 10 ^ 6 * norm2 q := by
    have e2 : w - q = fun j => (1 / n j - 1) * q j := by
      funext j
      simp only [hw, Pi.sub_apply]
      ring
    rw [e2]
    refine norm2_scale (by norm_num) fun j => ?_
    have h1 : 1 / n j - 1 = (1 - n j) / n j := by have := (hpos j).ne'; field_simp
    rw [h1, abs_div, abs_of_pos (hpos j), div_le_iff₀ (hpos j)]
    have h2 : |1 - n j| ≤ 1001 / 10 ^ 8 := hrow j
    have h3 := hn0 j
    norm_num at h2 h3 ⊢
    linarith
  have hwn : norm2 w ≤ norm2 (w - q) + norm2 q := by
    have := norm2_add (w - q) q
    rwa [sub_add_cancel] at this
  have hwT : norm2 (w - T) ≤ norm2 w + norm2 T := by
    have := norm2_add w (-T)
    have h8 : norm2 (-T) = norm2 T := by simp [norm2]
    rwa [h8, ← sub_eq_add_neg] at this
  have hE := norm2_mulVec_frob (R * Rᵀ - 1) (w - T)
  have hfr : frob (R * Rᵀ - 1) = defect R := by
    rw [← defect_transpose, defect, Matrix.transpose_transpose]
  rw [hfr] at hE
  have k := mul_le_mul_of_nonneg_right hdf (norm2_nonneg (w - T))
  have hs := norm2_add ((R * Rᵀ - 1) *ᵥ (w - T)) (w - q)
  rw [← e] at hs
  have n1 := norm2_nonneg q
  have n2 := norm2_nonneg T
  refine hs.trans ?_
  have k2 := hE.trans k
  generalize norm2 ((R * Rᵀ - 1) *ᵥ (w - T)) = X at *
  generalize norm2 (w - q) = Y at *
  generalize norm2 (w - T) = Z at *
  norm_num at k2 hwq ⊢
  linarith

/-- **C94, differences.** If the difference `a - b` of two accepted systems does not raise an exception, it describes `a` relative to `b`:
mapping a point with the difference and then with `b` agrees with `a` up to small multiples of the distances. -/
theorem C94_difference_error {Ma Mb : Mat3 ℝ} {Ta Tb : Vec3 ℝ} {a b c : Lcs ℝ} (ha : constructTol Ma Ta = .ok a)
    (hb : constructTol Mb Tb = .ok b) (hc : subTol a b = .ok c) (p : Vec3 ℝ) :
    norm2 (b.toParent (c.toParent p) - a.toParent p) ≤ 42 / 10 ^ 6 * norm2 p + 26 / 10 ^ 6 * norm2 Ta + 15 / 10 ^ 6 * norm2 Tb := by
  unfold subTol at hc
  cases hi : invertTol b with
  | error e => simp [hi] at hc
  | ok i =>
    simp only [hi] at hc
    have h1 := C94_sum_error ha hi hc p
    have h2 := C94_inverse_first_error hb hi (a.toParent p)
    have hdb := accepted_defect hb
    have hda := accepted_defect ha
    have hTa := (constructTol_ok.1 ha).2.2
    set d := c.toParent p - i.toParent (a.toParent p) with hd
    have e : b.toParent (c.toParent p) - a.toParent p =
        b.orientation *ᵥ d + (b.toParent (i.toParent (a.toParent p)) - a.toParent p) := by
      rw [hd, Lcs.toParent_eq b, Lcs.toParent_eq b, Matrix.mulVec_sub]
      abel
    rw [e]
    have h3 := norm2_add (b.orientation *ᵥ d) (b.toParent (i.toParent (a.toParent p)) - a.toParent p)
    have h4 := norm2_mulVec b.orientation d
    have h5 : norm2 (a.toParent p) ≤ norm2 (a.orientation *ᵥ p) + norm2 Ta := by
      rw [Lcs.toParent_eq, hTa]; exact norm2_add _ _
    have h6 := norm2_mulVec a.orientation p
    have n1 := norm2_nonneg p
    have n2 := norm2_nonneg d
    have n3 := norm2_nonneg Ta
    have n4 := norm2_nonneg Tb
    have k1 : (1 + defect b.orientation) * norm2 d ≤ (1 + 1416 / 10 ^ 8) * norm2 d := mul_le_mul_of_nonneg_right (by linarith) n2
    have k2 : (1 + defect a.orientation) * norm2 p ≤ (1 + 1416 / 10 ^ 8) * norm2 p := mul_le_mul_of_nonneg_right (by linarith) n1
    have k3 := h4.trans k1
    have k4 := h6.trans k2
    refine h3.trans ?_
    generalize norm2 (b.orientation *ᵥ d) = X at *
    generalize norm2 (b.toParent (i.toParent (a.toParent p)) - a.toParent p) = Y at *
    generalize norm2 d = Z at *
    generalize norm2 (a.toParent p) = W at *
    generalize norm2 (a.orientation *ᵥ p) = V at *
    norm_num at h1 h2 k3 k4 ⊢
    linarith

/-! ## Calculations -/

theorem construct_small {M : Mat3 ℝ} (T : Vec3 ℝ) (h : defect M ≤ 3 / 10 ^ 8) (h' : defect M / (1 - defect M) ≤ 1 / 10 ^ 8) :
    ∃ f, constructTol M T = .ok f ∧ defect f.orientation ≤ defect M / (1 - defect M) := by
  rcases normalize_cases M with ⟨⟨j, hj⟩, -⟩ | ⟨-, hN⟩
  · exfalso
    have h1 := entry_le_frob (Mᵀ * M - 1) j j
    rw [Matrix.sub_apply, gram_col, hj, Matrix.one_apply_eq] at h1
    simp only [dot3, Pi.zero_apply, mul_zero, add_zero, zero_sub, abs_neg, abs_one] at h1
    have : frob (Mᵀ * M - 1) = defect M := rfl
    rw [this] at h1
    norm_num at h
    linarith
  · have hd := defect_normalized hN (by norm_num at h; linarith)
    exact ⟨⟨_, T⟩, constructTol_ok.2 ⟨hN, nearly_of_defect (hd.trans h'), rfl⟩, hd⟩

theorem growth {x : ℝ} (h0 : 0 ≤ x) (h : x ≤ 3 / 10 ^ 8) : x / (1 - x) ≤ x * (1 + 4 / 10 ^ 8) := by
  norm_num at h ⊢
  rw [div_le_iff₀ (by linarith)]
  nlinarith

/-- **C94, calculations.** Sums and inverses of systems whose defect is at most `ε` never raise an exception as long as the number of
systems times `ε` is below `1e-8`, apart from a factor `1 + 1e-7` for each operation. The defect of the result is bounded likewise. -/
theorem C94_calculation {ε : ℝ} (hε : 0 ≤ ε) : ∀ (t : Calc), (∀ f ∈ t.systems, defect f.orientation ≤ ε) →
    t.systems.length * ε * (1 + 1 / 10 ^ 7) ^ t.steps ≤ 1 / 10 ^ 8 →
    ∃ f, t.eval = .ok f ∧ defect f.orientation ≤ t.systems.length * ε * (1 + 1 / 10 ^ 7) ^ t.steps
  | .system f, h, _ => ⟨f, rfl, by simpa [Calc.systems, Calc.steps] using h f (by simp [Calc.systems])⟩
  | .inverse a, h, hb => by
    have hr : (1 : ℝ) ≤ (1 + 1 / 10 ^ 7) ^ a.steps := one_le_pow₀ (by norm_num)
    set β := (a.systems.length : ℝ) * ε * (1 + 1 / 10 ^ 7) ^ a.steps with hβ
    have hβ0 : 0 ≤ β := by positivity
    have e : ((Calc.inverse a).systems.length : ℝ) * ε * (1 + 1 / 10 ^ 7) ^ (Calc.inverse a).steps = β * (1 + 1 / 10 ^ 7) := by
      simp only [Calc.systems, Calc.steps, pow_succ, hβ]; ring
    rw [e] at hb ⊢
    have hβ1 : β ≤ 1 / 10 ^ 8 := by norm_num at hb ⊢; linarith
    obtain ⟨x, hx, hd⟩ := C94_calculation hε a h hβ1
    have hd' : defect x.orientationᵀ ≤ β := by rw [defect_transpose]; exact hd
    have h0 := defect_nonneg x.orientationᵀ
    have hle : defect x.orientationᵀ ≤ 3 / 10 ^ 8 := by norm_num at hβ1 ⊢; linarith
    have hg := growth h0 hle
    have hg' : defect x.orientationᵀ / (1 - defect x.orientationᵀ) ≤ β * (1 + 1 / 10 ^ 7) := by
      refine hg.trans ?_
      norm_num
      nlinarith
    obtain ⟨f, hf, hdf⟩ := construct_small (x.orientationᵀ *ᵥ (-x.coordinates)) hle (hg'.trans hb)
    exact ⟨f, by simp only [Calc.eval, hx]; exact hf, hdf.trans hg'⟩
  | .sum a b, h, hb => by
    set r : ℝ := 1 + 1 / 10 ^ 7 with hrdef
    have hr1 : (1 : ℝ) ≤ r := by rw [hrdef]; norm_num
    set βa := (a.systems.length : ℝ) * ε * r ^ a.steps with hβa
    set βb := (b.systems.length : ℝ) * ε * r ^ b.steps with hβb
    have ha0 : 0 ≤ βa := by positivity
    have hb0 : 0 ≤ βb := by positivity
    have hsum : (βa + βb) * r ≤ ((Calc.sum a b).systems.length : ℝ) * ε * r ^ (Calc.sum a b).steps := by
      have p1 : r ^ a.steps ≤ r ^ (a.steps + b.steps) := pow_le_pow_right₀ hr1 (by omega)
      have p2 : r ^ b.steps ≤ r ^ (a.steps + b.steps) := pow_le_pow_right₀ hr1 (by omega)
      have q1 : βa ≤ (a.systems.length : ℝ) * ε * r ^ (a.steps + b.steps) := mul_le_mul_of_nonneg_left p1 (by positivity)
      have q2 : βb ≤ (b.systems.length : ℝ) * ε * r ^ (a.steps + b.steps) := mul_le_mul_of_nonneg_left p2 (by positivity)
      have e : ((Calc.sum a b).systems.length : ℝ) * ε * r ^ (Calc.sum a b).steps =
          ((a.systems.length : ℝ) * ε * r ^ (a.steps + b.steps) + (b.systems.length : ℝ) * ε * r ^ (a.steps + b.steps)) * r := by
        simp only [Calc.systems, Calc.steps, List.length_append, Nat.cast_add, pow_succ]; ring
      rw [e]
      exact mul_le_mul_of_nonneg_right (add_le_add q1 q2) (by linarith)
    have hr' : βa + βb ≤ (βa + βb) * r := le_mul_of_one_le_right (by linarith) hr1
    have hab : βa + βb ≤ 1 / 10 ^ 8 := hr'.trans (hsum.trans hb)
    obtain ⟨x, hx, hdx⟩ := C94_calculation hε a (fun f hf => h f (by simp [Calc.systems, hf])) (by change βa ≤ _; linarith)
    obtain ⟨y, hy, hdy⟩ := C94_calculation hε b (fun f hf => h f (by simp [Calc.systems, hf])) (by change βb ≤ _; linarith)
    have hdx' : defect x.orientation ≤ βa := hdx
    have hdy' : defect y.orientation ≤ βb := hdy
    have hx0 := defect_nonneg x.orientation
    have hy0 := defect_nonneg y.orientation
    have hm := defect_mul x.orientation y.orientation
    have h0 := defect_nonneg (y.orientation * x.orientation)
    norm_num at hab
    have hm' : defect (y.orientation * x.orientation) ≤ (βa + βb) * (1 + 1 / 10 ^ 8) := by
      refine hm.trans ?_
      have hxy : defect x.orientation * defect y.orientation ≤ βa * βb := mul_le_mul hdx' hdy' hy0 ha0
      have : βa * βb ≤ (βa + βb) * (1 / 10 ^ 8) := by
        norm_num
        nlinarith
      linarith
    have hle : defect (y.orientation * x.orientation) ≤ 3 / 10 ^ 8 := by norm_num at hm' ⊢; linarith
    have hg := growth h0 hle
    have hg' : defect (y.orientation * x.orientation) / (1 - defect (y.orientation * x.orientation)) ≤ (βa + βb) * r := by
      refine hg.trans ?_
      rw [hrdef]
      norm_num at hm' ⊢
      linarith
    obtain ⟨f, hf, hdf⟩ := construct_small (y.orientation *ᵥ x.coordinates + y.coordinates) hle ((hg'.trans hsum).trans hb)
    exact ⟨f, by simp only [Calc.eval, hx, hy]; exact hf, (hdf.trans hg').trans hsum⟩

theorem Calc.exact_orthonormal : ∀ (t : Calc), (∀ f ∈ t.systems, f.Orthonormal) → t.exact.Orthonormal
  | .system f, h => h f (by simp [Calc.systems])
  | .sum a b, h =>
    (C03_orthonormal_closed _ _ (a.exact_orthonormal fun f hf => h f (by simp [Calc.systems, hf]))
      (b.exact_orthonormal fun f hf => h f (by simp [Calc.systems, hf]))).1
  | .inverse a, h => (C03_orthonormal_closed _ _ (a.exact_orthonormal h) (a.exact_orthonormal h)).2.1

theorem constructTol_orthonormal {f : Lcs ℝ} (h : f.Orthonormal) : constructTol f.orientation f.coordinates = .ok f := by
  have hd := orthonormal_defect.1 h
  refine constructTol_ok.2 ⟨normalize_unit fun j => ?_, nearly_of_defect (by rw [hd]; norm_num), rfl⟩
  rw [(Lcs.orthonormal_iff f).1 h, Matrix.one_apply_eq]

/-- **C94, exact systems.** For orthonormal systems the checks and normalisations do nothing: all calculations have exactly the result of
the formulas. -/
theorem C94_exact_calculation : ∀ (t : Calc), (∀ f ∈ t.systems, f.Orthonormal) → t.eval = .ok t.exact
  | .system _, _ => rfl
  | .sum a b, h => by
    have ha := C94_exact_calculation a fun f hf => h f (by simp [Calc.systems, hf])
    have hb := C94_exact_calculation b fun f hf => h f (by simp [Calc.systems, hf])
    have ho := (Calc.sum a b).exact_orthonormal h
    simp only [Calc.eval, ha, hb]
    exact constructTol_orthonormal ho
  | .inverse a, h => by
    have ha := C94_exact_calculation a h
    have ho := (Calc.inverse a).exact_orthonormal h
    simp only [Calc.eval, ha]
    exact constructTol_orthonormal ho

/-! ## Inverses are nearly exact -/

theorem inverse_defect_sq {f g : Lcs ℝ} {c : ℝ} (hO : nearlyOrthogonal f.orientation)
    (hc : ∀ i j, i ≠ j → |(f.orientation * f.orientationᵀ) i j| ≤ c) (hN : normalizeColumns f.orientationᵀ = .ok g.orientation) :
    defect g.orientation ^ 2 ≤ 6 * (c * (1 + 3 / 10 ^ 5)) ^ 2 := by
  set R := f.orientation with hR
  set G := g.orientation with hG
  have hn : ∀ j, 1 - 1001 / 10 ^ 8 ≤ norm2 fun i => Rᵀ i j := fun j => by
    have h1 : |1 - norm2 fun i => Rᵀ i j| ≤ 1001 / 10 ^ 8 := by
      apply col_norm_near
      have := hO j j
      rw [nearly, Matrix.one_apply_eq, abs_one] at this
      rw [Matrix.transpose_transpose]
      norm_num at this ⊢
      linarith
    have := (abs_le.1 h1).2
    linarith
  have hd : ∀ j, (Gᵀ * G - 1) j j = 0 := fun j => by rw [Matrix.sub_apply, gram_unit hN j, Matrix.one_apply_eq, sub_self]
  have hne : ∀ j k, j ≠ k → (Gᵀ * G - 1) j k ^ 2 ≤ (c * (1 + 3 / 10 ^ 5)) ^ 2 := fun j k hjk => by
    have h0 := hc j k hjk
    have hc0 : 0 ≤ c := (abs_nonneg _).trans h0
    have h1 := gram_normalized hN j k
    rw [Matrix.transpose_transpose] at h1
    rw [Matrix.sub_apply, Matrix.one_apply_ne hjk, sub_zero, h1, ← sq_abs]
    refine pow_le_pow_left₀ (abs_nonneg _) ?_ 2
    have hj := hn j
    have hk := hn k
    set x := norm2 fun i => Rᵀ i j
    set y := norm2 fun i => Rᵀ i k
    have hx : 0 < x := by norm_num at hj; linarith
    have hy : 0 < y := by norm_num at hk; linarith
    rw [abs_div, abs_of_pos (mul_pos hx hy), div_le_iff₀ (mul_pos hx hy)]
    have hxy : 1 ≤ (1 + 3 / 10 ^ 5) * (x * y) := by
      have := mul_le_mul hj hk (by norm_num) hx.le
      norm_num at this ⊢
      linarith
    calc _ ≤ c * 1 := by rw [mul_one]; exact h0
      _ ≤ c * ((1 + 3 / 10 ^ 5) * (x * y)) := mul_le_mul_of_nonneg_left hxy hc0
      _ = _ := by ring
  unfold defect
  rw [frob_sq]
  simp only [Fin.sum_univ_three, hd]
  have a1 := hne 0 1 (by decide); have a2 := hne 0 2 (by decide); have a3 := hne 1 0 (by decide)
  have a4 := hne 1 2 (by decide); have a5 := hne 2 0 (by decide); have a6 := hne 2 1 (by decide)
  linarith

/-- **C94, defect of inverses.** The inverse of an accepted system is orthonormal up to `2.5e-8`, even if the system itself is not. -/
theorem C94_inverse_defect {M : Mat3 ℝ} {T : Vec3 ℝ} {f g : Lcs ℝ} (hf : constructTol M T = .ok f) (hg : invertTol f = .ok g) :
    defect g.orientation ≤ 25 / 10 ^ 9 := by
  obtain ⟨-, hO, -⟩ := constructTol_ok.1 hf
  obtain ⟨hN, -, -⟩ := constructTol_ok.1 hg
  apply (abs_le_of_sq_le_sq' _ (by norm_num)).2
  refine (inverse_defect_sq (c := 1 / 10 ^ 8) hO (fun i j hij => ?_) hN).trans (by norm_num)
  have := hO i j
  rw [nearly, Matrix.one_apply_ne hij, abs_zero, mul_zero, add_zero, sub_zero] at this
  exact this

/-- **C94, inverses are accepted.** The inverse of a system with perpendicular rows does not raise an exception. `4e-9` is less than half
of the tolerance of the check. -/
theorem C94_inverse_accepted {M : Mat3 ℝ} {T : Vec3 ℝ} {f : Lcs ℝ} (hf : constructTol M T = .ok f)
    (hr : ∀ i j, i ≠ j → |(f.orientation * f.orientationᵀ) i j| ≤ 4 / 10 ^ 9) : ∃ g, invertTol f = .ok g ∧ defect g.orientation ≤ 1 / 10 ^ 8 := by
  obtain ⟨-, hO, -⟩ := constructTol_ok.1 hf
  rcases normalize_cases f.orientationᵀ with ⟨⟨j, hj⟩, -⟩ | ⟨-, hN⟩
  · exfalso
    have h1 := hO j j
    have h2 := gram_col f.orientationᵀ j j
    rw [Matrix.transpose_transpose, hj] at h2
    rw [nearly, h2, Matrix.one_apply_eq] at h1
    simp only [dot3, Pi.zero_apply, mul_zero, add_zero, zero_sub, abs_neg, abs_one] at h1
    norm_num at h1
  · set N : Mat3 ℝ := Matrix.of fun i j => f.orientationᵀ i j / norm2 fun i => f.orientationᵀ i j
    have hd : defect N ≤ 1 / 10 ^ 8 := by
      apply (abs_le_of_sq_le_sq' _ (by norm_num)).2
      exact (inverse_defect_sq (g := ⟨N, 0⟩) hO hr hN).trans (by norm_num)
    exact ⟨⟨N, _⟩, constructTol_ok.2 ⟨hN, nearly_of_defect hd, rfl⟩, hd⟩

/-! ## Accepted systems for which calculations fail -/

theorem normalize_scaled {M G : Mat3 ℝ} {s : Vec3 ℝ} (hs : ∀ j, 0 < s j) (hG : ∀ j, (Gᵀ * G) j j = 1) (h : ∀ i j, M i j = s j * G i j) :
    normalizeColumns M = .ok G := by
  have hn : ∀ j, norm2 (fun i => M i j) = s j := fun j => by
    have h1 := hG j
    rw [gram_col] at h1
    have h2 : norm2 (fun i => M i j) ^ 2 = s j ^ 2 := by
      rw [norm2_sq]
      simp only [dot3, h] at h1 ⊢
      linear_combination s j ^ 2 * h1
    exact (pow_left_inj₀ (norm2_nonneg _) (hs j).le (by norm_num)).1 h2
  rcases normalize_cases M with ⟨⟨j, hj⟩, -⟩ | ⟨-, h'⟩
  · exfalso
    have := hn j
    rw [hj] at this
    have h0 : norm2 (0 : Vec3 ℝ) = 0 := by simp [norm2]
    rw [h0] at this
    exact (hs j).ne this
  · rw [h']
    congr 1
    ext i j
    have := (hs j).ne'
    rw [Matrix.of_apply, hn, h]
    field_simp

theorem constructTol_rejected {M N : Mat3 ℝ} (T : Vec3 ℝ) (h : normalizeColumns M = .ok N) (h' : ¬nearlyOrthogonal N) :
    constructTol M T = .error .notOrthogonal := by
  simp only [constructTol, checkTol, h, if_neg h']

/-- axes of length one whose angle differs from a right angle by `7e-6`; all numbers are rational (`137903² + 137904² = 195025²`) -/
noncomputable def skewed : Lcs ℝ :=
  ⟨!![137904 / 195025, 137904 / 195025, 0; 137903 / 195025, -137903 / 195025, 0; 0, 0, 1], 0⟩

/-- a rotation by the angle with cosine `3/5` -/
noncomputable def rotated : Lcs ℝ := ⟨!![3 / 5, -4 / 5, 0; 4 / 5, 3 / 5, 0; 0, 0, 1], 0⟩

/-- the inverse of `skewed` -/
noncomputable def skewedInverse : Lcs ℝ := ⟨!![√2 / 2, √2 / 2, 0; √2 / 2, -√2 / 2, 0; 0, 0, 1], 0⟩

theorem skewed_accepted : constructTol skewed.orientation skewed.coordinates = .ok skewed := by
  refine constructTol_ok.2 ⟨normalize_unit fun j => ?_, fun i j => ?_, rfl⟩
  · rw [gram_col]
    fin_cases j <;> simp [skewed, dot3] <;> norm_num
  · fin_cases i <;> fin_cases j <;>
      simp [skewed, nearly, Matrix.mul_apply, Fin.sum_univ_three] <;> norm_num [abs_le]

theorem rotated_orthonormal : rotated.Orthonormal := by
  rw [Lcs.orthonormal_iff]
  ext i j
  fin_cases i <;> fin_cases j <;> simp [rotated, Matrix.mul_apply, Fin.sum_univ_three] <;> norm_num

theorem skewedInverse_eq : invertTol skewed = .ok skewedInverse := by
  have h2 : √2 * √2 = 2 := Real.mul_self_sqrt (by norm_num)
  have hp : 0 < √2 := Real.sqrt_pos.2 (by norm_num)
  refine constructTol_ok.2 ⟨normalize_scaled (s := ![137904 / 195025 * √2, 137903 / 195025 * √2, 1]) ?_ ?_ ?_, ?_, ?_⟩
  · intro j
    fin_cases j <;> simp
  · intro j
    rw [gram_col]
    fin_cases j <;> simp [skewedInverse, dot3] <;> linarith
  · intro i j
    fin_cases i <;> fin_cases j <;> simp [skewedInverse, skewed] <;> linarith
  · intro i j
    fin_cases i <;> fin_cases j <;>
      simp [skewedInverse, nearly, Matrix.mul_apply, Fin.sum_univ_three] <;> ring_nf <;> norm_num
  · simp [skewedInverse, skewed]

/-- **C94, refutation.** Two accepted systems, one of them exactly orthonormal, whose sum raises an exception. The matrices of the systems
differ from their sum only by a rotation: whether a system is accepted depends on how it is rotated. -/
theorem C94_sum_counterexample : constructTol skewed.orientation skewed.coordinates = .ok skewed ∧ rotated.Orthonormal ∧
    addTol skewed rotated = .error .notOrthogonal ∧
    constructTol (rotated.orientation * skewed.orientation) 0 = .error .notOrthogonal := by
  have hN : normalizeColumns (rotated.orientation * skewed.orientation) = .ok (rotated.orientation * skewed.orientation) := by
    refine normalize_unit fun j => ?_
    rw [gram_col]
    fin_cases j <;> simp [rotated, skewed, dot3, Matrix.mul_apply, Fin.sum_univ_three] <;> norm_num
  have hO : ¬nearlyOrthogonal (rotated.orientation * skewed.orientation) := fun h => by
    have := h 0 1
    rw [nearly, Matrix.one_apply_ne (by decide), abs_le] at this
    simp [rotated, skewed, Matrix.mul_apply, Fin.sum_univ_three] at this
    norm_num at this
  exact ⟨skewed_accepted, rotated_orthonormal, constructTol_rejected _ hN hO, constructTol_rejected _ hN hO⟩

/-- **C94, refutation.** An accepted system `a` whose difference `a - a` raises an exception, although its inverse is accepted and
orthonormal. Inverting twice does not give the system. -/
theorem C94_difference_counterexample : constructTol skewed.orientation skewed.coordinates = .ok skewed ∧
    (Calc.inverse (.system skewed)).eval = .ok skewedInverse ∧ skewedInverse.Orthonormal ∧
    subTol skewed skewed = .error .notOrthogonal ∧ (Calc.inverse (.inverse (.system skewed))).eval = .ok skewedInverse ∧
    skewedInverse ≠ skewed := by
  have h2 : √2 * √2 = 2 := Real.mul_self_sqrt (by norm_num)
  have ho : skewedInverse.Orthonormal := by
    rw [Lcs.orthonormal_iff]
    ext i j
    fin_cases i <;> fin_cases j <;> simp [skewedInverse, Matrix.mul_apply, Fin.sum_univ_three] <;> linarith
  have he : (Calc.inverse (.system skewed)).eval = .ok skewedInverse := by simp only [Calc.eval]; exact skewedInverse_eq
  refine ⟨skewed_accepted, he, ho, ?_, ?_, ?_⟩
  · have hN : normalizeColumns (skewedInverse.orientation * skewed.orientation) = .ok (skewedInverse.orientation * skewed.orientation) := by
      refine normalize_unit fun j => ?_
      rw [gram_col]
      fin_cases j <;> simp [skewedInverse, skewed, dot3, Matrix.mul_apply, Fin.sum_univ_three] <;> ring_nf <;> norm_num
    have hO : ¬nearlyOrthogonal (skewedInverse.orientation * skewed.orientation) := fun h => by
      have := h 0 1
      rw [nearly, Matrix.one_apply_ne (by decide), abs_le] at this
      simp [skewedInverse, skewed, Matrix.mul_apply, Fin.sum_univ_three] at this
      ring_nf at this
      norm_num at this
    simp only [subTol, skewedInverse_eq]
    exact constructTol_rejected _ hN hO
  · simp only [Calc.eval, skewedInverse_eq]
    have hT : skewedInverse.orientationᵀ = skewedInverse.orientation := by
      ext i j
      fin_cases i <;> fin_cases j <;> simp [skewedInverse]
    have := constructTol_orthonormal ho
    have hc : skewedInverse.orientationᵀ *ᵥ (-skewedInverse.coordinates) = skewedInverse.coordinates := by simp [skewedInverse]
    rw [invertTol, hc, hT]
    exact this
  · intro h
    have h1 := congrArg (fun f : Lcs ℝ => f.orientation 0 0 - f.orientation 1 0) h
    simp [skewedInverse, skewed] at h1
    norm_num at h1

/-! ## Examples -/

/-- the hypotheses of `C94_inverse_error` and `C94_inverse_defect` hold for a system that is not orthonormal -/
example : constructTol skewed.orientation skewed.coordinates = .ok skewed ∧ invertTol skewed = .ok skewedInverse ∧ ¬skewed.Orthonormal := by
  refine ⟨skewed_accepted, skewedInverse_eq, fun h => ?_⟩
  have := congrArg (fun A : Mat3 ℝ => A 0 1) ((Lcs.orthonormal_iff _).1 h)
  simp [skewed, Matrix.mul_apply, Fin.sum_univ_three] at this
  norm_num at this

/-- the hypotheses of `C94_sum_error` hold for the inverse of that system, twice -/
example : ∃ c, constructTol skewedInverse.orientation skewedInverse.coordinates = .ok skewedInverse ∧
    addTol skewedInverse skewedInverse = .ok c := by
  have ho := C94_difference_counterexample.2.2.1
  have := C94_exact_calculation (.sum (.system skewedInverse) (.system skewedInverse)) (by simp [Calc.systems, ho])
  exact ⟨_, constructTol_orthonormal ho, this⟩

/-- the hypotheses of `C94_difference_error` -/
example : ∃ c, constructTol skewedInverse.orientation skewedInverse.coordinates = .ok skewedInverse ∧
    constructTol rotated.orientation rotated.coordinates = .ok rotated ∧ subTol skewedInverse rotated = .ok c := by
  have ho := C94_difference_counterexample.2.2.1
  have := C94_exact_calculation (.sum (.system skewedInverse) (.inverse (.system rotated)))
    (by simp [Calc.systems, ho, rotated_orthonormal])
  refine ⟨(Calc.sum (.system skewedInverse) (.inverse (.system rotated))).exact, constructTol_orthonormal ho,
    constructTol_orthonormal rotated_orthonormal, ?_⟩
  rw [← this]
  simp only [Calc.eval, subTol]

/-- a thousand systems with rounding errors of doubles can be added: `1000 * 1e-15 * (1 + 1e-7) ^ 1000` is below `1e-8` -/
example : ((1000 : ℕ) : ℝ) * (1 / 10 ^ 15) * (1 + 1 / 10 ^ 7) ^ 1000 ≤ 1 / 10 ^ 8 := by
  have h : ((1 : ℝ) + 1 / 10 ^ 7) ^ 1000 ≤ 2 ^ 10 := by
    calc ((1 : ℝ) + 1 / 10 ^ 7) ^ 1000 = (((1 : ℝ) + 1 / 10 ^ 7) ^ 100) ^ 10 := by rw [← pow_mul]
      _ ≤ 2 ^ 10 := pow_le_pow_left₀ (by positivity) (by norm_num) 10
  generalize ((1 : ℝ) + 1 / 10 ^ 7) ^ 1000 = x at h ⊢
  push_cast
  norm_num at h ⊢
  linarith

/-- the hypothesis of `C94_inverse_accepted` -/
example : ∀ i j, i ≠ j → |(skewed.orientation * skewed.orientationᵀ) i j| ≤ 4 / 10 ^ 9 := by
  intro i j h
  fin_cases i <;> fin_cases j <;> first | exact absurd rfl h | (simp [skewed, Matrix.mul_apply, Fin.sum_univ_three]; try norm_num)

end Weldx
