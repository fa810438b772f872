import Verif.Frame.Lemmas

/-!
# C01 - C04: coordinate system algebra
-/

namespace Weldx
open Matrix
variable {K : Type*} [CommRing K]

/-- **C01.** Mapping with `a + b` is mapping with `a`, then with `b`. -/
theorem C01_add_composes (a b : Lcs K) (p : Vec3 K) :
    (a.add b).toParent p = b.toParent (a.toParent p) := by
  simp only [Lcs.toParent_eq, Lcs.add, Matrix.mulVec_add, Matrix.mulVec_mulVec, add_assoc]

/-- **C01.** `+` is associative. -/
theorem C01_add_assoc (a b c : Lcs K) : (a.add b).add c = a.add (b.add c) :=
  Lcs.ext_toParent fun p => by simp only [C01_add_composes]

/-- **C01.** The default system maps each point to itself and is neutral. -/
theorem C01_default_neutral (a : Lcs K) (p : Vec3 K) :
    (Lcs.default : Lcs K).toParent p = p ∧ Lcs.default.add a = a ∧ a.add Lcs.default = a := by
  have h : ∀ p, (Lcs.default : Lcs K).toParent p = p := by
    intro p; simp [Lcs.toParent_eq, Lcs.default]
  refine ⟨h p, Lcs.ext_toParent fun q => ?_, Lcs.ext_toParent fun q => ?_⟩ <;>
    simp only [C01_add_composes, h]

/-- A quarter turn about z, shifted by (1,2,3); used as a non-trivial instance below. -/
def quarterZ : Lcs ℤ := ⟨!![0, -1, 0; 1, 0, 0; 0, 0, 1], ![1, 2, 3]⟩
/-- A quarter turn about x, shifted by (0,5,0). -/
def quarterX : Lcs ℤ := ⟨!![1, 0, 0; 0, 0, -1; 0, 1, 0], ![0, 5, 0]⟩

theorem quarterZ_orthonormal : quarterZ.Orthonormal := by
  unfold Lcs.Orthonormal; decide

theorem quarterX_orthonormal : quarterX.Orthonormal := by
  unfold Lcs.Orthonormal; decide

/-- C01 instance: the operands do not commute and the image is what a drawing shows. -/
example : (quarterZ.add quarterX).toParent ![1, 0, 0] = ![1, 2, 3] := by decide
example : quarterZ.add quarterX ≠ quarterX.add quarterZ := by
  intro h
  exact absurd (congrFun (congrArg Lcs.coordinates h) 0) (by decide)

/-- **C02.** The inverse maps every point back, in both directions, and so `a + a⁻¹` and `a⁻¹ + a`
are the default system. -/
theorem C02_invert_inverse (f : Lcs K) (h : f.Orthonormal) (p : Vec3 K) :
    f.invert.toParent (f.toParent p) = p ∧ f.toParent (f.invert.toParent p) = p ∧
      f.add f.invert = Lcs.default ∧ f.invert.add f = Lcs.default := by
  have h1 := (Lcs.orthonormal_iff f).1 h
  have h2 := (Lcs.orthonormal_iff' f).1 h
  have e1 : ∀ p, f.invert.toParent (f.toParent p) = p := by
    intro p
    simp [Lcs.toParent_eq, Lcs.invert, Matrix.mulVec_add, h1, Matrix.mulVec_neg]
  have e2 : ∀ p, f.toParent (f.invert.toParent p) = p := by
    intro p
    simp [Lcs.toParent_eq, Lcs.invert, Matrix.mulVec_add, h2, Matrix.mulVec_neg]
  refine ⟨e1 p, e2 p, Lcs.ext_toParent fun q => ?_, Lcs.ext_toParent fun q => ?_⟩
  · rw [C01_add_composes, e1, (C01_default_neutral f q).1]
  · rw [C01_add_composes, e2, (C01_default_neutral f q).1]

/-- **C02.** Inverting twice gives the original. -/
theorem C02_invert_invert (f : Lcs K) (h : f.Orthonormal) : f.invert.invert = f := by
  have h2 := (Lcs.orthonormal_iff' f).1 h
  ext1
  · simp [Lcs.invert]
  · simp [Lcs.invert, Matrix.mulVec_neg, h2]

/-- **C02.** `(a + b) - b = a`. -/
theorem C02_add_sub_cancel (a b : Lcs K) (h : b.Orthonormal) : (a.add b).sub b = a := by
  rw [Lcs.sub, C01_add_assoc, (C02_invert_inverse b h 0).2.2.1, (C01_default_neutral a 0).2.2]

/-- **C02.** If `a` and `b` share a parent, `a - b` is the one and only system that describes `a`
as seen from `b`. -/
theorem C02_sub_relative (a b : Lcs K) (h : b.Orthonormal) :
    (∀ p, b.toParent ((a.sub b).toParent p) = a.toParent p) ∧
      ∀ f : Lcs K, (∀ p, b.toParent (f.toParent p) = a.toParent p) → f = a.sub b := by
  refine ⟨fun p => ?_, fun f hf => ?_⟩
  · rw [Lcs.sub, C01_add_composes, (C02_invert_inverse b h _).2.1]
  · have : f.add b = a := Lcs.ext_toParent fun p => by rw [C01_add_composes, hf]
    rw [← this, C02_add_sub_cancel f b h]

/-- **C02.** The matrix formulas documented for `-`: `R = R_r⁻¹ R_l`, `T = R_r⁻¹ (T_l - T_r)`. -/
theorem C02_sub_formula (a b : Lcs K) (h : b.Orthonormal) :
    (a.sub b).orientation = b.orientation⁻¹ * a.orientation ∧
      (a.sub b).coordinates = b.orientation⁻¹ *ᵥ (a.coordinates - b.coordinates) := by
  have h1 := (Lcs.orthonormal_iff b).1 h
  have hi : b.orientation⁻¹ = b.orientationᵀ := Matrix.inv_eq_left_inv h1
  rw [hi]
  constructor
  · simp [Lcs.sub, Lcs.add, Lcs.invert]
  · rw [Matrix.mulVec_sub]
    simp [Lcs.sub, Lcs.add, Lcs.invert, Matrix.mulVec_neg, sub_eq_add_neg]

example : quarterZ.sub quarterX ≠ quarterZ ∧ (quarterZ.add quarterX).sub quarterX = quarterZ := by
  refine ⟨fun h => ?_, C02_add_sub_cancel _ _ quarterX_orthonormal⟩
  exact absurd (congrFun (congrArg Lcs.coordinates h) 1) (by decide)

/-- **C03.** Sum, inverse and difference of valid systems are valid. -/
theorem C03_orthonormal_closed (a b : Lcs K) (ha : a.Orthonormal) (hb : b.Orthonormal) :
    (a.add b).Orthonormal ∧ a.invert.Orthonormal ∧ (a.sub b).Orthonormal ∧
      (Lcs.default : Lcs K).Orthonormal := by
  have hinv : ∀ f : Lcs K, f.Orthonormal → f.invert.Orthonormal := by
    intro f hf
    rw [Lcs.orthonormal_iff]
    simpa [Lcs.invert] using (Lcs.orthonormal_iff' f).1 hf
  have hadd : ∀ f g : Lcs K, f.Orthonormal → g.Orthonormal → (f.add g).Orthonormal := by
    intro f g hf hg
    rw [Lcs.orthonormal_iff] at *
    simp only [Lcs.add, Matrix.transpose_mul]
    calc f.orientationᵀ * g.orientationᵀ * (g.orientation * f.orientation)
        = f.orientationᵀ * (g.orientationᵀ * g.orientation) * f.orientation := by
          simp only [Matrix.mul_assoc]
      _ = 1 := by rw [hg, Matrix.mul_one, hf]
  refine ⟨hadd a b ha hb, hinv a ha, hadd _ _ ha (hinv b hb), ?_⟩
  rw [Lcs.orthonormal_iff]; simp [Lcs.default]

/-- **C03.** Handedness multiplies, is kept by inversion, and is `1` or `-1`; so right-handed
systems stay right-handed. -/
theorem C03_handedness (a b : Lcs K) :
    (a.add b).handedness = a.handedness * b.handedness ∧
      a.invert.handedness = a.handedness ∧
      (a.Orthonormal → a.handedness * a.handedness = 1) ∧
      (a.handedness = 1 → b.handedness = 1 →
        (a.add b).handedness = 1 ∧ a.invert.handedness = 1 ∧ (a.sub b).handedness = 1) := by
  have hadd : ∀ f g : Lcs K, (f.add g).handedness = f.handedness * g.handedness := by
    intro f g
    simp only [Lcs.handedness_eq_det, Lcs.add, Matrix.det_mul, mul_comm]
  have hinv : ∀ f : Lcs K, f.invert.handedness = f.handedness := by
    intro f; simp only [Lcs.handedness_eq_det, Lcs.invert, Matrix.det_transpose]
  refine ⟨hadd a b, hinv a, fun h => ?_, fun h1 h2 => ⟨?_, ?_, ?_⟩⟩
  · have := congrArg Matrix.det ((Lcs.orthonormal_iff a).1 h)
    simpa [Lcs.handedness_eq_det, Matrix.det_mul, Matrix.det_transpose] using this
  · rw [hadd, h1, h2, mul_one]
  · rw [hinv, h1]
  · rw [Lcs.sub, hadd, hinv, h1, h2, mul_one]

/-- **C03.** Transforming points preserves all scalar products of differences, hence distances and
angles. -/
theorem C03_isometry (f : Lcs K) (h : f.Orthonormal) (p q r : Vec3 K) :
    dot3 (f.toParent p - f.toParent r) (f.toParent q - f.toParent r) = dot3 (p - r) (q - r) ∧
      distSq (f.toParent p) (f.toParent q) = distSq p q := by
  have key : ∀ u v : Vec3 K,
      dot3 (f.orientation *ᵥ u) (f.orientation *ᵥ v) = dot3 u v := by
    intro u v
    have hd : ∀ x y : Vec3 K, dot3 x y = x ⬝ᵥ y := by
      intro x y; simp [dot3, dotProduct, Fin.sum_univ_three]
    rw [hd, hd, Matrix.dotProduct_mulVec, Matrix.vecMul_mulVec, (Lcs.orthonormal_iff f).1 h]
    simp
  have hsub : ∀ x y : Vec3 K, f.toParent x - f.toParent y = f.orientation *ᵥ (x - y) := by
    intro x y; simp [Lcs.toParent_eq, Matrix.mulVec_sub]
  have hdist : ∀ x y : Vec3 K, distSq x y = dot3 (x - y) (x - y) := by
    intro x y; simp [distSq, dot3]; ring
  exact ⟨by rw [hsub, hsub, key], by rw [hdist, hdist, hsub, key]⟩

example : quarterZ.Orthonormal ∧ quarterZ.handedness = 1 ∧
    distSq (quarterZ.toParent ![1, 0, 0]) (quarterZ.toParent ![0, 1, 0]) = 2 :=
  ⟨quarterZ_orthonormal, by decide, by decide⟩

/-- **C03.** The constructor accepts a list of axes exactly if they are non-zero and pairwise
perpendicular; the axes of the result are the given ones scaled to length one, the origin is kept. -/
theorem C03_construct_iff (M : Mat3 ℝ) (T : Vec3 ℝ) :
    (∃ f, construct M T = .ok f) ↔
      ((∀ j, (fun i => M i j) ≠ 0) ∧
        ∀ j k, j ≠ k → dot3 (fun i => M i j) (fun i => M i k) = 0) := by
  have hN : ∀ j, norm2 (fun i => M i j) ≠ 0 ↔ (fun i => M i j) ≠ 0 := fun j =>
    not_congr (norm2_eq_zero_iff _)
  unfold construct checkAndNormalize normalizeColumns
  by_cases hz : ∀ j, norm2 (fun i => M i j) ≠ 0
  · rw [if_pos hz]
    simp only [bind, Except.bind]
    set N : Mat3 ℝ := Matrix.of fun i j => M i j / norm2 (fun i => M i j) with hNdef
    have hortho : N * Nᵀ = 1 ↔ ∀ j k, j ≠ k → dot3 (fun i => M i j) (fun i => M i k) = 0 := by
      have h1 := Lcs.orthonormal_iff' (⟨N, T⟩ : Lcs ℝ)
      simp only at h1
      rw [← h1]
      constructor
      · intro h j k hjk
        have h2 := h j k
        rw [if_neg hjk] at h2
        simp only [Lcs.axis, dot3, hNdef, Matrix.of_apply] at h2 ⊢
        have hj := hz j
        have hk := hz k
        field_simp at h2
        linarith
      · intro h j k
        by_cases hjk : j = k
        · subst hjk
          have hj := hz j
          have hs := norm2_sq (fun i => M i j)
          simp only [dot3] at hs
          simp only [Lcs.axis, dot3, hNdef, Matrix.of_apply, if_true]
          field_simp
          linarith
        · have h2 := h j k hjk
          simp only [Lcs.axis, dot3, hNdef, Matrix.of_apply, if_neg hjk] at h2 ⊢
          have hj := hz j
          have hk := hz k
          field_simp
          linarith
    by_cases ho : N * Nᵀ = 1
    · rw [if_pos ho]
      simp only [Except.ok.injEq, exists_eq', true_iff]
      exact ⟨fun j => (hN j).1 (hz j), hortho.1 ho⟩
    · rw [if_neg ho]
      simp only [reduceCtorEq, exists_false, false_iff]
      rintro ⟨-, h⟩
      exact ho (hortho.2 h)
  · rw [if_neg hz]
    simp only [bind, Except.bind, reduceCtorEq, exists_false, false_iff]
    rintro ⟨h, -⟩
    exact hz fun j => (hN j).2 (h j)

/-- **C03.** What an accepted construction returns: a valid system at the given origin whose axes are
the given vectors up to a positive factor. -/
theorem C03_construct_result (M : Mat3 ℝ) (T : Vec3 ℝ) (f : Lcs ℝ) (h : construct M T = .ok f) :
    f.Orthonormal ∧ f.coordinates = T ∧
      ∀ j, ∃ s : ℝ, 0 < s ∧ (fun i => M i j) = s • f.axis j := by
  unfold construct checkAndNormalize normalizeColumns at h
  by_cases hz : ∀ j, norm2 (fun i => M i j) ≠ 0
  · rw [if_pos hz] at h
    simp only [bind, Except.bind] at h
    split at h
    · cases h
    · rename_i v hv
      split at hv
      · rename_i ho
        cases hv
        cases h
        refine ⟨(Lcs.orthonormal_iff' _).2 ho, rfl, fun j => ⟨norm2 (fun i => M i j), ?_, ?_⟩⟩
        · exact lt_of_le_of_ne (norm2_nonneg _) (hz j).symm
        · funext i
          have hj := hz j
          simp only [Lcs.axis, Pi.smul_apply, smul_eq_mul, Matrix.of_apply]
          field_simp
      · cases hv
  · rw [if_neg hz] at h
    simp [bind, Except.bind] at h

/-- **C04.** Two perpendicular non-zero vectors (any two of the three axes) always give a system; its
given axes point along the given vectors, it is orthonormal and right-handed. -/
theorem C04_from_two_axes (u v T : Vec3 ℝ) (hu : u ≠ 0) (hv : v ≠ 0) (huv : dot3 u v = 0) :
    (∃ f, fromAxisVectors (some u) (some v) none T = .ok f ∧ f.Orthonormal ∧ f.handedness = 1 ∧
      f.coordinates = T ∧ (∃ s : ℝ, 0 < s ∧ u = s • f.axis 0) ∧ ∃ s : ℝ, 0 < s ∧ v = s • f.axis 1) ∧
    (∃ f, fromAxisVectors (some u) none (some v) T = .ok f ∧ f.Orthonormal ∧ f.handedness = 1 ∧
      f.coordinates = T ∧ (∃ s : ℝ, 0 < s ∧ u = s • f.axis 0) ∧ ∃ s : ℝ, 0 < s ∧ v = s • f.axis 2) ∧
    (∃ f, fromAxisVectors none (some u) (some v) T = .ok f ∧ f.Orthonormal ∧ f.handedness = 1 ∧
      f.coordinates = T ∧ (∃ s : ℝ, 0 < s ∧ u = s • f.axis 1) ∧ ∃ s : ℝ, 0 < s ∧ v = s • f.axis 2) := by
  -- the cross product is not zero
  have hcross : ∀ a b : Vec3 ℝ, a ≠ 0 → b ≠ 0 → dot3 a b = 0 → 0 < dot3 (crossProduct a b) (crossProduct a b) := by
    intro a b ha hb hab
    have hpos : ∀ w : Vec3 ℝ, w ≠ 0 → 0 < dot3 w w := by
      intro w hw
      rw [← norm2_sq]
      have := mt (norm2_eq_zero_iff w).1 hw
      positivity
    have : dot3 (crossProduct a b) (crossProduct a b) = dot3 a a * dot3 b b - dot3 a b ^ 2 := by
      simp [dot3, cross_apply]; ring
    rw [this, hab]
    nlinarith [mul_pos (hpos a ha) (hpos b hb)]
  -- common part for a right-handed, perpendicular triple
  have main : ∀ w : Fin 3 → Vec3 ℝ, (∀ j, w j ≠ 0) → (∀ j k, j ≠ k → dot3 (w j) (w k) = 0) →
      0 < dot3 (w 0) (crossProduct (w 1) (w 2)) →
      ∃ f, construct (Matrix.of fun i j => w j i) T = .ok f ∧ f.Orthonormal ∧ f.handedness = 1 ∧
        f.coordinates = T ∧ ∀ j, ∃ s : ℝ, 0 < s ∧ w j = s • f.axis j := by
    intro w hnz hort hpos
    obtain ⟨f, hf⟩ := (C03_construct_iff (Matrix.of fun i j => w j i) T).2 ⟨hnz, hort⟩
    obtain ⟨h1, h2, h3⟩ := C03_construct_result _ _ _ hf
    refine ⟨f, hf, h1, ?_, h2, h3⟩
    obtain ⟨s0, hs0, e0⟩ := h3 0
    obtain ⟨s1, hs1, e1⟩ := h3 1
    obtain ⟨s2, hs2, e2⟩ := h3 2
    have e0' : w 0 = s0 • f.axis 0 := e0
    have e1' : w 1 = s1 • f.axis 1 := e1
    have e2' : w 2 = s2 • f.axis 2 := e2
    have hdet : dot3 (w 0) (crossProduct (w 1) (w 2)) = (s0 * s1 * s2) * f.handedness := by
      rw [e0', e1', e2']
      simp [dot3, cross_apply, Lcs.handedness]; ring
    rw [hdet] at hpos
    have hs : 0 < s0 * s1 * s2 := by positivity
    have hp : 0 < f.handedness := by
      by_contra hcon
      nlinarith
    have hsq := (C03_handedness f f).2.2.1 h1
    nlinarith
  have hd : ∀ a b : Vec3 ℝ, dot3 a b = dot3 b a := by intro a b; simp [dot3]; ring
  have hd1 : ∀ a b : Vec3 ℝ, dot3 a (crossProduct a b) = 0 := by
    intro a b; simp [dot3, cross_apply]; ring
  have hd2 : ∀ a b : Vec3 ℝ, dot3 b (crossProduct a b) = 0 := by
    intro a b; simp [dot3, cross_apply]; ring
  have hnz : ∀ a : Vec3 ℝ, 0 < dot3 a a → a ≠ 0 := by
    rintro a h rfl; simp [dot3] at h
  refine ⟨?_, ?_, ?_⟩
  · obtain ⟨f, hf, h1, h2, h3, h4⟩ := main ![u, v, crossProduct u v]
      (by intro j; fin_cases j
          · exact hu
          · exact hv
          · exact hnz _ (hcross u v hu hv huv))
      (by intro j k hjk
          fin_cases j <;> fin_cases k <;> simp at hjk ⊢
          · exact huv
          · exact hd1 u v
          · rw [hd]; exact huv
          · exact hd2 u v
          · rw [hd]; exact hd1 u v
          · rw [hd]; exact hd2 u v)
      (by have := hcross u v hu hv huv
          have e : dot3 u (crossProduct v (crossProduct u v)) = dot3 (crossProduct u v) (crossProduct u v) := by
            simp [dot3, cross_apply]; ring
          simpa [e] using this)
    exact ⟨f, by simpa [fromAxisVectors, completeAxes, bind, Except.bind] using hf, h1, h2, h3,
      h4 0, h4 1⟩
  · obtain ⟨f, hf, h1, h2, h3, h4⟩ := main ![u, crossProduct v u, v]
      (by intro j; fin_cases j
          · exact hu
          · exact hnz _ (hcross v u hv hu (by rw [hd]; exact huv))
          · exact hv)
      (by intro j k hjk
          fin_cases j <;> fin_cases k <;> simp at hjk ⊢
          · exact hd2 v u
          · exact huv
          · rw [hd]; exact hd2 v u
          · rw [hd]; exact hd1 v u
          · rw [hd]; exact huv
          · exact hd1 v u)
      (by have := hcross v u hv hu (by rw [hd]; exact huv)
          have e : dot3 u (crossProduct (crossProduct v u) v) = dot3 (crossProduct v u) (crossProduct v u) := by
            simp [dot3, cross_apply]; ring
          simpa [e] using this)
    exact ⟨f, by simpa [fromAxisVectors, completeAxes, bind, Except.bind] using hf, h1, h2, h3,
      h4 0, h4 2⟩
  · obtain ⟨f, hf, h1, h2, h3, h4⟩ := main ![crossProduct u v, u, v]
      (by intro j; fin_cases j
          · exact hnz _ (hcross u v hu hv huv)
          · exact hu
          · exact hv)
      (by intro j k hjk
          fin_cases j <;> fin_cases k <;> simp at hjk ⊢
          · rw [hd]; exact hd1 u v
          · rw [hd]; exact hd2 u v
          · exact hd1 u v
          · exact huv
          · exact hd2 u v
          · rw [hd]; exact huv)
      (by simpa using hcross u v hu hv huv)
    exact ⟨f, by simpa [fromAxisVectors, completeAxes, bind, Except.bind] using hf, h1, h2, h3,
      h4 1, h4 2⟩

/-- **C04.** With fewer than two axes the construction raises. -/
theorem C04_too_few_axes (u T : Vec3 ℝ) :
    fromAxisVectors none none none T = .error .tooFewVectors ∧
    fromAxisVectors (some u) none none T = .error .tooFewVectors ∧
    fromAxisVectors none (some u) none T = .error .tooFewVectors ∧
    fromAxisVectors none none (some u) T = .error .tooFewVectors := by
  refine ⟨rfl, rfl, rfl, rfl⟩

/-- **C04.** Three axes are accepted exactly if they are non-zero and pairwise perpendicular. -/
theorem C04_from_three_axes (x y z T : Vec3 ℝ) :
    (∃ f, fromAxisVectors (some x) (some y) (some z) T = .ok f) ↔
      (x ≠ 0 ∧ y ≠ 0 ∧ z ≠ 0 ∧ dot3 x y = 0 ∧ dot3 x z = 0 ∧ dot3 y z = 0) := by
  have : fromAxisVectors (some x) (some y) (some z) T
      = construct (Matrix.of fun i j => (![x, y, z] : Fin 3 → Vec3 ℝ) j i) T := by
    simp [fromAxisVectors, completeAxes, bind, Except.bind]
  rw [this, C03_construct_iff]
  have hd : ∀ a b : Vec3 ℝ, dot3 a b = dot3 b a := by intro a b; simp [dot3]; ring
  constructor
  · rintro ⟨h1, h2⟩
    exact ⟨h1 0, h1 1, h1 2, h2 0 1 (by decide), h2 0 2 (by decide), h2 1 2 (by decide)⟩
  · rintro ⟨hx, hy, hz, hxy, hxz, hyz⟩
    refine ⟨fun j => ?_, fun j k hjk => ?_⟩
    · fin_cases j
      · exact hx
      · exact hy
      · exact hz
    · fin_cases j <;> fin_cases k <;> simp at hjk ⊢
      · exact hxy
      · exact hxz
      · rw [hd]; exact hxy
      · exact hyz
      · rw [hd]; exact hxz
      · rw [hd]; exact hyz

/-- C04 instance: the docstring example (`local_cs.py` 517-526). -/
example : ∃ f, fromAxisVectors (some ![2, 2, 0]) none (some ![0, 0, 3]) 0 = .ok f ∧
    f.handedness = 1 := by
  obtain ⟨-, ⟨f, h, -, h2, -⟩, -⟩ := C04_from_two_axes ![2, 2, 0] ![0, 0, 3] 0
    (by intro h; simpa using congrFun h 0) (by intro h; simpa using congrFun h 2)
    (by simp [dot3])
  exact ⟨f, h, h2⟩

end Weldx
