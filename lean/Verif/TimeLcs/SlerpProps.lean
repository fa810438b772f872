import Verif.TimeLcs.SlerpLemmas
import Verif.TimeLcs.Props

/-!
# Properties of the interpolation of rotations (C96)
-/

namespace Weldx.Turn

open Matrix Real Ip

/-! ### specification -/

/-- the angle of the rotation between two orientations -/
noncomputable def angle (A B : Mat3 ℝ) : ℝ := arccos (((Aᵀ * B).trace - 1) / 2)

/-- one orientation is the other one after a half turn -/
def HalfTurn (A B : Mat3 ℝ) : Prop := angle A B = π

/-- an orientation that turns about a fixed axis with a constant rate -/
noncomputable def uniform (A : Mat3 ℝ) (a : Vec3 ℝ) (rate phase : ℝ) (t : ℝ) : Mat3 ℝ := A * about a (rate * t + phase)

/-! ### helpers -/

theorem fromRotvec_cosine (v : Vec3 ℝ) : cosine (fromRotvec v) = cos (norm2 v) := by
  obtain ⟨a, ha, hv⟩ := exists_axis v
  conv_lhs => rw [hv]
  rw [fromRotvec_axis ha, about_cosine ha]

theorem angle_of {A B : Mat3 ℝ} {v : Vec3 ℝ} (h : Aᵀ * B = fromRotvec v) (hv : norm2 v ≤ π) : angle A B = norm2 v := by
  have h1 : angle A B = arccos (cosine (fromRotvec v)) := by rw [angle, cosine, h]
  rw [h1, fromRotvec_cosine, Real.arccos_cos (norm2_nonneg v) hv]

variable {L : Mat3 ℝ → Vec3 ℝ}

theorem RotvecOk.angle (hL : RotvecOk L) {A B : Mat3 ℝ} (hA : Rotation A) (hB : Rotation B) : angle A B = norm2 (L (Aᵀ * B)) := by
  have h := rotation_mul (rotation_transpose hA) hB
  exact angle_of (hL.inverse _ h).symm (hL.small _ h)

theorem rotvec_eq (hL : RotvecOk L) {R : Mat3 ℝ} {v : Vec3 ℝ} (h : R = fromRotvec v) (hv : norm2 v < π) : L R = v := by
  have hR : Rotation R := h ▸ fromRotvec_rotation v
  have h1 : fromRotvec (L R) = fromRotvec v := by rw [hL.inverse R hR, h]
  rcases rotvec_unique (hL.small R hR) hv.le h1 with h2 | ⟨h2, h3⟩
  · exact h2
  · have : norm2 (L R) = norm2 v := by rw [h3, ← neg_one_smul ℝ, norm2_smul]; simp
    linarith

theorem mul_cancel {A : Mat3 ℝ} (hA : Rotation A) (B : Mat3 ℝ) : A * (Aᵀ * B) = B := by
  rw [← Matrix.mul_assoc, hA.1, Matrix.one_mul]

theorem cancel_mul {A : Mat3 ℝ} (hA : Rotation A) (B : Mat3 ℝ) : Aᵀ * (A * B) = B := by
  rw [← Matrix.mul_assoc, rotation_left hA, Matrix.one_mul]

/-! ### C96 -/

/-- **C96** (rotation vectors): every rotation has a rotation vector with an angle of at most a half turn -/
theorem C96_exists : ∃ L, RotvecOk L := by
  classical
  refine ⟨fun R => if h : Rotation R then Classical.choose (exists_rotvec h) else 0, ?_, ?_⟩ <;> intro R hR
  · simp only [dif_pos hR]
    exact (Classical.choose_spec (exists_rotvec hR)).1
  · simp only [dif_pos hR]
    exact (Classical.choose_spec (exists_rotvec hR)).2

/-- **C96** (rotations about an axis): the axis stays and vectors that are normal to it turn towards the cross product -/
theorem C96_about {a : Vec3 ℝ} (ha : Unit3 a) (t : ℝ) :
    Rotation (about a t) ∧ about a t *ᵥ a = a ∧ (∀ x, dot3 a x = 0 → about a t *ᵥ x = cos t • x + sin t • (a ⨯₃ x)) := by
  refine ⟨about_rotation ha t, about_axis ha t, ?_⟩
  intro x hx
  have hx : a 0 * x 0 + a 1 * x 1 + a 2 * x 2 = 0 := hx
  funext i
  fin_cases i <;>
    simp [about, skew, proj, Matrix.mulVec, dotProduct, Fin.sum_univ_three, Matrix.one_apply, crossProduct]
  · linear_combination (1 - cos t) * a 0 * hx
  · linear_combination (1 - cos t) * a 1 * hx
  · linear_combination (1 - cos t) * a 2 * hx

/-- **C96** (ends): the interpolation gives the orientations at its ends and rotations in between -/
theorem C96_slerp_ok (hL : RotvecOk L) : SlerpOk (slerp L) := by
  refine ⟨?_, ?_, ?_⟩
  · intro A B _ _
    simp [slerp, fromRotvec_zero]
  · intro A B hA hB
    rw [slerp, one_smul, hL.inverse _ (rotation_mul (rotation_transpose hA) hB), mul_cancel hA]
  · intro A B w hA _
    exact rotation_mul hA (fromRotvec_rotation _)

/-- **C96** (constant rate): the rotation between two interpolated orientations only depends on the difference of the weights -/
theorem C96_rate (hL : RotvecOk L) {A B : Mat3 ℝ} (hA : Rotation A) (hB : Rotation B) (w u d : ℝ) :
    (slerp L A B w)ᵀ * slerp L A B (w + d) = (slerp L A B u)ᵀ * slerp L A B (u + d) := by
  have _ := hL
  have _ := hB
  have h : ∀ w, (slerp L A B w)ᵀ * slerp L A B (w + d) = fromRotvec (d • L (Aᵀ * B)) := by
    intro w
    rw [slerp, slerp, Matrix.transpose_mul, Matrix.mul_assoc, cancel_mul hA, ← fromRotvec_neg, ← neg_smul, fromRotvec_smul_mul]
    ring_nf
  rw [h, h]

/-- **C96** (angles): the angle grows in proportion to the weight, so the interpolated orientations are on the shortest way -/
theorem C96_angle (hL : RotvecOk L) {A B : Mat3 ℝ} (hA : Rotation A) (hB : Rotation B) {w u : ℝ} (h0 : 0 ≤ w) (h1 : w ≤ u) (h2 : u ≤ 1) :
    angle (slerp L A B w) (slerp L A B u) = (u - w) * angle A B := by
  have h := rotation_mul (rotation_transpose hA) hB
  have hn : norm2 ((u - w) • L (Aᵀ * B)) = (u - w) * norm2 (L (Aᵀ * B)) := by rw [norm2_smul, abs_of_nonneg (by linarith)]
  rw [hL.angle hA hB, ← hn]
  refine angle_of ?_ ?_
  · rw [slerp, slerp, Matrix.transpose_mul, Matrix.mul_assoc, cancel_mul hA, ← fromRotvec_neg, ← neg_smul, fromRotvec_smul_mul]
    ring_nf
  · rw [hn]
    have := hL.small _ h
    have := norm2_nonneg (L (Aᵀ * B))
    nlinarith

/-- **C96** (whole path): the angles from an end to an interpolated orientation and on to the other end add up -/
theorem C96_path (hL : RotvecOk L) {A B : Mat3 ℝ} (hA : Rotation A) (hB : Rotation B) {w : ℝ} (h0 : 0 ≤ w) (h1 : w ≤ 1) :
    angle A (slerp L A B w) = w * angle A B ∧ angle (slerp L A B w) B = (1 - w) * angle A B := by
  have ok := C96_slerp_ok hL
  refine ⟨?_, ?_⟩
  · have := C96_angle hL hA hB le_rfl h0 h1
    rwa [ok.zero _ _ hA hB, sub_zero] at this
  · have := C96_angle hL hA hB h0 h1 le_rfl
    rwa [ok.one _ _ hA hB] at this

/-- **C96** (one answer): except for half turns all rotation vectors give the same interpolation -/
theorem C96_unique {L' : Mat3 ℝ → Vec3 ℝ} (hL : RotvecOk L) (hL' : RotvecOk L') {A B : Mat3 ℝ} (hA : Rotation A) (hB : Rotation B)
    (h : ¬HalfTurn A B) (w : ℝ) : slerp L A B w = slerp L' A B w := by
  have hR := rotation_mul (rotation_transpose hA) hB
  rw [slerp, slerp, rotvec_eq hL (hL'.inverse _ hR).symm (lt_of_le_of_ne (hL'.small _ hR) ?_)]
  rwa [← hL'.angle hA hB]

/-- **C96** (parent frame): turning both orientations in the parent system turns the interpolated one -/
theorem C96_left {Q : Mat3 ℝ} (hQ : Rotation Q) (A B : Mat3 ℝ) (w : ℝ) : slerp L (Q * A) (Q * B) w = Q * slerp L A B w := by
  rw [slerp, slerp, Matrix.transpose_mul, Matrix.mul_assoc Aᵀ, cancel_mul hQ, Matrix.mul_assoc]

/-- **C96** (child frame): turning the child system in the same way at both times turns it in between, except for half turns -/
theorem C96_right_partial (hL : RotvecOk L) {A B Q : Mat3 ℝ} (hA : Rotation A) (hB : Rotation B) (hQ : Rotation Q) (h : ¬HalfTurn A B)
    (w : ℝ) : slerp L (A * Q) (B * Q) w = slerp L A B w * Q := by
  have hR := rotation_mul (rotation_transpose hA) hB
  have hlt : norm2 (L (Aᵀ * B)) < π := lt_of_le_of_ne (hL.small _ hR) (by rwa [← hL.angle hA hB])
  have hQt := rotation_transpose hQ
  have key : (A * Q)ᵀ * (B * Q) = fromRotvec (Qᵀ *ᵥ L (Aᵀ * B)) := by
    have h1 := fromRotvec_conj hQt (L (Aᵀ * B))
    rw [hL.inverse _ hR] at h1
    have h2 : Qᵀ * (Aᵀ * B) * Q = fromRotvec (Qᵀ *ᵥ L (Aᵀ * B)) := by rw [h1, Matrix.mul_assoc, rotation_left hQ, Matrix.mul_one]
    rw [← h2, Matrix.transpose_mul]
    simp only [Matrix.mul_assoc]
  rw [slerp, slerp, rotvec_eq hL key (by rwa [rotation_norm hQt]), ← Matrix.mulVec_smul]
  have h3 := fromRotvec_conj hQt (w • L (Aᵀ * B))
  have h4 : fromRotvec (Qᵀ *ᵥ (w • L (Aᵀ * B))) = Qᵀ * fromRotvec (w • L (Aᵀ * B)) * Q := by
    rw [h3, Matrix.mul_assoc, rotation_left hQ, Matrix.mul_one]
  rw [h4, Matrix.mul_assoc A Q, ← Matrix.mul_assoc Q, ← Matrix.mul_assoc Q, hQ.1, Matrix.one_mul, Matrix.mul_assoc]

/-- **C96** (inverse): the interpolation of the inverse orientations is the inverse one, except for half turns -/
theorem C96_inverse_partial (hL : RotvecOk L) {A B : Mat3 ℝ} (hA : Rotation A) (hB : Rotation B) (h : ¬HalfTurn A B) (w : ℝ) :
    slerp L Aᵀ Bᵀ w = (slerp L A B w)ᵀ := by
  have hR := rotation_mul (rotation_transpose hA) hB
  have hlt : norm2 (L (Aᵀ * B)) < π := lt_of_le_of_ne (hL.small _ hR) (by rwa [← hL.angle hA hB])
  have key : Aᵀᵀ * Bᵀ = fromRotvec (A *ᵥ (-L (Aᵀ * B))) := by
    have h1 := fromRotvec_conj hA (-L (Aᵀ * B))
    rw [fromRotvec_neg, hL.inverse _ hR, Matrix.transpose_mul, Matrix.transpose_transpose] at h1
    have h2 : A * (Bᵀ * A) * Aᵀ = fromRotvec (A *ᵥ -L (Aᵀ * B)) := by rw [h1, Matrix.mul_assoc, hA.1, Matrix.mul_one]
    rw [← h2, Matrix.transpose_transpose, ← Matrix.mul_assoc, Matrix.mul_assoc, hA.1, Matrix.mul_one]
  have hn : norm2 (A *ᵥ (-L (Aᵀ * B))) < π := by
    rw [rotation_norm hA, ← neg_one_smul ℝ, norm2_smul]
    simpa using hlt
  rw [slerp, slerp, rotvec_eq hL key hn, ← Matrix.mulVec_smul, Matrix.transpose_mul, smul_neg]
  have h3 := fromRotvec_conj hA (-(w • L (Aᵀ * B)))
  have h4 : fromRotvec (A *ᵥ (-(w • L (Aᵀ * B)))) = A * fromRotvec (-(w • L (Aᵀ * B))) * Aᵀ := by
    rw [h3, Matrix.mul_assoc, hA.1, Matrix.mul_one]
  rw [h4, Matrix.mul_assoc, cancel_mul hA, fromRotvec_neg]

/-- **C96** (reversal): going back passes the same orientations, except for half turns -/
theorem C96_reverse_partial (hL : RotvecOk L) {A B : Mat3 ℝ} (hA : Rotation A) (hB : Rotation B) (h : ¬HalfTurn A B) (w : ℝ) :
    slerp L B A (1 - w) = slerp L A B w := by
  have hR := rotation_mul (rotation_transpose hA) hB
  have hlt : norm2 (L (Aᵀ * B)) < π := lt_of_le_of_ne (hL.small _ hR) (by rwa [← hL.angle hA hB])
  have key : Bᵀ * A = fromRotvec (-L (Aᵀ * B)) := by
    rw [fromRotvec_neg, hL.inverse _ hR, Matrix.transpose_mul, Matrix.transpose_transpose]
  have hn : norm2 (-L (Aᵀ * B)) < π := by
    rw [← neg_one_smul ℝ, norm2_smul]
    simpa using hlt
  have hB' : B = A * fromRotvec ((1 : ℝ) • L (Aᵀ * B)) := by rw [one_smul, hL.inverse _ hR, mul_cancel hA]
  rw [slerp, slerp, rotvec_eq hL key hn, smul_neg, ← neg_smul]
  conv_lhs => rw [hB']
  rw [Matrix.mul_assoc, ← hB', fromRotvec_smul_mul]
  ring_nf

/-- **C96** (no motion): between equal orientations nothing turns -/
theorem C96_same (hL : RotvecOk L) {A : Mat3 ℝ} (hA : Rotation A) (w : ℝ) : slerp L A A w = A := by
  have h0 : norm2 (0 : Vec3 ℝ) = 0 := by simp [norm2]
  have h : L (Aᵀ * A) = 0 := rotvec_eq hL (by rw [rotation_left hA, fromRotvec_zero]) (by rw [h0]; exact Real.pi_pos)
  rw [slerp, h, smul_zero, fromRotvec_zero, Matrix.mul_one]

theorem three_squares {x y z : ℝ} (h : x ^ 2 + y ^ 2 + z ^ 2 = 0) : x = 0 ∧ y = 0 ∧ z = 0 := by
  have := sq_nonneg x
  have := sq_nonneg y
  have := sq_nonneg z
  refine ⟨?_, ?_, ?_⟩ <;> refine pow_eq_zero_iff (two_ne_zero) |>.1 ?_ <;> linarith

/-- a rotation fixes the directions of its rotation vector only -/
theorem fixed_of_fixed {v x : Vec3 ℝ} (hv : norm2 v ≤ π) (h : fromRotvec v *ᵥ x = x) (w : ℝ) : fromRotvec (w • v) *ᵥ x = x := by
  obtain ⟨a, ha, hva⟩ := exists_axis v
  rcases (norm2_nonneg v).eq_or_lt with h0 | h0
  · have : v = 0 := (norm2_eq_zero_iff v).1 h0.symm
    rw [this, smul_zero, fromRotvec_zero, Matrix.one_mulVec]
  have hc : cos (norm2 v) < 1 := by
    have := Real.strictAntiOn_cos ⟨le_rfl, Real.pi_pos.le⟩ ⟨h0.le, hv⟩ h0
    rwa [Real.cos_zero] at this
  have ha' := ha.eq
  rw [hva, fromRotvec_axis ha] at h
  have e0 := congrFun h 0; have e1 := congrFun h 1; have e2 := congrFun h 2
  simp [about, skew, proj, Matrix.mulVec, dotProduct, Fin.sum_univ_three, Matrix.one_apply] at e0 e1 e2
  generalize cos (norm2 v) = c at *
  generalize sin (norm2 v) = d at *
  obtain ⟨k, hk⟩ : ∃ k, k = a 0 * x 0 + a 1 * x 1 + a 2 * x 2 := ⟨_, rfl⟩
  have h1 : (1 - c) * (x 0 * x 0 + x 1 * x 1 + x 2 * x 2 - k * k) = 0 := by
    rw [hk]
    linear_combination -x 0 * e0 - x 1 * e1 - x 2 * e2
  have h2 : x 0 * x 0 + x 1 * x 1 + x 2 * x 2 - k * k = 0 := (mul_eq_zero.1 h1).resolve_left (by linarith)
  have h3 : (x 0 - k * a 0) ^ 2 + (x 1 - k * a 1) ^ 2 + (x 2 - k * a 2) ^ 2 = 0 := by
    linear_combination h2 + k * k * ha' + 2 * k * hk
  obtain ⟨g0, g1, g2⟩ := three_squares h3
  have hx : x = k • a := by
    funext i
    fin_cases i
    · exact sub_eq_zero.1 g0
    · exact sub_eq_zero.1 g1
    · exact sub_eq_zero.1 g2
  rw [hva, smul_smul, fromRotvec_axis ha, hx, Matrix.mulVec_smul, about_axis ha]

/-- **C96** (common directions): a direction that is the same in both orientations stays -/
theorem C96_fixed (hL : RotvecOk L) {A B : Mat3 ℝ} (hA : Rotation A) (hB : Rotation B) {x : Vec3 ℝ} (h : A *ᵥ x = B *ᵥ x) (w : ℝ) :
    slerp L A B w *ᵥ x = A *ᵥ x := by
  have hR := rotation_mul (rotation_transpose hA) hB
  have h1 : fromRotvec (L (Aᵀ * B)) *ᵥ x = x := by
    rw [hL.inverse _ hR, ← Matrix.mulVec_mulVec, ← h, Matrix.mulVec_mulVec, rotation_left hA, Matrix.one_mulVec]
  rw [slerp, ← Matrix.mulVec_mulVec, fixed_of_fixed (hL.small _ hR) h1]

/-- **C96** (common axis): two rotations about one axis by angles that differ by less than a half turn are interpolated by
interpolating the angle -/
theorem C96_axis (hL : RotvecOk L) {A : Mat3 ℝ} (hA : Rotation A) {a : Vec3 ℝ} (ha : Unit3 a) {s t : ℝ} (h : |t - s| < π) (w : ℝ) :
    slerp L (A * about a s) (A * about a t) w = A * about a (s + w * (t - s)) := by
  have key : (about a s)ᵀ * about a t = fromRotvec ((t - s) • a) := by
    rw [about_transpose, about_mul ha, fromRotvec_axis ha]
    ring_nf
  rw [C96_left hA, slerp, rotvec_eq hL key (by rwa [norm2_smul, unit_norm ha, mul_one]), smul_smul, fromRotvec_axis ha, about_mul ha]

/-- **C96** (wrong way): if the angles differ by more than a half turn, but less than a full one, the interpolation turns the other
way round -/
theorem C96_axis_other (hL : RotvecOk L) {A : Mat3 ℝ} (hA : Rotation A) {a : Vec3 ℝ} (ha : Unit3 a) {s t : ℝ} (h : π < t - s)
    (h' : t - s < 2 * π) (w : ℝ) : slerp L (A * about a s) (A * about a t) w = A * about a (s - w * (2 * π - (t - s))) := by
  have e : about a t = about a (t - 2 * π) := by
    simp [about, Real.cos_sub_two_pi, Real.sin_sub_two_pi]
  rw [e, C96_axis hL hA ha (by rw [abs_lt]; constructor <;> linarith)]
  ring_nf

/-- **C96** (uniform rotations): samples of a rotation with a constant rate are interpolated exactly, if it turns by less than a half
turn between neighbouring samples -/
theorem C96_uniform (hL : RotvecOk L) {A : Mat3 ℝ} (hA : Rotation A) {a : Vec3 ℝ} (ha : Unit3 a) {rate phase : ℝ} {s : Series (Mat3 ℝ)}
    (hs : Ascending s) (hv : ∀ p ∈ s, p.2 = uniform A a rate phase p.1)
    (hn : ∀ i p q, s[i]? = some p → s[i + 1]? = some q → |rate * ((q.1 : ℝ) - p.1)| < π) {t : Int} {p q : Int × Mat3 ℝ}
    (hp : s.head? = some p) (hq : s.getLast? = some q) (h1 : p.1 ≤ t) (h2 : t ≤ q.1) {R : Mat3 ℝ} (h : Value (slerp L) s t R) :
    R = uniform A a rate phase t := by
  cases h with
  | before hp' ht =>
    rw [hp] at hp'
    cases hp'
    rw [hv _ (List.mem_of_mem_head? hp), le_antisymm ht h1]
  | after hq' ht =>
    rw [hq] at hq'
    cases hq'
    rw [hv _ (List.mem_of_getLast? hq), le_antisymm ht h2]
  | @between i b c hb hc h3 h4 =>
    have hlt : b.1 < c.1 := by
      obtain ⟨i1, e1⟩ := List.getElem?_eq_some_iff.1 hb
      obtain ⟨i2, e2⟩ := List.getElem?_eq_some_iff.1 hc
      have := List.pairwise_iff_getElem.1 hs i (i + 1) i1 i2 (by omega)
      rwa [e1, e2] at this
    have hne : ((c.1 : ℝ) - b.1) ≠ 0 := by
      have : (b.1 : ℝ) < c.1 := by exact_mod_cast hlt
      linarith
    rw [hv _ (List.mem_of_getElem? hb), hv _ (List.mem_of_getElem? hc), uniform, uniform, C96_axis hL hA ha, uniform]
    · congr 2
      field_simp
      ring
    · have := hn i b c hb hc
      convert this using 2
      ring

/-- **C96** (full turns): an orientation that makes a full turn between two samples stays where it is -/
theorem C96_full_turn (hL : RotvecOk L) {A : Mat3 ℝ} (hA : Rotation A) {a : Vec3 ℝ} (ha : Unit3 a) (s w : ℝ) :
    slerp L (A * about a s) (A * about a (s + 2 * π)) w = A * about a s := by
  have e : about a (s + 2 * π) = about a s := by simp [about]
  rw [e, C96_same hL (rotation_mul hA (about_rotation ha s))]

/-! ### series -/

theorem value_map {V : Type} {mix : V → V → ℝ → V} {f : V → V} {s : Series V} {t : Int} {v : V} (h : Value mix s t v)
    (hf : ∀ i p q, s[i]? = some p → s[i + 1]? = some q → ∀ w, mix (f p.2) (f q.2) w = f (mix p.2 q.2 w)) :
    Value mix (s.map fun p => (p.1, f p.2)) t (f v) := by
  cases h with
  | @before p hp ht => exact .before (p := (p.1, f p.2)) (by rw [List.head?_map, hp]; rfl) ht
  | @after p hp ht => exact .after (p := (p.1, f p.2)) (by rw [List.getLast?_map, hp]; rfl) ht
  | @between i p q hp hq h1 h2 =>
    rw [← hf i p q hp hq]
    exact .between (i := i) (p := (p.1, f p.2)) (q := (q.1, f q.2)) (by rw [List.getElem?_map, hp]; rfl) (by rw [List.getElem?_map, hq]; rfl) h1 h2

/-- **C96** (series in a turned parent system): turning all samples in the parent system turns all interpolated orientations -/
theorem C96_series_left {Q : Mat3 ℝ} (hQ : Rotation Q) {s : Series (Mat3 ℝ)} {t : Int} {R : Mat3 ℝ} (h : Value (slerp L) s t R) :
    Value (slerp L) (s.map fun p => (p.1, Q * p.2)) t (Q * R) :=
  value_map (f := fun A => Q * A) h fun _ _ _ _ _ _ => C96_left hQ _ _ _

/-- **C96** (series of a turned child system): the same for the child system, if no two neighbouring samples differ by a half turn -/
theorem C96_series_right_partial (hL : RotvecOk L) {Q : Mat3 ℝ} (hQ : Rotation Q) {s : Series (Mat3 ℝ)} (hs : ∀ p ∈ s, Rotation p.2)
    (hn : ∀ i p q, s[i]? = some p → s[i + 1]? = some q → ¬HalfTurn p.2 q.2) {t : Int} {R : Mat3 ℝ} (h : Value (slerp L) s t R) :
    Value (slerp L) (s.map fun p => (p.1, p.2 * Q)) t (R * Q) :=
  value_map (f := fun A => A * Q) h fun i p q hp hq w =>
    C96_right_partial hL (hs _ (List.mem_of_getElem? hp)) (hs _ (List.mem_of_getElem? hq)) hQ (hn i p q hp hq) w

/-- **C96** (inverse series): interpolating the inverse orientations gives the inverse ones, if no two neighbouring samples differ by
a half turn -/
theorem C96_series_inverse_partial (hL : RotvecOk L) {s : Series (Mat3 ℝ)} (hs : ∀ p ∈ s, Rotation p.2)
    (hn : ∀ i p q, s[i]? = some p → s[i + 1]? = some q → ¬HalfTurn p.2 q.2) {t : Int} {R : Mat3 ℝ} (h : Value (slerp L) s t R) :
    Value (slerp L) (s.map fun p => (p.1, p.2ᵀ)) t Rᵀ :=
  value_map (f := fun A => Aᵀ) h fun i p q hp hq w =>
    C96_inverse_partial hL (hs _ (List.mem_of_getElem? hp)) (hs _ (List.mem_of_getElem? hq)) (hn i p q hp hq) w

/-- **C96** (time dependent systems): `interp_time` of a system whose orientations are samples of a rotation with a constant rate gives
this rotation at all requested times in the range of the samples -/
theorem C96_interp_time (hL : RotvecOk L) {A : Mat3 ℝ} (hA : Rotation A) {a : Vec3 ℝ} (ha : Unit3 a) {rate phase : ℝ} {c : TLcs}
    (hc : c.WF) (hd : c.dependent = true) {l : List (Mat3 ℝ)} (hl : c.orient = .series l)
    (hv : ∀ p ∈ c.clock.zip l, p.2 = uniform A a rate phase p.1)
    (hn : ∀ (i : ℕ) (x y : Int), c.clock[i]? = some x → c.clock[i + 1]? = some y → |rate * ((y : ℝ) - x)| < π) {t t' : Time} {tref : Option Int}
    (ht : t.ofTime tref = .ok t') (hta : t'.vals.Pairwise (· < ·)) (hne : t'.vals ≠ []) (hk : c.ref.isSome = t'.abs) :
    ∃ r, c.interpTime (slerp L) (some t) tref = .ok r ∧ ∀ x ∈ t'.vals, ∀ first last, c.clock.head? = some first →
      c.clock.getLast? = some last → first ≤ x → x ≤ last → ∀ f, r.At (slerp L) x f → f.orientation = uniform A a rate phase x := by
  obtain ⟨r, hr, h1, _⟩ := TLcs.C20_interp_time (C96_slerp_ok hL) hc hd ht hta hne hk
  refine ⟨r, hr, ?_⟩
  intro x hx first last hf hla hfx hxl f hat
  have hlen : c.clock.length = l.length := by
    obtain ⟨ts, e1, _, _, e3, _⟩ := hc.series hd
    rw [hl] at e3
    rw [TLcs.clock_length e1]
    exact e3.symm
  have h2 := ((h1 x hx f).1 hat).1
  rw [hl] at h2
  cases h2 with
  | series h2 =>
    have hpos : 0 < l.length := by
      rw [← hlen]
      cases hcl : c.clock with
      | nil => rw [hcl] at hf; simp at hf
      | cons _ _ => simp
    have hzl : (c.clock.zip l).length = l.length := by rw [List.length_zip, hlen, min_self]
    obtain ⟨p, hp⟩ : ∃ p, (c.clock.zip l).head? = some p := ⟨_, List.head?_eq_some_head (by rw [Ne, ← List.length_eq_zero_iff]; omega)⟩
    obtain ⟨q, hq⟩ : ∃ q, (c.clock.zip l).getLast? = some q :=
      ⟨_, List.getLast?_eq_some_getLast (by rw [Ne, ← List.length_eq_zero_iff]; omega)⟩
    have hp1 : p.1 = first := by
      rw [List.head?_eq_getElem?] at hp hf
      rw [(List.getElem?_zip_eq_some.1 hp).1] at hf
      exact Option.some.inj hf
    have hq1 : q.1 = last := by
      rw [List.getLast?_eq_getElem?] at hq hla
      rw [hzl, ← hlen] at hq
      rw [(List.getElem?_zip_eq_some.1 hq).1] at hla
      exact Option.some.inj hla
    refine C96_uniform hL hA ha (zip_asc (TLcs.clock_asc hc) l) hv ?_ hp hq (by omega) (by omega) h2
    intro i b d hb hd
    exact hn i _ _ (List.getElem?_zip_eq_some.1 hb).1 (List.getElem?_zip_eq_some.1 hd).1

/-! ### half turns -/

/-- the axis of the examples -/
def up : Vec3 ℝ := ![0, 0, 1]

theorem up_unit : Unit3 up := by simp [Unit3, dot3, up]

/-- a half turn about the third axis -/
noncomputable def half : Mat3 ℝ := about up π

theorem half_symm : halfᵀ = half := by
  rw [half, about_transpose]
  simp [about]

theorem half_rotation : Rotation half := about_rotation up_unit π

theorem one_rotation : Rotation (1 : Mat3 ℝ) := ⟨by simp, by simp⟩

theorem half_rotvec (hL : RotvecOk L) : L half = π • up ∨ L half = -(π • up) := by
  have h : fromRotvec (L half) = fromRotvec (π • up) := by rw [hL.inverse _ half_rotation, fromRotvec_axis up_unit, half]
  have hn : norm2 (π • up) = π := by rw [norm2_smul, unit_norm up_unit, mul_one, abs_of_pos Real.pi_pos]
  rcases rotvec_unique (hL.small _ half_rotation) hn.le h with h | h
  · exact Or.inl h
  · exact Or.inr h.2

theorem quarter_ne : about up (π / 2) ≠ about up (-(π / 2)) := by
  intro h
  have := congrFun (congrFun h 1) 0
  simp [about, up, skew, proj] at this
  linarith

theorem half_middle (hL : RotvecOk L) : fromRotvec ((1 / 2 : ℝ) • L half) ≠ (fromRotvec ((1 / 2 : ℝ) • L half))ᵀ := by
  rcases half_rotvec hL with h | h <;> rw [h]
  · rw [smul_smul, fromRotvec_axis up_unit, about_transpose, show (1 / 2 : ℝ) * π = π / 2 by ring]
    exact quarter_ne
  · rw [smul_neg, ← neg_smul, smul_smul, fromRotvec_axis up_unit, about_transpose, show -(1 / 2 : ℝ) * π = -(π / 2) by ring, neg_neg]
    exact quarter_ne.symm

/-- **C96** refutation of the reversal for half turns: whatever axis scipy chooses, the way back differs from the way there -/
theorem C96_reverse_counterexample (hL : RotvecOk L) : ∃ A B, Rotation A ∧ Rotation B ∧ slerp L B A (1 - 1 / 2) ≠ slerp L A B (1 / 2) := by
  refine ⟨1, half, one_rotation, half_rotation, ?_⟩
  have e : half = fromRotvec ((1 / 2 : ℝ) • L half) * fromRotvec ((1 / 2 : ℝ) • L half) := by
    rw [fromRotvec_smul_mul]; norm_num; rw [hL.inverse _ half_rotation]
  have h1 : slerp L half 1 (1 - 1 / 2) = half * fromRotvec ((1 / 2 : ℝ) • L half) := by
    rw [slerp, Matrix.mul_one, half_symm]; norm_num
  have h2 : slerp L 1 half (1 / 2) = fromRotvec ((1 / 2 : ℝ) • L half) := by simp [slerp]
  rw [h1, h2]
  intro h
  have hr := fromRotvec_rotation ((1 / 2 : ℝ) • L half)
  have h3 := congrArg (· * (fromRotvec ((1 / 2 : ℝ) • L half))ᵀ) h
  simp only [Matrix.mul_assoc, hr.1, Matrix.mul_one] at h3
  refine half_middle hL ?_
  have h4 := congrArg (· * (fromRotvec ((1 / 2 : ℝ) • L half))ᵀ) (e.symm.trans h3)
  simpa only [Matrix.mul_assoc, hr.1, Matrix.mul_one, Matrix.one_mul] using h4

/-- **C96** refutation of the inverse for half turns -/
theorem C96_inverse_counterexample (hL : RotvecOk L) : ∃ A B, Rotation A ∧ Rotation B ∧ slerp L Aᵀ Bᵀ (1 / 2) ≠ (slerp L A B (1 / 2))ᵀ := by
  refine ⟨1, half, one_rotation, half_rotation, ?_⟩
  rw [half_symm, Matrix.transpose_one]
  have h2 : slerp L 1 half (1 / 2) = fromRotvec ((1 / 2 : ℝ) • L half) := by simp [slerp]
  rw [h2]
  exact half_middle hL

/-- the first axis -/
def side : Vec3 ℝ := ![1, 0, 0]

theorem side_unit : Unit3 side := by simp [Unit3, dot3, side]

/-- **C96** refutation for the child system: if the child is turned over at both times of a half turn, it turns the other way -/
theorem C96_right_counterexample (hL : RotvecOk L) :
    ∃ A B Q, Rotation A ∧ Rotation B ∧ Rotation Q ∧ slerp L (A * Q) (B * Q) (1 / 2) ≠ slerp L A B (1 / 2) * Q := by
  have hQ := about_rotation side_unit π
  refine ⟨1, half, about side π, one_rotation, half_rotation, hQ, ?_⟩
  have e : (1 * about side π)ᵀ * (half * about side π) = half := by
    ext i j
    fin_cases i <;> fin_cases j <;> simp [half, about, up, side, skew, proj, Matrix.mul_apply, Fin.sum_univ_three, Matrix.one_apply]
  have hm : about side π *ᵥ up = -up := by
    funext i
    fin_cases i <;> simp [about, up, side, skew, proj, Matrix.mulVec, dotProduct, Fin.sum_univ_three, Matrix.one_apply]
  have hv : about side π *ᵥ L half = -L half := by
    rcases half_rotvec hL with h | h <;> rw [h]
    · rw [Matrix.mulVec_smul, hm, smul_neg]
    · rw [Matrix.mulVec_neg, Matrix.mulVec_smul, hm, smul_neg]
  have h2 : slerp L 1 half (1 / 2) = fromRotvec ((1 / 2 : ℝ) • L half) := by simp [slerp]
  rw [slerp, e, h2, Matrix.one_mul, fromRotvec_conj hQ, Matrix.mulVec_smul, hv, smul_neg, fromRotvec_neg]
  intro h
  have h3 := congrArg (· * (about side π)ᵀ) h
  simp only [Matrix.mul_assoc, hQ.1, Matrix.mul_one] at h3
  exact half_middle hL h3.symm

/-- **C96** refutation of the constant rate: two samples of a rotation by three quarters of a turn are joined by a quarter turn back -/
theorem C96_uniform_counterexample (hL : RotvecOk L) : ∃ A B t, A = about up 0 ∧ B = about up (3 * π / 2) ∧ t = (1 / 2 : ℝ) ∧
    slerp L A B t = about up (-(π / 4)) ∧ slerp L A B t ≠ about up (t * (3 * π / 2)) := by
  have h := C96_axis_other hL one_rotation up_unit (s := 0) (t := 3 * π / 2) (by linarith [Real.pi_pos]) (by linarith [Real.pi_pos]) (1 / 2)
  simp only [Matrix.one_mul] at h
  have e : (0 : ℝ) - 1 / 2 * (2 * π - (3 * π / 2 - 0)) = -(π / 4) := by ring
  rw [e] at h
  refine ⟨_, _, _, rfl, rfl, rfl, h, ?_⟩
  rw [h]
  intro h'
  have h2 := congrArg cosine h'
  rw [about_cosine up_unit, about_cosine up_unit, Real.cos_neg] at h2
  have h3 : 0 < cos (π / 4) := Real.cos_pos_of_mem_Ioo ⟨by linarith [Real.pi_pos], by linarith [Real.pi_pos]⟩
  have h4 : cos (1 / 2 * (3 * π / 2)) < 0 := Real.cos_neg_of_pi_div_two_lt_of_lt (by linarith [Real.pi_pos]) (by linarith [Real.pi_pos])
  linarith

/-- **C96** refutation of a single answer: for half turns two choices of the rotation vectors give different interpolations -/
theorem C96_unique_counterexample : ∃ L L', RotvecOk L ∧ RotvecOk L' ∧ slerp L 1 half (1 / 2) ≠ slerp L' 1 half (1 / 2) := by
  obtain ⟨L, hL⟩ := C96_exists
  classical
  have hL' : RotvecOk fun R => if R = half then -L R else L R := by
    refine ⟨?_, ?_⟩ <;> intro R hR <;> split
    · next h => rw [fromRotvec_neg, hL.inverse R hR, h, half_symm]
    · exact hL.inverse R hR
    · rw [← neg_one_smul ℝ, norm2_smul]
      simpa using hL.small R hR
    · exact hL.small R hR
  refine ⟨L, _, hL, hL', ?_⟩
  have h2 : slerp L 1 half (1 / 2) = fromRotvec ((1 / 2 : ℝ) • L half) := by simp [slerp]
  rw [h2, slerp, Matrix.transpose_one, Matrix.one_mul, Matrix.one_mul, if_pos rfl, smul_neg, fromRotvec_neg]
  exact half_middle hL

/-! ### examples -/

/-- a quarter turn is no half turn -/
theorem quarter_not_half : ¬HalfTurn (1 : Mat3 ℝ) (about up (π / 2)) := by
  have hn : norm2 ((π / 2) • up) = π / 2 := by rw [norm2_smul, unit_norm up_unit, mul_one, abs_of_pos (by linarith [Real.pi_pos])]
  have := angle_of (A := 1) (B := about up (π / 2)) (v := (π / 2) • up)
    (by rw [Matrix.transpose_one, Matrix.one_mul, fromRotvec_axis up_unit]) (by rw [hn]; linarith [Real.pi_pos])
  rw [HalfTurn, this, hn]
  linarith [Real.pi_pos]

/-- half of a quarter turn, from both sides -/
example (hL : RotvecOk L) : slerp L 1 (about up (π / 2)) (1 / 2) = about up (π / 4) ∧
    slerp L (about up (π / 2)) 1 (1 - 1 / 2) = about up (π / 4) := by
  have h : slerp L 1 (about up (π / 2)) (1 / 2) = about up (π / 4) := by
    have := C96_axis hL one_rotation up_unit (s := 0) (t := π / 2)
      (by rw [abs_of_pos (by linarith [Real.pi_pos])]; linarith [Real.pi_pos]) (1 / 2)
    rw [about_zero, Matrix.one_mul, Matrix.one_mul, Matrix.one_mul] at this
    rw [this]
    ring_nf
  exact ⟨h, by rw [C96_reverse_partial hL one_rotation (about_rotation up_unit _) quarter_not_half, h]⟩

/-- three samples of a rotation by an eighth of a turn per unit of time -/
noncomputable def turning : TLcs := ⟨some [0, 1, 3], none, .series [about up 0, about up (π / 4), about up (3 * π / 4)], .static 0⟩

theorem turning_wf : turning.WF := by
  refine ⟨?_, ?_, ?_, ?_⟩
  · intro _
    exact ⟨[0, 1, 3], rfl, by decide, by decide, rfl, trivial⟩
  · intro h; cases h
  · intro h; cases h
  · intro v hv
    simp only [turning, List.mem_cons, List.not_mem_nil, or_false] at hv
    rcases hv with rfl | rfl | rfl <;> exact about_rotation up_unit _

/-- at the time two the system made a quarter turn -/
example (hL : RotvecOk L) : ∃ r, turning.interpTime (slerp L) (some ⟨false, [2], none⟩) none = .ok r ∧
    ∀ f, r.At (slerp L) 2 f → f.orientation = about up (π / 2) := by
  obtain ⟨r, hr, h⟩ := C96_interp_time hL one_rotation up_unit (rate := π / 4) (phase := 0) turning_wf rfl (l := _) rfl
    (by
      intro p hp
      simp only [turning, TLcs.clock, Option.getD, List.map, List.zip, List.zipWith, List.mem_cons, List.not_mem_nil, or_false] at hp
      rcases hp with rfl | rfl | rfl <;> simp [uniform] <;> ring_nf)
    (by
      intro i x y hx hy
      simp only [turning, TLcs.clock, Option.getD, List.map] at hx hy
      rcases i with _ | _ | _ | i <;> simp at hx hy
      all_goals
        subst hx hy
        rw [abs_of_pos (by norm_num; linarith [Real.pi_pos])]
        norm_num
        linarith [Real.pi_pos])
    (t := ⟨false, [2], none⟩) (t' := ⟨false, [2], none⟩) (tref := none) rfl (by simp) (by simp) rfl
  refine ⟨r, hr, fun f hf => ?_⟩
  rw [h 2 (by simp) 0 3 rfl rfl (by norm_num) (by norm_num) f hf, uniform, Matrix.one_mul]
  norm_num
  ring_nf

end Weldx.Turn
