import Verif.Trace.Model
import Verif.Geometry.Interp
import Mathlib.Analysis.SpecialFunctions.Trigonometric.Deriv
import Mathlib.Analysis.SpecialFunctions.Trigonometric.Bounds

/-!
# Systems on linear and radial trace segments
-/

namespace Weldx.Tr

open Matrix
open Weldx.Geo (clip npRound)

/-- rotation about the `z`-axis by an angle with the given cosine and sine -/
def rotZ (c s : ℝ) : Mat3 ℝ := !![c, -s, 0; s, c, 0; 0, 0, 1]

theorem rotZ_orth {c s : ℝ} (h : c * c + s * s = 1) : rotZ c s * (rotZ c s)ᵀ = 1 := by
  ext i j
  fin_cases i <;> fin_cases j <;> simp [rotZ, Matrix.mul_apply, Fin.sum_univ_three] <;> linarith

/-- axes that are positive multiples of orthonormal vectors -/
theorem construct_eq {M U : Mat3 ℝ} (T : Vec3 ℝ) (s : Fin 3 → ℝ) (hs : ∀ j, 0 < s j) (hM : ∀ i j, M i j = s j * U i j)
    (hU : U * Uᵀ = 1) : construct M T = .ok ⟨U, T⟩ := by
  have hU' : Uᵀ * U = 1 := mul_eq_one_comm.1 hU
  have hcol : ∀ j, norm2 (fun i => M i j) = s j := by
    intro j
    have h1 : U 0 j * U 0 j + U 1 j * U 1 j + U 2 j * U 2 j = 1 := by
      have := congrFun (congrFun hU' j) j
      simpa [Matrix.mul_apply, Fin.sum_univ_three] using this
    unfold norm2
    simp only [hM]
    have : (s j * U 0 j) ^ 2 + (s j * U 1 j) ^ 2 + (s j * U 2 j) ^ 2 = s j ^ 2 := by
      linear_combination (s j) ^ 2 * h1
    rw [this, Real.sqrt_sq (hs j).le]
  have hN : (Matrix.of fun i j => M i j / norm2 (fun i => M i j)) = U := by
    ext i j
    have := (hs j).ne'
    rw [Matrix.of_apply, hcol, hM]
    field_simp
  unfold construct checkAndNormalize normalizeColumns
  rw [if_pos (by intro j; rw [hcol]; exact (hs j).ne')]
  simp only [bind, Except.bind, hN]
  rw [if_pos hU]

/-- the system for a horizontal tangent -/
theorem lcs_horizontal (limit : Bool) (T : Vec3 ℝ) {r c s : ℝ} (hr : 0 < r) (h : c * c + s * s = 1) :
    lcsFromTangent limit T ![r * c, r * s, 0] = .ok ⟨rotZ c s, T⟩ := by
  unfold lcsFromTangent
  cases limit with
  | false =>
    simp only [Bool.false_eq_true, if_false]
    rw [construct_eq T ![r, r, r * r] (U := rotZ c s)]
    · rfl
    · intro j; fin_cases j <;> simp <;> positivity
    · intro i j
      fin_cases i <;> fin_cases j <;> simp [rotZ, cross_apply]
      linear_combination (r * r) * h
    · exact rotZ_orth h
  | true =>
    simp only [if_true]
    rw [construct_eq T ![r, r, 1] (U := rotZ c s)]
    · rfl
    · intro j; fin_cases j <;> simp <;> positivity
    · intro i j
      fin_cases i <;> fin_cases j <;> simp [rotZ, cross_apply]
    · exact rotZ_orth h

/-! ### linear segments -/

/-- the segment made by `linear` -/
noncomputable def lin (len : ℝ) : TSeg := .disc [(0, ![0, 0, 0]), (1, ![len, 0, 0])] false

theorem lin_length {len : ℝ} (h : 0 < len) : (lin len).length = len := by
  simp only [lin, TSeg.length, dataLength, norm2]
  simp
  exact Real.sqrt_sq h.le

theorem linear_eq (len : ℝ) : linear len = if len ≤ 0 then .error .valueError else .ok (lin len) := by
  unfold linear
  split
  · rfl
  · rename_i h
    unfold checkLength
    have := lin_length (not_le.1 h)
    unfold lin at this ⊢
    rw [if_neg (by rw [this]; exact h)]

theorem lin_eval (len w : ℝ) : interpDisc [(0, ![0, 0, 0]), (1, ![len, 0, 0])] w = ![clip w 0 1 * len, 0, 0] := by
  have h1 := @Geo.clip_of_le w
  have h2 := @Geo.clip_of_ge w
  have h3 := @Geo.clip_of_mem w
  simp only [interpDisc]
  split
  · rename_i h
    rw [h1 h]; simp
  · rename_i h
    split
    · rename_i h'
      rw [h3 (le_of_lt (not_le.1 h)) h']
      ext i; fin_cases i <;> simp
    · rename_i h'
      rw [h2 (le_of_lt (not_le.1 h'))]
      ext i; fin_cases i <;> simp

theorem lin_tangent {len w : ℝ} (hw : 0 ≤ w) : tangentDisc [(0, ![0, 0, 0]), (1, ![len, 0, 0])] w = ![len, 0, 0] := by
  unfold tangentDisc
  simp only [List.map_cons, List.map_nil, argmin, List.length_cons, List.length_nil, List.getD_cons_zero]
  have e0 : interpDisc [(0, ![0, 0, 0]), (1, ![len, 0, 0])] 0 = 0 := by
    rw [lin_eval, Geo.clip_of_le le_rfl]; ext i; fin_cases i <;> simp
  have e1 : interpDisc [(0, ![0, 0, 0]), (1, ![len, 0, 0])] 1 = ![len, 0, 0] := by
    rw [lin_eval, Geo.clip_of_ge le_rfl]; ext i; fin_cases i <;> simp
  by_cases h : |0 - w| ≤ |1 - w|
  · rw [if_pos h]
    rw [if_neg (by simp; exact hw)]
    simp [e0, e1]
  · rw [if_neg h]
    simp [e0, e1]

/-- before the start the index is `-1` and the tangent is turned around -/
theorem lin_tangent_neg {len w : ℝ} (hw : w < 0) :
    tangentDisc [(0, ![0, 0, 0]), (1, ![len, 0, 0])] w = ![-len, 0, 0] := by
  unfold tangentDisc
  simp only [List.map_cons, List.map_nil, argmin, List.length_cons, List.length_nil, List.getD_cons_zero]
  have e0 : interpDisc [(0, ![0, 0, 0]), (1, ![len, 0, 0])] 0 = 0 := by
    rw [lin_eval, Geo.clip_of_le le_rfl]; ext i; fin_cases i <;> simp
  have e1 : interpDisc [(0, ![0, 0, 0]), (1, ![len, 0, 0])] 1 = ![len, 0, 0] := by
    rw [lin_eval, Geo.clip_of_ge le_rfl]; ext i; fin_cases i <;> simp
  have h : |0 - w| ≤ |1 - w| := by
    rw [abs_of_pos (by linarith), abs_of_pos (by linarith)]; linarith
  rw [if_pos h, if_pos (by left; simpa using hw)]
  simp [e0, e1]

theorem lin_lcs {len w : ℝ} (hl : 0 < len) (hw : 0 ≤ w) :
    (lin len).lcs w = .ok ⟨1, ![clip w 0 1 * len, 0, 0]⟩ := by
  have h := lcs_horizontal false ![clip w 0 1 * len, 0, 0] (r := len) (c := 1) (s := 0) hl (by ring)
  have e : rotZ 1 0 = 1 := by
    ext i j; fin_cases i <;> fin_cases j <;> simp [rotZ]
  simp only [mul_one, mul_zero, e] at h
  simp only [lin, TSeg.lcs]
  rw [lin_eval, lin_tangent hw, h]

theorem lin_lcs_neg {len w : ℝ} (hl : 0 < len) (hw : w < 0) : (lin len).lcs w = .ok ⟨rotZ (-1) 0, 0⟩ := by
  have h := lcs_horizontal false (![0, 0, 0]) (r := len) (c := -1) (s := 0) hl (by ring)
  simp only [mul_neg, mul_one, mul_zero] at h
  simp only [lin, TSeg.lcs]
  rw [lin_eval, lin_tangent_neg hw, Geo.clip_of_le hw.le, zero_mul, h]
  congr 2
  ext i; fin_cases i <;> simp

/-! ### radial segments -/

/-- the segment made by `radial` -/
noncomputable def rad (r angle w : ℝ) : TSeg := .expr (radialCurve r w) (radialDeriv r w) angle (r * angle) false

theorem radial_eq (r angle : ℝ) (cw : Bool) : radial r angle cw =
    if r ≤ 0 ∨ angle ≤ 0 then .error .valueError else .ok (rad r angle (if cw then 1 else -1)) := by
  unfold radial
  by_cases h1 : r ≤ 0
  · rw [if_pos h1, if_pos (Or.inl h1)]
  · by_cases h2 : angle ≤ 0
    · rw [if_neg h1, if_pos h2, if_pos (Or.inr h2)]
    · have hl : ¬ (r ≤ 0 ∨ angle ≤ 0) := by rintro (h | h) <;> contradiction
      have hp : ¬ (rad r angle (if cw then 1 else -1)).length ≤ 0 := not_le.2 (mul_pos (not_le.1 h1) (not_le.1 h2))
      rw [if_neg h1, if_neg h2, if_neg hl]
      exact if_neg hp

theorem radialCurve_eq (r w s : ℝ) : radialCurve r w s = ![r * Real.sin s, r * (w * (Real.cos s - 1)), 0] := by
  ext i; fin_cases i <;> simp [radialCurve]

theorem radialDeriv_eq (r w s : ℝ) : radialDeriv r w s = ![r * Real.cos s, r * (-(w * Real.sin s)), 0] := by
  ext i; fin_cases i <;> simp [radialDeriv]

/-- the derivative used by the code is the derivative of the curve -/
theorem radial_deriv (r w s : ℝ) (i : Fin 3) : HasDerivAt (fun s => radialCurve r w s i) (radialDeriv r w s i) s := by
  simp only [radialCurve_eq, radialDeriv_eq]
  fin_cases i
  · simpa using (Real.hasDerivAt_sin s).const_mul r
  · have h1 := ((Real.hasDerivAt_cos s).sub_const 1).const_mul w |>.const_mul r
    simpa using h1
  · simpa using hasDerivAt_const s (0 : ℝ)

/-- the speed on the curve is the radius; therefore its length is radius times angle -/
theorem radial_speed {r w : ℝ} (hr : 0 ≤ r) (hw : w * w = 1) (s : ℝ) : norm2 (radialDeriv r w s) = r := by
  rw [radialDeriv_eq]
  unfold norm2
  simp only [Matrix.cons_val_zero, Matrix.cons_val_one, Matrix.cons_val]
  have h := Real.sin_sq_add_cos_sq s
  have : (r * Real.cos s) ^ 2 + (r * -(w * Real.sin s)) ^ 2 + 0 ^ 2 = r ^ 2 := by
    linear_combination (r ^ 2 * Real.sin s ^ 2) * hw + r ^ 2 * h
  rw [this, Real.sqrt_sq hr]

theorem rad_lcs {r angle w : ℝ} (hr : 0 < r) (hw : w * w = 1) (p : ℝ) : (rad r angle w).lcs p =
    .ok ⟨rotZ (Real.cos (p * angle)) (-(w * Real.sin (p * angle))), radialCurve r w (p * angle)⟩ := by
  simp only [rad, TSeg.lcs]
  rw [radialDeriv_eq, lcs_horizontal false _ hr]
  have h := Real.sin_sq_add_cos_sq (p * angle)
  linear_combination (Real.sin (p * angle)) ^ 2 * hw + h

/-! ### both kinds -/

/-- segments made by the two constructors -/
inductive IsHorizontal : TSeg → Prop
  | line {len : ℝ} (h : 0 < len) : IsHorizontal (lin len)
  | arc {r angle w : ℝ} (hr : 0 < r) (ha : 0 < angle) (hw : w * w = 1) : IsHorizontal (rad r angle w)

theorem linear_horizontal {len : ℝ} {s : TSeg} (h : linear len = .ok s) : IsHorizontal s := by
  rw [linear_eq] at h
  split at h
  · cases h
  · rename_i hl
    cases h
    exact .line (not_le.1 hl)

theorem radial_horizontal {r angle : ℝ} {cw : Bool} {s : TSeg} (h : radial r angle cw = .ok s) : IsHorizontal s := by
  rw [radial_eq] at h
  split at h
  · cases h
  · rename_i hl
    rw [not_or, not_le, not_le] at hl
    cases h
    exact .arc hl.1 hl.2 (by cases cw <;> simp)

theorem IsHorizontal.length_pos {s : TSeg} (h : IsHorizontal s) : 0 < s.length := by
  cases h with
  | line h => rw [lin_length h]; exact h
  | arc hr ha hw => exact mul_pos hr ha

/-- the plane: rotation about the `z`-axis, no height -/
def Planar (f : Lcs ℝ) : Prop := (∃ c s, c * c + s * s = 1 ∧ f.orientation = rotZ c s) ∧ f.coordinates 2 = 0

/-- every horizontal segment has a system at each position, it starts with the default one and stays in the plane -/
theorem IsHorizontal.lcs_ok {s : TSeg} (h : IsHorizontal s) (p : ℝ) : ∃ f, s.lcs p = .ok f ∧ Planar f := by
  cases h with
  | line h =>
    by_cases hp : 0 ≤ p
    · refine ⟨_, lin_lcs h hp, ⟨1, 0, by ring, ?_⟩, by simp⟩
      ext i j; fin_cases i <;> fin_cases j <;> simp [rotZ]
    · exact ⟨_, lin_lcs_neg h (not_le.1 hp), ⟨-1, 0, by ring, rfl⟩, by simp⟩
  | @arc r angle w hr ha hw =>
    refine ⟨_, rad_lcs hr hw p, ⟨_, _, ?_, rfl⟩, by simp [radialCurve_eq]⟩
    have h := Real.sin_sq_add_cos_sq (p * angle)
    linear_combination (Real.sin (p * angle)) ^ 2 * hw + h

theorem IsHorizontal.lcs_zero {s : TSeg} (h : IsHorizontal s) : s.lcs 0 = .ok Lcs.default := by
  cases h with
  | line h =>
    rw [lin_lcs h le_rfl, Geo.clip_of_le le_rfl]
    congr 1
    ext i
    · rfl
    · fin_cases i <;> simp [Lcs.default]
  | @arc r angle w hr ha hw =>
    rw [rad_lcs hr hw]
    congr 1
    ext i j
    · fin_cases i <;> fin_cases j <;> simp [Lcs.default, rotZ]
    · fin_cases i <;> simp [Lcs.default, radialCurve_eq]

theorem Planar.add {f g : Lcs ℝ} (hf : Planar f) (hg : Planar g) : Planar (f.add g) := by
  obtain ⟨⟨c, s, h1, h2⟩, h3⟩ := hf
  obtain ⟨⟨c', s', h1', h2'⟩, h3'⟩ := hg
  refine ⟨⟨c' * c - s' * s, s' * c + c' * s, ?_, ?_⟩, ?_⟩
  · linear_combination (c' * c' + s' * s') * h1 + h1'
  · simp only [Lcs.add, h2, h2']
    ext i j
    fin_cases i <;> fin_cases j <;> simp [rotZ, Matrix.mul_apply, Fin.sum_univ_three] <;> ring
  · simp only [Lcs.add, h2', Pi.add_apply, h3']
    simp [rotZ, Matrix.mulVec, dotProduct, Fin.sum_univ_three, h3]

theorem planar_default : Planar Lcs.default := by
  refine ⟨⟨1, 0, by ring, ?_⟩, rfl⟩
  ext i j; fin_cases i <;> fin_cases j <;> simp [rotZ, Lcs.default]

/-! ### distances -/

/-- Euclidean distance -/
noncomputable def dist3 (p q : Vec3 ℝ) : ℝ := norm2 (p - q)

theorem dist3_triangle (p q r : Vec3 ℝ) : dist3 p r ≤ dist3 p q + dist3 q r := by
  unfold dist3 norm2
  simp only [Pi.sub_apply]
  set a := p 0 - q 0
  set b := p 1 - q 1
  set c := p 2 - q 2
  set a' := q 0 - r 0
  set b' := q 1 - r 1
  set c' := q 2 - r 2
  have e0 : p 0 - r 0 = a + a' := by simp [a, a']
  have e1 : p 1 - r 1 = b + b' := by simp [b, b']
  have e2 : p 2 - r 2 = c + c' := by simp [c, c']
  rw [e0, e1, e2]
  have hx : 0 ≤ a ^ 2 + b ^ 2 + c ^ 2 := by positivity
  have hy : 0 ≤ a' ^ 2 + b' ^ 2 + c' ^ 2 := by positivity
  have hcs : a * a' + b * b' + c * c' ≤ √(a ^ 2 + b ^ 2 + c ^ 2) * √(a' ^ 2 + b' ^ 2 + c' ^ 2) := by
    rw [← Real.sqrt_mul hx]
    apply Real.le_sqrt_of_sq_le
    nlinarith [sq_nonneg (a * b' - b * a'), sq_nonneg (a * c' - c * a'), sq_nonneg (b * c' - c * b')]
  apply Real.sqrt_le_iff.2
  refine ⟨by positivity, ?_⟩
  nlinarith [Real.sq_sqrt hx, Real.sq_sqrt hy]

theorem dist3_comm (p q : Vec3 ℝ) : dist3 p q = dist3 q p := by
  unfold dist3 norm2
  congr 1
  simp only [Pi.sub_apply]
  ring

/-- points of a horizontal segment are not further apart than their positions on it -/
theorem IsHorizontal.lipschitz {s : TSeg} (h : IsHorizontal s) {p q : ℝ} (hp : 0 ≤ p) (hq : 0 ≤ q) {f g : Lcs ℝ}
    (hf : s.lcs p = .ok f) (hg : s.lcs q = .ok g) : dist3 f.coordinates g.coordinates ≤ |p - q| * s.length := by
  cases h with
  | @line len h =>
    rw [lin_lcs h hp] at hf
    rw [lin_lcs h hq] at hg
    cases hf; cases hg
    rw [lin_length h]
    have : dist3 ![clip p 0 1 * len, 0, 0] ![clip q 0 1 * len, 0, 0] = |clip p 0 1 - clip q 0 1| * len := by
      unfold dist3 norm2
      simp only [Pi.sub_apply, Matrix.cons_val_zero, Matrix.cons_val_one, Matrix.cons_val]
      rw [show (clip p 0 1 * len - clip q 0 1 * len) ^ 2 + (0 - 0) ^ 2 + (0 - 0) ^ 2 =
        ((clip p 0 1 - clip q 0 1) * len) ^ 2 by ring, Real.sqrt_sq_eq_abs, abs_mul, abs_of_pos h]
    simp only
    rw [this]
    apply mul_le_mul_of_nonneg_right _ h.le
    unfold clip
    rw [max_eq_left hp, max_eq_left hq]
    exact le_trans (abs_min_sub_min_le_max _ _ _ _) (by simp)
  | @arc r angle w hr ha hw =>
    rw [rad_lcs hr hw] at hf hg
    cases hf; cases hg
    simp only [radialCurve_eq]
    unfold dist3 norm2
    simp only [Pi.sub_apply, Matrix.cons_val_zero, Matrix.cons_val_one, Matrix.cons_val]
    have hlen : (rad r angle w).length = r * angle := rfl
    rw [hlen]
    apply Real.sqrt_le_iff.2
    refine ⟨by positivity, ?_⟩
    have h1 := Real.one_sub_sq_div_two_le_cos (x := p * angle - q * angle)
    rw [Real.cos_sub] at h1
    have s1 := Real.sin_sq_add_cos_sq (p * angle)
    have s2 := Real.sin_sq_add_cos_sq (q * angle)
    have e : (|p - q| * (r * angle)) ^ 2 = r ^ 2 * (p * angle - q * angle) ^ 2 := by
      rw [mul_pow, sq_abs]; ring
    rw [e]
    have e2 : (r * Real.sin (p * angle) - r * Real.sin (q * angle)) ^ 2 +
        (r * (w * (Real.cos (p * angle) - 1)) - r * (w * (Real.cos (q * angle) - 1))) ^ 2 + (0 - 0) ^ 2 =
        r ^ 2 * (2 - 2 * (Real.cos (p * angle) * Real.cos (q * angle) + Real.sin (p * angle) * Real.sin (q * angle))) := by
      linear_combination r ^ 2 * s1 + r ^ 2 * s2 + (r * (Real.cos (p * angle) - Real.cos (q * angle))) ^ 2 * hw
    rw [e2]
    have : 0 ≤ r ^ 2 := sq_nonneg r
    nlinarith

/-- the first axis is the derivative of the coordinates, measured per relative position -/
theorem IsHorizontal.tangent {s : TSeg} (h : IsHorizontal s) {p : ℝ} (h0 : 0 < p) (h1 : p < 1) {f : Lcs ℝ} {F : ℝ → Lcs ℝ}
    (hf : s.lcs p = .ok f) (hF : ∀ q, s.lcs q = .ok (F q)) (i : Fin 3) :
    HasDerivAt (fun q => (F q).coordinates i) (s.length * f.axis 0 i) p := by
  cases h with
  | @line len h =>
    rw [lin_lcs h h0.le] at hf
    cases hf
    rw [lin_length h]
    have hev : ∀ᶠ q in nhds p, (F q).coordinates i = (![q * len, 0, 0] : Vec3 ℝ) i := by
      filter_upwards [Ioo_mem_nhds h0 h1] with q hq
      have := hF q
      rw [lin_lcs h hq.1.le, Geo.clip_of_mem hq.1.le hq.2.le] at this
      rw [← (Except.ok.inj this)]
    refine HasDerivAt.congr_of_eventuallyEq ?_ hev
    fin_cases i
    · have := (hasDerivAt_id p).mul_const len
      refine this.congr_deriv ?_
      show 1 * len = len * (1 : Mat3 ℝ) 0 0
      simp
    · simpa [Lcs.axis] using hasDerivAt_const p (0 : ℝ)
    · simpa [Lcs.axis] using hasDerivAt_const p (0 : ℝ)
  | @arc r angle w hr ha hw =>
    rw [rad_lcs hr hw] at hf
    cases hf
    have hlen : (rad r angle w).length = r * angle := rfl
    have hev : (fun q => (F q).coordinates i) = fun q => radialCurve r w (q * angle) i := by
      funext q
      have := hF q
      rw [rad_lcs hr hw] at this
      rw [← (Except.ok.inj this)]
    rw [hev, hlen]
    have hd := (radial_deriv r w (p * angle) i).comp p ((hasDerivAt_id p).mul_const angle)
    refine hd.congr_deriv ?_
    rw [radialDeriv_eq]
    fin_cases i <;> simp [Lcs.axis, rotZ] <;> ring

end Weldx.Tr
