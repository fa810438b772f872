import Verif.Groove.GrooveFloatMore

/-!
# UV grooves with rounding (C111)
-/

namespace Weldx.Groove

open Weldx.Geo Matrix Weldx.Binary64Real

/-- dimensions of a UV groove; the lower face ends at least `R / 20` in front of the end of the arc -/
structure DimUV (w t α β R h b : ℝ) : Prop where
  width : 2 ≤ w ∧ w ≤ 1000
  radius : 1 / 10 ≤ R ∧ R ≤ 100
  angle1 : 0 ≤ α / 2 ∧ α / 2 < Real.pi / 2
  angle2 : 0 ≤ β ∧ β < Real.pi / 2
  cos1 : 1 / 10 ≤ Real.cos (α / 2)
  cos2 : 1 / 10 ≤ Real.cos β
  face : 1 / 10 ^ 5 ≤ h
  lower : Real.tan (α / 2) * h + R / 20 ≤ R * Real.cos β
  thickness : t ≤ 1000
  height : h + √(R ^ 2 - (Real.tan (α / 2) * h) ^ 2) - R * Real.sin β + 1 / 10 ^ 5 ≤ t
  gap : 0 ≤ b ∧ b ≤ 10 ^ 4

/-- an arc from the angle `γ` to the angle `β`, both measured from the first axis, up to rounding -/
structure Partial (x1 u C X E R γ β : ℝ) : Prop where
  start0 : x1 = R * Real.cos γ
  start1 : |C - u - R * Real.sin γ| ≤ 1 / 10 ^ 11
  stop0 : |X - R * Real.cos β| ≤ 1 / 10 ^ 11
  stop1 : |C - E - R * Real.sin β| ≤ 1 / 10 ^ 11
  center : |C| ≤ 10 ^ 5
  lower : 1 / 10 ≤ R
  upper : R ≤ 100
  cosγ : 0 ≤ Real.cos γ
  sinγ : 3 / 10 ≤ Real.sin γ
  sinβ : 0 ≤ Real.sin β
  cos : Real.cos γ + 49 / 1000 ≤ Real.cos β

section
variable {x1 u C X E R γ β : ℝ} (h : Partial x1 u C X E R γ β)
include h

theorem Partial.sin_le : Real.sin β ≤ Real.sin γ := by
  have h1 := Real.sin_sq_add_cos_sq β
  have h2 := Real.sin_sq_add_cos_sq γ
  have h3 := h.cos
  have h4 := h.cosγ
  have h5 := h.sinγ
  exact abs_le_of_sq_le_sq' (by nlinarith) (by linarith) |>.2

theorem Partial.facts : 0 ≤ x1 ∧ x1 ≤ R ∧ x1 + 49 / 1000 * R ≤ R * Real.cos β ∧ 3 / 10 * R ≤ R * Real.sin γ ∧ R * Real.sin γ ≤ R ∧
    R * Real.sin β ≤ R * Real.sin γ ∧ 0 ≤ R * Real.sin β ∧ R * Real.cos β ≤ R := by
  have hR : 0 ≤ R := by linarith [h.lower]
  have h1 := mul_le_mul_of_nonneg_left h.cosγ hR
  have h2 := mul_le_mul_of_nonneg_left (Real.cos_le_one γ) hR
  have h3 := mul_le_mul_of_nonneg_left h.cos hR
  have h4 := mul_le_mul_of_nonneg_left h.sinγ hR
  have h5 := mul_le_mul_of_nonneg_left (Real.sin_le_one γ) hR
  have h6 := mul_le_mul_of_nonneg_left h.sin_le hR
  have h7 := mul_le_mul_of_nonneg_left h.sinβ hR
  have h8 := mul_le_mul_of_nonneg_left (Real.cos_le_one β) hR
  have e := h.start0
  refine ⟨?_, ?_, ?_, ?_, ?_, h6, ?_, ?_⟩ <;> linarith

theorem Partial.len_start : |len (![-x1, u] - ![0, C]) - R| ≤ 2 / 10 ^ 11 := by
  obtain ⟨f1, f2, f3, f4, f5, f6, f7, f8⟩ := h.facts
  have hR := h.lower
  have hs := abs_le.1 h.start1
  norm_num at hs
  have := len_polar (v := ![-x1, u] - ![0, C]) (R := R) (β := γ) (ε := 1 / 10 ^ 11) (by linarith)
    (by
      simp only [Pi.sub_apply, Matrix.cons_val_zero, sub_zero, abs_neg]
      rw [abs_of_nonneg f1, h.start0, sub_self, abs_zero]; norm_num)
    (by
      show |(|u - C|) - R * Real.sin γ| ≤ _
      rw [abs_of_nonpos (show u - C ≤ 0 by linarith), neg_sub]
      exact h.start1)
  exact this.trans (by norm_num)

theorem Partial.len_stop : |len (![-X, E] - ![0, C]) - R| ≤ 2 / 10 ^ 11 := by
  obtain ⟨f1, f2, f3, f4, f5, f6, f7, f8⟩ := h.facts
  have hR := h.lower
  have hs := abs_le.1 h.stop0
  norm_num at hs
  have := len_polar (v := ![-X, E] - ![0, C]) (R := R) (β := β) (ε := 1 / 10 ^ 11) (by linarith)
    (by
      simp only [Pi.sub_apply, Matrix.cons_val_zero, sub_zero, abs_neg]
      rw [abs_of_nonneg (show (0 : ℝ) ≤ X by linarith)]; exact h.stop0)
    (by
      show |(|E - C|) - R * Real.sin β| ≤ _
      have e := abs_abs_sub_abs_le (C - E) (R * Real.sin β)
      rw [abs_of_nonneg f7, abs_sub_comm C E] at e
      exact e.trans h.stop1)
  exact this.trans (by norm_num)

theorem Partial.bounds : (R * (999 / 1000) ≤ len (![-x1, u] - ![0, C]) ∧ len (![-x1, u] - ![0, C]) ≤ R * (1001 / 1000)) ∧
    (R * (999 / 1000) ≤ len (![-X, E] - ![0, C]) ∧ len (![-X, E] - ![0, C]) ≤ R * (1001 / 1000)) ∧
    |len (![-X, E] - ![0, C]) - len (![-x1, u] - ![0, C])| ≤ 1 / 10 ^ 10 := by
  have h2 := h.lower
  have hs := abs_le.1 h.len_start
  have he := abs_le.1 h.len_stop
  generalize len (![-x1, u] - ![0, C]) = A at *
  generalize len (![-X, E] - ![0, C]) = B at *
  rw [abs_le]
  norm_num at hs he ⊢
  refine ⟨⟨?_, ?_⟩, ⟨?_, ?_⟩, ?_, ?_⟩ <;> linarith

theorem Partial.cross : 14 / 1000 * R ^ 2 ≤ (C - u) * X - x1 * (C - E) := by
  obtain ⟨f1, f2, f3, f4, f5, f6, f7, f8⟩ := h.facts
  have hR := h.lower
  have hu := h.upper
  have h1 := abs_le.1 h.start1
  have h2 := abs_le.1 h.stop0
  have h3 := abs_le.1 h.stop1
  norm_num at h1 h2 h3
  set y := R * Real.sin γ with hy
  -- compare with `y * (R cos β - x1)`
  have a1 : (y - 1 / 10 ^ 11) * (R * Real.cos β - 1 / 10 ^ 11) ≤ (C - u) * X := by
    refine mul_le_mul (by norm_num; linarith) (by norm_num; linarith) (by norm_num; linarith) (by linarith)
  have a2 : x1 * (C - E) ≤ x1 * (y + 1 / 10 ^ 11) := mul_le_mul_of_nonneg_left (by norm_num; linarith) f1
  have a3 : 3 / 10 * R * (49 / 1000 * R) ≤ y * (R * Real.cos β - x1) :=
    mul_le_mul f4 (by linarith) (by linarith) (by linarith)
  have a4 : 1 / 10 * R ≤ R * R := mul_le_mul_of_nonneg_right hR (by linarith)
  norm_num at a1 a2 ⊢
  nlinarith

theorem Partial.clear : ArcF.Clear ⟨![-x1, u], ![-X, E], ![0, C], -1⟩ (1 / 80) := by
  have h2 := h.lower
  have h2' := h.upper
  obtain ⟨f1, f2, f3, f4, f5, f6, f7, f8⟩ := h.facts
  obtain ⟨hs, he, hse⟩ := h.bounds
  have h1 := abs_le.1 h.start1
  norm_num at h1
  refine ⟨Or.inr rfl, by norm_num, ?_, ?_, ?_, ?_, Or.inr ?_, ?_, ?_⟩
  · show 0 < len (![-x1, u] - ![0, C]); linarith
  · show |len (![-X, E] - ![0, C]) - len (![-x1, u] - ![0, C])| ≤ _
    exact hse
  · show 0 < len (![-X, E] - ![0, C]); linarith
  · have hc := h.cross
    have hp : (0 : ℝ) < len (![-x1, u] - ![0, C]) * len (![-X, E] - ![0, C]) := mul_pos (by linarith) (by linarith)
    have hq : len (![-x1, u] - ![0, C]) * len (![-X, E] - ![0, C]) ≤ (R * (1001 / 1000)) * (R * (1001 / 1000)) :=
      mul_le_mul hs.2 he.2 (by linarith) (by linarith)
    unfold ArcF.sine
    rw [abs_div, abs_of_pos hp, le_div_iff₀ hp]
    have e : ∀ z : ℝ, z = -((C - u) * X - x1 * (C - E)) ∨ z = (C - u) * X - x1 * (C - E) →
        1 / 80 * (len (![-x1, u] - ![0, C]) * len (![-X, E] - ![0, C])) ≤ |z| := by
      intro z hz
      have hz' : (C - u) * X - x1 * (C - E) ≤ |z| := by
        rcases hz with rfl | rfl
        · rw [abs_neg]; exact le_abs_self _
        · exact le_abs_self _
      nlinarith
    apply e
    simp only [Pi.sub_apply, Matrix.cons_val_zero, Matrix.cons_val_one]
    left
    ring
  · show _ ≤ |(u - C) / len (![-x1, u] - ![0, C])|
    rw [abs_div, abs_of_pos (show 0 < len (![-x1, u] - ![0, C]) by linarith), le_div_iff₀ (by linarith),
      abs_of_nonpos (show u - C ≤ 0 by linarith)]
    linarith
  · show len (![-x1, u] - ![0, C]) ≤ _; linarith
  · intro i
    fin_cases i
    · simp
    · exact h.center

end

section
variable {L : Lib} (hfl : Rounds L.fl) (hacos : Arccosine L.acos) (htrig : Trigonometric L.cosine L.sine)
variable {tangent : ℝ → ℝ} (htan : Tangent tangent)

include hfl in
theorem fl_nonneg' {x : ℝ} (h : 0 ≤ x) : 0 ≤ L.fl x := by
  have := hfl.mono h
  rwa [hfl.zero] at this

include htan in
theorem tangent_nonneg {β : ℝ} (hβ : 0 ≤ β ∧ β < Real.pi / 2) : 0 ≤ tangent β := by
  have h0 : 0 ≤ Real.tan β := Real.tan_nonneg_of_nonneg_of_le_pi_div_two hβ.1 hβ.2.le
  have h1 := abs_le.1 (htan.error β hβ.1 hβ.2)
  have h2 : Real.tan β / 2 ^ 50 ≤ Real.tan β := div_le_self h0 (by norm_num)
  linarith

include hfl in
/-- the height of the center above the end of the lower face, without error of the lower face -/
theorem circle_close {R x h : ℝ} (hR : 1 / 10 ≤ R ∧ R ≤ 100) (hx0 : 0 ≤ x) (hx1 : x ≤ 951 / 1000 * R) (hh : 0 ≤ h ∧ h ≤ 1000) :
    |L.fl (h + L.fl (√(L.fl (L.fl (R ^ 2) - L.fl (x ^ 2))))) - h - √(R ^ 2 - x ^ 2)| ≤ 1 / 10 ^ 12 ∧
      3 / 10 * R ≤ √(R ^ 2 - x ^ 2) ∧ √(R ^ 2 - x ^ 2) ≤ R := by
  have hr := rounds_rounding hfl
  have hR0 : 0 ≤ R := by linarith
  have hx2 : x ^ 2 ≤ (951 / 1000 * R) ^ 2 := pow_le_pow_left₀ hx0 hx1 2
  have hR2 : 0 ≤ R ^ 2 := sq_nonneg R
  have hy1 : 3 / 10 * R ≤ √(R ^ 2 - x ^ 2) := Real.le_sqrt_of_sq_le (by nlinarith)
  have hy2 : √(R ^ 2 - x ^ 2) ≤ R := by
    rw [Real.sqrt_le_left hR0]; nlinarith [sq_nonneg x]
  have k1 := abs_le.1 (fl_abs hr (x := R ^ 2) (B := R ^ 2) (by rw [abs_of_nonneg hR2]))
  have k2 := abs_le.1 (fl_abs hr (x := x ^ 2) (B := R ^ 2) (by rw [abs_of_nonneg (sq_nonneg x)]; nlinarith))
  set a := L.fl (R ^ 2) with ha
  set d := L.fl (x ^ 2) with hd
  norm_num at k1 k2
  have k3 := abs_le.1 (fl_abs hr (x := a - d) (B := 2 * R ^ 2) (by rw [abs_le]; constructor <;> nlinarith [sq_nonneg x]))
  set q := L.fl (a - d) with hq
  norm_num at k3
  have hq0 : 0 ≤ q := by nlinarith
  set y := √(R ^ 2 - x ^ 2) with hy
  have hyy : y * y = R ^ 2 - x ^ 2 := Real.mul_self_sqrt (by nlinarith)
  have hqq : √q * √q = q := Real.mul_self_sqrt hq0
  have hs0 := Real.sqrt_nonneg q
  have k4 : |√q - y| ≤ 2 / 10 ^ 13 := by
    have e : (√q - y) * (√q + y) = q - (R ^ 2 - x ^ 2) := by rw [← hyy]; linear_combination hqq
    have b : |q - (R ^ 2 - x ^ 2)| ≤ 4 * R ^ 2 / 2 ^ 53 := by
      rw [abs_le]; norm_num; constructor <;> linarith
    rw [← e, abs_mul, abs_of_nonneg (show 0 ≤ √q + y by linarith)] at b
    have b2 : |√q - y| * (3 / 10 * R) ≤ |√q - y| * (√q + y) := mul_le_mul_of_nonneg_left (by linarith) (abs_nonneg _)
    have b3 : |√q - y| * (3 / 10 * R) ≤ (40 * R / (3 * 2 ^ 53)) * (3 / 10 * R) := by
      refine b2.trans (b.trans (le_of_eq ?_)); ring
    have b4 := le_of_mul_le_mul_right b3 (by linarith)
    refine b4.trans ?_
    norm_num
    linarith
  have k4' := abs_le.1 k4
  norm_num at k4'
  have k5 := abs_le.1 (fl_abs hr (x := √q) (B := 200) (by rw [abs_le]; constructor <;> linarith))
  set z := L.fl (√q) with hz
  norm_num at k5
  have k6 := abs_le.1 (fl_abs hr (x := h + z) (B := 2000) (by rw [abs_le]; constructor <;> linarith))
  norm_num at k6
  refine ⟨?_, hy1, hy2⟩
  rw [abs_le]; norm_num; constructor <;> linarith

/-- the square roots for close lower faces -/
theorem sqrt_near {R x a : ℝ} (hR : 0 < R) (hx : 0 ≤ x ∧ x ≤ R) (ha : 0 ≤ a ∧ a ≤ R) (h : |x - a| ≤ 1 / 10 ^ 9)
    (hy : 3 / 10 * R ≤ √(R ^ 2 - x ^ 2)) : |√(R ^ 2 - x ^ 2) - √(R ^ 2 - a ^ 2)| ≤ 7 / 10 ^ 9 := by
  set y := √(R ^ 2 - x ^ 2) with hyd
  set z := √(R ^ 2 - a ^ 2) with hzd
  have hyy : y * y = R ^ 2 - x ^ 2 := Real.mul_self_sqrt (by nlinarith)
  have hzz : z * z = R ^ 2 - a ^ 2 := Real.mul_self_sqrt (by nlinarith)
  have hz0 : 0 ≤ z := Real.sqrt_nonneg _
  have e : (y - z) * (y + z) = -((x - a) * (x + a)) := by linear_combination hyy - hzz
  have b : |y - z| * (y + z) = |x - a| * (x + a) := by
    have := congrArg abs e
    rwa [abs_neg, abs_mul, abs_mul, abs_of_nonneg (show 0 ≤ y + z by linarith), abs_of_nonneg (show 0 ≤ x + a by linarith)] at this
  have b1 : |x - a| * (x + a) ≤ 1 / 10 ^ 9 * (2 * R) := mul_le_mul h (by linarith) (by linarith) (by norm_num)
  have b2 : |y - z| * (3 / 10 * R) ≤ |y - z| * (y + z) := mul_le_mul_of_nonneg_left (by linarith) (abs_nonneg _)
  have b3 : |y - z| * (3 / 10 * R) ≤ 7 / 10 ^ 9 * (3 / 10 * R) := by
    norm_num at b1 ⊢; linarith
  exact le_of_mul_le_mul_right b3 (by linarith)

/-- the points of the UV groove without rounding: end of the arc and upper end of the line -/
noncomputable def faceUV (t α β R h : ℝ) : (ℝ × ℝ) × (ℝ × ℝ) :=
  let y := h + √(R ^ 2 - (Real.tan (α / 2) * h) ^ 2) - R * Real.sin β
  ((-(R * Real.cos β), y), (-(R * Real.cos β) - Real.tan β * (t - y), t))

set_option maxHeartbeats 2000000 in
include hfl hacos htrig htan in
/-- **C111 (UV groove).** A UV groove with moderate dimensions can be made in spite of rounding. -/
theorem C111_UV_partial {w t α β R h b : ℝ} (hd : DimUV w t α β R h b) :
    ∃ l, profileUVF L tangent w t α β R h b = .ok [l, l.map mirrorS] ∧
      ∃ width x1 ym x y x', Drawn b [.line, .line, .arc, .line, .line]
        [![-width, 0], ![0, 0], ![x1, h], ![0, ym], ![x, y], ![x', t], ![-width, t]] l ∧
      |x1 - -(Real.tan (α / 2) * h)| ≤ 1 / 10 ^ 9 ∧
      |ym - (h + √(R ^ 2 - (Real.tan (α / 2) * h) ^ 2))| ≤ 1 / 10 ^ 8 ∧
      |x - (faceUV t α β R h).1.1| ≤ 1 / 10 ^ 11 ∧ |y - (faceUV t α β R h).1.2| ≤ 1 / 10 ^ 8 ∧
      |x' - (faceUV t α β R h).2.1| ≤ 1 / 10 ^ 7 ∧ 1 / 4 ≤ width + x' ∧ Widened w (-(faceUV t α β R h).2.1) width := by
  have hr := rounds_rounding hfl
  obtain ⟨hw, hR, hα, hβ, hcosa, hcosb, hf, hlow, ht, hh, hb⟩ := hd
  have hR0 : 0 < R := by linarith
  norm_num at hf
  have hs0 : 0 ≤ Real.sin β := Real.sin_nonneg_of_nonneg_of_le_pi hβ.1 (by linarith [hβ.2, Real.pi_pos])
  have hRs0 : 0 ≤ R * Real.sin β := mul_nonneg hR0.le hs0
  have hRs1 : R * Real.sin β ≤ R := by nlinarith [Real.sin_le_one β]
  have hRc1 : R * Real.cos β ≤ R := by nlinarith [Real.cos_le_one β]
  obtain ⟨s0, s1, -⟩ := tangent_close htan hα hcosa
  obtain ⟨t0, t1, -⟩ := tangent_close htan hβ hcosb
  have hA0 : 0 ≤ Real.tan (α / 2) * h := mul_nonneg s0 (by linarith)
  -- the arc ends above the lower face
  have hsq := Real.sqrt_nonneg (R ^ 2 - (Real.tan (α / 2) * h) ^ 2)
  have hrise : R * Real.sin β ≤ √(R ^ 2 - (Real.tan (α / 2) * h) ^ 2) := by
    refine Real.le_sqrt_of_sq_le ?_
    have h1 := Real.sin_sq_add_cos_sq β
    have h2 : (Real.tan (α / 2) * h) ^ 2 ≤ (R * Real.cos β) ^ 2 := pow_le_pow_left₀ hA0 (by linarith) 2
    nlinarith
  norm_num at hh
  have hh1 : h ≤ 1000 := by linarith
  have kx := offset_near hfl htan hα hcosa (z := h) (y := h) (by linarith) (by linarith) (by rw [sub_self, abs_zero]; norm_num)
  have hx0 : 0 ≤ L.fl (tangent (α / 2) * h) := fl_nonneg' hfl (mul_nonneg (tangent_nonneg htan hα) (by linarith))
  obtain ⟨kX, kY⟩ := polar_close hfl htrig (R := R) ⟨by linarith, by linarith⟩ hβ
  show ∃ l, translateReflectF L b [.line, .line, .arc, .line, .line] (pointsUVF L tangent w t α β R h) = .ok [l, l.map mirrorS] ∧ _
  unfold pointsUVF faceUV
  simp only
  have kx' := abs_le.1 kx
  have kX' := abs_le.1 kX
  have kY' := abs_le.1 kY
  set A := Real.tan (α / 2) * h with hA
  set x1 := L.fl (tangent (α / 2) * h) with hx1
  set X := L.fl (R * L.cosine β) with hX
  set Y := L.fl (R * L.sine β) with hY
  norm_num at kx' kX' kY'
  have hx951 : x1 ≤ 951 / 1000 * R := by linarith
  obtain ⟨kC, y1, y2⟩ := circle_close hfl hR hx0 hx951 (h := h) ⟨by linarith, hh1⟩
  have kZ := abs_le.1 (sqrt_near hR0 ⟨hx0, by linarith⟩ ⟨hA0, by linarith⟩ kx y1)
  have kC' := abs_le.1 kC
  set C := L.fl (h + L.fl (√(L.fl (L.fl (R ^ 2) - L.fl (x1 ^ 2))))) with hC
  set ys := √(R ^ 2 - x1 ^ 2) with hys
  set y0 := √(R ^ 2 - A ^ 2) with hy0
  norm_num at kZ kC'
  have kE := abs_le.1 (fl_abs hr (x := C - Y) (B := 2000) (by rw [abs_le]; constructor <;> linarith))
  set E := L.fl (C - Y) with hE
  norm_num at kE
  have ks := abs_le.1 (offset_close hfl htan hβ hcosb (z := t - (h + ys - R * Real.sin β)) (z' := t - E) (by linarith) (by linarith)
    (by rw [abs_le]; norm_num; constructor <;> linarith))
  rw [mul_comm (tangent β)] at ks
  set s := L.fl (L.fl (t - E) * tangent β) with hs
  have hS0 : 0 ≤ Real.tan β * (t - (h + y0 - R * Real.sin β)) := mul_nonneg t0 (by linarith)
  have hS1 : Real.tan β * (t - (h + y0 - R * Real.sin β)) ≤ 10 * 1000 := mul_le_mul t1 (by linarith) (by linarith) (by norm_num)
  -- the influence of the lower face
  have hdiff : |Real.tan β * (t - (h + ys - R * Real.sin β)) - Real.tan β * (t - (h + y0 - R * Real.sin β))| ≤ 7 / 10 ^ 8 := by
    have e : Real.tan β * (t - (h + ys - R * Real.sin β)) - Real.tan β * (t - (h + y0 - R * Real.sin β)) = Real.tan β * (y0 - ys) := by
      ring
    rw [e, abs_mul, abs_of_nonneg t0]
    refine (mul_le_mul t1 (show |y0 - ys| ≤ 7 / 10 ^ 9 from ?_) (abs_nonneg _) (by norm_num)).trans (by norm_num)
    rw [abs_le]; norm_num; constructor <;> linarith
  have hdiff' := abs_le.1 hdiff
  set S := Real.tan β * (t - (h + y0 - R * Real.sin β)) with hSd
  set S' := Real.tan β * (t - (h + ys - R * Real.sin β)) with hSd'
  norm_num at ks hdiff'
  have k2 := abs_le.1 (fl_abs hr (x := -X - s) (B := 20000) (by rw [abs_le]; constructor <;> linarith))
  set P := L.fl (-X - s) with hP
  norm_num at k2
  set edge := max (-P) 0 with hedge
  have he0 : 0 ≤ edge := le_max_right _ _
  have he1 : edge ≤ 3 * 10 ^ 4 := max_le (by norm_num; linarith) (by norm_num)
  have he2 : -P ≤ edge := le_max_left _ _
  obtain ⟨hw1, hw2⟩ := widenF_close hfl hw he0 he1
  have hspec : Widened w (-(-(R * Real.cos β) - S)) (widenF L w edge) :=
    widenF_spec hfl hw he0 he1 (max_close (by rw [abs_le]; norm_num; constructor <;> linarith) (by linarith))
  set W := widenF L w edge with hW
  -- the arc
  have hz0 : 0 ≤ x1 / R := div_nonneg hx0 hR0.le
  have hz1 : x1 / R ≤ 1 := by rw [div_le_one hR0]; linarith
  have hcosγ : Real.cos (Real.arccos (x1 / R)) = x1 / R := Real.cos_arccos (by linarith) hz1
  have hsinγ : R * Real.sin (Real.arccos (x1 / R)) = ys := by
    rw [Real.sin_arccos, hys, show R ^ 2 - x1 ^ 2 = R ^ 2 * (1 - (x1 / R) ^ 2) by field_simp, Real.sqrt_mul (sq_nonneg R),
      Real.sqrt_sq hR0.le]
  have hq : Partial x1 h C X E R (Real.arccos (x1 / R)) β := by
    refine ⟨?_, ?_, ?_, ?_, ?_, hR.1, hR.2, ?_, ?_, hs0, ?_⟩
    · rw [hcosγ]; field_simp
    · rw [hsinγ, abs_le]; norm_num; constructor <;> linarith
    · rw [abs_le]; norm_num; constructor <;> linarith
    · rw [abs_le]; norm_num; constructor <;> linarith
    · rw [abs_le]; norm_num; constructor <;> linarith
    · rw [hcosγ]; exact hz0
    · have : 3 / 10 * R ≤ Real.sin (Real.arccos (x1 / R)) * R := by rw [mul_comm (Real.sin _) R, hsinγ]; exact y1
      exact le_of_mul_le_mul_right this hR0
    · rw [hcosγ]
      have : (x1 / R + 49 / 1000) * R ≤ Real.cos β * R := by
        rw [add_mul, div_mul_cancel₀ _ hR0.ne']; linarith
      exact le_of_mul_le_mul_right this hR0
  have hlen := hq.bounds.1.2
  have hchain : ClearChain [.line, .line, .arc, .line, .line]
      [![-W, 0], ![0, 0], ![-x1, h], ![0, C], ![-X, E], ![P, t], ![-W, t]] := by
    have m1 : Moderate ![-W, 0] := moderate_of (by linarith) (by linarith) (by linarith) (by linarith)
    have m2 : Moderate ![0, 0] := moderate_of (by norm_num) (by norm_num) (by norm_num) (by norm_num)
    have m3 : Moderate ![-x1, h] := moderate_of (by linarith) (by linarith) (by linarith) (by linarith)
    have m4 : Moderate ![0, C] := moderate_of (by norm_num) (by norm_num) (by linarith) (by linarith)
    have m5 : Moderate ![-X, E] := moderate_of (by linarith) (by linarith) (by linarith) (by linarith)
    have m6 : Moderate ![P, t] := moderate_of (by linarith) (by linarith) (by linarith) (by linarith)
    have m7 : Moderate ![-W, t] := moderate_of (by linarith) (by linarith) (by linarith) (by linarith)
    refine ⟨⟨m1, m2, 0, ?_⟩, ⟨m2, m3, 1, ?_⟩, ⟨m3, m5, m4, ⟨_, hq.clear⟩, 0, ?_, ?_⟩, ⟨m5, m6, 1, ?_⟩, ⟨m6, m7, 0, ?_⟩, trivial⟩
    · show _ ≤ |0 - -W|; rw [abs_of_nonneg (by linarith)]; norm_num; linarith
    · show _ ≤ |h - 0|; rw [sub_zero, abs_of_nonneg (by linarith)]; norm_num; linarith
    · show _ ≤ |-X - -x1|; rw [abs_of_nonpos (by linarith)]; norm_num; linarith
    · show _ ≤ |-X - -x1|; rw [abs_of_nonpos (by linarith)]; linarith
    · show _ ≤ |t - E|; rw [abs_of_nonneg (by linarith)]; norm_num; linarith
    · show _ ≤ |-W - P|; rw [abs_of_nonpos (by linarith)]; norm_num; linarith
  obtain ⟨l, hl, hd⟩ := C111_chain_partial hfl hacos htrig hchain hb.1 hb.2
  refine ⟨l, hl, W, -x1, C, -X, E, P, hd, ?_, ?_, ?_, ?_, ?_, by linarith, hspec⟩
  · rw [abs_le]; norm_num; constructor <;> linarith
  · rw [abs_le]; norm_num; constructor <;> linarith
  · rw [abs_le]; norm_num; constructor <;> linarith
  · rw [abs_le]; norm_num; constructor <;> linarith
  · rw [abs_le]; norm_num; constructor <;> linarith

end

/-- a UV groove with a lower opening of 90 degrees and a vertical upper face -/
example : DimUV 2 15 (Real.pi / 2) 0 5 3 1 := by
  have hpi := Real.pi_pos
  have e : Real.pi / 2 / 2 = Real.pi / 4 := by ring
  have hs : (1 : ℝ) ≤ √2 := Real.one_le_sqrt.2 (by norm_num)
  have h4 : √((5 : ℝ) ^ 2 - (1 * 3) ^ 2) = 4 := by
    rw [show ((5 : ℝ) ^ 2 - (1 * 3) ^ 2) = 4 ^ 2 by norm_num, Real.sqrt_sq (by norm_num)]
  refine ⟨by norm_num, by norm_num, ⟨by linarith, by linarith⟩, ⟨le_rfl, by linarith⟩, ?_, ?_, by norm_num, ?_, by norm_num, ?_, by norm_num⟩
  · rw [e, Real.cos_pi_div_four]; linarith
  · rw [Real.cos_zero]; norm_num
  · rw [e, Real.tan_pi_div_four, Real.cos_zero]; norm_num
  · rw [e, Real.tan_pi_div_four, Real.sin_zero, h4]; norm_num

end Weldx.Groove
