import Verif.Groove.GrooveFloatDouble

/-!
# Double U grooves that cannot be made, and examples (C111)
-/

namespace Weldx.Groove

open Weldx.Geo Matrix Weldx.Binary64Real

section
variable {L : Lib}

theorem helperF_line_error {ks : List Kind} {p q : Geo.V} {r : List Geo.V} (h : ∃ e, helperF L ks (q :: r) = .error e) :
    ∃ e, helperF L (.line :: ks) (p :: q :: r) = .error e := by
  obtain ⟨e, h⟩ := h
  rw [helperF, h]
  cases mkLineF L p q with
  | error e => exact ⟨e, rfl⟩
  | ok s => exact ⟨e, rfl⟩

theorem helperF_arc_error {ks : List Kind} {p c q : Geo.V} {r : List Geo.V} (h : ∃ e, helperF L ks (q :: r) = .error e) :
    ∃ e, helperF L (.arc :: ks) (p :: c :: q :: r) = .error e := by
  obtain ⟨e, h⟩ := h
  rw [helperF, h]
  cases mkArcF L.fl L.acos p q c false with
  | error e => exact ⟨e, rfl⟩
  | ok s => exact ⟨e, rfl⟩

/-- An arc with different radii is refused. -/
theorem check_error (hr : Rounding L.fl) {x : ArcF} (ha : len (x.pStart - x.pCenter) ≤ 10 ^ 4) (hb : len (x.pEnd - x.pCenter) ≤ 10 ^ 4)
    (h : 2 / 10 ^ 8 ≤ |len (x.pEnd - x.pCenter) - len (x.pStart - x.pCenter)|) : ∃ e, ArcF.check L.fl L.acos x = .error e := by
  have hu := ulp_pos
  have hU := ulp_lt
  norm_num at hU
  have h1 := radiusF_close hr x.pStart x.pCenter
  have h2 := radiusF_close hr x.pEnd x.pCenter
  have n1 := len_nonneg (x.pStart - x.pCenter)
  have n2 := len_nonneg (x.pEnd - x.pCenter)
  have h1' := abs_le.1 (h1.trans (mul_le_mul_of_nonneg_left ha (by linarith)))
  have h2' := abs_le.1 (h2.trans (mul_le_mul_of_nonneg_left hb (by linarith)))
  unfold ArcF.check
  cases hc : calcAngleF L.fl L.acos x with
  | error e => exact ⟨e, rfl⟩
  | ok angle =>
    show ∃ e, (if L.fl (lenF L.fl (subF L.fl x.pStart x.pCenter) * angle) ≤ 0 then Except.error GErr.valueError
      else if |L.fl (lenF L.fl (subF L.fl x.pEnd x.pCenter) - lenF L.fl (subF L.fl x.pStart x.pCenter))| ≤ L.fl (1 / 10 ^ 8) then .ok x
      else .error .valueError) = .error e
    split_ifs with g1 g2
    · exact ⟨_, rfl⟩
    · exfalso
      generalize lenF L.fl (subF L.fl x.pStart x.pCenter) = a at *
      generalize lenF L.fl (subF L.fl x.pEnd x.pCenter) = d at *
      generalize len (x.pStart - x.pCenter) = A at *
      generalize len (x.pEnd - x.pCenter) = D at *
      have k1 := abs_le.1 (Rounding.ulp hr (1 / 10 ^ 8))
      rw [abs_of_pos (by positivity)] at k1
      have k2 := Rounding.ulp hr (d - a)
      have k3 : |d - a| ≤ |L.fl (d - a)| + ulp * |d - a| := by
        have := abs_sub_abs_le_abs_sub (d - a) (L.fl (d - a))
        rw [abs_sub_comm (d - a) (L.fl (d - a))] at this
        linarith
      have k4 : ulp * |d - a| ≤ 1 / 10 * |d - a| := mul_le_mul_of_nonneg_right (by linarith) (abs_nonneg _)
      have k5 : |D - A| ≤ |d - a| + 1 / 10 ^ 9 := by
        rw [abs_le]
        have := abs_le.1 (le_refl |d - a|)
        norm_num at h1' h2' ⊢
        constructor <;> linarith
      norm_num at *
      linarith [k1.2]
    · exact ⟨_, rfl⟩

variable (hfl : Rounds L.fl) (htrig : Trigonometric L.cosine L.sine)
variable {tangent : ℝ → ℝ} (htan : Tangent tangent)

include hfl htrig htan in
/-- **C111 (double U groove with different heights).** A root face and different heights cannot be combined, although all dimensions fit
together: the root face ends at the height `h1 + c`, the arc is around a point above `h2 + c`. Only a difference of twice the radius is
not noticed. -/
theorem C111_DU_heights {w t β1 β2 R R2 c h1 h2 b : ℝ} (hc : 1 / 10 ^ 5 ≤ c ∧ c ≤ 200) (hR : 1 / 10 ≤ R ∧ R ≤ 400)
    (hβ : 0 ≤ β1 ∧ β1 < Real.pi / 2) (hcos : 1 / 10 ≤ Real.cos β1) (hh : R - R * Real.sin β1 + 1 / 10 ^ 5 ≤ h1) (hh1 : h1 ≤ 400)
    (hh2 : 0 ≤ h2 ∧ h2 ≤ 400) (ht : |t - (h1 + h2 + c)| ≤ 1 / 10 ^ 12) (hne : 1 / 10 ^ 7 ≤ |(|h1 - h2 - R|) - R|) :
    ∃ e, profileDUF L tangent w t β1 β2 R R2 c h1 h2 b = .error e := by
  have hr := rounds_rounding hfl
  obtain ⟨a1, a2, -, -, -⟩ := side_close hfl htrig htan hR hβ hcos hh hh1
  have hs0 : 0 ≤ Real.sin β1 := Real.sin_nonneg_of_nonneg_of_le_pi hβ.1 (by linarith [hβ.2, Real.pi_pos])
  have hA0 : 0 ≤ R * Real.sin β1 := mul_nonneg (by linarith) hs0
  have hA1 : R * Real.sin β1 ≤ R := by nlinarith [Real.sin_le_one β1]
  have hA2 : R * Real.cos β1 ≤ R := by nlinarith [Real.cos_le_one β1]
  have hA3 : R / 10 ≤ R * Real.cos β1 := by nlinarith
  have hc0 : c ≠ 0 := by
    rintro rfl; norm_num at hc
  suffices hs : ∃ e, helperF L (kindsDU c) (pointsDUF L tangent w t β1 β2 R R2 c h1 h2) = .error e by
    obtain ⟨e, he⟩ := hs
    refine ⟨e, ?_⟩
    unfold profileDUF translateReflectF shapeF
    rw [he]
  unfold pointsDUF kindsDU rootKind rootFace
  simp only [ne_eq, hc0, not_false_eq_true, if_true]
  have a1' := abs_le.1 a1
  have a2' := abs_le.1 a2
  have ht' := abs_le.1 ht
  set X1 := L.fl (R * L.cosine β1) with hX1
  set Z1 := L.fl (h1 - L.fl (R - L.fl (R * L.sine β1))) with hZ1
  norm_num at a1' a2' ht' hh
  have kT := abs_le.1 (fl_abs hr (x := t - Z1) (B := 1400) (by rw [abs_le]; constructor <;> linarith [hR.1, hR.2]))
  set E1 := L.fl (t - Z1) with hE1
  have kH := abs_le.1 (fl_abs hr (x := h2 + c) (B := 900) (by rw [abs_le]; constructor <;> linarith [hR.1, hR.2]))
  set H2 := L.fl (h2 + c) with hH2
  norm_num at kT kH
  have kN := abs_le.1 (fl_abs hr (x := H2 + R) (B := 1500) (by rw [abs_le]; constructor <;> linarith [hR.1, hR.2]))
  set M2 := L.fl (H2 + R) with hM2
  have kU := abs_le.1 (fl_abs hr (x := h1 + c) (B := 900) (by rw [abs_le]; constructor <;> linarith [hR.1, hR.2]))
  set U := L.fl (h1 + c) with hU
  norm_num at kN kU
  refine helperF_line_error (helperF_line_error (helperF_arc_error (helperF_line_error ?_)))
  have hchk : ∃ e, mkArcF L.fl L.acos ![0, U] ![-X1, E1] ![0, M2] false = .error e := by
    have e1 : len (![0, U] - ![0, M2]) = |U - M2| := by
      unfold len dot
      simp [Real.sqrt_mul_self_eq_abs]
    have e2 : |len (![-X1, E1] - ![0, M2]) - R| ≤ 2 * (1 / 10 ^ 11) := by
      refine len_polar (β := β1) (by linarith [hR.1]) ?_ ?_
      · show |(|-X1 - 0|) - R * Real.cos β1| ≤ _
        rw [sub_zero, abs_neg, abs_of_nonneg (show (0 : ℝ) ≤ X1 by linarith [hR.1]), abs_le]
        norm_num; constructor <;> linarith
      · show |(|E1 - M2|) - R * Real.sin β1| ≤ _
        have e : |(|E1 - M2|) - R * Real.sin β1| ≤ |(E1 - M2) - -(R * Real.sin β1)| := by
          have := abs_abs_sub_abs_le (E1 - M2) (-(R * Real.sin β1))
          rwa [abs_neg, abs_of_nonneg hA0] at this
        refine e.trans ?_
        rw [abs_le]; norm_num; constructor <;> linarith
    have e3 : |(|U - M2|) - (|h1 - h2 - R|)| ≤ 1 / 10 ^ 11 := by
      refine (abs_abs_sub_abs_le _ _).trans ?_
      rw [abs_le]; norm_num; constructor <;> linarith
    have e2' := abs_le.1 e2
    have e3' := abs_le.1 e3
    have e4 : |h1 - h2 - R| ≤ 1000 := by rw [abs_le]; constructor <;> linarith [hR.1, hR.2]
    refine check_error hr (x := ⟨![0, U], ![-X1, E1], ![0, M2], -1⟩) ?_ ?_ ?_
    · show len (![0, U] - ![0, M2]) ≤ _
      rw [e1]; norm_num at e3' ⊢; linarith
    · show len (![-X1, E1] - ![0, M2]) ≤ _
      generalize len (![-X1, E1] - ![0, M2]) = D at *
      norm_num at e2' ⊢; linarith [hR.2]
    · show _ ≤ |len (![-X1, E1] - ![0, M2]) - len (![0, U] - ![0, M2])|
      rw [e1]
      generalize len (![-X1, E1] - ![0, M2]) = D at *
      generalize |U - M2| = A at *
      generalize |h1 - h2 - R| = B at *
      have t1 : |B - R| ≤ |D - A| + 4 / 10 ^ 11 := by
        rw [abs_le]
        have := abs_le.1 (le_refl |D - A|)
        norm_num at e2' e3' ⊢
        constructor <;> linarith
      have := hne.trans t1
      norm_num at this ⊢
      linarith
  obtain ⟨e, he⟩ := hchk
  refine ⟨e, ?_⟩
  show helperF L (.arc :: _) (![0, U] :: ![0, M2] :: ![-X1, E1] :: _) = _
  rw [helperF, he]

end

/-! ### examples -/

/-- the functions exist, so that the statements are about something -/
theorem exists_tangent : ∃ tangent, Tangent tangent :=
  ⟨Real.tan, ⟨fun x h0 h1 => by
    rw [sub_self, abs_zero]
    exact div_nonneg (Real.tan_nonneg_of_nonneg_of_le_pi_div_two h0 h1.le) (by norm_num)⟩⟩

/-- an angle of 30 degrees, thickness 15 mm, radius 6 mm, root face 3 mm, gap 1 mm -/
example : DimU 3 15 (Real.pi / 6) 6 3 1 := by
  have hpi := Real.pi_pos
  refine ⟨by norm_num, Or.inr (by norm_num), by norm_num, by norm_num, ⟨by linarith, by linarith⟩, ?_, by norm_num, ?_, by norm_num⟩
  · rw [Real.cos_pi_div_six]
    have : (1 : ℝ) ≤ √3 := Real.one_le_sqrt.2 (by norm_num)
    linarith
  · rw [Real.sin_pi_div_six]; norm_num

/-- the same on both sides -/
example : DimDU 5 33 (Real.pi / 6) (Real.pi / 6) 6 6 3 15 15 1 := by
  have hpi := Real.pi_pos
  have hc : 1 / 10 ≤ Real.cos (Real.pi / 6) := by
    rw [Real.cos_pi_div_six]
    have : (1 : ℝ) ≤ √3 := Real.one_le_sqrt.2 (by norm_num)
    linarith
  refine ⟨by norm_num, Or.inr ⟨by norm_num, rfl⟩, by norm_num, by norm_num, by norm_num, ⟨by linarith, by linarith⟩, ⟨by linarith, by linarith⟩,
    hc, hc, ?_, ?_, ?_, ?_, by norm_num, by norm_num, by norm_num, by norm_num⟩ <;> rw [Real.sin_pi_div_six] <;> norm_num

/-- different heights 15 mm and 14 mm with a root face of 3 mm and a thickness of 32 mm -/
example {L : Lib} (hfl : Rounds L.fl) (htrig : Trigonometric L.cosine L.sine) {tangent : ℝ → ℝ} (htan : Tangent tangent) :
    ∃ e, profileDUF L tangent 5 32 (Real.pi / 6) (Real.pi / 6) 6 6 3 15 14 1 = .error e := by
  have hpi := Real.pi_pos
  refine C111_DU_heights hfl htrig htan (by norm_num) (by norm_num) ⟨by linarith, by linarith⟩ ?_ ?_ (by norm_num) (by norm_num) (by norm_num) ?_
  · rw [Real.cos_pi_div_six]
    have : (1 : ℝ) ≤ √3 := Real.one_le_sqrt.2 (by norm_num)
    linarith
  · rw [Real.sin_pi_div_six]; norm_num
  · rw [show (15 : ℝ) - 14 - 6 = -5 by norm_num, abs_neg, abs_of_pos (by norm_num : (0 : ℝ) < 5)]
    norm_num

end Weldx.Groove
