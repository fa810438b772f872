import Verif.Groove.GrooveFloatUV
import Verif.Groove.FrontFloatProps
import Mathlib.Analysis.Real.Pi.Bounds

/-!
# Grooves whose angles are given in degrees, with rounding (C111)

Source: `/repo/weldx/welding/groove/iso_9692_1.py` 323-366, 605-673 and the other `to_profile` methods: `np.sin`,
`np.cos` and `np.tan` of a quantity in degrees convert it to radians first (pint). The conversion is a multiplication by
a number close to `π / 180`. Half and twice an angle are exact and are taken before the conversion.
-/

namespace Weldx.Groove

open Weldx.Geo Matrix Weldx.Binary64Real

/-- the number of radians in a degree that pint uses -/
structure Factor (k : ℝ) : Prop where
  error : |k - Real.pi / 180| ≤ Real.pi / 180 / 2 ^ 51

/-- the conversion of an angle from degrees to radians -/
noncomputable def radiansF (L : Lib) (k d : ℝ) : ℝ := L.fl (d * k)

/-- an angle of `d` degrees in radians -/
noncomputable def deg (d : ℝ) : ℝ := d * (Real.pi / 180)

/-- `β` is an acute angle and nearly the same as `γ` -/
structure CloseAngle (β γ : ℝ) : Prop where
  angle : 0 ≤ β ∧ β < Real.pi / 2
  cos : 1 / 10 ≤ Real.cos β
  cos_close : |Real.cos β - Real.cos γ| ≤ 1 / 10 ^ 15
  sin_close : |Real.sin β - Real.sin γ| ≤ 1 / 10 ^ 15
  tan_close : |Real.tan β - Real.tan γ| ≤ 1 / 10 ^ 13
  tan_nonneg : 0 ≤ Real.tan γ
  tan_le : Real.tan γ ≤ 9

section
variable {L : Lib} (hfl : Rounds L.fl) (hacos : Arccosine L.acos) (htrig : Trigonometric L.cosine L.sine)
variable {tangent : ℝ → ℝ} (htan : Tangent tangent) {k : ℝ} (hk : Factor k)

include hfl hk in
/-- **C111 (degrees).** The conversion to radians is accurate. -/
theorem radiansF_close {d : ℝ} (h0 : 0 ≤ d) (h1 : d ≤ 90) :
    |radiansF L k d - deg d| ≤ 1 / 10 ^ 15 ∧ 0 ≤ radiansF L k d := by
  have hr := rounds_rounding hfl
  have hp0 := Real.pi_pos
  have hp1 : Real.pi < 3.1416 := Real.pi_lt_d4
  obtain ⟨k0, k1⟩ := abs_le.1 hk.error
  have hdk : |d * k - d * (Real.pi / 180)| ≤ 90 * (Real.pi / 180 / 2 ^ 51) := by
    rw [← mul_sub, abs_mul, abs_of_nonneg h0]
    exact mul_le_mul h1 hk.error (abs_nonneg _) (by norm_num)
  have hkpos : 0 ≤ k := by norm_num at k0; linarith
  have hx0 : 0 ≤ d * k := mul_nonneg h0 hkpos
  have hd : d * (Real.pi / 180) ≤ 90 * (Real.pi / 180) := mul_le_mul_of_nonneg_right h1 (by positivity)
  have hu := abs_le.1 (Rounding.ulp hr (d * k))
  rw [abs_of_nonneg hx0] at hu
  obtain ⟨a0, a1⟩ := abs_le.1 hdk
  have hx1 : d * k ≤ 1.5709 := by norm_num at a1 ⊢; norm_num at hp1; linarith
  have hul := mul_le_mul_of_nonneg_left hx1 ulp_pos.le
  have hulp : ulp * 1.5709 = 1.5709 / 2 ^ 53 := by unfold ulp; ring
  have hux : ulp * (d * k) ≤ d * k := by
    have := ulp_lt
    nlinarith
  unfold radiansF deg
  refine ⟨?_, by linarith⟩
  rw [abs_le]
  rw [hulp] at hul
  norm_num at a0 a1 hul hp1 ⊢
  constructor <;> linarith

/-- nearly the same angle -/
theorem CloseAngle.of {β γ : ℝ} (h0 : 0 ≤ γ) (h1 : γ < Real.pi / 2) (hc : 1 / 9 ≤ Real.cos γ) (hb : 0 ≤ β)
    (h : |β - γ| ≤ 1 / 10 ^ 15) : CloseAngle β γ := by
  have hp := Real.pi_gt_three
  have hcos : |Real.cos β - Real.cos γ| ≤ 1 / 10 ^ 15 := le_trans (Real.abs_cos_sub_cos_le β γ) h
  have hsin : |Real.sin β - Real.sin γ| ≤ 1 / 10 ^ 15 := le_trans (Real.abs_sin_sub_sin_le β γ) h
  obtain ⟨c0, c1⟩ := abs_le.1 hcos
  obtain ⟨d0, d1⟩ := abs_le.1 h
  have hcb : 1 / 10 ≤ Real.cos β := by norm_num at c0 ⊢; linarith
  have hlt : β < Real.pi / 2 := by
    by_contra hge
    push Not at hge
    have := Real.cos_nonpos_of_pi_div_two_le_of_le hge (by norm_num at d1; linarith)
    linarith
  have e : Real.tan β - Real.tan γ = Real.sin (β - γ) / (Real.cos β * Real.cos γ) := by
    rw [Real.tan_eq_sin_div_cos, Real.tan_eq_sin_div_cos, Real.sin_sub]
    have : Real.cos β ≠ 0 := by linarith
    have : Real.cos γ ≠ 0 := by linarith
    field_simp
  have hs : |Real.sin (β - γ)| ≤ 1 / 10 ^ 15 := le_trans Real.abs_sin_le_abs h
  have hprod : 1 / 90 ≤ Real.cos β * Real.cos γ := by nlinarith
  refine ⟨⟨hb, hlt⟩, hcb, hcos, hsin, ?_, Real.tan_nonneg_of_nonneg_of_le_pi_div_two h0 h1.le, ?_⟩
  · rw [e, abs_div, abs_of_pos (show 0 < Real.cos β * Real.cos γ by linarith), div_le_iff₀ (by linarith)]
    norm_num at hs ⊢
    linarith
  · rw [Real.tan_eq_sin_div_cos, div_le_iff₀ (by linarith)]
    linarith [Real.sin_le_one γ]

include hfl hk in
theorem radiansF_angle {d : ℝ} (h0 : 0 ≤ deg d) (h1 : deg d < Real.pi / 2) (hc : 1 / 9 ≤ Real.cos (deg d)) :
    CloseAngle (radiansF L k d) (deg d) := by
  have hp := Real.pi_pos
  have e0 : 0 ≤ d := by unfold deg at h0; exact nonneg_of_mul_nonneg_left h0 (by positivity)
  have e1 : d ≤ 90 := by
    unfold deg at h1
    have : d * Real.pi < 90 * Real.pi := by linarith
    exact (lt_of_mul_lt_mul_right this hp.le).le
  obtain ⟨a, b⟩ := radiansF_close hfl hk e0 e1
  exact CloseAngle.of h0 h1 hc b a

/-- the offset of a groove face -/
theorem CloseAngle.offset {β γ z z' : ℝ} (h : CloseAngle β γ) (hz0 : 0 ≤ z) (hz : z ≤ 1000) (he : |z - z'| ≤ 1 / 10 ^ 12) :
    |Real.tan β * z - Real.tan γ * z'| ≤ 2 / 10 ^ 10 := by
  have h1 : |(Real.tan β - Real.tan γ) * z| ≤ 1 / 10 ^ 13 * 1000 := by
    rw [abs_mul, abs_of_nonneg hz0]
    exact mul_le_mul h.tan_close hz hz0 (by norm_num)
  have h2 : |Real.tan γ * (z - z')| ≤ 9 * (1 / 10 ^ 12) := by
    rw [abs_mul, abs_of_nonneg h.tan_nonneg]
    exact mul_le_mul h.tan_le he (abs_nonneg _) (by norm_num)
  have e : Real.tan β * z - Real.tan γ * z' = (Real.tan β - Real.tan γ) * z + Real.tan γ * (z - z') := by ring
  rw [e]
  refine le_trans (abs_add_le _ _) ?_
  norm_num at h1 h2 ⊢
  linarith

theorem CloseAngle.polar {β γ R : ℝ} (h : CloseAngle β γ) (h0 : 0 ≤ R) (h1 : R ≤ 400) :
    |R * Real.cos β - R * Real.cos γ| ≤ 4 / 10 ^ 13 ∧ |R * Real.sin β - R * Real.sin γ| ≤ 4 / 10 ^ 13 := by
  constructor
  · rw [← mul_sub, abs_mul, abs_of_nonneg h0]
    have := mul_le_mul h1 h.cos_close (abs_nonneg _) (by norm_num)
    norm_num at this ⊢
    linarith
  · rw [← mul_sub, abs_mul, abs_of_nonneg h0]
    have := mul_le_mul h1 h.sin_close (abs_nonneg _) (by norm_num)
    norm_num at this ⊢
    linarith

/-- the width of a workpiece whose edge is nearly at `e` -/
def WidenedNear (w e width : ℝ) : Prop := ∃ e', |e' - e| ≤ 1 / 10 ^ 9 ∧ Widened w e' width

/-- a bound that is a little larger -/
theorem near_trans {x y z a b c : ℝ} (h1 : |x - y| ≤ a) (h2 : |y - z| ≤ b) (h : a + b ≤ c) : |x - z| ≤ c := by
  have := abs_sub_le x y z
  linarith

/-- the dimensions of a U groove with another angle -/
theorem DimU.near {w t β γ R c b : ℝ} (h : DimU w t γ R c b) (hh : c + R - R * Real.sin γ + 2 / 10 ^ 5 ≤ t) (ha : CloseAngle β γ) :
    DimU w t β R c b ∧ |(faceU t β R c).1.1 - (faceU t γ R c).1.1| ≤ 4 / 10 ^ 13 ∧
      |(faceU t β R c).1.2 - (faceU t γ R c).1.2| ≤ 4 / 10 ^ 13 ∧ |(faceU t β R c).2.1 - (faceU t γ R c).2.1| ≤ 3 / 10 ^ 10 := by
  obtain ⟨hw, hc, hc1, hR, -, -, ht, -, hb⟩ := h
  have hc0 : 0 ≤ c := by rcases hc with h | h; · exact h.ge
                         · exact le_trans (by norm_num) h
  obtain ⟨p1, p2⟩ := ha.polar (R := R) (by linarith) hR.2
  obtain ⟨q1, q2⟩ := abs_le.1 p2
  obtain ⟨r1, r2⟩ := abs_le.1 p1
  have hs1 : R * Real.sin β ≤ R := by nlinarith [Real.sin_le_one β]
  norm_num at hh q1 q2
  have key := abs_le.1 (ha.offset (z := t - (c + R - R * Real.sin β)) (z' := t - (c + R - R * Real.sin γ)) (by linarith)
    (by linarith) (by
      have : t - (c + R - R * Real.sin β) - (t - (c + R - R * Real.sin γ)) = R * Real.sin β - R * Real.sin γ := by ring
      rw [this]; exact le_trans p2 (by norm_num)))
  refine ⟨⟨hw, hc, hc1, hR, ha.angle, ha.cos, ht, by norm_num; linarith, hb⟩, ?_, ?_, ?_⟩
  · show |-(R * Real.cos β) - -(R * Real.cos γ)| ≤ _
    rw [abs_le]
    constructor <;> linarith
  · show |c + R - R * Real.sin β - (c + R - R * Real.sin γ)| ≤ _
    rw [abs_le]
    norm_num
    constructor <;> linarith
  · show |-(R * Real.cos β) - Real.tan β * (t - (c + R - R * Real.sin β)) -
      (-(R * Real.cos γ) - Real.tan γ * (t - (c + R - R * Real.sin γ)))| ≤ _
    rw [abs_le]
    norm_num at key r1 r2 ⊢
    constructor <;> linarith

include hfl hacos htrig htan hk in
/-- **C111 (U groove, degrees).** -/
theorem C111_U_degrees_partial {w t d R c b : ℝ} (h : DimU w t (deg d) R c b) (hcos : 1 / 9 ≤ Real.cos (deg d))
    (hh : c + R - R * Real.sin (deg d) + 2 / 10 ^ 5 ≤ t) :
    ∃ l, profileUF L tangent w t (radiansF L k d) R c b = .ok [l, l.map mirrorS] ∧
      ∃ width ym x y x', Drawn b (kindsU c)
        ([![-width, 0], ![0, 0]] ++ rootFace c ![0, c] ++ [![0, ym], ![x, y], ![x', t], ![-width, t]]) l ∧
      |ym - (c + R)| ≤ 1 / 10 ^ 11 ∧ |x - (faceU t (deg d) R c).1.1| ≤ 2 / 10 ^ 11 ∧ |y - (faceU t (deg d) R c).1.2| ≤ 2 / 10 ^ 11 ∧
      |x' - (faceU t (deg d) R c).2.1| ≤ 2 / 10 ^ 8 ∧ 1 / 4 ≤ width + x' ∧ WidenedNear w (-(faceU t (deg d) R c).2.1) width := by
  have ha := radiansF_angle hfl hk h.angle.1 h.angle.2 hcos
  obtain ⟨hd, f1, f2, f3⟩ := h.near hh ha
  obtain ⟨l, hl, width, ym, x, y, x', hD, e1, e2, e3, e4, e5, e6⟩ := C111_U_partial hfl hacos htrig htan hd
  refine ⟨l, hl, width, ym, x, y, x', hD, e1, near_trans e2 f1 (by norm_num), near_trans e3 f2 (by norm_num),
    near_trans e4 f3 (by norm_num), e5, _, ?_, e6⟩
  rw [neg_sub_neg, abs_sub_comm]
  exact le_trans f3 (by norm_num)

include hfl hacos htrig htan hk in
/-- **C111 (HU groove, degrees).** -/
theorem C111_HU_degrees_partial {w t d R c b : ℝ} (h : DimU w t (deg d) R c b) (hcos : 1 / 9 ≤ Real.cos (deg d))
    (hh : c + R - R * Real.sin (deg d) + 2 / 10 ^ 5 ≤ t) :
    ∃ s l width ym x y x', profileHUF L tangent w t (radiansF L k d) R c b = .ok [s, l.map mirrorS] ∧
      Drawn b (kindsU c)
        ([![-width, 0], ![0, 0]] ++ rootFace c ![0, c] ++ [![0, ym], ![x, y], ![x', t], ![-width, t]]) l ∧
      Drawn 0 [.line, .line, .line] (straightPoints width b t) s ∧
      |ym - (c + R)| ≤ 1 / 10 ^ 11 ∧ |x - (faceU t (deg d) R c).1.1| ≤ 2 / 10 ^ 11 ∧ |y - (faceU t (deg d) R c).1.2| ≤ 2 / 10 ^ 11 ∧
      |x' - (faceU t (deg d) R c).2.1| ≤ 2 / 10 ^ 8 ∧ 1 / 4 ≤ width + x' ∧ WidenedNear w (-(faceU t (deg d) R c).2.1) width := by
  have ha := radiansF_angle hfl hk h.angle.1 h.angle.2 hcos
  obtain ⟨hd, f1, f2, f3⟩ := h.near hh ha
  obtain ⟨s, l, width, ym, x, y, x', hl, hD, hs, e1, e2, e3, e4, e5, e6⟩ := C111_HU_partial hfl hacos htrig htan hd
  refine ⟨s, l, width, ym, x, y, x', hl, hD, hs, e1, near_trans e2 f1 (by norm_num), near_trans e3 f2 (by norm_num),
    near_trans e4 f3 (by norm_num), e5, _, ?_, e6⟩
  rw [neg_sub_neg, abs_sub_comm]
  exact le_trans f3 (by norm_num)

theorem neg_near {x y a : ℝ} (h : |x - y| ≤ a) : |-x - -y| ≤ a := by
  rw [neg_sub_neg, abs_sub_comm]
  exact h

theorem DimV.near {w t β γ c b : ℝ} (h : DimV w t γ c b) (ha : CloseAngle β γ) :
    DimV w t β c b ∧ |Real.tan β * (t - c) - Real.tan γ * (t - c)| ≤ 2 / 10 ^ 10 := by
  obtain ⟨hw, hc, -, -, ht, hh, hb⟩ := h
  have hc0 : 0 ≤ c := by rcases hc with h | h; · exact h.ge
                         · exact le_trans (by norm_num) h
  refine ⟨⟨hw, hc, ha.angle, ha.cos, ht, hh, hb⟩, ha.offset ?_ (by linarith) (by simp)⟩
  norm_num at hh
  linarith

include hfl hacos htrig htan hk in
/-- **C111 (V groove, degrees).** -/
theorem C111_V_degrees_partial {w t d c b : ℝ} (h : DimV w t (deg (d / 2)) c b) (hcos : 1 / 9 ≤ Real.cos (deg (d / 2))) :
    ∃ l, profileVF L tangent w t (2 * radiansF L k (d / 2)) c b = .ok [l, l.map mirrorS] ∧
      ∃ width x, Drawn b (kindsV c) ([![-width, 0], ![0, 0]] ++ rootFace c ![0, c] ++ [![x, t], ![-width, t]]) l ∧
        |x - -(Real.tan (deg (d / 2)) * (t - c))| ≤ 2 / 10 ^ 8 ∧ 1 / 4 ≤ width + x ∧
        WidenedNear w (Real.tan (deg (d / 2)) * (t - c)) width := by
  have ha := radiansF_angle hfl hk h.angle.1 h.angle.2 hcos
  obtain ⟨hd, f⟩ := h.near ha
  have e : 2 * radiansF L k (d / 2) / 2 = radiansF L k (d / 2) := by ring
  rw [← e] at hd f
  obtain ⟨l, hl, width, x, hD, e1, e2, e3⟩ := C111_V_partial hfl hacos htrig htan hd
  exact ⟨l, hl, width, x, hD, near_trans e1 (neg_near f) (by norm_num), e2, _, le_trans f (by norm_num), e3⟩

include hfl hacos htrig htan hk in
/-- **C111 (HV groove, degrees).** -/
theorem C111_HV_degrees_partial {w t d c b : ℝ} (h : DimV w t (deg d) c b) (hcos : 1 / 9 ≤ Real.cos (deg d)) :
    ∃ s l width x, profileHVF L tangent w t (radiansF L k d) c b = .ok [s, l.map mirrorS] ∧
      Drawn b (kindsV c) ([![-width, 0], ![0, 0]] ++ rootFace c ![0, c] ++ [![x, t], ![-width, t]]) l ∧
      Drawn 0 [.line, .line, .line] (straightPoints width b t) s ∧
      |x - -(Real.tan (deg d) * (t - c))| ≤ 2 / 10 ^ 8 ∧ 1 / 4 ≤ width + x ∧ WidenedNear w (Real.tan (deg d) * (t - c)) width := by
  have ha := radiansF_angle hfl hk h.angle.1 h.angle.2 hcos
  obtain ⟨hd, f⟩ := h.near ha
  obtain ⟨s, l, width, x, hl, hD, hs, e1, e2, e3⟩ := C111_HV_partial hfl hacos htrig htan hd
  exact ⟨s, l, width, x, hl, hD, hs, near_trans e1 (neg_near f) (by norm_num), e2, _, le_trans f (by norm_num), e3⟩

include hfl hacos htrig htan hk in
/-- **C111 (VV groove, degrees).** -/
theorem C111_VV_degrees_partial {w t d1 d2 h c b : ℝ} (hd : DimVV w t (2 * deg (d1 / 2)) (deg d2) h c b)
    (hc1 : 1 / 9 ≤ Real.cos (deg (d1 / 2))) (hc2 : 1 / 9 ≤ Real.cos (deg d2)) :
    ∃ l, profileVVF L tangent w t (2 * radiansF L k (d1 / 2)) (radiansF L k d2) h c b = .ok [l, l.map mirrorS] ∧
      ∃ width x1 y1 x2, Drawn b (kindsVV c)
        ([![-width, 0], ![0, 0]] ++ rootFace c ![0, c] ++ [![x1, y1], ![x2, t], ![-width, t]]) l ∧
      |x1 - -(Real.tan (deg (d1 / 2)) * (h - c))| ≤ 2 / 10 ^ 8 ∧ |y1 - (h + c)| ≤ 1 / 10 ^ 11 ∧
      |x2 - (-(Real.tan (deg (d1 / 2)) * (h - c)) - Real.tan (deg d2) * (t - h))| ≤ 2 / 10 ^ 8 ∧ 1 / 4 ≤ width + x2 ∧
      WidenedNear w (Real.tan (deg (d1 / 2)) * (h - c) + Real.tan (deg d2) * (t - h)) width := by
  obtain ⟨hw, hc, ha1, ha2, -, -, ht, hl, hp, hu, hb⟩ := hd
  have hc0 : 0 ≤ c := by rcases hc with h | h; · exact h.ge
                         · exact le_trans (by norm_num) h
  have e : ∀ x : ℝ, 2 * x / 2 = x := fun x => by ring
  rw [e] at ha1
  have a1 := radiansF_angle hfl hk ha1.1 ha1.2 hc1
  have a2 := radiansF_angle hfl hk ha2.1 ha2.2 hc2
  have hu' := hu
  norm_num at hu'
  have f1 := a1.offset (z := h - c) (z' := h - c) (by linarith) (by linarith) (by simp)
  have f2 := a2.offset (z := t - h) (z' := t - h) (by linarith) (by norm_num at hp; linarith) (by simp)
  have hd' : DimVV w t (2 * radiansF L k (d1 / 2)) (radiansF L k d2) h c b :=
    ⟨hw, hc, by rw [e]; exact a1.angle, a2.angle, by rw [e]; exact a1.cos, a2.cos, ht, hl, hp, hu, hb⟩
  obtain ⟨l, hl, width, x1, y1, x2, hD, e1, e2, e3, e4, e5⟩ := C111_VV_partial hfl hacos htrig htan hd'
  rw [e] at e1 e3 e5
  obtain ⟨g1, g2⟩ := abs_le.1 f1
  obtain ⟨g3, g4⟩ := abs_le.1 f2
  refine ⟨l, hl, width, x1, y1, x2, hD, near_trans e1 (neg_near f1) (by norm_num), e2, near_trans e3 (b := 4 / 10 ^ 10) ?_ (by norm_num), e4,
    _, ?_, e5⟩ <;> rw [abs_le] <;> norm_num at g1 g2 g3 g4 ⊢ <;> constructor <;> linarith

/-- the larger of two numbers -/
theorem max_near {x y z u a : ℝ} (h1 : |x - y| ≤ a) (h2 : |z - u| ≤ a) : |max x z - max y u| ≤ a :=
  le_trans (abs_max_sub_max_le_max _ _ _ _) (max_le h1 h2)

theorem DimDV.near {w t α1 α2 β1 β2 c h1 h2 b : ℝ} (hd : DimDV w t (2 * α1) (2 * α2) c h1 h2 b) (a1 : CloseAngle β1 α1)
    (a2 : CloseAngle β2 α2) :
    DimDV w t (2 * β1) (2 * β2) c h1 h2 b ∧ |Real.tan β1 * h1 - Real.tan α1 * h1| ≤ 2 / 10 ^ 10 ∧
      |Real.tan β2 * h2 - Real.tan α2 * h2| ≤ 2 / 10 ^ 10 := by
  obtain ⟨hw, hc, -, -, -, -, ht, hh1, hh2, hu, hb⟩ := hd
  have hc0 : 0 ≤ c := by rcases hc with h | h; · exact h.ge
                         · exact le_trans (by norm_num) h
  have e : ∀ x : ℝ, 2 * x / 2 = x := fun x => by ring
  have hu' := hu
  have hh2' := hh2
  norm_num at hu' hh2'
  exact ⟨⟨hw, hc, by rw [e]; exact a1.angle, by rw [e]; exact a2.angle, by rw [e]; exact a1.cos, by rw [e]; exact a2.cos, ht, hh1, hh2, hu, hb⟩,
    a1.offset hh1.1 hh1.2 (by simp), a2.offset (by linarith) (by linarith) (by simp)⟩

include hfl hacos htrig htan hk in
/-- **C111 (double V groove, degrees).** -/
theorem C111_DV_degrees_partial {w t d1 d2 c h1 h2 b : ℝ} (hd : DimDV w t (2 * deg (d1 / 2)) (2 * deg (d2 / 2)) c h1 h2 b)
    (hc1 : 1 / 9 ≤ Real.cos (deg (d1 / 2))) (hc2 : 1 / 9 ≤ Real.cos (deg (d2 / 2))) :
    ∃ l, profileDVF L tangent w t (2 * radiansF L k (d1 / 2)) (2 * radiansF L k (d2 / 2)) c h1 h2 b = .ok [l, l.map mirrorS] ∧
      ∃ width x1 u x2, Drawn b (kindsDV c)
        ([![-width, 0], ![x1, 0], ![0, h2]] ++ rootFace c ![0, u] ++ [![x2, t], ![-width, t]]) l ∧
      |x1 - -(Real.tan (deg (d2 / 2)) * h2)| ≤ 2 / 10 ^ 8 ∧ |u - (h2 + c)| ≤ 1 / 10 ^ 11 ∧
      |x2 - -(Real.tan (deg (d1 / 2)) * h1)| ≤ 2 / 10 ^ 8 ∧ 1 / 4 ≤ width + x1 ∧ 1 / 4 ≤ width + x2 ∧
      WidenedNear w (max (Real.tan (deg (d1 / 2)) * h1) (Real.tan (deg (d2 / 2)) * h2)) width := by
  have e : ∀ x : ℝ, 2 * x / 2 = x := fun x => by ring
  have b1 := hd.angle1
  have b2 := hd.angle2
  rw [e] at b1 b2
  have a1 := radiansF_angle hfl hk b1.1 b1.2 hc1
  have a2 := radiansF_angle hfl hk b2.1 b2.2 hc2
  obtain ⟨hd', f1, f2⟩ := hd.near a1 a2
  obtain ⟨l, hl, width, x1, u, x2, hD, e1, e2, e3, e4, e5, e6⟩ := C111_DV_partial hfl hacos htrig htan hd'
  rw [e] at e1 e3 e6
  rw [e] at e6
  exact ⟨l, hl, width, x1, u, x2, hD, near_trans e1 (neg_near f2) (by norm_num), e2, near_trans e3 (neg_near f1) (by norm_num), e4, e5,
    _, le_trans (max_near f1 f2) (by norm_num), e6⟩

include hfl hacos htrig htan hk in
/-- **C111 (DHV groove, degrees).** The angles are doubled and halved before they are converted, so that they are converted as they are. -/
theorem C111_DHV_degrees_partial {w t d1 d2 c h1 h2 b : ℝ} (hd : DimDV w t (2 * deg d1) (2 * deg d2) c h1 h2 b)
    (hc1 : 1 / 9 ≤ Real.cos (deg d1)) (hc2 : 1 / 9 ≤ Real.cos (deg d2)) :
    ∃ s l, profileDHVF L tangent w t (radiansF L k d1) (radiansF L k d2) c h1 h2 b = .ok [s, l.map mirrorS] ∧
      profileDVF L tangent w t (2 * radiansF L k (2 * d1 / 2)) (2 * radiansF L k (2 * d2 / 2)) c h1 h2 b = .ok [l, l.map mirrorS] ∧
      Drawn 0 [.line, .line, .line] (straightPoints w b t) s := by
  have e : ∀ x : ℝ, 2 * x / 2 = x := fun x => by ring
  have b1 := hd.angle1
  have b2 := hd.angle2
  rw [e] at b1 b2
  have a1 := radiansF_angle hfl hk b1.1 b1.2 hc1
  have a2 := radiansF_angle hfl hk b2.1 b2.2 hc2
  obtain ⟨hd', -, -⟩ := hd.near a1 a2
  rw [mul_comm 2, mul_comm 2] at hd'
  obtain ⟨s, l, r1, r2, r3⟩ := C111_DHV_partial hfl hacos htrig htan hd'
  refine ⟨s, l, r1, ?_, r3⟩
  rw [e, e, mul_comm 2, mul_comm 2]
  exact r2

theorem extent_near {β γ R h : ℝ} (ha : CloseAngle β γ) (hR : 1 / 10 ≤ R ∧ R ≤ 400) (hh : R - R * Real.sin γ + 2 / 10 ^ 5 ≤ h)
    (h1 : h ≤ 400) : R - R * Real.sin β + 1 / 10 ^ 5 ≤ h ∧ |extent β R h - extent γ R h| ≤ 3 / 10 ^ 10 := by
  obtain ⟨p1, p2⟩ := ha.polar (R := R) (by linarith) hR.2
  obtain ⟨q1, q2⟩ := abs_le.1 p2
  obtain ⟨r1, r2⟩ := abs_le.1 p1
  have hs1 : R * Real.sin β ≤ R := by nlinarith [Real.sin_le_one β]
  norm_num at hh q1 q2
  have key := abs_le.1 (ha.offset (z := h - (R - R * Real.sin β)) (z' := h - (R - R * Real.sin γ)) (by linarith)
    (by linarith) (by
      have : h - (R - R * Real.sin β) - (h - (R - R * Real.sin γ)) = R * Real.sin β - R * Real.sin γ := by ring
      rw [this]; exact le_trans p2 (by norm_num)))
  refine ⟨by norm_num; linarith, ?_⟩
  unfold extent
  rw [abs_le]
  norm_num at key r1 r2 ⊢
  constructor <;> linarith

theorem DimDU.near {w t β1 β2 γ1 γ2 R R2 c h1 h2 b : ℝ} (h : DimDU w t γ1 γ2 R R2 c h1 h2 b) (a1 : CloseAngle β1 γ1)
    (a2 : CloseAngle β2 γ2) (hh1 : R - R * Real.sin γ1 + 2 / 10 ^ 5 ≤ h1) (hh2 : R2 - R2 * Real.sin γ2 + 2 / 10 ^ 5 ≤ h2)
    (hs : 2 / 1000 ≤ Real.sin γ2) (hf : R2 ≤ 399 * Real.sin γ2) :
    DimDU w t β1 β2 R R2 c h1 h2 b ∧ |extent β1 R h1 - extent γ1 R h1| ≤ 3 / 10 ^ 10 ∧
      |extent β2 R2 h2 - extent γ2 R2 h2| ≤ 3 / 10 ^ 10 := by
  obtain ⟨hw, hc, hc1, hR, hR2, -, -, -, -, -, -, -, -, hu1, hu2, ht, hb⟩ := h
  obtain ⟨m1, n1⟩ := extent_near a1 hR hh1 hu1
  obtain ⟨m2, n2⟩ := extent_near a2 hR2 hh2 hu2
  obtain ⟨s1, s2⟩ := abs_le.1 a2.sin_close
  norm_num at s1 s2
  exact ⟨⟨hw, hc, hc1, hR, hR2, a1.angle, a2.angle, a1.cos, a2.cos, by linarith, by linarith, m1, m2, hu1, hu2, ht, hb⟩, n1, n2⟩

include hfl hacos htrig htan hk in
/-- **C111 (double U groove, degrees).** -/
theorem C111_DU_degrees_partial {w t d1 d2 R R2 c h1 h2 b : ℝ} (h : DimDU w t (deg d1) (deg d2) R R2 c h1 h2 b)
    (hc1 : 1 / 9 ≤ Real.cos (deg d1)) (hc2 : 1 / 9 ≤ Real.cos (deg d2)) (hh1 : R - R * Real.sin (deg d1) + 2 / 10 ^ 5 ≤ h1)
    (hh2 : R2 - R2 * Real.sin (deg d2) + 2 / 10 ^ 5 ≤ h2) (hs : 2 / 1000 ≤ Real.sin (deg d2)) (hf : R2 ≤ 399 * Real.sin (deg d2)) :
    ∃ l, profileDUF L tangent w t (radiansF L k d1) (radiansF L k d2) R R2 c h1 h2 b = .ok [l, l.map mirrorS] ∧
      ∃ width x0 x1 y1 m1 u m2 x2 y2 x3, Drawn b (kindsDU c)
        ([![-width, 0], ![x0, 0], ![x1, y1], ![0, m1], ![0, h2]] ++ rootFace c ![0, u] ++
          [![0, m2], ![x2, y2], ![x3, t], ![-width, t]]) l ∧
      |x0 - -extent (deg d2) R2 h2| ≤ 2 / 10 ^ 8 ∧ |x1 - -(R2 * Real.cos (deg d2))| ≤ 2 / 10 ^ 11 ∧
      |y1 - (h2 - (R2 - R2 * Real.sin (deg d2)))| ≤ 2 / 10 ^ 11 ∧ |m1 - (h2 - R2)| ≤ 1 / 10 ^ 11 ∧
      |u - (h2 + c)| ≤ 1 / 10 ^ 11 + |h1 - h2| ∧ |m2 - (h2 + c + R)| ≤ 1 / 10 ^ 11 ∧
      |x2 - -(R * Real.cos (deg d1))| ≤ 2 / 10 ^ 11 ∧ |y2 - (h2 + c + R - R * Real.sin (deg d1))| ≤ 2 / 10 ^ 11 ∧
      |x3 - -extent (deg d1) R h1| ≤ 2 / 10 ^ 8 ∧ 1 / 4 ≤ width + x0 ∧ 1 / 4 ≤ width + x3 ∧
      WidenedNear w (max (extent (deg d1) R h1) (extent (deg d2) R2 h2)) width := by
  have a1 := radiansF_angle hfl hk h.angle1.1 h.angle1.2 hc1
  have a2 := radiansF_angle hfl hk h.angle2.1 h.angle2.2 hc2
  obtain ⟨hd, f1, f2⟩ := h.near a1 a2 hh1 hh2 hs hf
  obtain ⟨p1, p2⟩ := a1.polar (R := R) (by linarith [h.radius.1]) h.radius.2
  obtain ⟨p3, p4⟩ := a2.polar (R := R2) (by linarith [h.radius2.1]) h.radius2.2
  obtain ⟨l, hl, width, x0, x1, y1, m1, u, m2, x2, y2, x3, hD, e1, e2, e3, e4, e5, e6, e7, e8, e9, e10, e11, e12⟩ :=
    C111_DU_partial hfl hacos htrig htan hd
  refine ⟨l, hl, width, x0, x1, y1, m1, u, m2, x2, y2, x3, hD, near_trans e1 (neg_near f2) (by norm_num),
    near_trans e2 (neg_near p3) (by norm_num), near_trans e3 (b := 4 / 10 ^ 13) ?_ (by norm_num), e4, e5, e6,
    near_trans e7 (neg_near p1) (by norm_num), near_trans e8 (b := 4 / 10 ^ 13) ?_ (by norm_num), near_trans e9 (neg_near f1) (by norm_num), e10, e11,
    _, le_trans (max_near f1 f2) (by norm_num), e12⟩
  · convert p4 using 2; ring
  · rw [abs_sub_comm] at p2
    convert p2 using 2; ring

include hfl hacos htrig htan hk in
/-- **C111 (DHU groove, degrees).** -/
theorem C111_DHU_degrees_partial {w t d1 d2 R R2 c h1 h2 b : ℝ} (h : DimDU w t (deg d1) (deg d2) R R2 c h1 h2 b)
    (hc1 : 1 / 9 ≤ Real.cos (deg d1)) (hc2 : 1 / 9 ≤ Real.cos (deg d2)) (hh1 : R - R * Real.sin (deg d1) + 2 / 10 ^ 5 ≤ h1)
    (hh2 : R2 - R2 * Real.sin (deg d2) + 2 / 10 ^ 5 ≤ h2) (hs : 2 / 1000 ≤ Real.sin (deg d2)) (hf : R2 ≤ 399 * Real.sin (deg d2)) :
    ∃ s l, profileDHUF L tangent w t (radiansF L k d1) (radiansF L k d2) R R2 c h1 h2 b = .ok [s, l.map mirrorS] ∧
      profileDUF L tangent w t (radiansF L k d1) (radiansF L k d2) R R2 c h1 h2 b = .ok [l, l.map mirrorS] ∧
      Drawn 0 [.line, .line, .line] (straightPoints w b t) s := by
  have a1 := radiansF_angle hfl hk h.angle1.1 h.angle1.2 hc1
  have a2 := radiansF_angle hfl hk h.angle2.1 h.angle2.2 hc2
  exact C111_DHU_partial hfl hacos htrig htan (h.near a1 a2 hh1 hh2 hs hf).1

/-- the height of the centre of an arc -/
theorem root_near {R x y : ℝ} (hR : 1 / 10 ≤ R) (hx0 : 0 ≤ x) (hx : x ≤ 95 / 100 * R) (hy0 : 0 ≤ y) (hy : y ≤ 95 / 100 * R)
    (h : |x - y| ≤ 2 / 10 ^ 10) : |√(R ^ 2 - x ^ 2) - √(R ^ 2 - y ^ 2)| ≤ 7 / 10 ^ 10 := by
  have hx2 : (3 / 10 * R) ^ 2 ≤ R ^ 2 - x ^ 2 := by nlinarith
  have hy2 : (3 / 10 * R) ^ 2 ≤ R ^ 2 - y ^ 2 := by nlinarith
  have a1 : 3 / 10 * R ≤ √(R ^ 2 - x ^ 2) := Real.le_sqrt_of_sq_le hx2
  have a2 : 3 / 10 * R ≤ √(R ^ 2 - y ^ 2) := Real.le_sqrt_of_sq_le hy2
  have s1 := Real.sq_sqrt (show 0 ≤ R ^ 2 - x ^ 2 by nlinarith)
  have s2 := Real.sq_sqrt (show 0 ≤ R ^ 2 - y ^ 2 by nlinarith)
  set u := √(R ^ 2 - x ^ 2)
  set v := √(R ^ 2 - y ^ 2)
  have e : |u - v| * (u + v) = |x - y| * (x + y) := by
    rw [← abs_of_nonneg (show 0 ≤ u + v by linarith), ← abs_of_nonneg (show 0 ≤ x + y by linarith), ← abs_mul, ← abs_mul]
    have : (u - v) * |u + v| = -((x - y) * |x + y|) := by
      rw [abs_of_nonneg (show 0 ≤ u + v by linarith), abs_of_nonneg (show 0 ≤ x + y by linarith)]
      linear_combination s1 - s2
    rw [abs_of_nonneg (show 0 ≤ u + v by linarith), abs_of_nonneg (show 0 ≤ x + y by linarith)] at this
    rw [this, abs_neg]
  have b1 : |x - y| * (x + y) ≤ 2 / 10 ^ 10 * (19 / 10 * R) := mul_le_mul h (by linarith) (by linarith) (by norm_num)
  have b2 : |u - v| * (6 / 10 * R) ≤ |u - v| * (u + v) := mul_le_mul_of_nonneg_left (by linarith) (abs_nonneg _)
  have b3 : |u - v| * (6 / 10 * R) ≤ 7 / 10 ^ 10 * (6 / 10 * R) := by norm_num at b1 ⊢; linarith
  exact le_of_mul_le_mul_right b3 (by linarith)

include hfl hacos htrig htan hk in
/-- **C111 (UV groove, degrees).** -/
theorem C111_UV_degrees_partial {w t d1 d2 R h b : ℝ} (hd : DimUV w t (2 * deg (d1 / 2)) (deg d2) R h b)
    (hc1 : 1 / 9 ≤ Real.cos (deg (d1 / 2))) (hc2 : 1 / 9 ≤ Real.cos (deg d2))
    (hlow : Real.tan (deg (d1 / 2)) * h + R / 19 ≤ R * Real.cos (deg d2))
    (hh : h + √(R ^ 2 - (Real.tan (deg (d1 / 2)) * h) ^ 2) - R * Real.sin (deg d2) + 2 / 10 ^ 5 ≤ t) :
    ∃ l, profileUVF L tangent w t (2 * radiansF L k (d1 / 2)) (radiansF L k d2) R h b = .ok [l, l.map mirrorS] ∧
      ∃ width x1 ym x y x', Drawn b [.line, .line, .arc, .line, .line]
        [![-width, 0], ![0, 0], ![x1, h], ![0, ym], ![x, y], ![x', t], ![-width, t]] l ∧
      |x1 - -(Real.tan (deg (d1 / 2)) * h)| ≤ 2 / 10 ^ 9 ∧
      |ym - (h + √(R ^ 2 - (Real.tan (deg (d1 / 2)) * h) ^ 2))| ≤ 2 / 10 ^ 8 ∧
      |x - (faceUV t (2 * deg (d1 / 2)) (deg d2) R h).1.1| ≤ 2 / 10 ^ 11 ∧ |y - (faceUV t (2 * deg (d1 / 2)) (deg d2) R h).1.2| ≤ 2 / 10 ^ 8 ∧
      |x' - (faceUV t (2 * deg (d1 / 2)) (deg d2) R h).2.1| ≤ 2 / 10 ^ 7 ∧ 1 / 4 ≤ width + x' ∧
      ∃ e, |e - -(faceUV t (2 * deg (d1 / 2)) (deg d2) R h).2.1| ≤ 1 / 10 ^ 8 ∧ Widened w e width := by
  obtain ⟨hw, hR, ha1, ha2, -, -, hf, -, ht, -, hb⟩ := hd
  have e : ∀ x : ℝ, 2 * x / 2 = x := fun x => by ring
  rw [e] at ha1
  have a1 := radiansF_angle hfl hk ha1.1 ha1.2 hc1
  have a2 := radiansF_angle hfl hk ha2.1 ha2.2 hc2
  set β1 := radiansF L k (d1 / 2)
  set β2 := radiansF L k d2
  set γ1 := deg (d1 / 2)
  set γ2 := deg d2
  have hf' := hf
  norm_num at hf'
  have hs0 : 0 ≤ Real.sin γ2 := Real.sin_nonneg_of_nonneg_of_le_pi ha2.1 (by linarith [ha2.2, Real.pi_pos])
  have hs0' : 0 ≤ Real.sin β2 := Real.sin_nonneg_of_nonneg_of_le_pi a2.angle.1 (by linarith [a2.angle.2, Real.pi_pos])
  have hRs : R * Real.sin γ2 ≤ R := by nlinarith [Real.sin_le_one γ2]
  have hRc : R * Real.cos γ2 ≤ R := by nlinarith [Real.cos_le_one γ2]
  have hx0 : 0 ≤ Real.tan γ1 * h := mul_nonneg a1.tan_nonneg (by linarith)
  have hxb0 : 0 ≤ Real.tan β1 * h :=
    mul_nonneg (Real.tan_nonneg_of_nonneg_of_le_pi_div_two a1.angle.1 a1.angle.2.le) (by linarith)
  have hx95 : Real.tan γ1 * h ≤ 948 / 1000 * R := by linarith [hR.1]
  obtain ⟨p1, p2⟩ := a2.polar (R := R) (by linarith) (by linarith [hR.2])
  have hroot : 0 ≤ √(R ^ 2 - (Real.tan γ1 * h) ^ 2) := Real.sqrt_nonneg _
  -- the height of the arc
  have harc : h ≤ 1000 := by
    by_contra hcon
    push Not at hcon
    have : R * Real.sin γ2 ≤ √(R ^ 2 - (Real.tan γ1 * h) ^ 2) := by
      apply Real.le_sqrt_of_sq_le
      have h1 : (Real.tan γ1 * h) ^ 2 ≤ (R * Real.cos γ2) ^ 2 := by
        apply pow_le_pow_left₀ hx0
        linarith [hR.1]
      have h2 := Real.sin_sq_add_cos_sq γ2
      have h3 : (R * Real.sin γ2) ^ 2 + (R * Real.cos γ2) ^ 2 = R ^ 2 := by linear_combination R ^ 2 * h2
      linarith
    norm_num at hh
    linarith
  have f1 := a1.offset (z := h) (z' := h) (by linarith) harc (by simp)
  obtain ⟨g1, g2⟩ := abs_le.1 f1
  norm_num at g1 g2
  have hq := root_near hR.1 hxb0 (by linarith [hR.1]) hx0 (by linarith) f1
  obtain ⟨q1, q2⟩ := abs_le.1 hq
  obtain ⟨r1, r2⟩ := abs_le.1 p1
  obtain ⟨s1, s2⟩ := abs_le.1 p2
  norm_num at q1 q2 r1 r2 s1 s2 hh
  have hR1 := hR.1
  have hRs' : R * Real.sin β2 ≤ R := by nlinarith [Real.sin_le_one β2]
  set U := √(R ^ 2 - (Real.tan β1 * h) ^ 2) with hU
  set V := √(R ^ 2 - (Real.tan γ1 * h) ^ 2) with hV
  have hU2 : R * Real.sin β2 ≤ U := by
    apply Real.le_sqrt_of_sq_le
    have h1 : (Real.tan β1 * h) ^ 2 ≤ (R * Real.cos β2) ^ 2 := by
      apply pow_le_pow_left₀ hxb0
      linarith
    have h2 := Real.sin_sq_add_cos_sq β2
    have h3 : (R * Real.sin β2) ^ 2 + (R * Real.cos β2) ^ 2 = R ^ 2 := by linear_combination R ^ 2 * h2
    linarith
  have hd' : DimUV w t (2 * β1) β2 R h b := by
    refine ⟨hw, hR, by rw [e]; exact a1.angle, a2.angle, by rw [e]; exact a1.cos, a2.cos, hf, ?_, ht, ?_, hb⟩
    · rw [e]; linarith
    · rw [e]; norm_num; linarith
  -- the upper end of the groove face
  have hz : |Real.tan β2 * (t - (h + U - R * Real.sin β2)) - Real.tan γ2 * (t - (h + V - R * Real.sin γ2))| ≤ 8 / 10 ^ 9 := by
    have k1 : |(Real.tan β2 - Real.tan γ2) * (t - (h + U - R * Real.sin β2))| ≤ 1 / 10 ^ 13 * 1000 := by
      rw [abs_mul]
      refine mul_le_mul a2.tan_close ?_ (abs_nonneg _) (by norm_num)
      rw [abs_le]
      constructor <;> linarith
    have k2 : |Real.tan γ2 * ((t - (h + U - R * Real.sin β2)) - (t - (h + V - R * Real.sin γ2)))| ≤ 9 * (8 / 10 ^ 10) := by
      rw [abs_mul, abs_of_nonneg a2.tan_nonneg]
      refine mul_le_mul a2.tan_le ?_ (abs_nonneg _) (by norm_num)
      rw [abs_le]
      norm_num
      constructor <;> linarith
    have e' : Real.tan β2 * (t - (h + U - R * Real.sin β2)) - Real.tan γ2 * (t - (h + V - R * Real.sin γ2)) =
        (Real.tan β2 - Real.tan γ2) * (t - (h + U - R * Real.sin β2)) +
        Real.tan γ2 * ((t - (h + U - R * Real.sin β2)) - (t - (h + V - R * Real.sin γ2))) := by ring
    rw [e']
    refine le_trans (abs_add_le _ _) ?_
    norm_num at k1 k2 ⊢
    linarith
  obtain ⟨z1, z2⟩ := abs_le.1 hz
  norm_num at z1 z2
  have F1 : (faceUV t (2 * β1) β2 R h).1.2 = h + U - R * Real.sin β2 := by simp only [faceUV, e, hU]
  have F2 : (faceUV t (2 * γ1) γ2 R h).1.2 = h + V - R * Real.sin γ2 := by simp only [faceUV, e, hV]
  have F3 : (faceUV t (2 * β1) β2 R h).2.1 = -(R * Real.cos β2) - Real.tan β2 * (t - (h + U - R * Real.sin β2)) := by
    simp only [faceUV, e, hU]
  have F4 : (faceUV t (2 * γ1) γ2 R h).2.1 = -(R * Real.cos γ2) - Real.tan γ2 * (t - (h + V - R * Real.sin γ2)) := by
    simp only [faceUV, e, hV]
  obtain ⟨l, hl, width, x1, ym, x, y, x', hD, e1, e2, e3, e4, e5, e6, e7⟩ := C111_UV_partial hfl hacos htrig htan hd'
  rw [F1] at e4
  rw [F3] at e5 e7
  rw [e] at e1 e2
  rw [F2, F4]
  refine ⟨l, hl, width, x1, ym, x, y, x', hD, near_trans e1 (neg_near f1) (by norm_num),
    near_trans e2 (b := 7 / 10 ^ 10) ?_ (by norm_num), near_trans e3 (neg_near p1) (by norm_num), near_trans e4 (b := 8 / 10 ^ 10) ?_ (by norm_num),
    near_trans e5 (b := 1 / 10 ^ 8) ?_ (by norm_num), e6, _, ?_, e7⟩ <;> rw [abs_le] <;> norm_num <;> constructor <;> linarith

include hfl hk in
/-- the conversion of angles up to a full turn -/
theorem radiansF_turn {d : ℝ} (h0 : 0 ≤ d) (h1 : d ≤ 360) : |radiansF L k d - deg d| ≤ 4 / 10 ^ 15 ∧ 0 ≤ radiansF L k d := by
  have hr := rounds_rounding hfl
  have hp0 := Real.pi_pos
  have hp1 : Real.pi < 3.1416 := Real.pi_lt_d4
  obtain ⟨k0, k1⟩ := abs_le.1 hk.error
  have hdk : |d * k - d * (Real.pi / 180)| ≤ 360 * (Real.pi / 180 / 2 ^ 51) := by
    rw [← mul_sub, abs_mul, abs_of_nonneg h0]
    exact mul_le_mul h1 hk.error (abs_nonneg _) (by norm_num)
  have hkpos : 0 ≤ k := by norm_num at k0; linarith
  have hx0 : 0 ≤ d * k := mul_nonneg h0 hkpos
  have hd : d * (Real.pi / 180) ≤ 360 * (Real.pi / 180) := mul_le_mul_of_nonneg_right h1 (by positivity)
  have hu := abs_le.1 (Rounding.ulp hr (d * k))
  rw [abs_of_nonneg hx0] at hu
  obtain ⟨a0, a1⟩ := abs_le.1 hdk
  have hx1 : d * k ≤ 6.2833 := by norm_num at a1 ⊢; norm_num at hp1; linarith
  have hul := mul_le_mul_of_nonneg_left hx1 ulp_pos.le
  have hulp : ulp * 6.2833 = 6.2833 / 2 ^ 53 := by unfold ulp; ring
  have hux : ulp * (d * k) ≤ d * k := by
    have := ulp_lt
    nlinarith
  unfold radiansF deg
  refine ⟨?_, by linarith⟩
  rw [abs_le]
  rw [hulp] at hul
  norm_num at a0 a1 hul hp1 ⊢
  constructor <;> linarith

include hfl hacos htrig hk in
/-- **C111 (front face groove, degrees).** The lines connect the points without rounding of a groove whose angle differs by at most
4e-15 from the given one. -/
theorem C111_FF_degrees_partial {code : FFCode} {w t1 : ℝ} {t2 d b e : Option ℝ} (h : DimFF code w t1 t2 none b e)
    (hd : ∀ x ∈ d, 0 ≤ x ∧ x ≤ 360) :
    ∃ alpha, alpha.isSome = d.isSome ∧ (∀ x ∈ d, ∀ a ∈ alpha, |a - deg x| ≤ 4 / 10 ^ 15) ∧
    ((∃ pts ls, ffPoints (some code) w t1 t2 alpha b e = .ok pts ∧
      profileFFF L (some code) w t1 t2 (d.map (radiansF L k)) b e = .ok ls ∧ List.Forall₂ LinesAt pts ls) ∨
    (ffPoints (some code) w t1 t2 alpha b e = .error .typeError ∧
      profileFFF L (some code) w t1 t2 (d.map (radiansF L k)) b e = .error .typeError)) := by
  obtain ⟨hw, ht, h2, -, hb, he, hc⟩ := h
  refine ⟨d.map (radiansF L k), by simp, ?_, C111_FF_partial hfl hacos htrig ⟨hw, ht, h2, ?_, hb, he, hc⟩⟩
  · intro x hx a ha
    rw [Option.mem_def] at hx
    subst hx
    simp only [Option.map_some, Option.mem_def, Option.some.injEq] at ha
    rw [← ha]
    exact (radiansF_turn hfl hk (hd x rfl).1 (hd x rfl).2).1
  · intro x hx
    rw [Option.mem_def, Option.map_eq_some_iff] at hx
    obtain ⟨y, hy, rfl⟩ := hx
    obtain ⟨a, a'⟩ := radiansF_turn hfl hk (hd y hy).1 (hd y hy).2
    refine ⟨a', ?_⟩
    have hp1 : Real.pi < 3.1416 := Real.pi_lt_d4
    have hp0 := Real.pi_pos
    have : deg y ≤ 2 * Real.pi := by
      unfold deg
      have := mul_le_mul_of_nonneg_right (hd y hy).2 (show 0 ≤ Real.pi / 180 by positivity)
      linarith
    have := (abs_le.1 a).2
    norm_num at this hp1 ⊢
    linarith

end

/-- the exact number is a factor -/
example : Factor (Real.pi / 180) := ⟨by rw [sub_self, abs_zero]; have := Real.pi_pos; positivity⟩

/-- a U groove with an angle of 30 degrees -/
example : DimU 3 15 (deg 30) 6 3 1 ∧ 1 / 9 ≤ Real.cos (deg 30) ∧ 3 + 6 - 6 * Real.sin (deg 30) + 2 / 10 ^ 5 ≤ 15 := by
  have e : deg 30 = Real.pi / 6 := by unfold deg; ring
  have hpi := Real.pi_pos
  have h3 : (1 : ℝ) ≤ √3 := Real.one_le_sqrt.2 (by norm_num)
  rw [e, Real.cos_pi_div_six, Real.sin_pi_div_six]
  refine ⟨⟨by norm_num, Or.inr (by norm_num), by norm_num, by norm_num, ⟨by linarith, by linarith⟩, ?_, by norm_num, ?_, by norm_num⟩,
    by linarith, by norm_num⟩
  · rw [Real.cos_pi_div_six]; linarith
  · rw [Real.sin_pi_div_six]; norm_num

/-- a V groove with an angle of 60 degrees -/
example : DimV 2 15 (deg (60 / 2)) 2 4 ∧ 1 / 9 ≤ Real.cos (deg (60 / 2)) := by
  have e : deg (60 / 2) = Real.pi / 6 := by unfold deg; ring
  have hpi := Real.pi_pos
  have h3 : (1 : ℝ) ≤ √3 := Real.one_le_sqrt.2 (by norm_num)
  rw [e, Real.cos_pi_div_six]
  refine ⟨⟨by norm_num, Or.inr (by norm_num), ⟨by linarith, by linarith⟩, ?_, by norm_num, by norm_num, by norm_num⟩, by linarith⟩
  rw [Real.cos_pi_div_six]; linarith

/-- a UV groove with angles of 90 and 0 degrees, a radius of 5 and a root height of 3 -/
example : DimUV 2 15 (2 * deg (90 / 2)) (deg 0) 5 3 1 ∧ 1 / 9 ≤ Real.cos (deg (90 / 2)) ∧ 1 / 9 ≤ Real.cos (deg 0) ∧
    Real.tan (deg (90 / 2)) * 3 + 5 / 19 ≤ 5 * Real.cos (deg 0) ∧
    3 + √(5 ^ 2 - (Real.tan (deg (90 / 2)) * 3) ^ 2) - 5 * Real.sin (deg 0) + 2 / 10 ^ 5 ≤ (15 : ℝ) := by
  have e1 : deg (90 / 2) = Real.pi / 4 := by unfold deg; ring
  have e0 : deg 0 = 0 := by unfold deg; ring
  have hpi := Real.pi_pos
  have e : 2 * (Real.pi / 4) / 2 = Real.pi / 4 := by ring
  have hs : (1 : ℝ) ≤ √2 := Real.one_le_sqrt.2 (by norm_num)
  have h4 : √((5 : ℝ) ^ 2 - (1 * 3) ^ 2) = 4 := by
    rw [show ((5 : ℝ) ^ 2 - (1 * 3) ^ 2) = 4 ^ 2 by norm_num, Real.sqrt_sq (by norm_num)]
  rw [e1, e0, Real.tan_pi_div_four, Real.cos_pi_div_four, Real.cos_zero, Real.sin_zero, h4]
  refine ⟨⟨by norm_num, by norm_num, ⟨by linarith, by linarith⟩, ⟨le_rfl, by linarith⟩, ?_, ?_, by norm_num, ?_, by norm_num, ?_, by norm_num⟩,
    by linarith, by norm_num, by norm_num, by norm_num⟩
  · rw [e, Real.cos_pi_div_four]; linarith
  · rw [Real.cos_zero]; norm_num
  · rw [e, Real.tan_pi_div_four, Real.cos_zero]; norm_num
  · rw [e, Real.tan_pi_div_four, Real.sin_zero, h4]; norm_num

end Weldx.Groove
