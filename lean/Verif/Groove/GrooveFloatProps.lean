import Verif.Groove.GrooveFloatLemmas

/-!
# U grooves can be made in spite of rounding (C111)
-/

namespace Weldx.Groove

open Weldx.Geo Matrix Weldx.Binary64Real

/-- the length of a vector that is almost the one with a given radius and angle -/
theorem len_polar {v : Geo.V} {R β ε : ℝ} (hR : 0 ≤ R) (h0 : |(|v 0|) - R * Real.cos β| ≤ ε)
    (h1 : |(|v 1|) - R * Real.sin β| ≤ ε) : |len v - R| ≤ 2 * ε := by
  have e1 : len v = len ![|v 0|, |v 1|] := by
    unfold len dot; simp
  have e2 : len ![R * Real.cos β, R * Real.sin β] = R := by
    unfold len dot
    have : (![R * Real.cos β, R * Real.sin β] : Geo.V) 0 * (![R * Real.cos β, R * Real.sin β] : Geo.V) 0 +
        (![R * Real.cos β, R * Real.sin β] : Geo.V) 1 * (![R * Real.cos β, R * Real.sin β] : Geo.V) 1 = R ^ 2 := by
      simp only [Matrix.cons_val_zero, Matrix.cons_val_one]
      linear_combination R ^ 2 * Real.sin_sq_add_cos_sq β
    rw [this, Real.sqrt_sq hR]
  have h2 := len_sub_le ![|v 0|, |v 1|] ![R * Real.cos β, R * Real.sin β]
  have h3 := len_le_abs (![|v 0|, |v 1|] - ![R * Real.cos β, R * Real.sin β])
  rw [e2, ← e1] at h2
  have e3 : ∀ i, (![|v 0|, |v 1|] - ![R * Real.cos β, R * Real.sin β] : Geo.V) i =
      (![|v 0| - R * Real.cos β, |v 1| - R * Real.sin β] : Geo.V) i := by intro i; fin_cases i <;> rfl
  rw [e3, e3] at h3
  simp only [Matrix.cons_val_zero, Matrix.cons_val_one] at h3
  linarith

/-- an arc between a point on the middle axis and one at the angle `β`, where the center is on the middle axis -/
structure Quarter (u C X E R β : ℝ) : Prop where
  radius : |(|u - C|) - R| ≤ 1 / 10 ^ 11
  first : |X - R * Real.cos β| ≤ 1 / 10 ^ 11
  second : |(|E - C|) - R * Real.sin β| ≤ 1 / 10 ^ 11
  center : |C| ≤ 10 ^ 5
  lower : 1 / 10 ≤ R
  upper : R ≤ 400
  cos : 1 / 10 ≤ Real.cos β
  sin : 0 ≤ Real.sin β

section
variable {u C X E R β : ℝ} (h : Quarter u C X E R β)
include h

theorem Quarter.X_ge : R / 11 ≤ X := by
  have h1 := abs_le.1 h.first
  have h2 := h.lower
  have h3 := mul_le_mul_of_nonneg_left h.cos (by linarith : (0 : ℝ) ≤ R)
  norm_num at h1
  linarith

theorem Quarter.len_start : |len (![0, u] - ![0, C]) - R| ≤ 1 / 10 ^ 11 := by
  have e : len (![0, u] - ![0, C]) = |u - C| := by
    unfold len dot
    simp [Real.sqrt_mul_self_eq_abs]
  rw [e]
  exact h.radius

theorem Quarter.len_stop : |len (![-X, E] - ![0, C]) - R| ≤ 2 / 10 ^ 11 := by
  have h2 := h.lower
  have hX := h.X_ge
  have := len_polar (v := ![-X, E] - ![0, C]) (R := R) (β := β) (ε := 1 / 10 ^ 11) (by linarith)
    (by
      simp only [Pi.sub_apply, Matrix.cons_val_zero, sub_zero, abs_neg]
      rw [abs_of_nonneg (show (0 : ℝ) ≤ X by linarith)]; exact h.first)
    (by simpa using h.second)
  refine this.trans (by norm_num)

theorem Quarter.bounds : (R * (999 / 1000) ≤ len (![0, u] - ![0, C]) ∧ len (![0, u] - ![0, C]) ≤ R * (1001 / 1000)) ∧
    (R * (999 / 1000) ≤ len (![-X, E] - ![0, C]) ∧ len (![-X, E] - ![0, C]) ≤ R * (1001 / 1000)) ∧
    |len (![-X, E] - ![0, C]) - len (![0, u] - ![0, C])| ≤ 1 / 10 ^ 10 := by
  have h2 := h.lower
  have hs := abs_le.1 h.len_start
  have he := abs_le.1 h.len_stop
  generalize len (![0, u] - ![0, C]) = A at *
  generalize len (![-X, E] - ![0, C]) = B at *
  rw [abs_le]
  norm_num at hs he ⊢
  refine ⟨⟨?_, ?_⟩, ⟨?_, ?_⟩, ?_, ?_⟩ <;> linarith

theorem Quarter.sine : 1 / 20 ≤ |X * (u - C)| / (len (![0, u] - ![0, C]) * len (![-X, E] - ![0, C])) := by
  have h2 := h.lower
  have hX := h.X_ge
  obtain ⟨hs, he, hse⟩ := h.bounds
  have e : len (![0, u] - ![0, C]) = |u - C| := by
    unfold len dot
    simp [Real.sqrt_mul_self_eq_abs]
  have h3 : 0 < |u - C| := by rw [← e]; linarith
  rw [abs_mul, e, mul_comm |u - C|, mul_div_mul_right _ _ h3.ne', abs_of_nonneg (by linarith : (0 : ℝ) ≤ X), le_div_iff₀ (by linarith)]
  linarith

/-- the arc that starts on the middle axis -/
theorem Quarter.clear : ArcF.Clear ⟨![0, u], ![-X, E], ![0, C], -1⟩ (1 / 20) := by
  have h2 := h.lower
  have h2' := h.upper
  have hX := h.X_ge
  obtain ⟨hs, he, hse⟩ := h.bounds
  refine ⟨Or.inr rfl, by norm_num, ?_, ?_, ?_, ?_, Or.inr ?_, ?_, ?_⟩
  · show 0 < len (![0, u] - ![0, C]); linarith
  · show |len (![-X, E] - ![0, C]) - len (![0, u] - ![0, C])| ≤ _
    exact hse
  · show 0 < len (![-X, E] - ![0, C]); linarith
  · have := h.sine
    unfold ArcF.sine
    rw [abs_div, abs_of_pos (show (0 : ℝ) < len (![0, u] - ![0, C]) * len (![-X, E] - ![0, C]) from
      mul_pos (by linarith) (by linarith))]
    refine this.trans (le_of_eq ?_)
    congr 1
    simp [mul_comm]
  · show _ ≤ |(u - C) / len (![0, u] - ![0, C])|
    have e : len (![0, u] - ![0, C]) = |u - C| := by
      unfold len dot
      simp [Real.sqrt_mul_self_eq_abs]
    rw [abs_div, e, abs_abs, div_self (by rw [← e]; linarith)]
    norm_num
  · show len (![0, u] - ![0, C]) ≤ _; linarith
  · intro i
    fin_cases i
    · simp
    · exact h.center

/-- the arc that ends on the middle axis -/
theorem Quarter.clear_reverse (hsin : 1 / 1000 ≤ Real.sin β) (hRs : R ≤ 400 * Real.sin β) :
    ArcF.Clear ⟨![-X, E], ![0, u], ![0, C], -1⟩ (Real.sin β / 20) := by
  have h2 := h.lower
  have h2' := h.upper
  have hX := h.X_ge
  obtain ⟨hs, he, hse⟩ := h.bounds
  have hs1 := Real.sin_le_one β
  refine ⟨Or.inr rfl, by norm_num at hsin ⊢; linarith, ?_, ?_, ?_, ?_, Or.inr ?_, ?_, ?_⟩
  · show 0 < len (![-X, E] - ![0, C]); linarith
  · show |len (![0, u] - ![0, C]) - len (![-X, E] - ![0, C])| ≤ _
    rw [abs_sub_comm]; exact hse
  · show 0 < len (![0, u] - ![0, C]); linarith
  · have := h.sine
    unfold ArcF.sine
    rw [abs_div, abs_of_pos (show (0 : ℝ) < len (![-X, E] - ![0, C]) * len (![0, u] - ![0, C]) from
      mul_pos (by linarith) (by linarith)), mul_comm (len (![-X, E] - ![0, C]))]
    refine (by linarith : Real.sin β / 20 ≤ 1 / 20).trans (this.trans (le_of_eq ?_))
    congr 1
    simp
  · show _ ≤ |(E - C) / len (![-X, E] - ![0, C])|
    have hd := abs_le.1 h.second
    rw [abs_div, abs_of_pos (show 0 < len (![-X, E] - ![0, C]) by linarith),
      le_div_iff₀ (by linarith)]
    have h5 : Real.sin β * len (![-X, E] - ![0, C]) ≤ Real.sin β * (2 * R) :=
      mul_le_mul_of_nonneg_left (by linarith) h.sin
    have h6 : 1 / 10 * (1 / 1000) ≤ R * Real.sin β := mul_le_mul h2 hsin (by norm_num) (by linarith)
    norm_num at hd h6
    linarith
  · show len (![-X, E] - ![0, C]) ≤ _; linarith
  · intro i
    fin_cases i
    · simp
    · exact h.center

end

/-- dimensions of a U groove: all lengths are moderate, the angle is at least zero and at most 84 degrees, the root face is missing or not
too small, and the groove face has a height -/
structure DimU (w t β R c b : ℝ) : Prop where
  width : 2 ≤ w ∧ w ≤ 1000
  face : c = 0 ∨ 1 / 10 ^ 5 ≤ c
  face_le : c ≤ 1000
  radius : 1 / 10 ≤ R ∧ R ≤ 400
  angle : 0 ≤ β ∧ β < Real.pi / 2
  cos : 1 / 10 ≤ Real.cos β
  thickness : t ≤ 1000
  height : c + R - R * Real.sin β + 1 / 10 ^ 5 ≤ t
  gap : 0 ≤ b ∧ b ≤ 10 ^ 4

/-- rounding of moderate numbers -/
theorem fl_abs {fl : ℝ → ℝ} (hr : Rounding fl) {x B : ℝ} (h : |x| ≤ B) : |fl x - x| ≤ B / 2 ^ 53 := by
  have h1 := Rounding.ulp hr x
  have h2 := mul_le_mul_of_nonneg_left h ulp_pos.le
  have e : ulp * B = B / 2 ^ 53 := by unfold ulp; ring
  linarith

section
variable {L : Lib} (hfl : Rounds L.fl) (hacos : Arccosine L.acos) (htrig : Trigonometric L.cosine L.sine)
variable {tangent : ℝ → ℝ} (htan : Tangent tangent)

include hfl htrig in
/-- the rounded products with cosine and sine -/
theorem polar_close {R β : ℝ} (hR : 0 ≤ R ∧ R ≤ 400) (hβ : 0 ≤ β ∧ β < Real.pi / 2) :
    |L.fl (R * L.cosine β) - R * Real.cos β| ≤ 1 / 10 ^ 12 ∧ |L.fl (R * L.sine β) - R * Real.sin β| ≤ 1 / 10 ^ 12 := by
  have hr := rounds_rounding hfl
  have hpi := Real.pi_lt_d2
  have hb : |β| ≤ 10 := by rw [abs_of_nonneg hβ.1]; norm_num at hpi; linarith
  have key : ∀ z y : ℝ, |z - y| ≤ 1 / 2 ^ 50 → |y| ≤ 1 → |L.fl (R * z) - R * y| ≤ 1 / 10 ^ 12 := by
    intro z y h1 h2
    have h3 := abs_le.1 h1
    have h4 := abs_le.1 h2
    have e : |R * z - R * y| ≤ 400 * (1 / 2 ^ 50) := by
      rw [← mul_sub, abs_mul, abs_of_nonneg hR.1]
      exact mul_le_mul hR.2 h1 (abs_nonneg _) (by norm_num)
    have h5 : |R * z| ≤ 800 := by
      rw [abs_mul, abs_of_nonneg hR.1]
      have : |z| ≤ 2 := by rw [abs_le]; norm_num at h3; constructor <;> linarith
      have := mul_le_mul hR.2 this (abs_nonneg _) (by norm_num)
      linarith
    have h6 := abs_le.1 (fl_abs hr h5)
    have h7 := abs_le.1 e
    rw [abs_le]
    norm_num at h6 h7 ⊢
    constructor <;> linarith
  exact ⟨key _ _ (htrig.cos_error β hb) (Real.abs_cos_le_one β), key _ _ (htrig.sin_error β hb) (Real.abs_sin_le_one β)⟩

include htan in
/-- the rounded tangent -/
theorem tangent_close {β : ℝ} (hβ : 0 ≤ β ∧ β < Real.pi / 2) (hc : 1 / 10 ≤ Real.cos β) :
    0 ≤ Real.tan β ∧ Real.tan β ≤ 10 ∧ |tangent β - Real.tan β| ≤ 1 / 10 ^ 14 := by
  have h0 : 0 ≤ Real.tan β := Real.tan_nonneg_of_nonneg_of_le_pi_div_two hβ.1 hβ.2.le
  have h1 : Real.tan β ≤ 10 := by
    rw [Real.tan_eq_sin_div_cos, div_le_iff₀ (by linarith)]
    linarith [Real.sin_le_one β]
  refine ⟨h0, h1, (htan.error β hβ.1 hβ.2).trans ?_⟩
  rw [div_le_iff₀ (by norm_num)]
  norm_num
  linarith

include hfl htan in
/-- the offset of a groove face of the height `z` -/
theorem offset_near {β z y : ℝ} (hβ : 0 ≤ β ∧ β < Real.pi / 2) (hc : 1 / 10 ≤ Real.cos β) (h0 : 0 ≤ z) (h1 : z ≤ 2000)
    (h4 : |y - z| ≤ 2 / 10 ^ 11 * 2) : |L.fl (tangent β * y) - Real.tan β * z| ≤ 1 / 10 ^ 9 := by
  have hr := rounds_rounding hfl
  obtain ⟨t0, t1, t2⟩ := tangent_close htan hβ hc
  set T := tangent β with hT
  have ht2 := abs_le.1 t2
  have h5 : |T * y - Real.tan β * z| ≤ 11 * (2 / 10 ^ 11 * 2) + 1 / 10 ^ 14 * 2000 := by
    have e : T * y - Real.tan β * z = T * (y - z) + (T - Real.tan β) * z := by ring
    rw [e]
    refine (abs_add_le _ _).trans (add_le_add ?_ ?_)
    · rw [abs_mul]
      refine mul_le_mul ?_ h4 (abs_nonneg _) (by norm_num)
      rw [abs_le]; norm_num at ht2; constructor <;> linarith
    · rw [abs_mul, abs_of_nonneg h0]
      exact mul_le_mul t2 h1 h0 (by norm_num)
  have h6 : |T * y| ≤ 30000 := by
    have h7 := abs_le.1 h5
    have h8 : Real.tan β * z ≤ 10 * 2000 := mul_le_mul t1 h1 h0 (by norm_num)
    have h9 : 0 ≤ Real.tan β * z := mul_nonneg t0 h0
    rw [abs_le]; norm_num at h7; constructor <;> linarith
  have h7 := abs_le.1 (fl_abs hr h6)
  have h8 := abs_le.1 h5
  rw [abs_le]
  norm_num at h7 h8 ⊢
  constructor <;> linarith

include hfl htan in
/-- the same with a rounded height -/
theorem offset_close {β z z' : ℝ} (hβ : 0 ≤ β ∧ β < Real.pi / 2) (hc : 1 / 10 ≤ Real.cos β) (h0 : 0 ≤ z) (h1 : z ≤ 2000)
    (hz : |z' - z| ≤ 1 / 10 ^ 11) : |L.fl (tangent β * L.fl z') - Real.tan β * z| ≤ 1 / 10 ^ 9 := by
  have hr := rounds_rounding hfl
  have hz' := abs_le.1 hz
  have h2 : |z'| ≤ 2001 := by rw [abs_le]; norm_num at hz'; constructor <;> linarith
  have h3 := abs_le.1 (fl_abs hr h2)
  set y := L.fl z' with hy
  have h4 : |y - z| ≤ 2 / 10 ^ 11 * 2 := by
    rw [abs_le]; norm_num at h3 hz' ⊢; constructor <;> linarith
  exact offset_near hfl htan hβ hc h0 h1 h4

include hfl in
/-- the adjusted width -/
theorem widenF_close {w edge : ℝ} (hw : 2 ≤ w ∧ w ≤ 1000) (h0 : 0 ≤ edge) (h1 : edge ≤ 3 * 10 ^ 4) :
    edge + 1 / 2 ≤ widenF L w edge ∧ widenF L w edge ≤ 32000 := by
  have hr := rounds_rounding hfl
  unfold widenF
  have h2 := abs_le.1 (fl_abs hr (x := edge + 1) (B := 4 * 10 ^ 4) (by rw [abs_le]; constructor <;> linarith))
  have h3 := abs_le.1 (fl_abs hr (x := w + edge) (B := 4 * 10 ^ 4) (by rw [abs_le]; constructor <;> linarith))
  norm_num at h2 h3
  split_ifs with h
  · constructor <;> linarith
  · push Not at h
    constructor <;> linarith

/-- the width of a workpiece whose edge is at `e`: the given one if it exceeds the edge by one, otherwise the edge is added -/
def Widened (w e width : ℝ) : Prop :=
  (width = w ∧ e + 1 ≤ w + 1 / 10 ^ 7) ∨ (|width - (w + e)| ≤ 1 / 10 ^ 7 ∧ w ≤ e + 1 + 1 / 10 ^ 7)

include hfl in
theorem widenF_spec {w edge e : ℝ} (hw : 2 ≤ w ∧ w ≤ 1000) (h0 : 0 ≤ edge) (h1 : edge ≤ 3 * 10 ^ 4) (he : |edge - e| ≤ 9 / 10 ^ 8) :
    Widened w e (widenF L w edge) := by
  have hr := rounds_rounding hfl
  unfold widenF Widened
  have h2 := abs_le.1 (fl_abs hr (x := edge + 1) (B := 4 * 10 ^ 4) (by rw [abs_le]; constructor <;> linarith))
  have h3 := abs_le.1 (fl_abs hr (x := w + edge) (B := 4 * 10 ^ 4) (by rw [abs_le]; constructor <;> linarith))
  have he := abs_le.1 he
  norm_num at h2 h3 he
  split_ifs with h
  · right
    rw [abs_le]
    norm_num
    refine ⟨⟨?_, ?_⟩, ?_⟩ <;> linarith
  · push Not at h
    left
    norm_num
    linarith

theorem max_close {a e ε : ℝ} (h : |a - e| ≤ ε) (h0 : 0 ≤ e) : |max a 0 - e| ≤ ε := by
  have := abs_max_sub_max_le_max a 0 e 0
  rw [max_eq_left h0, sub_zero, abs_zero, max_eq_left (abs_nonneg (a - e))] at this
  exact this.trans h

theorem max_close_max {a a' e e' ε : ℝ} (h : |a - e| ≤ ε) (h' : |a' - e'| ≤ ε) : |max a a' - max e e'| ≤ ε :=
  (abs_max_sub_max_le_max a a' e e').trans (max_le h h')

/-- the points of the groove face without rounding: end of the arc and upper end of the line -/
noncomputable def faceU (t β R c : ℝ) : (ℝ × ℝ) × (ℝ × ℝ) :=
  ((-(R * Real.cos β), c + R - R * Real.sin β),
    (-(R * Real.cos β) - Real.tan β * (t - (c + R - R * Real.sin β)), t))

set_option maxHeartbeats 2000000 in
include hfl htrig htan in
/-- the points of a U groove -/
theorem chainUF {w t β R c b : ℝ} (h : DimU w t β R c b) :
    ∃ width ym x y x', pointsUF L tangent w t β R c =
        [![-width, 0], ![0, 0]] ++ rootFace c ![0, c] ++ [![0, ym], ![x, y], ![x', t], ![-width, t]] ∧
      ClearChain (kindsU c) (pointsUF L tangent w t β R c) ∧
      width = widenF L w (max (L.fl (L.fl (R * L.cosine β) +
        L.fl (tangent β * L.fl (t - L.fl (L.fl (c + R) - L.fl (R * L.sine β)))))) 0) ∧ 1 / 2 ≤ width ∧ width ≤ 32000 ∧
      |ym - (c + R)| ≤ 1 / 10 ^ 11 ∧ |x - (faceU t β R c).1.1| ≤ 1 / 10 ^ 11 ∧ |y - (faceU t β R c).1.2| ≤ 1 / 10 ^ 11 ∧
      |x' - (faceU t β R c).2.1| ≤ 1 / 10 ^ 8 ∧ 1 / 4 ≤ width + x' ∧ Widened w (-(faceU t β R c).2.1) width := by
  have hr := rounds_rounding hfl
  obtain ⟨hw, hc, hc1, hR, hβ, hcos, ht, hh, hb⟩ := h
  have hc0 : 0 ≤ c := by rcases hc with h | h; · exact h.ge
                         · exact le_trans (by norm_num) h
  have hs0 : 0 ≤ Real.sin β := Real.sin_nonneg_of_nonneg_of_le_pi hβ.1 (by linarith [hβ.2, Real.pi_pos])
  have hs1 := Real.sin_le_one β
  have hc1' := Real.cos_le_one β
  have hRs0 : 0 ≤ R * Real.sin β := mul_nonneg (by linarith) hs0
  have hRs1 : R * Real.sin β ≤ R := by nlinarith
  have hRc1 : R * Real.cos β ≤ R := by nlinarith
  have hRc0 : R / 10 ≤ R * Real.cos β := by nlinarith
  obtain ⟨kX, kY⟩ := polar_close hfl htrig (R := R) ⟨by linarith, hR.2⟩ hβ
  obtain ⟨t0, t1, -⟩ := tangent_close htan hβ hcos
  unfold pointsUF
  simp only
  have kX' := abs_le.1 kX
  have kY' := abs_le.1 kY
  set X := L.fl (R * L.cosine β) with hX
  set Y := L.fl (R * L.sine β) with hY
  have kC := abs_le.1 (fl_abs hr (x := c + R) (B := 1400) (by rw [abs_le]; constructor <;> linarith [hR.1, hR.2]))
  set C := L.fl (c + R) with hC
  norm_num at kX' kY' kC
  have kE := abs_le.1 (fl_abs hr (x := C - Y) (B := 1500) (by rw [abs_le]; constructor <;> linarith [hR.1, hR.2]))
  set E := L.fl (C - Y) with hE
  norm_num at kE
  have hz : |t - E - (t - (c + R - R * Real.sin β))| ≤ 1 / 10 ^ 11 := by
    rw [abs_le]; norm_num; constructor <;> linarith
  have ks := offset_close hfl htan hβ hcos (z := t - (c + R - R * Real.sin β)) (z' := t - E)
    (by norm_num at hh; linarith) (by linarith) hz
  have ks' := abs_le.1 ks
  set s := L.fl (tangent β * L.fl (t - E)) with hs
  have hS0 : 0 ≤ Real.tan β * (t - (c + R - R * Real.sin β)) := mul_nonneg t0 (by norm_num at hh; linarith)
  have hS1 : Real.tan β * (t - (c + R - R * Real.sin β)) ≤ 10 * 1000 := mul_le_mul t1 (by linarith) (by norm_num at hh; linarith) (by norm_num)
  set S := Real.tan β * (t - (c + R - R * Real.sin β)) with hSd
  norm_num at ks'
  have k1 := abs_le.1 (fl_abs hr (x := X + s) (B := 20000) (by rw [abs_le]; constructor <;> linarith [hR.1, hR.2]))
  have k2 := abs_le.1 (fl_abs hr (x := -X - s) (B := 20000) (by rw [abs_le]; constructor <;> linarith [hR.1, hR.2]))
  set P := L.fl (-X - s) with hP
  set edge := max (L.fl (X + s)) 0 with hedge
  norm_num at k1 k2
  have he0 : 0 ≤ edge := le_max_right _ _
  have he1 : edge ≤ 3 * 10 ^ 4 := max_le (by norm_num; linarith) (by norm_num)
  have he2 : L.fl (X + s) ≤ edge := le_max_left _ _
  obtain ⟨hw1, hw2⟩ := widenF_close hfl hw he0 he1
  set W := widenF L w edge with hW
  have hq : Quarter c C X E R β := by
    refine ⟨?_, ?_, ?_, ?_, hR.1, hR.2, hcos, hs0⟩
    · rw [abs_of_nonpos (show c - C ≤ 0 by linarith [hR.1]), abs_le]; norm_num; constructor <;> linarith
    · rw [abs_le]; norm_num; constructor <;> linarith
    · have e : |(|E - C|) - R * Real.sin β| ≤ |(E - C) - -(R * Real.sin β)| := by
        have := abs_abs_sub_abs_le (E - C) (-(R * Real.sin β))
        rwa [abs_neg, abs_of_nonneg hRs0] at this
      refine e.trans ?_
      rw [abs_le]; norm_num; constructor <;> linarith
    · rw [abs_le]; constructor <;> linarith [hR.1, hR.2]
  have hXge := hq.X_ge
  have hmod : ∀ x y : ℝ, |x| ≤ 4 * 10 ^ 4 → |y| ≤ 4 * 10 ^ 4 → Moderate ![x, y] := by
    intro x y hx hy i
    fin_cases i
    · exact hx
    · exact hy
  have hchainArc : ClearChain [.arc, .line, .line] [![0, c], ![0, C], ![-X, E], ![P, t], ![-W, t]] := by
    refine ⟨⟨hmod _ _ ?_ ?_, hmod _ _ ?_ ?_, hmod _ _ ?_ ?_, ⟨1 / 20, hq.clear⟩, 0, ?_, ?_⟩,
      ⟨hmod _ _ ?_ ?_, hmod _ _ ?_ ?_, 1, ?_⟩, ⟨hmod _ _ ?_ ?_, hmod _ _ ?_ ?_, 0, ?_⟩, trivial⟩
    · simp
    · rw [abs_le]; norm_num; constructor <;> linarith
    · rw [abs_le]; norm_num; constructor <;> linarith [hR.1, hR.2]
    · rw [abs_le]; norm_num; constructor <;> linarith [hR.1, hR.2]
    · simp
    · rw [abs_le]; norm_num; constructor <;> linarith [hR.1, hR.2]
    · simp only [Matrix.cons_val_zero, sub_zero, abs_neg]
      rw [abs_of_nonneg (by linarith [hR.1])]; norm_num; linarith [hR.1]
    · simp only [Matrix.cons_val_zero, sub_zero, abs_neg]
      have := hq.bounds.1.2
      rw [abs_of_nonneg (show (0 : ℝ) ≤ X by linarith [hR.1])]
      linarith [hR.1]
    · rw [abs_le]; norm_num; constructor <;> linarith [hR.1, hR.2]
    · rw [abs_le]; norm_num; constructor <;> linarith [hR.1, hR.2]
    · rw [abs_le]; norm_num; constructor <;> linarith [hR.1, hR.2]
    · rw [abs_le]; norm_num at hh ⊢; constructor <;> linarith [hR.1, hR.2]
    · show _ ≤ |t - E|
      rw [abs_of_nonneg (by norm_num at hh; linarith)]; norm_num at hh ⊢; linarith
    · rw [abs_le]; norm_num; constructor <;> linarith [hR.1, hR.2]
    · rw [abs_le]; norm_num at hh ⊢; constructor <;> linarith [hR.1, hR.2]
    · rw [abs_le]; norm_num; constructor <;> linarith [hR.1, hR.2]
    · rw [abs_le]; norm_num at hh ⊢; constructor <;> linarith [hR.1, hR.2]
    · simp only [Matrix.cons_val_zero]
      rw [abs_of_nonpos (by linarith)]; norm_num; linarith
  have hchain : ClearChain (kindsU c) ([![-W, 0], ![0, 0]] ++ rootFace c ![0, c] ++ [![0, C], ![-X, E], ![P, t], ![-W, t]]) := by
    have hfirst : Moderate ![-W, 0] ∧ Moderate ![0, 0] ∧ ∃ i, 1 / 10 ^ 6 ≤ |(![0, 0] : Geo.V) i - (![-W, 0] : Geo.V) i| := by
      refine ⟨hmod _ _ ?_ (by simp), hmod _ _ (by simp) (by simp), 0, ?_⟩
      · rw [abs_le]; norm_num; constructor <;> linarith
      · simp only [Matrix.cons_val_zero, sub_neg_eq_add, zero_add]
        rw [abs_of_nonneg (by linarith)]; norm_num; linarith
    unfold kindsU rootKind rootFace
    by_cases h0 : c = 0
    · subst h0
      simp only [ne_eq, not_true_eq_false, if_false, List.append_nil]
      exact ⟨hfirst, hchainArc⟩
    · have hc5 := hc.resolve_left h0
      simp only [ne_eq, h0, not_false_eq_true, if_true]
      refine ⟨hfirst, ⟨hmod _ _ (by simp) (by simp), hmod _ _ (by simp) ?_, 1, ?_⟩, hchainArc⟩
      · rw [abs_le]; norm_num; constructor <;> linarith
      · show _ ≤ |c - 0|
        rw [sub_zero, abs_of_nonneg hc0]; norm_num at hc5 ⊢; linarith
  refine ⟨W, C, -X, E, P, rfl, hchain, rfl, by linarith, hw2, ?_, ?_, ?_, ?_, ?_, ?_⟩
  · rw [abs_le]; norm_num; constructor <;> linarith
  · show |-X - -(R * Real.cos β)| ≤ _
    rw [abs_le]; norm_num; constructor <;> linarith
  · show |E - (c + R - R * Real.sin β)| ≤ _
    rw [abs_le]; norm_num; constructor <;> linarith
  · show |P - (-(R * Real.cos β) - S)| ≤ _
    rw [abs_le]; norm_num; constructor <;> linarith
  · linarith
  · refine widenF_spec hfl hw he0 he1 (max_close ?_ ?_)
    · show |L.fl (X + s) - -(-(R * Real.cos β) - S)| ≤ _
      rw [abs_le]; norm_num; constructor <;> linarith
    · show 0 ≤ -(-(R * Real.cos β) - S)
      linarith [hR.1]

include hfl hacos htrig htan in
/-- **C111 (U groove).** A U groove with moderate dimensions can be made in spite of rounding. The shapes have the
segments that they should have, their points are the calculated ones moved by half of the gap up to 1e-10, and the
right shape is the mirror image of the left one. -/
theorem C111_U_partial {w t β R c b : ℝ} (h : DimU w t β R c b) :
    ∃ l, profileUF L tangent w t β R c b = .ok [l, l.map mirrorS] ∧
      ∃ width ym x y x', Drawn b (kindsU c)
        ([![-width, 0], ![0, 0]] ++ rootFace c ![0, c] ++ [![0, ym], ![x, y], ![x', t], ![-width, t]]) l ∧
      |ym - (c + R)| ≤ 1 / 10 ^ 11 ∧ |x - (faceU t β R c).1.1| ≤ 1 / 10 ^ 11 ∧ |y - (faceU t β R c).1.2| ≤ 1 / 10 ^ 11 ∧
      |x' - (faceU t β R c).2.1| ≤ 1 / 10 ^ 8 ∧ 1 / 4 ≤ width + x' ∧ Widened w (-(faceU t β R c).2.1) width := by
  obtain ⟨width, ym, x, y, x', hp, hc, -, -, -, hrest⟩ := chainUF hfl htrig htan h
  obtain ⟨l, hl, hd⟩ := C111_chain_partial hfl hacos htrig hc h.gap.1 h.gap.2
  exact ⟨l, hl, width, ym, x, y, x', hp ▸ hd, hrest⟩

end

end Weldx.Groove
