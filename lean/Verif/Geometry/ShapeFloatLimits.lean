import Verif.Geometry.ShapeFloatProps

/-!
# A semicircle that can't be connected to the next segment (C110)
-/

namespace Weldx.Geo

open Matrix Weldx.Binary64Real

theorem rounds_neg {fl : ℝ → ℝ} (hfl : Rounds fl) : Rounds fun x => -fl (-x) where
  repr x := repr_neg (hfl.repr _)
  nearest x y hy := by
    have h := hfl.nearest (-x) (-y) (repr_neg hy)
    have e1 : |-fl (-x) - x| = |fl (-x) - -x| := by rw [← abs_neg]; congr 1; ring
    have e2 : |y - x| = |-y - -x| := by rw [← abs_neg]; congr 1; ring
    rw [e1, e2]; exact h

theorem eq_of_close_neg {fl : ℝ → ℝ} (hfl : Rounds fl) {x : ℝ} {k e : ℤ} (hk : |k| ≤ 2 ^ 53)
    (hx : (2 : ℝ) ^ (52 + e) ≤ x) (h : |k * (2 : ℝ) ^ e - x| < (2 : ℝ) ^ e / 2) : fl (-x) = -(k * (2 : ℝ) ^ e) := by
  rw [← (rounds_neg hfl).eq_of_close hk hx h, neg_neg]

/-- half of a circle from `(2, 2)` to the origin -/
def semicircle : ArcF := ⟨![2, 2], ![0, 0], ![1, 1], 1⟩

section
variable {L : Lib} (hfl : Rounds L.fl) (hacos : Arccosine L.acos) (htrig : Trigonometric L.cosine L.sine)
include hfl

/-- the rounded root of two -/
theorem root_two : L.fl √2 = 6369051672525773 / 2 ^ 52 := by
  have h := hfl.eq_of_close (x := √2) (k := 6369051672525773) (e := -52) (by norm_num)
    (by rw [show (52 : ℤ) + -52 = 0 from rfl, zpow_zero]; exact Real.one_le_sqrt.2 (by norm_num))
    (by
      rw [zpow_neg, abs_lt]
      have h1 : (6369051672525773 / 2 ^ 52 - 1 / 2 ^ 53 : ℝ) < √2 := by
        rw [Real.lt_sqrt (by norm_num)]; norm_num
      have h2 : √2 < (6369051672525773 / 2 ^ 52 + 1 / 2 ^ 53 : ℝ) := by
        rw [Real.sqrt_lt' (by norm_num)]; norm_num
      norm_num at h1 h2 ⊢
      constructor <;> linarith)
  rw [h, zpow_neg]; norm_num

theorem inverse_root_two : L.fl (1 / (6369051672525773 / 2 ^ 52)) = 6369051672525772 / 2 ^ 53 := by
  have h := hfl.eq_of_close (x := 1 / (6369051672525773 / 2 ^ 52)) (k := 6369051672525772) (e := -53) (by norm_num)
    (by rw [show (52 : ℤ) + -53 = -1 from rfl, zpow_neg]; norm_num)
    (by rw [zpow_neg, abs_lt]; norm_num)
  rw [h, zpow_neg]; norm_num

theorem inverse_root_two_neg : L.fl (-(1 / (6369051672525773 / 2 ^ 52))) = -(6369051672525772 / 2 ^ 53) := by
  have h := eq_of_close_neg hfl (x := 1 / (6369051672525773 / 2 ^ 52)) (k := 6369051672525772) (e := -53) (by norm_num)
    (by rw [show (52 : ℤ) + -53 = -1 from rfl, zpow_neg]; norm_num)
    (by rw [zpow_neg, abs_lt]; norm_num)
  rw [h, zpow_neg]; norm_num

theorem half_square : L.fl (-(6369051672525772 / 2 ^ 53 * (6369051672525772 / 2 ^ 53))) = -(4503599627370495 / 2 ^ 53) := by
  have h := eq_of_close_neg hfl (x := 6369051672525772 / 2 ^ 53 * (6369051672525772 / 2 ^ 53)) (k := 9007199254740990)
    (e := -54) (by norm_num)
    (by rw [show (52 : ℤ) + -54 = -2 from rfl, zpow_neg]; norm_num)
    (by rw [zpow_neg, abs_lt]; norm_num)
  rw [h, zpow_neg]; norm_num

/-- the vectors from the center and their length -/
theorem semicircle_vectors :
    subF L.fl semicircle.pStart semicircle.pCenter = ![1, 1] ∧ subF L.fl semicircle.pEnd semicircle.pCenter = ![-1, -1] ∧
      lenF L.fl ![1, 1] = 6369051672525773 / 2 ^ 52 ∧ lenF L.fl ![-1, -1] = 6369051672525773 / 2 ^ 52 := by
  have r1 : L.fl 1 = 1 := hfl.exact ⟨1, 0, by norm_num, by simp⟩
  have r2 : L.fl 2 = 2 := hfl.exact ⟨2, 0, by norm_num, by simp⟩
  have rm : L.fl (-1) = -1 := hfl.exact ⟨-1, 0, by norm_num, by simp⟩
  refine ⟨?_, ?_, ?_, ?_⟩
  · funext i; fin_cases i <;> show L.fl (2 - 1) = 1 <;> norm_num [r1]
  · funext i; fin_cases i <;> show L.fl (0 - 1) = -1 <;> norm_num [rm]
  · rw [← root_two hfl]
    show L.fl √(L.fl (L.fl (1 * 1) + L.fl (1 * 1))) = _
    norm_num [r1, r2]
  · rw [← root_two hfl]
    show L.fl √(L.fl (L.fl (-1 * -1) + L.fl (-1 * -1))) = _
    norm_num [r1, r2]

/-- the rounded cosine of the angle is not `-1` -/
theorem semicircle_angle : calcAngleF L.fl L.acos semicircle = .ok (L.acos (-(4503599627370495 / 2 ^ 52))) := by
  obtain ⟨h1, h2, h3, h4⟩ := semicircle_vectors hfl
  have hz := Rounding.zero' (rounds_rounding hfl)
  set α : ℝ := 6369051672525772 / 2 ^ 53 with hα
  have u1 : normalizeF L.fl ![1, 1] = .ok ![α, α] := by
    unfold normalizeF
    rw [if_neg (by rw [h3]; norm_num), h3]
    congr 1
    funext i; fin_cases i <;> exact inverse_root_two hfl
  have u2 : normalizeF L.fl ![-1, -1] = .ok ![-α, -α] := by
    unfold normalizeF
    rw [if_neg (by rw [h4]; norm_num), h4]
    congr 1
    have : L.fl (-1 / (6369051672525773 / 2 ^ 52)) = -α := by rw [neg_div]; exact inverse_root_two_neg hfl
    funext i; fin_cases i <;> exact this
  have hsq : L.fl (α * -α) = -(4503599627370495 / 2 ^ 53) := by rw [mul_neg]; exact half_square hfl
  have hdot : dotF L.fl ![α, α] ![-α, -α] = -(4503599627370495 / 2 ^ 52) := by
    show L.fl (L.fl (α * -α) + L.fl (α * -α)) = _
    rw [hsq]
    have e : (-(4503599627370495 / 2 ^ 53) + -(4503599627370495 / 2 ^ 53) : ℝ) =
        ((-4503599627370495 : ℤ) : ℝ) * (2 : ℝ) ^ (-52 : ℤ) := by rw [zpow_neg]; norm_num
    rw [e, exact_of hfl (by norm_num), zpow_neg]; norm_num
  have hdet : detF L.fl ![α, α] ![-α, -α] = 0 := by
    show L.fl (L.fl (α * -α) - L.fl (α * -α)) = 0
    rw [sub_self, hz]
  unfold calcAngleF
  rw [h1, h2, u1, u2]
  simp only [bind, Except.bind]
  rw [hdot, hdet, if_pos (by unfold npSign semicircle; norm_num)]
  congr 2
  unfold clip
  rw [max_eq_left (by norm_num), min_eq_left (by norm_num)]

include hacos htrig in
/-- the end of the semicircle is not the origin -/
theorem semicircle_end : L.pointEnd (.arc semicircle) 0 ≤ -(1 / 10 ^ 8) := by
  obtain ⟨h1, h2, h3, h4⟩ := semicircle_vectors hfl
  have hr := rounds_rounding hfl
  have hz := Rounding.zero' hr
  have r1 : L.fl 1 = 1 := hfl.exact ⟨1, 0, by norm_num, by simp⟩
  have hu := ulp_pos
  have hU := ulp_lt
  have hpi := Real.pi_pos
  have hpi2 := Real.pi_lt_d2
  set α : ℝ := 6369051672525772 / 2 ^ 53 with hα
  set c : ℝ := -(4503599627370495 / 2 ^ 52) with hc
  have e : L.pointEnd (.arc semicircle) = L.point semicircle (L.acos c) := by
    show (match calcAngleF L.fl L.acos semicircle with | .ok w => L.point semicircle w | .error _ => 0) = _
    rw [semicircle_angle hfl]
  have hst : L.startAngle semicircle = L.acos α := by
    unfold Lib.startAngle
    simp only
    rw [h1, h3]
    have d1 : dotF L.fl ![1, 0] ![1, 1] = 1 := by
      show L.fl (L.fl (1 * 1) + L.fl (0 * 1)) = 1
      rw [mul_one, zero_mul, hz, r1, add_zero, r1]
    have d2 : detF L.fl ![1, 0] ![1, 1] = 1 := by
      show L.fl (L.fl (1 * 1) - L.fl (0 * 1)) = 1
      rw [mul_one, zero_mul, hz, r1, sub_zero, r1]
    rw [d1, d2, if_neg (by norm_num), inverse_root_two hfl, mul_one]
  have near : ∀ t : ℝ, -1 ≤ t → t ≤ 1 → |L.acos t - Real.arccos t| ≤ 26 * ulp := by
    intro t t1 t2
    refine (hacos.error t t1 t2).trans ?_
    have : Real.arccos t / 2 ^ 50 = 8 * ulp * Real.arccos t := by unfold ulp; ring
    rw [this]
    have : ulp * Real.arccos t ≤ ulp * 3.15 :=
      mul_le_mul_of_nonneg_left ((Real.arccos_le_pi t).trans hpi2.le) hu.le
    norm_num at this; linarith
  have a1 := near α (by norm_num [hα]) (by norm_num [hα])
  have a2 := near c (by norm_num [hc]) (by norm_num [hc])
  set A := Real.arccos α with hA
  set W := Real.arccos c with hW
  have hΦ : |L.startAngle semicircle + L.acos c * semicircle.sign - (A + W)| ≤ 76 * ulp := by
    rw [hst]
    show |L.acos α + L.acos c * ((1 : ℤ) : ℝ) - (A + W)| ≤ _
    push_cast
    rw [mul_one]
    have b1 := abs_le.1 a1
    have b2 := abs_le.1 a2
    rw [abs_le]; constructor <;> linarith
  have hΦ' : |A + W| ≤ 95 / 10 := by
    have b1 := Real.arccos_nonneg α
    have b2 := Real.arccos_nonneg c
    have b3 := Real.arccos_le_pi α
    have b4 := Real.arccos_le_pi c
    norm_num at hpi2
    rw [abs_le]; constructor <;> linarith
  have h := point_close hfl htrig (x := semicircle) (s := L.acos c) (Φ := A + W) (ρ := 6369051672525773 / 2 ^ 52)
    (ε := 0) (τ := 0) (v := ![Real.cos (A + W), Real.sin (A + W)]) (by norm_num)
    (by intro i; fin_cases i; exacts [Real.abs_cos_le_one _, Real.abs_sin_le_one _])
    (by rw [h1, h3]; simp) (by norm_num) hΦ hΦ' (by simp) (by simp) 0
  rw [e]
  have hcos : Real.cos (A + W) = α * c - √(1 - α ^ 2) * √(1 - c ^ 2) := by
    rw [Real.cos_add, Real.cos_arccos (by norm_num [hα]) (by norm_num [hα]),
      Real.cos_arccos (by norm_num [hc]) (by norm_num [hc]), Real.sin_arccos, Real.sin_arccos]
  have s1 : 7 / 10 ≤ √(1 - α ^ 2) := by
    rw [Real.le_sqrt (by norm_num) (by norm_num [hα])]; norm_num [hα]
  have s2 : 14 / 10 ^ 9 ≤ √(1 - c ^ 2) := by
    rw [Real.le_sqrt (by norm_num) (by norm_num [hc])]; norm_num [hc]
  have s3 := mul_le_mul s1 s2 (by norm_num) (Real.sqrt_nonneg _)
  have h' := (abs_le.1 h).2
  have hv : (![Real.cos (A + W), Real.sin (A + W)] : V) 0 = α * c - √(1 - α ^ 2) * √(1 - c ^ 2) := hcos
  have hp : semicircle.pCenter 0 = 1 := rfl
  rw [hv, hp] at h'
  set Z := √(1 - α ^ 2) * √(1 - c ^ 2)
  rw [hα, hc] at h'
  norm_num at h' hU s3 ⊢
  linarith

include hacos htrig in
/-- **C110 (limit).** A semicircle from (2, 2) to the origin about (1, 1) and a line from the origin to (1, 0) share a
point, and in exact arithmetic the arc ends in the origin. Nevertheless the constructor of the shape raises an exception,
since the calculated end of the arc is more than 1e-8 away from the origin. -/
theorem C110_semicircle_counterexample :
    JoinedF [.arc semicircle, .line ![0, 0] ![1, 0]] ∧
    (∃ y, mkArc semicircle.pStart semicircle.pEnd semicircle.pCenter true = .ok y ∧ y.point y.maxCoord = ![0, 0]) ∧
    mkArcF L.fl L.acos semicircle.pStart semicircle.pEnd semicircle.pCenter true = .ok semicircle ∧
    L.mkShape [.arc semicircle, .line ![0, 0] ![1, 0]] = .error .valueError := by
  have hr := rounds_rounding hfl
  have hz := Rounding.zero' hr
  have hu := ulp_pos
  have hU := ulp_lt
  have l1 : len (semicircle.pStart - semicircle.pCenter) = √2 := by
    unfold len dot semicircle; norm_num
  have l2 : len (semicircle.pEnd - semicircle.pCenter) = √2 := by
    unfold len dot semicircle; norm_num
  have hs2 : (√2 : ℝ) * √2 = 2 := Real.mul_self_sqrt (by norm_num)
  have hs0 : (0 : ℝ) < √2 := by positivity
  have l3 : len (semicircle.pStart - semicircle.pEnd) ^ 2 = 8 := by
    rw [pow_two, len_mul_self]
    unfold dot semicircle; norm_num
  refine ⟨⟨rfl, trivial⟩, ?_, ?_, ?_⟩
  · have g1 : semicircle.pStart ≠ semicircle.pCenter := by
      intro h; have := congrFun h 0; norm_num [semicircle] at this
    have g2 : semicircle.pEnd ≠ semicircle.pCenter := by
      intro h; have := congrFun h 0; norm_num [semicircle] at this
    have g3 : ¬ ∃ c : ℝ, 0 < c ∧ semicircle.pEnd - semicircle.pCenter = c • (semicircle.pStart - semicircle.pCenter) := by
      rintro ⟨c, c0, h⟩
      have := congrFun h 0
      norm_num [semicircle] at this
      linarith
    obtain ⟨y, hy⟩ := (C51_accepted (ccw := true)).2 ⟨g1, g2, g3, by rw [l1, l2]; norm_num⟩
    exact ⟨y, hy, (C51_end hy).2.2 (by rw [l1, l2])⟩
  · refine check_ok hr hacos (x := semicircle) (by rw [l1]; exact hs0) (by rw [l2]; exact hs0) ?_ ?_
    · rw [l1, l2, sub_self, abs_zero]
      have : (√2 : ℝ) ≤ 2 := by nlinarith
      norm_num at hU ⊢
      nlinarith
    · rw [l1, l2, l3, hs2, sub_self]
      norm_num at hU ⊢
      linarith
  · have hend := semicircle_end hfl hacos htrig
    have hn : ¬ L.vectorIsClose (L.pointEnd (.arc semicircle)) (L.pointStart (.line ![0, 0] ![1, 0])) := by
      rintro ⟨h, -⟩
      set z := L.pointEnd (.arc semicircle) 0 with hzz
      have h' : |L.fl (z - 0)| ≤ L.fl (L.fl (1 / 10 ^ 9) + L.fl (L.fl (1 / 10 ^ 5) * |0|)) := h
      rw [sub_zero, abs_zero, mul_zero, hz, add_zero, hfl.exact (hfl.repr _)] at h'
      have t1 := abs_le.1 (Rounding.ulp hr (1 / 10 ^ 9))
      have t2 := abs_le.1 (Rounding.ulp hr z)
      have t3 := abs_le.1 h'
      rw [abs_of_pos (by positivity)] at t1
      rw [abs_of_neg (by norm_num at hend ⊢; linarith)] at t2
      norm_num at *
      nlinarith [t1.2, t2.2, t3.1]
    have : L.checkConnected [.arc semicircle, .line ![0, 0] ![1, 0]] = .error .valueError := by
      rw [Lib.checkConnected, if_neg hn]
    unfold Lib.mkShape
    rw [this]
    rfl

end

/-- the functions with exact trigonometry and a rounding exist, so that the statements are about something -/
theorem exists_lib : ∃ L : Lib, Rounds L.fl ∧ Arccosine L.acos ∧ Trigonometric L.cosine L.sine := by
  obtain ⟨fl, hfl⟩ := exists_rounds
  refine ⟨⟨fl, Real.arccos, Real.cos, Real.sin⟩, hfl, ⟨fun x _ _ => ?_⟩, ⟨fun x _ => ?_, fun x _ => ?_⟩⟩
  · rw [sub_self, abs_zero]; exact div_nonneg (Real.arccos_nonneg x) (by norm_num)
  · rw [sub_self, abs_zero]; norm_num
  · rw [sub_self, abs_zero]; norm_num

end Weldx.Geo
