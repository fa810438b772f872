import Verif.Geometry.ArcFloatLemmas

/-!
# The angle of arcs in the arithmetic of floating point numbers (C109)
-/

namespace Weldx.Geo

open Matrix

/-- `arccos` changes at most like a square root -/
theorem arccos_close {x y : ℝ} (hx : -1 ≤ x) (hx' : x ≤ 1) (hy : -1 ≤ y) (hy' : y ≤ 1) :
    2 * (|Real.arccos x - Real.arccos y| / Real.pi) ^ 2 ≤ |x - y| := by
  wlog h : y ≤ x generalizing x y
  · have := this hy hy' hx hx' (by linarith)
    rwa [abs_sub_comm, abs_sub_comm y x] at this
  set a := Real.arccos x with ha
  set b := Real.arccos y with hb
  have hab : a ≤ b := Real.arccos_le_arccos h
  have ha0 : 0 ≤ a := Real.arccos_nonneg x
  have hbp : b ≤ Real.pi := Real.arccos_le_pi y
  have ex : x = Real.cos a := (Real.cos_arccos hx hx').symm
  have ey : y = Real.cos b := (Real.cos_arccos hy hy').symm
  have hpi := Real.pi_pos
  rw [abs_of_nonneg (sub_nonneg.2 h), abs_sub_comm, abs_of_nonneg (sub_nonneg.2 hab), ex, ey, Real.cos_sub_cos]
  set t := (b - a) / 2 with ht
  have ht0 : 0 ≤ t := by rw [ht]; linarith
  have ht1 : t ≤ Real.pi / 2 := by rw [ht]; linarith
  have h1 : 2 / Real.pi * t ≤ Real.sin t := Real.mul_le_sin ht0 ht1
  have h2 : Real.sin t ≤ Real.sin ((a + b) / 2) := by
    rcases le_total ((a + b) / 2) (Real.pi / 2) with hc | hc
    · exact Real.sin_le_sin_of_le_of_le_pi_div_two (by linarith) hc (by rw [ht]; linarith)
    · rw [← Real.sin_pi_sub ((a + b) / 2)]
      exact Real.sin_le_sin_of_le_of_le_pi_div_two (by linarith) (by linarith) (by rw [ht]; linarith)
  have h3 : Real.sin ((a - b) / 2) = -Real.sin t := by
    rw [ht, ← Real.sin_neg]; congr 1; ring
  rw [h3]
  have h4 : 0 ≤ 2 / Real.pi * t := by positivity
  have h5 : (2 / Real.pi * t) * (2 / Real.pi * t) ≤ Real.sin ((a + b) / 2) * Real.sin t :=
    mul_le_mul (h1.trans h2) h1 h4 ((h4.trans h1).trans h2)
  have e : (b - a) / Real.pi = 2 / Real.pi * t := by rw [ht]; ring
  rw [e]
  nlinarith

/-- the same for small differences -/
theorem arccos_near {x y c : ℝ} (hx : -1 ≤ x) (hx' : x ≤ 1) (hy : -1 ≤ y) (hy' : y ≤ 1) (hc : 0 ≤ c)
    (h : |x - y| ≤ c ^ 2 / 8) : |Real.arccos x - Real.arccos y| ≤ c := by
  have h1 := (arccos_close hx hx' hy hy').trans h
  have hp := Real.pi_pos
  have hp2 := Real.pi_lt_d2
  have h2 : |Real.arccos x - Real.arccos y| / Real.pi ≤ c / 4 := by
    refine abs_le_of_sq_le_sq' ?_ (by positivity) |>.2
    nlinarith
  rw [div_le_iff₀ hp] at h2
  nlinarith

section
variable {fl acos : ℝ → ℝ} (hfl : Rounding fl) (hacos : Arccosine acos)
include hfl

/-- the determinant of both unit vectors -/
theorem sinF_close {a b us ue : V} (ha : 0 < len a) (hb : 0 < len b)
    (hs : ∀ i, |us i - a i / len a| ≤ 9 * ulp * |a i / len a|)
    (he : ∀ i, |ue i - b i / len b| ≤ 9 * ulp * |b i / len b|) :
    |detF fl us ue - (a 0 * b 1 - a 1 * b 0) / (len a * len b)| ≤ 1 / 10 ^ 12 := by
  have hu := ulp_pos
  have hU := ulp_lt
  have hα : ∀ i, |a i / len a| ≤ 1 := fun i => by
    rw [abs_div, abs_of_pos ha, div_le_one ha]; exact abs_le_len a i
  have hβ : ∀ i, |b i / len b| ≤ 1 := fun i => by
    rw [abs_div, abs_of_pos hb, div_le_one hb]; exact abs_le_len b i
  have hp : ∀ i j, |fl (us i * ue j) - a i / len a * (b j / len b)| ≤ 25 * ulp := by
    intro i j
    have h1 := hs i
    have h2 := he j
    have h3 := hα i
    have h4 := hβ j
    set x := a i / len a
    set y := b j / len b
    have e : us i * ue j - x * y = (us i - x) * (ue j - y) + (us i - x) * y + x * (ue j - y) := by ring
    have g1 : |us i - x| ≤ 9 * ulp := h1.trans (by nlinarith [abs_nonneg x])
    have g2 : |ue j - y| ≤ 9 * ulp := h2.trans (by nlinarith [abs_nonneg y])
    have h5 : |us i * ue j - x * y| ≤ 19 * ulp := by
      rw [e]
      refine (abs_add_three _ _ _).trans ?_
      rw [abs_mul, abs_mul, abs_mul]
      have t1 := mul_le_mul g1 g2 (abs_nonneg _) (by positivity)
      have t2 := mul_le_mul g1 h4 (abs_nonneg _) (by positivity)
      have t3 := mul_le_mul h3 g2 (abs_nonneg _) zero_le_one
      nlinarith
    have h6 : |us i * ue j| ≤ 2 := by
      have t : |us i * ue j| ≤ |us i * ue j - x * y| + |x * y| := by
        simpa using abs_add_le (us i * ue j - x * y) (x * y)
      have t2 : |x * y| ≤ 1 := by rw [abs_mul]; exact mul_le_one₀ h3 (abs_nonneg _) h4
      linarith
    have h7 := Rounding.ulp hfl (us i * ue j)
    have h8 := mul_le_mul_of_nonneg_left h6 hu.le
    have h9 := abs_sub_le (fl (us i * ue j)) (us i * ue j) (x * y)
    linarith
  have p1 := abs_le.1 (hp 0 1)
  have p2 := abs_le.1 (hp 1 0)
  have e : (a 0 * b 1 - a 1 * b 0) / (len a * len b) = a 0 / len a * (b 1 / len b) - a 1 / len a * (b 0 / len b) := by
    field_simp
  rw [e]
  have hx1 : |a 0 / len a * (b 1 / len b)| ≤ 1 := by rw [abs_mul]; exact mul_le_one₀ (hα 0) (abs_nonneg _) (hβ 1)
  have hx2 : |a 1 / len a * (b 0 / len b)| ≤ 1 := by rw [abs_mul]; exact mul_le_one₀ (hα 1) (abs_nonneg _) (hβ 0)
  have hx1' := abs_le.1 hx1
  have hx2' := abs_le.1 hx2
  have h1 := Rounding.ulp hfl (fl (us 0 * ue 1) - fl (us 1 * ue 0))
  have h2 : |fl (us 0 * ue 1) - fl (us 1 * ue 0)| ≤ 3 := by rw [abs_le]; constructor <;> linarith
  have h3 := abs_le.1 (h1.trans (mul_le_mul_of_nonneg_left h2 hu.le))
  show |fl (fl (us 0 * ue 1) - fl (us 1 * ue 0)) - _| ≤ _
  norm_num at hU ⊢
  rw [abs_le]; constructor <;> linarith

theorem two_pi_close : |fl (2 * fl Real.pi) - 2 * Real.pi| ≤ 1 / 10 ^ 12 := by
  have hu := ulp_pos
  have hU := ulp_lt
  have hp := Real.pi_pos
  have hp2 := Real.pi_lt_d2
  have h1 := Rounding.ulp hfl Real.pi
  rw [abs_of_pos hp] at h1
  have h2 := Rounding.ulp hfl (2 * fl Real.pi)
  have h1' := abs_le.1 h1
  have h3 : |2 * fl Real.pi| ≤ 10 := by rw [abs_le]; constructor <;> nlinarith
  have h4 := abs_le.1 (h2.trans (mul_le_mul_of_nonneg_left h3 hu.le))
  have h5 : ulp * Real.pi ≤ ulp * 4 := mul_le_mul_of_nonneg_left (by linarith) hu.le
  norm_num at hU ⊢
  rw [abs_le]; constructor <;> linarith

include hacos in
/-- **C109 (angle).** The angle of an arc differs by at most 1e-6 from the angle in exact arithmetic, which is the one
of the requested sense of rotation, unless the arc is almost straight or almost a full circle. -/
theorem C109_angle {x : ArcF} (ha : 0 < len (x.pStart - x.pCenter)) (hb : 0 < len (x.pEnd - x.pCenter))
    (hc : len (x.pStart - x.pCenter) * len (x.pEnd - x.pCenter) / 10 ^ 13 ≤
      len (x.pStart - x.pEnd) ^ 2 - (len (x.pStart - x.pCenter) - len (x.pEnd - x.pCenter)) ^ 2) :
    ∃ w w', calcAngleF fl acos x = .ok w ∧ calcAngle x.pStart x.pEnd x.pCenter x.sign = .ok w' ∧
      |w - w'| ≤ 1 / 10 ^ 6 := by
  have hu := ulp_pos
  have hU := ulp_lt
  have hpi := Real.pi_pos
  have hpi2 := Real.pi_lt_d2
  obtain ⟨us, hus, hs⟩ := normalizeF_ok hfl ha
  obtain ⟨ue, hue, he⟩ := normalizeF_ok hfl hb
  have hcos := cosF_close hfl ha hb hs he
  have hsin := sinF_close hfl ha hb hs he
  have hsq := len_sub_sq (x.pStart - x.pCenter) (x.pEnd - x.pCenter)
  rw [sub_sub_sub_cancel_right] at hsq
  set p := x.pStart - x.pCenter with hp
  set q := x.pEnd - x.pCenter with hq
  set a := len p with hadef
  set b := len q with hbdef
  have hab := mul_pos ha hb
  set C := dot p q / (a * b) with hC
  set S := (p 0 * q 1 - p 1 * q 0) / (a * b) with hS
  have hCS : C ^ 2 + S ^ 2 = 1 := by
    have h1 := len_mul_self p
    have h2 := len_mul_self q
    have e : C ^ 2 + S ^ 2 = (dot p q ^ 2 + (p 0 * q 1 - p 1 * q 0) ^ 2) / (a * b) ^ 2 := by
      rw [hC, hS]; field_simp
    rw [e, div_eq_one_iff_eq (by positivity)]
    have e2 : (a * b) ^ 2 = (a * a) * (b * b) := by ring
    rw [e2, h1, h2]; unfold dot; ring
  have hC1 : -1 ≤ C ∧ C ≤ 1 := by
    constructor <;> nlinarith [sq_nonneg S]
  have hC2 : C ≤ 1 - 1 / (2 * 10 ^ 13) := by
    have h1 : 1 - C = (a * b - dot p q) / (a * b) := by rw [hC]; field_simp
    have h2 : 1 / (2 * 10 ^ 13) ≤ 1 - C := by
      rw [h1, le_div_iff₀ hab]
      linarith
    linarith
  -- the exact angle
  have hpne : p ≠ 0 := fun h => ha.ne' (by rw [hadef, h]; exact len_eq_zero.2 rfl)
  have hqne : q ≠ 0 := fun h => hb.ne' (by rw [hbdef, h]; exact len_eq_zero.2 rfl)
  have hdot : dot (a⁻¹ • p) (b⁻¹ • q) = C := by
    rw [hC]; unfold dot; simp only [Pi.smul_apply, smul_eq_mul]; field_simp
  have hdet : vectorPointsToLeft (b⁻¹ • q) (a⁻¹ • p) = npSign S := by
    unfold vectorPointsToLeft
    congr 1
    rw [Matrix.det_fin_two_of, hS]; simp only [Pi.smul_apply, smul_eq_mul]; field_simp
  have hclipC : clip C (-1) 1 = C := by
    unfold clip; rw [max_eq_left hC1.1, min_eq_left hC1.2]
  have hexact : calcAngle x.pStart x.pEnd x.pCenter x.sign =
      if |npSign S + x.sign| > 0 then .ok (Real.arccos C) else .ok (2 * Real.pi - Real.arccos C) := by
    unfold calcAngle
    rw [← hp, ← hq, normalize_of_ne hpne, normalize_of_ne hqne]
    simp only [bind, Except.bind]
    rw [← hadef, ← hbdef, hdot, hdet, hclipC]
  -- the rounded angle
  set cF := clip (dotF fl us ue) (-1) 1 with hcF
  have hcl : -1 ≤ cF ∧ cF ≤ 1 := by
    rw [hcF]; unfold clip
    exact ⟨le_min (le_max_right _ _) (by norm_num), min_le_right _ _⟩
  have hcFC : |cF - C| ≤ 21 * ulp := by
    rw [← hclipC, hcF]; unfold clip
    refine (abs_min_sub_min_le_max _ _ _ _).trans ?_
    rw [sub_self, abs_zero, max_eq_left (abs_nonneg _)]
    refine (abs_max_sub_max_le_max _ _ _ _).trans ?_
    rw [sub_self, abs_zero, max_eq_left (abs_nonneg _)]
    exact hcos
  have hang : |Real.arccos cF - Real.arccos C| ≤ 3 / 10 ^ 7 := by
    refine arccos_near hcl.1 hcl.2 hC1.1 hC1.2 (by norm_num) (hcFC.trans ?_)
    norm_num at hU ⊢
    linarith
  have hacF := hacos.error cF hcl.1 hcl.2
  have hacle := Real.arccos_le_pi cF
  have hac0 := Real.arccos_nonneg cF
  have hw : |acos cF - Real.arccos C| ≤ 4 / 10 ^ 7 := by
    have h1 := abs_sub_le (acos cF) (Real.arccos cF) (Real.arccos C)
    have h2 : Real.arccos cF / 2 ^ 50 ≤ 4 / 2 ^ 50 := by
      apply div_le_div_of_nonneg_right _ (by norm_num); linarith
    norm_num at h2 hang hacF ⊢
    linarith
  set θ := Real.arccos C with hθ
  have hθ0 : 0 ≤ θ := Real.arccos_nonneg C
  have hθπ : θ ≤ Real.pi := Real.arccos_le_pi C
  have hw' := abs_le.1 hw
  have hpi2c := abs_le.1 (two_pi_close hfl)
  have hv : |fl (fl (2 * fl Real.pi) - acos cF) - (2 * Real.pi - θ)| ≤ 5 / 10 ^ 7 := by
    have h1 := Rounding.ulp hfl (fl (2 * fl Real.pi) - acos cF)
    have h2 : |fl (2 * fl Real.pi) - acos cF| ≤ 10 := by
      norm_num at hpi2c hw'
      rw [abs_le]; constructor <;> linarith
    have h3 := abs_le.1 (h1.trans (mul_le_mul_of_nonneg_left h2 hu.le))
    norm_num at hpi2c hw' hU ⊢
    rw [abs_le]; constructor <;> linarith
  have hround : calcAngleF fl acos x =
      if |npSign (detF fl us ue) + x.sign| > 0 then .ok (acos cF) else .ok (fl (fl (2 * fl Real.pi) - acos cF)) := by
    unfold calcAngleF
    rw [hus, hue]
    simp only [bind, Except.bind]
    rw [← hcF]
  rw [hround, hexact]
  have hv' := abs_le.1 hv
  by_cases hsg : npSign (detF fl us ue) = npSign S
  · rw [hsg]
    split
    · exact ⟨_, _, rfl, rfl, hw.trans (by norm_num)⟩
    · exact ⟨_, _, rfl, rfl, hv.trans (by norm_num)⟩
  · -- the points are opposite of each other
    have hs' := abs_le.1 hsin
    have hSsmall : |S| ≤ 1 / 10 ^ 12 := by
      by_contra hcon
      push Not at hcon
      apply hsg
      rcases le_total 0 S with h0 | h0
      · rw [abs_of_nonneg h0] at hcon
        have h1 : 0 < detF fl us ue := by linarith
        have h2 : 0 < S := by linarith [show (0 : ℝ) < 1 / 10 ^ 12 by norm_num]
        rw [npSign, npSign, if_pos h1, if_pos h2]
      · rw [abs_of_nonpos h0] at hcon
        have h1 : detF fl us ue < 0 := by linarith
        have h2 : S < 0 := by linarith [show (0 : ℝ) < 1 / 10 ^ 12 by norm_num]
        rw [npSign, npSign, if_neg (by linarith), if_pos h1, if_neg (by linarith), if_pos h2]
    have hS2 : S ^ 2 ≤ (1 / 10 ^ 12) ^ 2 := sq_le_sq' (by linarith [(abs_le.1 hSsmall).1]) (abs_le.1 hSsmall).2
    have hCneg : C ≤ -1 + 1 / 10 ^ 20 := by
      have h1 : 1 - (1 / 10 ^ 12) ^ 2 ≤ C ^ 2 := by linarith
      by_contra hcon
      push Not at hcon
      norm_num at h1 hC2 hcon
      nlinarith
    have hπ : |θ - Real.pi| ≤ 1 / 10 ^ 9 := by
      rw [hθ, ← Real.arccos_neg_one]
      refine arccos_near hC1.1 hC1.2 le_rfl (by norm_num) (by norm_num) ?_
      rw [abs_of_nonneg (by linarith [hC1.1])]
      norm_num at hCneg ⊢
      linarith
    have hπ' := abs_le.1 hπ
    have hfin : ∀ y z : ℝ, |y - Real.pi| ≤ 6 / 10 ^ 7 → |z - Real.pi| ≤ 1 / 10 ^ 9 → |y - z| ≤ 1 / 10 ^ 6 := by
      intro y z hy hz
      have hy' := abs_le.1 hy
      have hz' := abs_le.1 hz
      norm_num at hy' hz' ⊢
      rw [abs_le]; constructor <;> linarith
    have y1 : |acos cF - Real.pi| ≤ 6 / 10 ^ 7 := by
      norm_num at hw' hπ' ⊢
      rw [abs_le]; constructor <;> linarith
    have y2 : |fl (fl (2 * fl Real.pi) - acos cF) - Real.pi| ≤ 6 / 10 ^ 7 := by
      norm_num at hv' hπ' ⊢
      rw [abs_le]; constructor <;> linarith
    have z2 : |2 * Real.pi - θ - Real.pi| ≤ 1 / 10 ^ 9 := by
      rw [show 2 * Real.pi - θ - Real.pi = -(θ - Real.pi) by ring, abs_neg]; exact hπ
    split <;> split
    · exact ⟨_, _, rfl, rfl, hfin _ _ y1 hπ⟩
    · exact ⟨_, _, rfl, rfl, hfin _ _ y1 z2⟩
    · exact ⟨_, _, rfl, rfl, hfin _ _ y2 hπ⟩
    · exact ⟨_, _, rfl, rfl, hfin _ _ y2 z2⟩

include hacos in
/-- three quarters of a circle with a radius of 5 mm: the angle is next to `3 * π / 2` -/
example : ∃ w w', calcAngleF fl acos ⟨![5, 0], ![0, 5], ![0, 0], -1⟩ = .ok w ∧
    calcAngle ![5, 0] ![0, 5] ![0, 0] (-1) = .ok w' ∧ |w - w'| ≤ 1 / 10 ^ 6 := by
  have h1 : len (![5, 0] - ![0, 0]) = 5 := by
    unfold len dot; simp [show (5 : ℝ) * 5 = 5 ^ 2 by norm_num]
  have h2 : len (![0, 5] - ![0, 0]) = 5 := by
    unfold len dot; simp [show (5 : ℝ) * 5 = 5 ^ 2 by norm_num]
  have h3 : len (![5, 0] - ![0, 5]) ^ 2 = 50 := by
    rw [pow_two, len_mul_self]; unfold dot; simp; norm_num
  exact C109_angle hfl hacos (x := ⟨![5, 0], ![0, 5], ![0, 0], -1⟩) (by rw [h1]; norm_num) (by rw [h2]; norm_num)
    (by show len (![5, 0] - ![0, 0]) * len (![0, 5] - ![0, 0]) / 10 ^ 13 ≤
          len (![5, 0] - ![0, 5]) ^ 2 - (len (![5, 0] - ![0, 0]) - len (![0, 5] - ![0, 0])) ^ 2
        rw [h1, h2, h3]; norm_num)

end

end Weldx.Geo
