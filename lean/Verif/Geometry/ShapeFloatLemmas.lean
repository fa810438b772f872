import Verif.Geometry.ShapeFloat
import Verif.Geometry.RootFloat
import Verif.Geometry.ArcFloatAngle

/-!
# Error bounds for the points of arcs (C110)
-/

namespace Weldx.Geo

open Matrix Weldx.Binary64Real

/-- roots of `1 - c ^ 2` for close values of `c` -/
theorem sine_close {c C S δ κ : ℝ} (hc : |c| ≤ 1) (hC : C ^ 2 + S ^ 2 = 1) (h : |c - C| ≤ δ) (hκ : 0 < κ)
    (hk : 2 * δ ≤ κ * |S| ∨ 2 * δ ≤ κ ^ 2) : |√(1 - c ^ 2) - (|S|)| ≤ κ := by
  have hc' := abs_le.1 hc
  have h1 : 0 ≤ 1 - c ^ 2 := by nlinarith
  have hr := Real.sq_sqrt h1
  have hr0 := Real.sqrt_nonneg (1 - c ^ 2)
  set r := √(1 - c ^ 2) with hrr
  have hs0 := abs_nonneg S
  have hs := sq_abs S
  set s := |S| with hss
  have hC1 : |C| ≤ 1 := abs_le.2 ⟨by nlinarith, by nlinarith⟩
  have hC' := abs_le.1 hC1
  have hδ : 0 ≤ δ := (abs_nonneg _).trans h
  have h2 : |r - s| * (r + s) ≤ 2 * δ := by
    have e : |r - s| * (r + s) = |c - C| * |c + C| := by
      rw [← abs_of_nonneg (show 0 ≤ r + s by positivity), ← abs_mul, ← abs_mul, ← abs_neg]
      congr 1
      linear_combination (-1 : ℝ) * hr + hs + hC
    rw [e]
    have h3 : |c + C| ≤ 2 := by rw [abs_le]; constructor <;> linarith
    calc |c - C| * |c + C| ≤ δ * 2 := mul_le_mul h h3 (abs_nonneg _) hδ
      _ = 2 * δ := by ring
  by_contra hn
  push Not at hn
  rcases hk with hk | hk
  · have h3 : κ * s ≤ |r - s| * (r + s) := mul_le_mul hn.le (by linarith) hs0 (abs_nonneg _)
    have h5 : 0 < r + s := by
      by_contra h0
      have e1 : r = 0 := by linarith
      have e2 : s = 0 := by linarith
      rw [e1, e2] at hn; simp at hn; linarith
    have h4 : κ * (r + s) < |r - s| * (r + s) := mul_lt_mul_of_pos_right hn h5
    nlinarith
  · have h3 : |r - s| ≤ r + s := by rw [abs_le]; constructor <;> linarith
    have h4 : κ * κ < |r - s| * |r - s| := mul_self_lt_mul_self hκ.le hn
    have h5 : |r - s| * |r - s| ≤ |r - s| * (r + s) := mul_le_mul_of_nonneg_left h3 (abs_nonneg _)
    nlinarith

theorem clip_close {x c : ℝ} (hc : |c| ≤ 1) : |clip x (-1) 1 - c| ≤ |x - c| := by
  have h := abs_le.1 hc
  unfold clip
  rcases le_total x (-1) with h1 | h1
  · rw [max_eq_right h1, min_eq_left (by norm_num), abs_of_nonpos (by linarith), abs_of_nonpos (by linarith)]
    linarith
  · rw [max_eq_left h1]
    rcases le_total x 1 with h2 | h2
    · rw [min_eq_left h2]
    · rw [min_eq_right h2, abs_of_nonneg (by linarith), abs_of_nonneg (by linarith)]; linarith

theorem clip_le (x : ℝ) : |clip x (-1) 1| ≤ 1 := by
  unfold clip
  rw [abs_le]
  exact ⟨le_min (le_max_right _ _) (by norm_num), min_le_right _ _⟩

/-- the sine of the angle from the start to the end -/
noncomputable def ArcF.sine (x : ArcF) : ℝ :=
  ((x.pStart - x.pCenter) 0 * (x.pEnd - x.pCenter) 1 - (x.pStart - x.pCenter) 1 * (x.pEnd - x.pCenter) 0) /
    (len (x.pStart - x.pCenter) * len (x.pEnd - x.pCenter))

/-- its cosine -/
noncomputable def ArcF.cosine (x : ArcF) : ℝ :=
  dot (x.pStart - x.pCenter) (x.pEnd - x.pCenter) / (len (x.pStart - x.pCenter) * len (x.pEnd - x.pCenter))

theorem ArcF.cos_sq {x : ArcF} (ha : 0 < len (x.pStart - x.pCenter)) (hb : 0 < len (x.pEnd - x.pCenter)) :
    x.cosine ^ 2 + x.sine ^ 2 = 1 := by
  have h1 := len_mul_self (x.pStart - x.pCenter)
  have h2 := len_mul_self (x.pEnd - x.pCenter)
  unfold ArcF.cosine ArcF.sine
  set a := x.pStart - x.pCenter
  set b := x.pEnd - x.pCenter
  have hab : 0 < len a * len b := mul_pos ha hb
  rw [div_pow, div_pow, ← add_div, div_eq_one_iff_eq (by positivity)]
  have e : (len a * len b) ^ 2 = (len a * len a) * (len b * len b) := by ring
  rw [e, h1, h2]
  unfold dot; ring

section
variable {L : Lib} (hfl : Rounds L.fl) (hacos : Arccosine L.acos)
include hfl

theorem two_pi_near : |L.fl (2 * L.fl Real.pi) - 2 * Real.pi| ≤ 14 * ulp := by
  have hr := rounds_rounding hfl
  have hu := ulp_pos
  have hU := ulp_lt
  have hp := Real.pi_pos
  have hp2 := Real.pi_lt_d2
  have h1 := Rounding.ulp hr Real.pi
  rw [abs_of_pos hp] at h1
  have h2 := Rounding.ulp hr (2 * L.fl Real.pi)
  have h1' := abs_le.1 h1
  have h5 : ulp * Real.pi ≤ ulp * 3.15 := mul_le_mul_of_nonneg_left hp2.le hu.le
  have h3 : |2 * L.fl Real.pi| ≤ 7 := by
    norm_num at hU h5 hp2
    rw [abs_le]; constructor <;> linarith
  have h4 := abs_le.1 (h2.trans (mul_le_mul_of_nonneg_left h3 hu.le))
  norm_num at h5
  rw [abs_le]; constructor <;> linarith

include hacos in
/-- the rounded angle, together with an angle whose cosine and sine are known -/
theorem turn_close {x : ArcF} (hs : x.sign = 1 ∨ x.sign = -1) (ha : 0 < len (x.pStart - x.pCenter))
    (hb : 0 < len (x.pEnd - x.pCenter)) {κ : ℝ} (hκ : 0 < κ)
    (hk : (1 / 10 ^ 11 ≤ |x.sine| ∧ 42 * ulp ≤ κ * |x.sine|) ∨ 42 * ulp ≤ κ ^ 2) :
    ∃ w W, calcAngleF L.fl L.acos x = .ok w ∧ |w - W| ≤ 50 * ulp ∧ 0 ≤ W ∧ W ≤ 2 * Real.pi ∧
      |Real.cos (W * x.sign) - x.cosine| ≤ 21 * ulp ∧ |Real.sin (W * x.sign) - x.sine| ≤ 2 * κ := by
  have hr := rounds_rounding hfl
  have hu := ulp_pos
  have hU := ulp_lt
  have hpi := Real.pi_pos
  have hpi2 := Real.pi_lt_d2
  obtain ⟨us, hus, hs'⟩ := normalizeF_ok hr ha
  obtain ⟨ue, hue, he'⟩ := normalizeF_ok hr hb
  have hcos := cosF_close hr ha hb hs' he'
  have hsin := sinF_close hr ha hb hs' he'
  have hsq := ArcF.cos_sq ha hb
  change |_ - x.cosine| ≤ _ at hcos
  change |_ - x.sine| ≤ _ at hsin
  have hC1 : |x.cosine| ≤ 1 := abs_le.2 ⟨by nlinarith, by nlinarith⟩
  set c := clip (dotF L.fl us ue) (-1) 1 with hc
  have hcc : |c - x.cosine| ≤ 21 * ulp := (clip_close hC1).trans hcos
  have hc1 : |c| ≤ 1 := clip_le _
  have hc1' := abs_le.1 hc1
  have hsc := sine_close hc1 hsq hcc hκ (by
    rcases hk with ⟨-, hk⟩ | hk
    · left; linarith
    · right; linarith)
  have hac := hacos.error c hc1'.1 hc1'.2
  have hA0 := Real.arccos_nonneg c
  have hA1 := Real.arccos_le_pi c
  have eC := Real.cos_arccos hc1'.1 hc1'.2
  have eS := Real.sin_arccos c
  set A := Real.arccos c with hA
  have hac' : |L.acos c - A| ≤ 26 * ulp := by
    refine hac.trans ?_
    have : A / 2 ^ 50 = 8 * ulp * A := by unfold ulp; ring
    rw [this]
    have : ulp * A ≤ ulp * 3.15 := mul_le_mul_of_nonneg_left (by linarith) hu.le
    norm_num at this; linarith
  -- the sign of the determinant
  have key : ∀ t : ℝ, (t = 1 ∨ t = -1) → (0 ≤ t * detF L.fl us ue) →
      |t * √(1 - c ^ 2) - x.sine| ≤ 2 * κ := by
    intro t ht hdet
    by_cases hm : 0 ≤ t * x.sine
    · have e : x.sine = t * |x.sine| := by
        rcases ht with rfl | rfl
        · rw [one_mul] at hm ⊢; rw [abs_of_nonneg hm]
        · rw [abs_of_nonpos (by linarith)]; ring
      have e1 : |t| = 1 := by rcases ht with rfl | rfl <;> simp
      have e2 : |t * √(1 - c ^ 2) - x.sine| = |√(1 - c ^ 2) - (|x.sine|)| := by
        conv_lhs => rw [e]
        rw [← mul_sub, abs_mul, e1, one_mul]
      rw [e2]; linarith
    · push Not at hm
      have hsm : |x.sine| ≤ 1 / 10 ^ 12 := by
        refine le_trans ?_ hsin
        have h1 := abs_le.1 (le_refl |detF L.fl us ue - x.sine|)
        rcases ht with rfl | rfl
        · rw [one_mul] at hm hdet
          rw [abs_of_neg hm]; linarith [h1.2]
        · have hm' : 0 < x.sine := by linarith
          rw [abs_of_pos hm']; linarith [h1.1]
      rcases hk with ⟨hk, -⟩ | hk
      · exfalso
        have := hk.trans hsm
        norm_num at this
      · have h2 : 2 * |x.sine| ≤ κ := by
          have h3 : 1 / 10 ^ 8 ≤ κ := by
            have hG := ulp_gt
            by_contra h4
            push Not at h4
            have h5 : κ ^ 2 ≤ (1 / 10 ^ 8) ^ 2 := pow_le_pow_left₀ hκ.le h4.le 2
            norm_num at h5 hG hk
            linarith
          norm_num at h3 hsm
          linarith
        have h3 := Real.sqrt_nonneg (1 - c ^ 2)
        have h4 := abs_le.1 hsc
        have h5 := neg_abs_le x.sine
        have h6 := le_abs_self x.sine
        rcases ht with rfl | rfl <;> rw [abs_le] <;> constructor <;> linarith
  have hdz : ∀ d : ℝ, npSign d = (if 0 < d then 1 else if d < 0 then -1 else 0) := by
    intro d; rfl
  have hw : calcAngleF L.fl L.acos x = if |npSign (detF L.fl us ue) + x.sign| > 0 then .ok (L.acos c)
      else .ok (L.fl (L.fl (2 * L.fl Real.pi) - L.acos c)) := by
    unfold calcAngleF; rw [hus, hue]; rfl
  rw [hw]
  split
  · rename_i hif
    refine ⟨_, A, rfl, by linarith, hA0, by linarith, ?_, ?_⟩
    · have : Real.cos (A * x.sign) = c := by
        rcases hs with h | h <;> rw [h] <;> push_cast <;> simp [eC]
      rw [this]; exact hcc
    · have e : Real.sin (A * x.sign) = x.sign * √(1 - c ^ 2) := by
        rcases hs with h | h <;> rw [h] <;> push_cast <;> simp [eS]
      rw [e]
      refine key _ (by rcases hs with h | h <;> rw [h] <;> simp) ?_
      by_contra hn
      push Not at hn
      rw [hdz] at hif
      rcases hs with h | h <;> rw [h] at hn hif <;> push_cast at hn
      · rw [if_neg (by linarith), if_pos (by linarith)] at hif; simp at hif
      · rw [if_pos (by linarith)] at hif; simp at hif
  · rename_i hif
    have htp := two_pi_near hfl
    have h1 := abs_le.1 htp
    have h2 := abs_le.1 hac'
    have h3 : |L.fl (2 * L.fl Real.pi) - L.acos c| ≤ 7 := by
      norm_num at hU hpi2
      rw [abs_le]; constructor <;> linarith
    have h4 := abs_le.1 ((Rounding.ulp hr _).trans (mul_le_mul_of_nonneg_left h3 hu.le))
    refine ⟨_, 2 * Real.pi - A, rfl, by rw [abs_le]; constructor <;> linarith, by linarith, by linarith, ?_, ?_⟩
    · have : Real.cos ((2 * Real.pi - A) * x.sign) = c := by
        rcases hs with h | h <;> rw [h] <;> push_cast
        · rw [mul_one, Real.cos_two_pi_sub, eC]
        · rw [mul_neg_one, Real.cos_neg, Real.cos_two_pi_sub, eC]
      rw [this]; exact hcc
    · have e : Real.sin ((2 * Real.pi - A) * x.sign) = (-x.sign) * √(1 - c ^ 2) := by
        rcases hs with h | h <;> rw [h] <;> push_cast
        · rw [mul_one, Real.sin_two_pi_sub, eS]; ring
        · rw [mul_neg_one, Real.sin_neg, Real.sin_two_pi_sub, eS]; ring
      rw [e]
      refine key _ (by rcases hs with h | h <;> rw [h] <;> simp) ?_
      by_contra hn
      push Not at hn
      rw [hdz] at hif
      rcases hs with h | h <;> rw [h] at hn hif <;> push_cast at hn
      · rw [if_pos (by linarith)] at hif; simp at hif
      · rw [if_neg (by linarith), if_pos (by linarith)] at hif; simp at hif

omit hfl in
/-- the exact cosine and sine of the start direction -/
theorem dir_sq {d : V} (h : 0 < len d) : (d 0 / len d) ^ 2 + (d 1 / len d) ^ 2 = 1 := by
  have h1 := len_mul_self d
  unfold dot at h1
  rw [div_pow, div_pow, ← add_div, div_eq_one_iff_eq (by positivity)]
  linarith

/-- the angle of the start, together with an angle whose cosine and sine are known -/
theorem start_close (hacos : Arccosine L.acos) {x : ArcF} (ha : 0 < len (x.pStart - x.pCenter)) {κ : ℝ} (hκ : 0 < κ)
    (hk : 18 * ulp ≤ κ * |(x.pStart - x.pCenter) 1 / len (x.pStart - x.pCenter)| ∨ 18 * ulp ≤ κ ^ 2 ∨
      (x.pStart - x.pCenter) 1 = 0) :
    ∃ A, |L.startAngle x - A| ≤ 26 * ulp ∧ |A| ≤ Real.pi ∧
      |Real.cos A - (x.pStart - x.pCenter) 0 / len (x.pStart - x.pCenter)| ≤ 9 * ulp ∧
      |Real.sin A - (x.pStart - x.pCenter) 1 / len (x.pStart - x.pCenter)| ≤ κ := by
  have hr := rounds_rounding hfl
  have hz := Rounding.zero' hr
  have hu := ulp_pos
  have hU := ulp_lt
  have hpi := Real.pi_pos
  have hpi2 := Real.pi_lt_d2
  obtain ⟨us, hus, hs'⟩ := normalizeF_ok hr ha
  have hsq := dir_sq ha
  have hrep : ∀ i, Repr (subF L.fl x.pStart x.pCenter i) := fun i => hfl.repr _
  set d := subF L.fl x.pStart x.pCenter with hd
  set e := x.pStart - x.pCenter with he
  have hus0 : us 0 = L.fl (d 0 / lenF L.fl d) := by
    unfold normalizeF at hus
    split at hus
    · cases hus
    · cases hus; rfl
  have hd1 : d 1 = L.fl (e 1) := rfl
  have hdot : dotF L.fl ![1, 0] d = d 0 := by
    show L.fl (L.fl (1 * d 0) + L.fl (0 * d 1)) = d 0
    rw [one_mul, zero_mul, hz, add_zero, hfl.exact (hrep 0), hfl.exact (hrep 0)]
  have hdet : detF L.fl ![1, 0] d = d 1 := by
    show L.fl (L.fl (1 * d 1) - L.fl (0 * d 0)) = d 1
    rw [one_mul, zero_mul, hz, sub_zero, hfl.exact (hrep 1), hfl.exact (hrep 1)]
  have hsgn : d 1 < 0 ↔ e 1 < 0 := by
    rw [hd1]
    constructor
    · intro h
      by_contra hn
      have := nonneg_of hfl (not_lt.1 hn)
      linarith
    · intro h
      have h1 := abs_le.1 (Rounding.ulp hr (e 1))
      rw [abs_of_neg h] at h1
      norm_num at hU
      nlinarith [h1.2]
  set q := L.fl (d 0 / lenF L.fl d) with hq
  have hq1 : |q| ≤ 1 := quotient_le hfl d hrep 0
  have hq1' := abs_le.1 hq1
  have hC1 : |e 0 / len e| ≤ 1 := abs_le.2 ⟨by nlinarith, by nlinarith⟩
  have hqc : |q - e 0 / len e| ≤ 9 * ulp := by
    have h1 := hs' 0
    rw [hus0] at h1
    exact h1.trans (by nlinarith)
  have hac := hacos.error q hq1'.1 hq1'.2
  have hA0 := Real.arccos_nonneg q
  have hA1 := Real.arccos_le_pi q
  have eC := Real.cos_arccos hq1'.1 hq1'.2
  have eS := Real.sin_arccos q
  have hstart : L.startAngle x = L.acos q * (if e 1 < 0 then -1 else 1) := by
    unfold Lib.startAngle
    simp only
    rw [← hd, hdot, hdet]
    simp only [hsgn]
    rfl
  rw [hstart]
  set B := Real.arccos q with hB
  have hac' : |L.acos q - B| ≤ 26 * ulp := by
    refine hac.trans ?_
    have : B / 2 ^ 50 = 8 * ulp * B := by unfold ulp; ring
    rw [this]
    have : ulp * B ≤ ulp * 3.15 := mul_le_mul_of_nonneg_left (by linarith) hu.le
    norm_num at this; linarith
  set t : ℝ := if e 1 < 0 then -1 else 1 with ht
  have ht1 : t = 1 ∨ t = -1 := by rw [ht]; split <;> simp
  have hta : |t| = 1 := by rcases ht1 with h | h <;> rw [h] <;> simp
  have hes : e 1 / len e = t * |e 1 / len e| := by
    rw [abs_div, abs_of_pos ha, ht]
    split
    · rename_i h; rw [abs_of_neg h]; ring
    · rename_i h; rw [abs_of_nonneg (not_lt.1 h)]; ring
  refine ⟨B * t, ?_, ?_, ?_, ?_⟩
  · rw [← sub_mul, abs_mul, hta, mul_one]; exact hac'
  · rw [abs_mul, hta, mul_one, abs_of_nonneg hA0]; exact hA1
  · have : Real.cos (B * t) = q := by rcases ht1 with h | h <;> rw [h] <;> simp [eC]
    rw [this]; exact hqc
  · have e1 : Real.sin (B * t) = t * √(1 - q ^ 2) := by rcases ht1 with h | h <;> rw [h] <;> simp [eS]
    rw [e1]
    conv_lhs => rw [hes]
    rw [← mul_sub, abs_mul, hta, one_mul]
    rcases hk with hk | hk | hk
    · exact sine_close hq1 hsq hqc hκ (.inl (by linarith))
    · exact sine_close hq1 hsq hqc hκ (.inr (by linarith))
    · have hd0 : d 1 = 0 := by rw [hd1, hk, hz]
      have hlen : lenF L.fl d = |d 0| := by
        rw [← root_square hfl (hrep 0)]
        unfold lenF dotF
        rw [hd0, mul_zero, hz, add_zero, hfl.exact (hfl.repr _)]
      have hq2 : q ^ 2 = 1 := by
        have hne : d 0 ≠ 0 := by
          intro h0
          have h1 := abs_le.1 (radiusF_close hr x.pStart x.pCenter)
          rw [← hd, ← he, hlen, h0, abs_zero] at h1
          norm_num at hU
          nlinarith [h1.1]
        have r1 : Repr 1 := ⟨1, 0, by norm_num, by simp⟩
        rw [hq, hlen]
        rcases lt_or_gt_of_ne hne with h | h
        · rw [abs_of_neg h, div_neg, div_self hne, hfl.exact (repr_neg r1)]; norm_num
        · rw [abs_of_pos h, div_self hne, hfl.exact r1]; norm_num
      rw [hq2, hk]; simp [hκ.le]

/-- points from their angles -/
theorem point_close (htrig : Trigonometric L.cosine L.sine) {x : ArcF} {s Φ ρ ε τ : ℝ} {v : V} (hε : ε ≤ 1 / 10)
    (hv : ∀ i, |v i| ≤ 1) (hτ : |lenF L.fl (subF L.fl x.pStart x.pCenter) - ρ| ≤ τ) (hρ : 0 ≤ ρ)
    (hΦ : |L.startAngle x + s * x.sign - Φ| ≤ 76 * ulp) (hΦ' : |Φ| ≤ 95 / 10)
    (hc : |Real.cos Φ - v 0| ≤ ε) (hs : |Real.sin Φ - v 1| ≤ ε) (i : Fin 2) :
    |L.point x s i - (x.pCenter i + ρ * v i)| ≤ (ε + 105 * ulp) * (ρ + τ) + τ + ulp * |x.pCenter i| := by
  have hr := rounds_rounding hfl
  have hz := Rounding.zero' hr
  have hu := ulp_pos
  have hU := ulp_lt
  have hε0 : 0 ≤ ε := (abs_nonneg _).trans hc
  set z := L.startAngle x + s * x.sign with hzz
  set φ := L.fl z with hφ
  have hz1 : |z| ≤ 96 / 10 := by
    have h1 := abs_le.1 hΦ
    have h2 := abs_le.1 hΦ'
    norm_num at hU
    rw [abs_le]; constructor <;> linarith
  have hφz := (Rounding.ulp hr z).trans (mul_le_mul_of_nonneg_left hz1 hu.le)
  have hφΦ : |φ - Φ| ≤ 86 * ulp := by
    have := abs_sub_le φ z Φ
    linarith
  have hφ1 : |φ| ≤ 10 := by
    have h1 := abs_le.1 hφΦ
    have h2 := abs_le.1 hΦ'
    norm_num at hU
    rw [abs_le]; constructor <;> linarith
  have hL : 0 ≤ lenF L.fl (subF L.fl x.pStart x.pCenter) := nonneg_of hfl (Real.sqrt_nonneg _)
  set r := lenF L.fl (subF L.fl x.pStart x.pCenter) with hrr
  have hτ0 : 0 ≤ τ := (abs_nonneg _).trans hτ
  have h50 : (1 : ℝ) / 2 ^ 50 = 8 * ulp := by unfold ulp; norm_num
  -- both components in the same way
  have key : ∀ g u o : ℝ, |g - u| ≤ ε + 94 * ulp → |u| ≤ 1 →
      |L.fl (L.fl (L.fl (L.fl g + 0) * r) + o) - (o + ρ * u)| ≤ (ε + 105 * ulp) * (ρ + τ) + τ + ulp * |o| := by
    intro g u o hg hu1
    have hgr : L.fl (L.fl g + 0) = L.fl g := by rw [add_zero, hfl.exact (hfl.repr g)]
    rw [hgr]
    have hg2 : |g| ≤ 12 / 10 := by
      have h1 := abs_le.1 hg
      have h2 := abs_le.1 hu1
      norm_num at hU
      rw [abs_le]; constructor <;> linarith
    have h1 := (Rounding.ulp hr g).trans (mul_le_mul_of_nonneg_left hg2 hu.le)
    have h2 : |L.fl g - u| ≤ ε + 96 * ulp := by
      have := abs_sub_le (L.fl g) g u
      linarith
    have hf2 : |L.fl g| ≤ 2 := by
      have h3 := abs_le.1 h2
      have h4 := abs_le.1 hu1
      norm_num at hU
      rw [abs_le]; constructor <;> linarith
    have hrρ : r ≤ ρ + τ := by linarith [(abs_le.1 hτ).2]
    have h3 : |L.fl g * r - ρ * u| ≤ (ε + 96 * ulp) * (ρ + τ) + τ := by
      have e : L.fl g * r - ρ * u = (L.fl g - u) * r + u * (r - ρ) := by ring
      rw [e]
      refine (abs_add_le _ _).trans ?_
      rw [abs_mul, abs_mul, abs_of_nonneg hL]
      have t1 := mul_le_mul h2 hrρ hL (by positivity)
      have t2 := mul_le_mul hu1 hτ (abs_nonneg _) zero_le_one
      linarith
    have h4 : |L.fl g * r| ≤ 2 * (ρ + τ) := by
      rw [abs_mul, abs_of_nonneg hL]
      exact mul_le_mul hf2 hrρ hL (by norm_num)
    have h5 := (Rounding.ulp hr (L.fl g * r)).trans (mul_le_mul_of_nonneg_left h4 hu.le)
    set m := L.fl (L.fl g * r) with hm
    have h6 : |m| ≤ 3 * (ρ + τ) := by
      have t1 : |m| ≤ |m - L.fl g * r| + |L.fl g * r| := by simpa using abs_add_le (m - L.fl g * r) (L.fl g * r)
      have t2 : ulp * (2 * (ρ + τ)) ≤ 1 * (ρ + τ) := by
        norm_num at hU
        nlinarith
      linarith
    have h7 : |m + o| ≤ 3 * (ρ + τ) + |o| := (abs_add_le _ _).trans (by linarith)
    have h8 := (Rounding.ulp hr (m + o)).trans (mul_le_mul_of_nonneg_left h7 hu.le)
    have h9 : |L.fl (m + o) - (o + ρ * u)| ≤ |L.fl (m + o) - (m + o)| + |m - L.fl g * r| + |L.fl g * r - ρ * u| := by
      have e : L.fl (m + o) - (o + ρ * u) = (L.fl (m + o) - (m + o)) + (m - L.fl g * r) + (L.fl g * r - ρ * u) := by ring
      rw [e]; exact abs_add_three _ _ _
    have hlast : 0 ≤ ulp * (ρ + τ) := by positivity
    linarith
  have hc' : |L.cosine φ - v 0| ≤ ε + 94 * ulp := by
    have h1 := htrig.cos_error φ hφ1
    rw [h50] at h1
    have h2 : |Real.cos φ - Real.cos Φ| ≤ |φ - Φ| := Real.abs_cos_sub_cos_le _ _
    have h3 := abs_sub_le (L.cosine φ) (Real.cos φ) (v 0)
    have h4 := abs_sub_le (Real.cos φ) (Real.cos Φ) (v 0)
    linarith
  have hs' : |L.sine φ - v 1| ≤ ε + 94 * ulp := by
    have h1 := htrig.sin_error φ hφ1
    rw [h50] at h1
    have h2 : |Real.sin φ - Real.sin Φ| ≤ |φ - Φ| := Real.abs_sin_sub_sin_le _ _
    have h3 := abs_sub_le (L.sine φ) (Real.sin φ) (v 1)
    have h4 := abs_sub_le (Real.sin φ) (Real.sin Φ) (v 1)
    linarith
  fin_cases i
  · have := key (L.cosine φ) (v 0) (x.pCenter 0) hc' (hv 0)
    show |L.fl (L.fl (L.fl (L.fl (1 * L.cosine φ) + L.fl (0 * L.sine φ)) * r) + x.pCenter 0) - _| ≤ _
    rw [one_mul, zero_mul, hz]; exact this
  · have := key (L.sine φ) (v 1) (x.pCenter 1) hs' (hv 1)
    show |L.fl (L.fl (L.fl (L.fl (0 * L.cosine φ) + L.fl (1 * L.sine φ)) * r) + x.pCenter 1) - _| ≤ _
    rw [one_mul, zero_mul, hz, add_comm 0]; exact this

end

end Weldx.Geo
