import Verif.Geometry.ArcFloat
import Mathlib.Analysis.Real.Pi.Bounds

/-!
# Error bounds for arcs
-/

namespace Weldx.Geo

open Matrix

/-! ### lengths -/

theorem dot_comm (a b : V) : dot a b = dot b a := by unfold dot; ring

theorem dot_le_len (a b : V) : |dot a b| ≤ len a * len b := by
  have h1 := len_mul_self a
  have h2 := len_mul_self b
  refine abs_le_of_sq_le_sq ?_ (mul_nonneg (len_nonneg a) (len_nonneg b))
  rw [mul_pow, pow_two, pow_two (len a), pow_two (len b), h1, h2]
  unfold dot
  nlinarith [sq_nonneg (a 0 * b 1 - a 1 * b 0)]

theorem len_add (a b : V) : len (a + b) ≤ len a + len b := by
  refine abs_le_of_sq_le_sq' ?_ (add_nonneg (len_nonneg a) (len_nonneg b)) |>.2
  have h1 := len_mul_self a
  have h2 := len_mul_self b
  have h3 := len_mul_self (a + b)
  have h4 := (abs_le.1 (dot_le_len a b)).2
  have h5 : dot (a + b) (a + b) = dot a a + 2 * dot a b + dot b b := by unfold dot; simp; ring
  nlinarith

theorem len_neg (a : V) : len (-a) = len a := by unfold len dot; simp

theorem len_sub_comm (a b : V) : len (a - b) = len (b - a) := by rw [← len_neg, neg_sub]

theorem len_sub_le (a b : V) : |len a - len b| ≤ len (a - b) := by
  have h1 := len_add b (a - b)
  have h2 := len_add a (b - a)
  rw [add_sub_cancel] at h1 h2
  rw [len_sub_comm b a] at h2
  rw [abs_le]; constructor <;> linarith

theorem len_le_of_entries {a b : V} {c : ℝ} (hc : 0 ≤ c) (h : ∀ i, |a i| ≤ c * |b i|) : len a ≤ c * len b := by
  refine abs_le_of_sq_le_sq' ?_ (mul_nonneg hc (len_nonneg b)) |>.2
  rw [mul_pow, pow_two (len a), pow_two (len b), len_mul_self, len_mul_self]
  have h0 := h 0
  have h1 := h 1
  have g0 := mul_self_le_mul_self (abs_nonneg _) h0
  have g1 := mul_self_le_mul_self (abs_nonneg _) h1
  have e0 := abs_mul_abs_self (a 0)
  have e1 := abs_mul_abs_self (a 1)
  have e2 := abs_mul_abs_self (b 0)
  have e3 := abs_mul_abs_self (b 1)
  unfold dot
  nlinarith

theorem abs_le_len (a : V) (i : Fin 2) : |a i| ≤ len a := by
  refine abs_le_of_sq_le_sq ?_ (len_nonneg a)
  rw [pow_two (len a), len_mul_self]
  unfold dot
  fin_cases i <;> simp <;> nlinarith [mul_self_nonneg (a 0), mul_self_nonneg (a 1)]

theorem len_le_abs (a : V) : len a ≤ |a 0| + |a 1| := by
  refine abs_le_of_sq_le_sq' ?_ (by positivity) |>.2
  rw [pow_two (len a), len_mul_self]
  unfold dot
  nlinarith [abs_mul_abs_self (a 0), abs_mul_abs_self (a 1), abs_nonneg (a 0), abs_nonneg (a 1),
    mul_nonneg (abs_nonneg (a 0)) (abs_nonneg (a 1))]

/-- the angle at the third point of a triangle -/
theorem len_sub_sq (a b : V) : 2 * (len a * len b - dot a b) = len (a - b) ^ 2 - (len a - len b) ^ 2 := by
  have h1 := len_mul_self a
  have h2 := len_mul_self b
  have h3 := len_mul_self (a - b)
  have h5 : dot (a - b) (a - b) = dot a a - 2 * dot a b + dot b b := by unfold dot; simp; ring
  nlinarith

/-! ### rounding -/

/-- the relative error of one rounding -/
noncomputable def ulp : ℝ := 1 / 2 ^ 53

theorem ulp_pos : 0 < ulp := by unfold ulp; positivity
theorem ulp_lt : ulp ≤ 12 / 10 ^ 17 := by unfold ulp; norm_num
theorem ulp_gt : 11 / 10 ^ 17 ≤ ulp := by unfold ulp; norm_num

section
variable {fl acos : ℝ → ℝ} (hfl : Rounding fl)
include hfl

theorem Rounding.ulp (x : ℝ) : |fl x - x| ≤ ulp * |x| := by
  have := hfl.error x
  unfold Geo.ulp
  linarith

theorem Rounding.of_close {x y c : ℝ} (h : |x - y| ≤ c * |y|) :
    |fl x - y| ≤ (c + Geo.ulp * (1 + c)) * |y| := by
  have h1 := Rounding.ulp hfl x
  have h2 : |x| ≤ (1 + c) * |y| := by
    have : |x| ≤ |x - y| + |y| := by simpa using abs_add_le (x - y) y
    linarith
  have h3 : |fl x - y| ≤ |fl x - x| + |x - y| := abs_sub_le _ _ _
  have h4 : Geo.ulp * |x| ≤ Geo.ulp * ((1 + c) * |y|) := mul_le_mul_of_nonneg_left h2 ulp_pos.le
  linarith

theorem Rounding.pos {x : ℝ} (h : 0 < x) : 0 < fl x := by
  have h1 := abs_le.1 (Rounding.ulp hfl x)
  rw [abs_of_pos h] at h1
  have := ulp_lt
  nlinarith [h1.1]

theorem Rounding.zero' : fl 0 = 0 := by
  have h1 := Rounding.ulp hfl 0
  simp at h1
  exact h1

/-- scalar products of vectors with small relative errors in their elements -/
theorem dotF_close {a b a' b' : V} {c : ℝ} (hc : 0 ≤ c) (ha : ∀ i, |a' i * b' i - a i * b i| ≤ c * |a i * b i|) :
    |dotF fl a' b' - dot a b| ≤ (c + Geo.ulp * (1 + c) + Geo.ulp * (1 + c + Geo.ulp * (1 + c))) *
      (|a 0 * b 0| + |a 1 * b 1|) := by
  have h0 := Rounding.of_close hfl (ha 0)
  have h1 := Rounding.of_close hfl (ha 1)
  set d := c + Geo.ulp * (1 + c) with hd
  have hu := ulp_pos
  have hd0 : 0 ≤ d := by positivity
  have h2 : |fl (a' 0 * b' 0) + fl (a' 1 * b' 1) - dot a b| ≤ d * (|a 0 * b 0| + |a 1 * b 1|) := by
    have e : fl (a' 0 * b' 0) + fl (a' 1 * b' 1) - dot a b =
        (fl (a' 0 * b' 0) - a 0 * b 0) + (fl (a' 1 * b' 1) - a 1 * b 1) := by unfold dot; ring
    rw [e]
    refine (abs_add_le _ _).trans ?_
    linarith
  have h3 := Rounding.ulp hfl (fl (a' 0 * b' 0) + fl (a' 1 * b' 1))
  have h4 : |fl (a' 0 * b' 0) + fl (a' 1 * b' 1)| ≤ (1 + d) * (|a 0 * b 0| + |a 1 * b 1|) := by
    have h5 : |fl (a' 0 * b' 0) + fl (a' 1 * b' 1)| ≤
        |fl (a' 0 * b' 0) + fl (a' 1 * b' 1) - dot a b| + |dot a b| := by
      simpa using abs_add_le (fl (a' 0 * b' 0) + fl (a' 1 * b' 1) - dot a b) (dot a b)
    have h6 : |dot a b| ≤ |a 0 * b 0| + |a 1 * b 1| := abs_add_le _ _
    linarith
  have h7 : |dotF fl a' b' - dot a b| ≤ |dotF fl a' b' - (fl (a' 0 * b' 0) + fl (a' 1 * b' 1))| +
      |fl (a' 0 * b' 0) + fl (a' 1 * b' 1) - dot a b| := abs_sub_le _ _ _
  have h8 := mul_le_mul_of_nonneg_left h4 hu.le
  have h9 : |dotF fl a' b' - (fl (a' 0 * b' 0) + fl (a' 1 * b' 1))| ≤
      Geo.ulp * |fl (a' 0 * b' 0) + fl (a' 1 * b' 1)| := h3
  nlinarith

theorem dotF_self (a : V) : |dotF fl a a - dot a a| ≤ (5 / 2 * Geo.ulp) * dot a a := by
  have h := dotF_close hfl (a := a) (b := a) (a' := a) (b' := a) (c := 0) le_rfl (by intro i; simp)
  have e : |a 0 * a 0| + |a 1 * a 1| = dot a a := by
    rw [abs_mul_self, abs_mul_self]; rfl
  rw [e] at h
  refine h.trans (mul_le_mul_of_nonneg_right ?_ (dot_self_nonneg a))
  have h1 := ulp_pos
  have h2 := ulp_lt
  nlinarith

theorem lenF_close (a : V) : |lenF fl a - len a| ≤ 4 * Geo.ulp * len a := by
  have h := dotF_self hfl a
  have hl := len_nonneg a
  have hu := ulp_pos
  have hv := ulp_lt
  have hd0 := dot_self_nonneg a
  have hD : 0 ≤ dotF fl a a := by
    have := (abs_le.1 h).1
    nlinarith
  have h1 : |√(dotF fl a a) - len a| ≤ (5 / 2 * Geo.ulp) * |len a| := by
    rw [abs_of_nonneg hl]
    rcases hl.eq_or_lt with h0 | hpos
    · have hz : dot a a = 0 := by rw [← len_mul_self, ← h0, mul_zero]
      rw [hz, mul_zero, sub_zero] at h
      have hz' : dotF fl a a = 0 := abs_nonpos_iff.1 h
      rw [hz', ← h0]; simp
    · have hs := Real.sqrt_nonneg (dotF fl a a)
      have e : (√(dotF fl a a) - len a) * (√(dotF fl a a) + len a) = dotF fl a a - dot a a := by
        rw [← len_mul_self a]
        have := Real.mul_self_sqrt hD
        linarith
      have e2 : |√(dotF fl a a) - len a| * (√(dotF fl a a) + len a) = |dotF fl a a - dot a a| := by
        rw [← e, abs_mul, abs_of_nonneg (add_nonneg hs hl)]
      rw [← len_mul_self a] at h
      by_contra hcon
      push Not at hcon
      have h3 : (5 / 2 * Geo.ulp) * len a * len a < |√(dotF fl a a) - len a| * (√(dotF fl a a) + len a) := by
        have h4 : (5 / 2 * Geo.ulp) * len a * len a < |√(dotF fl a a) - len a| * len a :=
          mul_lt_mul_of_pos_right hcon hpos
        have h5 : 0 ≤ |√(dotF fl a a) - len a| * √(dotF fl a a) := mul_nonneg (abs_nonneg _) hs
        linarith
      rw [e2] at h3
      rw [← len_mul_self a] at h3
      linarith
  have h2 := Rounding.of_close hfl h1
  rw [abs_of_nonneg hl] at h2
  refine h2.trans (mul_le_mul_of_nonneg_right ?_ hl)
  nlinarith

theorem subF_close (a b : V) (i : Fin 2) : |subF fl a b i - (a - b) i| ≤ Geo.ulp * |(a - b) i| :=
  Rounding.ulp hfl _

theorem len_subF (a b : V) : |len (subF fl a b) - len (a - b)| ≤ Geo.ulp * len (a - b) :=
  (len_sub_le _ _).trans (len_le_of_entries ulp_pos.le fun i => subF_close hfl a b i)

/-- the radius -/
theorem radiusF_close (a b : V) : |lenF fl (subF fl a b) - len (a - b)| ≤ 6 * Geo.ulp * len (a - b) := by
  have h1 := lenF_close hfl (subF fl a b)
  have h2 := len_subF hfl a b
  have h3 := abs_sub_le (lenF fl (subF fl a b)) (len (subF fl a b)) (len (a - b))
  have h4 := (abs_le.1 h2).2
  have hu := ulp_pos
  have hv := ulp_lt
  have hl := len_nonneg (a - b)
  have h5 : 4 * Geo.ulp * len (subF fl a b) ≤ 4 * Geo.ulp * ((1 + Geo.ulp) * len (a - b)) :=
    mul_le_mul_of_nonneg_left (by linarith) (by positivity)
  have h6 : 4 * Geo.ulp * (1 + Geo.ulp) + Geo.ulp ≤ 6 * Geo.ulp := by nlinarith
  have h7 := mul_le_mul_of_nonneg_right h6 hl
  linarith

/-- the unit vectors -/
theorem normalizeF_ok {p c : V} (h : 0 < len (p - c)) :
    ∃ u, normalizeF fl (subF fl p c) = .ok u ∧
      ∀ i, |u i - (p - c) i / len (p - c)| ≤ 9 * Geo.ulp * |(p - c) i / len (p - c)| := by
  have hr := radiusF_close hfl p c
  have hu := ulp_pos
  have hv := ulp_lt
  set l := lenF fl (subF fl p c) with hl
  set d := len (p - c) with hd
  have hr' := abs_le.1 hr
  have hlpos : (1 - 6 * Geo.ulp) * d ≤ l := by linarith
  have hk : 0 < 1 - 6 * Geo.ulp := by linarith
  have hl0 : 0 < l := lt_of_lt_of_le (mul_pos hk h) hlpos
  refine ⟨fun i => fl (subF fl p c i / l), ?_, ?_⟩
  · unfold normalizeF
    rw [if_neg (by rw [← hl]; exact hl0.ne')]
  · intro i
    have hs := subF_close hfl p c i
    set x := (p - c) i with hx
    set y := subF fl p c i with hy
    have h1 : |y / l - x / d| ≤ (15 / 2 * Geo.ulp) * |x / d| := by
      have e : y / l - x / d = ((y - x) * d + x * (d - l)) / (l * d) := by
        field_simp; ring
      have hxd : |x / d| = |x| / d := by rw [abs_div, abs_of_pos h]
      rw [e, abs_div, abs_of_pos (mul_pos hl0 h), hxd, div_le_iff₀ (mul_pos hl0 h)]
      have e2 : (15 / 2 * Geo.ulp) * (|x| / d) * (l * d) = (15 / 2 * Geo.ulp) * |x| * l := by field_simp
      rw [e2]
      have h2 : |(y - x) * d + x * (d - l)| ≤ Geo.ulp * |x| * d + |x| * (6 * Geo.ulp * d) := by
        refine (abs_add_le _ _).trans ?_
        rw [abs_mul, abs_mul, abs_of_pos h, abs_sub_comm d l]
        exact add_le_add (mul_le_mul_of_nonneg_right hs h.le) (mul_le_mul_of_nonneg_left hr (abs_nonneg _))
      refine h2.trans ?_
      have h3 : (15 / 2 * Geo.ulp) * |x| * ((1 - 6 * Geo.ulp) * d) ≤ (15 / 2 * Geo.ulp) * |x| * l :=
        mul_le_mul_of_nonneg_left hlpos (by positivity)
      refine le_trans ?_ h3
      have h4 : 7 * Geo.ulp ≤ (15 / 2 * Geo.ulp) * (1 - 6 * Geo.ulp) := by nlinarith
      have h5 := mul_le_mul_of_nonneg_right h4 (mul_nonneg (abs_nonneg x) h.le)
      linarith
    have h6 := Rounding.of_close hfl h1
    refine h6.trans (mul_le_mul_of_nonneg_right ?_ (abs_nonneg _))
    nlinarith

omit hfl in
theorem abs_products {a b : V} (ha : 0 < len a) (hb : 0 < len b) :
    |a 0 / len a * (b 0 / len b)| + |a 1 / len a * (b 1 / len b)| ≤ 1 := by
  have e : |a 0 / len a * (b 0 / len b)| + |a 1 / len a * (b 1 / len b)| =
      dot ![|a 0|, |a 1|] ![|b 0|, |b 1|] / (len a * len b) := by
    unfold dot
    simp only [abs_mul, abs_div, abs_of_pos ha, abs_of_pos hb, Matrix.cons_val_zero, Matrix.cons_val_one]
    field_simp
  rw [e, div_le_one (mul_pos ha hb)]
  have h := (abs_le.1 (dot_le_len ![|a 0|, |a 1|] ![|b 0|, |b 1|])).2
  have e1 : len ![|a 0|, |a 1|] = len a := by unfold len dot; simp
  have e2 : len ![|b 0|, |b 1|] = len b := by unfold len dot; simp
  rwa [e1, e2] at h

/-- the cosine of the angle -/
theorem cosF_close {a b us ue : V} (ha : 0 < len a) (hb : 0 < len b)
    (hs : ∀ i, |us i - a i / len a| ≤ 9 * Geo.ulp * |a i / len a|)
    (he : ∀ i, |ue i - b i / len b| ≤ 9 * Geo.ulp * |b i / len b|) :
    |dotF fl us ue - dot a b / (len a * len b)| ≤ 21 * Geo.ulp := by
  have hu := ulp_pos
  have hv := ulp_lt
  have h := dotF_close hfl (a := fun i => a i / len a) (b := fun i => b i / len b) (a' := us) (b' := ue)
    (c := 37 / 2 * Geo.ulp) (by positivity) (by
      intro i
      have h1 := hs i
      have h2 := he i
      set x := a i / len a
      set y := b i / len b
      have e : us i * ue i - x * y = (us i - x) * (ue i - y) + (us i - x) * y + x * (ue i - y) := by ring
      rw [e, abs_mul x y]
      have h3 : |(us i - x) * (ue i - y)| ≤ 9 * Geo.ulp * |x| * (9 * Geo.ulp * |y|) := by
        rw [abs_mul]; exact mul_le_mul h1 h2 (abs_nonneg _) (by positivity)
      have h4 : |(us i - x) * y| ≤ 9 * Geo.ulp * |x| * |y| := by
        rw [abs_mul]; exact mul_le_mul_of_nonneg_right h1 (abs_nonneg _)
      have h5 : |x * (ue i - y)| ≤ |x| * (9 * Geo.ulp * |y|) := by
        rw [abs_mul]; exact mul_le_mul_of_nonneg_left h2 (abs_nonneg _)
      have h6 := abs_add_three ((us i - x) * (ue i - y)) ((us i - x) * y) (x * (ue i - y))
      have h7 : 81 * Geo.ulp * Geo.ulp + 18 * Geo.ulp ≤ 37 / 2 * Geo.ulp := by nlinarith
      have h8 := mul_le_mul_of_nonneg_right h7 (mul_nonneg (abs_nonneg x) (abs_nonneg y))
      nlinarith)
  have e : dot (fun i => a i / len a) (fun i => b i / len b) = dot a b / (len a * len b) := by
    unfold dot; field_simp
  rw [e] at h
  refine h.trans ?_
  have h1 := abs_products ha hb
  have h2 : 37 / 2 * Geo.ulp + Geo.ulp * (1 + 37 / 2 * Geo.ulp) +
      Geo.ulp * (1 + 37 / 2 * Geo.ulp + Geo.ulp * (1 + 37 / 2 * Geo.ulp)) ≤ 21 * Geo.ulp := by
    have g1 : Geo.ulp * (1 + 37 / 2 * Geo.ulp) ≤ 11 / 10 * Geo.ulp := by nlinarith
    have g2 : Geo.ulp * (1 + 37 / 2 * Geo.ulp + Geo.ulp * (1 + 37 / 2 * Geo.ulp)) ≤ Geo.ulp * (11 / 10) :=
      mul_le_mul_of_nonneg_left (by linarith) hu.le
    linarith
  have h3 := mul_le_mul h2 h1 (by positivity) (by positivity)
  linarith

theorem pi_big : 6 ≤ fl (2 * fl Real.pi) := by
  have hp := Real.pi_gt_d2
  have hp2 := Real.pi_lt_d2
  have hu := ulp_pos
  have hv := ulp_lt
  have h1 := (abs_le.1 (Rounding.ulp hfl Real.pi)).1
  rw [abs_of_pos Real.pi_pos] at h1
  have h2 : 3.1 ≤ fl Real.pi := by nlinarith
  have h3 := (abs_le.1 (Rounding.ulp hfl (2 * fl Real.pi))).1
  rw [abs_of_pos (by linarith)] at h3
  nlinarith

/-- An arc whose radii hardly differ and whose points are not too close is accepted. -/
theorem check_ok (hacos : Arccosine acos) {x : ArcF} (ha : 0 < len (x.pStart - x.pCenter))
    (hb : 0 < len (x.pEnd - x.pCenter))
    (hr : |len (x.pEnd - x.pCenter) - len (x.pStart - x.pCenter)| +
      7 * Geo.ulp * (len (x.pEnd - x.pCenter) + len (x.pStart - x.pCenter)) ≤ 99 / 10 ^ 10)
    (hc : 43 * Geo.ulp * (len (x.pStart - x.pCenter) * len (x.pEnd - x.pCenter)) ≤
      len (x.pStart - x.pEnd) ^ 2 - (len (x.pStart - x.pCenter) - len (x.pEnd - x.pCenter)) ^ 2) :
    ArcF.check fl acos x = .ok x := by
  have hu := ulp_pos
  have hv := ulp_lt
  obtain ⟨us, hus, hs⟩ := normalizeF_ok hfl ha
  obtain ⟨ue, hue, he⟩ := normalizeF_ok hfl hb
  have hcos := (abs_le.1 (cosF_close hfl ha hb hs he)).2
  have hsq := len_sub_sq (x.pStart - x.pCenter) (x.pEnd - x.pCenter)
  rw [sub_sub_sub_cancel_right] at hsq
  have hra := radiusF_close hfl x.pStart x.pCenter
  have hrb := radiusF_close hfl x.pEnd x.pCenter
  set a := len (x.pStart - x.pCenter) with hadef
  set b := len (x.pEnd - x.pCenter) with hbdef
  set D := dot (x.pStart - x.pCenter) (x.pEnd - x.pCenter) with hD
  have hab := mul_pos ha hb
  have hlt : dotF fl us ue < 1 := by
    have h1 : 21 * Geo.ulp < 1 - D / (a * b) := by
      have h2 : 43 * Geo.ulp * (a * b) ≤ 2 * (a * b - D) := by rw [hsq]; exact hc
      have h3 : 1 - D / (a * b) = (a * b - D) / (a * b) := by field_simp
      rw [h3, lt_div_iff₀ hab]
      have h4 := mul_pos hu hab
      linarith
    linarith
  have hclip : -1 ≤ clip (dotF fl us ue) (-1) 1 ∧ clip (dotF fl us ue) (-1) 1 < 1 := by
    unfold clip
    refine ⟨le_min (le_max_right _ _) (by norm_num), ?_⟩
    exact (min_le_left _ _).trans_lt (max_lt hlt (by norm_num))
  have hang := abs_le.1 (hacos.error _ hclip.1 hclip.2.le)
  have hac : 0 < Real.arccos (clip (dotF fl us ue) (-1) 1) := Real.arccos_pos.2 hclip.2
  have hacle := Real.arccos_le_pi (clip (dotF fl us ue) (-1) 1)
  have hp := Real.pi_lt_d2
  have hang0 : 0 < acos (clip (dotF fl us ue) (-1) 1) := by
    have : Real.arccos (clip (dotF fl us ue) (-1) 1) / 2 ^ 50 < Real.arccos (clip (dotF fl us ue) (-1) 1) := by
      rw [div_lt_iff₀ (by norm_num)]; nlinarith
    linarith [hang.1]
  have hang4 : acos (clip (dotF fl us ue) (-1) 1) ≤ 4 := by
    have : Real.arccos (clip (dotF fl us ue) (-1) 1) / 2 ^ 50 ≤ 1 / 2 := by
      rw [div_le_iff₀ (by norm_num)]; norm_num; linarith
    linarith [hang.2]
  have hcalc : ∃ w, calcAngleF fl acos x = .ok w ∧ 0 < w := by
    unfold calcAngleF
    rw [hus, hue]
    show ∃ w, (if |npSign (detF fl us ue) + x.sign| > 0 then
      (Except.ok (acos (clip (dotF fl us ue) (-1) 1)) : Except GErr ℝ) else
      .ok (fl (fl (2 * fl Real.pi) - acos (clip (dotF fl us ue) (-1) 1)))) = .ok w ∧ 0 < w
    split
    · exact ⟨_, rfl, hang0⟩
    · exact ⟨_, rfl, Rounding.pos hfl (by linarith [pi_big hfl])⟩
  obtain ⟨w, hw, hwpos⟩ := hcalc
  have hra' := abs_le.1 hra
  have hrb' := abs_le.1 hrb
  have hra0 : 0 < lenF fl (subF fl x.pStart x.pCenter) := by nlinarith
  have hlen : ¬ fl (lenF fl (subF fl x.pStart x.pCenter) * w) ≤ 0 := not_le.2 (Rounding.pos hfl (mul_pos hra0 hwpos))
  have hrad : |fl (lenF fl (subF fl x.pEnd x.pCenter) - lenF fl (subF fl x.pStart x.pCenter))| ≤ fl (1 / 10 ^ 8) := by
    set ra := lenF fl (subF fl x.pStart x.pCenter)
    set rb := lenF fl (subF fl x.pEnd x.pCenter)
    have h1 : |rb - ra| ≤ |b - a| + 6 * Geo.ulp * (b + a) := by
      have e : rb - ra = (rb - b) + (b - a) + -(ra - a) := by ring
      rw [e]
      have := abs_add_three (rb - b) (b - a) (-(ra - a))
      rw [abs_neg] at this
      linarith
    have h2 := Rounding.ulp hfl (rb - ra)
    have h3 : |fl (rb - ra)| ≤ |fl (rb - ra) - (rb - ra)| + |rb - ra| := by
      simpa using abs_add_le (fl (rb - ra) - (rb - ra)) (rb - ra)
    have h4 := (abs_le.1 (Rounding.ulp hfl (1 / 10 ^ 8 : ℝ))).1
    rw [abs_of_pos (by positivity)] at h4
    have h5 : |rb - ra| ≤ 99 / 10 ^ 10 := by
      have : 0 < Geo.ulp * (b + a) := by positivity
      linarith
    have h6 : Geo.ulp * |rb - ra| ≤ (12 / 10 ^ 17) * (99 / 10 ^ 10) := mul_le_mul hv h5 (abs_nonneg _) (by norm_num)
    have h7 : Geo.ulp * (1 / 10 ^ 8) ≤ (12 / 10 ^ 17) * (1 / 10 ^ 8) := mul_le_mul_of_nonneg_right hv (by norm_num)
    norm_num at h4 h5 h6 h7 ⊢
    linarith
  unfold ArcF.check
  rw [hw]
  show (if fl (lenF fl (subF fl x.pStart x.pCenter) * w) ≤ 0 then (Except.error GErr.valueError : Except GErr ArcF)
    else if |fl (lenF fl (subF fl x.pEnd x.pCenter) - lenF fl (subF fl x.pStart x.pCenter))| ≤ fl (1 / 10 ^ 8)
    then .ok x else .error .valueError) = _
  rw [if_neg hlen, if_pos hrad]

end

end Weldx.Geo
