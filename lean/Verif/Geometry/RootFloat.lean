import Verif.Geometry.ArcFloatLimits

/-!
# Roots of squares and the radius of arcs in the arithmetic of floating point numbers
-/

namespace Weldx.Geo

open Matrix Weldx.Binary64Real

section
variable {fl : ℝ → ℝ} (hfl : Rounds fl)
include hfl

/-- the root of the rounded square of a floating point number is rounded to the number -/
theorem root_square_pos {x : ℝ} (hx : Repr x) (h0 : 0 < x) : fl √(fl (x * x)) = x := by
  obtain ⟨n, hn1, hn2⟩ := exists_mem_Ico_zpow (y := (2 : ℝ)) h0 (by norm_num)
  set e : ℤ := n - 52 with he
  have e1 : (2 : ℝ) ^ n = 2 ^ 52 * (2 : ℝ) ^ e := by
    rw [he, ← zpow_natCast, ← zpow_add₀ (by norm_num)]; congr 1; push_cast; ring
  have e2 : (2 : ℝ) ^ (n + 1) = 2 ^ 53 * (2 : ℝ) ^ e := by
    rw [zpow_add₀ (by norm_num), e1]; norm_num; ring
  have hn : n = 52 + e := by rw [he]; ring
  obtain ⟨j, hj⟩ := repr_multiple hx (e := e) (by rw [abs_of_pos h0, ← hn]; exact hn1)
  have hp : (0 : ℝ) < (2 : ℝ) ^ e := by positivity
  set q := (2 : ℝ) ^ e with hq
  rw [e2] at hn2
  have hj1 : (j : ℝ) < 2 ^ 53 := by
    rw [hj] at hn2; exact lt_of_mul_lt_mul_right hn2 hp.le
  have hj1' : j < 2 ^ 53 := by exact_mod_cast hj1
  have hj2 : (j : ℝ) ≤ 2 ^ 53 - 1 := by
    have : j ≤ 2 ^ 53 - 1 := by omega
    exact_mod_cast this
  have hj0 : (0 : ℝ) < j := by rw [hj] at h0; exact pos_of_mul_pos_left h0 hp.le
  have hj0' : 0 < j := by exact_mod_cast hj0
  have hsq := Rounding.ulp (rounds_rounding hfl) (x * x)
  rw [abs_of_pos (mul_pos h0 h0)] at hsq
  have hlow : (2 : ℝ) ^ n * (2 : ℝ) ^ n ≤ fl (x * x) := by
    refine hfl.ge_of_repr ⟨1, n + n, by norm_num, by rw [zpow_add₀ (by norm_num)]; simp⟩ ?_
    exact mul_self_le_mul_self (by positivity) hn1
  set s := fl (x * x) with hs
  have hs0 : 0 < s := lt_of_lt_of_le (by positivity) hlow
  have hy : √s * √s = s := Real.mul_self_sqrt hs0.le
  have hy0 : 0 < √s := Real.sqrt_pos.2 hs0
  have hyn : (2 : ℝ) ^ n ≤ √s := by
    rw [Real.le_sqrt (by positivity) hs0.le, pow_two]; exact hlow
  set y := √s with hyy
  have hu := ulp_pos
  have hU := ulp_lt
  have hq2 := abs_le.1 hsq
  have hylow : x * (1 - ulp) ≤ y := by
    refine abs_le_of_sq_le_sq' ?_ hy0.le |>.2
    rw [pow_two, pow_two, hy]
    have : x * (1 - ulp) * (x * (1 - ulp)) ≤ x * x - ulp * (x * x) := by
      have : 0 ≤ x * x * (ulp * (1 - ulp)) := by
        have : 0 ≤ 1 - ulp := by norm_num at hU; linarith
        positivity
      nlinarith
    linarith [hq2.1]
  rw [hj, hq]
  refine hfl.eq_of_close (k := j) (e := e) (by rw [abs_of_pos hj0']; exact hj1'.le) (by rw [← hn]; exact hyn) ?_
  rw [← hq, ← hj]
  have hd : |x - y| * (x + y) ≤ ulp * (x * x) := by
    have e3 : (x - y) * (x + y) = x * x - s := by rw [← hy]; ring
    have e4 : |x - y| * (x + y) = |x * x - s| := by
      rw [← e3, abs_mul, abs_of_pos (show 0 < x + y by linarith)]
    rw [e4, abs_sub_comm]; exact hsq
  have hz : 0 ≤ |x - y| := abs_nonneg _
  by_contra hc
  push Not at hc
  have h3 : q / 2 * (x * (2 - ulp)) ≤ |x - y| * (x + y) :=
    mul_le_mul hc (by linarith) (by nlinarith) hz
  have h4 : q / 2 * (2 - ulp) * x ≤ ulp * x * x := by linarith
  have h5 := le_of_mul_le_mul_right h4 h0
  have h6 : ulp * x ≤ ulp * ((2 ^ 53 - 1) * q) := by
    refine mul_le_mul_of_nonneg_left ?_ hu.le
    rw [hj]; exact mul_le_mul_of_nonneg_right hj2 hp.le
  have h7 : ulp * ((2 ^ 53 - 1) * q) = q * (1 - ulp) := by unfold ulp; ring
  have : 0 < q * ulp := by positivity
  nlinarith

theorem root_square {x : ℝ} (hx : Repr x) : fl √(fl (x * x)) = |x| := by
  rcases lt_trichotomy x 0 with h | h | h
  · rw [abs_of_neg h, ← root_square_pos hfl (repr_neg hx) (by linarith)]; congr 3; ring
  · rw [h]; simp [hfl.zero]
  · rw [abs_of_pos h]; exact root_square_pos hfl hx h

theorem nonneg_of {x : ℝ} (h : 0 ≤ x) : 0 ≤ fl x := hfl.ge_of_repr repr_zero h

/-- the rounded length is not smaller than the components -/
theorem le_lenF (a : V) (h : ∀ i, Repr (a i)) (i : Fin 2) : |a i| ≤ lenF fl a := by
  have h0 := nonneg_of hfl (mul_self_nonneg (a 0))
  have h1 := nonneg_of hfl (mul_self_nonneg (a 1))
  have key : fl (a i * a i) ≤ dotF fl a a := by
    rw [← hfl.exact (hfl.repr (a i * a i))]
    refine hfl.mono ?_
    fin_cases i
    · show fl (a 0 * a 0) ≤ _; linarith
    · show fl (a 1 * a 1) ≤ _; linarith
  rw [← root_square hfl (h i)]
  exact hfl.mono (Real.sqrt_le_sqrt key)

/-- the argument of `np.arccos` in line 630 of `geometry.py` is not outside the domain -/
theorem quotient_le (a : V) (h : ∀ i, Repr (a i)) (i : Fin 2) : |fl (a i / lenF fl a)| ≤ 1 := by
  have h1 := le_lenF hfl a h i
  have h0 : 0 ≤ lenF fl a := (abs_nonneg _).trans h1
  have h2 : |a i / lenF fl a| ≤ 1 := by
    rw [abs_div, abs_of_nonneg h0]; exact div_le_one_of_le₀ h1 h0
  have h3 := abs_le.1 h2
  have r1 : Repr 1 := ⟨1, 0, by norm_num, by simp⟩
  exact abs_le.2 ⟨hfl.ge_of_repr (repr_neg r1) h3.1, hfl.le_of_repr r1 h3.2⟩

end

end Weldx.Geo
