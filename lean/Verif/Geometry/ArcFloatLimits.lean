import Verif.Geometry.ArcFloatMoves
import Verif.Base.Binary64Real

/-!
# Limits of arcs in the arithmetic of floating point numbers (C109)
-/

namespace Weldx.Geo

open Matrix Weldx.Binary64Real

section
variable {fl acos : ℝ → ℝ} (hfl : Rounds fl)
include hfl

theorem rounds_rounding : Rounding fl := ⟨hfl.error⟩

theorem exact_of {m e : ℤ} (h : |m| ≤ 2 ^ 53) : fl (m * (2 : ℝ) ^ e) = m * (2 : ℝ) ^ e :=
  hfl.exact ⟨m, e, h, rfl⟩

omit hfl in
/-- all exceptions of the check are of the same kind -/
theorem check_error {x : ArcF} (h : ¬ |fl (lenF fl (subF fl x.pEnd x.pCenter) - lenF fl (subF fl x.pStart x.pCenter))| ≤
    fl (1 / 10 ^ 8)) : ArcF.check fl acos x = .error .valueError := by
  have hn : ∀ a : V, (∃ u, normalizeF fl a = .ok u) ∨ normalizeF fl a = .error .valueError := by
    intro a; unfold normalizeF; split
    · exact .inr rfl
    · exact .inl ⟨_, rfl⟩
  have hc : (∃ w, calcAngleF fl acos x = .ok w) ∨ calcAngleF fl acos x = .error .valueError := by
    unfold calcAngleF
    rcases hn (subF fl x.pStart x.pCenter) with ⟨u, hu⟩ | hu
    · rcases hn (subF fl x.pEnd x.pCenter) with ⟨v, hv⟩ | hv
      · rw [hu, hv]; left
        simp only [bind, Except.bind]
        split
        exacts [⟨_, rfl⟩, ⟨_, rfl⟩]
      · rw [hu, hv]; right; rfl
    · rw [hu]; right; rfl
  unfold ArcF.check
  rcases hc with ⟨w, hw⟩ | hw
  · rw [hw]
    simp only [bind, Except.bind]
    rw [if_neg h]
    split <;> rfl
  · rw [hw]; rfl

/-- a quarter of a circle with a radius that is a little larger than one -/
noncomputable def quarter : ArcF := ⟨![1 + 1 / 2 ^ 26, 0], ![0, 1 + 1 / 2 ^ 26], ![0, 0], 1⟩

/-- **C109 (limit).** An arc that is accepted can be translated so far (268 m for micrometres) that it can't be
transformed any more, not even with the identity: the rounded distances from the center differ by more than 1e-8. -/
theorem C109_far_counterexample (hacos : Arccosine acos) :
    ArcF.check fl acos quarter = .ok quarter ∧
      ArcF.run fl acos [.translate ![2 ^ 28, 0], .transform 1] quarter = .error .valueError := by
  have hr : Rounding fl := rounds_rounding hfl
  have hz : fl 0 = 0 := Rounding.zero' hr
  constructor
  · have h1 : len (quarter.pStart - quarter.pCenter) = 1 + 1 / 2 ^ 26 := by
      unfold len dot quarter
      simp only [Pi.sub_apply, Matrix.cons_val_zero, Matrix.cons_val_one, sub_zero, mul_zero, add_zero]
      exact Real.sqrt_mul_self (by norm_num)
    have h2 : len (quarter.pEnd - quarter.pCenter) = 1 + 1 / 2 ^ 26 := by
      unfold len dot quarter
      simp only [Pi.sub_apply, Matrix.cons_val_zero, Matrix.cons_val_one, sub_zero, mul_zero, zero_add]
      exact Real.sqrt_mul_self (by norm_num)
    have h3 : 1 ≤ len (quarter.pStart - quarter.pEnd) ^ 2 := by
      rw [pow_two, len_mul_self]
      unfold dot quarter
      simp only [Pi.sub_apply, Matrix.cons_val_zero, Matrix.cons_val_one]
      norm_num
    have hu := ulp_pos
    have hU := ulp_lt
    refine check_ok hr hacos (by rw [h1]; norm_num) (by rw [h2]; norm_num) ?_ ?_
    · rw [h1, h2, sub_self, abs_zero]
      norm_num at hU ⊢
      linarith
    · rw [h1, h2, sub_self]
      norm_num at hU ⊢
      linarith
  · -- the points after the translation
    have f1 : fl (1 + 1 / 2 ^ 26 + 2 ^ 28) = 2 ^ 28 + 1 := by
      have h := hfl.eq_of_close (x := 1 + 1 / 2 ^ 26 + 2 ^ 28) (k := 2 ^ 52 + 2 ^ 24) (e := -24) (by norm_num) (by norm_num)
        (by norm_num [abs_lt])
      push_cast at h
      rw [h]; norm_num
    have ex : ∀ (x : ℝ) (m e : ℤ), |m| ≤ 2 ^ 53 → x = m * (2 : ℝ) ^ e → fl x = x := by
      rintro x m e hm rfl; exact exact_of hfl hm
    have f2 : fl ((0 : ℝ) + 2 ^ 28) = 2 ^ 28 := by
      rw [zero_add]; exact ex _ 1 28 (by norm_num) (by norm_num)
    have f3 : fl (1 + 1 / 2 ^ 26 : ℝ) = 1 + 1 / 2 ^ 26 := ex _ (2 ^ 26 + 1) (-26) (by norm_num) (by norm_num)
    have f4 : fl (2 ^ 28 + 1 : ℝ) = 2 ^ 28 + 1 := ex _ (2 ^ 28 + 1) 0 (by norm_num) (by norm_num)
    have f5 : fl (2 ^ 28 : ℝ) = 2 ^ 28 := ex _ 1 28 (by norm_num) (by norm_num)
    have f6 : fl (1 : ℝ) = 1 := ex _ 1 0 (by norm_num) (by norm_num)
    have f7 : fl ((1 + 1 / 2 ^ 26) * (1 + 1 / 2 ^ 26) : ℝ) = (1 + 1 / 2 ^ 26) * (1 + 1 / 2 ^ 26) :=
      ex _ (2 ^ 52 + 2 ^ 27 + 1) (-52) (by norm_num) (by norm_num)
    have f8 : fl (1 / 2 ^ 26 : ℝ) = 1 / 2 ^ 26 := ex _ 1 (-26) (by norm_num) (by norm_num)
    have ht : quarter.translate fl ![2 ^ 28, 0] = ⟨![2 ^ 28 + 1, 0], ![2 ^ 28, 1 + 1 / 2 ^ 26], ![2 ^ 28, 0], 1⟩ := by
      unfold ArcF.translate quarter
      congr 1
      · funext i; fin_cases i
        · exact f1
        · show fl ((0 : ℝ) + 0) = 0; rw [add_zero, hz]
      · funext i; fin_cases i
        · exact f2
        · show fl (1 + 1 / 2 ^ 26 + 0 : ℝ) = 1 + 1 / 2 ^ 26; rw [add_zero, f3]
      · funext i; fin_cases i
        · exact f2
        · show fl ((0 : ℝ) + 0) = 0; rw [add_zero, hz]
    have hone : ∀ a b : ℝ, fl a = a → fl b = b → mulF fl 1 ![a, b] = ![a, b] := by
      intro a b ha hb
      funext i; fin_cases i
      · show fl (fl ((1 : M) 0 0 * a) + fl ((1 : M) 0 1 * b)) = a
        simp [hz, ha]
      · show fl (fl ((1 : M) 1 0 * a) + fl ((1 : M) 1 1 * b)) = b
        simp [hz, hb]
    have hsub : ∀ a b c d : ℝ, subF fl ![a, b] ![c, d] = ![fl (a - c), fl (b - d)] := by
      intro a b c d; funext i; fin_cases i <;> rfl
    have hdet : npSign (detF fl ((1 : M) 0) ((1 : M) 1)) = 1 := by
      have : detF fl ((1 : M) 0) ((1 : M) 1) = 1 := by
        unfold detF; simp [hz, f6]
      rw [this]; simp [npSign]
    show ArcF.run fl acos [.transform 1] (quarter.translate fl ![2 ^ 28, 0]) = _
    rw [ht, ArcF.run]
    have herr : ArcF.transform fl acos 1 ⟨![2 ^ 28 + 1, 0], ![2 ^ 28, 1 + 1 / 2 ^ 26], ![2 ^ 28, 0], 1⟩ =
        .error .valueError := by
      unfold ArcF.transform
      dsimp only
      rw [hdet, if_neg (by decide), hone _ _ f4 hz, hone _ _ f5 f3, hone _ _ f5 hz]
      apply check_error
      dsimp only
      rw [hsub, hsub]
      have e1 : lenF fl ![fl (2 ^ 28 - 2 ^ 28 : ℝ), fl (1 + 1 / 2 ^ 26 - 0 : ℝ)] = 1 + 1 / 2 ^ 26 := by
        rw [sub_self, sub_zero, hz, f3]
        unfold lenF dotF
        simp only [Matrix.cons_val_zero, Matrix.cons_val_one]
        rw [mul_zero, hz, zero_add, f7, f7, Real.sqrt_mul_self (by norm_num), f3]
      have e2 : lenF fl ![fl (2 ^ 28 + 1 - 2 ^ 28 : ℝ), fl (0 - 0 : ℝ)] = 1 := by
        rw [sub_self, add_sub_cancel_left, hz, f6]
        unfold lenF dotF
        simp only [Matrix.cons_val_zero, Matrix.cons_val_one]
        rw [mul_zero, hz, mul_one, f6, add_zero, f6, Real.sqrt_one, f6]
      rw [e1, e2, add_sub_cancel_left, f8]
      have h4 := (abs_le.1 (Rounding.ulp hr (1 / 10 ^ 8 : ℝ))).2
      have hU := ulp_lt
      rw [abs_of_pos (by positivity)] at h4 ⊢
      norm_num at h4 hU ⊢
      linarith
    rw [herr]

/-- **C109 (limit).** An arc that is almost straight is accepted with exact arithmetic. With rounding the cosine of its
angle is one and the angle zero, so that it has no length. -/
theorem C109_flat_counterexample (hacos : Arccosine acos) :
    (∃ x, mkArc ![2 ^ 30, 0] ![2 ^ 30, 1] ![0, 0] true = .ok x) ∧
      mkArcF fl acos ![2 ^ 30, 0] ![2 ^ 30, 1] ![0, 0] true = .error .valueError := by
  have hr : Rounding fl := rounds_rounding hfl
  have hz : fl 0 = 0 := Rounding.zero' hr
  constructor
  · refine C51_accepted.2 ⟨?_, ?_, ?_, ?_⟩
    · intro h; have := congrFun h 0; norm_num at this
    · intro h; have := congrFun h 1; norm_num at this
    · rintro ⟨c, -, h⟩
      have := congrFun h 1
      norm_num at this
    · have e1 : len (![2 ^ 30, 0] - ![0, 0]) = 2 ^ 30 := by
        unfold len dot
        simp only [Pi.sub_apply, Matrix.cons_val_zero, Matrix.cons_val_one, sub_zero, mul_zero, add_zero]
        exact Real.sqrt_mul_self (by norm_num)
      have e2 : len (![2 ^ 30, 1] - ![0, 0]) = √(2 ^ 60 + 1) := by
        unfold len dot
        simp only [Pi.sub_apply, Matrix.cons_val_zero, Matrix.cons_val_one, sub_zero]
        norm_num
      rw [e1, e2]
      have h1 : (2 : ℝ) ^ 30 ≤ √(2 ^ 60 + 1) := Real.le_sqrt_of_sq_le (by norm_num)
      have h2 : √((2 : ℝ) ^ 60 + 1) ≤ 2 ^ 30 + 1 / 100000000 := Real.sqrt_le_iff.2 (by norm_num)
      rw [abs_of_nonneg (by linarith)]
      linarith
  · have ex : ∀ (x : ℝ) (m e : ℤ), |m| ≤ 2 ^ 53 → x = m * (2 : ℝ) ^ e → fl x = x := by
      rintro x m e hm rfl; exact exact_of hfl hm
    have f1 : fl (1 : ℝ) = 1 := ex _ 1 0 (by norm_num) (by norm_num)
    have f30 : fl (2 ^ 30 : ℝ) = 2 ^ 30 := ex _ 1 30 (by norm_num) (by norm_num)
    have f60 : fl (2 ^ 30 * 2 ^ 30 : ℝ) = 2 ^ 30 * 2 ^ 30 := ex _ 1 60 (by norm_num) (by norm_num)
    have f61 : fl (2 ^ 30 * 2 ^ 30 + 1 : ℝ) = 2 ^ 30 * 2 ^ 30 := by
      have h := hfl.eq_of_close (x := 2 ^ 30 * 2 ^ 30 + 1) (k := 2 ^ 52) (e := 8) (by norm_num) (by norm_num)
        (by norm_num [abs_lt])
      push_cast at h
      rw [h]; norm_num
    have fi : fl (1 / 2 ^ 30 : ℝ) = 1 / 2 ^ 30 := ex _ 1 (-30) (by norm_num) (by norm_num)
    have hsub : ∀ a b : ℝ, fl a = a → fl b = b → subF fl ![a, b] ![0, 0] = ![a, b] := by
      intro a b ha hb; funext i; fin_cases i
      · show fl (a - 0) = a; rw [sub_zero, ha]
      · show fl (b - 0) = b; rw [sub_zero, hb]
    have l1 : lenF fl ![2 ^ 30, 0] = 2 ^ 30 := by
      unfold lenF dotF
      simp only [Matrix.cons_val_zero, Matrix.cons_val_one]
      rw [mul_zero, hz, add_zero, f60, f60, Real.sqrt_mul_self (by norm_num), f30]
    have l2 : lenF fl ![2 ^ 30, 1] = 2 ^ 30 := by
      unfold lenF dotF
      simp only [Matrix.cons_val_zero, Matrix.cons_val_one]
      rw [mul_one, f1, f60, f61, Real.sqrt_mul_self (by norm_num), f30]
    have n1 : normalizeF fl ![2 ^ 30, 0] = .ok ![1, 0] := by
      unfold normalizeF
      rw [l1, if_neg (by norm_num)]
      congr 1; funext i; fin_cases i
      · show fl ((2 ^ 30 : ℝ) / 2 ^ 30) = 1; rw [div_self (by norm_num), f1]
      · show fl ((0 : ℝ) / 2 ^ 30) = 0; rw [zero_div, hz]
    have n2 : normalizeF fl ![2 ^ 30, 1] = .ok ![1, 1 / 2 ^ 30] := by
      unfold normalizeF
      rw [l2, if_neg (by norm_num)]
      congr 1; funext i; fin_cases i
      · show fl ((2 ^ 30 : ℝ) / 2 ^ 30) = 1; rw [div_self (by norm_num), f1]
      · exact fi
    have hd : dotF fl ![1, 0] ![1, 1 / 2 ^ 30] = 1 := by
      unfold dotF
      simp only [Matrix.cons_val_zero, Matrix.cons_val_one]
      rw [mul_one, zero_mul, f1, hz, add_zero, f1]
    have hdet : npSign (detF fl ![1, 0] ![1, 1 / 2 ^ 30]) = 1 := by
      have : detF fl ![1, 0] ![1, 1 / 2 ^ 30] = 1 / 2 ^ 30 := by
        unfold detF
        simp only [Matrix.cons_val_zero, Matrix.cons_val_one]
        rw [one_mul, zero_mul, fi, hz, sub_zero, fi]
      rw [this, npSign, if_pos (by positivity)]
    have ha : acos 1 = 0 := by
      have := hacos.error 1 (by norm_num) le_rfl
      rw [Real.arccos_one, sub_zero, zero_div] at this
      exact abs_nonpos_iff.1 this
    have hclip : clip 1 (-1) 1 = 1 := by unfold clip; norm_num
    have hcalc : calcAngleF fl acos ⟨![2 ^ 30, 0], ![2 ^ 30, 1], ![0, 0], 1⟩ = .ok 0 := by
      unfold calcAngleF
      dsimp only
      rw [hsub _ _ f30 hz, hsub _ _ f30 f1, n1, n2]
      simp only [bind, Except.bind]
      rw [hd, hdet, hclip, ha, if_pos (by norm_num)]
    show ArcF.check fl acos ⟨![2 ^ 30, 0], ![2 ^ 30, 1], ![0, 0], 1⟩ = _
    unfold ArcF.check
    rw [hcalc]
    simp only [bind, Except.bind]
    rw [mul_zero, hz, if_pos le_rfl]

end

end Weldx.Geo
