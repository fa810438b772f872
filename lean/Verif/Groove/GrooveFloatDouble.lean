import Verif.Groove.GrooveFloatProps

/-!
# Double U grooves can be made in spite of rounding (C111)
-/

namespace Weldx.Groove

open Weldx.Geo Matrix Weldx.Binary64Real

/-- dimensions of a double U groove: the ones of both sides are like those of a U groove, the heights and the root face add up to the
thickness, the heights are equal if there is a root face, and the lower angle is not too small -/
structure DimDU (w t β1 β2 R R2 c h1 h2 b : ℝ) : Prop where
  width : 2 ≤ w ∧ w ≤ 1000
  face : c = 0 ∨ (1 / 10 ^ 5 ≤ c ∧ h1 = h2)
  face_le : c ≤ 200
  radius : 1 / 10 ≤ R ∧ R ≤ 400
  radius2 : 1 / 10 ≤ R2 ∧ R2 ≤ 400
  angle1 : 0 ≤ β1 ∧ β1 < Real.pi / 2
  angle2 : 0 ≤ β2 ∧ β2 < Real.pi / 2
  cos1 : 1 / 10 ≤ Real.cos β1
  cos2 : 1 / 10 ≤ Real.cos β2
  sin2 : 1 / 1000 ≤ Real.sin β2
  flat : R2 ≤ 400 * Real.sin β2
  height1 : R - R * Real.sin β1 + 1 / 10 ^ 5 ≤ h1
  height2 : R2 - R2 * Real.sin β2 + 1 / 10 ^ 5 ≤ h2
  upper1 : h1 ≤ 400
  upper2 : h2 ≤ 400
  thickness : |t - (h1 + h2 + c)| ≤ 1 / 10 ^ 12
  gap : 0 ≤ b ∧ b ≤ 10 ^ 4

/-- the horizontal extent of a side without rounding -/
noncomputable def extent (β R h : ℝ) : ℝ := R * Real.cos β + Real.tan β * (h - (R - R * Real.sin β))

section
variable {L : Lib} (hfl : Rounds L.fl) (hacos : Arccosine L.acos) (htrig : Trigonometric L.cosine L.sine)
variable {tangent : ℝ → ℝ} (htan : Tangent tangent)

include hfl htrig htan in
/-- one side of a double U groove: the end of the arc and the extent -/
theorem side_close {β R h : ℝ} (hR : 1 / 10 ≤ R ∧ R ≤ 400) (hβ : 0 ≤ β ∧ β < Real.pi / 2) (hcos : 1 / 10 ≤ Real.cos β)
    (hh : R - R * Real.sin β + 1 / 10 ^ 5 ≤ h) (hh1 : h ≤ 400) :
    |L.fl (R * L.cosine β) - R * Real.cos β| ≤ 1 / 10 ^ 12 ∧
    |L.fl (h - L.fl (R - L.fl (R * L.sine β))) - (h - (R - R * Real.sin β))| ≤ 2 / 10 ^ 12 ∧
    |L.fl (L.fl (tangent β * L.fl (h - L.fl (R - L.fl (R * L.sine β)))) + L.fl (R * L.cosine β)) - extent β R h| ≤ 1 / 10 ^ 8 ∧
    0 ≤ extent β R h ∧ extent β R h ≤ 6000 := by
  have hr := rounds_rounding hfl
  have hs0 : 0 ≤ Real.sin β := Real.sin_nonneg_of_nonneg_of_le_pi hβ.1 (by linarith [hβ.2, Real.pi_pos])
  have hs1 := Real.sin_le_one β
  have hc1' := Real.cos_le_one β
  have hRs0 : 0 ≤ R * Real.sin β := mul_nonneg (by linarith) hs0
  have hRs1 : R * Real.sin β ≤ R := by nlinarith
  have hRc1 : R * Real.cos β ≤ R := by nlinarith
  have hRc0 : R / 10 ≤ R * Real.cos β := by nlinarith
  obtain ⟨kX, kY⟩ := polar_close hfl htrig (R := R) ⟨by linarith, hR.2⟩ hβ
  obtain ⟨t0, t1, -⟩ := tangent_close htan hβ hcos
  have kX' := abs_le.1 kX
  have kY' := abs_le.1 kY
  set X := L.fl (R * L.cosine β) with hX
  set Y := L.fl (R * L.sine β) with hY
  norm_num at kX' kY'
  have kC := abs_le.1 (fl_abs hr (x := R - Y) (B := 500) (by rw [abs_le]; constructor <;> linarith [hR.1, hR.2]))
  set C := L.fl (R - Y) with hC
  norm_num at kC hh
  have kE := abs_le.1 (fl_abs hr (x := h - C) (B := 1000) (by rw [abs_le]; constructor <;> linarith [hR.1, hR.2]))
  have hz : |h - C - (h - (R - R * Real.sin β))| ≤ 1 / 10 ^ 11 := by
    rw [abs_le]; norm_num; constructor <;> linarith
  have ks := offset_close hfl htan hβ hcos (z := h - (R - R * Real.sin β)) (z' := h - C) (by linarith) (by linarith) hz
  have ks' := abs_le.1 ks
  set E := L.fl (h - C) with hE
  set s := L.fl (tangent β * E) with hs
  have hS0 : 0 ≤ Real.tan β * (h - (R - R * Real.sin β)) := mul_nonneg t0 (by linarith)
  have hS1 : Real.tan β * (h - (R - R * Real.sin β)) ≤ 10 * 500 := mul_le_mul t1 (by linarith) (by linarith) (by norm_num)
  unfold extent
  set S := Real.tan β * (h - (R - R * Real.sin β)) with hSd
  norm_num at kE ks'
  have k1 := abs_le.1 (fl_abs hr (x := s + X) (B := 20000) (by rw [abs_le]; constructor <;> linarith [hR.1, hR.2]))
  norm_num at k1
  refine ⟨kX, ?_, ?_, by linarith, by linarith⟩
  · rw [abs_le]; norm_num; constructor <;> linarith
  · rw [abs_le]; norm_num; constructor <;> linarith

set_option maxHeartbeats 4000000 in
include hfl hacos htrig htan in
/-- **C111 (double U groove).** A double U groove with moderate dimensions can be made in spite of rounding. The shapes have the segments
that they should have, and the right shape is the mirror image of the left one. -/
theorem C111_DU_partial {w t β1 β2 R R2 c h1 h2 b : ℝ} (h : DimDU w t β1 β2 R R2 c h1 h2 b) :
    ∃ l, profileDUF L tangent w t β1 β2 R R2 c h1 h2 b = .ok [l, l.map mirrorS] ∧
      ∃ width x0 x1 y1 m1 u m2 x2 y2 x3, Drawn b (kindsDU c)
        ([![-width, 0], ![x0, 0], ![x1, y1], ![0, m1], ![0, h2]] ++ rootFace c ![0, u] ++
          [![0, m2], ![x2, y2], ![x3, t], ![-width, t]]) l ∧
      |x0 - -extent β2 R2 h2| ≤ 1 / 10 ^ 8 ∧ |x1 - -(R2 * Real.cos β2)| ≤ 1 / 10 ^ 11 ∧
      |y1 - (h2 - (R2 - R2 * Real.sin β2))| ≤ 1 / 10 ^ 11 ∧ |m1 - (h2 - R2)| ≤ 1 / 10 ^ 11 ∧
      |u - (h2 + c)| ≤ 1 / 10 ^ 11 + |h1 - h2| ∧ |m2 - (h2 + c + R)| ≤ 1 / 10 ^ 11 ∧
      |x2 - -(R * Real.cos β1)| ≤ 1 / 10 ^ 11 ∧ |y2 - (h2 + c + R - R * Real.sin β1)| ≤ 1 / 10 ^ 11 ∧
      |x3 - -extent β1 R h1| ≤ 1 / 10 ^ 8 ∧ 1 / 4 ≤ width + x0 ∧ 1 / 4 ≤ width + x3 ∧
      Widened w (max (extent β1 R h1) (extent β2 R2 h2)) width := by
  have hr := rounds_rounding hfl
  obtain ⟨hw, hc, hc1, hR, hR2, hβ1, hβ2, hcos1, hcos2, hsin2, hflat, hh1, hh2, hu1, hu2, ht, hb⟩ := h
  have hc0 : 0 ≤ c := by rcases hc with h | h; · exact h.ge
                         · exact le_trans (by norm_num) h.1
  obtain ⟨a1, a2, a3, a4, a5⟩ := side_close hfl htrig htan hR hβ1 hcos1 hh1 hu1
  obtain ⟨b1, b2, b3, b4, b5⟩ := side_close hfl htrig htan hR2 hβ2 hcos2 hh2 hu2
  have hsA : 0 ≤ Real.sin β1 := Real.sin_nonneg_of_nonneg_of_le_pi hβ1.1 (by linarith [hβ1.2, Real.pi_pos])
  have hsB : 0 ≤ Real.sin β2 := by linarith
  have hA0 : 0 ≤ R * Real.sin β1 := mul_nonneg (by linarith) hsA
  have hA1 : R * Real.sin β1 ≤ R := by nlinarith [Real.sin_le_one β1]
  have hA2 : R * Real.cos β1 ≤ R := by nlinarith [Real.cos_le_one β1]
  have hA3 : R / 10 ≤ R * Real.cos β1 := by nlinarith
  have hB0 : 0 ≤ R2 * Real.sin β2 := mul_nonneg (by linarith) hsB
  have hB1 : R2 * Real.sin β2 ≤ R2 := by nlinarith [Real.sin_le_one β2]
  have hB2 : R2 * Real.cos β2 ≤ R2 := by nlinarith [Real.cos_le_one β2]
  have hB3 : R2 / 10 ≤ R2 * Real.cos β2 := by nlinarith
  show ∃ l, translateReflectF L b (kindsDU c) (pointsDUF L tangent w t β1 β2 R R2 c h1 h2) = .ok [l, l.map mirrorS] ∧ _
  unfold pointsDUF
  simp only
  have a1' := abs_le.1 a1
  have a2' := abs_le.1 a2
  have a3' := abs_le.1 a3
  have b1' := abs_le.1 b1
  have b2' := abs_le.1 b2
  have b3' := abs_le.1 b3
  have ht' := abs_le.1 ht
  set X1 := L.fl (R * L.cosine β1) with hX1
  set Z1 := L.fl (h1 - L.fl (R - L.fl (R * L.sine β1))) with hZ1
  set s1 := L.fl (tangent β1 * Z1) with hs1
  set X2 := L.fl (R2 * L.cosine β2) with hX2
  set Z2 := L.fl (h2 - L.fl (R2 - L.fl (R2 * L.sine β2))) with hZ2
  set s2 := L.fl (tangent β2 * Z2) with hs2
  rw [add_comm X1 s1, add_comm X2 s2]
  set P1 := L.fl (s1 + X1) with hP1
  set P2 := L.fl (s2 + X2) with hP2
  norm_num at a1' a2' a3' b1' b2' b3' ht' hh1 hh2
  have kT := abs_le.1 (fl_abs hr (x := t - Z1) (B := 1400) (by rw [abs_le]; constructor <;> linarith [hR.1, hR.2]))
  set E1 := L.fl (t - Z1) with hE1
  have kM := abs_le.1 (fl_abs hr (x := h2 - R2) (B := 900) (by rw [abs_le]; constructor <;> linarith [hR2.1, hR2.2]))
  set M1 := L.fl (h2 - R2) with hM1
  have kH := abs_le.1 (fl_abs hr (x := h2 + c) (B := 900) (by rw [abs_le]; constructor <;> linarith [hR2.1, hR2.2]))
  set H2 := L.fl (h2 + c) with hH2
  norm_num at kT kM kH
  have kN := abs_le.1 (fl_abs hr (x := H2 + R) (B := 1500) (by rw [abs_le]; constructor <;> linarith [hR.1, hR.2]))
  set M2 := L.fl (H2 + R) with hM2
  have kU := abs_le.1 (fl_abs hr (x := h1 + c) (B := 900) (by rw [abs_le]; constructor <;> linarith [hR.1, hR.2]))
  set U := L.fl (h1 + c) with hU
  norm_num at kN kU
  set edge := max (max P1 P2) 0 with hedge
  have he0 : 0 ≤ edge := le_max_right _ _
  have he1 : edge ≤ 3 * 10 ^ 4 := max_le (max_le (by norm_num; linarith) (by norm_num; linarith)) (by norm_num)
  have he2 : P1 ≤ edge := (le_max_left _ _).trans (le_max_left _ _)
  have he3 : P2 ≤ edge := (le_max_right _ _).trans (le_max_left _ _)
  obtain ⟨hw1, hw2⟩ := widenF_close hfl hw he0 he1
  set W := widenF L w edge with hW
  have hlow : Quarter h2 M1 X2 Z2 R2 β2 := by
    refine ⟨?_, ?_, ?_, ?_, hR2.1, hR2.2, hcos2, hsB⟩
    · rw [abs_of_nonneg (show 0 ≤ h2 - M1 by linarith [hR2.1]), abs_le]; norm_num; constructor <;> linarith
    · rw [abs_le]; norm_num; constructor <;> linarith
    · have e : |(|Z2 - M1|) - R2 * Real.sin β2| ≤ |(Z2 - M1) - (R2 * Real.sin β2)| := by
        have := abs_abs_sub_abs_le (Z2 - M1) (R2 * Real.sin β2)
        rwa [abs_of_nonneg hB0] at this
      refine e.trans ?_
      rw [abs_le]; norm_num; constructor <;> linarith
    · rw [abs_le]; constructor <;> linarith [hR2.1, hR2.2]
  have hupp : ∀ v, |v - (h2 + c)| ≤ 1 / 10 ^ 12 → Quarter v M2 X1 E1 R β1 := by
    intro v hv
    have hv := abs_le.1 hv
    norm_num at hv
    refine ⟨?_, ?_, ?_, ?_, hR.1, hR.2, hcos1, hsA⟩
    · rw [abs_of_nonpos (show v - M2 ≤ 0 by linarith [hR.1]), abs_le]; norm_num; constructor <;> linarith
    · rw [abs_le]; norm_num; constructor <;> linarith
    · have e : |(|E1 - M2|) - R * Real.sin β1| ≤ |(E1 - M2) - -(R * Real.sin β1)| := by
        have := abs_abs_sub_abs_le (E1 - M2) (-(R * Real.sin β1))
        rwa [abs_neg, abs_of_nonneg hA0] at this
      refine e.trans ?_
      rw [abs_le]; norm_num; constructor <;> linarith
    · rw [abs_le]; constructor <;> linarith [hR.1, hR.2]
  have hXl := hlow.X_ge
  have hmod : ∀ x y : ℝ, |x| ≤ 4 * 10 ^ 4 → |y| ≤ 4 * 10 ^ 4 → Moderate ![x, y] := by
    intro x y hx hy i
    fin_cases i
    · exact hx
    · exact hy
  have habs : ∀ x : ℝ, -40000 ≤ x → x ≤ 40000 → |x| ≤ 4 * 10 ^ 4 := by
    intro x h1 h2; rw [abs_le]; norm_num; exact ⟨h1, h2⟩
  have hupper : ∀ v, |v - (h2 + c)| ≤ 1 / 10 ^ 12 →
      ClearChain [.arc, .line, .line] [![0, v], ![0, M2], ![-X1, E1], ![-P1, t], ![-W, t]] := by
    intro v hv
    have hq := hupp v hv
    have hXu := hq.X_ge
    have hv := abs_le.1 hv
    norm_num at hv hw2
    have r1 := hR.1
    have r2 := hR.2
    refine ⟨⟨hmod _ _ (by simp) (habs _ (by linarith) (by linarith)), hmod _ _ (habs _ (by linarith) (by linarith)) (habs _ (by linarith) (by linarith)),
        hmod _ _ (by simp) (habs _ (by linarith) (by linarith)), ⟨1 / 20, hq.clear⟩, 0, ?_, ?_⟩,
      ⟨hmod _ _ (habs _ (by linarith) (by linarith)) (habs _ (by linarith) (by linarith)),
        hmod _ _ (habs _ (by linarith) (by linarith)) (habs _ (by linarith) (by linarith)), 1, ?_⟩,
      ⟨hmod _ _ (habs _ (by linarith) (by linarith)) (habs _ (by linarith) (by linarith)),
        hmod _ _ (habs _ (by linarith) (by linarith)) (habs _ (by linarith) (by linarith)), 0, ?_⟩, trivial⟩
    · show _ ≤ |-X1 - 0|
      rw [sub_zero, abs_neg, abs_of_nonneg (by linarith)]; norm_num; linarith
    · show _ ≤ |-X1 - 0|
      have := hq.bounds.1.2
      rw [sub_zero, abs_neg, abs_of_nonneg (show (0 : ℝ) ≤ X1 by linarith)]
      linarith
    · show _ ≤ |t - E1|
      rw [abs_of_nonneg (by linarith)]; norm_num; linarith
    · show _ ≤ |-W - -P1|
      rw [abs_of_nonpos (by linarith)]; norm_num; linarith
  have hlower : ∀ {ks ps}, ClearChain ks (![0, h2] :: ps) → ClearChain ([.line, .line, .arc] ++ ks)
      ([![-W, 0], ![-P2, 0], ![-X2, Z2], ![0, M1], ![0, h2]] ++ ps) := by
    intro ks ps hrest
    norm_num at hw2
    have r1 := hR2.1
    have r2 := hR2.2
    refine ⟨⟨hmod _ _ (habs _ (by linarith) (by linarith)) (by simp), hmod _ _ (habs _ (by linarith) (by linarith)) (by simp), 0, ?_⟩,
      ⟨hmod _ _ (habs _ (by linarith) (by linarith)) (by simp), hmod _ _ (habs _ (by linarith) (by linarith)) (habs _ (by linarith) (by linarith)), 1, ?_⟩,
      ⟨hmod _ _ (habs _ (by linarith) (by linarith)) (habs _ (by linarith) (by linarith)), hmod _ _ (by simp) (habs _ (by linarith) (by linarith)),
        hmod _ _ (by simp) (habs _ (by linarith) (by linarith)), ⟨_, hlow.clear_reverse hsin2 hflat⟩, 0, ?_, ?_⟩, hrest⟩
    · show _ ≤ |-P2 - -W|
      rw [abs_of_nonneg (by linarith)]; norm_num; linarith
    · show _ ≤ |Z2 - 0|
      rw [sub_zero, abs_of_nonneg (by linarith)]; norm_num; linarith
    · show _ ≤ |0 - -X2|
      rw [zero_sub, neg_neg, abs_of_nonneg (by linarith)]; norm_num; linarith
    · show _ ≤ |0 - -X2|
      have := hlow.bounds.2.1.2
      rw [zero_sub, neg_neg, abs_of_nonneg (show (0 : ℝ) ≤ X2 by linarith)]
      linarith
  have hchain : ClearChain (kindsDU c) ([![-W, 0], ![-P2, 0], ![-X2, Z2], ![0, M1], ![0, h2]] ++ rootFace c ![0, U] ++
      [![0, M2], ![-X1, E1], ![-P1, t], ![-W, t]]) := by
    unfold kindsDU rootKind rootFace
    by_cases h0 : c = 0
    · subst h0
      simp only [ne_eq, not_true_eq_false, if_false, List.append_nil]
      exact hlower (ks := [.arc, .line, .line]) (ps := [![0, M2], ![-X1, E1], ![-P1, t], ![-W, t]])
        (hupper h2 (by rw [add_zero, sub_self, abs_zero]; norm_num))
    · obtain ⟨hc5, hh⟩ := hc.resolve_left h0
      norm_num at hc5
      simp only [ne_eq, h0, not_false_eq_true, if_true]
      refine hlower (ks := [.line, .arc, .line, .line]) (ps := [![0, U], ![0, M2], ![-X1, E1], ![-P1, t], ![-W, t]])
        ⟨⟨hmod _ _ (by simp) (habs _ (by linarith) (by linarith)), hmod _ _ (by simp) (habs _ (by linarith) (by linarith)), 1, ?_⟩, hupper U ?_⟩
      · show _ ≤ |U - h2|
        rw [abs_of_nonneg (by linarith)]; norm_num; linarith
      · rw [abs_le]; norm_num; constructor <;> linarith
  obtain ⟨l, hl, hd⟩ := C111_chain_partial hfl hacos htrig hchain hb.1 hb.2
  refine ⟨l, hl, W, -P2, -X2, Z2, M1, U, M2, -X1, E1, -P1, hd, ?_, ?_, ?_, ?_, ?_, ?_, ?_, ?_, ?_, ?_, ?_, ?_⟩
  · rw [abs_le]; norm_num; constructor <;> linarith
  · rw [abs_le]; norm_num; constructor <;> linarith
  · rw [abs_le]; norm_num; constructor <;> linarith
  · rw [abs_le]; norm_num; constructor <;> linarith
  · have e1 := le_abs_self (h1 - h2)
    have e2 := neg_abs_le (h1 - h2)
    rw [abs_le]; norm_num; constructor <;> linarith
  · rw [abs_le]; norm_num; constructor <;> linarith
  · rw [abs_le]; norm_num; constructor <;> linarith
  · rw [abs_le]; norm_num; constructor <;> linarith
  · rw [abs_le]; norm_num; constructor <;> linarith
  · linarith
  · linarith
  · exact widenF_spec hfl hw he0 he1 (max_close (max_close_max (a3.trans (by norm_num)) (b3.trans (by norm_num))) (a4.trans (le_max_left _ _)))

end

end Weldx.Groove
