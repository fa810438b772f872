import Verif.Groove.Props
import Verif.Geometry.Raster

/-!
# C52: grooves with arcs
-/

namespace Weldx.Groove

open Weldx.Geo Real

/-! ### when the profile can be made -/

/-- an arc can be put between two points around a center -/
structure ArcOk (p q c : Geo.V) : Prop where
  start : p ≠ c
  stop : q ≠ c
  direction : ¬ ∃ k : ℝ, 0 < k ∧ q - c = k • (p - c)
  radius : len (q - c) = len (p - c)

/-- points that fit the kinds of the segments -/
inductive Chain : List Kind → List Geo.V → Prop
  | nil {p} : Chain [] [p]
  | line {ks p q r} : p ≠ q → Chain ks (q :: r) → Chain (.line :: ks) (p :: q :: r)
  | arc {ks p c q r} : ArcOk p q c → Chain ks (q :: r) → Chain (.arc :: ks) (p :: c :: q :: r)

theorem Chain.helper {ks : List Kind} {ps : List Geo.V} (h : Chain ks ps) :
    ∃ l, helper ks ps = .ok l ∧ (∀ s ∈ l, s.Valid) ∧ checkConnected l = .ok () ∧ l.length = ks.length ∧
      ∀ s r, l = s :: r → ∃ p ps', ps = p :: ps' ∧ s.pointStart = p := by
  induction h with
  | nil => exact ⟨[], rfl, by simp, rfl, rfl, by simp⟩
  | @line ks p q r hne hc ih =>
    obtain ⟨l, h1, h2, h3, h4, h5⟩ := ih
    refine ⟨.line p q (len (q - p)) :: l, ?_, ?_, ?_, by simp [h4], ?_⟩
    · rw [Groove.helper, mkLine_of_ne hne]
      simp only
      rw [h1]
    · intro s hs
      rcases List.mem_cons.1 hs with rfl | hs
      · exact (mkLine_ok (mkLine_of_ne hne)).2
      · exact h2 s hs
    · cases l with
      | nil => rfl
      | cons s r =>
        rw [checkConnected]
        obtain ⟨p', ps', e, hs⟩ := h5 s r rfl
        rw [line_end, hs, ← (List.cons.inj e).1, if_pos (vectorIsClose_self _)]
        exact h3
    · intro s r' e
      exact ⟨p, _, rfl, by rw [← (List.cons.inj e).1, line_start]⟩
  | @arc ks p c q r ha hc ih =>
    obtain ⟨l, h1, h2, h3, h4, h5⟩ := ih
    obtain ⟨x, hx⟩ := (C51_accepted (ps := p) (pe := q) (pc := c) (ccw := false)).2
      ⟨ha.start, ha.stop, ha.direction, by rw [ha.radius, sub_self, abs_zero]; norm_num⟩
    have hs0 : (Seg.arc x).pointStart = p := by
      simp only [Seg.pointStart, Seg.point, zero_mul]
      exact (C51_radius hx).1
    have hs1 : (Seg.arc x).pointEnd = q := by
      simp only [Seg.pointEnd, Seg.point, one_mul]
      exact (C51_end hx).2.2 ha.radius
    refine ⟨.arc x :: l, ?_, ?_, ?_, by simp [h4], ?_⟩
    · rw [Groove.helper, hx]
      simp only
      rw [h1]
    · intro s hs
      rcases List.mem_cons.1 hs with rfl | hs
      · exact mkArc_valid hx
      · exact h2 s hs
    · cases l with
      | nil => rfl
      | cons s r =>
        rw [checkConnected]
        obtain ⟨p', ps', e, hs⟩ := h5 s r rfl
        rw [hs1, hs, ← (List.cons.inj e).1, if_pos (vectorIsClose_self _)]
        exact h3
    · intro s r' e
      exact ⟨p, _, rfl, by rw [← (List.cons.inj e).1, hs0]⟩

theorem Chain.shape {ks : List Kind} {ps : List Geo.V} (h : Chain ks ps) :
    ∃ l, shapeOf ks ps = .ok l ∧ (∀ s ∈ l, s.Valid) ∧ l.length = ks.length := by
  obtain ⟨l, h1, h2, h3, h4, -⟩ := h.helper
  refine ⟨l, ?_, h2, h4⟩
  unfold shapeOf
  rw [h1]
  simp only
  rw [h3]

theorem reflectY_ok {l : List Seg} (h : ∀ s ∈ l, s.Valid) :
    ∃ r, reflectY l = .ok r ∧ (∀ s ∈ r, s.Valid) ∧ r.length = l.length := by
  induction l with
  | nil => exact ⟨[], rfl, by simp, rfl⟩
  | cons s l ih =>
    obtain ⟨r, h1, h2, h3⟩ := ih fun x hx => h x (List.mem_cons_of_mem _ hx)
    obtain ⟨s', e, hv, -⟩ := Seg.transform_iso (householder_iso (n := ![-1, 0]) (by
      intro h; have := congrFun h 0; simp at this)) (h s List.mem_cons_self)
    refine ⟨s' :: r, ?_, ?_, by simp [h3]⟩
    · rw [reflectY, e]
      simp only
      rw [h1]
    · intro x hx
      rcases List.mem_cons.1 hx with rfl | hx
      · exact hv
      · exact h2 x hx

theorem moveBy_valid {l : List Seg} (h : ∀ s ∈ l, s.Valid) (v : Geo.V) : ∀ s ∈ moveBy v l, s.Valid := by
  intro s hs
  obtain ⟨x, hx, rfl⟩ := List.mem_map.1 hs
  exact Seg.translate_valid v (h x hx)

theorem rasterize_ok {l : List Seg} (h : ∀ s ∈ l, s.Valid) (hne : l ≠ []) {width : ℝ} (hw : 0 < width) :
    ∃ ps, rasterize l width = .ok ps := by
  cases l with
  | nil => exact absurd rfl hne
  | cons s r =>
    obtain ⟨pp, h1, -⟩ := rasterizeAll_eq hw h
    unfold rasterize
    cases hl : (s :: r).getLast? with
    | none => simp at hl
    | some last =>
      simp only [gt_iff_lt, hw, not_true_eq_false, if_false, h1, bind, Except.bind]
      split
      · exact ⟨_, rfl⟩
      · exact ⟨_, rfl⟩

/-- the area of a profile of valid shapes can be computed -/
theorem areaInterpolated_ok {a b : List Seg} (ha : ∀ s ∈ a, s.Valid) (hb : ∀ s ∈ b, s.Valid) (hna : a ≠ []) (hnb : b ≠ []) :
    ∃ x, areaInterpolated (.ok [a, b]) = .ok x := by
  obtain ⟨p, hp⟩ := rasterize_ok ha hna (by norm_num : (0 : ℝ) < 1 / 10)
  obtain ⟨q, hq⟩ := rasterize_ok hb hnb (by norm_num : (0 : ℝ) < 1 / 10)
  simp only [areaInterpolated, rasterPoints, hp, hq]
  exact ⟨_, rfl⟩

/-- the profile of a symmetric groove can be made, and its area can be computed -/
theorem Chain.symmetric {ks : List Kind} {ps : List Geo.V} (h : Chain ks ps) (hk : ks ≠ []) (b : ℝ) :
    ∃ l r, translateReflect b ks ps = .ok [l, r] ∧ (∀ s ∈ l, s.Valid) ∧ (∀ s ∈ r, s.Valid) ∧ l ≠ [] ∧ r ≠ [] := by
  obtain ⟨l, h1, h2, h3⟩ := h.shape
  obtain ⟨r, e1, e2, e3⟩ := reflectY_ok (moveBy_valid h2 ![-b / 2, 0])
  have hl : l ≠ [] := by
    rintro rfl
    exact hk (List.length_eq_zero_iff.1 h3.symm)
  refine ⟨moveBy ![-b / 2, 0] l, r, ?_, moveBy_valid h2 _, e2, by simpa [moveBy] using hl, ?_⟩
  · unfold translateReflect
    rw [h1]
    simp only
    rw [e1]
  · rintro rfl
    simp [moveBy] at e3
    exact hl (List.length_eq_zero_iff.1 e3.symm)

theorem Chain.half {ks : List Kind} {ps : List Geo.V} (h : Chain ks ps) (hk : ks ≠ []) {w b t : ℝ} (hw : 0 < w) (ht : 0 < t) :
    ∃ l r, halfProfile w b t ks ps = .ok [l, r] ∧ (∀ s ∈ l, s.Valid) ∧ (∀ s ∈ r, s.Valid) ∧ l ≠ [] ∧ r ≠ [] := by
  obtain ⟨l, h1, h2, h3⟩ := h.shape
  obtain ⟨r, e1, e2, e3⟩ := reflectY_ok (moveBy_valid h2 ![-b / 2, 0])
  have hl : l ≠ [] := by
    rintro rfl
    exact hk (List.length_eq_zero_iff.1 h3.symm)
  have hd : Distinct [![-w - b / 2, 0], ![-b / 2, 0], ![-b / 2, t], ![-w - b / 2, t]] :=
    ⟨ne_of_0 (by simp; linarith), ne_of_1 (by simpa using ht.ne), ne_of_0 (by simp; linarith), trivial⟩
  have hv : ∀ ps, Distinct ps → ∀ s ∈ lines ps, s.Valid := by
    intro ps hps
    induction ps with
    | nil => simp [lines]
    | cons p r ih =>
      cases r with
      | nil => simp [lines]
      | cons q r =>
        intro s hs
        rw [lines] at hs
        rcases List.mem_cons.1 hs with rfl | hs
        · exact (mkLine_ok (mkLine_of_ne hps.1)).2
        · exact ih hps.2 s hs
  refine ⟨_, r, ?_, hv _ hd, e2, by simp [lines], ?_⟩
  · unfold halfProfile
    rw [h1]
    simp only
    rw [e1]
    simp only
    unfold straight
    rw [polyline_lines hd]
  · rintro rfl
    simp [moveBy] at e3
    exact hl (List.length_eq_zero_iff.1 e3.symm)

/-! ### U grooves -/

/-- `R (cos β, sin β)` below and left of a center -/
theorem sq_radius (R β : ℝ) : (R * cos β) ^ 2 + (R * sin β) ^ 2 = R ^ 2 := by
  have := sin_sq_add_cos_sq β
  linear_combination R ^ 2 * this

theorem len_pair {x y R : ℝ} (hR : 0 ≤ R) (h : x ^ 2 + y ^ 2 = R ^ 2) : len ![x, y] = R := by
  unfold len dot
  simp only [Matrix.cons_val_zero, Matrix.cons_val_one]
  rw [show x * x + y * y = R ^ 2 by linarith, sqrt_sq hR]

/-- the arc at the bottom of a U groove -/
theorem arcU {R β c : ℝ} (hR : 0 < R) (h0 : 0 ≤ β) (h1 : β < π / 2) :
    ArcOk ![0, c] ![-(R * cos β), c + R - R * sin β] ![0, c + R] := by
  have hcos : 0 < cos β := cos_pos_of_mem_Ioo ⟨by linarith, h1⟩
  have e1 : (![0, c] : Geo.V) - ![0, c + R] = ![0, -R] := by
    funext i; fin_cases i <;> simp
  have e2 : (![-(R * cos β), c + R - R * sin β] : Geo.V) - ![0, c + R] = ![-(R * cos β), -(R * sin β)] := by
    funext i; fin_cases i <;> simp
  refine ⟨ne_of_1 (by simpa using hR.ne'), ne_of_0 (by simpa using ⟨hR.ne', hcos.ne'⟩), ?_, ?_⟩
  · rintro ⟨k, -, e⟩
    rw [e1, e2] at e
    have := congrFun e 0
    simp at this
    rcases this with h | h
    · exact hR.ne' h
    · exact hcos.ne' h
  · rw [e1, e2, len_pair hR.le (by have := sq_radius R β; linarith), len_pair hR.le (by ring)]

/-- the outline of a U groove -/
theorem chainU {w t β R c : ℝ} (hw : 0 < w) (hR : 0 < R) (h0 : 0 ≤ β) (h1 : β < π / 2) (ht : c + R - R * sin β < t) :
    Chain (kindsU c) (pointsU w t β R c) ∧
      0 < widen w (max (R * cos β + tan β * (t - (c + R - R * sin β))) 0) := by
  have hcos : 0 < cos β := cos_pos_of_mem_Ioo ⟨by linarith, h1⟩
  have hs : 0 ≤ tan β * (t - (c + R - R * sin β)) :=
    mul_nonneg (tan_nonneg_of_nonneg_of_le_pi_div_two h0 h1.le) (by linarith)
  have hx : 0 < R * cos β := mul_pos hR hcos
  have hedge : 0 ≤ max (R * cos β + tan β * (t - (c + R - R * sin β))) 0 := le_max_right _ _
  have hwid := widen_gt hw hedge
  have hgt : R * cos β + tan β * (t - (c + R - R * sin β)) <
      widen w (max (R * cos β + tan β * (t - (c + R - R * sin β))) 0) := (le_max_left _ _).trans_lt hwid
  have hpos := hedge.trans_lt hwid
  refine ⟨?_, hpos⟩
  unfold kindsU pointsU
  simp only
  set W := widen w (max (R * cos β + tan β * (t - (c + R - R * sin β))) 0)
  have tail : Chain [.line, .line] [![-(R * cos β), c + R - R * sin β],
      ![-(R * cos β) - tan β * (t - (c + R - R * sin β)), t], ![-W, t]] :=
    .line (ne_of_1 (by simpa using ht.ne)) (.line (ne_of_0 (by simp; linarith)) .nil)
  unfold rootKind rootFace
  split
  · rename_i hc
    exact .line (ne_of_0 (by simpa using hpos.ne')) (.line (ne_of_1 (by simpa using Ne.symm hc)) (.arc (arcU hR h0 h1) tail))
  · rename_i hc
    have hc0 : c = 0 := by simpa using hc
    rw [hc0] at tail ⊢
    exact .line (ne_of_0 (by simpa using hpos.ne')) (.arc (arcU (c := 0) hR h0 h1) tail)

/-- **C52** (U groove): with positive radius, bevel angle below 90 degrees and a groove face inside the workpiece the profile can be made,
and its area can be computed. -/
theorem C52_U {t β R c b : ℝ} (hR : 0 < R) (h0 : 0 ≤ β) (h1 : β < π / 2) (ht : c + R - R * sin β < t) :
    ∃ a, crossSectArea (.U t β R c b) = .ok a := by
  obtain ⟨l, r, e, hl, hr, nl, nr⟩ := (chainU (w := 3) (by norm_num) hR h0 h1 ht).1.symmetric (by simp [kindsU]) b
  simp only [crossSectArea, profileU, e]
  exact areaInterpolated_ok hl hr nl nr

/-- **C52** (HU groove): the same for the half groove. -/
theorem C52_HU {t β R c b : ℝ} (hR : 0 < R) (h0 : 0 ≤ β) (h1 : β < π / 2) (ht : c + R - R * sin β < t) (ht0 : 0 < t) :
    ∃ a, crossSectArea (.HU t β R c b) = .ok a := by
  obtain ⟨hc, hw⟩ := chainU (w := 5) (by norm_num) hR h0 h1 ht
  obtain ⟨l, r, e, hl, hr, nl, nr⟩ := hc.half (by simp [kindsU]) (b := b) hw ht0
  simp only [crossSectArea, profileHU, e]
  exact areaInterpolated_ok hl hr nl nr

/-- a U groove of 15 mm with a bevel angle of 30 degrees -/
example : ∃ a, crossSectArea (.U 15 (π / 6) 6 3 1) = .ok a := by
  refine C52_U (by norm_num) (by positivity) (by have := pi_pos; linarith) ?_
  rw [sin_pi_div_six]; norm_num

/-- **C52** (arc of the U groove): the arc starts at the root face, ends at the groove face, has the bevel radius, spans 90 degrees minus the
bevel angle, and the groove face is tangent to it. -/
theorem C52_U_arc {t β R c : ℝ} (hR : 0 < R) (h0 : 0 ≤ β) (h1 : β < π / 2) :
    ∃ x, mkArc ![0, c] ![-(R * cos β), c + R - R * sin β] ![0, c + R] false = .ok x ∧
      x.point 0 = ![0, c] ∧ x.point x.maxCoord = ![-(R * cos β), c + R - R * sin β] ∧
      (∀ s, len (x.point s - ![0, c + R]) = R) ∧ x.maxCoord = π / 2 - β ∧
      dot (![-(R * cos β), c + R - R * sin β] - ![0, c + R])
        (![-(R * cos β) - tan β * (t - (c + R - R * sin β)), t] - ![-(R * cos β), c + R - R * sin β]) = 0 := by
  have ha := arcU (c := c) hR h0 h1
  have hcos : 0 < cos β := cos_pos_of_mem_Ioo ⟨by linarith, h1⟩
  obtain ⟨x, hx⟩ := (C51_accepted (ps := ![0, c]) (pe := ![-(R * cos β), c + R - R * sin β]) (pc := ![0, c + R]) (ccw := false)).2
    ⟨ha.start, ha.stop, ha.direction, by rw [ha.radius, sub_self, abs_zero]; norm_num⟩
  have hrad : len ((![0, c] : Geo.V) - ![0, c + R]) = R := by
    have : (![0, c] : Geo.V) - ![0, c + R] = ![0, -R] := by
      funext i; fin_cases i <;> simp
    rw [this, len_pair hR.le (by ring)]
  obtain ⟨w1, -, -, w4⟩ := C51_winding hx
  refine ⟨x, hx, (C51_radius hx).1, (C51_end hx).2.2 ha.radius, fun s => by rw [(C51_radius hx).2 s, hrad], ?_, ?_⟩
  · refine (w4 (π / 2 - β) (by linarith) (by have := pi_pos; linarith) ⟨1, one_pos, ?_⟩).symm
    rw [w1]
    funext i; fin_cases i
    · simp [rot, sin_sub, cos_sub]; ring
    · simp [rot, sin_sub, cos_sub]; ring
  · simp [dot, tan_eq_sin_div_cos]
    field_simp
    ring

/-- **C52** (arc of the UV groove): the arc starts where the lower face ends, if the radius is not smaller than the width of the lower
groove there. -/
theorem C52_UV {t α β R h b : ℝ} (hh : 0 < h) (hR : 0 < R) (ha0 : 0 ≤ α) (hap : α < π) (h0 : 0 ≤ β) (h1 : β < π / 2)
    (hx : tan (α / 2) * h ≤ R) (hne : tan (α / 2) * h ≠ R * cos β)
    (ht : h + √(R ^ 2 - (tan (α / 2) * h) ^ 2) - R * sin β < t) :
    ∃ a, crossSectArea (.UV t α β R h b) = .ok a := by
  have hx0 : 0 ≤ tan (α / 2) * h := mul_nonneg (tan_half_nonneg ha0 hap) hh.le
  have hcos : 0 < cos β := cos_pos_of_mem_Ioo ⟨by linarith, h1⟩
  set x1 := tan (α / 2) * h with hx1
  have hsq : 0 ≤ R ^ 2 - x1 ^ 2 := by nlinarith
  set y := √(R ^ 2 - x1 ^ 2) with hy
  have hyy : y ^ 2 = R ^ 2 - x1 ^ 2 := sq_sqrt hsq
  have hs : 0 ≤ (t - (h + y - R * sin β)) * tan β :=
    mul_nonneg (by linarith) (tan_nonneg_of_nonneg_of_le_pi_div_two h0 h1.le)
  have hxp : 0 < R * cos β := mul_pos hR hcos
  have hedge : 0 ≤ max (-(-(R * cos β) - (t - (h + y - R * sin β)) * tan β)) 0 := le_max_right _ _
  have hwid := widen_gt (w := 2) (by norm_num) hedge
  have hgt : -(-(R * cos β) - (t - (h + y - R * sin β)) * tan β) <
      widen 2 (max (-(-(R * cos β) - (t - (h + y - R * sin β)) * tan β)) 0) := (le_max_left _ _).trans_lt hwid
  have hpos := hedge.trans_lt hwid
  have harc : ArcOk ![-x1, h] ![-(R * cos β), h + y - R * sin β] ![0, h + y] := by
    have e1 : (![-x1, h] : Geo.V) - ![0, h + y] = ![-x1, -y] := by
      funext i; fin_cases i <;> simp
    have e2 : (![-(R * cos β), h + y - R * sin β] : Geo.V) - ![0, h + y] = ![-(R * cos β), -(R * sin β)] := by
      funext i; fin_cases i <;> simp
    have l1 : len ![-x1, -y] = R := len_pair hR.le (by rw [neg_sq, neg_sq, hyy]; ring)
    have l2 : len ![-(R * cos β), -(R * sin β)] = R := len_pair hR.le (by have := sq_radius R β; linarith)
    refine ⟨?_, ne_of_0 (by simpa using ⟨hR.ne', hcos.ne'⟩), ?_, by rw [e1, e2, l1, l2]⟩
    · intro e
      have : (![-x1, h] : Geo.V) - ![0, h + y] = 0 := sub_eq_zero.2 e
      rw [e1] at this
      rw [this, len_eq_zero.2 rfl] at l1
      exact hR.ne l1
    · rintro ⟨k, hk, e⟩
      rw [e1, e2] at e
      have hl : len ![-(R * cos β), -(R * sin β)] = |k| * len ![-x1, -y] := by rw [e, len_smul]
      rw [l1, l2, abs_of_pos hk] at hl
      have hk1 : k = 1 := by
        have : (k - 1) * R = 0 := by linarith
        rcases mul_eq_zero.1 this with h | h
        · linarith
        · exact absurd h hR.ne'
      have := congrFun e 0
      rw [hk1] at this
      simp at this
      exact hne this.symm
  have chain : Chain [.line, .line, .arc, .line, .line]
      [![-widen 2 (max (-(-(R * cos β) - (t - (h + y - R * sin β)) * tan β)) 0), 0], ![0, 0], ![-x1, h], ![0, h + y],
        ![-(R * cos β), h + y - R * sin β], ![-(R * cos β) - (t - (h + y - R * sin β)) * tan β, t],
        ![-widen 2 (max (-(-(R * cos β) - (t - (h + y - R * sin β)) * tan β)) 0), t]] :=
    .line (ne_of_0 (by simpa using hpos.ne')) (.line (ne_of_1 (by simpa using hh.ne)) (.arc harc
      (.line (ne_of_1 (by simpa using ht.ne)) (.line (ne_of_0 (by
        simp only [Matrix.cons_val_zero]
        intro e; linarith)) .nil))))
  obtain ⟨l, r, e, hl, hr, nl, nr⟩ := chain.symmetric (by simp) b
  simp only [crossSectArea, profileUV]
  rw [e]
  exact areaInterpolated_ok hl hr nl nr

/-! ### double U grooves -/

/-- **C52** (double U groove): with a root face and different heights the arcs do not fit: the profile cannot be made. The code puts the end
of the root face at the height `h1 + c` but starts it at `h2`. -/
theorem C52_DU_counterexample {t β1 β2 R R2 c h1 h2 b : ℝ} (hR : 0 < R) (hc : c ≠ 0)
    (ht : h1 + c + h2 = t) (hd : 1 / 100000000 < |h1 - h2|) (hd2 : 1 / 100000000 < |h1 - h2 - 2 * R|) :
    ∃ e, crossSectArea (.DU t β1 β2 R R2 c (some h1) (some h2) b) = .error e := by
  suffices h : ∃ e, helper (kindsDU c) (pointsDU 5 t β1 β2 R R2 c h1 h2) = .error e by
    obtain ⟨e, h⟩ := h
    refine ⟨e, ?_⟩
    simp only [crossSectArea, profileDU, translateReflect, shapeOf, h, areaInterpolated]
  have harc : ∀ x, mkArc ![0, h1 + c] ![-(R * cos β1), t - (h1 - (R - R * sin β1))] ![0, h2 + c + R] false ≠ .ok x := by
    intro x hx
    have := (C51_end hx).1
    have e1 : (![0, h1 + c] : Geo.V) - ![0, h2 + c + R] = ![0, h1 - h2 - R] := by
      funext i; fin_cases i
      · simp
      · simp; ring
    have e2 : (![-(R * cos β1), t - (h1 - (R - R * sin β1))] : Geo.V) - ![0, h2 + c + R] = ![-(R * cos β1), -(R * sin β1)] := by
      funext i; fin_cases i
      · simp
      · simp; rw [← ht]; ring
    rw [e1, e2, len_pair (R := R) hR.le (by have := sq_radius R β1; linarith),
      len_pair (R := |h1 - h2 - R|) (abs_nonneg _) (by rw [sq_abs]; ring)] at this
    rcases abs_cases (h1 - h2 - R) with ⟨e, h⟩ | ⟨e, h⟩
    · rw [e, show R - (h1 - h2 - R) = -(h1 - h2 - 2 * R) by ring, abs_neg] at this
      linarith
    · rw [e, show R - -(h1 - h2 - R) = h1 - h2 by ring] at this
      linarith
  have hfail : ∀ ks r, ∃ e, helper (.arc :: ks) (![0, h1 + c] :: ![0, h2 + c + R] :: ![-(R * cos β1), t - (h1 - (R - R * sin β1))] :: r) =
      .error e := by
    intro ks r
    rw [helper]
    cases hm : mkArc ![0, h1 + c] ![-(R * cos β1), t - (h1 - (R - R * sin β1))] ![0, h2 + c + R] false with
    | error e => exact ⟨e, rfl⟩
    | ok x => exact absurd hm (harc x)
  have hline : ∀ p q ks r, (∃ e, helper ks (q :: r) = .error e) → ∃ e, helper (.line :: ks) (p :: q :: r) = .error e := by
    rintro p q ks r ⟨e, h⟩
    rw [helper]
    cases mkLine p q with
    | error e => exact ⟨e, rfl⟩
    | ok s => simp only; rw [h]; exact ⟨e, rfl⟩
  have harc' : ∀ p z q ks r, (∃ e, helper ks (q :: r) = .error e) → ∃ e, helper (.arc :: ks) (p :: z :: q :: r) = .error e := by
    rintro p z q ks r ⟨e, h⟩
    rw [helper]
    cases mkArc p q z false with
    | error e => exact ⟨e, rfl⟩
    | ok s => simp only; rw [h]; exact ⟨e, rfl⟩
  unfold kindsDU pointsDU rootKind rootFace
  simp only [if_pos hc]
  exact hline _ _ _ _ (hline _ _ _ _ (harc' _ _ _ _ _ (hline _ _ _ _ (hfail _ _))))

/-- the example of the documentation, with different heights -/
example : ∃ e, crossSectArea (.DU 33 (π / 18) (π / 18) 6 6 3 (some 16) (some 14) 2) = .error e := by
  refine C52_DU_counterexample (by norm_num) (by norm_num) (by norm_num) ?_ ?_ <;>
    · rw [lt_abs]; norm_num

/-- **C52** (double U groove, equal heights): if both heights are the same, or there is no root face, the profile can be made. -/
theorem C52_DU {t β1 β2 R R2 c h1 h2 b : ℝ} (hR : 0 < R) (hR2 : 0 < R2) (ha0 : 0 ≤ β1) (ha1 : β1 < π / 2) (hb0 : 0 ≤ β2) (hb1 : β2 < π / 2)
    (ht : h1 + c + h2 = t) (hh : c = 0 ∨ h1 = h2) (hr1 : R - R * sin β1 < h1) (hr2 : R2 - R2 * sin β2 < h2) :
    ∃ a, crossSectArea (.DU t β1 β2 R R2 c (some h1) (some h2) b) = .ok a := by
  have hcos1 : 0 < cos β1 := cos_pos_of_mem_Ioo ⟨by linarith, ha1⟩
  have hcos2 : 0 < cos β2 := cos_pos_of_mem_Ioo ⟨by linarith, hb1⟩
  have hsu : 0 ≤ tan β1 * (h1 - (R - R * sin β1)) := mul_nonneg (tan_nonneg_of_nonneg_of_le_pi_div_two ha0 ha1.le) (by linarith)
  have hsl : 0 ≤ tan β2 * (h2 - (R2 - R2 * sin β2)) := mul_nonneg (tan_nonneg_of_nonneg_of_le_pi_div_two hb0 hb1.le) (by linarith)
  have hx1 : 0 < R * cos β1 := mul_pos hR hcos1
  have hx2 : 0 < R2 * cos β2 := mul_pos hR2 hcos2
  have low : ArcOk ![-(R2 * cos β2), h2 - (R2 - R2 * sin β2)] ![0, h2] ![0, h2 - R2] := by
    have e1 : (![-(R2 * cos β2), h2 - (R2 - R2 * sin β2)] : Geo.V) - ![0, h2 - R2] = ![-(R2 * cos β2), R2 * sin β2] := by
      funext i; fin_cases i
      · simp
      · simp
    have e2 : (![0, h2] : Geo.V) - ![0, h2 - R2] = ![0, R2] := by
      funext i; fin_cases i <;> simp
    refine ⟨ne_of_0 (by simpa using ⟨hR2.ne', hcos2.ne'⟩), ne_of_1 (by simp only [Matrix.cons_val_one, Matrix.cons_val_zero]; intro e; linarith), ?_, ?_⟩
    · rintro ⟨k, hk, e⟩
      rw [e1, e2] at e
      have := congrFun e 0
      simp at this
      rcases this with h | h | h
      · exact hk.ne' h
      · exact hR2.ne' h
      · exact hcos2.ne' h
    · rw [e1, e2, len_pair hR2.le (by ring), len_pair hR2.le (by have := sq_radius R2 β2; linarith)]
  have up : ArcOk ![0, h2 + c] ![-(R * cos β1), t - (h1 - (R - R * sin β1))] ![0, h2 + c + R] := by
    have := arcU (c := h2 + c) hR ha0 ha1
    rwa [show t - (h1 - (R - R * sin β1)) = h2 + c + R - R * sin β1 by rw [← ht]; ring]
  simp only [crossSectArea, profileDU]
  suffices h : Chain (kindsDU c) (pointsDU 5 t β1 β2 R R2 c h1 h2) by
    obtain ⟨l, r, e, hl, hr, nl, nr⟩ := h.symmetric (by simp [kindsDU]) b
    rw [e]
    exact areaInterpolated_ok hl hr nl nr
  unfold kindsDU pointsDU
  simp only
  have hedge : 0 ≤ max (max (R * cos β1 + tan β1 * (h1 - (R - R * sin β1))) (R2 * cos β2 + tan β2 * (h2 - (R2 - R2 * sin β2)))) 0 :=
    le_max_right _ _
  have hwid := widen_gt (w := 5) (by norm_num) hedge
  have hw1 : R * cos β1 + tan β1 * (h1 - (R - R * sin β1)) < widen 5 (max (max (R * cos β1 + tan β1 * (h1 - (R - R * sin β1)))
      (R2 * cos β2 + tan β2 * (h2 - (R2 - R2 * sin β2)))) 0) := ((le_max_left _ _).trans (le_max_left _ _)).trans_lt hwid
  have hw2 : R2 * cos β2 + tan β2 * (h2 - (R2 - R2 * sin β2)) < widen 5 (max (max (R * cos β1 + tan β1 * (h1 - (R - R * sin β1)))
      (R2 * cos β2 + tan β2 * (h2 - (R2 - R2 * sin β2)))) 0) := ((le_max_right _ _).trans (le_max_left _ _)).trans_lt hwid
  set W := widen 5 (max (max (R * cos β1 + tan β1 * (h1 - (R - R * sin β1))) (R2 * cos β2 + tan β2 * (h2 - (R2 - R2 * sin β2)))) 0)
  have tail : Chain [.line, .line] [![-(R * cos β1), t - (h1 - (R - R * sin β1))],
      ![-(tan β1 * (h1 - (R - R * sin β1)) + R * cos β1), t], ![-W, t]] :=
    .line (ne_of_1 (by simp only [Matrix.cons_val_one, Matrix.cons_val_zero]; intro e; linarith)) (.line (ne_of_0 (by
      simp only [Matrix.cons_val_zero]; intro e; linarith)) .nil)
  have n1 : (![-W, 0] : Geo.V) ≠ ![-(tan β2 * (h2 - (R2 - R2 * sin β2)) + R2 * cos β2), 0] :=
    ne_of_0 (by simp only [Matrix.cons_val_zero]; intro e; linarith)
  have n2 : (![-(tan β2 * (h2 - (R2 - R2 * sin β2)) + R2 * cos β2), 0] : Geo.V) ≠ ![-(R2 * cos β2), h2 - (R2 - R2 * sin β2)] :=
    ne_of_1 (by simp only [Matrix.cons_val_one, Matrix.cons_val_zero]; intro e; linarith)
  unfold rootKind rootFace
  split
  · rename_i hc
    have he : h1 = h2 := hh.resolve_left hc
    have hup : ArcOk ![0, h1 + c] ![-(R * cos β1), t - (h1 - (R - R * sin β1))] ![0, h2 + c + R] := by
      have h := up
      rw [he] at h ⊢
      exact h
    exact .line n1 (.line n2 (.arc low (.line (ne_of_1 (by rw [he]; simpa using hc)) (.arc hup tail))))
  · rename_i hc
    have hc0 : c = 0 := by simpa using hc
    have hup : ArcOk ![0, h2] ![-(R * cos β1), t - (h1 - (R - R * sin β1))] ![0, h2 + c + R] := by
      have h := up
      rw [hc0, add_zero] at h
      rw [hc0, add_zero]
      exact h
    exact .line n1 (.line n2 (.arc low (.arc hup tail)))

example : ∃ a, crossSectArea (.DU 33 (π / 6) (π / 6) 6 6 3 (some 15) (some 15) 2) = .ok a := by
  refine C52_DU (by norm_num) (by norm_num) (by positivity) (by have := pi_pos; linarith) (by positivity)
    (by have := pi_pos; linarith) (by norm_num) (.inr rfl) ?_ ?_ <;> rw [sin_pi_div_six] <;> norm_num

end Weldx.Groove
