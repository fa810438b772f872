import Verif.Groove.GrooveFloatLimits

/-!
# The other grooves with rounding (C111)
-/

namespace Weldx.Groove

open Weldx.Geo Matrix Weldx.Binary64Real

/-- the straight workpiece without rounding -/
noncomputable def straightPoints (w b t : ℝ) : List Geo.V :=
  [![-w - b / 2, 0], ![-b / 2, 0], ![-b / 2, t], ![-w - b / 2, t]]

theorem moderate_of {x y : ℝ} (h1 : -40000 ≤ x) (h2 : x ≤ 40000) (h3 : -40000 ≤ y) (h4 : y ≤ 40000) : Moderate ![x, y] := by
  intro i
  fin_cases i
  · show |x| ≤ _; rw [abs_le]; norm_num; exact ⟨h1, h2⟩
  · show |y| ≤ _; rw [abs_le]; norm_num; exact ⟨h3, h4⟩

section
variable {L : Lib} (hfl : Rounds L.fl) (hacos : Arccosine L.acos) (htrig : Trigonometric L.cosine L.sine)
variable {tangent : ℝ → ℝ} (htan : Tangent tangent)

include hfl hacos htrig in
/-- **C111 (straight workpiece).** -/
theorem straightF_ok {w b t : ℝ} (hw : 1 / 4 ≤ w ∧ w ≤ 32000) (hb : 0 ≤ b ∧ b ≤ 10 ^ 4) (ht : 1 / 10 ^ 5 ≤ t ∧ t ≤ 2000) :
    ∃ h, straightF L w b t = .ok h ∧ Drawn 0 [.line, .line, .line] (straightPoints w b t) h := by
  have hr := rounds_rounding hfl
  obtain ⟨hb0, hb1⟩ := hb
  obtain ⟨ht0, ht1⟩ := ht
  norm_num at hb1 ht0
  have h1 := abs_le.1 (fl_abs hr (x := b / 2) (B := 5000) (by rw [abs_le]; constructor <;> linarith))
  have h2 := abs_le.1 (fl_abs hr (x := -b / 2) (B := 5000) (by rw [abs_le]; constructor <;> linarith))
  norm_num at h1
  have h3 := abs_le.1 (fl_abs hr (x := -w - L.fl (b / 2)) (B := 40000) (by rw [abs_le]; constructor <;> linarith))
  unfold straightF
  simp only
  set v := L.fl (b / 2) with hv
  set x := L.fl (-w - v) with hx
  set z := L.fl (-b / 2) with hz
  norm_num at h2 h3
  have hchain : ClearChain [.line, .line, .line] [![x, 0], ![z, 0], ![z, t], ![x, t]] := by
    refine ⟨⟨moderate_of ?_ ?_ ?_ ?_, moderate_of ?_ ?_ ?_ ?_, 0, ?_⟩, ⟨moderate_of ?_ ?_ ?_ ?_, moderate_of ?_ ?_ ?_ ?_, 1, ?_⟩,
      ⟨moderate_of ?_ ?_ ?_ ?_, moderate_of ?_ ?_ ?_ ?_, 0, ?_⟩, trivial⟩
    case refine_9 => show _ ≤ |z - x|; rw [abs_of_nonneg (by linarith)]; norm_num; linarith
    case refine_18 => show _ ≤ |t - 0|; rw [sub_zero, abs_of_nonneg (by linarith)]; norm_num; linarith
    case refine_27 => show _ ≤ |x - z|; rw [abs_of_nonpos (by linarith)]; norm_num; linarith
    all_goals linarith
  obtain ⟨l, e1, e2, e3, -⟩ := chain_placed hfl hacos (b := 0) le_rfl (by norm_num) hchain
  have hl : helperF L [.line, .line, .line] [![x, 0], ![z, 0], ![z, t], ![x, t]] =
      .ok [.line ![x, 0] ![z, 0], .line ![z, 0] ![z, t], .line ![z, t] ![x, t]] := by
    have hl1 : mkLineF L ![x, 0] ![z, 0] = .ok (.line ![x, 0] ![z, 0]) :=
      mkLineF_ok hfl (i := 0) (show x ≠ z by intro e; linarith)
    have hl2 : mkLineF L ![z, 0] ![z, t] = .ok (.line ![z, 0] ![z, t]) :=
      mkLineF_ok hfl (i := 1) (show (0 : ℝ) ≠ t by intro e; linarith)
    have hl3 : mkLineF L ![z, t] ![x, t] = .ok (.line ![z, t] ![x, t]) :=
      mkLineF_ok hfl (i := 0) (show z ≠ x by intro e; linarith)
    simp only [helperF, hl1, hl2, hl3]
  rw [hl] at e1
  have e1' := Except.ok.inj e1
  refine ⟨l, ?_, ?_⟩
  · unfold shapeF
    rw [hl]
    show L.mkShape _ = _
    rw [e1', C110_shape_partial hfl hacos htrig e2 e3]
  · rw [← e1']
    have q1 : At 0 ![-w - b / 2, 0] ![x, 0] := by
      refine ⟨?_, by simp⟩
      show |x - (-w - b / 2 - 0 / 2)| ≤ _
      rw [abs_le]; norm_num; constructor <;> linarith
    have q2 : At 0 ![-b / 2, 0] ![z, 0] := by
      refine ⟨?_, by simp⟩
      show |z - (-b / 2 - 0 / 2)| ≤ _
      rw [abs_le]; norm_num; constructor <;> linarith
    have q3 : At 0 ![-b / 2, t] ![z, t] := ⟨q2.1, by simp⟩
    have q4 : At 0 ![-w - b / 2, t] ![x, t] := ⟨q1.1, by simp⟩
    exact ⟨q1, q2, q2, q3, q3, q4, trivial⟩

include hfl hacos htrig in
/-- **C111 (half grooves).** Lines and arcs that are not too small become the right shape, a mirror image, of a profile whose left shape is
straight. -/
theorem C111_half_partial {ks : List Kind} {ps : List Geo.V} {w t b : ℝ} (h : ClearChain ks ps) (hb : 0 ≤ b ∧ b ≤ 10 ^ 4)
    (hw : 1 / 4 ≤ w ∧ w ≤ 32000) (ht : 1 / 10 ^ 5 ≤ t ∧ t ≤ 1000) :
    ∃ s l, halfProfileF L w b t ks ps = .ok [s, l.map mirrorS] ∧ Drawn b ks ps l ∧
      Drawn 0 [.line, .line, .line] (straightPoints w b t) s := by
  obtain ⟨l, e1, e2, e3, -, e5, e6⟩ := chain_placed hfl hacos hb.1 hb.2 h
  obtain ⟨s, hs, hd⟩ := straightF_ok hfl hacos htrig hw hb ⟨ht.1, by linarith [ht.2]⟩
  refine ⟨s, l.map (translateF L ![L.fl (-b / 2), 0]), ?_, e6, hd⟩
  unfold halfProfileF shapeF
  rw [e1]
  simp only [C110_shape_partial hfl hacos htrig e2 e3, e5, hs]

include hfl hacos htrig in
/-- **C111 (I groove).** -/
theorem C111_I_partial {w t b : ℝ} (hw : 1 / 4 ≤ w ∧ w ≤ 32000) (ht : 1 / 10 ^ 5 ≤ t ∧ t ≤ 1000) (hb : 0 ≤ b ∧ b ≤ 10 ^ 4) :
    ∃ l, profileIF L w t b = .ok [l, l.map mirrorS] ∧
      Drawn b [.line, .line, .line] [![-w, 0], ![0, 0], ![0, t], ![-w, t]] l := by
  obtain ⟨ht0, ht1⟩ := ht
  norm_num at ht0
  refine C111_chain_partial hfl hacos htrig ?_ hb.1 hb.2
  refine ⟨⟨moderate_of ?_ ?_ ?_ ?_, moderate_of ?_ ?_ ?_ ?_, 0, ?_⟩, ⟨moderate_of ?_ ?_ ?_ ?_, moderate_of ?_ ?_ ?_ ?_, 1, ?_⟩,
    ⟨moderate_of ?_ ?_ ?_ ?_, moderate_of ?_ ?_ ?_ ?_, 0, ?_⟩, trivial⟩
  case refine_9 => show _ ≤ |0 - -w|; rw [abs_of_nonneg (by linarith)]; norm_num; linarith
  case refine_18 => show _ ≤ |t - 0|; rw [sub_zero, abs_of_nonneg (by linarith)]; norm_num; linarith
  case refine_27 => show _ ≤ |-w - 0|; rw [abs_of_nonpos (by linarith)]; norm_num; linarith
  all_goals linarith

/-- dimensions of a V groove whose groove face has the angle `β` -/
structure DimV (w t β c b : ℝ) : Prop where
  width : 2 ≤ w ∧ w ≤ 1000
  face : c = 0 ∨ 1 / 10 ^ 5 ≤ c
  angle : 0 ≤ β ∧ β < Real.pi / 2
  cos : 1 / 10 ≤ Real.cos β
  thickness : t ≤ 1000
  height : c + 1 / 10 ^ 5 ≤ t
  gap : 0 ≤ b ∧ b ≤ 10 ^ 4

/-- the root face, if any, in front of a chain -/
theorem root_chain {c y : ℝ} {ks : List Kind} {ps : List Geo.V} {p : Geo.V} (hc : c = 0 ∨ 1 / 10 ^ 6 ≤ |y - p 1|) (hp : Moderate p)
    (hy : |y| ≤ 40000) (h : c = 0 → ClearChain ks (p :: ps)) (h' : c ≠ 0 → ClearChain ks (![0, y] :: ps)) :
    ClearChain (rootKind c ++ ks) (p :: (rootFace c ![0, y] ++ ps)) := by
  unfold rootKind rootFace
  by_cases h0 : c = 0
  · simp only [h0, ne_eq, not_true_eq_false, if_false, List.nil_append]
    exact h h0
  · simp only [ne_eq, h0, not_false_eq_true, if_true]
    have hy' := abs_le.1 hy
    exact ⟨⟨hp, moderate_of (by norm_num) (by norm_num) hy'.1 hy'.2, 1, hc.resolve_left h0⟩, h' h0⟩

include hfl htan in
/-- the points of a V groove -/
theorem chainVF {w t β c b : ℝ} (h : DimV w t β c b) :
    ∃ width x, pointsVF L tangent w t β c = [![-width, 0], ![0, 0]] ++ rootFace c ![0, c] ++ [![x, t], ![-width, t]] ∧
      ClearChain (kindsV c) (pointsVF L tangent w t β c) ∧
      width = widenF L w (max (L.fl (tangent β * L.fl (t - c))) 0) ∧ 1 / 2 ≤ width ∧ width ≤ 32000 ∧
      |x - -(Real.tan β * (t - c))| ≤ 1 / 10 ^ 8 ∧ 1 / 4 ≤ width + x ∧ Widened w (Real.tan β * (t - c)) width := by
  obtain ⟨hw, hc, hβ, hcos, ht, hh, -⟩ := h
  have hc0 : 0 ≤ c := by rcases hc with h | h; · exact h.ge
                         · exact le_trans (by norm_num) h
  obtain ⟨t0, t1, -⟩ := tangent_close htan hβ hcos
  norm_num at hh
  have ks := abs_le.1 (offset_close hfl htan hβ hcos (z := t - c) (z' := t - c) (by linarith) (by linarith)
    (by rw [sub_self, abs_zero]; norm_num))
  have hS0 : 0 ≤ Real.tan β * (t - c) := mul_nonneg t0 (by linarith)
  have hS1 : Real.tan β * (t - c) ≤ 10 * 1000 := mul_le_mul t1 (by linarith) (by linarith) (by norm_num)
  unfold pointsVF
  simp only
  set S := Real.tan β * (t - c) with hSd
  set s := L.fl (tangent β * L.fl (t - c)) with hs
  norm_num at ks
  set edge := max s 0 with hedge
  have he0 : 0 ≤ edge := le_max_right _ _
  have he1 : edge ≤ 3 * 10 ^ 4 := max_le (by norm_num; linarith) (by norm_num)
  have he2 : s ≤ edge := le_max_left _ _
  obtain ⟨hw1, hw2⟩ := widenF_close hfl hw he0 he1
  set W := widenF L w edge with hW
  refine ⟨W, -s, rfl, ?_, rfl, by linarith, hw2, ?_, by linarith, widenF_spec hfl hw he0 he1 (max_close ?_ hS0)⟩
  · have hlast : ClearChain [.line] [![-s, t], ![-W, t]] := by
      refine ⟨⟨moderate_of ?_ ?_ ?_ ?_, moderate_of ?_ ?_ ?_ ?_, 0, ?_⟩, trivial⟩
      case refine_9 => show _ ≤ |-W - -s|; rw [abs_of_nonpos (by linarith)]; norm_num; linarith
      all_goals linarith
    have hfst : Moderate ![-W, 0] := moderate_of (by linarith) (by linarith) (by linarith) (by linarith)
    have hzero : Moderate ![0, 0] := moderate_of (by norm_num) (by norm_num) (by norm_num) (by norm_num)
    have hsm : Moderate ![-s, t] := moderate_of (by linarith) (by linarith) (by linarith) (by linarith)
    refine ⟨⟨hfst, hzero, 0, ?_⟩, ?_⟩
    · show _ ≤ |0 - -W|; rw [abs_of_nonneg (by linarith)]; norm_num; linarith
    · refine root_chain (ks := [.line, .line]) (ps := [![-s, t], ![-W, t]]) ?_ hzero (by rw [abs_le]; constructor <;> linarith) ?_ ?_
      · rcases hc with h | h
        · exact Or.inl h
        · right
          show _ ≤ |c - 0|
          rw [sub_zero, abs_of_nonneg hc0]
          norm_num at h ⊢; linarith
      · intro h0
        refine ⟨⟨hzero, hsm, 1, ?_⟩, hlast⟩
        show _ ≤ |t - 0|; rw [sub_zero, abs_of_nonneg (by linarith)]; norm_num; linarith
      · intro h0
        refine ⟨⟨moderate_of (by norm_num) (by norm_num) (by linarith) (by linarith), hsm, 1, ?_⟩, hlast⟩
        show _ ≤ |t - c|; rw [abs_of_nonneg (by linarith)]; norm_num; linarith
  · rw [abs_le]; norm_num; constructor <;> linarith
  · rw [abs_le]; norm_num; constructor <;> linarith

include hfl hacos htrig htan in
/-- **C111 (V groove).** -/
theorem C111_V_partial {w t α c b : ℝ} (h : DimV w t (α / 2) c b) :
    ∃ l, profileVF L tangent w t α c b = .ok [l, l.map mirrorS] ∧
      ∃ width x, Drawn b (kindsV c) ([![-width, 0], ![0, 0]] ++ rootFace c ![0, c] ++ [![x, t], ![-width, t]]) l ∧
        |x - -(Real.tan (α / 2) * (t - c))| ≤ 1 / 10 ^ 8 ∧ 1 / 4 ≤ width + x ∧ Widened w (Real.tan (α / 2) * (t - c)) width := by
  obtain ⟨width, x, hp, hc, -, -, -, hrest⟩ := chainVF hfl htan h
  obtain ⟨l, hl, hd⟩ := C111_chain_partial hfl hacos htrig hc h.gap.1 h.gap.2
  exact ⟨l, hl, width, x, hp ▸ hd, hrest⟩

include hfl hacos htrig htan in
/-- **C111 (HV groove).** -/
theorem C111_HV_partial {w t β c b : ℝ} (h : DimV w t β c b) :
    ∃ s l width x, profileHVF L tangent w t β c b = .ok [s, l.map mirrorS] ∧
      Drawn b (kindsV c) ([![-width, 0], ![0, 0]] ++ rootFace c ![0, c] ++ [![x, t], ![-width, t]]) l ∧
      Drawn 0 [.line, .line, .line] (straightPoints width b t) s ∧
      |x - -(Real.tan β * (t - c))| ≤ 1 / 10 ^ 8 ∧ 1 / 4 ≤ width + x ∧ Widened w (Real.tan β * (t - c)) width := by
  obtain ⟨width, x, hp, hc, e, hw0, hw1, hrest⟩ := chainVF hfl htan h
  have hh := h.height
  have hc0 : 0 ≤ c := by rcases h.face with h | h; · exact h.ge
                         · exact le_trans (by norm_num) h
  obtain ⟨s, l, hl, hd, hs⟩ := C111_half_partial hfl hacos htrig hc h.gap (w := width) (t := t) ⟨by linarith, hw1⟩
    ⟨by linarith, h.thickness⟩
  refine ⟨s, l, width, x, ?_, hp ▸ hd, hs, hrest⟩
  rw [e] at hl
  exact hl

include hfl hacos htrig htan in
/-- **C111 (HU groove).** -/
theorem C111_HU_partial {w t β R c b : ℝ} (h : DimU w t β R c b) :
    ∃ s l width ym x y x', profileHUF L tangent w t β R c b = .ok [s, l.map mirrorS] ∧
      Drawn b (kindsU c)
        ([![-width, 0], ![0, 0]] ++ rootFace c ![0, c] ++ [![0, ym], ![x, y], ![x', t], ![-width, t]]) l ∧
      Drawn 0 [.line, .line, .line] (straightPoints width b t) s ∧
      |ym - (c + R)| ≤ 1 / 10 ^ 11 ∧ |x - (faceU t β R c).1.1| ≤ 1 / 10 ^ 11 ∧ |y - (faceU t β R c).1.2| ≤ 1 / 10 ^ 11 ∧
      |x' - (faceU t β R c).2.1| ≤ 1 / 10 ^ 8 ∧ 1 / 4 ≤ width + x' ∧ Widened w (-(faceU t β R c).2.1) width := by
  obtain ⟨width, ym, x, y, x', hp, hc, e, hw0, hw1, hrest⟩ := chainUF hfl htrig htan h
  have hh := h.height
  have hR := h.radius.1
  have hc0 : 0 ≤ c := by rcases h.face with h | h; · exact h.ge
                         · exact le_trans (by norm_num) h
  have hs1 : R * Real.sin β ≤ R := by nlinarith [Real.sin_le_one β]
  obtain ⟨s, l, hl, hd, hs⟩ := C111_half_partial hfl hacos htrig hc h.gap (w := width) (t := t) ⟨by linarith, hw1⟩
    ⟨by linarith, h.thickness⟩
  refine ⟨s, l, width, ym, x, y, x', ?_, hp ▸ hd, hs, hrest⟩
  rw [e] at hl
  exact hl

/-- dimensions of a VV groove; the lower groove face ends at the height `h + c` -/
structure DimVV (w t α β h c b : ℝ) : Prop where
  width : 2 ≤ w ∧ w ≤ 1000
  face : c = 0 ∨ 1 / 10 ^ 5 ≤ c
  angle1 : 0 ≤ α / 2 ∧ α / 2 < Real.pi / 2
  angle2 : 0 ≤ β ∧ β < Real.pi / 2
  cos1 : 1 / 10 ≤ Real.cos (α / 2)
  cos2 : 1 / 10 ≤ Real.cos β
  thickness : t ≤ 1000
  lower : c ≤ h
  positive : 1 / 10 ^ 5 ≤ h
  upper : h + c + 1 / 10 ^ 5 ≤ t
  gap : 0 ≤ b ∧ b ≤ 10 ^ 4

include hfl hacos htrig htan in
/-- **C111 (VV groove).** -/
theorem C111_VV_partial {w t α β h c b : ℝ} (hd : DimVV w t α β h c b) :
    ∃ l, profileVVF L tangent w t α β h c b = .ok [l, l.map mirrorS] ∧
      ∃ width x1 y1 x2, Drawn b (kindsVV c)
        ([![-width, 0], ![0, 0]] ++ rootFace c ![0, c] ++ [![x1, y1], ![x2, t], ![-width, t]]) l ∧
      |x1 - -(Real.tan (α / 2) * (h - c))| ≤ 1 / 10 ^ 8 ∧ |y1 - (h + c)| ≤ 1 / 10 ^ 11 ∧
      |x2 - (-(Real.tan (α / 2) * (h - c)) - Real.tan β * (t - h))| ≤ 1 / 10 ^ 8 ∧ 1 / 4 ≤ width + x2 ∧
      Widened w (Real.tan (α / 2) * (h - c) + Real.tan β * (t - h)) width := by
  have hr := rounds_rounding hfl
  obtain ⟨hw, hc, hα, hβ, hcosa, hcosb, ht, hl, hp, hu, hb⟩ := hd
  have hc0 : 0 ≤ c := by rcases hc with h | h; · exact h.ge
                         · exact le_trans (by norm_num) h
  obtain ⟨s0, s1, -⟩ := tangent_close htan hα hcosa
  obtain ⟨t0, t1, -⟩ := tangent_close htan hβ hcosb
  norm_num at hu hp
  have k1 := abs_le.1 (offset_close hfl htan hα hcosa (z := h - c) (z' := h - c) (by linarith) (by linarith)
    (by rw [sub_self, abs_zero]; norm_num))
  have k2 := abs_le.1 (offset_close hfl htan hβ hcosb (z := t - h) (z' := t - h) (by linarith) (by linarith)
    (by rw [sub_self, abs_zero]; norm_num))
  have hS0 : 0 ≤ Real.tan (α / 2) * (h - c) := mul_nonneg s0 (by linarith)
  have hS1 : Real.tan (α / 2) * (h - c) ≤ 10 * 1000 := mul_le_mul s1 (by linarith) (by linarith) (by norm_num)
  have hT0 : 0 ≤ Real.tan β * (t - h) := mul_nonneg t0 (by linarith)
  have hT1 : Real.tan β * (t - h) ≤ 10 * 1000 := mul_le_mul t1 (by linarith) (by linarith) (by norm_num)
  show ∃ l, translateReflectF L b (kindsVV c) (pointsVVF L tangent w t α β h c) = .ok [l, l.map mirrorS] ∧ _
  unfold pointsVVF
  simp only
  set S := Real.tan (α / 2) * (h - c) with hSd
  set T := Real.tan β * (t - h) with hTd
  set a := L.fl (tangent (α / 2) * L.fl (h - c)) with ha
  set d := L.fl (tangent β * L.fl (t - h)) with hd
  norm_num at k1 k2
  have k3 := abs_le.1 (fl_abs hr (x := a + d) (B := 30000) (by rw [abs_le]; constructor <;> linarith))
  have k4 := abs_le.1 (fl_abs hr (x := -a - d) (B := 30000) (by rw [abs_le]; constructor <;> linarith))
  have k5 := abs_le.1 (fl_abs hr (x := h + c) (B := 2000) (by rw [abs_le]; constructor <;> linarith))
  set P := L.fl (-a - d) with hP
  set y := L.fl (h + c) with hy
  norm_num at k3 k4 k5
  set edge := max (L.fl (a + d)) 0 with hedge
  have he0 : 0 ≤ edge := le_max_right _ _
  have he1 : edge ≤ 3 * 10 ^ 4 := max_le (by norm_num; linarith) (by norm_num)
  have he2 : L.fl (a + d) ≤ edge := le_max_left _ _
  obtain ⟨hw1, hw2⟩ := widenF_close hfl hw he0 he1
  set W := widenF L w edge with hW
  have hchain : ClearChain (kindsVV c) ([![-W, 0], ![0, 0]] ++ rootFace c ![0, c] ++ [![-a, y], ![P, t], ![-W, t]]) := by
    have hfst : Moderate ![-W, 0] := moderate_of (by linarith) (by linarith) (by linarith) (by linarith)
    have hzero : Moderate ![0, 0] := moderate_of (by norm_num) (by norm_num) (by norm_num) (by norm_num)
    have hmid : Moderate ![-a, y] := moderate_of (by linarith) (by linarith) (by linarith) (by linarith)
    have htop : Moderate ![P, t] := moderate_of (by linarith) (by linarith) (by linarith) (by linarith)
    have hend : Moderate ![-W, t] := moderate_of (by linarith) (by linarith) (by linarith) (by linarith)
    have hlast : ClearChain [.line, .line] [![-a, y], ![P, t], ![-W, t]] := by
      refine ⟨⟨hmid, htop, 1, ?_⟩, ⟨htop, hend, 0, ?_⟩, trivial⟩
      · show _ ≤ |t - y|; rw [abs_of_nonneg (by linarith)]; norm_num; linarith
      · show _ ≤ |-W - P|; rw [abs_of_nonpos (by linarith)]; norm_num; linarith
    refine ⟨⟨hfst, hzero, 0, ?_⟩, ?_⟩
    · show _ ≤ |0 - -W|; rw [abs_of_nonneg (by linarith)]; norm_num; linarith
    · refine root_chain (ks := [.line, .line, .line]) (ps := [![-a, y], ![P, t], ![-W, t]]) ?_ hzero
        (by rw [abs_le]; constructor <;> linarith) ?_ ?_
      · rcases hc with h | h
        · exact Or.inl h
        · right
          show _ ≤ |c - 0|
          rw [sub_zero, abs_of_nonneg hc0]
          norm_num at h ⊢; linarith
      · intro h0
        refine ⟨⟨hzero, hmid, 1, ?_⟩, hlast⟩
        show _ ≤ |y - 0|; rw [sub_zero, abs_of_nonneg (by linarith)]; norm_num; linarith
      · intro h0
        refine ⟨⟨moderate_of (by norm_num) (by norm_num) (by linarith) (by linarith), hmid, 1, ?_⟩, hlast⟩
        show _ ≤ |y - c|; rw [abs_of_nonneg (by linarith)]; norm_num; linarith
  obtain ⟨l, hl, hd⟩ := C111_chain_partial hfl hacos htrig hchain hb.1 hb.2
  refine ⟨l, hl, W, -a, y, P, hd, ?_, ?_, ?_, by linarith, widenF_spec hfl hw he0 he1 (max_close ?_ (by linarith))⟩
  · rw [abs_le]; norm_num; constructor <;> linarith
  · rw [abs_le]; norm_num; constructor <;> linarith
  · rw [abs_le]; norm_num; constructor <;> linarith
  · rw [abs_le]; norm_num; constructor <;> linarith

/-- dimensions of a double V groove -/
structure DimDV (w t α1 α2 c h1 h2 b : ℝ) : Prop where
  width : 2 ≤ w ∧ w ≤ 1000
  face : c = 0 ∨ 1 / 10 ^ 5 ≤ c
  angle1 : 0 ≤ α1 / 2 ∧ α1 / 2 < Real.pi / 2
  angle2 : 0 ≤ α2 / 2 ∧ α2 / 2 < Real.pi / 2
  cos1 : 1 / 10 ≤ Real.cos (α1 / 2)
  cos2 : 1 / 10 ≤ Real.cos (α2 / 2)
  thickness : t ≤ 1000
  height1 : 0 ≤ h1 ∧ h1 ≤ 1000
  height2 : 1 / 10 ^ 5 ≤ h2
  upper : h2 + c + 1 / 10 ^ 5 ≤ t
  gap : 0 ≤ b ∧ b ≤ 10 ^ 4

include hfl hacos htrig htan in
/-- **C111 (double V groove).** -/
theorem C111_DV_partial {w t α1 α2 c h1 h2 b : ℝ} (hd : DimDV w t α1 α2 c h1 h2 b) :
    ∃ l, profileDVF L tangent w t α1 α2 c h1 h2 b = .ok [l, l.map mirrorS] ∧
      ∃ width x1 u x2, Drawn b (kindsDV c)
        ([![-width, 0], ![x1, 0], ![0, h2]] ++ rootFace c ![0, u] ++ [![x2, t], ![-width, t]]) l ∧
      |x1 - -(Real.tan (α2 / 2) * h2)| ≤ 1 / 10 ^ 8 ∧ |u - (h2 + c)| ≤ 1 / 10 ^ 11 ∧
      |x2 - -(Real.tan (α1 / 2) * h1)| ≤ 1 / 10 ^ 8 ∧ 1 / 4 ≤ width + x1 ∧ 1 / 4 ≤ width + x2 ∧
      Widened w (max (Real.tan (α1 / 2) * h1) (Real.tan (α2 / 2) * h2)) width := by
  have hr := rounds_rounding hfl
  obtain ⟨hw, hc, hα, hβ, hcosa, hcosb, ht, hh1, hh2, hu, hb⟩ := hd
  have hc0 : 0 ≤ c := by rcases hc with h | h; · exact h.ge
                         · exact le_trans (by norm_num) h
  obtain ⟨s0, s1, -⟩ := tangent_close htan hα hcosa
  obtain ⟨t0, t1, -⟩ := tangent_close htan hβ hcosb
  norm_num at hu hh2
  have k1 := abs_le.1 (offset_near hfl htan hα hcosa (z := h1) (y := h1) hh1.1 (by linarith)
    (by rw [sub_self, abs_zero]; norm_num))
  have k2 := abs_le.1 (offset_near hfl htan hβ hcosb (z := h2) (y := h2) (by linarith) (by linarith)
    (by rw [sub_self, abs_zero]; norm_num))
  have hS0 : 0 ≤ Real.tan (α1 / 2) * h1 := mul_nonneg s0 hh1.1
  have hS1 : Real.tan (α1 / 2) * h1 ≤ 10 * 1000 := mul_le_mul s1 hh1.2 hh1.1 (by norm_num)
  have hT0 : 0 ≤ Real.tan (α2 / 2) * h2 := mul_nonneg t0 (by linarith)
  have hT1 : Real.tan (α2 / 2) * h2 ≤ 10 * 1000 := mul_le_mul t1 (by linarith) (by linarith) (by norm_num)
  show ∃ l, translateReflectF L b (kindsDV c) (pointsDVF L tangent w t α1 α2 c h1 h2) = .ok [l, l.map mirrorS] ∧ _
  unfold pointsDVF
  simp only
  set S := Real.tan (α1 / 2) * h1 with hSd
  set T := Real.tan (α2 / 2) * h2 with hTd
  set a := L.fl (tangent (α1 / 2) * h1) with ha
  set d := L.fl (tangent (α2 / 2) * h2) with hd
  have k5 := abs_le.1 (fl_abs hr (x := h2 + c) (B := 2000) (by rw [abs_le]; constructor <;> linarith))
  set y := L.fl (h2 + c) with hy
  norm_num at k1 k2 k5
  set edge := max (max a d) 0 with hedge
  have he0 : 0 ≤ edge := le_max_right _ _
  have he1 : edge ≤ 3 * 10 ^ 4 := max_le (max_le (by norm_num; linarith) (by norm_num; linarith)) (by norm_num)
  have he2 : a ≤ edge := (le_max_left _ _).trans (le_max_left _ _)
  have he3 : d ≤ edge := (le_max_right _ _).trans (le_max_left _ _)
  obtain ⟨hw1, hw2⟩ := widenF_close hfl hw he0 he1
  set W := widenF L w edge with hW
  have hchain : ClearChain (kindsDV c) ([![-W, 0], ![-d, 0], ![0, h2]] ++ rootFace c ![0, y] ++ [![-a, t], ![-W, t]]) := by
    have hfst : Moderate ![-W, 0] := moderate_of (by linarith) (by linarith) (by linarith) (by linarith)
    have hsec : Moderate ![-d, 0] := moderate_of (by linarith) (by linarith) (by linarith) (by linarith)
    have hmid : Moderate ![0, h2] := moderate_of (by norm_num) (by norm_num) (by linarith) (by linarith)
    have htop : Moderate ![-a, t] := moderate_of (by linarith) (by linarith) (by linarith) (by linarith)
    have hend : Moderate ![-W, t] := moderate_of (by linarith) (by linarith) (by linarith) (by linarith)
    have hlast : ClearChain [.line] [![-a, t], ![-W, t]] := by
      refine ⟨⟨htop, hend, 0, ?_⟩, trivial⟩
      show _ ≤ |-W - -a|; rw [abs_of_nonpos (by linarith)]; norm_num; linarith
    refine ⟨⟨hfst, hsec, 0, ?_⟩, ⟨hsec, hmid, 1, ?_⟩, ?_⟩
    · show _ ≤ |-d - -W|; rw [abs_of_nonneg (by linarith)]; norm_num; linarith
    · show _ ≤ |h2 - 0|; rw [sub_zero, abs_of_nonneg (by linarith)]; norm_num; linarith
    · refine root_chain (ks := [.line, .line]) (ps := [![-a, t], ![-W, t]]) ?_ hmid (by rw [abs_le]; constructor <;> linarith) ?_ ?_
      · rcases hc with h | h
        · exact Or.inl h
        · right
          show _ ≤ |y - h2|
          norm_num at h
          rw [abs_of_nonneg (by linarith)]
          norm_num; linarith
      · intro h0
        refine ⟨⟨hmid, htop, 1, ?_⟩, hlast⟩
        show _ ≤ |t - h2|; rw [abs_of_nonneg (by linarith)]; norm_num; linarith
      · intro h0
        refine ⟨⟨moderate_of (by norm_num) (by norm_num) (by linarith) (by linarith), htop, 1, ?_⟩, hlast⟩
        show _ ≤ |t - y|; rw [abs_of_nonneg (by linarith)]; norm_num; linarith
  obtain ⟨l, hl, hd⟩ := C111_chain_partial hfl hacos htrig hchain hb.1 hb.2
  refine ⟨l, hl, W, -d, y, -a, hd, ?_, ?_, ?_, by linarith, by linarith,
    widenF_spec hfl hw he0 he1 (max_close (max_close_max ?_ ?_) (hS0.trans (le_max_left _ _)))⟩
  · rw [abs_le]; norm_num; constructor <;> linarith
  · rw [abs_le]; norm_num; constructor <;> linarith
  · rw [abs_le]; norm_num; constructor <;> linarith
  · rw [abs_le]; norm_num; constructor <;> linarith
  · rw [abs_le]; norm_num; constructor <;> linarith

/-- the right shape of a profile of two shapes -/
theorem rightOf_ok {w t b : ℝ} {p : Except GErr (List (List SegF))} {l r s : List SegF} (h : p = .ok [l, r])
    (hs : straightF L w b t = .ok s) : rightOf L w t b p = .ok [s, r] := by
  subst h
  unfold rightOf
  simp only [hs]
  rfl

include hfl hacos htrig htan in
/-- **C111 (DHV groove).** -/
theorem C111_DHV_partial {w t β1 β2 c h1 h2 b : ℝ} (hd : DimDV w t (β1 * 2) (β2 * 2) c h1 h2 b) :
    ∃ s l, profileDHVF L tangent w t β1 β2 c h1 h2 b = .ok [s, l.map mirrorS] ∧
      profileDVF L tangent w t (β1 * 2) (β2 * 2) c h1 h2 b = .ok [l, l.map mirrorS] ∧
      Drawn 0 [.line, .line, .line] (straightPoints w b t) s := by
  obtain ⟨l, hl, -⟩ := C111_DV_partial hfl hacos htrig htan hd
  have h1 := hd.height2
  have h2 := hd.upper
  have hc0 : 0 ≤ c := by rcases hd.face with h | h; · exact h.ge
                         · exact le_trans (by norm_num) h
  obtain ⟨s, hs, hd'⟩ := straightF_ok hfl hacos htrig (w := w) (b := b) (t := t) ⟨by linarith [hd.width.1], by linarith [hd.width.2]⟩
    hd.gap ⟨by linarith, by linarith [hd.thickness]⟩
  exact ⟨s, l, rightOf_ok hl hs, hl, hd'⟩

include hfl hacos htrig htan in
/-- **C111 (DHU groove).** -/
theorem C111_DHU_partial {w t β1 β2 R R2 c h1 h2 b : ℝ} (hd : DimDU w t β1 β2 R R2 c h1 h2 b) :
    ∃ s l, profileDHUF L tangent w t β1 β2 R R2 c h1 h2 b = .ok [s, l.map mirrorS] ∧
      profileDUF L tangent w t β1 β2 R R2 c h1 h2 b = .ok [l, l.map mirrorS] ∧
      Drawn 0 [.line, .line, .line] (straightPoints w b t) s := by
  obtain ⟨l, hl, -⟩ := C111_DU_partial hfl hacos htrig htan hd
  have g1 := hd.height1
  have g2 := hd.height2
  have g3 := abs_le.1 hd.thickness
  have g4 := hd.upper1
  have g5 := hd.upper2
  have g6 := hd.face_le
  have hR := hd.radius.1
  have hR2 := hd.radius2.1
  have hc0 : 0 ≤ c := by rcases hd.face with h | h; · exact h.ge
                         · exact le_trans (by norm_num) h.1
  have e1 : R * Real.sin β1 ≤ R := by nlinarith [Real.sin_le_one β1]
  have e2 : R2 * Real.sin β2 ≤ R2 := by nlinarith [Real.sin_le_one β2]
  norm_num at g1 g2 g3
  obtain ⟨s, hs, hd'⟩ := straightF_ok hfl hacos htrig (w := w) (b := b) (t := t) ⟨by linarith [hd.width.1], by linarith [hd.width.2]⟩
    hd.gap ⟨by norm_num; linarith, by linarith⟩
  exact ⟨s, l, rightOf_ok hl hs, hl, hd'⟩

end

/-! ### examples -/

/-- a V groove with an opening of 60 degrees -/
example : DimV 2 10 (Real.pi / 3 / 2) 1 2 := by
  have hpi := Real.pi_pos
  refine ⟨by norm_num, Or.inr (by norm_num), ⟨by linarith, by linarith⟩, ?_, by norm_num, by norm_num, by norm_num⟩
  rw [show Real.pi / 3 / 2 = Real.pi / 6 by ring, Real.cos_pi_div_six]
  have : (1 : ℝ) ≤ √3 := Real.one_le_sqrt.2 (by norm_num)
  linarith

/-- a VV groove with an opening of 60 degrees, then 30 degrees on each side -/
example : DimVV 5 15 (Real.pi / 3) (Real.pi / 6) 6 0 1 := by
  have hpi := Real.pi_pos
  have hc : 1 / 10 ≤ Real.cos (Real.pi / 6) := by
    rw [Real.cos_pi_div_six]
    have : (1 : ℝ) ≤ √3 := Real.one_le_sqrt.2 (by norm_num)
    linarith
  refine ⟨by norm_num, Or.inl rfl, ⟨by linarith, by linarith⟩, ⟨by linarith, by linarith⟩, ?_, hc, by norm_num, by norm_num, by norm_num,
    by norm_num, by norm_num⟩
  rwa [show Real.pi / 3 / 2 = Real.pi / 6 by ring]

/-- a double V groove with openings of 60 degrees -/
example : DimDV 5 20 (Real.pi / 3) (Real.pi / 3) 2 9 9 1 := by
  have hpi := Real.pi_pos
  have hc : 1 / 10 ≤ Real.cos (Real.pi / 3 / 2) := by
    rw [show Real.pi / 3 / 2 = Real.pi / 6 by ring, Real.cos_pi_div_six]
    have : (1 : ℝ) ≤ √3 := Real.one_le_sqrt.2 (by norm_num)
    linarith
  refine ⟨by norm_num, Or.inr (by norm_num), ⟨by linarith, by linarith⟩, ⟨by linarith, by linarith⟩, hc, hc, by norm_num, by norm_num,
    by norm_num, by norm_num, by norm_num⟩

end Weldx.Groove
