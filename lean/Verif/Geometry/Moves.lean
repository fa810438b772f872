import Verif.Geometry.Arc

/-!
# Translations and transformations of segments
-/

namespace Weldx.Geo
open Real Matrix

/-- distance preserving linear maps -/
def IsIso (m : M) : Prop := mᵀ * m = 1

/-- segments as the constructors make them -/
def Seg.Valid : Seg → Prop
  | .line a b l => l = len (b - a) ∧ 0 < l
  | .arc x => x.Valid

theorem mkLine_ok {a b : V} {s : Seg} (h : mkLine a b = .ok s) : s = .line a b (len (b - a)) ∧ s.Valid := by
  unfold mkLine at h
  split at h
  · cases h
  · rename_i hl; cases h; exact ⟨rfl, rfl, not_le.1 hl⟩

theorem mkArc_valid {ps pe pc : V} {ccw : Bool} {x : Arc} (h : mkArc ps pe pc ccw = .ok x) : (Seg.arc x).Valid :=
  (mkArc_ok h).1

theorem clip_zero : clip 0 0 1 = 0 := by simp [clip]
theorem clip_one : clip 1 0 1 = 1 := by simp [clip]

@[simp] theorem line_start (a b : V) (l : ℝ) : (Seg.line a b l).pointStart = a := by
  simp [Seg.pointStart, Seg.point, clip_zero]

@[simp] theorem line_end (a b : V) (l : ℝ) : (Seg.line a b l).pointEnd = b := by
  simp [Seg.pointEnd, Seg.point, clip_one]

/-! ### translations -/

theorem Seg.translate_point (v : V) (s : Seg) (t : ℝ) : (s.translate v).point t = s.point t + v := by
  cases s with
  | line a b l => simp only [Seg.translate, Seg.point, add_sub_add_right_eq_sub]; abel
  | arc x => simp only [Seg.translate, Seg.point, Arc.point]; abel

theorem Seg.translate_valid (v : V) {s : Seg} (h : s.Valid) : (s.translate v).Valid := by
  cases s with
  | line a b l => simpa [Seg.translate, Seg.Valid] using h
  | arc x =>
    have hx : x.Valid := h
    exact ⟨hx.sign, by simp only [add_sub_add_right_eq_sub, calcAngle]; exact hx.angle,
      by simp only [add_sub_add_right_eq_sub]; exact hx.radius, by simp only [hx.o], hx.r, hx.w,
      by simp only [add_sub_add_right_eq_sub]; exact hx.a, hx.length, hx.pos,
      by simp only [add_sub_add_right_eq_sub]; exact hx.close⟩

theorem Seg.translate_length (v : V) (s : Seg) : (s.translate v).length = s.length := by cases s <;> rfl

/-! ### transformations -/

theorem mulVec_two (m : M) (v : V) : m *ᵥ v = ![m 0 0 * v 0 + m 0 1 * v 1, m 1 0 * v 0 + m 1 1 * v 1] := by
  funext i; fin_cases i <;> simp [Matrix.mulVec, dotProduct, Fin.sum_univ_two]

theorem IsIso.entries {m : M} (h : IsIso m) : m 0 0 * m 0 0 + m 1 0 * m 1 0 = 1 ∧ m 0 0 * m 0 1 + m 1 0 * m 1 1 = 0 ∧
    m 0 1 * m 0 1 + m 1 1 * m 1 1 = 1 := by
  unfold IsIso at h
  refine ⟨?_, ?_, ?_⟩
  · have := congrFun (congrFun h 0) 0
    simpa [Matrix.mul_apply, Fin.sum_univ_two] using this
  · have := congrFun (congrFun h 0) 1
    simpa [Matrix.mul_apply, Fin.sum_univ_two] using this
  · have := congrFun (congrFun h 1) 1
    simpa [Matrix.mul_apply, Fin.sum_univ_two] using this

theorem IsIso.dot {m : M} (h : IsIso m) (u v : V) : dot (m *ᵥ u) (m *ᵥ v) = dot u v := by
  obtain ⟨e1, e2, e3⟩ := h.entries
  rw [mulVec_two, mulVec_two]
  simp only [Geo.dot, Matrix.cons_val_zero, Matrix.cons_val_one]
  linear_combination (u 0 * v 0) * e1 + (u 0 * v 1 + u 1 * v 0) * e2 + (u 1 * v 1) * e3

theorem IsIso.len {m : M} (h : IsIso m) (u : V) : len (m *ᵥ u) = len u := by unfold Geo.len; rw [h.dot]

theorem IsIso.det {m : M} (h : IsIso m) : m.det = 1 ∨ m.det = -1 := by
  have := congrArg Matrix.det h
  rw [Matrix.det_mul, Matrix.det_transpose, Matrix.det_one] at this
  exact mul_self_eq_one_iff.1 this

/-- sign of an isometry -/
theorem IsIso.sign {m : M} (h : IsIso m) : ∃ d : ℤ, (d = 1 ∨ d = -1) ∧ reflectionSign m = some d ∧ (d : ℝ) = m.det := by
  rcases h.det with hd | hd
  · refine ⟨1, .inl rfl, ?_, by rw [hd]; norm_num⟩
    unfold reflectionSign
    have : npSign m.det = 1 := npSign_eq_one.2 (by rw [hd]; norm_num)
    simp [this]
  · refine ⟨-1, .inr rfl, ?_, by rw [hd]; norm_num⟩
    unfold reflectionSign
    have : npSign m.det = -1 := npSign_eq_neg_one.2 (by rw [hd]; norm_num)
    simp [this]

theorem IsIso.turn {m : M} (h : IsIso m) (v : V) : m *ᵥ turn v = m.det • turn (m *ᵥ v) := by
  obtain ⟨e1, e2, e3⟩ := h.entries
  rw [Matrix.det_fin_two]
  rw [mulVec_two, mulVec_two]
  funext i; fin_cases i
  · simp [Geo.turn]
    linear_combination (m 0 0 * v 1) * e3 - (m 0 1 * v 1) * e2 - (m 0 1 * v 0) * e1 + (m 0 0 * v 0) * e2
  · simp [Geo.turn]
    linear_combination (m 1 0 * v 1) * e3 - (m 1 1 * v 1) * e2 - (m 1 1 * v 0) * e1 + (m 1 0 * v 0) * e2

theorem IsIso.rot {m : M} (h : IsIso m) {d : ℤ} (hd : d = 1 ∨ d = -1) (hm : (d : ℝ) = m.det) (t : ℝ) (v : V) :
    m *ᵥ rot t v = rot (d * t) (m *ᵥ v) := by
  rw [rot_eq, rot_eq, Matrix.mulVec_add, Matrix.mulVec_smul, Matrix.mulVec_smul, h.turn, ← hm]
  rcases hd with rfl | rfl
  · simp
  · simp

theorem IsIso.normalize {m : M} (h : IsIso m) {a u : V} (hu : normalize a = .ok u) : normalize (m *ᵥ a) = .ok (m *ᵥ u) := by
  obtain ⟨h1, rfl, -⟩ := normalize_ok hu
  unfold Geo.normalize
  rw [h.len, if_neg h1, Matrix.mulVec_smul]

theorem IsIso.calcAngle {m : M} (h : IsIso m) {d : ℤ} (hd : d = 1 ∨ d = -1) (hm : reflectionSign m = some d)
    {ps pe pc : V} {sg : ℤ} {t : ℝ} (hc : calcAngle ps pe pc sg = .ok t) :
    calcAngle (m *ᵥ ps) (m *ᵥ pe) (m *ᵥ pc) (sg * d) = .ok t := by
  unfold Geo.calcAngle at hc ⊢
  cases hu : Geo.normalize (ps - pc) with
  | error e => simp only [hu, bind, Except.bind] at hc; cases hc
  | ok u =>
    cases hv : Geo.normalize (pe - pc) with
    | error e => simp only [hu, hv, bind, Except.bind] at hc; cases hc
    | ok v =>
      simp only [hu, hv, bind, Except.bind] at hc
      rw [← Matrix.mulVec_sub, ← Matrix.mulVec_sub, h.normalize hu, h.normalize hv]
      simp only [bind, Except.bind, h.dot]
      have key := C54_transformation m v u
      rw [hm] at key
      simp only at key
      rw [key]
      have : |d * vectorPointsToLeft v u + sg * d| = |vectorPointsToLeft v u + sg| := by
        rw [mul_comm sg, ← mul_add, abs_mul]
        rcases hd with rfl | rfl <;> simp
      rw [this]; exact hc

/-- Isometries are never refused, they map each point, and keep the length. -/
theorem Seg.transform_iso {m : M} (h : IsIso m) {s : Seg} (hs : s.Valid) :
    ∃ s', s.transform m = .ok () s' ∧ s'.Valid ∧ s'.length = s.length ∧ ∀ t, s'.point t = m *ᵥ s.point t := by
  cases s with
  | line a b l =>
    have hl : len (m *ᵥ b - m *ᵥ a) = len (b - a) := by rw [← Matrix.mulVec_sub, h.len]
    have hs' : l = len (b - a) ∧ 0 < l := hs
    refine ⟨.line (m *ᵥ a) (m *ᵥ b) (len (m *ᵥ b - m *ᵥ a)), ?_, ?_, ?_, ?_⟩
    · unfold Seg.transform
      simp only
      rw [if_neg]
      rw [hl, ← hs'.1]; exact not_le.2 hs'.2
    · exact ⟨rfl, by rw [hl, ← hs'.1]; exact hs'.2⟩
    · simp only [Seg.length]; rw [hl, hs'.1]
    · intro t
      simp only [Seg.point, Matrix.mulVec_add, Matrix.mulVec_smul, Matrix.mulVec_sub]
  | arc x =>
    have hx : x.Valid := hs
    obtain ⟨d, hd, hm, hdet⟩ := h.sign
    have hang := h.calcAngle hd hm hx.angle
    set y : Arc := { x with
      pStart := m *ᵥ x.pStart
      pEnd := m *ᵥ x.pEnd
      pCenter := m *ᵥ x.pCenter
      sign := x.sign * d } with hy
    have hsg : y.sign = 1 ∨ y.sign = -1 := by
      rcases hx.sign with h | h <;> rcases hd with h' | h' <;> simp [hy, h, h']
    obtain ⟨z, z1, z2, z3, z4, z5, z6, z7, z8, z9, z10, z11⟩ := y.update_eq hang
    have hr : z.radius = x.radius := by rw [z6, hx.radius]; simp only [hy]; rw [← Matrix.mulVec_sub, h.len]
    have hpos : ¬ z.radius * x.maxCoord ≤ 0 := by rw [hr, ← hx.length]; exact not_le.2 hx.pos
    have hclose : |len (y.pEnd - y.pCenter) - len (y.pStart - y.pCenter)| ≤ 1 / 100000000 := by
      simp only [hy]; rw [← Matrix.mulVec_sub, ← Matrix.mulVec_sub, h.len, h.len]; exact hx.close
    rw [if_neg hpos, if_pos hclose] at z11
    obtain ⟨v1, v2, v3, v4, v5⟩ := Arc.update_ok hsg z11
    refine ⟨.arc { z with length := z.radius * x.maxCoord }, ?_, v1, ?_, ?_⟩
    · unfold Seg.transform
      simp only [hm]
      rw [show Arc.update { x with
        pStart := m *ᵥ x.pStart
        pEnd := m *ᵥ x.pEnd
        pCenter := m *ᵥ x.pCenter
        sign := x.sign * d } = _ from z11]
    · simp only [Seg.length]; rw [hr, hx.length]
    · intro t
      simp only [Seg.point]
      rw [v1.point, hx.point, v4, v2, v5, Matrix.mulVec_add]
      simp only [hy, z5]
      rw [h.rot hd hdet, Matrix.mulVec_sub]
      congr 2
      push_cast; ring

/-- a linear map that is not degenerate maps line segments to line segments -/
theorem Seg.transform_line {m : M} (h : m.det ≠ 0) {a b : V} {l : ℝ} (hs : (Seg.line a b l).Valid) :
    ∃ l', (Seg.line a b l).transform m = .ok () (.line (m *ᵥ a) (m *ᵥ b) l') ∧ (Seg.line (m *ᵥ a) (m *ᵥ b) l').Valid := by
  have hs' : l = len (b - a) ∧ 0 < l := hs
  have hne : b - a ≠ 0 := by intro h0; rw [h0, len_eq_zero.2 rfl] at hs'; linarith
  have hne' : m *ᵥ b - m *ᵥ a ≠ 0 := by
    rw [← Matrix.mulVec_sub]
    intro h0
    rw [mulVec_two] at h0
    have h1 := congrFun h0 0
    have h2 := congrFun h0 1
    simp at h1 h2
    rw [Matrix.det_fin_two] at h
    apply hne
    funext i; fin_cases i
    · have : (m 0 0 * m 1 1 - m 0 1 * m 1 0) * (b 0 - a 0) = 0 := by linear_combination m 1 1 * h1 - m 0 1 * h2
      simpa [h] using this
    · have : (m 0 0 * m 1 1 - m 0 1 * m 1 0) * (b 1 - a 1) = 0 := by linear_combination m 0 0 * h2 - m 1 0 * h1
      simpa [h] using this
  have hpos : 0 < len (m *ᵥ b - m *ᵥ a) := lt_of_le_of_ne (len_nonneg _) (Ne.symm (mt len_eq_zero.1 hne'))
  refine ⟨len (m *ᵥ b - m *ᵥ a), ?_, rfl, hpos⟩
  unfold Seg.transform
  simp only
  rw [if_neg (not_le.2 hpos)]

end Weldx.Geo
