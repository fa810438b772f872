import Verif.Groove.Front
import Verif.Groove.Lemmas
import Mathlib.Tactic.FinCases

/-!
# C74: front face grooves, creation and storage of grooves
-/

namespace Weldx.Groove

open Weldx.Geo Real

/-! ### specification -/

/-- a plate: a corner of its front side, the direction from the front to the back, the direction of the front side, length and
thickness -/
structure Plate where
  corner : Geo.V
  dir : Geo.V
  side : Geo.V
  length : ℝ
  thick : ℝ

/-- both directions have length one and are perpendicular -/
structure Plate.Valid (P : Plate) : Prop where
  dir : dot P.dir P.dir = 1
  side : dot P.side P.side = 1
  perp : dot P.dir P.side = 0
  length : 0 < P.length
  thick : 0 < P.thick

/-- the point with the distances `r` from the front and `s` from the first face -/
def Plate.at (P : Plate) (r s : ℝ) : Geo.V := P.corner + r • P.dir + s • P.side

/-- the points of the plate -/
def Plate.region (P : Plate) : Set Geo.V := {p | ∃ r s, 0 ≤ r ∧ r ≤ P.length ∧ 0 ≤ s ∧ s ≤ P.thick ∧ p = P.at r s}

/-- the points of the plate that are not on its border -/
def Plate.interior (P : Plate) : Set Geo.V := {p | ∃ r s, 0 < r ∧ r < P.length ∧ 0 < s ∧ s < P.thick ∧ p = P.at r s}

/-- the outline of a plate without its back -/
def Plate.outline (P : Plate) : List Geo.V := [P.at P.length 0, P.at 0 0, P.at 0 P.thick, P.at P.length P.thick]

/-- the closed outline, along the first face -/
def Plate.closed (P : Plate) : List Geo.V := [P.at 0 0, P.at P.length 0, P.at P.length P.thick, P.at 0 P.thick, P.at 0 0]

/-- the closed outline, along the front -/
def Plate.closedFront (P : Plate) : List Geo.V := [P.at 0 0, P.at 0 P.thick, P.at P.length P.thick, P.at P.length 0, P.at 0 0]

/-- the points are an outline of the plate -/
def Plate.Drawn (P : Plate) (ps : List Geo.V) : Prop := ps = P.outline ∨ ps = P.closed ∨ ps = P.closedFront

/-- a profile of two plates with valid sizes -/
def TwoPlates (r : Except GErr Profile) (P Q : Plate) : Prop :=
  P.Valid ∧ Q.Valid ∧ ∃ a b, P.Drawn a ∧ Q.Drawn b ∧ r = .ok [lines a, lines b]

/-- no point is inside of both plates -/
def Apart (P Q : Plate) : Prop := ∀ p ∈ P.interior, p ∉ Q.interior

/-- the smallest distance of two plates -/
def Gap (P Q : Plate) (g : ℝ) : Prop :=
  (∀ p ∈ P.region, ∀ q ∈ Q.region, g ≤ len (q - p)) ∧ ∃ p ∈ P.region, ∃ q ∈ Q.region, len (q - p) = g

/-! ### lemmas -/

theorem Plate.Valid.outline_distinct {P : Plate} (h : P.Valid) : Distinct P.outline ∧ Distinct P.closed ∧ Distinct P.closedFront := by
  have hd : P.dir ≠ 0 := fun e => by
    have := h.dir; rw [e] at this; simp [dot] at this
  have hs : P.side ≠ 0 := fun e => by
    have := h.side; rw [e] at this; simp [dot] at this
  have h1 : ∀ r s r' : ℝ, r ≠ r' → P.at r s ≠ P.at r' s := by
    intro r s r' hr e
    simp only [Plate.at, add_left_inj, add_right_inj] at e
    have : (r - r') • P.dir = 0 := by rw [sub_smul, e, sub_self]
    rcases smul_eq_zero.1 this with h | h
    · exact hr (sub_eq_zero.1 h)
    · exact hd h
  have h2 : ∀ r s s' : ℝ, s ≠ s' → P.at r s ≠ P.at r s' := by
    intro r s s' hr e
    simp only [Plate.at, add_right_inj] at e
    have : (s - s') • P.side = 0 := by rw [sub_smul, e, sub_self]
    rcases smul_eq_zero.1 this with h | h
    · exact hr (sub_eq_zero.1 h)
    · exact hs h
  have hl := h.length.ne
  have ht := h.thick.ne
  refine ⟨⟨h1 _ _ _ hl.symm, h2 _ _ _ ht, h1 _ _ _ hl, trivial⟩, ⟨h1 _ _ _ hl, h2 _ _ _ ht, h1 _ _ _ hl.symm, h2 _ _ _ ht.symm, trivial⟩,
    h2 _ _ _ ht, h1 _ _ _ hl, h2 _ _ _ ht.symm, h1 _ _ _ hl.symm, trivial⟩

theorem polylines_two {a b : List Geo.V} (ha : Distinct a) (hb : Distinct b) : polylines [a, b] = .ok [lines a, lines b] := by
  simp only [polylines, polyline_lines ha, polyline_lines hb]

/-- the distance along a direction is at most the distance -/
theorem le_len_of_dot {d v : Geo.V} {g : ℝ} (hd : dot d d ≤ 1) (hg : 0 ≤ g) (h : g ≤ dot d v) : g ≤ len v := by
  have hl := len_mul_self v
  have hn := len_nonneg v
  simp only [dot] at *
  have h1 : (d 0 * v 0 + d 1 * v 1) ^ 2 ≤ (d 0 * d 0 + d 1 * d 1) * (v 0 * v 0 + v 1 * v 1) := by
    nlinarith [sq_nonneg (d 0 * v 1 - d 1 * v 0)]
  have h2 : (0 : ℝ) ≤ v 0 * v 0 + v 1 * v 1 := by nlinarith [mul_self_nonneg (v 0), mul_self_nonneg (v 1)]
  have h3 : (d 0 * v 0 + d 1 * v 1) ^ 2 ≤ v 0 * v 0 + v 1 * v 1 := by nlinarith
  nlinarith

theorem Plate.Valid.drawn {P : Plate} (h : P.Valid) {a : List Geo.V} (ha : P.Drawn a) : Distinct a := by
  rcases ha with rfl | rfl | rfl
  · exact h.outline_distinct.1
  · exact h.outline_distinct.2.1
  · exact h.outline_distinct.2.2

theorem twoPlates_intro {P Q : Plate} {code w t1 t2 alpha b e} {x y : List Geo.V} (hP : P.Valid) (hQ : Q.Valid) (hx : P.Drawn x)
    (hy : Q.Drawn y) (h : ffPoints code w t1 t2 alpha b e = .ok [x, y]) :
    TwoPlates (profileFF code w t1 t2 alpha b e) P Q :=
  ⟨hP, hQ, x, y, hx, hy, by simp only [profileFF, h, polylines_two (hP.drawn hx) (hQ.drawn hy)]⟩

theorem list4 {a b c d a' b' c' d' : Geo.V} (h1 : a = a') (h2 : b = b') (h3 : c = c') (h4 : d = d') : [a, b, c, d] = [a', b', c', d'] := by
  rw [h1, h2, h3, h4]

theorem list5 {a b c d e a' b' c' d' e' : Geo.V} (h1 : a = a') (h2 : b = b') (h3 : c = c') (h4 : d = d') (h5 : e = e') :
    [a, b, c, d, e] = [a', b', c', d', e'] := by
  rw [h1, h2, h3, h4, h5]

/-! ### C74: the profiles -/

/-- 1.12, 1.13 and 2.12: a plate of the thickness stands on the middle of another plate; both touch. -/
theorem C74_tee {code : FFCode} (hc : code = .c112 ∨ code = .c113 ∨ code = .c212) {w t1 : ℝ} (hw : 0 < w) (h1 : 0 < t1)
    (t2 alpha b e : Option ℝ) :
    ∃ P Q : Plate, TwoPlates (profileFF (some code) w t1 t2 alpha b e) P Q ∧ P.thick = t1 ∧ Q.thick = t1 ∧ dot P.dir Q.dir = 0 ∧
      P.length = 2 * w + t1 ∧ Q.length = w ∧ Apart P Q ∧ Gap P Q 0 ∧ Q.corner = P.at w 0 ∧ Q.side = P.dir ∧ Q.dir = -P.side := by
  refine ⟨⟨![0, 0], ![1, 0], ![0, 1], 2 * w + t1, t1⟩, ⟨![w, 0], ![0, -1], ![1, 0], w, t1⟩,
    twoPlates_intro (x := [![0, 0], ![2 * w + t1, 0], ![2 * w + t1, t1], ![0, t1], ![0, 0]])
      (y := [![w, 0], ![w + t1, 0], ![w + t1, -w], ![w, -w], ![w, 0]]) ?_ ?_ ?_ ?_ ?_, rfl, rfl, ?_, rfl, rfl, ?_, ⟨?_, ?_⟩, ?_, rfl, ?_⟩
  · exact ⟨by simp [dot], by simp [dot], by simp [dot], by simp; linarith, h1⟩
  · exact ⟨by simp [dot], by simp [dot], by simp [dot], hw, h1⟩
  · refine Or.inr (Or.inl (list5 ?_ ?_ ?_ ?_ ?_)) <;> (ext i; fin_cases i <;> simp [Plate.at])
  · refine Or.inr (Or.inr (list5 ?_ ?_ ?_ ?_ ?_)) <;> (ext i; fin_cases i <;> simp [Plate.at])
  · rcases hc with rfl | rfl | rfl <;> rfl
  · simp [dot]
  · rintro p ⟨r, s, _, _, h3, _, rfl⟩ ⟨r', s', h5, _, _, _, he⟩
    have := congrFun he 1
    simp [Plate.at] at this
    linarith
  · intro p _ q _
    exact len_nonneg _
  · refine ⟨![w, 0], ⟨w, 0, hw.le, by simp; linarith, le_refl _, h1.le, ?_⟩, ![w, 0], ⟨0, 0, le_refl _, hw.le, le_refl _, h1.le, ?_⟩, ?_⟩
    · ext i; fin_cases i <;> simp [Plate.at]
    · ext i; fin_cases i <;> simp [Plate.at]
    · simp [len, dot]
  · ext i; fin_cases i <;> simp [Plate.at]
  · ext i; fin_cases i <;> simp

/-- 3.1.2: a lap joint, parallel plates of both thicknesses in the distance of the root gap -/
theorem C74_lap {w t1 t2 b : ℝ} (hw : 0 < w) (h1 : 0 < t1) (h2 : 0 < t2) (hb : 0 ≤ b) (alpha e : Option ℝ) :
    ∃ P Q : Plate, TwoPlates (profileFF (some .c312) w t1 (some t2) alpha (some b) e) P Q ∧ P.thick = t1 ∧ Q.thick = t2 ∧
      P.dir = Q.dir ∧ P.length = w ∧ Q.length = 2 * w ∧ Apart P Q ∧ Gap P Q b := by
  refine ⟨⟨![w, 0], ![-1, 0], ![0, 1], w, t1⟩, ⟨![2 * w, -b], ![-1, 0], ![0, -1], 2 * w, t2⟩,
    twoPlates_intro (x := [![0, 0], ![w, 0], ![w, t1], ![0, t1]]) (y := [![0, -b], ![2 * w, -b], ![2 * w, -t2 - b], ![0, -t2 - b]])
      ?_ ?_ ?_ ?_ rfl, rfl, rfl, rfl, rfl, rfl, ?_, ⟨?_, ?_⟩⟩
  · exact ⟨by simp [dot], by simp [dot], by simp [dot], hw, h1⟩
  · exact ⟨by simp [dot], by simp [dot], by simp [dot], by simp; linarith, h2⟩
  · refine Or.inl (list4 ?_ ?_ ?_ ?_) <;> (ext i; fin_cases i <;> simp [Plate.at])
  · refine Or.inl (list4 ?_ ?_ ?_ ?_) <;> (ext i; fin_cases i <;> simp [Plate.at]) <;> ring
  · rintro p ⟨r, s, _, _, h3, _, rfl⟩ ⟨r', s', _, _, h5, _, he⟩
    have := congrFun he 1
    simp [Plate.at] at this
    linarith
  · rintro p ⟨r, s, _, _, h3, _, rfl⟩ q ⟨r', s', _, _, h5, _, rfl⟩
    refine le_len_of_dot (d := ![0, -1]) (by simp [dot]) hb ?_
    simp [dot, Plate.at]
    linarith
  · refine ⟨![w, 0], ⟨0, 0, le_refl _, hw.le, le_refl _, h1.le, ?_⟩, ![w, -b], ⟨w, 0, hw.le, ?_, le_refl _, h2.le, ?_⟩, ?_⟩
    · ext i; fin_cases i <;> simp [Plate.at]
    · simp; linarith
    · ext i; fin_cases i <;> simp [Plate.at]; ring
    · simp [len, dot, Real.sqrt_mul_self hb]

/-- 4.1.3: a plate on a wider plate in the distance of the root gap -/
theorem C74_cross {w t1 t2 b : ℝ} (hw : 0 < w) (h1 : 0 < t1) (h2 : 0 < t2) (hb : 0 ≤ b) (alpha e : Option ℝ) :
    ∃ P Q : Plate, TwoPlates (profileFF (some .c413) w t1 (some t2) alpha (some b) e) P Q ∧ P.thick = t1 ∧ Q.thick = t2 ∧
      dot P.dir Q.dir = 0 ∧ P.length = w ∧ Q.length = t1 + 2 * w ∧ P.corner = Q.at w 0 - b • Q.side ∧ P.side = Q.dir ∧ Apart P Q ∧
      Gap P Q b := by
  refine ⟨⟨![0, 0], ![0, 1], ![1, 0], w, t1⟩, ⟨![-w, -b], ![1, 0], ![0, -1], t1 + 2 * w, t2⟩,
    twoPlates_intro (x := [![0, w], ![0, 0], ![t1, 0], ![t1, w]])
      (y := [![-w, -b], ![t1 + w, -b], ![t1 + w, -t2 - b], ![-w, -t2 - b], ![-w, -b]])
      ?_ ?_ ?_ ?_ rfl, rfl, rfl, ?_, rfl, rfl, ?_, rfl, ?_, ⟨?_, ?_⟩⟩
  · exact ⟨by simp [dot], by simp [dot], by simp [dot], hw, h1⟩
  · exact ⟨by simp [dot], by simp [dot], by simp [dot], by simp; linarith, h2⟩
  · refine Or.inl (list4 ?_ ?_ ?_ ?_) <;> (ext i; fin_cases i <;> simp [Plate.at])
  · refine Or.inr (Or.inl (list5 ?_ ?_ ?_ ?_ ?_)) <;> (ext i; fin_cases i <;> simp [Plate.at]) <;> ring
  · simp [dot]
  · ext i; fin_cases i <;> simp [Plate.at]
  · rintro p ⟨r, s, h3, _, _, _, rfl⟩ ⟨r', s', _, _, h5, _, he⟩
    have := congrFun he 1
    simp [Plate.at] at this
    linarith
  · rintro p ⟨r, s, h3, _, _, _, rfl⟩ q ⟨r', s', _, _, h5, _, rfl⟩
    refine le_len_of_dot (d := ![0, -1]) (by simp [dot]) hb ?_
    simp [dot, Plate.at]
    linarith
  · refine ⟨![0, 0], ⟨0, 0, le_refl _, hw.le, le_refl _, h1.le, ?_⟩, ![0, -b], ⟨w, 0, hw.le, ?_, le_refl _, h2.le, ?_⟩, ?_⟩
    · ext i; fin_cases i <;> simp [Plate.at]
    · simp; linarith
    · ext i; fin_cases i <;> simp [Plate.at]
    · simp [len, dot, Real.sqrt_mul_self hb]

/-- the plates of 3.1.1 -/
noncomputable def cornerPlates (w t1 t2 alpha b : ℝ) : Plate × Plate :=
  (⟨![t1, 0], ![cos alpha, sin alpha], ![-sin alpha, cos alpha], w, t1⟩, ⟨![0, -b], ![1, 0], ![0, -1], w, t2⟩)

theorem corner_profile {w t1 t2 alpha b : ℝ} (hw : 0 < w) (h1 : 0 < t1) (h2 : 0 < t2) (e : Option ℝ) :
    ∃ w', t1 ≤ w' ∧ w ≤ w' ∧ TwoPlates (profileFF (some .c311) w t1 (some t2) (some alpha) (some b) e) (cornerPlates w' t1 t2 alpha b).1
      (cornerPlates w' t1 t2 alpha b).2 := by
  have hcs := Real.sin_sq_add_cos_sq alpha
  obtain ⟨w', hw'⟩ : ∃ w', w' = if w < t1 + 1 then t1 + w else w := ⟨_, rfl⟩
  have hp : t1 ≤ w' ∧ w ≤ w' := by
    rw [hw']
    split
    · constructor <;> linarith
    · constructor <;> linarith
  refine ⟨w', hp.1, hp.2, twoPlates_intro
    (x := [![t1 + cos alpha * w', sin alpha * w'], ![t1, 0], ![t1 + cos (alpha + π / 2) * t1, sin (alpha + π / 2) * t1],
      ![t1 + (cos alpha * w' + cos (alpha + π / 2) * t1), sin alpha * w' + sin (alpha + π / 2) * t1]])
    (y := [![w', -b], ![0, -b], ![0, -t2 - b], ![w', -t2 - b]]) ?_ ?_ ?_ ?_ ?_⟩
  · refine ⟨?_, ?_, ?_, by simp [cornerPlates]; linarith, h1⟩ <;> simp [dot, cornerPlates] <;> nlinarith
  · refine ⟨?_, ?_, ?_, by simp [cornerPlates]; linarith, h2⟩ <;> simp [dot, cornerPlates]
  · refine Or.inl (list4 ?_ ?_ ?_ ?_) <;>
      (ext i; fin_cases i <;> simp [Plate.at, cornerPlates, Real.cos_add_pi_div_two, Real.sin_add_pi_div_two]) <;> ring
  · refine Or.inl (list4 ?_ ?_ ?_ ?_) <;> (ext i; fin_cases i <;> simp [Plate.at, cornerPlates]) <;> ring
  · simp only [ffPoints, ff311, ← hw']

/-- 3.1.1 with an angle of at most ninety degrees: plates of both thicknesses with the angle between them in the distance of the root
gap -/
theorem C74_corner {w t1 t2 alpha b : ℝ} (hw : 0 < w) (h1 : 0 < t1) (h2 : 0 < t2) (hb : 0 ≤ b) (ha0 : 0 ≤ alpha) (ha1 : alpha ≤ π / 2)
    (e : Option ℝ) :
    ∃ P Q : Plate, TwoPlates (profileFF (some .c311) w t1 (some t2) (some alpha) (some b) e) P Q ∧ P.thick = t1 ∧ Q.thick = t2 ∧
      dot P.dir Q.dir = cos alpha ∧ dot P.dir (-Q.side) = sin alpha ∧ w ≤ P.length ∧ w ≤ Q.length ∧ Apart P Q ∧ Gap P Q b := by
  obtain ⟨w', hw1, hw2, hp⟩ := corner_profile (alpha := alpha) (b := b) hw h1 h2 e
  have hc : 0 ≤ cos alpha := Real.cos_nonneg_of_mem_Icc ⟨by linarith, ha1⟩
  have hs : 0 ≤ sin alpha := Real.sin_nonneg_of_nonneg_of_le_pi ha0 (by linarith [Real.pi_pos])
  refine ⟨_, _, hp, rfl, rfl, by simp [dot, cornerPlates], by simp [dot, cornerPlates], hw2, hw2, ?_, ?_, ?_⟩
  · rintro p ⟨r, s, h3, _, h4, _, rfl⟩ ⟨r', s', _, _, h5, _, he⟩
    have := congrFun he 1
    simp [Plate.at, cornerPlates] at this
    nlinarith [mul_nonneg h3.le hs, mul_nonneg h4.le hc]
  · rintro p ⟨r, s, h3, _, h4, _, rfl⟩ q ⟨r', s', _, _, h5, _, rfl⟩
    refine le_len_of_dot (d := ![0, -1]) (by simp [dot]) hb ?_
    simp [dot, Plate.at, cornerPlates]
    nlinarith [mul_nonneg h3 hs, mul_nonneg h4 hc]
  · refine ⟨![t1, 0], ⟨0, 0, le_refl _, ?_, le_refl _, h1.le, ?_⟩, ![t1, -b], ⟨t1, 0, h1.le, hw1, le_refl _, h2.le, ?_⟩, ?_⟩
    · simp [cornerPlates]; linarith
    · ext i; fin_cases i <;> simp [Plate.at, cornerPlates]
    · ext i; fin_cases i <;> simp [Plate.at, cornerPlates]
    · simp [len, dot, Real.sqrt_mul_self hb]

/-- 3.1.1 with an obtuse angle: the distance is smaller than the root gap by `t1 * |cos alpha|`. -/
theorem C74_corner_obtuse {w t1 t2 alpha b : ℝ} (hw : 0 < w) (h1 : 0 < t1) (h2 : 0 < t2) (ha0 : π / 2 ≤ alpha) (ha1 : alpha ≤ π)
    (hb : 0 ≤ b + t1 * cos alpha) (e : Option ℝ) :
    ∃ P Q : Plate, TwoPlates (profileFF (some .c311) w t1 (some t2) (some alpha) (some b) e) P Q ∧ Gap P Q (b + t1 * cos alpha) := by
  obtain ⟨w', hw1, hw2, hp⟩ := corner_profile (alpha := alpha) (b := b) hw h1 h2 e
  have hc : cos alpha ≤ 0 := Real.cos_nonpos_of_pi_div_two_le_of_le ha0 (by linarith)
  have hs : 0 ≤ sin alpha := Real.sin_nonneg_of_nonneg_of_le_pi (by linarith [Real.pi_pos]) ha1
  have hs1 := Real.sin_le_one alpha
  refine ⟨_, _, hp, ?_, ?_⟩
  · rintro p ⟨r, s, h3, _, _, h4, rfl⟩ q ⟨r', s', _, _, h5, _, rfl⟩
    refine le_len_of_dot (d := ![0, -1]) (by simp [dot]) hb ?_
    have h4' : s ≤ t1 := h4
    simp [dot, Plate.at, cornerPlates]
    nlinarith [mul_nonneg h3 hs, mul_nonneg (sub_nonneg.2 h4') (neg_nonneg.2 hc)]
  · refine ⟨![t1 - t1 * sin alpha, t1 * cos alpha], ⟨0, t1, le_refl _, ?_, h1.le, le_refl _, ?_⟩, ![t1 - t1 * sin alpha, -b],
      ⟨t1 - t1 * sin alpha, 0, ?_, ?_, le_refl _, h2.le, ?_⟩, ?_⟩
    · simp [cornerPlates]; linarith
    · ext i; fin_cases i <;> simp [Plate.at, cornerPlates]; ring
    · nlinarith
    · simp only [cornerPlates]; nlinarith [mul_nonneg h1.le hs]
    · ext i; fin_cases i <;> simp [Plate.at, cornerPlates]
    · have : (-b - t1 * cos alpha) * (-b - t1 * cos alpha) = (b + t1 * cos alpha) * (b + t1 * cos alpha) := by ring
      simp [len, dot, this, Real.sqrt_mul_self hb]

/-- 3.1.1 with an obtuse angle and a small root gap: the plates overlap. -/
theorem C74_corner_overlap {w t1 t2 alpha b : ℝ} (hw : 0 < w) (h1 : 0 < t1) (h2 : 0 < t2) (hb0 : 0 ≤ b) (ha0 : 0 ≤ alpha)
    (ha1 : alpha < π) (hb : b + t1 * cos alpha < 0) (e : Option ℝ) :
    ∃ P Q : Plate, TwoPlates (profileFF (some .c311) w t1 (some t2) (some alpha) (some b) e) P Q ∧ ¬ Apart P Q := by
  obtain ⟨w', hw1, hw2, hp⟩ := corner_profile (alpha := alpha) (b := b) hw h1 h2 e
  refine ⟨_, _, hp, ?_⟩
  obtain ⟨c, hc⟩ : ∃ c, c = -cos alpha := ⟨_, rfl⟩
  obtain ⟨S, hS⟩ : ∃ S, S = sin alpha := ⟨_, rfl⟩
  have hS0 : 0 ≤ S := hS ▸ Real.sin_nonneg_of_nonneg_of_le_pi ha0 ha1.le
  have hS1 : S ≤ 1 := hS ▸ Real.sin_le_one alpha
  have hc1 : c ≤ 1 := by rw [hc]; linarith [Real.neg_one_le_cos alpha]
  have hcc : cos alpha = -c := by rw [hc]; ring
  rw [hcc] at hb
  have hc0 : 0 < c := by nlinarith
  obtain ⟨δ, hδ⟩ : ∃ δ, δ = min t2 (t1 * c - b) / 2 := ⟨_, rfl⟩
  have hδ0 : 0 < δ := by rw [hδ]; exact half_pos (lt_min h2 (by linarith))
  have hδ1 : δ < t2 := by have := min_le_left t2 (t1 * c - b); linarith
  have hδ2 : b + δ < t1 * c := by have := min_le_right t2 (t1 * c - b); linarith
  obtain ⟨s, hs⟩ : ∃ s, s = (b + δ) / c := ⟨_, rfl⟩
  have hsc : s * c = b + δ := by rw [hs]; field_simp
  have hs0 : 0 < s := by rw [hs]; exact div_pos (by linarith) hc0
  have hs1 : s < t1 := by nlinarith
  have hsS : s * S < t1 := by nlinarith
  obtain ⟨r, hr⟩ : ∃ r, r = min (min (δ / 2) ((t1 - s * S) / 2)) (w' / 2) := ⟨_, rfl⟩
  have hr0 : 0 < r := by rw [hr]; exact lt_min (lt_min (by linarith) (by linarith)) (by linarith)
  have hr1 : r ≤ δ / 2 := hr ▸ (min_le_left _ _).trans (min_le_left _ _)
  have hr2 : r ≤ (t1 - s * S) / 2 := hr ▸ (min_le_left _ _).trans (min_le_right _ _)
  have hr3 : r ≤ w' / 2 := hr ▸ min_le_right _ _
  intro h
  refine h ((cornerPlates w' t1 t2 alpha b).1.at r s) ⟨r, s, hr0, ?_, hs0, hs1, rfl⟩
    ⟨t1 - r * c - s * S, δ - r * S, ?_, ?_, ?_, ?_, ?_⟩
  · simp only [cornerPlates]; linarith
  · nlinarith
  · simp only [cornerPlates]; nlinarith [mul_pos hr0 hc0, mul_nonneg hs0.le hS0]
  · nlinarith
  · simp only [cornerPlates]; nlinarith [mul_nonneg hr0.le hS0]
  · ext i; fin_cases i
    · simp [Plate.at, cornerPlates, hcc, ← hS]; ring
    · simp [Plate.at, cornerPlates, hcc, ← hS]; linarith

/-- the plates of 3.1.3 and 4.1.1 -/
noncomputable def bendPlates (w t1 t2 alpha b : ℝ) : Plate × Plate :=
  (⟨![0, 0], ![-1, 0], ![0, 1], w, t1⟩,
   ⟨![sin alpha * t2 + (cos alpha * b + b), cos alpha * t2 - sin alpha * b], ![cos alpha, -sin alpha], ![-sin alpha, -cos alpha], w, t2⟩)

theorem bend_dot (w t1 t2 alpha b r s r' s' : ℝ) :
    dot ![cos (alpha / 2), -sin (alpha / 2)] ((bendPlates w t1 t2 alpha b).2.at r' s' - (bendPlates w t1 t2 alpha b).1.at r s) =
      2 * b * cos (alpha / 2) + r' * cos (alpha / 2) + (t2 - s') * sin (alpha / 2) + r * cos (alpha / 2) + s * sin (alpha / 2) := by
  have hcs2 := Real.sin_sq_add_cos_sq (alpha / 2)
  have ec : cos alpha = 2 * cos (alpha / 2) ^ 2 - 1 := by rw [← Real.cos_two_mul]; congr 1; ring
  have es : sin alpha = 2 * sin (alpha / 2) * cos (alpha / 2) := by rw [← Real.sin_two_mul]; congr 1; ring
  simp only [dot, Plate.at, bendPlates]
  simp
  rw [ec, es]
  linear_combination (2 * b * cos (alpha / 2) + 2 * r' * cos (alpha / 2)) * hcs2

/-- 3.1.3 and 4.1.1: plates of both thicknesses; the angle between their fronts is the groove angle, but their distance is
`2 * b * cos (alpha / 2)`. -/
theorem C74_bend {code : FFCode} (hc : code = .c313 ∨ code = .c411) {w t1 t2 alpha b : ℝ} (hw : 0 < w) (h1 : 0 < t1) (h2 : 0 < t2)
    (hb : 0 ≤ b) (ha0 : 0 ≤ alpha) (ha1 : alpha ≤ π) (e : Option ℝ) :
    ∃ P Q : Plate, TwoPlates (profileFF (some code) w t1 (some t2) (some alpha) (some b) e) P Q ∧ P.thick = t1 ∧ Q.thick = t2 ∧
      dot P.side (-Q.side) = cos alpha ∧ dot (-P.dir) (-Q.side) = sin alpha ∧ P.length = w ∧ Q.length = w ∧ Apart P Q ∧
      Gap P Q (2 * b * cos (alpha / 2)) := by
  have hcs := Real.sin_sq_add_cos_sq alpha
  have hc2 : 0 ≤ cos (alpha / 2) := Real.cos_nonneg_of_mem_Icc ⟨by linarith [Real.pi_pos], by linarith⟩
  have hs2 : 0 ≤ sin (alpha / 2) := Real.sin_nonneg_of_nonneg_of_le_pi (by linarith) (by linarith [Real.pi_pos])
  have hcs2 := Real.sin_sq_add_cos_sq (alpha / 2)
  have ec : cos alpha = 2 * cos (alpha / 2) ^ 2 - 1 := by rw [← Real.cos_two_mul]; congr 1; ring
  refine ⟨(bendPlates w t1 t2 alpha b).1, (bendPlates w t1 t2 alpha b).2,
    twoPlates_intro (x := [![-w, 0], ![0, 0], ![0, t1], ![-w, t1]])
      (y := [![sin alpha * t2 + (cos alpha * b + b) + (cos alpha * (b + w) + b) - (cos alpha * b + b),
          cos alpha * t2 + -sin alpha * b + -sin alpha * (b + w) - -sin alpha * b],
        ![sin alpha * t2 + (cos alpha * b + b), cos alpha * t2 + -sin alpha * b], ![cos alpha * b + b, -sin alpha * b],
        ![cos alpha * (b + w) + b, -sin alpha * (b + w)]])
      ?_ ?_ ?_ ?_ ?_, rfl, rfl, ?_, ?_, rfl, rfl, ?_, ⟨?_, ?_⟩⟩
  · exact ⟨by simp [dot, bendPlates], by simp [dot, bendPlates], by simp [dot, bendPlates], hw, h1⟩
  · refine ⟨?_, ?_, ?_, hw, h2⟩ <;> simp [dot, bendPlates] <;> nlinarith
  · refine Or.inl (list4 ?_ ?_ ?_ ?_) <;> (ext i; fin_cases i <;> simp [Plate.at, bendPlates])
  · refine Or.inl (list4 ?_ ?_ ?_ ?_) <;> (ext i; fin_cases i <;> simp [Plate.at, bendPlates]) <;> ring
  · rcases hc with rfl | rfl <;> simp only [ffPoints, ff313, Real.cos_add_pi_div_two, Real.sin_add_pi_div_two]
  · simp [dot, bendPlates]
  · simp [dot, bendPlates]
  · rintro p ⟨r, s, h3, _, h4, _, rfl⟩ ⟨r', s', h5, _, _, h6, he⟩
    have h6' : s' < t2 := h6
    have := bend_dot w t1 t2 alpha b r s r' s'
    rw [he, sub_self] at this
    simp [dot] at this
    have h7 : 0 ≤ b * cos (alpha / 2) := mul_nonneg hb hc2
    have h8 := mul_nonneg h5.le hc2
    have h9 := mul_nonneg (sub_nonneg.2 h6'.le) hs2
    have h10 := mul_nonneg h3.le hc2
    have h11 := mul_nonneg h4.le hs2
    have h12 : r * cos (alpha / 2) = 0 := by linarith
    have h13 : s * sin (alpha / 2) = 0 := by linarith
    have h14 := (mul_eq_zero.1 h12).resolve_left h3.ne'
    have h15 := (mul_eq_zero.1 h13).resolve_left h4.ne'
    rw [h14, h15] at hcs2
    norm_num at hcs2
  · rintro p ⟨r, s, h3, _, h4, _, rfl⟩ q ⟨r', s', h5, _, _, h6, rfl⟩
    have h6' : s' ≤ t2 := h6
    refine le_len_of_dot (d := ![cos (alpha / 2), -sin (alpha / 2)]) (by simp [dot]; nlinarith) (by positivity) ?_
    rw [bend_dot]
    linarith [mul_nonneg h5 hc2, mul_nonneg (sub_nonneg.2 h6') hs2, mul_nonneg h3 hc2, mul_nonneg h4 hs2]
  · refine ⟨![0, 0], ⟨0, 0, le_refl _, hw.le, le_refl _, h1.le, ?_⟩, ![cos alpha * b + b, -(sin alpha * b)],
      ⟨0, t2, le_refl _, hw.le, h2.le, le_refl _, ?_⟩, ?_⟩
    · ext i; fin_cases i <;> simp [Plate.at, bendPlates]
    · ext i; fin_cases i <;> simp [Plate.at, bendPlates] <;> ring
    · have : dot (![cos alpha * b + b, -(sin alpha * b)] - ![0, 0]) (![cos alpha * b + b, -(sin alpha * b)] - ![0, 0]) =
          (2 * b * cos (alpha / 2)) * (2 * b * cos (alpha / 2)) := by
        simp [dot]
        have e2 : cos (alpha / 2) ^ 2 = (1 + cos alpha) / 2 := by rw [ec]; ring
        have e3 : 2 * b * cos (alpha / 2) * (2 * b * cos (alpha / 2)) = 4 * b ^ 2 * cos (alpha / 2) ^ 2 := by ring
        rw [e3, e2]
        linear_combination (b ^ 2) * hcs
      rw [len, this, Real.sqrt_mul_self (by positivity)]

theorem Gap.unique {P Q : Plate} {g g' : ℝ} (h : Gap P Q g) (h' : Gap P Q g') : g = g' := by
  obtain ⟨h1, p, hp, q, hq, e⟩ := h
  obtain ⟨h1', p', hp', q', hq', e'⟩ := h'
  exact le_antisymm (e' ▸ h1 p' hp' q' hq') (e ▸ h1' p hp q hq)

/-- the distance in 3.1.3 and 4.1.1 is the root gap only without a gap or for 120 degrees -/
theorem C74_bend_gap {w t1 t2 alpha b : ℝ} (hw : 0 < w) (h1 : 0 < t1) (h2 : 0 < t2) (hb : 0 ≤ b) (ha0 : 0 ≤ alpha) (ha1 : alpha ≤ π)
    (e : Option ℝ) :
    ∃ P Q : Plate, TwoPlates (profileFF (some .c313) w t1 (some t2) (some alpha) (some b) e) P Q ∧
      (Gap P Q b ↔ b = 0 ∨ alpha = 2 * π / 3) := by
  obtain ⟨P, Q, h, _, _, _, _, _, _, _, hg⟩ := C74_bend (Or.inl rfl) hw h1 h2 hb ha0 ha1 e
  refine ⟨P, Q, h, fun hb' => ?_, fun hb' => ?_⟩
  · have := hb'.unique hg
    by_cases h0 : b = 0
    · exact Or.inl h0
    · right
      have h3 : cos (alpha / 2) = cos (π / 3) := by
        rw [Real.cos_pi_div_three]
        have : b * (2 * cos (alpha / 2) - 1) = 0 := by linarith
        rcases mul_eq_zero.1 this with h | h
        · exact absurd h h0
        · linarith
      have := Real.injOn_cos ⟨by linarith, by linarith⟩ ⟨by linarith [Real.pi_pos], by linarith [Real.pi_pos]⟩ h3
      linarith
  · rcases hb' with rfl | rfl
    · simpa using hg
    · have : 2 * π / 3 / 2 = π / 3 := by ring
      rw [this, Real.cos_pi_div_three] at hg
      have e : 2 * b * (1 / 2) = b := by ring
      rwa [e] at hg

/-- the plates of 4.1.2 -/
noncomputable def depthPlates (w t1 t2 alpha e : ℝ) : Plate × Plate :=
  (⟨![0, 0], ![-1, 0], ![0, 1], w, t1⟩,
   ⟨![sin alpha * e, cos alpha * e], ![cos alpha, -sin alpha], ![-sin alpha, -cos alpha], w, t2⟩)

theorem depth_profile {w t1 t2 alpha e : ℝ} (hw : 0 < w) (h1 : 0 < t1) (h2 : 0 < t2) (b : Option ℝ) :
    TwoPlates (profileFF (some .c412) w t1 (some t2) (some alpha) b (some e)) (depthPlates w t1 t2 alpha e).1
      (depthPlates w t1 t2 alpha e).2 := by
  have hcs := Real.sin_sq_add_cos_sq alpha
  refine twoPlates_intro (x := [![-w, 0], ![0, 0], ![0, t1], ![-w, t1]])
      (y := [![sin alpha * e + cos alpha * w, cos alpha * e + -sin alpha * w], ![sin alpha * e, cos alpha * e],
        ![-sin alpha * (t2 - e), -cos alpha * (t2 - e)], ![-sin alpha * (t2 - e) + cos alpha * w, -cos alpha * (t2 - e) + -sin alpha * w]])
      ?_ ?_ ?_ ?_ ?_
  · exact ⟨by simp [dot, depthPlates], by simp [dot, depthPlates], by simp [dot, depthPlates], hw, h1⟩
  · refine ⟨?_, ?_, ?_, hw, h2⟩ <;> simp [dot, depthPlates] <;> nlinarith
  · refine Or.inl (list4 ?_ ?_ ?_ ?_) <;> (ext i; fin_cases i <;> simp [Plate.at, depthPlates])
  · refine Or.inl (list4 ?_ ?_ ?_ ?_) <;> (ext i; fin_cases i <;> simp [Plate.at, depthPlates]) <;> ring
  · simp only [ffPoints, ff412, Real.cos_add_pi_div_two, Real.sin_add_pi_div_two, Real.cos_add_pi, Real.sin_add_pi]

/-- 4.1.2 with an angle of at most ninety degrees: plates of both thicknesses that touch at the end of the special depth; the angle
between the fronts is the groove angle. -/
theorem C74_depth {w t1 t2 alpha e : ℝ} (hw : 0 < w) (h1 : 0 < t1) (h2 : 0 < t2) (he0 : 0 ≤ e) (he : e ≤ t2) (ha0 : 0 ≤ alpha)
    (ha1 : alpha ≤ π / 2) (b : Option ℝ) :
    ∃ P Q : Plate, TwoPlates (profileFF (some .c412) w t1 (some t2) (some alpha) b (some e)) P Q ∧ P.thick = t1 ∧ Q.thick = t2 ∧
      dot P.side (-Q.side) = cos alpha ∧ dot (-P.dir) (-Q.side) = sin alpha ∧ P.length = w ∧ Q.length = w ∧
      P.corner = Q.at 0 e ∧ Apart P Q ∧ Gap P Q 0 := by
  have hc : 0 ≤ cos alpha := Real.cos_nonneg_of_mem_Icc ⟨by linarith, ha1⟩
  have hs : 0 ≤ sin alpha := Real.sin_nonneg_of_nonneg_of_le_pi ha0 (by linarith [Real.pi_pos])
  have hcs := Real.sin_sq_add_cos_sq alpha
  refine ⟨_, _, depth_profile hw h1 h2 b, rfl, rfl, ?_, ?_, rfl, rfl, ?_, ?_, ?_, ?_⟩
  · simp [dot, depthPlates]
  · simp [dot, depthPlates]
  · ext i; fin_cases i <;> simp [Plate.at, depthPlates] <;> ring
  · rintro p ⟨r, s, h3, _, h4, _, rfl⟩ ⟨r', s', h5, _, _, _, hh⟩
    have e0 := congrFun hh 0
    have e1 := congrFun hh 1
    simp [Plate.at, depthPlates] at e0 e1
    have h6 : 0 ≤ r' * cos alpha := mul_nonneg h5.le hc
    have h7 : 0 ≤ r' * sin alpha := mul_nonneg h5.le hs
    rcases le_or_gt s' e with h | h
    · nlinarith [mul_nonneg (sub_nonneg.2 h) hs]
    · nlinarith [mul_nonneg (sub_nonneg.2 h.le) hc]
  · exact fun p _ q _ => len_nonneg _
  · refine ⟨![0, 0], ⟨0, 0, le_refl _, hw.le, le_refl _, h1.le, ?_⟩, ![0, 0], ⟨0, e, le_refl _, hw.le, he0, he, ?_⟩, ?_⟩
    · ext i; fin_cases i <;> simp [Plate.at, depthPlates]
    · ext i; fin_cases i <;> simp [Plate.at, depthPlates] <;> ring
    · simp [len, dot]

/-- 4.1.2 with an obtuse angle and a special depth smaller than the thickness: the plates overlap. -/
theorem C74_depth_overlap {w t1 t2 alpha e : ℝ} (hw : 0 < w) (h1 : 0 < t1) (he0 : 0 ≤ e) (he : e < t2) (ha0 : π / 2 < alpha)
    (ha1 : alpha ≤ π) (b : Option ℝ) :
    ∃ P Q : Plate, TwoPlates (profileFF (some .c412) w t1 (some t2) (some alpha) b (some e)) P Q ∧ ¬ Apart P Q := by
  refine ⟨_, _, depth_profile hw h1 (by linarith) b, ?_⟩
  obtain ⟨c, hc⟩ : ∃ c, c = -cos alpha := ⟨_, rfl⟩
  obtain ⟨S, hS⟩ : ∃ S, S = sin alpha := ⟨_, rfl⟩
  have hS0 : 0 ≤ S := hS ▸ Real.sin_nonneg_of_nonneg_of_le_pi (by linarith [Real.pi_pos]) ha1
  have hS1 : S ≤ 1 := hS ▸ Real.sin_le_one alpha
  have hc1 : c ≤ 1 := by rw [hc]; linarith [Real.neg_one_le_cos alpha]
  have hc0 : 0 < c := by rw [hc]; linarith [Real.cos_neg_of_pi_div_two_lt_of_lt ha0 (by linarith)]
  have hcc : cos alpha = -c := by rw [hc]; ring
  obtain ⟨u, hu⟩ : ∃ u, u = min (min (t2 - e) t1) w / 2 := ⟨_, rfl⟩
  have hu0 : 0 < u := by rw [hu]; exact half_pos (lt_min (lt_min (by linarith) h1) hw)
  have hu1 : 2 * u ≤ t2 - e := by rw [hu]; linarith [(min_le_left (min (t2 - e) t1) w).trans (min_le_left _ _)]
  have hu2 : 2 * u ≤ t1 := by rw [hu]; linarith [(min_le_left (min (t2 - e) t1) w).trans (min_le_right _ _)]
  have hu3 : 2 * u ≤ w := by rw [hu]; linarith [min_le_right (min (t2 - e) t1) w]
  have huc : 0 < u * c := mul_pos hu0 hc0
  have huc1 : u * c ≤ u := by nlinarith
  intro h
  refine h ((depthPlates w t1 t2 alpha e).2.at (u * c / 2) (e + u)) ⟨u * S + u * c / 2 * c, u * c - u * c / 2 * S, ?_, ?_, ?_, ?_, ?_⟩
    ⟨u * c / 2, e + u, ?_, ?_, ?_, ?_, rfl⟩
  · nlinarith [mul_nonneg hu0.le hS0, mul_pos huc hc0]
  · simp only [depthPlates]; nlinarith [mul_nonneg hu0.le (sub_nonneg.2 hS1), mul_nonneg huc.le (sub_nonneg.2 hc1)]
  · nlinarith [mul_nonneg huc.le (sub_nonneg.2 hS1)]
  · simp only [depthPlates]; nlinarith [mul_nonneg huc.le hS0]
  · ext i; fin_cases i <;> simp [Plate.at, depthPlates, hcc, ← hS] <;> ring
  · linarith
  · simp only [depthPlates]; linarith
  · linarith
  · simp only [depthPlates]; linarith

/-- which parameters a code number needs, from the description of the class: second thickness, angle, root gap, special depth -/
def needs : FFCode → Bool × Bool × Bool × Bool
  | .c112 | .c113 | .c212 => (false, false, false, false)
  | .c311 | .c313 | .c411 => (true, true, true, false)
  | .c312 | .c413 => (true, false, true, false)
  | .c412 => (true, true, false, true)

/-- a code number without a parameter that it needs is rejected -/
theorem C74_missing (code : FFCode) (w t1 : ℝ) (t2 alpha b e : Option ℝ) :
    profileFF (some code) w t1 t2 alpha b e = .error .typeError ↔
      (needs code).1 = true ∧ t2 = none ∨ (needs code).2.1 = true ∧ alpha = none ∨ (needs code).2.2.1 = true ∧ b = none ∨
        (needs code).2.2.2 = true ∧ e = none := by
  have hm : ∀ p q : Geo.V, mkLine p q ≠ .error .typeError := by
    intro p q
    unfold mkLine
    split <;> simp
  have hpl : ∀ ps : List Geo.V, polyline ps ≠ .error .typeError := by
    intro ps
    induction ps with
    | nil => simp [polyline]
    | cons p r ih =>
      cases r with
      | nil => simp [polyline]
      | cons q r =>
        simp only [polyline]
        cases hl : mkLine p q with
        | error x => simp only; intro hh; cases hh; exact hm p q hl
        | ok s =>
          simp only
          cases hr : polyline (q :: r) with
          | error x => simp only; intro hh; cases hh; exact ih hr
          | ok l => simp
  have hps : ∀ pss : List (List Geo.V), polylines pss ≠ .error .typeError := by
    intro pss
    induction pss with
    | nil => simp [polylines]
    | cons p r ih =>
      simp only [polylines]
      cases hl : polyline p with
      | error x => simp only; intro hh; cases hh; exact hpl p hl
      | ok s =>
        simp only
        cases hr : polylines r with
        | error x => simp only; intro hh; cases hh; exact ih hr
        | ok l => simp
  cases code <;> cases t2 <;> cases alpha <;> cases b <;> cases e <;> simp [profileFF, ffPoints, needs, hps]

/-- other code numbers are rejected -/
theorem C74_unknown (w t1 : ℝ) (t2 alpha b e : Option ℝ) : profileFF none w t1 t2 alpha b e = .error .valueError := rfl

/-! ### C74: creation and storage -/

/-- the arguments of `get_groove` for the attributes of the classes, from its description -/
def argumentOf : GrooveType → List (String × (Args → Option ℝ))
  | .I => [("t", Args.workpieceThickness), ("b", Args.rootGap)]
  | .V => [("t", Args.workpieceThickness), ("alpha", Args.grooveAngle), ("b", Args.rootGap), ("c", Args.rootFace)]
  | .VV => [("t", Args.workpieceThickness), ("alpha", Args.grooveAngle), ("beta", Args.bevelAngle), ("b", Args.rootGap),
      ("c", Args.rootFace), ("h", Args.rootFace2)]
  | .UV => [("t", Args.workpieceThickness), ("alpha", Args.grooveAngle), ("beta", Args.bevelAngle), ("R", Args.bevelRadius),
      ("b", Args.rootGap), ("h", Args.rootFace)]
  | .U => [("t", Args.workpieceThickness), ("beta", Args.bevelAngle), ("R", Args.bevelRadius), ("b", Args.rootGap),
      ("c", Args.rootFace)]
  | .HV => [("t", Args.workpieceThickness), ("beta", Args.bevelAngle), ("b", Args.rootGap), ("c", Args.rootFace)]
  | .HU => [("t", Args.workpieceThickness), ("beta", Args.bevelAngle), ("R", Args.bevelRadius), ("b", Args.rootGap),
      ("c", Args.rootFace)]
  | .DV => [("t", Args.workpieceThickness), ("alpha_1", Args.grooveAngle), ("alpha_2", Args.grooveAngle2), ("b", Args.rootGap),
      ("c", Args.rootFace), ("h1", Args.rootFace2), ("h2", Args.rootFace3)]
  | .DU => [("t", Args.workpieceThickness), ("beta_1", Args.bevelAngle), ("beta_2", Args.bevelAngle2), ("R", Args.bevelRadius),
      ("R2", Args.bevelRadius2), ("b", Args.rootGap), ("c", Args.rootFace), ("h1", Args.rootFace2), ("h2", Args.rootFace3)]
  | .DHV => [("t", Args.workpieceThickness), ("beta_1", Args.bevelAngle), ("beta_2", Args.bevelAngle2), ("b", Args.rootGap),
      ("c", Args.rootFace), ("h1", Args.rootFace2), ("h2", Args.rootFace3)]
  | .DHU => [("t", Args.workpieceThickness), ("beta_1", Args.bevelAngle), ("beta_2", Args.bevelAngle2), ("R", Args.bevelRadius),
      ("R2", Args.bevelRadius2), ("b", Args.rootGap), ("c", Args.rootFace), ("h1", Args.rootFace2), ("h2", Args.rootFace3)]
  | .FF => [("t_1", Args.workpieceThickness), ("t_2", Args.workpieceThickness2), ("alpha", Args.grooveAngle), ("b", Args.rootGap),
      ("e", Args.specialDepth)]

/-- the attributes that must be given -/
def mandatory : GrooveType → List String
  | .I => ["t"]
  | .V => ["t", "alpha"]
  | .VV => ["t", "alpha", "beta", "h"]
  | .UV => ["t", "alpha", "beta", "R"]
  | .U => ["t", "beta", "R"]
  | .HV => ["t", "beta"]
  | .HU => ["t", "beta", "R"]
  | .DV => ["t", "alpha_1", "alpha_2"]
  | .DU => ["t", "beta_1", "beta_2", "R", "R2"]
  | .DHV => ["t", "beta_1", "beta_2"]
  | .DHU => ["t", "beta_1", "beta_2", "R", "R2"]
  | .FF => ["t_1"]

/-- a stored groove is read as the same groove, i.e. with its class and all its attributes -/
theorem C74_file {g0 g : Groove} (h : postInit g0 = .ok g) : g.write.read = .ok g := by
  have hck : ∀ g : Groove, ∀ g', checkParameters g = .ok g' → g' = g := by
    intro g g' h
    unfold checkParameters at h
    split at h
    · cases h; rfl
    · cases h
  cases g0 with
  | FF t1 t2 alpha b e =>
    have h' : checkParameters (.FF t1 t2 alpha b e) = .ok g := h
    have := hck _ _ h'
    subst this
    cases t2 <;> cases alpha <;> cases b <;> cases e <;>
      simpa [Groove.write, GrooveTree.read, attr, required, List.lookup, bind, Except.bind, postInit] using h'
  | DV t a1 a2 c h1 h2 b =>
    simp only [postInit, Except.ok.injEq] at h
    subst h
    cases h1 <;> cases h2 <;>
      simp [Groove.write, GrooveTree.read, attr, required, List.lookup, bind, Except.bind, postInit, defaultHeights]
  | DU t b1 b2 R R2 c h1 h2 b =>
    simp only [postInit, Except.ok.injEq] at h
    subst h
    cases h1 <;> cases h2 <;>
      simp [Groove.write, GrooveTree.read, attr, required, List.lookup, bind, Except.bind, postInit, defaultHeights]
  | DHV t b1 b2 c h1 h2 b =>
    simp only [postInit, Except.ok.injEq] at h
    subst h
    cases h1 <;> cases h2 <;>
      simp [Groove.write, GrooveTree.read, attr, required, List.lookup, bind, Except.bind, postInit, defaultHeights]
  | DHU t b1 b2 R R2 c h1 h2 b =>
    simp only [postInit, Except.ok.injEq] at h
    subst h
    cases h1 <;> cases h2 <;>
      simp [Groove.write, GrooveTree.read, attr, required, List.lookup, bind, Except.bind, postInit, defaultHeights]
  | _ =>
    have h' := h
    simp only [postInit] at h'
    have := hck _ _ h'
    subst this
    simpa [Groove.write, GrooveTree.read, attr, required, List.lookup, bind, Except.bind] using h

theorem checkParameters_ok {g g' : Groove} (h : checkParameters g = .ok g') : g' = g := by
  unfold checkParameters at h
  split at h
  · cases h; rfl
  · cases h

set_option maxHeartbeats 1000000 in
/-- `get_groove` hands every given argument to the attribute of its description -/
theorem C74_args {k : GrooveType} {a : Args} {g : Groove} (h : getGroove k a = .ok g) :
    g.write.kind = k ∧ ∀ f ∈ argumentOf k, ∀ x, f.2 a = some x → g.write.attrs.lookup f.1 = some x := by
  obtain ⟨t, t2, b, c, h1, h2, R, R2, be, be2, al, al2, e⟩ := a
  cases k
  case FF =>
    cases t with
    | none => simp [getGroove, construct, required, bind, Except.bind] at h
    | some t =>
      simp only [getGroove, construct, required, bind, Except.bind, postInit] at h
      have := checkParameters_ok h
      subst this
      refine ⟨rfl, ?_⟩
      cases t2 <;> cases al <;> cases b <;> cases e <;> simp [argumentOf, Groove.write, attr, List.lookup]
  case I =>
    rcases t with _ | t
    · simp [getGroove, construct, required, bind, Except.bind] at h
    simp only [getGroove, construct, required, bind, Except.bind, postInit] at h
    have := checkParameters_ok h
    subst this
    refine ⟨rfl, ?_⟩
    cases b <;>
      simp [argumentOf, Groove.write, attr, List.lookup, defaultHeights]
  case V =>
    rcases t with _ | t
    · simp [getGroove, construct, required, bind, Except.bind] at h
    rcases al with _ | al
    · simp [getGroove, construct, required, bind, Except.bind] at h
    simp only [getGroove, construct, required, bind, Except.bind, postInit] at h
    have := checkParameters_ok h
    subst this
    refine ⟨rfl, ?_⟩
    cases b <;> cases c <;>
      simp [argumentOf, Groove.write, attr, List.lookup, defaultHeights]
  case VV =>
    rcases t with _ | t
    · simp [getGroove, construct, required, bind, Except.bind] at h
    rcases al with _ | al
    · simp [getGroove, construct, required, bind, Except.bind] at h
    rcases be with _ | be
    · simp [getGroove, construct, required, bind, Except.bind] at h
    rcases h1 with _ | h1
    · simp [getGroove, construct, required, bind, Except.bind] at h
    simp only [getGroove, construct, required, bind, Except.bind, postInit] at h
    have := checkParameters_ok h
    subst this
    refine ⟨rfl, ?_⟩
    cases b <;> cases c <;>
      simp [argumentOf, Groove.write, attr, List.lookup, defaultHeights]
  case UV =>
    rcases t with _ | t
    · simp [getGroove, construct, required, bind, Except.bind] at h
    rcases al with _ | al
    · simp [getGroove, construct, required, bind, Except.bind] at h
    rcases be with _ | be
    · simp [getGroove, construct, required, bind, Except.bind] at h
    rcases R with _ | R
    · simp [getGroove, construct, required, bind, Except.bind] at h
    simp only [getGroove, construct, required, bind, Except.bind, postInit] at h
    have := checkParameters_ok h
    subst this
    refine ⟨rfl, ?_⟩
    cases b <;> cases c <;>
      simp [argumentOf, Groove.write, attr, List.lookup, defaultHeights]
  case U =>
    rcases t with _ | t
    · simp [getGroove, construct, required, bind, Except.bind] at h
    rcases be with _ | be
    · simp [getGroove, construct, required, bind, Except.bind] at h
    rcases R with _ | R
    · simp [getGroove, construct, required, bind, Except.bind] at h
    simp only [getGroove, construct, required, bind, Except.bind, postInit] at h
    have := checkParameters_ok h
    subst this
    refine ⟨rfl, ?_⟩
    cases b <;> cases c <;>
      simp [argumentOf, Groove.write, attr, List.lookup, defaultHeights]
  case HV =>
    rcases t with _ | t
    · simp [getGroove, construct, required, bind, Except.bind] at h
    rcases be with _ | be
    · simp [getGroove, construct, required, bind, Except.bind] at h
    simp only [getGroove, construct, required, bind, Except.bind, postInit] at h
    have := checkParameters_ok h
    subst this
    refine ⟨rfl, ?_⟩
    cases b <;> cases c <;>
      simp [argumentOf, Groove.write, attr, List.lookup, defaultHeights]
  case HU =>
    rcases t with _ | t
    · simp [getGroove, construct, required, bind, Except.bind] at h
    rcases be with _ | be
    · simp [getGroove, construct, required, bind, Except.bind] at h
    rcases R with _ | R
    · simp [getGroove, construct, required, bind, Except.bind] at h
    simp only [getGroove, construct, required, bind, Except.bind, postInit] at h
    have := checkParameters_ok h
    subst this
    refine ⟨rfl, ?_⟩
    cases b <;> cases c <;>
      simp [argumentOf, Groove.write, attr, List.lookup, defaultHeights]
  case DV =>
    rcases t with _ | t
    · simp [getGroove, construct, required, bind, Except.bind] at h
    rcases al with _ | al
    · simp [getGroove, construct, required, bind, Except.bind] at h
    rcases al2 with _ | al2
    · simp [getGroove, construct, required, bind, Except.bind] at h
    simp only [getGroove, construct, required, bind, Except.bind, postInit] at h
    simp only [Except.ok.injEq] at h
    subst h
    refine ⟨rfl, ?_⟩
    cases b <;> cases c <;> cases h1 <;> cases h2 <;>
      simp [argumentOf, Groove.write, attr, List.lookup, defaultHeights]
  case DU =>
    rcases t with _ | t
    · simp [getGroove, construct, required, bind, Except.bind] at h
    rcases be with _ | be
    · simp [getGroove, construct, required, bind, Except.bind] at h
    rcases be2 with _ | be2
    · simp [getGroove, construct, required, bind, Except.bind] at h
    rcases R with _ | R
    · simp [getGroove, construct, required, bind, Except.bind] at h
    rcases R2 with _ | R2
    · simp [getGroove, construct, required, bind, Except.bind] at h
    simp only [getGroove, construct, required, bind, Except.bind, postInit] at h
    simp only [Except.ok.injEq] at h
    subst h
    refine ⟨rfl, ?_⟩
    cases b <;> cases c <;> cases h1 <;> cases h2 <;>
      simp [argumentOf, Groove.write, attr, List.lookup, defaultHeights]
  case DHV =>
    rcases t with _ | t
    · simp [getGroove, construct, required, bind, Except.bind] at h
    rcases be with _ | be
    · simp [getGroove, construct, required, bind, Except.bind] at h
    rcases be2 with _ | be2
    · simp [getGroove, construct, required, bind, Except.bind] at h
    simp only [getGroove, construct, required, bind, Except.bind, postInit] at h
    simp only [Except.ok.injEq] at h
    subst h
    refine ⟨rfl, ?_⟩
    cases b <;> cases c <;> cases h1 <;> cases h2 <;>
      simp [argumentOf, Groove.write, attr, List.lookup, defaultHeights]
  case DHU =>
    rcases t with _ | t
    · simp [getGroove, construct, required, bind, Except.bind] at h
    rcases be with _ | be
    · simp [getGroove, construct, required, bind, Except.bind] at h
    rcases be2 with _ | be2
    · simp [getGroove, construct, required, bind, Except.bind] at h
    rcases R with _ | R
    · simp [getGroove, construct, required, bind, Except.bind] at h
    rcases R2 with _ | R2
    · simp [getGroove, construct, required, bind, Except.bind] at h
    simp only [getGroove, construct, required, bind, Except.bind, postInit] at h
    simp only [Except.ok.injEq] at h
    subst h
    refine ⟨rfl, ?_⟩
    cases b <;> cases c <;> cases h1 <;> cases h2 <;>
      simp [argumentOf, Groove.write, attr, List.lookup, defaultHeights]

theorem postInit_error {g : Groove} {e : GErr} (h : postInit g = .error e) : e = .valueError := by
  have hck : ∀ g : Groove, checkParameters g = .error e → e = .valueError := by
    intro g h
    unfold checkParameters at h
    split at h
    · cases h
    · cases h; rfl
  cases g <;> first | exact hck _ h | cases h

/-- `get_groove` raises a `TypeError` exactly if an argument for an attribute without default value is missing -/
theorem C74_required (k : GrooveType) (a : Args) :
    getGroove k a = .error .typeError ↔ ∃ f ∈ argumentOf k, f.1 ∈ mandatory k ∧ f.2 a = none := by
  have hp : ∀ g, postInit g ≠ .error .typeError := fun g h => by cases postInit_error h
  obtain ⟨t, t2, b, c, h1, h2, R, R2, be, be2, al, al2, e⟩ := a
  cases k
  case I =>
    rcases t with _ | t
    · simp [getGroove, construct, required, bind, Except.bind, argumentOf, mandatory]
    simp [getGroove, construct, required, bind, Except.bind, argumentOf, mandatory, hp]
  case V =>
    rcases t with _ | t
    · simp [getGroove, construct, required, bind, Except.bind, argumentOf, mandatory]
    rcases al with _ | al
    · simp [getGroove, construct, required, bind, Except.bind, argumentOf, mandatory]
    simp [getGroove, construct, required, bind, Except.bind, argumentOf, mandatory, hp]
  case VV =>
    rcases t with _ | t
    · simp [getGroove, construct, required, bind, Except.bind, argumentOf, mandatory]
    rcases al with _ | al
    · simp [getGroove, construct, required, bind, Except.bind, argumentOf, mandatory]
    rcases be with _ | be
    · simp [getGroove, construct, required, bind, Except.bind, argumentOf, mandatory]
    rcases h1 with _ | h1
    · simp [getGroove, construct, required, bind, Except.bind, argumentOf, mandatory]
    simp [getGroove, construct, required, bind, Except.bind, argumentOf, mandatory, hp]
  case UV =>
    rcases t with _ | t
    · simp [getGroove, construct, required, bind, Except.bind, argumentOf, mandatory]
    rcases al with _ | al
    · simp [getGroove, construct, required, bind, Except.bind, argumentOf, mandatory]
    rcases be with _ | be
    · simp [getGroove, construct, required, bind, Except.bind, argumentOf, mandatory]
    rcases R with _ | R
    · simp [getGroove, construct, required, bind, Except.bind, argumentOf, mandatory]
    simp [getGroove, construct, required, bind, Except.bind, argumentOf, mandatory, hp]
  case U =>
    rcases t with _ | t
    · simp [getGroove, construct, required, bind, Except.bind, argumentOf, mandatory]
    rcases be with _ | be
    · simp [getGroove, construct, required, bind, Except.bind, argumentOf, mandatory]
    rcases R with _ | R
    · simp [getGroove, construct, required, bind, Except.bind, argumentOf, mandatory]
    simp [getGroove, construct, required, bind, Except.bind, argumentOf, mandatory, hp]
  case HV =>
    rcases t with _ | t
    · simp [getGroove, construct, required, bind, Except.bind, argumentOf, mandatory]
    rcases be with _ | be
    · simp [getGroove, construct, required, bind, Except.bind, argumentOf, mandatory]
    simp [getGroove, construct, required, bind, Except.bind, argumentOf, mandatory, hp]
  case HU =>
    rcases t with _ | t
    · simp [getGroove, construct, required, bind, Except.bind, argumentOf, mandatory]
    rcases be with _ | be
    · simp [getGroove, construct, required, bind, Except.bind, argumentOf, mandatory]
    rcases R with _ | R
    · simp [getGroove, construct, required, bind, Except.bind, argumentOf, mandatory]
    simp [getGroove, construct, required, bind, Except.bind, argumentOf, mandatory, hp]
  case DV =>
    rcases t with _ | t
    · simp [getGroove, construct, required, bind, Except.bind, argumentOf, mandatory]
    rcases al with _ | al
    · simp [getGroove, construct, required, bind, Except.bind, argumentOf, mandatory]
    rcases al2 with _ | al2
    · simp [getGroove, construct, required, bind, Except.bind, argumentOf, mandatory]
    simp [getGroove, construct, required, bind, Except.bind, argumentOf, mandatory, hp]
  case DU =>
    rcases t with _ | t
    · simp [getGroove, construct, required, bind, Except.bind, argumentOf, mandatory]
    rcases be with _ | be
    · simp [getGroove, construct, required, bind, Except.bind, argumentOf, mandatory]
    rcases be2 with _ | be2
    · simp [getGroove, construct, required, bind, Except.bind, argumentOf, mandatory]
    rcases R with _ | R
    · simp [getGroove, construct, required, bind, Except.bind, argumentOf, mandatory]
    rcases R2 with _ | R2
    · simp [getGroove, construct, required, bind, Except.bind, argumentOf, mandatory]
    simp [getGroove, construct, required, bind, Except.bind, argumentOf, mandatory, hp]
  case DHV =>
    rcases t with _ | t
    · simp [getGroove, construct, required, bind, Except.bind, argumentOf, mandatory]
    rcases be with _ | be
    · simp [getGroove, construct, required, bind, Except.bind, argumentOf, mandatory]
    rcases be2 with _ | be2
    · simp [getGroove, construct, required, bind, Except.bind, argumentOf, mandatory]
    simp [getGroove, construct, required, bind, Except.bind, argumentOf, mandatory, hp]
  case DHU =>
    rcases t with _ | t
    · simp [getGroove, construct, required, bind, Except.bind, argumentOf, mandatory]
    rcases be with _ | be
    · simp [getGroove, construct, required, bind, Except.bind, argumentOf, mandatory]
    rcases be2 with _ | be2
    · simp [getGroove, construct, required, bind, Except.bind, argumentOf, mandatory]
    rcases R with _ | R
    · simp [getGroove, construct, required, bind, Except.bind, argumentOf, mandatory]
    rcases R2 with _ | R2
    · simp [getGroove, construct, required, bind, Except.bind, argumentOf, mandatory]
    simp [getGroove, construct, required, bind, Except.bind, argumentOf, mandatory, hp]
  case FF =>
    rcases t with _ | t
    · simp [getGroove, construct, required, bind, Except.bind, argumentOf, mandatory]
    simp [getGroove, construct, required, bind, Except.bind, argumentOf, mandatory, hp]

/-- the values of the attributes that are not given -/
def defaultOf : GrooveType → List (String × (Args → Option ℝ) × ℝ)
  | .I => [("b", Args.rootGap, 0)]
  | .UV => [("b", Args.rootGap, 0), ("h", Args.rootFace, 0)]
  | .DU => [("b", Args.rootGap, 0), ("c", Args.rootFace, 3)]
  | .FF => []
  | _ => [("b", Args.rootGap, 0), ("c", Args.rootFace, 0)]

set_option maxHeartbeats 1000000 in
/-- **C74.** Front face grooves have no default values: an optional parameter that is not given is missing. -/
theorem C74_front_optional {a : Args} {g : Groove} (h : getGroove .FF a = .ok g) :
    g.write.attrs.lookup "t_1" = a.workpieceThickness ∧ g.write.attrs.lookup "t_2" = a.workpieceThickness2 ∧
      g.write.attrs.lookup "alpha" = a.grooveAngle ∧ g.write.attrs.lookup "b" = a.rootGap ∧ g.write.attrs.lookup "e" = a.specialDepth := by
  obtain ⟨t, t2, b, c, h1, h2, R, R2, be, be2, al, al2, e⟩ := a
  rcases t with _ | t
  · simp [getGroove, construct, required, bind, Except.bind] at h
  simp only [getGroove, construct, required, bind, Except.bind, postInit] at h
  have := checkParameters_ok h
  subst this
  cases t2 <;> cases b <;> cases al <;> cases e <;> simp [Groove.write, attr, List.lookup]

/-- attributes of missing arguments have the default values -/
theorem C74_defaults {k : GrooveType} {a : Args} {g : Groove} (h : getGroove k a = .ok g) :
    ∀ f ∈ defaultOf k, f.2.1 a = none → g.write.attrs.lookup f.1 = some f.2.2 := by
  obtain ⟨t, t2, b, c, h1, h2, R, R2, be, be2, al, al2, e⟩ := a
  cases k
  case FF => simp [defaultOf]
  case I =>
    rcases t with _ | t
    · simp [getGroove, construct, required, bind, Except.bind] at h
    simp only [getGroove, construct, required, bind, Except.bind, postInit] at h
    have := checkParameters_ok h
    subst this
    cases b <;>
      simp [defaultOf, Groove.write, attr, List.lookup, defaultHeights]
  case V =>
    rcases t with _ | t
    · simp [getGroove, construct, required, bind, Except.bind] at h
    rcases al with _ | al
    · simp [getGroove, construct, required, bind, Except.bind] at h
    simp only [getGroove, construct, required, bind, Except.bind, postInit] at h
    have := checkParameters_ok h
    subst this
    cases b <;> cases c <;>
      simp [defaultOf, Groove.write, attr, List.lookup, defaultHeights]
  case VV =>
    rcases t with _ | t
    · simp [getGroove, construct, required, bind, Except.bind] at h
    rcases al with _ | al
    · simp [getGroove, construct, required, bind, Except.bind] at h
    rcases be with _ | be
    · simp [getGroove, construct, required, bind, Except.bind] at h
    rcases h1 with _ | h1
    · simp [getGroove, construct, required, bind, Except.bind] at h
    simp only [getGroove, construct, required, bind, Except.bind, postInit] at h
    have := checkParameters_ok h
    subst this
    cases b <;> cases c <;>
      simp [defaultOf, Groove.write, attr, List.lookup, defaultHeights]
  case UV =>
    rcases t with _ | t
    · simp [getGroove, construct, required, bind, Except.bind] at h
    rcases al with _ | al
    · simp [getGroove, construct, required, bind, Except.bind] at h
    rcases be with _ | be
    · simp [getGroove, construct, required, bind, Except.bind] at h
    rcases R with _ | R
    · simp [getGroove, construct, required, bind, Except.bind] at h
    simp only [getGroove, construct, required, bind, Except.bind, postInit] at h
    have := checkParameters_ok h
    subst this
    cases b <;> cases c <;>
      simp [defaultOf, Groove.write, attr, List.lookup, defaultHeights]
  case U =>
    rcases t with _ | t
    · simp [getGroove, construct, required, bind, Except.bind] at h
    rcases be with _ | be
    · simp [getGroove, construct, required, bind, Except.bind] at h
    rcases R with _ | R
    · simp [getGroove, construct, required, bind, Except.bind] at h
    simp only [getGroove, construct, required, bind, Except.bind, postInit] at h
    have := checkParameters_ok h
    subst this
    cases b <;> cases c <;>
      simp [defaultOf, Groove.write, attr, List.lookup, defaultHeights]
  case HV =>
    rcases t with _ | t
    · simp [getGroove, construct, required, bind, Except.bind] at h
    rcases be with _ | be
    · simp [getGroove, construct, required, bind, Except.bind] at h
    simp only [getGroove, construct, required, bind, Except.bind, postInit] at h
    have := checkParameters_ok h
    subst this
    cases b <;> cases c <;>
      simp [defaultOf, Groove.write, attr, List.lookup, defaultHeights]
  case HU =>
    rcases t with _ | t
    · simp [getGroove, construct, required, bind, Except.bind] at h
    rcases be with _ | be
    · simp [getGroove, construct, required, bind, Except.bind] at h
    rcases R with _ | R
    · simp [getGroove, construct, required, bind, Except.bind] at h
    simp only [getGroove, construct, required, bind, Except.bind, postInit] at h
    have := checkParameters_ok h
    subst this
    cases b <;> cases c <;>
      simp [defaultOf, Groove.write, attr, List.lookup, defaultHeights]
  case DV =>
    rcases t with _ | t
    · simp [getGroove, construct, required, bind, Except.bind] at h
    rcases al with _ | al
    · simp [getGroove, construct, required, bind, Except.bind] at h
    rcases al2 with _ | al2
    · simp [getGroove, construct, required, bind, Except.bind] at h
    simp only [getGroove, construct, required, bind, Except.bind, postInit] at h
    simp only [Except.ok.injEq] at h
    subst h
    cases b <;> cases c <;> cases h1 <;> cases h2 <;>
      simp [defaultOf, Groove.write, attr, List.lookup, defaultHeights]
  case DU =>
    rcases t with _ | t
    · simp [getGroove, construct, required, bind, Except.bind] at h
    rcases be with _ | be
    · simp [getGroove, construct, required, bind, Except.bind] at h
    rcases be2 with _ | be2
    · simp [getGroove, construct, required, bind, Except.bind] at h
    rcases R with _ | R
    · simp [getGroove, construct, required, bind, Except.bind] at h
    rcases R2 with _ | R2
    · simp [getGroove, construct, required, bind, Except.bind] at h
    simp only [getGroove, construct, required, bind, Except.bind, postInit] at h
    simp only [Except.ok.injEq] at h
    subst h
    cases b <;> cases c <;> cases h1 <;> cases h2 <;>
      simp [defaultOf, Groove.write, attr, List.lookup, defaultHeights]
  case DHV =>
    rcases t with _ | t
    · simp [getGroove, construct, required, bind, Except.bind] at h
    rcases be with _ | be
    · simp [getGroove, construct, required, bind, Except.bind] at h
    rcases be2 with _ | be2
    · simp [getGroove, construct, required, bind, Except.bind] at h
    simp only [getGroove, construct, required, bind, Except.bind, postInit] at h
    simp only [Except.ok.injEq] at h
    subst h
    cases b <;> cases c <;> cases h1 <;> cases h2 <;>
      simp [defaultOf, Groove.write, attr, List.lookup, defaultHeights]
  case DHU =>
    rcases t with _ | t
    · simp [getGroove, construct, required, bind, Except.bind] at h
    rcases be with _ | be
    · simp [getGroove, construct, required, bind, Except.bind] at h
    rcases be2 with _ | be2
    · simp [getGroove, construct, required, bind, Except.bind] at h
    rcases R with _ | R
    · simp [getGroove, construct, required, bind, Except.bind] at h
    rcases R2 with _ | R2
    · simp [getGroove, construct, required, bind, Except.bind] at h
    simp only [getGroove, construct, required, bind, Except.bind, postInit] at h
    simp only [Except.ok.injEq] at h
    subst h
    cases b <;> cases c <;> cases h1 <;> cases h2 <;>
      simp [defaultOf, Groove.write, attr, List.lookup, defaultHeights]

/-- a groove made by `get_groove` survives a file -/
theorem C74_created {k : GrooveType} {a : Args} {g : Groove} (h : getGroove k a = .ok g) : g.write.read = .ok g := by
  unfold getGroove at h
  cases hc : construct k a with
  | error e => rw [hc] at h; cases h
  | ok g0 => rw [hc] at h; exact C74_file h

/-- the classes with the check of the base class -/
def Checked : GrooveType → Prop
  | .DV | .DU | .DHV | .DHU => False
  | _ => True

set_option maxHeartbeats 1000000 in
/-- a file with a negative attribute can not be read as one of these classes -/
theorem C74_read_checked {t : GrooveTree} (hk : Checked t.kind) {g : Groove} (h : t.read = .ok g) : ∀ p ∈ g.write.attrs, 0 ≤ p.2 := by
  have key : ∀ g0 : Groove, postInit g0 = checkParameters g0 → postInit g0 = .ok g → ∀ x ∈ g.parameters, 0 ≤ x := by
    intro g0 e hg x hx
    rw [e] at hg
    have := checkParameters_ok hg
    subst this
    unfold checkParameters at hg
    split at hg
    · rename_i hc
      exact not_lt.1 (hc x hx)
    · cases hg
  obtain ⟨k, l⟩ := t
  have hp : ∀ x ∈ g.parameters, 0 ≤ x := by
    unfold GrooveTree.read at h
    simp only [bind, Except.bind] at h
    cases k <;> first | exact hk.elim | skip
    all_goals
      simp only at h
      split at h
      · cases h
      · rename_i g0 h0
        refine key g0 ?_ h
        revert h0
        simp only [required]
        repeat' split
        all_goals first
          | (intro h0; cases h0; done)
          | (intro h0; cases h0; rfl)
  intro p hp'
  cases g with
  | FF t1 t2 alpha b e =>
    cases t2 <;> cases alpha <;> cases b <;> cases e <;> simp [Groove.write, attr, Groove.parameters] at hp hp' <;>
      (rcases p with ⟨n, x⟩; simp at hp'; aesop)
  | DV t a1 a2 c h1 h2 b => cases h1 <;> cases h2 <;> simp [Groove.write, attr, Groove.parameters] at hp hp' <;> aesop
  | DU t b1 b2 R R2 c h1 h2 b => cases h1 <;> cases h2 <;> simp [Groove.write, attr, Groove.parameters] at hp hp' <;> aesop
  | DHV t b1 b2 c h1 h2 b => cases h1 <;> cases h2 <;> simp [Groove.write, attr, Groove.parameters] at hp hp' <;> aesop
  | DHU t b1 b2 R R2 c h1 h2 b => cases h1 <;> cases h2 <;> simp [Groove.write, attr, Groove.parameters] at hp hp' <;> aesop
  | _ => simp [Groove.write, Groove.parameters] at hp hp' <;> aesop

namespace FrontDemo

/-- a tee joint with the default width -/
example : ∃ P Q : Plate, TwoPlates (profileFF (some .c112) 5 2 none none none none) P Q ∧ P.thick = 2 ∧ Gap P Q 0 := by
  obtain ⟨P, Q, h, h1, _, _, _, _, _, h2, _⟩ := C74_tee (Or.inl rfl) (by norm_num : (0 : ℝ) < 5) (by norm_num : (0 : ℝ) < 2) none none none none
  exact ⟨P, Q, h, h1, h2⟩

/-- a lap joint -/
example : ∃ P Q : Plate, TwoPlates (profileFF (some .c312) 5 2 (some 5) none (some 1) none) P Q ∧ Gap P Q 1 := by
  obtain ⟨P, Q, h, _, _, _, _, _, _, h2⟩ := C74_lap (w := 5) (t1 := 2) (t2 := 5) (b := 1) (by norm_num) (by norm_num) (by norm_num)
    (by norm_num) none none
  exact ⟨P, Q, h, h2⟩

/-- a plate on a wider plate -/
example : ∃ P Q : Plate, TwoPlates (profileFF (some .c413) 5 2 (some 5) none (some 1) none) P Q ∧ Gap P Q 1 := by
  obtain ⟨P, Q, h, _, _, _, _, _, _, _, _, h2⟩ := C74_cross (w := 5) (t1 := 2) (t2 := 5) (b := 1) (by norm_num) (by norm_num)
    (by norm_num) (by norm_num) none none
  exact ⟨P, Q, h, h2⟩

/-- a corner of 60 degrees -/
example : ∃ P Q : Plate, TwoPlates (profileFF (some .c311) 5 5 (some 7) (some (π / 3)) (some 1) none) P Q ∧ dot P.dir Q.dir = 1 / 2 ∧
    Gap P Q 1 := by
  obtain ⟨P, Q, h, _, _, h1, _, _, _, _, h2⟩ := C74_corner (w := 5) (t1 := 5) (t2 := 7) (alpha := π / 3) (b := 1) (by norm_num)
    (by norm_num) (by norm_num) (by norm_num) (by positivity) (by linarith [Real.pi_pos]) none
  exact ⟨P, Q, h, by rw [h1, Real.cos_pi_div_three], h2⟩

/-- the special depth -/
example : ∃ P Q : Plate, TwoPlates (profileFF (some .c412) 5 2 (some 5) (some (π / 3)) none (some 4)) P Q ∧ P.corner = Q.at 0 4 := by
  obtain ⟨P, Q, h, _, _, _, _, _, _, h1, _⟩ := C74_depth (w := 5) (t1 := 2) (t2 := 5) (alpha := π / 3) (e := 4) (by norm_num)
    (by norm_num) (by norm_num) (by norm_num) (by norm_num) (by positivity) (by linarith [Real.pi_pos]) none
  exact ⟨P, Q, h, h1⟩

/-- the corner of the documentation with 120 degrees and a root gap of 1 mm overlaps -/
theorem C74_counterexample_overlap :
    ∃ P Q : Plate, TwoPlates (profileFF (some .c311) 5 5 (some 7) (some (2 * π / 3)) (some 1) none) P Q ∧ ¬ Apart P Q := by
  have e : cos (2 * π / 3) = -(1 / 2) := by
    have : 2 * π / 3 = π - π / 3 := by ring
    rw [this, Real.cos_pi_sub, Real.cos_pi_div_three]
  refine C74_corner_overlap (by norm_num) (by norm_num) (by norm_num) (by norm_num) (by positivity) (by linarith [Real.pi_pos]) ?_ none
  rw [e]
  norm_num

/-- a right angled groove with a root gap of 1 mm: the plates are not 1 mm apart -/
theorem C74_counterexample_gap :
    ∃ P Q : Plate, TwoPlates (profileFF (some .c313) 5 2 (some 5) (some (π / 2)) (some 1) none) P Q ∧ Gap P Q √2 ∧ ¬ Gap P Q 1 := by
  obtain ⟨P, Q, h, _, _, _, _, _, _, _, h1⟩ := C74_bend (w := 5) (t1 := 2) (t2 := 5) (alpha := π / 2) (b := 1) (Or.inl rfl) (by norm_num)
    (by norm_num) (by norm_num) (by norm_num) (by positivity) (by linarith [Real.pi_pos]) none
  have e : π / 2 / 2 = π / 4 := by ring
  rw [e, Real.cos_pi_div_four] at h1
  have e2 : 2 * 1 * (√2 / 2) = √2 := by ring
  rw [e2] at h1
  refine ⟨P, Q, h, h1, fun h2 => ?_⟩
  have := h1.unique h2
  have h3 : (√2 : ℝ) * √2 = 2 := Real.mul_self_sqrt (by norm_num)
  rw [this] at h3
  norm_num at h3

/-- a missing angle -/
example : profileFF (some .c311) 5 5 (some 7) none (some 1) none = .error .typeError := (C74_missing _ _ _ _ _ _ _).2 (by simp [needs])

/-- a groove with one given height -/
example : ∃ g, getGroove .DU
    { workpieceThickness := some 33, bevelAngle := some (1 / 5), bevelAngle2 := some (1 / 4), bevelRadius := some 6,
      bevelRadius2 := some 6, rootFace2 := some 15, rootGap := some 2 } = .ok g ∧ g.write.read = .ok g ∧
      g.write.attrs.lookup "c" = some 3 ∧ g.write.attrs.lookup "h1" = some 15 := by
  refine ⟨_, rfl, C74_file (g0 := .DU 33 (1 / 5) (1 / 4) 6 6 3 (some 15) none 2) rfl, ?_, ?_⟩ <;>
    simp [Groove.write, attr, List.lookup, defaultHeights]

/-- a missing bevel angle -/
example : getGroove .HV { workpieceThickness := some 5, grooveAngle := some 1 } = .error .typeError :=
  (C74_required _ _).2 ⟨("beta", Args.bevelAngle), by simp [argumentOf], by simp [mandatory], rfl⟩

end FrontDemo

end Weldx.Groove
