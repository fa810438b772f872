import Verif.Geometry.Units

/-!
# Units of length in shapes (C98)

Points, lengths, raster points and connections of segments do not depend on the unit in which the points are given. The
contour of a shape does: it is correct exactly if the segments are described in millimetres (or nothing but zeros is scaled).
-/

namespace Weldx.Geo
open Real

/-! ### lemmas about scaling -/

theorem conv_mm {q : Qty V} {u : ℝ} (hu : u ≠ 0) : u • (q.conv u).mag = q.mm := by
  simp only [Qty.conv, Qty.mm, smul_smul]
  rw [mul_div_cancel₀ _ hu]

theorem dot_smul_smul (c d : ℝ) (a b : V) : dot (c • a) (d • b) = c * d * dot a b := by
  simp only [dot, Pi.smul_apply, smul_eq_mul]; ring

theorem normalize_smul {c : ℝ} (hc : 0 < c) (a : V) : normalize (c • a) = normalize a := by
  unfold normalize
  rw [len_smul, abs_of_pos hc]
  by_cases h : len a = 0
  · rw [if_pos (by rw [h, mul_zero]), if_pos h]
  · rw [if_neg (mul_ne_zero hc.ne' h), if_neg h, smul_smul, mul_inv, mul_right_comm, inv_mul_cancel₀ hc.ne', one_mul]

theorem calcAngle_smul {c : ℝ} (hc : 0 < c) (ps pe pc : V) (sg : ℤ) :
    calcAngle (c • ps) (c • pe) (c • pc) sg = calcAngle ps pe pc sg := by
  unfold calcAngle
  rw [← smul_sub, ← smul_sub, normalize_smul hc, normalize_smul hc]

theorem Arc.Valid.pos_point {x : Arc} (h : x.Valid) (s : ℝ) : x.point s = rot (s * x.sign) (x.pStart - x.pCenter) + x.pCenter := by
  rw [h.point s, add_comm, mul_comm]

/-! ### segments -/

theorem USeg.Same.refl (s : USeg) : s.Same s := ⟨fun _ => rfl, rfl⟩

/-- **C98.** A line between two points, given in whatever units (also different ones): it is accepted exactly if the points
differ; its points and its length are those of the line between the points in millimetres; its unit is the one of the first
point. -/
theorem C98_line {a b : Qty V} (ha : 0 < a.unit) :
    ((∃ s, linePoints a b = .ok s) ↔ a.mm ≠ b.mm) ∧
    ∀ s, linePoints a b = .ok s → s.unit = a.unit ∧ s.length.mm = len (b.mm - a.mm) ∧
      ∀ t, (s.point t).mm = a.mm + clip t 0 1 • (b.mm - a.mm) := by
  have hd : b.mm - a.mm = a.unit • ((b.conv a.unit).mag - a.mag) := by
    rw [smul_sub, conv_mm ha.ne']; rfl
  have hl : len (b.mm - a.mm) = a.unit * len ((b.conv a.unit).mag - a.mag) := by
    rw [hd, len_smul, abs_of_pos ha]
  have hz : len ((b.conv a.unit).mag - a.mag) ≤ 0 ↔ a.mm = b.mm := by
    constructor
    · intro h
      have h0 : len (b.mm - a.mm) = 0 := by rw [hl, le_antisymm h (len_nonneg _), mul_zero]
      exact (sub_eq_zero.1 (len_eq_zero.1 h0)).symm
    · intro h
      have h0 : len (b.mm - a.mm) = 0 := by rw [h, sub_self]; exact len_eq_zero.2 rfl
      rw [hl] at h0
      rcases mul_eq_zero.1 h0 with h1 | h1
      · exact absurd h1 ha.ne'
      · exact h1.le
  unfold linePoints lineU mkLine
  by_cases h : len ((b.conv a.unit).mag - a.mag) ≤ 0
  · rw [if_pos h]
    exact ⟨⟨fun ⟨s, hs⟩ => (by cases hs), fun hn => absurd (hz.1 h) hn⟩, by intro s hs; cases hs⟩
  · rw [if_neg h]
    refine ⟨⟨fun _ e => h (hz.2 e), fun _ => ⟨_, rfl⟩⟩, ?_⟩
    intro s hs
    cases hs
    refine ⟨rfl, hl.symm, fun t => ?_⟩
    show a.unit • (a.mag + clip t 0 1 • ((b.conv a.unit).mag - a.mag)) = _
    rw [smul_add, smul_comm, ← hd]; rfl

/-- **C98.** Which arcs are accepted: the tolerance for the radius is 1e-8 in the unit of the first point. -/
theorem C98_arc_accepted {ps pe pc : Qty V} {ccw : Bool} (hu : 0 < ps.unit) : (∃ s, arcPoints ps pe pc ccw = .ok s) ↔
    ps.mm ≠ pc.mm ∧ pe.mm ≠ pc.mm ∧ (¬ ∃ c : ℝ, 0 < c ∧ pe.mm - pc.mm = c • (ps.mm - pc.mm)) ∧
      |len (pe.mm - pc.mm) - len (ps.mm - pc.mm)| ≤ 1 / 100000000 * ps.unit := by
  have e : (∃ s, arcPoints ps pe pc ccw = .ok s) ↔
      ∃ x, mkArc ps.mag (pe.conv ps.unit).mag (pc.conv ps.unit).mag ccw = .ok x := by
    unfold arcPoints arcU
    constructor
    · rintro ⟨s, hs⟩
      cases h : mkArc ps.mag (pe.conv ps.unit).mag (pc.conv ps.unit).mag ccw with
      | error e => rw [h] at hs; cases hs
      | ok x => exact ⟨x, rfl⟩
    · rintro ⟨x, hx⟩
      rw [hx]; exact ⟨_, rfl⟩
  have e1 : pe.mm - pc.mm = ps.unit • ((pe.conv ps.unit).mag - (pc.conv ps.unit).mag) := by
    rw [smul_sub, conv_mm hu.ne', conv_mm hu.ne']
  have e2 : ps.mm - pc.mm = ps.unit • (ps.mag - (pc.conv ps.unit).mag) := by
    rw [smul_sub, conv_mm hu.ne']; rfl
  have inj : ∀ {a b : V}, ps.unit • a = ps.unit • b ↔ a = b := fun {a b} =>
    ⟨fun h => smul_right_injective V hu.ne' h, fun h => by rw [h]⟩
  rw [e, C51_accepted]
  refine and_congr ?_ (and_congr ?_ (and_congr ?_ ?_))
  · rw [← not_iff_not, not_not, not_not, ← sub_eq_zero, ← sub_eq_zero (a := ps.mm), e2, smul_eq_zero]
    simp [hu.ne']
  · rw [← not_iff_not, not_not, not_not, ← sub_eq_zero, ← sub_eq_zero (a := pe.mm), e1, smul_eq_zero]
    simp [hu.ne']
  · refine not_congr (exists_congr fun c => and_congr_right fun _ => ?_)
    rw [e1, e2, smul_comm c, inj]
  · rw [e1, e2, len_smul, len_smul, ← mul_sub, abs_mul, abs_abs, abs_of_pos hu, mul_comm]
    exact ⟨fun h => mul_le_mul_of_nonneg_right h hu.le, fun h => le_of_mul_le_mul_right h hu⟩

/-- **C98.** An arc between two points around a center, given in whatever units: its points are those of the start point in
millimetres rotated about the center, from zero up to an angle that is the one of the arc described in millimetres; the length
is radius times angle. -/
theorem C98_arc {ps pe pc : Qty V} {ccw : Bool} (hu : 0 < ps.unit) {s : USeg} (h : arcPoints ps pe pc ccw = .ok s) :
    s.unit = ps.unit ∧ ∃ angle, calcAngle ps.mm pe.mm pc.mm (if ccw then 1 else -1) = .ok angle ∧
      s.length.mm = len (ps.mm - pc.mm) * angle ∧
      ∀ t, (s.point t).mm = pc.mm + rot (t * angle * (if ccw then 1 else -1)) (ps.mm - pc.mm) := by
  unfold arcPoints arcU at h
  cases hx : mkArc ps.mag (pe.conv ps.unit).mag (pc.conv ps.unit).mag ccw with
  | error e => rw [hx] at h; cases h
  | ok x =>
    rw [hx] at h
    cases h
    obtain ⟨hv, h1, h2, h3, h4⟩ := mkArc_ok hx
    have e2 : ps.mm - pc.mm = ps.unit • (ps.mag - (pc.conv ps.unit).mag) := by
      rw [smul_sub, conv_mm hu.ne']; rfl
    refine ⟨rfl, x.maxCoord, ?_, ?_, ?_⟩
    · have := hv.angle
      rw [h1, h2, h3, h4, ← calcAngle_smul hu, conv_mm hu.ne', conv_mm hu.ne'] at this
      exact this
    · show ps.unit * x.length = _
      rw [hv.length, hv.radius, h1, h3, e2, len_smul, abs_of_pos hu, mul_assoc]
    · intro t
      show ps.unit • x.point (t * x.maxCoord) = _
      rw [hv.pos_point, h1, h3, h4, smul_add, ← rot_smul, ← e2, conv_mm hu.ne', add_comm]
      congr 2
      cases ccw <;> simp

/-- **C98.** Two descriptions of the same arc in different units describe the same segment, if both are accepted. -/
theorem C98_arc_same {ps pe pc ps' pe' pc' : Qty V} {ccw : Bool} (hu : 0 < ps.unit) (hu' : 0 < ps'.unit)
    (e1 : ps.mm = ps'.mm) (e2 : pe.mm = pe'.mm) (e3 : pc.mm = pc'.mm) {s s' : USeg}
    (h : arcPoints ps pe pc ccw = .ok s) (h' : arcPoints ps' pe' pc' ccw = .ok s') : s.Same s' := by
  obtain ⟨-, t, a1, a2, a3⟩ := C98_arc hu h
  obtain ⟨-, t', b1, b2, b3⟩ := C98_arc hu' h'
  rw [← e1, ← e2, ← e3, a1] at b1
  cases b1
  exact ⟨fun x => by rw [a3, b3, e1, e3], by rw [a2, b2, e1, e3]⟩

/-- **C98.** The same for lines. -/
theorem C98_line_same {a b a' b' : Qty V} (ha : 0 < a.unit) (ha' : 0 < a'.unit) (e1 : a.mm = a'.mm) (e2 : b.mm = b'.mm)
    {s s' : USeg} (h : linePoints a b = .ok s) (h' : linePoints a' b' = .ok s') : s.Same s' := by
  obtain ⟨-, a2, a3⟩ := (C98_line ha).2 s h
  obtain ⟨-, b2, b3⟩ := (C98_line ha').2 s' h'
  exact ⟨fun x => by rw [a3, b3, e1, e2], by rw [a2, b2, e1, e2]⟩

/-- **C98.** An arc given by a radius: the same as if all quantities had been converted to the unit of the start point. -/
theorem C98_arc_radius {ps pe : Qty V} {radius : Qty ℝ} (hu : 0 < ps.unit) (hu' : 0 < pe.unit) (left ccw : Bool) :
    arcRadius ps pe radius left ccw =
      (arcWithRadius ps.mag (pe.conv ps.unit).mag (radius.conv ps.unit).mag left ccw).map fun x => ⟨ps.unit, .arc x⟩ := by
  have hv : (pe.conv ps.unit).mag - ps.mag = (pe.unit / ps.unit) • (pe.mag - (ps.conv pe.unit).mag) := by
    simp only [Qty.conv, smul_sub, smul_smul]
    congr 1
    rw [div_mul_div_comm, mul_comm, div_self (by positivity), one_smul]
  have hk : 0 < pe.unit / ps.unit := by positivity
  unfold arcRadius arcWithRadius
  simp only [hv]
  generalize (pe.mag - (ps.conv pe.unit).mag) = d
  generalize (if left = true then (-1 : ℝ) else 1) = sg
  have hdd : dot ((pe.unit / ps.unit) • d) ((pe.unit / ps.unit) • d) = pe.unit / ps.unit * (pe.unit / ps.unit) * dot d d :=
    dot_smul_smul _ _ _ _
  by_cases h0 : dot d d = 0
  · rw [if_pos h0, if_pos (by rw [hdd, h0, mul_zero])]; rfl
  · rw [if_neg h0, if_neg (by rw [hdd]; exact mul_ne_zero (by positivity) h0)]
    unfold arcPoints arcU
    have hs : radius.unit * radius.unit / (pe.unit * pe.unit) * (radius.mag * radius.mag / dot d d) - 1 / 4 =
        (radius.conv ps.unit).mag * (radius.conv ps.unit).mag /
          dot ((pe.unit / ps.unit) • d) ((pe.unit / ps.unit) • d) - 1 / 4 := by
      rw [hdd]
      simp only [Qty.conv, smul_eq_mul]
      field_simp
    rw [hs]
    generalize √(max ((radius.conv ps.unit).mag * (radius.conv ps.unit).mag /
          dot ((pe.unit / ps.unit) • d) ((pe.unit / ps.unit) • d) - 1 / 4) 0) = sc
    have hc : ps.mag + ((1 / 2 : ℝ) • (pe.unit / ps.unit) • d + sc • ![sg *
          ((pe.unit / ps.unit) • d) 1, -sg * ((pe.unit / ps.unit) • d) 0]) =
        (Qty.conv (α := V) ⟨ps.unit, ps.mag + (Qty.conv (α := V) ⟨pe.unit, (1 / 2 : ℝ) • d +
          sc • ![sg * d 1, -sg * d 0]⟩
            ps.unit).mag⟩ ps.unit).mag := by
      simp only [Qty.conv]
      rw [div_self hu.ne', one_smul]
      congr 1
      funext i
      fin_cases i <;> simp [Matrix.vecHead, Matrix.vecTail] <;> ring
    rw [hc]
    rfl

/-- **C98.** The raster points of a segment do not depend on the units of the segment and of the width: two descriptions of
the same segment have the same raster points, and a width is accepted in both cases or in none. -/
theorem C98_raster {s s' : USeg} (hs : 0 < s.unit) (hs' : 0 < s'.unit) (h : s.Same s') {w w' : Qty ℝ} (hw : 0 < w.unit)
    (hw' : 0 < w'.unit) (e : w.mm = w'.mm) :
    (s.rasterize w).map Qty.points = (s'.rasterize w').map Qty.points := by
  have hm : w.mag ≤ 0 ↔ w'.mag ≤ 0 := by
    have e' : w.unit * w.mag = w'.unit * w'.mag := e
    constructor
    · intro h
      by_contra hc
      have := mul_pos hw' (not_le.1 hc)
      have := mul_nonpos_of_nonneg_of_nonpos hw.le h
      linarith
    · intro h
      by_contra hc
      have := mul_pos hw (not_le.1 hc)
      have := mul_nonpos_of_nonneg_of_nonpos hw'.le h
      linarith
  unfold USeg.rasterize
  by_cases hz : w.mag ≤ 0
  · rw [if_pos hz, if_pos (hm.1 hz)]
  · rw [if_neg hz, if_neg (mt hm.2 hz)]
    have r : ∀ (s : USeg) (w : Qty ℝ), s.unit / w.unit * (s.length.mag / w.mag) = s.length.mm / w.mm := fun s w => by
      rw [div_mul_div_comm]; rfl
    simp only [Except.map, Qty.points, List.map_map, r, h.2, e]
    congr 1
    apply List.map_congr_left
    intro t _
    exact h.1 t

/-- **C98.** Whether segments are connected does not depend on their units. -/
theorem C98_connected : ∀ {l l' : List USeg}, List.Forall₂ USeg.Same l l' → checkConnectedU l = checkConnectedU l'
  | _, _, .nil => rfl
  | _, _, .cons _ .nil => rfl
  | _, _, .cons h1 (.cons h2 h3) => by
    have := C98_connected (.cons h2 h3)
    simp only [checkConnectedU, USeg.pointEnd, USeg.pointStart, h1.1, h2.1, this]
    congr

/-- the segments of lines between points in millimetres have the unit millimetre -/
theorem linesU_unit : ∀ {l : List V} {r : List USeg}, linesU l = .ok r → ∀ s ∈ r, s.unit = 1
  | [], r, h => by cases h; simp
  | [_], r, h => by cases h; simp
  | a :: b :: l, r, h => by
    unfold linesU at h
    cases h1 : linePoints ⟨1, a⟩ ⟨1, b⟩ with
    | error e => rw [h1] at h; cases h
    | ok s =>
      cases h2 : linesU (b :: l) with
      | error e => rw [h1, h2] at h; cases h
      | ok q =>
        rw [h1, h2] at h
        cases h
        intro x hx
        rcases List.mem_cons.1 hx with rfl | hx
        · exact ((C98_line (a := ⟨1, a⟩) one_pos).2 _ h1).1
        · exact linesU_unit h2 x hx

/-- **C98.** `add_line_segments` does not depend on the unit of the points: the result is the one for the points in
millimetres. It keeps the segments and adds only segments described in millimetres. -/
theorem C98_add_lines (segs : List USeg) (points : Qty (List V)) :
    addLineSegmentsU segs points = addLineSegmentsU segs ⟨1, points.points⟩ ∧
    ∀ r, addLineSegmentsU segs points = .ok r → ∃ new, r = segs ++ new ∧ ∀ s ∈ new, s.unit = 1 := by
  constructor
  · unfold addLineSegmentsU Qty.points
    simp only [one_smul, List.map_id']
  · intro r h
    unfold addLineSegmentsU at h
    cases hp : withEndU segs (points.mag.map fun p => points.unit • p) with
    | error e => rw [hp] at h; cases h
    | ok pts =>
      cases hn : linesU pts with
      | error e => simp only [hp, hn, bind, Except.bind] at h; cases h
      | ok new =>
        simp only [hp, hn, bind, Except.bind] at h
        refine ⟨new, ?_, linesU_unit hn⟩
        unfold addSegmentsU at h
        cases hq : joinU segs new with
        | error e => simp only [hq, bind, Except.bind] at h; cases h
        | ok _ =>
          cases hc : checkConnectedU new with
          | error e => simp only [hq, hc, bind, Except.bind] at h; cases h
          | ok _ => simp only [hq, hc, bind, Except.bind] at h; cases h; rfl

/-- **C98.** Interpolated lines: the points in millimetres are interpolated, also if the units differ. The result has the unit
of the first segment. -/
theorem C98_interpolate {s s' z : USeg} (hs : 0 < s.unit) {w : ℝ} (h : s.interpolate s' w = .ok z) :
    z.unit = s.unit ∧ ∀ t, (z.point t).mm = (1 - clip w 0 1) • (s.point t).mm + clip w 0 1 • (s'.point t).mm := by
  obtain ⟨u, m⟩ := s
  obtain ⟨u', m'⟩ := s'
  cases m with
  | arc x => cases h
  | line a b l =>
    cases m' with
    | arc x => cases h
    | line a' b' l' =>
      have hs : 0 < u := hs
      simp only [USeg.interpolate, lineU] at h
      cases hm : mkLine ((1 - clip w 0 1) • a + (u' / u) • (clip w 0 1 • a'))
          ((1 - clip w 0 1) • b + (u' / u) • (clip w 0 1 • b')) with
      | error e => rw [hm] at h; cases h
      | ok q =>
        rw [hm] at h
        cases h
        refine ⟨rfl, fun t => ?_⟩
        rw [(mkLine_ok hm).1]
        simp only [USeg.point, Qty.mm, Seg.point]
        funext i
        simp only [Pi.smul_apply, Pi.add_apply, Pi.sub_apply, smul_eq_mul]
        field_simp
        ring

/-! ### shapes -/

/-- raster points of all segments -/
theorem rasterizeAllU_eq {width : Qty ℝ} (hw : 0 < width.mag) : ∀ segs : List USeg,
    ∃ pp : List (Qty (List V)), rasterizeAllU width segs = .ok (pp.map fun p => p.mag.dropLast).flatten ∧
      List.Forall₂ (fun s p => s.rasterize width = .ok p ∧ p.unit = s.unit) segs pp
  | [] => ⟨[], rfl, .nil⟩
  | s :: l => by
    obtain ⟨pp, h1, h2⟩ := rasterizeAllU_eq hw l
    have hp : ∃ p, s.rasterize width = .ok p ∧ p.unit = s.unit := by
      unfold USeg.rasterize
      rw [if_neg (not_le.2 hw)]
      exact ⟨_, rfl, rfl⟩
    obtain ⟨p, hp, hu⟩ := hp
    refine ⟨p :: pp, ?_, .cons ⟨hp, hu⟩ h2⟩
    simp only [rasterizeAllU, hp, h1, bind, Except.bind, List.map_cons, List.flatten_cons]

/-- **C98.** What `Shape.rasterize` returns for a shape and a positive width: the raster points of the segments without the
last ones, as numbers in the units of the segments, and the end point in millimetres (unless it is taken for the start
point). All of it is labelled as millimetres. -/
theorem C98_shape {segs : List USeg} (hne : segs ≠ []) {width : Qty ℝ} (hw : 0 < width.mm) :
    ∃ pp : List (Qty (List V)), List.Forall₂ (fun s p => s.rasterize ⟨1, width.mm⟩ = .ok p ∧ p.unit = s.unit) segs pp ∧
      rasterizeU segs width = .ok ⟨1, (pp.map fun p => p.mag.dropLast).flatten ++
        if columnIsClose (segs.getLast hne).pointEnd (segs.head hne).pointStart then [] else [(segs.getLast hne).pointEnd]⟩ := by
  obtain ⟨pp, h1, h2⟩ := rasterizeAllU_eq (width := ⟨1, width.mm⟩) hw segs
  refine ⟨pp, h2, ?_⟩
  unfold rasterizeU
  rw [List.getLast?_eq_some_getLast hne]
  cases segs with
  | nil => exact absurd rfl hne
  | cons s l =>
    dsimp only
    rw [if_neg (not_not.2 hw)]
    simp only [h1, bind, Except.bind]
    by_cases hc : columnIsClose ((s :: l).getLast hne).pointEnd s.pointStart
    · rw [if_pos hc, if_pos (show columnIsClose _ ((s :: l).head hne).pointStart from hc), List.append_nil]
    · rw [if_neg hc, if_neg (show ¬ columnIsClose _ ((s :: l).head hne).pointStart from hc)]

theorem dropLast_map_smul (u : ℝ) (l : List V) : (l.map fun p => u • p).dropLast = l.dropLast.map fun p => u • p := by
  rw [List.map_dropLast]

/-- the contour exists and is unique -/
theorem contour_unique {segs : List USeg} (hne : segs ≠ []) {width : Qty ℝ} {pts pts' : List V} (h : Contour segs width pts)
    (h' : Contour segs width pts') : pts = pts' := by
  obtain ⟨pp, tail, h1, h2, h3⟩ := h
  obtain ⟨pp', tail', h1', h2', h3'⟩ := h'
  have e : pp = pp' := by
    clear h2 h2' h3 h3' hne
    induction h1 generalizing pp' with
    | nil => cases h1'; rfl
    | cons a b ih =>
      cases h1' with
      | cons a' b' =>
        rw [a] at a'
        cases a'
        rw [ih _ b']
  have t := h3 _ (List.head?_eq_some_head hne) _ (List.getLast?_eq_some_getLast hne)
  have t' := h3' _ (List.head?_eq_some_head hne) _ (List.getLast?_eq_some_getLast hne)
  rw [h2, h2', e, t, t']

theorem flatten_map_eq_iff {α β : Type} (f g : α → List β) (hl : ∀ a, (f a).length = (g a).length) : ∀ l : List α,
    ((l.map f).flatten = (l.map g).flatten ↔ ∀ a ∈ l, f a = g a)
  | [] => by simp
  | a :: l => by
    rw [List.map_cons, List.map_cons, List.flatten_cons, List.flatten_cons, List.forall_mem_cons]
    constructor
    · intro h
      obtain ⟨h1, h2⟩ := List.append_inj h (hl a)
      exact ⟨h1, (flatten_map_eq_iff f g hl l).1 h2⟩
    · rintro ⟨h1, h2⟩
      rw [h1, (flatten_map_eq_iff f g hl l).2 h2]

theorem map_smul_eq_self {u : ℝ} {l : List V} : (l = l.map fun p => u • p) ↔ u = 1 ∨ ∀ p ∈ l, p = 0 := by
  constructor
  · intro h
    by_cases hu : u = 1
    · exact .inl hu
    · right
      induction l with
      | nil => simp
      | cons a l ih =>
        simp only [List.map_cons, List.cons.injEq] at h
        rw [List.forall_mem_cons]
        refine ⟨?_, ih h.2⟩
        have : (1 - u) • a = 0 := by rw [sub_smul, one_smul, sub_eq_zero]; exact h.1
        rcases smul_eq_zero.1 this with h | h
        · exact absurd (by linarith) hu
        · exact h
  · rintro (rfl | h)
    · simp
    · induction l with
      | nil => rfl
      | cons a l ih =>
        rw [List.forall_mem_cons] at h
        rw [List.map_cons, ← ih h.2, h.1, smul_zero]

theorem forall₂_left {α β : Type} {R : α → β → Prop} {l : List α} {m : List β} (h : List.Forall₂ R l m) :
    ∀ a ∈ l, ∃ b ∈ m, R a b := by
  induction h with
  | nil => simp
  | cons h _ ih =>
    intro a ha
    rcases List.mem_cons.1 ha with rfl | ha
    · exact ⟨_, by simp, h⟩
    · obtain ⟨b, hb, hr⟩ := ih a ha
      exact ⟨b, by simp [hb], hr⟩

theorem forall₂_right {α β : Type} {R : α → β → Prop} {l : List α} {m : List β} (h : List.Forall₂ R l m) :
    ∀ b ∈ m, ∃ a ∈ l, R a b := by
  induction h with
  | nil => simp
  | cons h _ ih =>
    intro a ha
    rcases List.mem_cons.1 ha with rfl | ha
    · exact ⟨_, by simp, h⟩
    · obtain ⟨b, hb, hr⟩ := ih a ha
      exact ⟨b, by simp [hb], hr⟩

/-- **C98.** Exactly when the contour of a shape is right: each segment is described in millimetres, or all of its raster points
but the last one are the origin. -/
theorem C98_shape_iff {segs : List USeg} (hne : segs ≠ []) {width : Qty ℝ} (hw : 0 < width.mm) :
    ∃ out pts, rasterizeU segs width = .ok out ∧ Contour segs ⟨1, width.mm⟩ pts ∧ out.points.length = pts.length ∧
      (out.points = pts ↔ ∀ s ∈ segs, s.unit = 1 ∨
        ∀ p, s.rasterize ⟨1, width.mm⟩ = .ok p → ∀ x ∈ p.mag.dropLast, x = 0) := by
  obtain ⟨pp, h1, h2⟩ := C98_shape hne hw
  set tail := if columnIsClose (segs.getLast hne).pointEnd (segs.head hne).pointStart then [] else
    [(segs.getLast hne).pointEnd] with ht
  refine ⟨_, (pp.map fun p => p.points.dropLast).flatten ++ tail, h2, ⟨pp, tail, h1.imp fun _ _ h => h.1, rfl, ?_⟩, ?_, ?_⟩
  · intro f hf l hl
    rw [List.head?_eq_some_head hne] at hf
    rw [List.getLast?_eq_some_getLast hne] at hl
    cases hf; cases hl
    rfl
  · have : ∀ pp : List (Qty (List V)), ((pp.map fun p => p.mag.dropLast).flatten).length =
        ((pp.map fun p => p.points.dropLast).flatten).length := by
      intro pp
      induction pp with
      | nil => rfl
      | cons a l ih =>
        simp only [List.map_cons, List.flatten_cons, List.length_append, ih]
        simp [Qty.points]
    rw [List.length_append, ← this pp, ← List.length_append]
    simp [Qty.points]
  · have e : ∀ q : List V, (Qty.mk 1 q).points = q := fun q => by simp [Qty.points]
    rw [e, List.append_left_inj, flatten_map_eq_iff _ _ (fun a => by simp [Qty.points])]
    constructor
    · intro h s hs
      obtain ⟨p, hp, hr, hu⟩ := forall₂_left h1 s hs
      have := h p hp
      unfold Qty.points at this
      rw [dropLast_map_smul, map_smul_eq_self, hu] at this
      rcases this with h | h
      · exact .inl h
      · right
        intro p' hp'
        rw [hr] at hp'
        cases hp'
        exact h
    · intro h p hp
      obtain ⟨s, hs, hr, hu⟩ := forall₂_right h1 p hp
      unfold Qty.points
      rw [dropLast_map_smul, map_smul_eq_self, hu]
      rcases h s hs with h | h
      · exact .inl h
      · exact .inr (h p hr)

/-- **C98.** A shape with all segments described in millimetres has the right contour. -/
theorem C98_shape_mm {segs : List USeg} (hne : segs ≠ []) (h1 : ∀ s ∈ segs, s.unit = 1) {width : Qty ℝ} (hw : 0 < width.mm) :
    ∃ out, rasterizeU segs width = .ok out ∧ Contour segs ⟨1, width.mm⟩ out.points := by
  obtain ⟨out, pts, h, hc, -, hi⟩ := C98_shape_iff hne hw
  exact ⟨out, h, by rw [hi.2 fun s hs => .inl (h1 s hs)]; exact hc⟩

/-- **C98.** A shape that contains a segment in another unit which does not start at the origin has a wrong contour. -/
theorem C98_shape_wrong {segs : List USeg} {s : USeg} (hs : s ∈ segs) (hu : 0 < s.unit) (h1 : s.unit ≠ 1)
    (h0 : s.pointStart ≠ 0) {width : Qty ℝ} (hw : 0 < width.mm) :
    ∃ out, rasterizeU segs width = .ok out ∧ ¬ Contour segs ⟨1, width.mm⟩ out.points := by
  have hne : segs ≠ [] := List.ne_nil_of_mem hs
  obtain ⟨out, pts, h, hc, -, hi⟩ := C98_shape_iff hne hw
  refine ⟨out, h, fun hn => ?_⟩
  rcases hi.1 (contour_unique hne hn hc) s hs with hh | hh
  · exact h1 hh
  · unfold USeg.rasterize at hh
    rw [if_neg (not_le.2 hw)] at hh
    dsimp only at hh
    unfold numPoints at hh
    generalize hr : npRound (s.unit / (1 : ℝ) * (s.length.mag / width.mm)) = n at hh
    have hn : (max (n + 1) 2).toNat = (max (n + 1) 2 - 2).toNat + 2 := by omega
    have := hh _ rfl (s.point 0).mag (by
      rw [hn]
      simp only [linspace]
      rw [List.range_succ, List.map_append, List.map_append, List.map_singleton, List.map_singleton, List.dropLast_concat,
        List.range_succ_eq_map]
      simp)
    apply h0
    show s.unit • (s.point 0).mag = 0
    rw [this, smul_zero]

/-- **C98.** A closed shape with all segments in one unit: the whole contour is too small (or too large) by this unit. -/
theorem C98_shape_closed {segs : List USeg} (hne : segs ≠ []) {u : ℝ} (hu : ∀ s ∈ segs, s.unit = u)
    (hc : columnIsClose (segs.getLast hne).pointEnd (segs.head hne).pointStart) {width : Qty ℝ} (hw : 0 < width.mm) :
    ∃ out, rasterizeU segs width = .ok out ∧ Contour segs ⟨1, width.mm⟩ (out.points.map fun p => u • p) := by
  obtain ⟨pp, h1, h2⟩ := C98_shape hne hw
  rw [if_pos hc] at h2
  refine ⟨_, h2, pp, [], h1.imp fun _ _ h => h.1, ?_, ?_⟩
  · have e : ∀ q : List V, (Qty.mk 1 q).points = q := fun q => by simp [Qty.points]
    rw [e, List.append_nil, List.append_nil, List.map_flatten, List.map_map]
    congr 1
    apply List.map_congr_left
    intro p hp
    obtain ⟨s, hs, -, hpu⟩ := forall₂_right h1 p hp
    simp only [Function.comp, Qty.points]
    rw [dropLast_map_smul, hpu, hu s hs]
  · intro f hf l hl
    rw [List.head?_eq_some_head hne] at hf
    rw [List.getLast?_eq_some_getLast hne] at hl
    cases hf; cases hl
    rw [if_pos hc]

/-! ### counterexamples -/

theorem len_x (a : ℝ) (h : 0 ≤ a) : len ![a, 0] = a := by
  rw [len]
  have : dot ![a, 0] ![a, 0] = a * a := by simp [dot]
  rw [this, Real.sqrt_mul_self h]

/-- the line from (1 cm, 0) to (2 cm, 0) -/
noncomputable def lineCm : USeg := ⟨10, .line ![1, 0] ![2, 0] 1⟩

theorem lineCm_eq : linePoints ⟨10, ![1, 0]⟩ ⟨10, ![2, 0]⟩ = .ok lineCm := by
  unfold linePoints lineU mkLine
  have e : (Qty.conv (α := V) ⟨10, ![2, 0]⟩ 10).mag = ![2, 0] := by
    simp [Qty.conv]
  have h : len ((Qty.conv (α := V) ⟨10, ![2, 0]⟩ (Qty.mk (α := V) 10 ![1, 0]).unit).mag - (Qty.mk (α := V) 10 ![1, 0]).mag) = 1 := by
    show len ((Qty.conv (α := V) ⟨10, ![2, 0]⟩ 10).mag - ![1, 0]) = 1
    rw [e]
    have : (![2, 0] - ![1, 0] : V) = ![1, 0] := by funext i; fin_cases i <;> norm_num
    rw [this, len_x 1 (by norm_num)]
  rw [h, if_neg (by norm_num)]
  show Except.ok _ = _
  show (Except.ok ⟨10, .line ![1, 0] (Qty.conv (α := V) ⟨10, ![2, 0]⟩ 10).mag 1⟩ : Except GErr USeg) = _
  rw [e]; rfl

/-- **C98 (counterexample).** A line from 1 cm to 2 cm, rasterised with a width of 1 cm: the result is the points at 1 mm
and 20 mm. The same line described in millimetres has the points 10 mm and 20 mm. -/
theorem C98_shape_counterexample :
    (∃ out, rasterizeU [lineCm] ⟨10, 1⟩ = .ok out ∧ out.points = [![1, 0], ![20, 0]]) ∧
    (∃ s out, linePoints ⟨1, ![10, 0]⟩ ⟨1, ![20, 0]⟩ = .ok s ∧ s.Same lineCm ∧
      rasterizeU [s] ⟨10, 1⟩ = .ok out ∧ out.points = [![10, 0], ![20, 0]]) := by
  have hn : npRound 1 = 1 := by
    unfold npRound
    simp
  have key : ∀ (u : ℝ) (a b : V) (l : ℝ), u * l = 10 → u • a = ![10, 0] → u • b = ![20, 0] →
      rasterizeU [⟨u, .line a b l⟩] ⟨10, 1⟩ = .ok ⟨1, [a, ![20, 0]]⟩ := by
    intro u a b l h1 h2 h3
    have hs : (USeg.mk u (.line a b l)).pointStart = ![10, 0] := by
      simp only [USeg.pointStart, USeg.point, Qty.mm, Seg.point, clip_of_le le_rfl]
      rw [zero_smul, add_zero, h2]
    have he : (USeg.mk u (.line a b l)).pointEnd = ![20, 0] := by
      simp only [USeg.pointEnd, USeg.point, Qty.mm, Seg.point, clip_of_ge le_rfl]
      rw [one_smul, add_sub_cancel, h3]
    have hc : ¬ columnIsClose ![20, 0] ![10, 0] := by
      intro h
      have := h 0 0
      norm_num [isclose] at this
    unfold rasterizeU
    simp only [List.getLast?_singleton, hs, he, hc, if_false]
    rw [if_neg (by norm_num [Qty.mm])]
    have hr : (USeg.mk u (.line a b l)).rasterize ⟨1, (Qty.mk 10 1 : Qty ℝ).mm⟩ = .ok ⟨u, [a, b]⟩ := by
      unfold USeg.rasterize
      have hw : (Qty.mk 10 1 : Qty ℝ).mm = 10 := by norm_num [Qty.mm]
      rw [hw, if_neg (by norm_num)]
      have hq : u / 1 * ((USeg.mk u (.line a b l)).length.mag / 10) = 1 := by
        show u / 1 * (l / 10) = 1
        rw [div_one, mul_div_assoc', h1]; norm_num
      simp only [hq, hn]
      have : linspace (numPoints 1) = [0, 1] := by
        have : numPoints 1 = 2 := rfl
        rw [this]
        simp [linspace, List.range_succ]
        norm_num
      rw [this]
      simp only [List.map_cons, List.map_nil, USeg.point, Seg.point, clip_of_le le_rfl, clip_of_ge le_rfl]
      simp
    simp only [rasterizeAllU, hr, bind, Except.bind]
    rfl
  refine ⟨⟨_, key 10 ![1, 0] ![2, 0] 1 (by norm_num) ?_ ?_, by simp [Qty.points]⟩, ?_⟩
  · funext i; fin_cases i <;> simp
  · funext i; fin_cases i <;> norm_num
  · have hex := (C98_line (a := ⟨1, ![10, 0]⟩) (b := ⟨1, ![20, 0]⟩) one_pos).1.2 (by
      intro h
      have := congrFun h 0
      norm_num [Qty.mm] at this)
    obtain ⟨s, hs⟩ := hex
    have hsame := C98_line_same (a := ⟨1, ![10, 0]⟩) (b := ⟨1, ![20, 0]⟩) one_pos (by norm_num)
      (by funext i; fin_cases i <;> norm_num [Qty.mm]) (by funext i; fin_cases i <;> norm_num [Qty.mm]) hs lineCm_eq
    refine ⟨s, ⟨1, [![10, 0], ![20, 0]]⟩, hs, hsame, ?_, by simp [Qty.points]⟩
    unfold linePoints lineU at hs
    cases hm : mkLine (Qty.mk (α := V) 1 ![10, 0]).mag (Qty.conv (α := V) ⟨1, ![20, 0]⟩ 1).mag with
    | error e => rw [hm] at hs; cases hs
    | ok q =>
      rw [hm] at hs
      cases hs
      have hl := hsame.2
      rw [(mkLine_ok hm).1] at hl ⊢
      have e : (Qty.conv (α := V) ⟨1, ![20, 0]⟩ 1).mag = ![20, 0] := by simp [Qty.conv]
      rw [e] at hl ⊢
      exact key 1 ![10, 0] ![20, 0] _ (by
        have : (1 : ℝ) * len (![20, 0] - ![10, 0]) = 10 * 1 := hl
        rw [this]; norm_num) (by rw [one_smul]) (by rw [one_smul])

/-- **C98 (counterexample).** Whether an arc is accepted depends on the unit: the arc from (1 mm, 0) to (0, 1.000000005 mm)
around the origin is accepted if the points are given in millimetres, and raises a `ValueError` if the same points are given
in micrometres. -/
theorem C98_arc_counterexample :
    ∃ a b c a' b' c' : Qty V, a.mm = a'.mm ∧ b.mm = b'.mm ∧ c.mm = c'.mm ∧
      (∃ s, arcPoints a b c true = .ok s) ∧ ¬ ∃ s, arcPoints a' b' c' true = .ok s := by
  have hy : ∀ y : ℝ, 0 ≤ y → len ![0, y] = y := by
    intro y h
    rw [len]
    have : dot ![0, y] ![0, y] = y * y := by simp [dot]
    rw [this, Real.sqrt_mul_self h]
  have e1 : (Qty.mm (α := V) ⟨1 / 1000, ![1000, 0]⟩) = ![1, 0] := by
    funext i; fin_cases i <;> norm_num [Qty.mm]
  have e2 : (Qty.mm (α := V) ⟨1 / 1000, ![0, 1000 + 5 / 1000000]⟩) = ![0, 1 + 5 / 1000000000] := by
    funext i; fin_cases i <;> norm_num [Qty.mm]
  have e3 : (Qty.mm (α := V) ⟨1 / 1000, 0⟩) = 0 := by simp [Qty.mm]
  have f : ∀ v : V, (Qty.mm (α := V) ⟨1, v⟩) = v := fun v => by simp [Qty.mm]
  refine ⟨⟨1, ![1, 0]⟩, ⟨1, ![0, 1 + 5 / 1000000000]⟩, ⟨1, 0⟩, ⟨1 / 1000, ![1000, 0]⟩,
    ⟨1 / 1000, ![0, 1000 + 5 / 1000000]⟩, ⟨1 / 1000, 0⟩, by rw [e1, f], by rw [e2, f], by rw [e3, f], ?_, ?_⟩
  · rw [C98_arc_accepted one_pos]
    simp only [f, sub_zero]
    rw [hy _ (by norm_num), len_x 1 (by norm_num)]
    refine ⟨?_, ?_, ?_, by rw [abs_of_nonneg (by norm_num)]; norm_num⟩
    · intro h; have := congrFun h 0; norm_num at this
    · intro h; have := congrFun h 1; norm_num at this
    · rintro ⟨c, c0, h⟩
      have := congrFun h 0
      simp at this
      exact absurd this c0.ne
  · rw [C98_arc_accepted (by norm_num), e1, e2, e3, sub_zero, sub_zero, hy _ (by norm_num), len_x 1 (by norm_num)]
    rintro ⟨-, -, -, h⟩
    rw [abs_of_nonneg (by norm_num)] at h
    norm_num at h

/-! ### the hypotheses can be met -/

example : ∃ s, linePoints ⟨10, ![1, 0]⟩ ⟨1, ![0, 3]⟩ = .ok s ∧ s.unit = 10 := by
  obtain ⟨s, hs⟩ := (C98_line (a := ⟨10, ![1, 0]⟩) (b := ⟨1, ![0, 3]⟩) (by norm_num)).1.2 (by
    intro h
    have := congrFun h 0
    norm_num [Qty.mm] at this)
  exact ⟨s, hs, ((C98_line (a := ⟨10, ![1, 0]⟩) (by norm_num)).2 s hs).1⟩

example : ∃ out, rasterizeU [lineCm] ⟨10, 1⟩ = .ok out ∧ ¬ Contour [lineCm] ⟨1, Qty.mm (⟨10, 1⟩ : Qty ℝ)⟩ out.points := by
  refine C98_shape_wrong (s := lineCm) (by simp) (by norm_num [lineCm]) (by norm_num [lineCm]) ?_ (by norm_num [Qty.mm])
  intro h
  have h0 : (USeg.pointStart lineCm) 0 = 10 := by
    simp [USeg.pointStart, USeg.point, Qty.mm, lineCm, Seg.point, clip_of_le le_rfl]
  rw [h] at h0
  norm_num at h0

end Weldx.Geo
