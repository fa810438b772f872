import Verif.Geometry.Interp
import Mathlib.Analysis.SpecialFunctions.Trigonometric.Bounds

/-!
# Rasterising segments and shapes (C50)
-/

namespace Weldx.Geo
open Real Matrix

theorem npRound_near (x : ℝ) : |(npRound x : ℝ) - x| ≤ 1 / 2 := by
  have h0 := Int.fract_nonneg x
  have h1 := Int.fract_lt_one x
  have e : x = ⌊x⌋ + Int.fract x := (Int.floor_add_fract x).symm
  unfold npRound
  rw [abs_le]
  split
  · constructor <;> linarith
  · split
    · push_cast; constructor <;> linarith
    · split
      · constructor <;> linarith
      · push_cast; constructor <;> linarith

/-- **C50.** Ties are rounded to the even neighbour, like numpy does. -/
theorem C50_ties (k : ℤ) : npRound (k + 1 / 2) % 2 = 0 := by
  have hf : ⌊(k : ℝ) + 1 / 2⌋ = k := by
    rw [Int.floor_eq_iff]; constructor <;> linarith
  have hr : Int.fract ((k : ℝ) + 1 / 2) = 1 / 2 := by
    rw [Int.fract, hf]; ring
  unfold npRound
  rw [hr, hf, if_neg (lt_irrefl _), if_neg (lt_irrefl _)]
  split <;> omega

theorem npRound_nonneg {x : ℝ} (h : 0 ≤ x) : 0 ≤ npRound x := by
  have hf := Int.floor_nonneg.2 h
  unfold npRound
  split
  · exact hf
  · split
    · omega
    · split <;> omega

/-- the number of steps -/
noncomputable def steps (length width : ℝ) : ℕ := (max (npRound (length / width)) 1).toNat

theorem numPoints_steps (length width : ℝ) : numPoints (npRound (length / width)) = steps length width + 1 := by
  unfold numPoints steps; omega

theorem steps_pos (length width : ℝ) : 0 < steps length width := by unfold steps; omega

/-- **C50.** Number of steps: the nearest number to length / width, but at least one. -/
theorem C50_steps {length width : ℝ} (hl : 0 < length) (hw : 0 < width) :
    0 < steps length width ∧
      (|(steps length width : ℝ) - length / width| ≤ 1 / 2 ∨ steps length width = 1 ∧ length / width < 1 / 2) := by
  refine ⟨steps_pos _ _, ?_⟩
  have hr := npRound_near (length / width)
  have h0 := npRound_nonneg (div_pos hl hw).le
  by_cases h : 1 ≤ npRound (length / width)
  · left
    have : (steps length width : ℝ) = npRound (length / width) := by
      unfold steps
      rw [max_eq_left h]
      have : ((npRound (length / width)).toNat : ℤ) = npRound (length / width) := Int.toNat_of_nonneg h0
      exact_mod_cast this
    rw [this]; exact hr
  · have hz : npRound (length / width) = 0 := by omega
    rw [hz] at hr
    have h1 : steps length width = 1 := by unfold steps; rw [hz]; rfl
    rcases lt_or_eq_of_le (show length / width ≤ 1 / 2 by
      rw [abs_le] at hr; push_cast at hr; linarith [hr.1]) with h2 | h2
    · exact .inr ⟨h1, h2⟩
    · left; rw [h1, h2]; norm_num

/-- **C50.** A step is at most one and a half of the raster width; segments that are not longer than the width are not
divided. The width is exceeded by at most the part `1 / (2 n)` if there are `n` steps. -/
theorem C50_step_size {length width : ℝ} (hl : 0 < length) (hw : 0 < width) :
    length / steps length width ≤ width + width / (2 * steps length width) ∧
      length / steps length width ≤ 3 / 2 * width ∧ (length ≤ width → steps length width = 1) := by
  obtain ⟨h1, h2⟩ := C50_steps hl hw
  have hn : (1 : ℝ) ≤ steps length width := by exact_mod_cast h1
  have hle : length ≤ (steps length width + 1 / 2) * width := by
    rw [← div_le_iff₀ hw]
    rcases h2 with h | ⟨_, h⟩
    · rw [abs_le] at h; linarith [h.1]
    · linarith
  have hfirst : length / steps length width ≤ width + width / (2 * steps length width) := by
    rw [div_le_iff₀ (by linarith)]
    have : (width + width / (2 * steps length width)) * steps length width = (steps length width + 1 / 2) * width := by
      field_simp
    rw [this]; exact hle
  refine ⟨hfirst, ?_, ?_⟩
  · refine hfirst.trans ?_
    have : width / (2 * steps length width) ≤ width / 2 := by
      apply div_le_div_of_nonneg_left hw.le (by norm_num)
      linarith
    linarith
  · intro h
    have hx : length / width ≤ 1 := (div_le_one hw).2 h
    rcases h2 with h3 | ⟨h3, _⟩
    · rw [abs_le] at h3
      have : (steps length width : ℝ) < 2 := by linarith [h3.2]
      have : steps length width < 2 := by exact_mod_cast this
      omega
    · exact h3

/-- **C50 (counterexample).** The step can be larger than the raster width, also for segments that are longer. -/
theorem C50_step_counterexample : ∃ length width : ℝ, 0 < width ∧ width < length ∧ width < length / steps length width := by
  refine ⟨14 / 10, 1, by norm_num, by norm_num, ?_⟩
  have h : npRound ((14 / 10 : ℝ) / 1) = 1 := by
    have hf : ⌊(14 / 10 : ℝ) / 1⌋ = 1 := by rw [Int.floor_eq_iff]; norm_num
    have hfr : Int.fract ((14 / 10 : ℝ) / 1) = 4 / 10 := by unfold Int.fract; rw [hf]; norm_num
    unfold npRound
    rw [hfr, if_pos (by norm_num), hf]
  have : steps (14 / 10) 1 = 1 := by unfold steps; rw [h]; rfl
  rw [this]; norm_num

/-! ### segments -/

/-- points on a segment: their distance is at most the length in between -/
theorem seg_lipschitz {s : Seg} (h : s.Valid) {t u : ℝ} (ht : 0 ≤ t) (htu : t ≤ u) (hu : u ≤ 1) :
    len (s.point u - s.point t) ≤ (u - t) * s.length := by
  cases s with
  | line a b l =>
    have hl : l = len (b - a) ∧ 0 < l := h
    have : (Seg.line a b l).point u - (Seg.line a b l).point t = (u - t) • (b - a) := by
      simp only [Seg.point, clip_of_mem ht (htu.trans hu), clip_of_mem (ht.trans htu) hu]
      module
    rw [this, len_smul, abs_of_nonneg (by linarith)]
    show (u - t) * len (b - a) ≤ (u - t) * l
    rw [hl.1]
  | arc x =>
    have hx : x.Valid := h
    have hr : 0 ≤ x.radius := by rw [hx.radius]; exact len_nonneg _
    have hrr : x.r = x.radius := hx.r
    have hm : 0 ≤ x.maxCoord := by
      by_contra hc
      have := hx.pos
      rw [hx.length] at this
      nlinarith
    show len (x.point (u * x.maxCoord) - x.point (t * x.maxCoord)) ≤ (u - t) * x.length
    rw [hx.length]
    set α := x.a + u * x.maxCoord * x.w
    set β := x.a + t * x.maxCoord * x.w
    have e : x.point (u * x.maxCoord) - x.point (t * x.maxCoord) = x.r • (![cos α - cos β, sin α - sin β] : V) := by
      unfold Arc.point
      funext i; fin_cases i <;> simp [α, β] <;> ring
    rw [e, len_smul, hrr, abs_of_nonneg hr]
    have hab : |α - β| = (u - t) * x.maxCoord := by
      have : α - β = (u - t) * x.maxCoord * x.w := by simp only [α, β]; ring
      rw [this, abs_mul, abs_of_nonneg (mul_nonneg (by linarith) hm), hx.w]
      rcases hx.sign with h | h <;> rw [h] <;> norm_num
    have hchord : len (![cos α - cos β, sin α - sin β] : V) ≤ |α - β| := by
      unfold len
      rw [← Real.sqrt_sq_eq_abs]
      apply Real.sqrt_le_sqrt
      have h1 := Real.one_sub_sq_div_two_le_cos (x := α - β)
      rw [Real.cos_sub] at h1
      have s1 := Real.sin_sq_add_cos_sq α
      have s2 := Real.sin_sq_add_cos_sq β
      simp only [dot, Matrix.cons_val_zero, Matrix.cons_val_one]
      nlinarith
    calc x.radius * len (![cos α - cos β, sin α - sin β] : V) ≤ x.radius * |α - β| := by gcongr
      _ = (u - t) * (x.radius * x.maxCoord) := by rw [hab]; ring

/-- consecutive points are at most `w` apart -/
def Dense (w : ℝ) (pts : List V) : Prop := Linked (fun p q => len (q - p) ≤ w) pts

/-- **C50.** The points of a segment: the first is its start, the last its end, all are on the segment with equal
steps of the coordinate, and they are at most one and a half of the raster width apart. -/
theorem C50_segment {s : Seg} (h : s.Valid) {width : ℝ} (hw : 0 < width) :
    ∃ pts, s.rasterize width = .ok pts ∧ pts.length = steps s.length width + 1 ∧
      (∀ k (hk : k < pts.length), pts[k] = s.point (k / steps s.length width)) ∧
      pts.head? = some s.pointStart ∧ pts.getLast? = some s.pointEnd ∧
      Dense (s.length / steps s.length width) pts ∧ Dense (3 / 2 * width) pts := by
  have hpos : 0 < s.length := by
    cases s with
    | line a b l => exact (show l = len (b - a) ∧ 0 < l from h).2
    | arc x => exact (show x.Valid from h).pos
  have hn := steps_pos s.length width
  have hn' : (0 : ℝ) < steps s.length width := by exact_mod_cast hn
  have hr : s.rasterize width = .ok ((List.range (steps s.length width + 1)).map fun k : ℕ => s.point (k / steps s.length width)) := by
    unfold Seg.rasterize
    rw [if_neg (not_le.2 hw), numPoints_steps]
    unfold linspace
    rw [List.map_map]
    congr 2
    funext k
    simp
  set n := steps s.length width with hndef
  have hget : ∀ k (hk : k < ((List.range (n + 1)).map fun k : ℕ => s.point (k / n)).length),
      ((List.range (n + 1)).map fun k : ℕ => s.point (k / n))[k] = s.point (k / n) := by
    intro k hk; simp
  have hdense : Dense (s.length / n) ((List.range (n + 1)).map fun k : ℕ => s.point (k / n)) := by
    unfold Dense
    rw [linked_getElem]
    intro k hk
    rw [hget, hget]
    have hk' : k + 1 < n + 1 := by simpa using hk
    have hk2 : ((k + 1 : ℕ) : ℝ) ≤ n := by exact_mod_cast (by omega : k + 1 ≤ n)
    have := seg_lipschitz h (t := (k : ℝ) / n) (u := ((k + 1 : ℕ) : ℝ) / n) (by positivity)
      (by push_cast; gcongr; linarith) ((div_le_one hn').2 hk2)
    refine this.trans (le_of_eq ?_)
    push_cast
    field_simp
    ring
  refine ⟨_, hr, by simp, hget, ?_, ?_, hdense, ?_⟩
  · rw [List.head?_eq_getElem?, List.getElem?_eq_getElem (by simp), hget]
    simp [Seg.pointStart]
  · rw [List.getLast?_eq_getElem?, List.getElem?_eq_getElem (by simp), hget]
    simp [Seg.pointEnd, hn'.ne']
  · intro l₁ a b l₂ he
    exact (hdense l₁ a b l₂ he).trans (C50_step_size hpos hw).2.1

/-- **C50.** Consecutive points of a line are different. -/
theorem C50_line_distinct {a b : V} {l : ℝ} (h : (Seg.line a b l).Valid) {width : ℝ} (hw : 0 < width) :
    ∃ pts, (Seg.line a b l).rasterize width = .ok pts ∧ Linked (· ≠ ·) pts := by
  obtain ⟨pts, h1, h2, h3, -⟩ := C50_segment h hw
  have hl : l = len (b - a) ∧ 0 < l := h
  have hab : a ≠ b := len_sub_pos.1 (by rw [← hl.1]; exact hl.2)
  refine ⟨pts, h1, ?_⟩
  rw [linked_getElem]
  intro k hk he
  rw [h3, h3] at he
  set n := steps (Seg.line a b l).length width
  have hn' : (0 : ℝ) < n := by exact_mod_cast steps_pos _ _
  have hk2 : ((k + 1 : ℕ) : ℝ) ≤ n := by exact_mod_cast (by omega : k + 1 ≤ n)
  have hk3 : (k : ℝ) ≤ n := by push_cast at hk2; linarith
  simp only [Seg.point] at he
  rw [clip_of_mem (by positivity) ((div_le_one hn').2 hk3), clip_of_mem (by positivity) ((div_le_one hn').2 hk2)] at he
  have : ((1 : ℝ) / n) • (b - a) = 0 := by
    have e : ((1 : ℝ) / n) • (b - a) = (a + (((k + 1 : ℕ) : ℝ) / n) • (b - a)) - (a + ((k : ℝ) / n) • (b - a)) := by
      push_cast; rw [add_div]; module
    rw [e, ← he, sub_self]
  rcases smul_eq_zero.1 this with h | h
  · have : (0 : ℝ) < 1 / n := by positivity
    linarith
  · exact hab (sub_eq_zero.1 h).symm

/-! ### shapes -/

/-- the points of all segments without their last points -/
theorem rasterizeAll_eq {width : ℝ} (hw : 0 < width) : ∀ {segs : List Seg}, (∀ s ∈ segs, s.Valid) →
    ∃ pp : List (List V), rasterizeAll width segs = .ok (pp.map List.dropLast).flatten ∧
      List.Forall₂ (fun s p => s.rasterize width = .ok p) segs pp
  | [], _ => ⟨[], rfl, .nil⟩
  | s :: l, h => by
    obtain ⟨p, hp, -⟩ := C50_segment (h s (by simp)) hw
    obtain ⟨pp, h1, h2⟩ := rasterizeAll_eq hw (fun s hs => h s (by simp [hs]) : ∀ s ∈ l, s.Valid)
    refine ⟨p :: pp, ?_, .cons hp h2⟩
    simp only [rasterizeAll, hp, h1, bind, Except.bind, List.map_cons, List.flatten_cons]

/-- **C50.** The raster of a connected shape consists of the rasters of its segments, where each point at which two
segments meet occurs once: leaving out the last point of each segment, and adding the end point of the shape (which may
be left out if it is the start point). It starts with the start point of the shape, and consecutive points are at most
one and a half of the raster width apart. -/
theorem C50_shape {segs : List Seg} (hne : segs ≠ []) (hv : ∀ s ∈ segs, s.Valid) (hj : Linked Joined segs)
    {width : ℝ} (hw : 0 < width) :
    ∃ (pts : List V) (pp : List (List V)) (tail : List V), rasterize segs width = .ok pts ∧
      List.Forall₂ (fun s p => s.rasterize width = .ok p) segs pp ∧
      pts = (pp.map List.dropLast).flatten ++ tail ∧
      pts.head? = (segs.head hne).pointStart ∧
      (tail = [(segs.getLast hne).pointEnd] ∨
        tail = [] ∧ vectorIsClose (segs.getLast hne).pointEnd (segs.head hne).pointStart) ∧
      Dense (3 / 2 * width) ((pp.map List.dropLast).flatten ++ [(segs.getLast hne).pointEnd]) := by
  -- points of the open shape
  have dense : ∀ (segs : List Seg) (hne : segs ≠ []), (∀ s ∈ segs, s.Valid) → Linked Joined segs → ∀ pp : List (List V),
      List.Forall₂ (fun s p => s.rasterize width = .ok p) segs pp →
      Dense (3 / 2 * width) ((pp.map List.dropLast).flatten ++ [(segs.getLast hne).pointEnd]) ∧
      ((pp.map List.dropLast).flatten).head? = some (segs.head hne).pointStart := by
    intro segs
    induction segs with
    | nil => intro hne; exact absurd rfl hne
    | cons s l ih =>
      intro hne hv hj pp hpp
      cases hpp with
      | cons hp hpp =>
        rename_i p pp
        obtain ⟨p', q1, q2, q3, q4, q5, q6, q7⟩ := C50_segment (hv s (by simp)) hw
        rw [hp] at q1; cases q1
        have hpne : p ≠ [] := by rintro rfl; simp at q2
        have hsplit : p = p.dropLast ++ [s.pointEnd] := by
          rw [List.getLast?_eq_some_getLast hpne, Option.some.injEq] at q5
          rw [← q5]; exact (List.dropLast_append_getLast hpne).symm
        have hhead : p.dropLast.head? = some s.pointStart := by
          have hs := steps_pos s.length width
          rw [List.head?_eq_getElem?, List.getElem?_eq_getElem (by simp [q2]; exact hs), List.getElem_dropLast, q3]
          simp [Seg.pointStart]
        constructor
        · cases l with
          | nil =>
            cases hpp
            simp only [List.map_cons, List.map_nil, List.flatten_cons, List.flatten_nil, List.append_nil,
              List.getLast_singleton]
            rw [← hsplit]; exact q7
          | cons s2 l =>
            rw [linked_cons] at hj
            obtain ⟨i1, i2⟩ := ih (by simp) (fun x hx => hv x (by simp at hx ⊢; tauto)) hj.2 pp hpp
            simp only [List.map_cons, List.flatten_cons, List.append_assoc]
            rw [List.getLast_cons (by simp)]
            unfold Dense at *
            rw [linked_append]
            rw [hsplit, linked_append] at q7
            refine ⟨q7.1, i1, ?_⟩
            intro a b ha hb
            have hb' : b = s2.pointStart := by
              rw [List.head?_append, i2] at hb
              simpa using hb.symm
            subst hb'
            have := q7.2.2 a s.pointEnd ha rfl
            rw [show s.pointEnd = s2.pointStart from hj.1] at this
            exact this
        · simp only [List.map_cons, List.flatten_cons, List.head?_append, hhead, List.head_cons]
          rfl
  obtain ⟨pp, h1, h2⟩ := rasterizeAll_eq hw hv
  obtain ⟨d1, d2⟩ := dense segs hne hv hj pp h2
  have hr : rasterize segs width = if columnIsClose (segs.getLast hne).pointEnd (segs.head hne).pointStart
      then .ok (pp.map List.dropLast).flatten else .ok ((pp.map List.dropLast).flatten ++ [(segs.getLast hne).pointEnd]) := by
    unfold rasterize
    rw [List.getLast?_eq_some_getLast hne]
    cases segs with
    | nil => exact absurd rfl hne
    | cons s l =>
      simp only [List.head_cons]
      rw [if_neg (not_not.2 hw)]
      simp only [h1, bind, Except.bind]
      rfl
  by_cases hc : columnIsClose (segs.getLast hne).pointEnd (segs.head hne).pointStart
  · rw [if_pos hc] at hr
    exact ⟨_, pp, [], hr, h2, by simp, d2, .inr ⟨rfl, hc 0 0, hc 1 1⟩, d1⟩
  · rw [if_neg hc] at hr
    exact ⟨_, pp, _, hr, h2, rfl, by rw [List.head?_append, d2]; rfl, .inl rfl, d1⟩

/-- **C50.** An empty shape and a raster width that is not positive are refused. -/
theorem C50_refused (segs : List Seg) (s : Seg) {width : ℝ} (hw : width ≤ 0) :
    rasterize [] width = .error .weldxException ∧ s.rasterize width = .error .valueError ∧
      (segs ≠ [] → rasterize segs width = .error .valueError) := by
  refine ⟨rfl, ?_, fun h => ?_⟩
  · unfold Seg.rasterize; rw [if_pos hw]
  · cases segs with
    | nil => exact absurd rfl h
    | cons a l =>
      unfold rasterize
      rw [List.getLast?_eq_some_getLast (by simp)]
      simp only
      rw [if_pos (not_lt.2 hw)]

/-- **C50.** A shape that is not closed ends with its end point. -/
theorem C50_open {segs : List Seg} (hne : segs ≠ []) (hv : ∀ s ∈ segs, s.Valid) (hj : Linked Joined segs)
    (ho : ¬ vectorIsClose (segs.getLast hne).pointEnd (segs.head hne).pointStart) {width : ℝ} (hw : 0 < width) :
    ∃ pts, rasterize segs width = .ok pts ∧ pts.head? = (segs.head hne).pointStart ∧
      pts.getLast? = (segs.getLast hne).pointEnd := by
  obtain ⟨pts, pp, tail, h1, -, h3, h4, h5, -⟩ := C50_shape hne hv hj hw
  refine ⟨pts, h1, h4, ?_⟩
  rcases h5 with h | ⟨-, h⟩
  · rw [h3, h]; simp
  · exact absurd h ho

/-- **C50 (part).** When is the start point of a closed shape repeated at the end? Exactly if its two coordinates are not
close to each other, since the test compares all coordinates of the end point with all coordinates of the start point.

The claim that closed shapes are not closed twice therefore only holds for start points on the diagonal. -/
theorem C50_closed_partial {segs : List Seg} (hne : segs ≠ []) (hv : ∀ s ∈ segs, s.Valid) (hj : Linked Joined segs)
    {p : V} (hs : (segs.head hne).pointStart = p) (he : (segs.getLast hne).pointEnd = p) {width : ℝ} (hw : 0 < width) :
    ∃ pts pp, rasterize segs width = .ok pts ∧ List.Forall₂ (fun s p => s.rasterize width = .ok p) segs pp ∧
      (isclose (1 / 1000000000) (p 0) (p 1) ∧ isclose (1 / 1000000000) (p 1) (p 0) → pts = (pp.map List.dropLast).flatten) ∧
      (¬ (isclose (1 / 1000000000) (p 0) (p 1) ∧ isclose (1 / 1000000000) (p 1) (p 0)) →
        pts = (pp.map List.dropLast).flatten ++ [p]) := by
  obtain ⟨pp, h1, h2⟩ := rasterizeAll_eq hw hv
  have hcol : columnIsClose p p ↔ isclose (1 / 1000000000) (p 0) (p 1) ∧ isclose (1 / 1000000000) (p 1) (p 0) := by
    constructor
    · intro h; exact ⟨h 0 1, h 1 0⟩
    · rintro ⟨a, b⟩ i j
      have r := vectorIsClose_refl p
      fin_cases i <;> fin_cases j
      · exact r.1
      · exact a
      · exact b
      · exact r.2
  have hr : rasterize segs width = if columnIsClose (segs.getLast hne).pointEnd (segs.head hne).pointStart
      then .ok (pp.map List.dropLast).flatten else .ok ((pp.map List.dropLast).flatten ++ [(segs.getLast hne).pointEnd]) := by
    unfold rasterize
    rw [List.getLast?_eq_some_getLast hne]
    cases segs with
    | nil => exact absurd rfl hne
    | cons s l =>
      simp only [List.head_cons]
      rw [if_neg (not_not.2 hw)]
      simp only [h1, bind, Except.bind]
      rfl
  rw [hs, he] at hr
  by_cases hc : columnIsClose p p
  · rw [if_pos hc] at hr
    exact ⟨_, pp, hr, h2, fun _ => rfl, fun h => absurd (hcol.1 hc) h⟩
  · rw [if_neg hc] at hr
    exact ⟨_, pp, hr, h2, fun h => absurd (hcol.2 h) hc, fun _ => rfl⟩

/-- **C50 (counterexample).** A closed triangle is closed twice: the raster with the width of a side contains the start
point twice. -/
theorem C50_closed_counterexample :
    ∃ (segs : List Seg) (width : ℝ) (pts : List V) (p : V), (∀ s ∈ segs, s.Valid) ∧ Linked Joined segs ∧ 0 < width ∧
      (segs.head?.map Seg.pointStart) = some p ∧ (segs.getLast?.map Seg.pointEnd) = some p ∧
      rasterize segs width = .ok pts ∧ pts.head? = some p ∧ pts.getLast? = some p ∧ 1 < pts.length := by
  have hv : ∀ s ∈ [ln ![1, 0] ![2, 0], ln ![2, 0] ![2, 1], ln ![2, 1] ![1, 0]], s.Valid := by
    intro s hs
    simp only [List.mem_cons, List.not_mem_nil, or_false] at hs
    rcases hs with rfl | rfl | rfl
    · exact ln_valid (ne_of_coord 0 (by norm_num))
    · exact ln_valid (ne_of_coord 1 (by norm_num))
    · exact ln_valid (ne_of_coord 0 (by norm_num))
  have hj : Linked Joined [ln ![1, 0] ![2, 0], ln ![2, 0] ![2, 1], ln ![2, 1] ![1, 0]] := by
    rw [linked_cons, linked_cons]
    refine ⟨?_, ?_, linked_one _⟩ <;> simp [Joined, ln]
  obtain ⟨pts, pp, h1, h2, -, h4⟩ := C50_closed_partial (by simp) hv hj (p := ![1, 0]) (by simp [ln]) (by simp [ln]) one_pos
  have hp := h4 (by rintro ⟨h, -⟩; simp [isclose] at h; norm_num at h)
  obtain ⟨pts', pp', tail, g1, g2, g3, g4, -⟩ := C50_shape (by simp) hv hj one_pos
  rw [h1] at g1; cases g1
  refine ⟨_, 1, pts, ![1, 0], hv, hj, one_pos, by simp [ln], by simp [ln], h1, ?_, by rw [hp]; simp, ?_⟩
  · rw [g4]; simp [ln]
  · cases h2 with
    | cons a b =>
      rename_i p1 rest
      obtain ⟨p', q1, q2, -⟩ := C50_segment (hv _ (by simp : ln ![1, 0] ![2, 0] ∈ _)) one_pos
      rw [a] at q1; cases q1
      rw [hp]
      have := steps_pos (ln ![1, 0] ![2, 0]).length 1
      simp [q2]; omega

end Weldx.Geo
