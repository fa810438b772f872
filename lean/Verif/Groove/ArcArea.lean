import Verif.Groove.Arcs
import Mathlib.Analysis.SpecialFunctions.Trigonometric.Bounds

/-!
# C52: areas of grooves with arcs

The area of these grooves is computed from the rasterised profile. The raster of a line does not change an area, and the raster of an
arc replaces each sector by triangles.
-/

namespace Weldx.Groove

open Weldx.Geo Real

/-! ### sums along a chain of points -/

/-- twice the signed area between a chain of points and the origin -/
def chainSum : List Geo.V → ℝ
  | p :: q :: r => cross p q + chainSum (q :: r)
  | _ => 0

theorem closed_chainSum (f p : Geo.V) (r : List Geo.V) :
    closed f (p :: r) = chainSum (p :: r) + cross ((p :: r).getLast (by simp)) f := by
  induction r generalizing p with
  | nil => simp [closed, chainSum]
  | cons q r ih =>
    rw [closed, ih, chainSum, List.getLast_cons_cons]
    ring

theorem chainSum_join (l : List Geo.V) (p : Geo.V) (r : List Geo.V) :
    chainSum (l ++ p :: r) = chainSum (l ++ [p]) + chainSum (p :: r) := by
  induction l with
  | nil => simp [chainSum]
  | cons a l ih =>
    cases l with
    | nil => simp [chainSum]
    | cons b l =>
      simp only [List.cons_append] at ih ⊢
      rw [chainSum, ih, chainSum]
      ring

theorem chainSum_range (f : ℕ → Geo.V) (n : ℕ) :
    chainSum ((List.range (n + 1)).map f) = ∑ i ∈ Finset.range n, cross (f i) (f (i + 1)) := by
  induction n with
  | zero => simp [chainSum]
  | succ n ih =>
    rw [List.range_succ, List.map_append, List.range_succ, List.map_append, List.append_assoc]
    simp only [List.map_cons, List.map_nil, List.singleton_append]
    rw [chainSum_join, Finset.sum_range_succ, ← ih, List.range_succ, List.map_append]
    simp [chainSum]

/-! ### raster points -/

/-- the raster points of a segment -/
noncomputable def segPts (w : ℝ) (s : Seg) : List Geo.V :=
  (List.range (steps s.length w + 1)).map fun i : ℕ => s.point (i / steps s.length w)

theorem rasterize_segPts {w : ℝ} (hw : 0 < w) (s : Seg) : s.rasterize w = .ok (segPts w s) := by
  unfold Seg.rasterize segPts linspace
  rw [if_neg (not_le.2 hw), numPoints_steps, List.map_map]
  congr 1
  apply List.map_congr_left
  intro i _
  simp

theorem segPts_split (w : ℝ) (s : Seg) : segPts w s = (segPts w s).dropLast ++ [s.pointEnd] := by
  have hn : (steps s.length w : ℝ) ≠ 0 := by exact_mod_cast (steps_pos s.length w).ne'
  have : segPts w s = (List.range (steps s.length w)).map (fun i : ℕ => s.point (i / steps s.length w)) ++ [s.pointEnd] := by
    unfold segPts
    rw [List.range_succ, List.map_append]
    simp [Seg.pointEnd, div_self hn]
  rw [this, List.dropLast_concat]

theorem segPts_head (w : ℝ) (s : Seg) : ∃ r, (segPts w s).dropLast = s.pointStart :: r := by
  have h := steps_pos s.length w
  obtain ⟨n, hn⟩ : ∃ n, steps s.length w = n + 1 := ⟨steps s.length w - 1, by omega⟩
  have hn0 : ((n + 1 : ℕ) : ℝ) ≠ 0 := by positivity
  refine ⟨(List.range n).map fun i : ℕ => s.point ((i + 1 : ℕ) / (n + 1 : ℕ)), ?_⟩
  unfold segPts
  rw [hn, List.range_succ, List.map_append]
  simp only [List.map_cons, List.map_nil, List.dropLast_concat]
  rw [List.range_succ_eq_map, List.map_cons, List.map_map]
  simp [Seg.pointStart, Function.comp_def]

/-- the raster points of an open shape -/
noncomputable def trace (w : ℝ) : List Seg → List Geo.V
  | [] => []
  | [s] => segPts w s
  | s :: s' :: l => (segPts w s).dropLast ++ trace w (s' :: l)

theorem trace_head (w : ℝ) (s : Seg) (l : List Seg) : ∃ r, trace w (s :: l) = s.pointStart :: r := by
  obtain ⟨r, hr⟩ := segPts_head w s
  cases l with
  | nil =>
    rw [trace, segPts_split, hr]
    exact ⟨_, rfl⟩
  | cons s' l =>
    rw [trace, hr]
    exact ⟨_, rfl⟩

theorem trace_last (w : ℝ) (s : Seg) (l : List Seg) :
    ∃ r, trace w (s :: l) = r ++ [((s :: l).getLast (by simp)).pointEnd] := by
  induction l generalizing s with
  | nil => exact ⟨_, segPts_split w s⟩
  | cons s' l ih =>
    obtain ⟨r, hr⟩ := ih s'
    rw [trace, hr, List.getLast_cons_cons]
    exact ⟨_, (List.append_assoc _ _ _).symm⟩

theorem rasterizeAll_trace {w : ℝ} (hw : 0 < w) (s : Seg) (l : List Seg) :
    ∃ d, rasterizeAll w (s :: l) = .ok d ∧ d ++ [((s :: l).getLast (by simp)).pointEnd] = trace w (s :: l) := by
  induction l generalizing s with
  | nil =>
    refine ⟨(segPts w s).dropLast ++ [], ?_, ?_⟩
    · simp [rasterizeAll, rasterize_segPts hw, bind, Except.bind]
    · rw [trace, List.append_nil, List.getLast_singleton, ← segPts_split]
  | cons s' l ih =>
    obtain ⟨d, h1, h2⟩ := ih s'
    refine ⟨(segPts w s).dropLast ++ d, ?_, ?_⟩
    · rw [rasterizeAll, rasterize_segPts hw, h1]; rfl
    · rw [trace, ← h2, List.append_assoc, List.getLast_cons_cons]

/-- the raster of an open shape -/
theorem rasterize_trace {w : ℝ} (hw : 0 < w) {s : Seg} {l : List Seg}
    (h : ¬ columnIsClose ((s :: l).getLast (by simp)).pointEnd s.pointStart) : rasterize (s :: l) w = .ok (trace w (s :: l)) := by
  obtain ⟨d, h1, h2⟩ := rasterizeAll_trace hw s l
  unfold rasterize
  rw [List.getLast?_eq_some_getLast (by simp)]
  simp only [gt_iff_lt, hw, not_true_eq_false, if_false, h1, bind, Except.bind]
  rw [if_neg h, h2]

theorem chainSum_trace (w : ℝ) (s s' : Seg) (l : List Seg) (h : s.pointEnd = s'.pointStart) :
    chainSum (trace w (s :: s' :: l)) = chainSum (segPts w s) + chainSum (trace w (s' :: l)) := by
  obtain ⟨r, hr⟩ := trace_head w s' l
  rw [trace, hr, chainSum_join, ← h, ← segPts_split]

/-- a line contributes what its ends contribute -/
theorem chainSum_line (w : ℝ) (a b : Geo.V) (l : ℝ) : chainSum (segPts w (.line a b l)) = cross a b := by
  unfold segPts
  rw [chainSum_range]
  set n := steps (Seg.line a b l).length w with hn
  have hpos : (0 : ℝ) < n := by exact_mod_cast steps_pos _ w
  have hclip : ∀ i : ℕ, i ≤ n → (Seg.line a b l).point (i / n) = a + ((i : ℝ) / n) • (b - a) := by
    intro i hi
    have h1 : (i : ℝ) / n ≤ 1 := by rw [div_le_one hpos]; exact_mod_cast hi
    have h0 : 0 ≤ (i : ℝ) / n := by positivity
    simp only [Seg.point, clip]
    rw [max_eq_left h0, min_eq_left h1]
  rw [Finset.sum_congr rfl (g := fun _ => cross a b / n), Finset.sum_const, Finset.card_range, nsmul_eq_mul]
  · field_simp
  · intro i hi
    have hi := Finset.mem_range.1 hi
    rw [hclip i hi.le, hclip (i + 1) hi]
    simp only [cross, Pi.add_apply, Pi.smul_apply, Pi.sub_apply, smul_eq_mul]
    push_cast
    field_simp
    ring

/-- twice the area of the triangles that replace a sector -/
noncomputable def chords (w R θ : ℝ) : ℝ := R ^ 2 * (steps (R * θ) w * sin (θ / steps (R * θ) w))

theorem cross_rot (u : Geo.V) (s t : ℝ) : cross (rot s u) (rot t u) = len u ^ 2 * sin (t - s) := by
  rw [len, sq_sqrt (by unfold dot; nlinarith [mul_self_nonneg (u 0), mul_self_nonneg (u 1)]), sin_sub]
  simp only [cross, rot, dot, Matrix.cons_val_zero, Matrix.cons_val_one]
  ring

/-- an arc in clockwise direction -/
theorem chainSum_arc (w : ℝ) {x : Arc} {p q c : Geo.V} {θ : ℝ} (hp : ∀ s, x.point s = c + rot (-s) (p - c)) (hθ : x.maxCoord = θ)
    (hq : q - c = rot (-θ) (p - c)) (hl : x.length = len (p - c) * θ) :
    chainSum (segPts w (.arc x)) = cross c (q - p) - chords w (len (p - c)) θ := by
  unfold segPts
  rw [chainSum_range]
  simp only [Seg.length, hl]
  unfold chords
  set n := steps (len (p - c) * θ) w with hn
  have hpos : (0 : ℝ) < n := by exact_mod_cast steps_pos _ w
  have hpt : ∀ i : ℕ, (Seg.arc x).point (i / n) = c + rot (-((i : ℝ) / n * θ)) (p - c) := by
    intro i
    simp only [Seg.point]
    rw [hp, hθ]
  have hterm : ∀ i : ℕ, cross ((Seg.arc x).point (i / n)) ((Seg.arc x).point ((i + 1 : ℕ) / n)) =
      (cross c (rot (-(((i + 1 : ℕ) : ℝ) / n * θ)) (p - c)) - cross c (rot (-((i : ℝ) / n * θ)) (p - c))) -
        len (p - c) ^ 2 * sin (θ / n) := by
    intro i
    rw [hpt, hpt]
    have hc : ∀ u v : Geo.V, cross (c + u) (c + v) = cross c v - cross c u + cross u v := by
      intro u v; simp only [cross, Pi.add_apply]; ring
    rw [hc, cross_rot]
    have : -(((i + 1 : ℕ) : ℝ) / n * θ) - -((i : ℝ) / n * θ) = -(θ / n) := by
      push_cast; field_simp; ring
    rw [this, sin_neg]
    ring
  rw [Finset.sum_congr rfl fun i _ => hterm i, Finset.sum_sub_distrib,
    Finset.sum_range_sub (fun i : ℕ => cross c (rot (-((i : ℝ) / n * θ)) (p - c))), Finset.sum_const, Finset.card_range, nsmul_eq_mul]
  have h1 : -((n : ℝ) / n * θ) = -θ := by rw [div_self hpos.ne', one_mul]
  have h0 : -(((0 : ℕ) : ℝ) / n * θ) = 0 := by simp
  rw [h1, h0, rot_zero, ← hq]
  have : cross c (q - c) - cross c (p - c) = cross c (q - p) := by
    simp only [cross, Pi.sub_apply]; ring
  rw [this]
  ring

/-! ### outlines -/

/-- points that fit the kinds of the segments and lie in a region, with the sum along the raster -/
inductive Outline (P : Geo.V → Prop) (w : ℝ) : List Kind → List Geo.V → ℝ → Prop
  | nil {p} : P p → Outline P w [] [p] 0
  | line {ks p q r A} : p ≠ q → P p → Outline P w ks (q :: r) A → Outline P w (.line :: ks) (p :: q :: r) (cross p q + A)
  | arc {ks p c q r A θ} : p ≠ c → 0 < θ → θ < 2 * π → q - c = rot (-θ) (p - c) →
      (∀ s, 0 ≤ s → s ≤ θ → P (c + rot (-s) (p - c))) → Outline P w ks (q :: r) A →
      Outline P w (.arc :: ks) (p :: c :: q :: r) (cross c (q - p) - chords w (len (p - c)) θ + A)

theorem Outline.first {P : Geo.V → Prop} {w : ℝ} {ks : List Kind} {p : Geo.V} {r : List Geo.V} {A : ℝ}
    (h : Outline P w ks (p :: r) A) : P p := by
  cases h with
  | nil h => exact h
  | line _ h _ => exact h
  | arc _ h1 _ _ h2 _ =>
    have := h2 0 le_rfl h1.le
    rwa [neg_zero, rot_zero, add_sub_cancel] at this

theorem arc_of_rot {p q c : Geo.V} {θ : ℝ} (hpc : p ≠ c) (h0 : 0 < θ) (h1 : θ < 2 * π) (hq : q - c = rot (-θ) (p - c)) :
    ∃ x, mkArc p q c false = .ok x ∧ x.maxCoord = θ ∧ (∀ s, x.point s = c + rot (-s) (p - c)) ∧ x.length = len (p - c) * θ ∧
      x.point x.maxCoord = q := by
  have hlen : len (q - c) = len (p - c) := by rw [hq, len_rot]
  have hpos : 0 < len (p - c) := lt_of_le_of_ne (len_nonneg _) fun e => hpc (sub_eq_zero.1 (len_eq_zero.1 e.symm))
  obtain ⟨x, hx⟩ := (C51_accepted (ps := p) (pe := q) (pc := c) (ccw := false)).2 ⟨hpc, by
      rintro rfl
      rw [sub_self, len_eq_zero.2 rfl] at hlen
      exact hpos.ne hlen, by
      rintro ⟨k, hk, e⟩
      have hl : len (q - c) = |k| * len (p - c) := by rw [e, len_smul]
      rw [hlen, abs_of_pos hk] at hl
      have hk1 : k = 1 := by
        have : (k - 1) * len (p - c) = 0 := by linarith
        rcases mul_eq_zero.1 this with h | h
        · linarith
        · exact absurd h hpos.ne'
      rw [hk1, one_smul, hq] at e
      have e0 := congrFun e 0
      have e1 := congrFun e 1
      simp only [rot, cos_neg, sin_neg, Matrix.cons_val_zero, Matrix.cons_val_one] at e0 e1
      have hsq : (p - c) 0 ^ 2 + (p - c) 1 ^ 2 = len (p - c) ^ 2 := by
        rw [len, sq_sqrt (by unfold dot; nlinarith [mul_self_nonneg ((p - c) 0), mul_self_nonneg ((p - c) 1)])]
        unfold dot; ring
      have hcos : (cos θ - 1) * len (p - c) ^ 2 = 0 := by
        rw [← hsq]; linear_combination (p - c) 0 * e0 + (p - c) 1 * e1
      rcases mul_eq_zero.1 hcos with h | h
      · have : cos θ = 1 := by linarith
        rw [cos_eq_one_iff_of_lt_of_lt (by linarith) h1] at this
        exact h0.ne' this
      · exact hpos.ne' (pow_eq_zero_iff (by norm_num) |>.1 h), by
      rw [hlen, sub_self, abs_zero]; norm_num⟩
  obtain ⟨w1, -, -, w4⟩ := C51_winding hx
  have w1' : ∀ s, x.point s = c + rot (-s) (p - c) := by
    intro s; rw [w1]; simp
  have hm : x.maxCoord = θ := (w4 θ h0 h1 ⟨1, one_pos, by rw [w1', add_sub_cancel_left, ← hq, one_smul]⟩).symm
  obtain ⟨hv, e1, -, e3, -⟩ := mkArc_ok hx
  refine ⟨x, hx, hm, w1', ?_, (C51_end hx).2.2 hlen⟩
  rw [hv.length, hv.radius, e1, e3, hm]

/-- regions without dents -/
def Convex' (P : Geo.V → Prop) : Prop := ∀ p q : Geo.V, ∀ t : ℝ, 0 ≤ t → t ≤ 1 → P p → P q → P (p + t • (q - p))

/-- what is known about the segments of an outline -/
structure Traced (P : Geo.V → Prop) (w : ℝ) (ps : List Geo.V) (A : ℝ) (l : List Seg) : Prop where
  valid : ∀ s ∈ l, s.Valid
  connected : checkConnected l = .ok ()
  start : ∀ s r, l = s :: r → ps.head? = some s.pointStart
  stop : ∀ s, l.getLast? = some s → ps.getLast? = some s.pointEnd
  sum : chainSum (trace w l) = A
  inside : ∀ p ∈ trace w l, P p

theorem Traced.cons {P : Geo.V → Prop} {w : ℝ} {p q : Geo.V} {r : List Geo.V} {A B : ℝ} {l : List Seg} {s : Seg} {ps : List Geo.V}
    (h : Traced P w (q :: r) A l) (hv : s.Valid) (h0 : s.pointStart = p) (h1 : s.pointEnd = q) (hs : chainSum (segPts w s) = B)
    (hi : ∀ x ∈ segPts w s, P x) (hh : ps.head? = some p) (hl : ps.getLast? = (q :: r).getLast?) (he : l = [] → r = []) :
    Traced P w ps (B + A) (s :: l) := by
  refine ⟨?_, ?_, ?_, ?_, ?_, ?_⟩
  · intro x hx
    rcases List.mem_cons.1 hx with rfl | hx
    · exact hv
    · exact h.valid x hx
  · cases l with
    | nil => rfl
    | cons s' l =>
      rw [checkConnected]
      have := h.start s' l rfl
      simp only [List.head?_cons, Option.some.injEq] at this
      rw [h1, this, if_pos (vectorIsClose_self _)]
      exact h.connected
  · intro x l' e
    cases e
    rw [hh, h0]
  · intro x hx
    cases l with
    | nil =>
      simp only [List.getLast?_singleton, Option.some.injEq] at hx
      rw [hl, he rfl, ← hx, h1]
      simp
    | cons s' l =>
      rw [List.getLast?_cons_cons] at hx
      rw [hl, h.stop x hx]
  · cases l with
    | nil =>
      rw [trace, hs, ← h.sum, trace]
      simp [chainSum]
    | cons s' l =>
      have := h.start s' l rfl
      simp only [List.head?_cons, Option.some.injEq] at this
      rw [chainSum_trace w s s' l (by rw [h1, this]), hs, h.sum]
  · cases l with
    | nil =>
      rw [trace]; exact hi
    | cons s' l =>
      intro x hx
      rw [trace] at hx
      rcases List.mem_append.1 hx with hx | hx
      · exact hi x (List.dropLast_subset _ hx)
      · exact h.inside x hx

theorem Outline.helper {P : Geo.V → Prop} (hP : Convex' P) {w : ℝ} {ks : List Kind} {ps : List Geo.V} {A : ℝ}
    (h : Outline P w ks ps A) : ∃ l, helper ks ps = .ok l ∧ l.length = ks.length ∧ Traced P w ps A l := by
  induction h with
  | nil => exact ⟨[], rfl, rfl, by simp, rfl, by simp, by simp, rfl, by simp [trace]⟩
  | @line ks p q r A hne hp hc ih =>
    obtain ⟨l, h1, h2, h3⟩ := ih
    refine ⟨.line p q (len (q - p)) :: l, ?_, by simp [h2], ?_⟩
    · rw [Groove.helper, mkLine_of_ne hne]
      simp only
      rw [h1]
    · refine h3.cons (mkLine_ok (mkLine_of_ne hne)).2 (line_start _ _ _) (line_end _ _ _) (chainSum_line _ _ _ _) ?_ rfl
        (List.getLast?_cons_cons) ?_
      · intro x hx
        unfold segPts at hx
        obtain ⟨i, -, rfl⟩ := List.mem_map.1 hx
        simp only [Seg.point]
        refine hP p q _ ?_ ?_ hp hc.first
        · unfold clip; exact le_min (le_max_right _ _) (by norm_num)
        · unfold clip; exact min_le_right _ _
      · rintro rfl
        have : ks = [] := List.length_eq_zero_iff.1 h2.symm
        subst this
        cases hc; rfl
  | @arc ks p c q r A θ hpc h0 h1' hq hin hc ih =>
    obtain ⟨l, h1, h2, h3⟩ := ih
    obtain ⟨x, hx, e1, e2, e3, e4⟩ := arc_of_rot hpc h0 h1' hq
    refine ⟨.arc x :: l, ?_, by simp [h2], ?_⟩
    · rw [Groove.helper, hx]
      simp only
      rw [h1]
    · refine h3.cons (mkArc_valid hx) ?_ ?_ (chainSum_arc w e2 e1 hq e3) ?_ rfl ?_ ?_
      · simp only [Seg.pointStart, Seg.point, zero_mul]
        rw [e2, neg_zero, rot_zero, add_sub_cancel]
      · simp only [Seg.pointEnd, Seg.point, one_mul]
        exact e4
      · intro y hy
        unfold segPts at hy
        obtain ⟨i, hi, rfl⟩ := List.mem_map.1 hy
        simp only [Seg.point]
        rw [e2, e1]
        set n := steps (Seg.arc x).length w
        have hn : (0 : ℝ) < n := by exact_mod_cast steps_pos _ w
        have hi' : (i : ℝ) ≤ n := by
          have := List.mem_range.1 hi
          exact_mod_cast Nat.lt_succ_iff.1 this
        refine hin _ (by positivity) ?_
        calc (i : ℝ) / n * θ ≤ 1 * θ := by
              apply mul_le_mul_of_nonneg_right _ h0.le
              rw [div_le_one hn]; exact hi'
          _ = θ := one_mul θ
      · rw [List.getLast?_cons_cons, List.getLast?_cons_cons]
      · rintro rfl
        have : ks = [] := List.length_eq_zero_iff.1 h2.symm
        subst this
        cases hc; rfl

theorem Outline.shape {P : Geo.V → Prop} (hP : Convex' P) {w : ℝ} {ks : List Kind} {ps : List Geo.V} {A : ℝ}
    (h : Outline P w ks ps A) : ∃ l, shapeOf ks ps = .ok l ∧ l.length = ks.length ∧ Traced P w ps A l := by
  obtain ⟨l, h1, h2, h3⟩ := h.helper hP
  refine ⟨l, ?_, h2, h3⟩
  unfold shapeOf
  rw [h1]
  simp only
  rw [h3.connected]

/-! ### moved and mirrored shapes -/

/-- a segment is mapped point by point -/
def Image (f : Geo.V → Geo.V) (s s' : Seg) : Prop := s'.length = s.length ∧ ∀ t, s'.point t = f (s.point t)

theorem segPts_image {f : Geo.V → Geo.V} {s s' : Seg} (h : Image f s s') (w : ℝ) : segPts w s' = (segPts w s).map f := by
  unfold segPts
  rw [h.1, List.map_map]
  apply List.map_congr_left
  intro i _
  exact h.2 _

theorem trace_image {f : Geo.V → Geo.V} (w : ℝ) {l l' : List Seg} (h : List.Forall₂ (Image f) l l') :
    trace w l' = (trace w l).map f := by
  induction h with
  | nil => rfl
  | @cons s s' l l' hs hl ih =>
    cases hl with
    | nil => rw [trace, trace, segPts_image hs]
    | cons hs2 hl =>
      rw [trace, trace, ih, segPts_image hs, List.map_append, List.map_dropLast]

theorem moveBy_image (v : Geo.V) (l : List Seg) : List.Forall₂ (Image (· + v)) l (moveBy v l) := by
  induction l with
  | nil => exact .nil
  | cons s l ih =>
    refine .cons ⟨?_, ?_⟩ ih
    · cases s <;> rfl
    · intro t
      cases s with
      | line a b l =>
        simp only [Seg.translate, Seg.point]
        rw [add_sub_add_right_eq_sub]; abel
      | arc x =>
        simp only [Seg.translate, Seg.point, Arc.point]
        abel

theorem reflectY_image {l : List Seg} (h : ∀ s ∈ l, s.Valid) : ∃ r, reflectY l = .ok r ∧ List.Forall₂ (Image flip) l r := by
  induction l with
  | nil => exact ⟨[], rfl, .nil⟩
  | cons s l ih =>
    obtain ⟨r, h1, h2⟩ := ih fun x hx => h x (List.mem_cons_of_mem _ hx)
    obtain ⟨s', e, hv, hl, hp⟩ := Seg.transform_iso (householder_iso (n := ![-1, 0]) (by
      intro h; have := congrFun h 0; simp at this)) (h s List.mem_cons_self)
    refine ⟨s' :: r, ?_, .cons ⟨hl, fun t => by rw [hp, householder_flip]⟩ h2⟩
    rw [reflectY, e]
    simp only
    rw [h1]

theorem image_start {f : Geo.V → Geo.V} {s s' : Seg} (h : Image f s s') : s'.pointStart = f s.pointStart := h.2 0
theorem image_end {f : Geo.V → Geo.V} {s s' : Seg} (h : Image f s s') : s'.pointEnd = f s.pointEnd := h.2 1

theorem forall₂_getLast {α β : Type} {R : α → β → Prop} {l : List α} {l' : List β} (h : List.Forall₂ R l l') (hl : l ≠ [])
    (hl' : l' ≠ []) : R (l.getLast hl) (l'.getLast hl') := by
  induction h with
  | nil => exact absurd rfl hl
  | @cons a b l l' hab hr ih =>
    cases hr with
    | nil => exact hab
    | cons h1 h2 =>
      rw [List.getLast_cons_cons, List.getLast_cons_cons]
      exact ih (by simp) (by simp)

/-- the raster of a moved or mirrored outline -/
theorem Traced.raster {P : Geo.V → Prop} {w : ℝ} (hw : 0 < w) {p : Geo.V} {ps : List Geo.V} {A : ℝ} {l l' : List Seg}
    (h : Traced P w (p :: ps) A l) (hne : l ≠ []) {f : Geo.V → Geo.V} (hi : List.Forall₂ (Image f) l l')
    (hx : ∀ q, (p :: ps).getLast? = some q → ¬ columnIsClose (f q) (f p)) : rasterize l' w = .ok ((trace w l).map f) := by
  cases hi with
  | nil => exact absurd rfl hne
  | @cons s s' l l' hs hl =>
    rw [← trace_image w (.cons hs hl)]
    refine rasterize_trace hw ?_
    have e1 := forall₂_getLast (.cons hs hl) (by simp) (by simp : s' :: l' ≠ [])
    rw [image_end e1, image_start hs]
    have h1 := h.start s l rfl
    simp only [List.head?_cons, Option.some.injEq] at h1
    rw [← h1]
    exact hx _ (h.stop _ (List.getLast?_eq_some_getLast _))

/-- the area of an outline -/
theorem Traced.area {P : Geo.V → Prop} {w : ℝ} {p q : Geo.V} {ps : List Geo.V} {A : ℝ} {l : List Seg}
    (h : Traced P w (p :: ps) A l) (hne : l ≠ []) (hq : (p :: ps).getLast? = some q) :
    polygonArea (trace w l) = (A + cross q p) / 2 := by
  cases l with
  | nil => exact absurd rfl hne
  | cons s l =>
    obtain ⟨r, hr⟩ := trace_head w s l
    obtain ⟨r', hr'⟩ := trace_last w s l
    have h1 := h.start s l rfl
    have h2 := h.stop _ (List.getLast?_eq_some_getLast (by simp))
    have h3 := h.sum
    simp only [List.head?_cons, Option.some.injEq] at h1
    rw [hq, Option.some.injEq] at h2
    rw [hr, polygonArea]
    rw [hr] at h3
    rw [closed_chainSum, h3, ← h1]
    congr 3
    have : (s.pointStart :: r).getLast? = some q := by
      rw [← hr, hr', h2]; simp
    rw [List.getLast?_eq_some_getLast (by simp), Option.some.injEq] at this
    simp only [h1]
    exact this

theorem crossArea_two {A B : List Geo.V} (hA : A ≠ []) (hB : B ≠ []) {x1 y1 x2 y2 : ℝ} (h : Box (A ++ B) x1 y1 x2 y2) :
    crossArea [A, B] = (x2 - x1) * (y2 - y1) - |polygonArea A| - |polygonArea B| := by
  rw [crossArea_eq (x1 := x1) (y1 := y1) (x2 := x2) (y2 := y2)]
  · simp only [List.map_cons, List.map_nil, List.sum_cons, List.sum_nil]
    ring
  · intro ps hps
    simp only [List.mem_cons, List.not_mem_nil, or_false] at hps
    rcases hps with rfl | rfl
    · exact hA
    · exact hB
  · simpa using h

/-- the region of a left workpiece -/
def Left (W t : ℝ) (p : Geo.V) : Prop := -W ≤ p 0 ∧ p 0 ≤ 0 ∧ 0 ≤ p 1 ∧ p 1 ≤ t

theorem between {a b x y t : ℝ} (h0 : 0 ≤ t) (h1 : t ≤ 1) (hx : a ≤ x ∧ x ≤ b) (hy : a ≤ y ∧ y ≤ b) :
    a ≤ x + t * (y - x) ∧ x + t * (y - x) ≤ b := by
  constructor <;> nlinarith [hx.1, hx.2, hy.1, hy.2]

theorem left_convex (W t : ℝ) : Convex' (Left W t) := by
  intro p q s h0 h1 hp hq
  obtain ⟨a1, a2, a3, a4⟩ := hp
  obtain ⟨b1, b2, b3, b4⟩ := hq
  have hx := between h0 h1 ⟨a1, a2⟩ ⟨b1, b2⟩
  have hy := between h0 h1 ⟨a3, a4⟩ ⟨b3, b4⟩
  exact ⟨hx.1, hx.2, hy.1, hy.2⟩

theorem not_column {x y t : ℝ} (h : 1 / 1000000000 < |x|) : ¬ columnIsClose ![x, t] ![y, 0] := by
  intro hc
  have := hc 0 1
  simp only [isclose, Matrix.cons_val_zero, Matrix.cons_val_one, sub_zero, abs_zero, mul_zero, add_zero] at this
  linarith

/-- the area of a symmetric groove whose left workpiece has an outline from `(-W, 0)` to `(-W, t)` -/
theorem Outline.symmetric {W t b A : ℝ} {ks : List Kind} {ps : List Geo.V} (h : Outline (Left W t) (1 / 10) ks (![-W, 0] :: ps) A)
    (hk : ks ≠ []) (hl : (![-W, 0] :: ps).getLast? = some ![-W, t]) (hW : 1 ≤ W) (hb : 0 ≤ b) :
    areaInterpolated (translateReflect b ks (![-W, 0] :: ps)) = .ok ((2 * W + b) * t - |A + W * t|) := by
  obtain ⟨l, h1, h2, T⟩ := h.shape (left_convex W t)
  have hne : l ≠ [] := by rintro rfl; exact hk (List.length_eq_zero_iff.1 h2.symm)
  have i1 := moveBy_image ![-b / 2, 0] l
  obtain ⟨r, e1, i2⟩ := reflectY_image (moveBy_valid T.valid ![-b / 2, 0])
  have i3 : List.Forall₂ (Image (fun p => flip (p + ![-b / 2, 0]))) l r := by
    have : ∀ {l l' r : List Seg}, List.Forall₂ (Image (· + ![-b / 2, 0])) l l' → List.Forall₂ (Image flip) l' r →
        List.Forall₂ (Image (fun p => flip (p + ![-b / 2, 0]))) l r := by
      intro l l' r h1
      induction h1 generalizing r with
      | nil => intro h; cases h; exact .nil
      | cons a _ ih =>
        intro h
        cases h with
        | cons b h => exact .cons ⟨b.1.trans a.1, fun t => by rw [b.2, a.2]⟩ (ih h)
    exact this i1 i2
  have r1 := T.raster (by norm_num) hne i1 (by
    intro q hq
    rw [hl, Option.some.injEq] at hq
    rw [← hq, show (![-W, t] : Geo.V) + ![-b / 2, 0] = ![-W - b / 2, t] by funext i; fin_cases i <;> simp; ring,
      show (![-W, 0] : Geo.V) + ![-b / 2, 0] = ![-W - b / 2, 0] by funext i; fin_cases i <;> simp; ring]
    exact not_column (by rw [abs_of_neg (by linarith)]; linarith))
  have r2 := T.raster (by norm_num) hne i3 (by
    intro q hq
    rw [hl, Option.some.injEq] at hq
    rw [← hq, show flip ((![-W, t] : Geo.V) + ![-b / 2, 0]) = ![W + b / 2, t] by funext i; fin_cases i <;> simp [flip]; ring,
      show flip ((![-W, 0] : Geo.V) + ![-b / 2, 0]) = ![W + b / 2, 0] by funext i; fin_cases i <;> simp [flip]; ring]
    exact not_column (by rw [abs_of_pos (by linarith)]; linarith))
  have hA := T.area hne hl
  have hin := T.inside
  have mem : ![-W, 0] ∈ trace (1 / 10) l ∧ ![-W, t] ∈ trace (1 / 10) l := by
    cases l with
    | nil => exact absurd rfl hne
    | cons s l =>
      obtain ⟨r, hr⟩ := trace_head (1 / 10) s l
      obtain ⟨r', hr'⟩ := trace_last (1 / 10) s l
      have h1 := T.start s l rfl
      have h2 := T.stop _ (List.getLast?_eq_some_getLast (by simp))
      simp only [List.head?_cons, Option.some.injEq] at h1
      rw [hl, Option.some.injEq] at h2
      constructor
      · rw [hr, h1]; exact List.mem_cons_self
      · rw [hr', h2]; simp
  set ps' := trace (1 / 10) l with hps
  have hne' : ps' ≠ [] := List.ne_nil_of_mem mem.1
  unfold translateReflect
  rw [h1]
  simp only
  rw [e1]
  simp only [areaInterpolated, rasterPoints, r1, r2]
  congr 1
  have hcomp : ps'.map (fun p => flip (p + ![-b / 2, 0])) = (ps'.map (· + ![-b / 2, 0])).map flip := by
    rw [List.map_map]; rfl
  rw [hcomp, crossArea_two (x1 := -W - b / 2) (y1 := 0) (x2 := W + b / 2) (y2 := t) (by simpa using hne') (by simpa using hne'),
    area_flip, abs_neg, area_translate, hA]
  · have : cross ![-W, t] ![-W, 0] = W * t := by simp [cross]
    rw [this, abs_div, abs_of_pos (by norm_num : (0 : ℝ) < 2)]
    ring
  · have m1 : ∀ p ∈ ps', p + ![-b / 2, 0] ∈ ps'.map (· + ![-b / 2, 0]) ++ (ps'.map (· + ![-b / 2, 0])).map flip :=
      fun p hp => List.mem_append_left _ (List.mem_map_of_mem hp)
    have m2 : ∀ p ∈ ps', flip (p + ![-b / 2, 0]) ∈ ps'.map (· + ![-b / 2, 0]) ++ (ps'.map (· + ![-b / 2, 0])).map flip :=
      fun p hp => List.mem_append_right _ (List.mem_map_of_mem (List.mem_map_of_mem hp))
    refine ⟨?_, ⟨_, m1 _ mem.1, ?_⟩, ⟨_, m1 _ mem.1, ?_⟩, ⟨_, m2 _ mem.1, ?_⟩, ⟨_, m1 _ mem.2, ?_⟩⟩
    · intro q hq
      rcases List.mem_append.1 hq with hq | hq
      · obtain ⟨p, hp, rfl⟩ := List.mem_map.1 hq
        obtain ⟨a, b, c, d⟩ := hin p hp
        simp
        exact ⟨by linarith, by linarith, c, d⟩
      · obtain ⟨q', hq', rfl⟩ := List.mem_map.1 hq
        obtain ⟨p, hp, rfl⟩ := List.mem_map.1 hq'
        obtain ⟨a, b, c, d⟩ := hin p hp
        simp [flip]
        exact ⟨by linarith, by linarith, c, d⟩
    · simp; ring
    · simp
    · simp [flip]; ring
    · simp

/-- the area of a groove with a straight left workpiece of width `v` -/
theorem Outline.halfArea {v W t b A : ℝ} {ks : List Kind} {ps : List Geo.V} {l r h : List Seg}
    (ho : Outline (Left W t) (1 / 10) ks (![-W, 0] :: ps) A) (hs : shapeOf ks (![-W, 0] :: ps) = .ok l)
    (hr : reflectY (moveBy ![-b / 2, 0] l) = .ok r) (hh : straight v b t = .ok h)
    (hk : ks ≠ []) (hl : (![-W, 0] :: ps).getLast? = some ![-W, t]) (hW : 1 ≤ W) (hv : 1 ≤ v) (hb : 0 ≤ b) (ht : 0 < t) :
    areaInterpolated (.ok [h, r]) = .ok ((W + b) * t - |(A + W * t) / 2|) := by
  obtain ⟨l', h1, h2, T⟩ := ho.shape (left_convex W t)
  rw [h1] at hs; cases hs
  have hne : l ≠ [] := by rintro rfl; exact hk (List.length_eq_zero_iff.1 h2.symm)
  have i1 := moveBy_image ![-b / 2, 0] l
  obtain ⟨r', e1, i2⟩ := reflectY_image (moveBy_valid T.valid ![-b / 2, 0])
  rw [e1] at hr; cases hr
  have i3 : List.Forall₂ (Image (fun p => flip (p + ![-b / 2, 0]))) l r := by
    have : ∀ {l l' r : List Seg}, List.Forall₂ (Image (· + ![-b / 2, 0])) l l' → List.Forall₂ (Image flip) l' r →
        List.Forall₂ (Image (fun p => flip (p + ![-b / 2, 0]))) l r := by
      intro l l' r h1
      induction h1 generalizing r with
      | nil => intro h; cases h; exact .nil
      | cons a _ ih =>
        intro h
        cases h with
        | cons b h => exact .cons ⟨b.1.trans a.1, fun t => by rw [b.2, a.2]⟩ (ih h)
    exact this i1 i2
  have r2 := T.raster (by norm_num) hne i3 (by
    intro q hq
    rw [hl, Option.some.injEq] at hq
    rw [← hq, show flip ((![-W, t] : Geo.V) + ![-b / 2, 0]) = ![W + b / 2, t] by funext i; fin_cases i <;> simp [flip]; ring,
      show flip ((![-W, 0] : Geo.V) + ![-b / 2, 0]) = ![W + b / 2, 0] by funext i; fin_cases i <;> simp [flip]; ring]
    exact not_column (by rw [abs_of_pos (by linarith)]; linarith))
  have hA := T.area hne hl
  have hin := T.inside
  have mem : ![-W, 0] ∈ trace (1 / 10) l ∧ ![-W, t] ∈ trace (1 / 10) l := by
    cases l with
    | nil => exact absurd rfl hne
    | cons s l =>
      obtain ⟨r, hr⟩ := trace_head (1 / 10) s l
      obtain ⟨r', hr'⟩ := trace_last (1 / 10) s l
      have h1 := T.start s l rfl
      have h2 := T.stop _ (List.getLast?_eq_some_getLast (by simp))
      simp only [List.head?_cons, Option.some.injEq] at h1
      rw [hl, Option.some.injEq] at h2
      constructor
      · rw [hr, h1]; exact List.mem_cons_self
      · rw [hr', h2]; simp
  -- the straight workpiece
  have hd : Distinct [![-v - b / 2, 0], ![-b / 2, 0], ![-b / 2, t], ![-v - b / 2, t]] :=
    ⟨ne_of_0 (by simp; linarith), ne_of_1 (by simpa using ht.ne), ne_of_0 (by simp; linarith), trivial⟩
  unfold straight at hh
  rw [polyline_lines hd] at hh
  have hh' := Except.ok.inj hh
  let Q : Geo.V → Prop := fun p => -v - b / 2 ≤ p 0 ∧ p 0 ≤ -b / 2 ∧ 0 ≤ p 1 ∧ p 1 ≤ t
  have hQ : Convex' Q := by
    intro p q s h0 h1 hp hq
    obtain ⟨a1, a2, a3, a4⟩ := hp
    obtain ⟨b1, b2, b3, b4⟩ := hq
    have hx := between h0 h1 ⟨a1, a2⟩ ⟨b1, b2⟩
    have hy := between h0 h1 ⟨a3, a4⟩ ⟨b3, b4⟩
    exact ⟨hx.1, hx.2, hy.1, hy.2⟩
  have oS : Outline Q (1 / 10) (List.replicate 3 .line) [![-v - b / 2, 0], ![-b / 2, 0], ![-b / 2, t], ![-v - b / 2, t]] _ :=
    .line hd.1 (by simp [Q]; constructor <;> linarith) (.line hd.2.1 (by simp [Q]; constructor <;> linarith) (.line hd.2.2.1 (by
      simp [Q]; constructor <;> linarith) (.nil (by simp [Q]; constructor <;> linarith))))
  obtain ⟨lS, s1, s2, TS⟩ := oS.helper hQ
  have := helper_lines hd
  simp only [List.length_cons, List.length_nil] at this
  rw [this] at s1
  have hlS : lS = h := by rw [← Except.ok.inj s1, hh']
  subst hlS
  have hneS : lS ≠ [] := by rintro rfl; simp at s2
  have iS : List.Forall₂ (Image id) lS lS := by
    clear * -
    induction lS with
    | nil => exact .nil
    | cons s l ih => exact .cons ⟨rfl, fun _ => rfl⟩ ih
  have rS := TS.raster (by norm_num) hneS iS (by
    intro q hq
    simp only [List.getLast?_cons_cons, List.getLast?_singleton, Option.some.injEq] at hq
    rw [← hq]
    exact not_column (by rw [abs_of_neg (by linarith)]; linarith))
  rw [List.map_id] at rS
  have hAS := TS.area (q := ![-v - b / 2, t]) hneS (by simp)
  have hinS := TS.inside
  have memS : ![-v - b / 2, 0] ∈ trace (1 / 10) lS := by
    cases lS with
    | nil => exact absurd rfl hneS
    | cons s l =>
      obtain ⟨r, hr⟩ := trace_head (1 / 10) s l
      have h1 := TS.start s l rfl
      simp only [List.head?_cons, Option.some.injEq] at h1
      rw [hr, h1]; exact List.mem_cons_self
  set ps' := trace (1 / 10) l with hps
  set qs' := trace (1 / 10) lS with hqs
  have hne' : ps' ≠ [] := List.ne_nil_of_mem mem.1
  simp only [areaInterpolated, rasterPoints, rS, r2]
  congr 1
  have hcomp : ps'.map (fun p => flip (p + ![-b / 2, 0])) = (ps'.map (· + ![-b / 2, 0])).map flip := by
    rw [List.map_map]; rfl
  rw [hcomp, crossArea_two (x1 := -v - b / 2) (y1 := 0) (x2 := W + b / 2) (y2 := t) (List.ne_nil_of_mem memS) (by simpa using hne'),
    area_flip, abs_neg, area_translate, hA, hAS]
  · have e1 : cross ![-W, t] ![-W, 0] = W * t := by simp [cross]
    have e2 : (cross ![-v - b / 2, 0] ![-b / 2, 0] + (cross ![-b / 2, 0] ![-b / 2, t] + (cross ![-b / 2, t] ![-v - b / 2, t] + 0)) +
        cross ![-v - b / 2, t] ![-v - b / 2, 0]) / 2 = v * t := by
      simp [cross]; ring
    rw [e1, e2, abs_of_pos (by positivity)]
    ring
  · refine ⟨?_, ⟨_, List.mem_append_left _ memS, by simp⟩, ⟨_, List.mem_append_left _ memS, by simp⟩,
      ⟨flip (![-W, 0] + ![-b / 2, 0]), ?_, ?_⟩, ⟨flip (![-W, t] + ![-b / 2, 0]), ?_, ?_⟩⟩
    · intro q hq
      rcases List.mem_append.1 hq with hq | hq
      · obtain ⟨a, b, c, d⟩ := hinS q hq
        exact ⟨a, by linarith, c, d⟩
      · obtain ⟨q', hq', rfl⟩ := List.mem_map.1 hq
        obtain ⟨p, hp, rfl⟩ := List.mem_map.1 hq'
        obtain ⟨a, b, c, d⟩ := hin p hp
        simp [flip]
        exact ⟨by linarith, by linarith, c, d⟩
    · exact List.mem_append_right _ (List.mem_map_of_mem (List.mem_map_of_mem mem.1))
    · simp [flip]; ring
    · exact List.mem_append_right _ (List.mem_map_of_mem (List.mem_map_of_mem mem.2))
    · simp [flip]

end Weldx.Groove
