import Verif.Trace.Discrete
import Verif.Geometry.Raster

/-!
# Shape segments that are described by points (C93)

Source: `/repo/weldx/geometry.py` 108-155 (`DynamicBaseSegment`), 258-398 (`DynamicShapeSegment`).

Simplifications: real numbers instead of floats, lengths without units. The dimension of the positions is called `s`; with another name
`apply_transformation` raises a `KeyError`.
-/

namespace Weldx.Tr

open Weldx.Geo (linspace numPoints npRound npRound_near steps numPoints_steps steps_pos)

/-! ## Model -/

/-- attributes of a `DynamicShapeSegment` -/
structure ShapeSeg where
  data : Data
  maxCoord : ℝ
  length : ℝ

/-- `__init__` and `_update_internals`, `geometry.py` 111-155 -/
noncomputable def mkShapeSeg (data : Data) (maxCoord : ℝ) : Except TErr ShapeSeg :=
  match sectionLengthDisc data maxCoord maxCoord with
  | .ok l => .ok ⟨data, maxCoord, l⟩
  | .error e => .error e

/-- `np.append(vector, 0)`, `geometry.py` 315 -/
def spatial (v : Fin 2 → ℝ) : Vec3 ℝ := ![v 0, v 1, 0]

/-- `apply_translation` for points, `geometry.py` 301-332 -/
def ShapeSeg.translate (v : Fin 2 → ℝ) (x : ShapeSeg) : ShapeSeg :=
  { x with data := x.data.map fun e => (e.1, e.2 + spatial v) }

/-- `matrix_33`, `geometry.py` 369-370 -/
def matrix33 (m : Matrix (Fin 2) (Fin 2) ℝ) : Matrix (Fin 3) (Fin 3) ℝ := !![m 0 0, m 0 1, 0; m 1 0, m 1 1, 0; 0, 0, 1]

/-- `apply_transformation`, `geometry.py` 352-380, on the attributes of a segment -/
noncomputable def ShapeSeg.transform (m : Matrix (Fin 2) (Fin 2) ℝ) : Py TErr ShapeSeg Unit := fun x =>
  let x := { x with data := x.data.map fun e => (e.1, (matrix33 m).mulVec e.2) }
  match sectionLengthDisc x.data x.maxCoord x.maxCoord with
  | .error e => .err e x
  | .ok l => .ok () { x with length := l }

/-- `rasterize`, `geometry.py` 273-298 -/
noncomputable def ShapeSeg.rasterize (x : ShapeSeg) (width : ℝ) : Except TErr (List (Fin 2 → ℝ)) :=
  if width ≤ 0 then .error .valueError
  else
    let num := numPoints (npRound (x.length / width))
    .ok ((linspace num).map fun v => planar (interpDisc x.data (v * x.maxCoord)))

/-! ## Construction -/

theorem sectionLength_all (data : Data) (m : ℝ) :
    sectionLengthDisc data m m = if dataLength data ≤ 0 then .error .valueError else .ok (dataLength data) := by
  have : lenSectionDisc data m m = dataLength data := by
    unfold lenSectionDisc
    rw [if_pos le_rfl]
  rw [sectionLengthDisc, this]

theorem dataLength_nonneg : ∀ data : Data, 0 ≤ dataLength data
  | [] => le_rfl
  | [_] => le_rfl
  | p :: q :: l => add_nonneg (norm2_nonneg' _) (dataLength_nonneg (q :: l))

theorem dataLength_zero : ∀ (p : ℝ × Vec3 ℝ) (l : Data), dataLength (p :: l) ≤ 0 ↔ ∀ e ∈ l, e.2 = p.2
  | _, [] => by simp [dataLength]
  | p, q :: l => by
    have ih := dataLength_zero q l
    have h1 := norm2_nonneg' (q.2 - p.2)
    have h2 := dataLength_nonneg (q :: l)
    rw [dataLength]
    constructor
    · intro h
      have hq : q.2 = p.2 := sub_eq_zero.1 ((norm2_eq_zero_iff _).1 (le_antisymm (by linarith) h1))
      intro e he
      rcases List.mem_cons.1 he with rfl | he
      · exact hq
      · rw [ih.1 (by linarith) e he, hq]
    · intro h
      have hq : q.2 = p.2 := h q (by simp)
      have := ih.2 fun e he => by rw [h e (List.mem_cons_of_mem _ he), hq]
      rw [hq, sub_self, norm2_zero', zero_add]
      exact this

/-- **C93, construction.** A segment is created exactly if the points are not all the same; otherwise a `ValueError` is raised. Its
length is that of the polygon. -/
theorem C93_construct (p : ℝ × Vec3 ℝ) (l : Data) (maxCoord : ℝ) :
    ((∃ e ∈ l, e.2 ≠ p.2) → mkShapeSeg (p :: l) maxCoord = .ok ⟨p :: l, maxCoord, dataLength (p :: l)⟩) ∧
      ((∀ e ∈ l, e.2 = p.2) → mkShapeSeg (p :: l) maxCoord = .error .valueError) := by
  have hiff := dataLength_zero p l
  unfold mkShapeSeg
  rw [sectionLength_all]
  constructor
  · rintro ⟨e, he, hne⟩
    rw [if_neg fun h => hne (hiff.1 h e he)]
  · intro h
    rw [if_pos (hiff.2 h)]

theorem mk_iff {data : Data} {m : ℝ} {x : ShapeSeg} :
    mkShapeSeg data m = .ok x ↔ x = ⟨data, m, dataLength data⟩ ∧ 0 < dataLength data := by
  unfold mkShapeSeg
  rw [sectionLength_all]
  by_cases h : dataLength data ≤ 0
  · rw [if_pos h]
    simp [h]
  · rw [if_neg h]
    push Not at h
    simp only [Except.ok.injEq, h, and_true]
    exact eq_comm

/-! ## Translations and transformations -/

/-- maps that keep ratios on lines -/
def Affine (f : Vec3 ℝ → Vec3 ℝ) : Prop := ∀ a b (t : ℝ), f (a + t • (b - a)) = f a + t • (f b - f a)

theorem interp_affine {f : Vec3 ℝ → Vec3 ℝ} (hf : Affine f) : ∀ (data : Data), data ≠ [] → ∀ s,
    interpDisc (data.map fun e => (e.1, f e.2)) s = f (interpDisc data s)
  | [], h, _ => absurd rfl h
  | [_], _, _ => rfl
  | p :: q :: l, _, s => by
    have ih := interp_affine hf (q :: l) (by simp) s
    simp only [List.map_cons] at ih ⊢
    simp only [interpDisc]
    split
    · rfl
    · split
      · exact (hf _ _ _).symm
      · exact ih

theorem ascending_map {f : Vec3 ℝ → Vec3 ℝ} {data : Data} (h : Ascending data) : Ascending (data.map fun e => (e.1, f e.2)) := by
  unfold Ascending at h ⊢
  simpa [List.map_map, Function.comp_def] using h

theorem dataLength_map {f : Vec3 ℝ → Vec3 ℝ} (hf : ∀ a b, norm2 (f b - f a) = norm2 (b - a)) : ∀ data : Data,
    dataLength (data.map fun e => (e.1, f e.2)) = dataLength data
  | [] => rfl
  | [_] => rfl
  | p :: q :: l => by
    have ih := dataLength_map hf (q :: l)
    simp only [List.map_cons] at ih ⊢
    rw [dataLength, dataLength, ih, hf]

/-- **C93, translation.** A translation moves all points of the segment by the vector, and the result is the segment that is created from
the moved points: the stored length is still right. -/
theorem C93_translate_points {data : Data} (hne : data ≠ []) {m : ℝ} {x : ShapeSeg} (h : mkShapeSeg data m = .ok x) (v : Fin 2 → ℝ) :
    (∀ s, planar (interpDisc (x.translate v).data s) = planar (interpDisc x.data s) + v ∧
        interpDisc (x.translate v).data s 2 = interpDisc x.data s 2) ∧
      mkShapeSeg (x.translate v).data m = .ok (x.translate v) := by
  obtain ⟨rfl, hpos⟩ := mk_iff.1 h
  have hl := dataLength_map (f := fun a => a + spatial v) (by intro a b; rw [add_sub_add_right_eq_sub]) data
  have hi : ∀ s, interpDisc (data.map fun e => (e.1, e.2 + spatial v)) s = interpDisc data s + spatial v :=
    interp_affine (f := fun a => a + spatial v) (by
      intro a b t
      show a + t • (b - a) + spatial v = a + spatial v + t • (b + spatial v - (a + spatial v))
      rw [add_sub_add_right_eq_sub, add_right_comm]) data hne
  refine ⟨fun s => ⟨?_, ?_⟩, mk_iff.2 ⟨?_, ?_⟩⟩
  · simp only [ShapeSeg.translate, hi]
    funext i
    fin_cases i <;> simp [planar, spatial]
  · simp only [ShapeSeg.translate, hi]
    simp [spatial]
  · simp only [ShapeSeg.translate, hl]
  · simpa only [ShapeSeg.translate, hl] using hpos

theorem mulVec_affine (A : Matrix (Fin 3) (Fin 3) ℝ) : Affine A.mulVec := by
  intro a b t
  rw [Matrix.mulVec_add, Matrix.mulVec_smul, Matrix.mulVec_sub]

/-- **C93, transformation.** If no exception is raised, the matrix is applied to all points of the segment, and the result is the segment
that is created from the transformed points. -/
theorem C93_transform {data : Data} (hne : data ≠ []) {m : ℝ} {x : ShapeSeg} (h : mkShapeSeg data m = .ok x)
    (A : Matrix (Fin 2) (Fin 2) ℝ) {y : ShapeSeg} (hy : x.transform A = .ok () y) :
    (∀ s, planar (interpDisc y.data s) = A.mulVec (planar (interpDisc x.data s)) ∧ interpDisc y.data s 2 = interpDisc x.data s 2) ∧
      mkShapeSeg y.data m = .ok y := by
  obtain ⟨rfl, hpos⟩ := mk_iff.1 h
  simp only [ShapeSeg.transform, sectionLength_all] at hy
  split at hy
  · cases hy
  · rename_i l hl
    split at hl
    · cases hl
    · rename_i hlen
      cases hl
      cases hy
      refine ⟨fun s => ?_, mk_iff.2 ⟨rfl, not_le.1 hlen⟩⟩
      rw [interp_affine (f := (matrix33 A).mulVec) (mulVec_affine _) data hne]
      constructor
      · funext i
        fin_cases i <;> simp [planar, matrix33, Matrix.mulVec, dotProduct, Fin.sum_univ_succ]
      · simp [matrix33, Matrix.mulVec, dotProduct, Fin.sum_univ_succ]

/-- **C93, failing transformations.** A `ValueError` is raised exactly if the matrix maps all points to the same one. The points of the
segment are changed nevertheless, while its length is the former one. -/
theorem C93_transform_error {p : ℝ × Vec3 ℝ} {l : Data} {m : ℝ} {x : ShapeSeg} (h : mkShapeSeg (p :: l) m = .ok x)
    (A : Matrix (Fin 2) (Fin 2) ℝ) :
    (x.transform A).Raised ↔ ∀ e ∈ l, (matrix33 A).mulVec e.2 = (matrix33 A).mulVec p.2 := by
  obtain ⟨rfl, hpos⟩ := mk_iff.1 h
  have hz := dataLength_zero (p.1, (matrix33 A).mulVec p.2) (l.map fun e => (e.1, (matrix33 A).mulVec e.2))
  have hz' : dataLength ((p :: l).map fun e => (e.1, (matrix33 A).mulVec e.2)) ≤ 0 ↔
      ∀ e ∈ l, (matrix33 A).mulVec e.2 = (matrix33 A).mulVec p.2 := by
    rw [List.map_cons, hz]
    constructor
    · exact fun h e he => h _ (List.mem_map.2 ⟨e, he, rfl⟩)
    · intro h e he
      obtain ⟨e, he', rfl⟩ := List.mem_map.1 he
      exact h e he'
  rw [← hz']
  simp only [ShapeSeg.transform, sectionLength_all]
  by_cases hc : dataLength ((p :: l).map fun e => (e.1, (matrix33 A).mulVec e.2)) ≤ 0
  · rw [if_pos hc]
    simp only [Res.Raised, hc]
  · rw [if_neg hc]
    simp only [Res.Raised, hc]

/-- **C93, state after a failure.** -/
theorem C93_transform_state {x : ShapeSeg} {A : Matrix (Fin 2) (Fin 2) ℝ} {e : TErr} {y : ShapeSeg} (h : x.transform A = .err e y) :
    e = .valueError ∧ y.length = x.length ∧ y.data = x.data.map fun e => (e.1, (matrix33 A).mulVec e.2) := by
  simp only [ShapeSeg.transform, sectionLength_all] at h
  split at h
  · rename_i e' he
    split at he
    · cases he
      cases h
      exact ⟨rfl, rfl, rfl⟩
    · cases he
  · cases h

theorem norm2_orthogonal {A : Matrix (Fin 2) (Fin 2) ℝ} (hA : A.transpose * A = 1) (v : Vec3 ℝ) :
    norm2 ((matrix33 A).mulVec v) = norm2 v := by
  have h00 := congrFun (congrFun hA 0) 0
  have h01 := congrFun (congrFun hA 0) 1
  have h11 := congrFun (congrFun hA 1) 1
  simp [Matrix.mul_apply, Fin.sum_univ_succ] at h00 h01 h11
  unfold norm2
  congr 1
  simp [matrix33, Matrix.mulVec, dotProduct, Fin.sum_univ_succ]
  linear_combination v 0 * v 0 * h00 + 2 * (v 0 * v 1) * h01 + v 1 * v 1 * h11

/-- **C93, isometries.** Rotations and reflections never fail and keep the length. -/
theorem C93_isometry {data : Data} {m : ℝ} {x : ShapeSeg} (h : mkShapeSeg data m = .ok x) {A : Matrix (Fin 2) (Fin 2) ℝ}
    (hA : A.transpose * A = 1) : ∃ y, x.transform A = .ok () y ∧ y.length = x.length := by
  obtain ⟨rfl, hpos⟩ := mk_iff.1 h
  have hl := dataLength_map (f := (matrix33 A).mulVec) (by
    intro a b
    rw [← Matrix.mulVec_sub, norm2_orthogonal hA]) data
  have e : (⟨data, m, dataLength data⟩ : ShapeSeg).transform A =
      .ok () ⟨data.map fun e => (e.1, (matrix33 A).mulVec e.2), m, dataLength data⟩ := by
    simp only [ShapeSeg.transform, sectionLength_all, hl, if_neg (not_le.2 hpos)]
  exact ⟨_, e, rfl⟩

/-! ## Rasterisation -/

/-- **C93, raster points.** With a positive width the raster points are the points at equally spaced positions from the start point to the
end point of the segment. Their number is the rounded quotient of length and width plus one, but at least two. Otherwise a `ValueError`
is raised. -/
theorem C93_raster (x : ShapeSeg) {width : ℝ} :
    (width ≤ 0 → x.rasterize width = .error .valueError) ∧
    (0 < width → ∃ pts, x.rasterize width = .ok pts ∧ pts.length = steps x.length width + 1 ∧
      pts.head? = some (pointStart x.data) ∧ pts.getLast? = some (pointEnd x.data x.maxCoord) ∧
      ∀ i : ℕ, i ≤ steps x.length width →
        pts[i]? = some (planar (interpDisc x.data ((i : ℝ) / (steps x.length width) * x.maxCoord)))) := by
  constructor
  · intro h
    rw [ShapeSeg.rasterize, if_pos h]
  · intro h
    have hn : (0 : ℝ) < steps x.length width := by exact_mod_cast steps_pos x.length width
    have hget : ∀ i : ℕ, i ≤ steps x.length width →
        ((linspace (numPoints (npRound (x.length / width)))).map fun v => planar (interpDisc x.data (v * x.maxCoord)))[i]? =
          some (planar (interpDisc x.data ((i : ℝ) / (steps x.length width) * x.maxCoord))) := by
      intro i hi
      rw [numPoints_steps]
      have : i < steps x.length width + 1 := by omega
      simp [linspace, List.getElem?_range this]
    refine ⟨_, by rw [ShapeSeg.rasterize, if_neg (not_le.2 h)], ?_, ?_, ?_, hget⟩
    · rw [numPoints_steps]; simp [linspace]
    · rw [List.head?_eq_getElem?, hget 0 (Nat.zero_le _)]
      simp [pointStart]
    · have hlen : ((linspace (numPoints (npRound (x.length / width)))).map
          fun v => planar (interpDisc x.data (v * x.maxCoord))).length = steps x.length width + 1 := by
        rw [numPoints_steps]; simp [linspace]
      rw [List.getLast?_eq_getElem?, hlen, Nat.add_sub_cancel, hget _ le_rfl, div_self hn.ne', one_mul]
      rfl

/-- **C93, distance of the raster points (partial).** If the positions are proportional to the length along the polygon, the lengths
between neighbouring raster points are all the same. -/
theorem C93_raster_spacing_partial {p : ℝ × Vec3 ℝ} {l : Data} (h : Ascending (p :: l)) (h0 : p.1 = 0) {x : ShapeSeg}
    (hx : x.data = p :: l) (hm : 0 ≤ x.maxCoord) {c : ℝ}
    (hlin : ∀ s, 0 ≤ s → s ≤ x.maxCoord → IsArcLength (interpDisc x.data) 0 s (c * s)) {width : ℝ} (i : ℕ)
    (hi : i + 1 ≤ steps x.length width) :
    IsArcLength (interpDisc x.data) ((i : ℝ) / (steps x.length width) * x.maxCoord)
      (((i + 1 : ℕ) : ℝ) / (steps x.length width) * x.maxCoord) (c * (x.maxCoord / steps x.length width)) := by
  have hn : (0 : ℝ) < steps x.length width := by exact_mod_cast steps_pos x.length width
  set n : ℝ := (steps x.length width : ℝ) with hndef
  have hi' : ((i + 1 : ℕ) : ℝ) ≤ n := by rw [hndef]; exact_mod_cast hi
  have hcum : ∀ s, 0 ≤ s → s ≤ x.maxCoord → cum (p :: l) s = c * s := fun s h1 h2 => by
    have := hlin s h1 h2
    rw [hx, ← h0] at this
    exact arc_unique (cum_arc h (by rw [h0]; exact h1)) this
  have a0 : (0 : ℝ) ≤ (i : ℝ) / n * x.maxCoord := by positivity
  have a1 : (i : ℝ) / n * x.maxCoord ≤ ((i + 1 : ℕ) : ℝ) / n * x.maxCoord := by
    apply mul_le_mul_of_nonneg_right _ hm
    apply div_le_div_of_nonneg_right _ hn.le
    push_cast; linarith
  have a2 : ((i + 1 : ℕ) : ℝ) / n * x.maxCoord ≤ x.maxCoord := by
    have : ((i + 1 : ℕ) : ℝ) / n ≤ 1 := (div_le_one hn).2 hi'
    nlinarith
  have e : c * (x.maxCoord / n) = cum (p :: l) (((i + 1 : ℕ) : ℝ) / n * x.maxCoord) - cum (p :: l) ((i : ℝ) / n * x.maxCoord) := by
    rw [hcum _ (a0.trans a1) a2, hcum _ a0 (a1.trans a2)]
    push_cast
    ring
  rw [hx, e]
  exact cum_between h (by rw [h0]; exact a0) a1

/-! ## Examples -/

namespace ShapeDemo

/-- points along a line whose positions are not proportional to their distances -/
noncomputable def uneven : Data := [(0, ![0, 0, 0]), (1 / 2, ![3, 0, 0]), (1, ![4, 0, 0])]

theorem asc : Ascending uneven := by
  simp [Ascending, uneven]
  norm_num

theorem norm_axis {a : ℝ} (h : 0 ≤ a) : norm2 ![a, 0, 0] = a := by
  simp [norm2, Real.sqrt_sq h]

theorem length : dataLength uneven = 4 := by
  have e1 : (![3, 0, 0] : Vec3 ℝ) - ![0, 0, 0] = ![3, 0, 0] := by funext i; fin_cases i <;> simp
  have e2 : (![4, 0, 0] : Vec3 ℝ) - ![3, 0, 0] = ![1, 0, 0] := by funext i; fin_cases i <;> norm_num
  simp only [dataLength, uneven, e1, e2, norm_axis (show (0 : ℝ) ≤ 3 by norm_num), norm_axis (show (0 : ℝ) ≤ 1 by norm_num)]
  norm_num

theorem created : mkShapeSeg uneven 1 = .ok ⟨uneven, 1, 4⟩ := mk_iff.2 ⟨by rw [length], by rw [length]; norm_num⟩

theorem round : npRound ((4 : ℝ) / 2) = 2 := by
  have hf : ⌊(4 : ℝ) / 2⌋ = 2 := by rw [Int.floor_eq_iff]; norm_num
  have hfr : Int.fract ((4 : ℝ) / 2) = 0 := by unfold Int.fract; rw [hf]; norm_num
  unfold npRound
  rw [hfr, if_pos (by norm_num), hf]

/-- a line that does not lie in the plane -/
noncomputable def inclined : Data := [(0, ![0, 0, 0]), (1, ![3, 0, 4])]

end ShapeDemo

/-- the hypotheses hold for a segment with two pieces -/
example : Ascending ShapeDemo.uneven ∧ mkShapeSeg ShapeDemo.uneven 1 = .ok ⟨ShapeDemo.uneven, 1, 4⟩ :=
  ⟨ShapeDemo.asc, ShapeDemo.created⟩

/-- positions that are proportional to the length, as `C93_raster_spacing_partial` demands -/
example : ∀ s, 0 ≤ s → s ≤ 2 → IsArcLength (interpDisc DiscDemo.data) 0 s (1 * s) := by
  intro s h0 _
  have h := cum_arc (s := s) DiscDemo.asc h0
  have e : cum DiscDemo.data s = 1 * s := by
    simp only [cum, DiscDemo.data, DiscDemo.step1, DiscDemo.step2, DiscDemo.norm_e]
    split_ifs <;> linarith
  change IsArcLength (interpDisc DiscDemo.data) 0 s (cum DiscDemo.data s) at h
  rwa [e] at h

/-- **C93, equal distances refuted.** A line of length 4 is rasterised with the width 2 by the points 0, 3 and 4. -/
theorem C93_raster_counterexample : mkShapeSeg ShapeDemo.uneven 1 = .ok ⟨ShapeDemo.uneven, 1, 4⟩ ∧
    (⟨ShapeDemo.uneven, 1, 4⟩ : ShapeSeg).rasterize 2 = .ok [![0, 0], ![3, 0], ![4, 0]] := by
  refine ⟨ShapeDemo.created, ?_⟩
  have h0 := interp_at ShapeDemo.uneven ShapeDemo.asc 0 (by simp [ShapeDemo.uneven])
  have h1 := interp_at ShapeDemo.uneven ShapeDemo.asc 1 (by simp [ShapeDemo.uneven])
  have h2 := interp_at ShapeDemo.uneven ShapeDemo.asc 2 (by simp [ShapeDemo.uneven])
  have e0 : interpDisc ShapeDemo.uneven 0 = ![0, 0, 0] := h0
  have e1 : interpDisc ShapeDemo.uneven (1 / 2) = ![3, 0, 0] := h1
  have e2 : interpDisc ShapeDemo.uneven 1 = ![4, 0, 0] := h2
  rw [ShapeSeg.rasterize, if_neg (by norm_num)]
  have hl : linspace (numPoints (npRound ((4 : ℝ) / 2))) = [0, 1 / 2, 1] := by
    rw [ShapeDemo.round]
    have : numPoints 2 = 3 := rfl
    rw [this]
    simp only [linspace, List.range, List.range.loop, List.map_cons, List.map_nil]
    norm_num
  simp only [hl, List.map_cons, List.map_nil, mul_one, e0, e1, e2]
  simp [planar]

/-- **C93, depth.** The length contains the third components, although the points of the segment do not have them: the end points
(0, 0) and (3, 0) belong to a segment of length 5. -/
theorem C93_depth_counterexample : mkShapeSeg ShapeDemo.inclined 1 = .ok ⟨ShapeDemo.inclined, 1, 5⟩ ∧
    pointStart ShapeDemo.inclined = ![0, 0] ∧ pointEnd ShapeDemo.inclined 1 = ![3, 0] := by
  have hasc : Ascending ShapeDemo.inclined := by simp [Ascending, ShapeDemo.inclined]
  have e0 : interpDisc ShapeDemo.inclined 0 = ![0, 0, 0] := interp_at ShapeDemo.inclined hasc 0 (by simp [ShapeDemo.inclined])
  have e1 : interpDisc ShapeDemo.inclined 1 = ![3, 0, 4] := interp_at ShapeDemo.inclined hasc 1 (by simp [ShapeDemo.inclined])
  have hlen : dataLength ShapeDemo.inclined = 5 := by
    simp only [dataLength, ShapeDemo.inclined, norm2]
    rw [add_zero, show (5 : ℝ) = √(5 * 5) by rw [Real.sqrt_mul_self (by norm_num)]]
    congr 1
    simp
    norm_num
  refine ⟨mk_iff.2 ⟨by rw [hlen], by rw [hlen]; norm_num⟩, ?_, ?_⟩
  · rw [pointStart, e0]; simp [planar]
  · rw [pointEnd, e1]; simp [planar]

/-- **C93, failing transformation.** A projection onto the second axis raises a `ValueError` for the line along the first axis. The points
are projected nevertheless, and the length stays 4. -/
theorem C93_transform_counterexample : ∃ y, (⟨ShapeDemo.uneven, 1, 4⟩ : ShapeSeg).transform !![0, 0; 0, 1] = .err .valueError y ∧
    y.length = 4 ∧ ∀ e ∈ y.data, e.2 = 0 := by
  have hr := (C93_transform_error ShapeDemo.created !![0, 0; 0, 1]).2 (by
    intro e he
    simp at he
    rcases he with rfl | rfl <;>
    · funext i
      fin_cases i <;> simp [matrix33, Matrix.mulVec, dotProduct, Fin.sum_univ_succ])
  cases hc : (⟨ShapeDemo.uneven, 1, 4⟩ : ShapeSeg).transform !![0, 0; 0, 1] with
  | ok _ y => rw [hc] at hr; exact absurd hr (by simp [Res.Raised])
  | err e y =>
    obtain ⟨h1, h2, h3⟩ := C93_transform_state hc
    refine ⟨y, by rw [h1], h2, ?_⟩
    intro e he
    rw [h3] at he
    simp [ShapeDemo.uneven] at he
    rcases he with rfl | rfl | rfl <;>
    · funext i
      fin_cases i <;> simp [matrix33, Matrix.mulVec, dotProduct, Fin.sum_univ_succ]

end Weldx.Tr
