import Verif.Mesh.Orient
import Verif.Frame.Lemmas
import Verif.Trace.Solid
import Mathlib.LinearAlgebra.Matrix.Adjugate
import Mathlib.LinearAlgebra.Matrix.NonsingularInverse
import Mathlib.Data.List.Flatten
import Mathlib.Data.List.GetD

/-!
# Geometries as spatial data (C86)

Source: `/repo/weldx/geometry.py` 38-49 (`has_cw_ordering`), 2227-2262 (`Geometry.__init__`), 2574-2613 (`spatial_data`), 2616-2650
(`to_file`), 2725-2733 (`_shape_raster_points`), 2798-2862 (`_shape_triangles`, `from_geometry_raster`).

The raster of the geometry is the one of `Verif.Trace.Solid`, the triangles are those of `Verif.Mesh.Model`, with the direction that
`has_cw_ordering` finds for the first cross section of each shape, in the coordinates in which the geometry is placed.

Simplifications: lengths are real numbers (in millimetres). `np.stack` of the cross sections can not fail, since they have the same
number of points. A list of arrays times a unit, in `to_file`, is an array, which does not exist if the arrays have different shapes
(numpy from 1.24 on raises a `ValueError`).
-/

namespace Weldx.Mesh

open Finset Matrix

/-! ### Model -/

/-- `has_cw_ordering`, `geometry.py` 38-49, for points in space -/
noncomputable def cwOrder (pts : List (Vec3 ℝ)) : Bool :=
  if ((pts.tail.zip pts).map fun e => (e.1 1 - e.2 1) * (e.1 2 + e.2 2)).sum < 0 then false else true

/-- points and triangles -/
structure Surface where
  points : List (Vec3 ℝ)
  triangles : List Tri

/-- the loop of `from_geometry_raster`, `geometry.py` 2852-2857: each shape is a list of cross sections -/
noncomputable def fromRaster (closed : Bool) : List (List (List (Vec3 ℝ))) → Surface → Surface
  | [], s => s
  | shape :: l, s => fromRaster closed l
    ⟨s.points ++ shape.flatten, s.triangles ++
      shapeTriangles ⟨shape.length, (shape.headD []).length, cwOrder (shape.headD [])⟩ s.points.length closed⟩

/-- exceptions -/
inductive GeoErr
  | raster (e : Tr.SErr)
  | index
  | value

/-- `Geometry.spatial_data` with a constant profile, `geometry.py` 2608-2613 -/
noncomputable def spatialData (t : Tr.Trace) (shapes : List (List Geo.Seg)) (pWidth tWidth : ℝ) (closed : Bool) : Except GeoErr Surface :=
  match Tr.solidShapes t shapes pWidth tWidth with
  | .error e => .error (.raster e)
  | .ok [] => .error .index
  | .ok r => .ok (fromRaster closed r ⟨[], []⟩)

/-- `Geometry.spatial_data` with a variable profile, `geometry.py` 2604-2606: there are no triangles -/
noncomputable def spatialDataVariable (t : Tr.Trace) (v : Tr.VarProfile (List (List Geo.Seg)) Geo.GErr) (pWidth tWidth : ℝ) :
    Except GeoErr Surface :=
  match Tr.solidVariable t v pWidth tWidth with
  | .error e => .error (.raster e)
  | .ok r => .ok ⟨r, []⟩

/-- `Geometry.to_file` with a constant profile, `geometry.py` 2640-2650: what is written -/
noncomputable def exportSurface (t : Tr.Trace) (shapes : List (List Geo.Seg)) (pWidth tWidth : ℝ) : Except GeoErr Surface :=
  match Tr.solidShapes t shapes pWidth tWidth with
  | .error e => .error (.raster e)
  | .ok [] => .error .index
  | .ok (a :: r) =>
    if ∀ b ∈ r, (b.headD []).length = (a.headD []).length then .ok (fromRaster true (a :: r) ⟨[], []⟩) else .error .value

/-- `Geometry(profile, length)`, `geometry.py` 2256-2262: a straight trace in the direction of the `x`-axis -/
noncomputable def lengthTrace (L : ℝ) : Except Tr.TErr Tr.Trace := do
  let s ← Tr.linear L
  Tr.mkTrace [s] Lcs.default

/-! ### Specification -/

/-- coordinates of a point -/
def v3 (p : Vec3 ℝ) : V3 := (p 0, p 1, p 2)

/-- the points of a list by their number -/
def ptsFn (l : List (Vec3 ℝ)) (i : ℕ) : V3 := v3 (l.getD i 0)

/-- six times the volume that is enclosed by a surface; positive if the triangles are oriented towards the outside -/
def Surface.volume6 (s : Surface) : ℝ := Mesh.volume6 (ptsFn s.points) s.triangles

/-- area of a polygon; positive if the corners are ordered counter-clockwise -/
noncomputable def area (d : List Geo.V) : ℝ := area2 d.length (fun i => d.getD i 0 0) (fun i => d.getD i 0 1) / 2

/-! ### Lemmas -/

theorem zip_tail_sum (g : Vec3 ℝ → Vec3 ℝ → ℝ) (pts : List (Vec3 ℝ)) :
    ((pts.tail.zip pts).map fun e => g e.1 e.2).sum = ∑ i ∈ range (pts.length - 1), g (pts.getD (i + 1) 0) (pts.getD i 0) := by
  induction pts with
  | nil => simp
  | cons a l ih =>
    cases l with
    | nil => simp
    | cons b l =>
      simp only [List.tail_cons, List.zip_cons_cons, List.map_cons, List.sum_cons, List.length_cons, Nat.add_sub_cancel] at ih ⊢
      rw [sum_range_succ', ih, add_comm]
      simp

theorem cwOrder_eq (pts : List (Vec3 ℝ)) :
    cwOrder pts = hasCw pts.length (fun i => pts.getD i 0 1) (fun i => pts.getD i 0 2) := by
  unfold cwOrder hasCw
  rw [zip_tail_sum (fun p q => (p 1 - q 1) * (p 2 + q 2))]

/-- vertices of triangles belong to edges -/
theorem vertex_edge {l : List Tri} {t : Tri} (ht : t ∈ l) : (t.a, t.b) ∈ edges l ∧ (t.b, t.c) ∈ edges l ∧ (t.c, t.a) ∈ edges l := by
  simp only [edges, List.mem_flatMap]
  exact ⟨⟨t, ht, by simp [Tri.edges]⟩, ⟨t, ht, by simp [Tri.edges]⟩, ⟨t, ht, by simp [Tri.edges]⟩⟩

theorem ClosedSurface.vertex {l : List Tri} {lo hi : ℕ} (h : ClosedSurface l lo hi) {t : Tri} (ht : t ∈ l) :
    (lo ≤ t.a ∧ t.a < hi) ∧ (lo ≤ t.b ∧ t.b < hi) ∧ lo ≤ t.c ∧ t.c < hi := by
  obtain ⟨h1, h2, -⟩ := vertex_edge ht
  exact ⟨(h.range _ _ h1).1, (h.range _ _ h2).1, (h.range _ _ h2).2⟩

theorem volume6_congr {f g : ℕ → V3} {l : List Tri} {lo hi : ℕ} (h : ClosedSurface l lo hi) (hfg : ∀ i, lo ≤ i → i < hi → f i = g i) :
    Mesh.volume6 f l = Mesh.volume6 g l := by
  unfold Mesh.volume6
  congr 1
  refine List.map_congr_left fun t ht => ?_
  obtain ⟨⟨a1, a2⟩, ⟨b1, b2⟩, c1, c2⟩ := h.vertex ht
  rw [hfg _ a1 a2, hfg _ b1 b2, hfg _ c1 c2]

theorem volume6_shift (f : ℕ → V3) (l : List Tri) (k : ℕ) :
    Mesh.volume6 f (l.map fun t => t.shift k) = Mesh.volume6 (fun i => f (i + k)) l := by
  simp [Mesh.volume6, Function.comp_def, Tri.shift]

/-- a sum over the edges of a closed surface -/
theorem edges_antisymm {l : List Tri} {lo hi : ℕ} (h : ClosedSurface l lo hi) (g : ℕ → ℕ → ℝ) (hg : ∀ a b, g b a = - g a b) :
    ((edges l).map fun e => g e.1 e.2).sum = 0 := by
  have hinj : Function.Injective (fun e : ℕ × ℕ => (e.2, e.1)) := by
    rintro ⟨a, b⟩ ⟨c, d⟩ he
    simp only [Prod.mk.injEq] at he
    rw [he.1, he.2]
  have hp : (edges l).Perm ((edges l).map fun e => (e.2, e.1)) := by
    rw [List.perm_ext_iff_of_nodup h.once (h.once.map hinj)]
    rintro ⟨a, b⟩
    simp only [List.mem_map, Prod.mk.injEq, Prod.exists]
    constructor
    · intro hm
      exact ⟨b, a, h.opposite a b hm, rfl, rfl⟩
    · rintro ⟨c, d, hm, rfl, rfl⟩
      exact h.opposite _ _ hm
  have h1 := (hp.map fun e => g e.1 e.2).sum_eq
  rw [List.map_map] at h1
  have h2 : (((edges l).map ((fun e => g e.1 e.2) ∘ fun e => (e.2, e.1))).sum) = - ((edges l).map fun e => g e.1 e.2).sum := by
    generalize edges l = es
    induction es with
    | nil => simp
    | cons e es ih =>
      simp only [List.map_cons, List.sum_cons, Function.comp_apply] at ih ⊢
      rw [ih, hg]
      ring
  rw [h2] at h1
  linarith

/-- a motion: rotation and translation -/
def motion (R : Mat3 ℝ) (c : Vec3 ℝ) (p : V3) : V3 :=
  (R 0 0 * p.1 + R 0 1 * p.2.1 + R 0 2 * p.2.2 + c 0, R 1 0 * p.1 + R 1 1 * p.2.1 + R 1 2 * p.2.2 + c 1,
    R 2 0 * p.1 + R 2 1 * p.2.1 + R 2 2 * p.2.2 + c 2)

theorem det3_motion (R : Mat3 ℝ) (c : Vec3 ℝ) (p q r : V3) :
    det3 (motion R c p) (motion R c q) (motion R c r) = R.det * det3 p q r +
      (det3 (c 0, c 1, c 2) (motion R 0 p) (motion R 0 q) + det3 (c 0, c 1, c 2) (motion R 0 q) (motion R 0 r) +
        det3 (c 0, c 1, c 2) (motion R 0 r) (motion R 0 p)) := by
  simp only [det3, motion, Matrix.det_fin_three, Pi.zero_apply]
  ring

/-- the volume enclosed by a closed surface does not change when it is moved -/
theorem volume6_motion {l : List Tri} {lo hi : ℕ} (h : ClosedSurface l lo hi) (R : Mat3 ℝ) (hR : R.det = 1) (c : Vec3 ℝ) (f : ℕ → V3) :
    Mesh.volume6 (fun i => motion R c (f i)) l = Mesh.volume6 f l := by
  have h0 := edges_antisymm h (fun a b => det3 (c 0, c 1, c 2) (motion R 0 (f a)) (motion R 0 (f b)))
    (by intro a b; simp only [det3]; ring)
  have : ∀ l : List Tri, Mesh.volume6 (fun i => motion R c (f i)) l = Mesh.volume6 f l +
      ((edges l).map fun e => det3 (c 0, c 1, c 2) (motion R 0 (f e.1)) (motion R 0 (f e.2))).sum := by
    intro l
    induction l with
    | nil => simp [Mesh.volume6, edges]
    | cons t l ih =>
      simp only [Mesh.volume6, List.map_cons, List.sum_cons, edges, List.flatMap_cons, List.map_append, List.sum_append, Tri.edges,
        List.map_nil, List.sum_nil] at ih ⊢
      rw [ih, det3_motion, hR]
      ring
  rw [this, h0, add_zero]

/-! ### areas -/

theorem sum_next {n : ℕ} (y : ℕ → ℝ) : ∑ i ∈ range n, y (next n i) = ∑ i ∈ range n, y i := by
  cases n with
  | zero => simp
  | succ k =>
    rw [sum_range_succ, sum_range_succ' (fun i => y i)]
    congr 1
    · refine sum_congr rfl fun i hi => ?_
      rw [mem_range] at hi
      congr 1
      unfold next
      split <;> omega
    · simp [next]

/-- area of the image under an affine map -/
theorem area2_affine (n : ℕ) (y z : ℕ → ℝ) (a b c a' b' c' : ℝ) :
    area2 n (fun i => a + b * y i + c * z i) (fun i => a' + b' * y i + c' * z i) = (b * c' - c * b') * area2 n y z := by
  unfold area2
  have h1 := sum_next (n := n) y
  have h2 := sum_next (n := n) z
  have e : ∀ i ∈ range n, (a + b * y i + c * z i) * (a' + b' * y (next n i) + c' * z (next n i)) -
      (a' + b' * y i + c' * z i) * (a + b * y (next n i) + c * z (next n i)) =
      (b * c' - c * b') * (y i * z (next n i) - z i * y (next n i)) + (a * b' - a' * b) * (y (next n i) - y i) +
        (a * c' - a' * c) * (z (next n i) - z i) := by
    intro i _
    ring
  rw [sum_congr rfl e, sum_add_distrib, sum_add_distrib, ← mul_sum, ← mul_sum, ← mul_sum, sum_sub_distrib (fun i => y (next n i)),
    sum_sub_distrib (fun i => z (next n i)), h1, h2]
  ring

/-- the minor of a rotation -/
theorem rotation_minor {R : Mat3 ℝ} (ho : Rᵀ * R = 1) (hd : R.det = 1) : R 1 1 * R 2 2 - R 1 2 * R 2 1 = R 0 0 := by
  have h : R.adjugate = Rᵀ := by
    have h1 : R.adjugate * R = 1 := by rw [Matrix.adjugate_mul, hd, one_smul]
    have h2 : R * Rᵀ = 1 := mul_eq_one_comm.1 ho
    calc R.adjugate = R.adjugate * (R * Rᵀ) := by rw [h2, mul_one]
      _ = Rᵀ := by rw [← mul_assoc, h1, one_mul]
  have := congrFun (congrFun h 0) 0
  rw [Matrix.adjugate_fin_three] at this
  simpa using this

/-! ### rasters of shapes -/

/-- what the triangles of a shape depend on -/
noncomputable def rasterOf (shape : List (List (Vec3 ℝ))) : ShapeRaster :=
  ⟨shape.length, (shape.headD []).length, cwOrder (shape.headD [])⟩

/-- all cross sections have the same number of points -/
def Uniform (shape : List (List (Vec3 ℝ))) : Prop := ∀ a ∈ shape, a.length = (shape.headD []).length

theorem Uniform.length {shape : List (List (Vec3 ℝ))} (h : Uniform shape) :
    shape.flatten.length = (rasterOf shape).numProfiles * (rasterOf shape).numPoints := by
  rw [List.length_flatten]
  have : shape.map List.length = List.replicate shape.length (shape.headD []).length := by
    rw [List.eq_replicate_iff]
    refine ⟨by simp, ?_⟩
    intro b hb
    obtain ⟨a, ha, rfl⟩ := List.mem_map.1 hb
    exact h a ha
  rw [this, List.sum_replicate]
  rfl

theorem fromRaster_eq (closed : Bool) : ∀ (l : List (List (List (Vec3 ℝ)))) (s : Surface), (∀ a ∈ l, Uniform a) →
    fromRaster closed l s = ⟨s.points ++ (l.map List.flatten).flatten,
      s.triangles ++ geometryTriangles closed (l.map rasterOf) s.points.length⟩
  | [], s, _ => by simp [fromRaster, geometryTriangles]
  | a :: l, s, h => by
    rw [fromRaster, fromRaster_eq closed l _ fun b hb => h b (by simp [hb])]
    simp only [List.map_cons, List.flatten_cons, geometryTriangles, List.length_append, (h a (by simp)).length, List.append_assoc]
    rfl

theorem frontLoop_shift {n : ℕ} (hn : 2 ≤ n) (off : ℕ) : frontLoop n off 0 0 = (frontLoop n 0 0 0).map fun t => t.shift off := by
  have h1 := frontLoop_eq hn off (n - 2) 0 (by omega)
  have h2 := frontLoop_eq hn 0 (n - 2) 0 (by omega)
  simp only [Nat.zero_add, Nat.reduceDiv] at h1 h2
  rw [h1, h2, List.map_map]
  rfl

theorem shapeTriangles_shift {r : ShapeRaster} (hn : 2 ≤ r.numPoints) (off : ℕ) :
    shapeTriangles r off true = (shapeTriangles r 0 true).map fun t => t.shift off := by
  simp only [shapeTriangles, if_true, List.map_append]
  congr 1
  · unfold profileTriangles
    rw [List.map_flatMap]
    refine List.flatMap_congr fun j _ => ?_
    rw [List.map_map]
    refine List.map_congr_left fun t _ => ?_
    simp [Tri.shift, Nat.add_assoc]
  · unfold frontBackTriangles
    rw [frontLoop_shift hn off]
    cases r.cw <;> simp only [Bool.false_eq_true, if_true, if_false, List.map_append, List.map_map] <;> congr 1 <;>
      refine List.map_congr_left fun t _ => ?_ <;> simp [Tri.shift, Tri.flip] <;> omega

/-- the volume of several shapes is the sum of their volumes -/
theorem volume_shapes : ∀ (l : List (List (List (Vec3 ℝ)))) (P : List (Vec3 ℝ)), (∀ a ∈ l, Uniform a) →
    (∀ a ∈ l, 2 ≤ (rasterOf a).numProfiles ∧ 3 ≤ (rasterOf a).numPoints) →
    Mesh.volume6 (ptsFn (P ++ (l.map List.flatten).flatten)) (geometryTriangles true (l.map rasterOf) P.length) =
      (l.map fun a => Mesh.volume6 (ptsFn a.flatten) (shapeTriangles (rasterOf a) 0 true)).sum
  | [], P, _, _ => by simp [geometryTriangles, Mesh.volume6]
  | a :: l, P, hu, hn => by
    obtain ⟨h1, h2⟩ := hn a (by simp)
    have ih := volume_shapes l (P ++ a.flatten) (fun b hb => hu b (by simp [hb])) (fun b hb => hn b (by simp [hb]))
    have hlen := (hu a (by simp)).length
    simp only [List.map_cons, List.flatten_cons, geometryTriangles, List.sum_cons]
    rw [volume6_append, ← hlen]
    rw [List.length_append, List.append_assoc] at ih
    rw [ih]
    congr 1
    rw [shapeTriangles_shift (by omega), volume6_shift]
    refine volume6_congr (C43_shape _ _ 0 _ h1 h2) fun i _ hi => ?_
    have hi : i < a.flatten.length := by rw [hlen]; rwa [Nat.zero_add] at hi
    simp only [ptsFn]
    congr 1
    rw [List.getD_append_right _ _ _ _ (by omega), Nat.add_sub_cancel, List.getD_append _ _ _ _ hi]

/-! ### sweeps -/

theorem getD_sections {α : Type} (g : ℝ → α → Vec3 ℝ) (d : List α) (z : α) : ∀ (xs : List ℝ) (j i : ℕ), j < xs.length → i < d.length →
    ((xs.map fun x => d.map (g x)).flatten).getD (j * d.length + i) 0 = g (xs.getD j 0) (d.getD i z)
  | [], j, i, hj, _ => by simp at hj
  | x :: xs, 0, i, _, hi => by
    rw [List.map_cons, List.flatten_cons, Nat.zero_mul, Nat.zero_add, List.getD_append _ _ _ _ (by simpa using hi)]
    rw [List.getD_eq_getElem _ _ (by simpa using hi), List.getElem_map, List.getD_eq_getElem _ _ hi]
    rfl
  | x :: xs, j + 1, i, hj, hi => by
    rw [List.map_cons, List.flatten_cons, List.getD_append_right _ _ _ _ (by simp [Nat.add_mul]; omega)]
    have : (j + 1) * d.length + i - (d.map (g x)).length = j * d.length + i := by
      rw [List.length_map, Nat.add_mul]; omega
    rw [this, getD_sections g d z xs j i (by simpa using hj) hi]
    rfl

theorem headD_sections (g : ℝ → Geo.V → Vec3 ℝ) (d : List Geo.V) {xs : List ℝ} (h : xs ≠ []) :
    (xs.map fun x => d.map (g x)).headD [] = d.map (g (xs.getD 0 0)) := by
  cases xs with
  | nil => exact absurd rfl h
  | cons x xs => rfl

theorem uniform_sections (g : ℝ → Geo.V → Vec3 ℝ) (d : List Geo.V) (xs : List ℝ) : Uniform (xs.map fun x => d.map (g x)) := by
  intro a ha
  have hne : xs ≠ [] := by rintro rfl; simp at ha
  rw [headD_sections g d hne]
  obtain ⟨x, -, rfl⟩ := List.mem_map.1 ha
  simp

theorem v3_toParent (f : Lcs ℝ) (x y z : ℝ) : v3 (f.toParent ![x, y, z]) = motion f.orientation f.coordinates (x, y, z) := by
  simp only [v3, motion, Lcs.toParent, Prod.mk.injEq]
  refine ⟨?_, ?_, ?_⟩ <;> simp <;> ring

/-- the volume of a straight sweep that is placed anywhere -/
theorem volume_sweep {f : Lcs ℝ} (hh : f.handedness = 1) {xs : List ℝ} (hm : 2 ≤ xs.length) {d : List Geo.V} (hn : 3 ≤ d.length)
    (cw : Bool) :
    Mesh.volume6 (ptsFn (xs.map fun x => d.map fun p => f.toParent ![x, p 0, p 1]).flatten)
      (shapeTriangles ⟨xs.length, d.length, cw⟩ 0 true) =
      (if cw then -1 else 1) * (6 * ((xs.getD (xs.length - 1) 0 - xs.getD 0 0) * area d)) := by
  have hc := C43_shape xs.length d.length 0 cw hm hn
  rw [Lcs.handedness_eq_det] at hh
  have e := C59_volume (m := xs.length) (n := d.length) (by omega) (fun j => xs.getD j 0) (fun i => d.getD i 0 0)
    (fun i => d.getD i 0 1) cw
  rw [area, ← e, ← volume6_motion hc f.orientation hh f.coordinates (sweep _ _ _ _)]
  refine volume6_congr hc fun k _ hk => ?_
  rw [Nat.zero_add] at hk
  have hpos : 0 < d.length := by omega
  have hi := Nat.mod_lt k hpos
  have hj : k / d.length < xs.length := (Nat.div_lt_iff_lt_mul hpos).2 hk
  have hk' : k = k / d.length * d.length + k % d.length := (Nat.div_add_mod' k d.length).symm
  conv_lhs => rw [hk']
  rw [ptsFn, getD_sections (fun x p => f.toParent ![x, p 0, p 1]) d 0 xs _ _ hj hi, v3_toParent]
  rfl

/-- a straight trace with any start -/
theorem straight_any {L : ℝ} (hL : 0 < L) {f : Lcs ℝ} {t : Tr.Trace} (ht : Tr.mkTrace [Tr.lin L] f = .ok t) :
    t.length = L ∧ ∃ F : ℝ → Lcs ℝ, ∀ x, 0 ≤ x → x ≤ t.length → t.localCs x = .ok (F x) ∧ ∀ p, Tr.place (F x) p = f.toParent ![x, p 0, p 1] := by
  have hs : ∀ s ∈ [Tr.lin L], Tr.IsHorizontal s := by
    intro s h
    rw [List.mem_singleton] at h
    subst h
    exact .line hL
  have hsl : (Tr.lin L).length = L := by simp [Tr.lin_length hL]
  have hlen : t.length = L := by
    rw [Tr.C44_length ht]
    simp [hsl]
  have key : ∀ x, ∃ g : Lcs ℝ, 0 ≤ x → x ≤ t.length → t.localCs x = .ok g ∧ ∀ p, Tr.place g p = f.toParent ![x, p 0, p 1] := by
    intro x
    by_cases h0 : 0 ≤ x
    · by_cases h1 : x ≤ L
      · have hb : Tr.before [Tr.lin L] 1 = L := by simp [Tr.before, hsl]
        have hw0 : 0 ≤ x / L := div_nonneg h0 hL.le
        have hw1 : x / L ≤ 1 := (div_le_one hL).2 h1
        have hlc := Tr.lin_lcs hL hw0
        rw [Geo.clip_of_mem hw0 hw1, div_mul_cancel₀ _ hL.ne'] at hlc
        have := Tr.C44_position ht hs (k := 0) (s := Tr.lin L) rfl (p := x) (by rw [Tr.before_zero]; exact h0) (by rw [hb]; exact h1)
          .zero (by rw [Tr.before_zero, sub_zero, hsl]; exact hlc)
        refine ⟨_, fun _ _ => ⟨this, ?_⟩⟩
        intro p
        rw [Tr.place, C01_add_composes]
        congr 1
        rw [Lcs.toParent_eq, Matrix.one_mulVec]
        ext i
        fin_cases i <;> simp
      · exact ⟨f, fun _ h => absurd (hlen ▸ h) h1⟩
    · exact ⟨f, fun h => absurd h h0⟩
  choose F hF using key
  exact ⟨hlen, F, hF⟩

theorem flatMap_swap {α β γ : Type} (g : α → β → List γ) (ps : List α) : ∀ data : List β,
    (data.flatMap fun d => ps.flatMap fun x => g x d).Perm (ps.flatMap fun x => data.flatMap (g x))
  | [] => by simp
  | d :: data => by
    simp only [List.flatMap_cons]
    exact ((flatMap_swap g ps data).append_left _).trans (List.flatMap_append_perm _ _ _)

theorem positions_length (L : ℝ) (n : ℕ) : (Tr.positions L n).length = n + 1 := by simp [Tr.positions]

theorem positions_first (L : ℝ) (n : ℕ) : (Tr.positions L n).getD 0 0 = 0 := by
  rw [List.getD_eq_getElem _ _ (by simp [Tr.positions])]
  simp [Tr.positions]

theorem positions_last (L : ℝ) {n : ℕ} (hn : 0 < n) : (Tr.positions L n).getD n 0 = L := by
  have : (n : ℝ) ≠ 0 := by exact_mod_cast hn.ne'
  rw [List.getD_eq_getElem _ _ (by simp [Tr.positions])]
  simp only [Tr.positions, List.getElem_map, List.getElem_range]
  field_simp

/-! ### Properties -/

/-- **C86.** The points of the spatial data are those of the raster of the geometry, shape by shape; the triangles are those of the
shapes, numbered in the same order. With several shapes the order differs from the one of the stacked raster, but the points are the
same. -/
theorem C86_points {segs : List Tr.TSeg} {start : Lcs ℝ} {t : Tr.Trace} (ht : Tr.mkTrace segs start = .ok t)
    {shapes : List (List Geo.Seg)} {pWidth tWidth : ℝ} (hw : 0 < tWidth) {data : List (List Geo.V)}
    (hd : Tr.profileRaster shapes pWidth = .ok data) (hne : data ≠ []) (F : ℝ → Lcs ℝ)
    (hF : ∀ x, 0 ≤ x → x ≤ t.length → t.localCs x = .ok (F x)) (closed : Bool) :
    ∃ n s, Tr.SectionCount t.length tWidth n ∧ spatialData t shapes pWidth tWidth closed = .ok s ∧
      s.points = data.flatMap (fun d => (Tr.positions t.length n).flatMap fun x => d.map (Tr.place (F x))) ∧
      s.triangles = geometryTriangles closed (data.map fun d => ⟨n + 1, d.length, cwOrder (d.map (Tr.place (F 0)))⟩) 0 ∧
      ∃ r, Tr.solidStacked t shapes pWidth tWidth = .ok r ∧ s.points.Perm r := by
  obtain ⟨n, hn, h1, h2⟩ := Tr.C61_constant ht hw hd F hF
  have hps : Tr.positions t.length n ≠ [] := by
    intro h
    have := positions_length t.length n
    rw [h] at this
    simp at this
  set sh := fun d : List Geo.V => (Tr.positions t.length n).map fun x => d.map (Tr.place (F x)) with hsh
  have hsd : spatialData t shapes pWidth tWidth closed = .ok (fromRaster closed (data.map sh) ⟨[], []⟩) := by
    unfold spatialData
    rw [h2]
    cases data with
    | nil => exact absurd rfl hne
    | cons d data => rfl
  have hu : ∀ a ∈ data.map sh, Uniform a := by
    intro a ha
    obtain ⟨d, -, rfl⟩ := List.mem_map.1 ha
    exact uniform_sections (fun x => Tr.place (F x)) d _
  rw [fromRaster_eq closed _ _ hu] at hsd
  have hp : ((data.map sh).map List.flatten).flatten =
      data.flatMap (fun d => (Tr.positions t.length n).flatMap fun x => d.map (Tr.place (F x))) := by
    simp only [hsh, List.map_map, List.flatMap_def, Function.comp_def]
  refine ⟨n, _, hn, hsd, ?_, ?_, _, h1, ?_⟩
  · simp only [List.nil_append]
    exact hp
  · simp only [List.nil_append, List.length_nil, List.map_map]
    congr 1
    refine List.map_congr_left fun d _ => ?_
    simp only [Function.comp_apply, rasterOf, hsh, List.length_map, positions_length]
    rw [headD_sections (fun x => Tr.place (F x)) d hps, positions_first]
    simp
  · simp only [List.nil_append]
    rw [hp]
    have := flatMap_swap (fun x (d : List Geo.V) => d.map (Tr.place (F x))) (Tr.positions t.length n) data
    simpa only [List.map_flatten, List.flatMap_def, List.map_map, Function.comp_def] using this

/-- **C86.** The surface is closed and consistently oriented if the raster of each shape has at least three points. -/
theorem C86_closed {segs : List Tr.TSeg} {start : Lcs ℝ} {t : Tr.Trace} (ht : Tr.mkTrace segs start = .ok t)
    {shapes : List (List Geo.Seg)} {pWidth tWidth : ℝ} (hw : 0 < tWidth) {data : List (List Geo.V)}
    (hd : Tr.profileRaster shapes pWidth = .ok data) (hne : data ≠ []) (h3 : ∀ d ∈ data, 3 ≤ d.length)
    (hs : ∀ s ∈ segs, Tr.IsHorizontal s) (ho : start.Orthonormal) :
    ∃ s, spatialData t shapes pWidth tWidth true = .ok s ∧ ClosedSurface s.triangles 0 s.points.length := by
  obtain ⟨F, hF⟩ := Tr.C61_systems ht hs ho
  obtain ⟨n, s, ⟨hn, -⟩, h1, h2, h3', -⟩ := C86_points ht hw hd hne F (fun x a b => (hF x a b).1) true
  refine ⟨s, h1, ?_⟩
  have := C43_geometry (data.map fun d => ⟨n + 1, d.length, cwOrder (d.map (Tr.place (F 0)))⟩) 0 (by
    intro r hr
    obtain ⟨d, hd', rfl⟩ := List.mem_map.1 hr
    exact ⟨by simp only; omega, h3 d hd'⟩)
  rw [← h3'] at this
  convert this using 1
  rw [h2]
  simp only [List.length_flatMap, List.length_map, List.map_const', List.sum_replicate, positions_length, List.map_map, Nat.zero_add,
    Function.comp_def, smul_eq_mul]

/-- **C86.** The volume that is enclosed by the surface of a geometry with a straight trace, for any start of the trace: the length
times the areas of the shapes, where the sign of each shape is the one that `has_cw_ordering` finds for the cross section at the
start. -/
theorem C86_volume {L : ℝ} (hL : 0 < L) {f : Lcs ℝ} (hh : f.handedness = 1) {t : Tr.Trace} (ht : Tr.mkTrace [Tr.lin L] f = .ok t)
    {shapes : List (List Geo.Seg)} {pWidth tWidth : ℝ} (hw : 0 < tWidth) {data : List (List Geo.V)}
    (hd : Tr.profileRaster shapes pWidth = .ok data) (hne : data ≠ []) (h3 : ∀ d ∈ data, 3 ≤ d.length) :
    ∃ s, spatialData t shapes pWidth tWidth true = .ok s ∧
      s.volume6 = (data.map fun d => (if cwOrder (d.map (Tr.place f)) then -1 else 1) * (6 * (L * area d))).sum := by
  obtain ⟨hlen, F, hF⟩ := straight_any hL ht
  obtain ⟨n, ⟨hn, -⟩, -, h2⟩ := Tr.C61_constant ht hw hd F (fun x a b => (hF x a b).1)
  rw [hlen] at h2
  have hpl := positions_length L n
  have hps : Tr.positions L n ≠ [] := by
    intro h
    rw [h] at hpl
    simp at hpl
  set sh := fun d : List Geo.V => (Tr.positions L n).map fun x => d.map fun p => f.toParent ![x, p 0, p 1] with hsh
  have hdata : (data.map fun d => (Tr.positions L n).map fun x => d.map (Tr.place (F x))) = data.map sh := by
    refine List.map_congr_left fun d _ => List.map_congr_left fun x hx => List.map_congr_left fun p _ => ?_
    obtain ⟨a, b⟩ := Tr.positions_mem hL hn hx
    exact (hF x a (by rw [hlen]; exact b)).2 p
  rw [hdata] at h2
  have hsd : spatialData t shapes pWidth tWidth true = .ok (fromRaster true (data.map sh) ⟨[], []⟩) := by
    unfold spatialData
    rw [h2]
    cases data with
    | nil => exact absurd rfl hne
    | cons d data => rfl
  have hu : ∀ a ∈ data.map sh, Uniform a := by
    intro a ha
    obtain ⟨d, -, rfl⟩ := List.mem_map.1 ha
    exact uniform_sections (fun x p => f.toParent ![x, p 0, p 1]) d _
  have hr : ∀ d, rasterOf (sh d) = ⟨(Tr.positions L n).length, d.length, cwOrder (d.map (Tr.place f))⟩ := by
    intro d
    simp only [rasterOf, hsh, List.length_map]
    rw [headD_sections (fun x p => f.toParent ![x, p 0, p 1]) d hps, positions_first]
    simp only [List.length_map]
    rfl
  rw [fromRaster_eq true _ _ hu] at hsd
  refine ⟨_, hsd, ?_⟩
  have := volume_shapes (data.map sh) [] hu (by
    intro a ha
    obtain ⟨d, hd', rfl⟩ := List.mem_map.1 ha
    rw [hr]
    exact ⟨by simp only; omega, h3 d hd'⟩)
  simp only [List.nil_append, List.length_nil] at this
  simp only [Surface.volume6, List.nil_append, List.length_nil]
  rw [this, List.map_map]
  congr 1
  refine List.map_congr_left fun d hd' => ?_
  rw [Function.comp_apply, hr, volume_sweep hh (by omega) (h3 d hd'), hpl, Nat.add_sub_cancel, positions_first, positions_last L hn,
    sub_zero]

/-- **C86.** What `has_cw_ordering` finds for a cross section: the area is the one of the projection along the first axis of the
coordinates in which the geometry is placed, and the edge from the last point to the first one is missing. -/
theorem C86_direction {f : Lcs ℝ} (ho : f.Orthonormal) (hh : f.handedness = 1) {d : List Geo.V} (hn : 1 ≤ d.length) {p q : Geo.V}
    (hp : d.head? = some p) (hq : d.getLast? = some q) :
    cwOrder (d.map (Tr.place f)) = true ↔
      2 * (f.axis 0 0 * area d) + (Tr.place f p 1 - Tr.place f q 1) * (Tr.place f p 2 + Tr.place f q 2) ≤ 0 := by
  rw [Lcs.handedness_eq_det] at hh
  have hm := rotation_minor (mul_eq_one_comm.1 ((Lcs.orthonormal_iff' f).1 ho)) hh
  have hget : ∀ i, i < d.length → ∀ c, (d.map (Tr.place f)).getD i 0 c = Tr.place f (d.getD i 0) c := by
    intro i hi c
    rw [List.getD_eq_getElem _ _ (by simpa using hi), List.getElem_map, List.getD_eq_getElem _ _ hi]
  have hpl : ∀ (v : Geo.V) c, Tr.place f v c = f.coordinates c + f.orientation c 1 * v 0 + f.orientation c 2 * v 1 := by
    intro v c
    simp only [Tr.place, Lcs.toParent]
    simp
    ring
  have h0 : d.getD 0 0 = p := by
    rw [List.head?_eq_getElem?] at hp
    rw [List.getD_eq_getElem?_getD, hp]
    rfl
  have h1 : d.getD (d.length - 1) 0 = q := by
    rw [List.getLast?_eq_getElem?] at hq
    rw [List.getD_eq_getElem?_getD, hq]
    rfl
  rw [cwOrder_eq, List.length_map]
  have e : ∀ i ∈ range (d.length - 1), ((d.map (Tr.place f)).getD (i + 1) 0 1 - (d.map (Tr.place f)).getD i 0 1) *
      ((d.map (Tr.place f)).getD (i + 1) 0 2 + (d.map (Tr.place f)).getD i 0 2) =
      (Tr.place f (d.getD (i + 1) 0) 1 - Tr.place f (d.getD i 0) 1) * (Tr.place f (d.getD (i + 1) 0) 2 + Tr.place f (d.getD i 0) 2) := by
    intro i hi
    rw [mem_range] at hi
    rw [hget _ (by omega), hget _ (by omega), hget _ (by omega), hget _ (by omega)]
  unfold hasCw
  rw [sum_congr rfl e, cw_sum hn (fun i => Tr.place f (d.getD i 0) 1) (fun i => Tr.place f (d.getD i 0) 2), h0, h1]
  have ha : area2 d.length (fun i => Tr.place f (d.getD i 0) 1) (fun i => Tr.place f (d.getD i 0) 2) = 2 * (f.axis 0 0 * area d) := by
    simp only [hpl]
    rw [area2_affine d.length (fun i => d.getD i 0 0) (fun i => d.getD i 0 1), hm, area, Lcs.axis]
    ring
  rw [ha]
  constructor
  · intro h
    by_contra hc
    rw [if_pos (by linarith)] at h
    exact absurd h (by simp)
  · intro h
    rw [if_neg (by linarith)]

/-- **C86.** If the first point is repeated at the end: a cross section is seen from the first axis of these coordinates, so that its
direction is turned around if the trace runs against this axis. -/
theorem C86_direction_closed {f : Lcs ℝ} (ho : f.Orthonormal) (hh : f.handedness = 1) {d : List Geo.V} (hn : 1 ≤ d.length)
    (hc : d.head? = d.getLast?) : cwOrder (d.map (Tr.place f)) = true ↔ f.axis 0 0 * area d ≤ 0 := by
  obtain ⟨p, hp⟩ : ∃ p, d.head? = some p := by
    cases d with
    | nil => simp at hn
    | cons a l => exact ⟨a, rfl⟩
  rw [C86_direction ho hh hn hp (hc ▸ hp)]
  constructor <;> intro h <;> linarith

/-- **C86.** A straight trace that does not run against the first axis, and shapes that repeat their first point: the surface is
oriented towards the outside, the enclosed volume is the length times the sum of the areas.

Partial: the full statement has neither the condition about the trace nor the one about the first point, see the counterexamples. -/
theorem C86_outward_partial {L : ℝ} (hL : 0 < L) {f : Lcs ℝ} (ho : f.Orthonormal) (hh : f.handedness = 1) (hx : 0 < f.axis 0 0)
    {t : Tr.Trace} (ht : Tr.mkTrace [Tr.lin L] f = .ok t) {shapes : List (List Geo.Seg)} {pWidth tWidth : ℝ} (hw : 0 < tWidth)
    {data : List (List Geo.V)} (hd : Tr.profileRaster shapes pWidth = .ok data) (hne : data ≠ []) (h3 : ∀ d ∈ data, 3 ≤ d.length)
    (hc : ∀ d ∈ data, d.head? = d.getLast?) :
    ∃ s, spatialData t shapes pWidth tWidth true = .ok s ∧ s.volume6 = 6 * (L * (data.map fun d => |area d|).sum) := by
  obtain ⟨s, h1, h2⟩ := C86_volume hL hh ht hw hd hne h3
  refine ⟨s, h1, ?_⟩
  rw [h2, ← mul_assoc, ← List.sum_map_mul_left]
  congr 1
  refine List.map_congr_left fun d hd' => ?_
  have := C86_direction_closed ho hh (by have := h3 d hd'; omega) (hc d hd')
  by_cases ha : 0 < area d
  · have hn : ¬ cwOrder (d.map (Tr.place f)) = true := fun h => absurd (this.1 h) (not_le.2 (mul_pos hx ha))
    rw [if_neg hn, abs_of_pos ha]
    ring
  · rw [if_pos (this.2 (mul_nonpos_of_nonneg_of_nonpos hx.le (not_lt.1 ha))), abs_of_nonpos (not_lt.1 ha)]
    ring

/-- **C86.** A straight trace that runs against the first axis: the surface is turned inside out. -/
theorem C86_inward {L : ℝ} (hL : 0 < L) {f : Lcs ℝ} (ho : f.Orthonormal) (hh : f.handedness = 1) (hx : f.axis 0 0 < 0)
    {t : Tr.Trace} (ht : Tr.mkTrace [Tr.lin L] f = .ok t) {shapes : List (List Geo.Seg)} {pWidth tWidth : ℝ} (hw : 0 < tWidth)
    {data : List (List Geo.V)} (hd : Tr.profileRaster shapes pWidth = .ok data) (hne : data ≠ []) (h3 : ∀ d ∈ data, 3 ≤ d.length)
    (hc : ∀ d ∈ data, d.head? = d.getLast?) :
    ∃ s, spatialData t shapes pWidth tWidth true = .ok s ∧ s.volume6 = - (6 * (L * (data.map fun d => |area d|).sum)) := by
  obtain ⟨s, h1, h2⟩ := C86_volume hL hh ht hw hd hne h3
  refine ⟨s, h1, ?_⟩
  rw [h2, ← mul_assoc, ← neg_mul, ← List.sum_map_mul_left]
  congr 1
  refine List.map_congr_left fun d hd' => ?_
  have := C86_direction_closed ho hh (by have := h3 d hd'; omega) (hc d hd')
  by_cases ha : area d < 0
  · have hn : ¬ cwOrder (d.map (Tr.place f)) = true := fun h => absurd (this.1 h) (not_le.2 (mul_pos_of_neg_of_neg hx ha))
    rw [if_neg hn, abs_of_neg ha]
    ring
  · rw [if_pos (this.2 (mul_nonpos_of_nonpos_of_nonneg hx.le (not_lt.1 ha))), abs_of_nonneg (not_lt.1 ha)]
    ring

/-- **C86.** A straight trace perpendicular to the first axis: all shapes are taken as clockwise. -/
theorem C86_sideways {L : ℝ} (hL : 0 < L) {f : Lcs ℝ} (ho : f.Orthonormal) (hh : f.handedness = 1) (hx : f.axis 0 0 = 0)
    {t : Tr.Trace} (ht : Tr.mkTrace [Tr.lin L] f = .ok t) {shapes : List (List Geo.Seg)} {pWidth tWidth : ℝ} (hw : 0 < tWidth)
    {data : List (List Geo.V)} (hd : Tr.profileRaster shapes pWidth = .ok data) (hne : data ≠ []) (h3 : ∀ d ∈ data, 3 ≤ d.length)
    (hc : ∀ d ∈ data, d.head? = d.getLast?) :
    ∃ s, spatialData t shapes pWidth tWidth true = .ok s ∧ s.volume6 = - (6 * (L * (data.map area).sum)) := by
  obtain ⟨s, h1, h2⟩ := C86_volume hL hh ht hw hd hne h3
  refine ⟨s, h1, ?_⟩
  rw [h2, ← mul_assoc, ← neg_mul]
  have : (data.map area) = data.map fun d => area d := rfl
  rw [this, ← List.sum_map_mul_left]
  congr 1
  refine List.map_congr_left fun d hd' => ?_
  have := C86_direction_closed ho hh (by have := h3 d hd'; omega) (hc d hd')
  rw [if_pos (this.2 (by rw [hx, zero_mul]))]
  ring

theorem lengthTrace_eq {L : ℝ} (hL : 0 < L) : lengthTrace L = Tr.mkTrace [Tr.lin L] Lcs.default := by
  unfold lengthTrace
  rw [Tr.linear_eq, if_neg (not_le.2 hL)]
  rfl

theorem default_frame : (Lcs.default : Lcs ℝ).Orthonormal ∧ (Lcs.default : Lcs ℝ).handedness = 1 ∧ (Lcs.default : Lcs ℝ).axis 0 0 = 1 := by
  refine ⟨?_, ?_, ?_⟩
  · rw [Lcs.orthonormal_iff']
    simp [Lcs.default]
  · rw [Lcs.handedness_eq_det]
    simp [Lcs.default]
  · simp [Lcs.axis, Lcs.default]

/-- **C86.** `Geometry(profile, length)` and shapes that repeat their first point: the surface is oriented towards the outside. A
length that is not positive is refused. -/
theorem C86_length_partial {L : ℝ} {shapes : List (List Geo.Seg)} {pWidth tWidth : ℝ} (hw : 0 < tWidth)
    {data : List (List Geo.V)} (hd : Tr.profileRaster shapes pWidth = .ok data) (hne : data ≠ []) (h3 : ∀ d ∈ data, 3 ≤ d.length)
    (hc : ∀ d ∈ data, d.head? = d.getLast?) :
    (L ≤ 0 → lengthTrace L = .error .valueError) ∧ (0 < L → ∃ t s, lengthTrace L = .ok t ∧
      spatialData t shapes pWidth tWidth true = .ok s ∧ s.volume6 = 6 * (L * (data.map fun d => |area d|).sum)) := by
  refine ⟨fun h => by rw [lengthTrace, Tr.linear_eq, if_pos h]; rfl, fun hL => ?_⟩
  obtain ⟨t, ht, -⟩ := Tr.C61_straight hL
  obtain ⟨h1, h2, h3'⟩ := default_frame
  obtain ⟨s, e1, e2⟩ := C86_outward_partial hL h1 h2 (by rw [h3']; exact one_pos) ht hw hd hne h3 hc
  exact ⟨t, s, by rw [lengthTrace_eq hL, ht], e1, e2⟩

/-- **C86.** The export of a geometry writes its spatial data if all shapes have the same number of raster points, and fails
otherwise. -/
theorem C86_export {segs : List Tr.TSeg} {start : Lcs ℝ} {t : Tr.Trace} (ht : Tr.mkTrace segs start = .ok t)
    {shapes : List (List Geo.Seg)} {pWidth tWidth : ℝ} (hw : 0 < tWidth) {data : List (List Geo.V)}
    (hd : Tr.profileRaster shapes pWidth = .ok data) (hne : data ≠ [])
    (hs : ∀ s ∈ segs, Tr.IsHorizontal s) (ho : start.Orthonormal) :
    ((∀ a ∈ data, ∀ b ∈ data, a.length = b.length) → exportSurface t shapes pWidth tWidth = spatialData t shapes pWidth tWidth true) ∧
      ((∃ a ∈ data, ∃ b ∈ data, a.length ≠ b.length) → exportSurface t shapes pWidth tWidth = .error .value) := by
  obtain ⟨F, hF⟩ := Tr.C61_systems ht hs ho
  obtain ⟨n, hn, -, h2⟩ := Tr.C61_constant ht hw hd F (fun x a b => (hF x a b).1)
  have hps : Tr.positions t.length n ≠ [] := by
    intro h
    have := positions_length t.length n
    rw [h] at this
    simp at this
  obtain ⟨d, data, rfl⟩ := List.exists_cons_of_ne_nil hne
  have hl : ∀ d : List Geo.V, (((Tr.positions t.length n).map fun x => d.map (Tr.place (F x))).headD []).length = d.length := by
    intro d
    rw [headD_sections (fun x => Tr.place (F x)) d hps, List.length_map]
  unfold exportSurface spatialData
  simp only [h2, List.map_cons, List.mem_map, forall_exists_index, and_imp, forall_apply_eq_imp_iff₂, hl]
  constructor
  · intro h
    rw [if_pos fun b hb => h b (by simp [hb]) d (by simp)]
  · intro a ha b hb hab
    rw [if_neg]
    intro h
    have key : ∀ c ∈ d :: data, c.length = d.length := by
      intro c hc
      rcases List.mem_cons.1 hc with rfl | hc
      · rfl
      · exact h c hc
    exact hab ((key a ha).trans (key b hb).symm)

/-- **C86.** A variable profile gives the points of the raster without triangles. -/
theorem C86_variable (t : Tr.Trace) (v : Tr.VarProfile (List (List Geo.Seg)) Geo.GErr) (pWidth tWidth : ℝ) (s : Surface) :
    spatialDataVariable t v pWidth tWidth = .ok s ↔ Tr.solidVariable t v pWidth tWidth = .ok s.points ∧ s.triangles = [] := by
  unfold spatialDataVariable
  cases h : Tr.solidVariable t v pWidth tWidth with
  | error e => simp
  | ok r =>
    obtain ⟨a, b⟩ := s
    simp only [Except.ok.injEq, Surface.mk.injEq]
    constructor
    · rintro ⟨rfl, rfl⟩
      exact ⟨rfl, rfl⟩
    · rintro ⟨rfl, rfl⟩
      exact ⟨rfl, rfl⟩

/-! ### triangles as shapes -/

/-- a triangle as a shape -/
noncomputable def triShape (p q r : Geo.V) : List Geo.Seg :=
  [.line p q (Geo.len (q - p)), .line q r (Geo.len (r - q)), .line r p (Geo.len (p - r))]

theorem line_raster {a b : Geo.V} (hab : a ≠ b) {width : ℝ} (hw : 0 < width) (hl : Geo.len (b - a) ≤ width) :
    (Geo.Seg.line a b (Geo.len (b - a))).rasterize width = .ok [a, b] := by
  have hpos : 0 < Geo.len (b - a) := Geo.len_sub_pos.2 hab
  have hv : (Geo.Seg.line a b (Geo.len (b - a))).Valid := ⟨rfl, hpos⟩
  obtain ⟨pts, h1, h2, h3, -⟩ := Geo.C50_segment hv hw
  have hs : Geo.steps (Geo.Seg.line a b (Geo.len (b - a))).length width = 1 := (Geo.C50_step_size hpos hw).2.2 hl
  rw [hs] at h2 h3
  rw [h1]
  congr 1
  apply List.ext_getElem
  · simpa using h2
  · intro k hk hk'
    rw [h3]
    simp only [List.length_cons, List.length_nil] at hk'
    obtain rfl | rfl : k = 0 ∨ k = 1 := by omega
    · simp [Geo.Seg.point, Geo.clip]
    · simp [Geo.Seg.point, Geo.clip]

/-- the raster of a triangle: the corners, and the first one again if it is not on the diagonal -/
theorem triShape_raster {p q r : Geo.V} (h1 : p ≠ q) (h2 : q ≠ r) (h3 : r ≠ p) {width : ℝ} (hw : 0 < width)
    (l1 : Geo.len (q - p) ≤ width) (l2 : Geo.len (r - q) ≤ width) (l3 : Geo.len (p - r) ≤ width) :
    (Geo.isclose (1 / 1000000000) (p 0) (p 1) ∧ Geo.isclose (1 / 1000000000) (p 1) (p 0) →
      Geo.rasterize (triShape p q r) width = .ok [p, q, r]) ∧
    (¬ (Geo.isclose (1 / 1000000000) (p 0) (p 1) ∧ Geo.isclose (1 / 1000000000) (p 1) (p 0)) →
      Geo.rasterize (triShape p q r) width = .ok [p, q, r, p]) := by
  have hv : ∀ s ∈ triShape p q r, s.Valid := by
    intro s hs
    simp only [triShape, List.mem_cons, List.not_mem_nil, or_false] at hs
    rcases hs with rfl | rfl | rfl
    · exact ⟨rfl, Geo.len_sub_pos.2 h1⟩
    · exact ⟨rfl, Geo.len_sub_pos.2 h2⟩
    · exact ⟨rfl, Geo.len_sub_pos.2 h3⟩
  have hj : Geo.Linked Geo.Joined (triShape p q r) := by
    simp only [triShape, Geo.linked_cons]
    refine ⟨?_, ?_, ?_⟩
    · simp [Geo.Joined, Geo.Seg.pointStart, Geo.Seg.pointEnd, Geo.Seg.point, Geo.clip]
    · simp [Geo.Joined, Geo.Seg.pointStart, Geo.Seg.pointEnd, Geo.Seg.point, Geo.clip]
    · intro l₁ a b l₂ he
      have := congrArg List.length he
      simp at this
      omega
  obtain ⟨pts, pp, e1, e2, e3, e4⟩ := Geo.C50_closed_partial (segs := triShape p q r) (by simp [triShape]) hv hj (p := p)
    (by simp [triShape, Geo.Seg.pointStart, Geo.Seg.point, Geo.clip]) (by simp [triShape, Geo.Seg.pointEnd, Geo.Seg.point, Geo.clip]) hw
  have hpp : pp = [[p, q], [q, r], [r, p]] := by
    cases e2 with
    | cons a1 e2 =>
      cases e2 with
      | cons a2 e2 =>
        cases e2 with
        | cons a3 e2 =>
          cases e2
          rw [line_raster h1 hw l1] at a1
          rw [line_raster h2 hw l2] at a2
          rw [line_raster h3 hw l3] at a3
          rw [← Except.ok.inj a1, ← Except.ok.inj a2, ← Except.ok.inj a3]
  subst hpp
  refine ⟨fun h => ?_, fun h => ?_⟩
  · rw [e1, e3 h]; rfl
  · rw [e1, e4 h]; rfl

/-- the triangle (0, 0), (1, 0), (2, 1) starts on the diagonal -/
theorem diagonal_raster : Tr.profileRaster [triShape ![0, 0] ![1, 0] ![2, 1]] 9 = .ok [[![0, 0], ![1, 0], ![2, 1]]] := by
  have hne : ∀ {a b : Geo.V}, a 0 ≠ b 0 → a ≠ b := fun h e => h (by rw [e])
  have hl : ∀ v : Geo.V, Geo.dot v v ≤ 81 → Geo.len v ≤ 9 := by
    intro v h
    unfold Geo.len
    rw [Real.sqrt_le_left (by norm_num)]
    norm_num
    exact h
  have := (triShape_raster (p := ![0, 0]) (q := ![1, 0]) (r := ![2, 1]) (hne (by simp)) (hne (by simp)) (hne (by simp))
    (width := 9) (by norm_num) (hl _ (by simp [Geo.dot]; try norm_num)) (hl _ (by simp [Geo.dot]; try norm_num))
    (hl _ (by simp [Geo.dot]; try norm_num))).1 (by simp [Geo.isclose])
  unfold Tr.profileRaster
  rw [List.mapM_cons, this]
  rfl

/-- the triangle (1, 0), (2, 0), (2, 1) does not -/
theorem beside_raster : Geo.rasterize (triShape ![1, 0] ![2, 0] ![2, 1]) 9 = .ok [![1, 0], ![2, 0], ![2, 1], ![1, 0]] := by
  have hl : ∀ v : Geo.V, Geo.dot v v ≤ 81 → Geo.len v ≤ 9 := by
    intro v h
    unfold Geo.len
    rw [Real.sqrt_le_left (by norm_num)]
    norm_num
    exact h
  refine (triShape_raster (p := ![1, 0]) (q := ![2, 0]) (r := ![2, 1]) (fun e => ?_) (fun e => ?_) (fun e => ?_)
    (width := 9) (by norm_num) (hl _ (by simp [Geo.dot]; try norm_num)) (hl _ (by simp [Geo.dot]; try norm_num))
    (hl _ (by simp [Geo.dot]; try norm_num))).2 ?_
  · have := congrFun e 0
    norm_num at this
  · have := congrFun e 1
    norm_num at this
  · have := congrFun e 0
    norm_num at this
  · rintro ⟨h, -⟩
    norm_num [Geo.isclose] at h

theorem area_diagonal : area [![0, 0], ![1, 0], ![2, 1]] = 1 / 2 := by
  rw [area, area2_eq (by simp)]
  norm_num [sum_range_succ]

theorem area_beside : area [![1, 0], ![2, 0], ![2, 1], ![1, 0]] = 1 / 2 := by
  rw [area, area2_eq (by simp)]
  norm_num [sum_range_succ]

/-- **C86.** Counterexample for shapes that start on the diagonal: their first point is not repeated. The surface of
`Geometry(profile, length)` with a counter-clockwise triangle that starts at the origin is turned inside out. -/
theorem C86_diagonal_counterexample : ∃ t s, lengthTrace 1 = .ok t ∧
    spatialData t [triShape ![0, 0] ![1, 0] ![2, 1]] 9 9 true = .ok s ∧ s.volume6 = -3 := by
  obtain ⟨t, ht, -⟩ := Tr.C61_straight (L := 1) one_pos
  obtain ⟨h1, h2, h3⟩ := default_frame
  obtain ⟨s, e1, e2⟩ := C86_volume one_pos h2 ht (tWidth := 9) (by norm_num) diagonal_raster (by simp) (by simp)
  refine ⟨t, s, by rw [lengthTrace_eq one_pos, ht], e1, ?_⟩
  have hc : cwOrder (([![0, 0], ![1, 0], ![2, 1]] : List Geo.V).map (Tr.place Lcs.default)) = true := by
    rw [C86_direction h1 h2 (by simp) (p := ![0, 0]) (q := ![2, 1]) rfl rfl, h3, area_diagonal]
    simp [Tr.place, Lcs.toParent, Lcs.default]
  rw [e2]
  simp only [List.map_cons, List.map_nil, List.sum_cons, List.sum_nil] at hc ⊢
  rw [if_pos hc, area_diagonal]
  norm_num

theorem rotated_frame {c s : ℝ} (h : c * c + s * s = 1) : (⟨Tr.rotZ c s, 0⟩ : Lcs ℝ).Orthonormal ∧
    (⟨Tr.rotZ c s, 0⟩ : Lcs ℝ).handedness = 1 ∧ (⟨Tr.rotZ c s, 0⟩ : Lcs ℝ).axis 0 0 = c := by
  refine ⟨?_, ?_, ?_⟩
  · rw [Lcs.orthonormal_iff']
    ext i j
    fin_cases i <;> fin_cases j <;> simp [Tr.rotZ, Matrix.mul_apply, Fin.sum_univ_three] <;> linarith
  · rw [Lcs.handedness_eq_det, Matrix.det_fin_three]
    simp [Tr.rotZ]
    linarith
  · simp [Lcs.axis, Tr.rotZ]

theorem beside_profile : Tr.profileRaster [triShape ![1, 0] ![2, 0] ![2, 1]] 9 = .ok [[![1, 0], ![2, 0], ![2, 1], ![1, 0]]] := by
  unfold Tr.profileRaster
  rw [List.mapM_cons, beside_raster]
  rfl

theorem line_trace (f : Lcs ℝ) : ∃ t, Tr.mkTrace [Tr.lin 1] f = .ok t :=
  (Tr.C44_accepted [Tr.lin 1] f (by intro s h; rw [List.mem_singleton.1 h]; exact .line one_pos)).2 (by simp)

/-- **C86.** Counterexamples for traces: on a straight trace in the direction of the `y`-axis, and on one against the direction of the
`x`-axis, the surface with a counter-clockwise triangle is turned inside out. -/
theorem C86_trace_counterexample : ∀ c s : ℝ, (c = 0 ∧ s = 1 ∨ c = -1 ∧ s = 0) → ∃ t r,
    Tr.mkTrace [Tr.lin 1] ⟨Tr.rotZ c s, 0⟩ = .ok t ∧ spatialData t [triShape ![1, 0] ![2, 0] ![2, 1]] 9 9 true = .ok r ∧
      r.volume6 = -3 := by
  intro c s hcs
  obtain ⟨h1, h2, h3⟩ := rotated_frame (c := c) (s := s) (by rcases hcs with ⟨rfl, rfl⟩ | ⟨rfl, rfl⟩ <;> norm_num)
  obtain ⟨t, ht⟩ := line_trace ⟨Tr.rotZ c s, 0⟩
  obtain ⟨r, e1, e2⟩ := C86_volume one_pos h2 ht (tWidth := 9) (by norm_num) beside_profile (by simp) (by simp)
  refine ⟨t, r, ht, e1, ?_⟩
  have hc := (C86_direction_closed h1 h2 (d := [![1, 0], ![2, 0], ![2, 1], ![1, 0]]) (by simp) rfl).2 (by
    rw [h3, area_beside]
    rcases hcs with ⟨rfl, rfl⟩ | ⟨rfl, rfl⟩ <;> norm_num)
  rw [e2]
  simp only [List.map_cons, List.map_nil, List.sum_cons, List.sum_nil] at hc ⊢
  rw [if_pos hc, area_beside]
  norm_num

/-- **C86.** Counterexample for the export: the spatial data of two triangles exist, but can not be exported, since one of the
triangles starts on the diagonal. -/
theorem C86_export_counterexample : ∃ t s, lengthTrace 1 = .ok t ∧
    spatialData t [triShape ![0, 0] ![1, 0] ![2, 1], triShape ![1, 0] ![2, 0] ![2, 1]] 9 9 true = .ok s ∧
    exportSurface t [triShape ![0, 0] ![1, 0] ![2, 1], triShape ![1, 0] ![2, 0] ![2, 1]] 9 9 = .error .value := by
  obtain ⟨t, ht⟩ := line_trace Lcs.default
  have hd : Tr.profileRaster [triShape ![0, 0] ![1, 0] ![2, 1], triShape ![1, 0] ![2, 0] ![2, 1]] 9 =
      .ok [[![0, 0], ![1, 0], ![2, 1]], [![1, 0], ![2, 0], ![2, 1], ![1, 0]]] := by
    have h := diagonal_raster
    unfold Tr.profileRaster at h ⊢
    rw [List.mapM_cons] at h ⊢
    rw [List.mapM_cons, beside_raster]
    cases hr : Geo.rasterize (triShape ![0, 0] ![1, 0] ![2, 1]) 9 with
    | error e => rw [hr] at h; cases h
    | ok d =>
      rw [hr] at h
      have : [d] = [[![0, 0], ![1, 0], ![2, 1]]] := Except.ok.inj h
      rw [List.singleton_inj.1 this]
      rfl
  have hs : ∀ s ∈ [Tr.lin 1], Tr.IsHorizontal s := by
    intro s h
    rw [List.mem_singleton.1 h]
    exact .line one_pos
  obtain ⟨s, e, -⟩ := C86_closed ht (tWidth := 9) (by norm_num) hd (by simp) (by simp) hs default_frame.1
  refine ⟨t, s, by rw [lengthTrace_eq one_pos, ht], e, ?_⟩
  exact (C86_export ht (by norm_num) hd (by simp) hs default_frame.1).2
    ⟨[![0, 0], ![1, 0], ![2, 1]], by simp, [![1, 0], ![2, 0], ![2, 1], ![1, 0]], by simp, by simp⟩

/-- non-trivial example: the wedge of length 2 over the triangle (1, 0), (2, 0), (2, 1) has the volume 1 -/
example : ∃ t s, lengthTrace 2 = .ok t ∧ spatialData t [triShape ![1, 0] ![2, 0] ![2, 1]] 9 9 true = .ok s ∧ s.volume6 = 6 * 1 := by
  obtain ⟨t, s, h1, h2, h3⟩ := (C86_length_partial (L := 2) (tWidth := 9) (by norm_num) beside_profile (by simp) (by simp)
    (by simp)).2 two_pos
  refine ⟨t, s, h1, h2, ?_⟩
  rw [h3]
  simp only [List.map_cons, List.map_nil, List.sum_cons, List.sum_nil]
  rw [area_beside]
  norm_num

end Weldx.Mesh
