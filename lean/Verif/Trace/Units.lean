import Verif.Trace.Solid
import Verif.Geometry.UnitsProps

/-!
# Model of traces and geometries with units of length (C98)

Source: `/repo/weldx/geometry.py` 1535-1617 (`DynamicTraceSegment`), 1620-1686 (the other trace segments), 1769-1938 (`Trace`),
2326-2426 (`Geometry`); `/repo/weldx/transformations/local_cs.py` 204-210 (`__add__`).

Units as in `Verif/Geometry/Units.lean`. A trace segment keeps the unit of its points, a coordinate system the unit of its
coordinates. Positions are converted to millimetres by the caller (`UREG.wraps`) or are compared as quantities. The relative
position on a segment is a ratio of two lengths; it is used as a number (pint converts dimensionless quantities).

Simplifications: as in `Verif/Trace/Model.lean`; the result of an expression has a fixed unit.
-/

namespace Weldx.Tr
open Matrix
open Weldx.Geo (clip npRound V Seg GErr Qty USeg)

/-- a coordinate system with the unit of its coordinates -/
structure ULcs where
  unit : ℝ
  mag : Lcs ℝ

/-- `__add__`, `local_cs.py` 204-210: the sum of the coordinates has the unit of the left system -/
noncomputable def ULcs.add (lhs rhs : ULcs) : ULcs :=
  ⟨lhs.unit, ⟨rhs.mag.orientation * lhs.mag.orientation,
    rhs.mag.orientation *ᵥ lhs.mag.coordinates + (rhs.unit / lhs.unit) • rhs.mag.coordinates⟩⟩

/-- a trace segment with the unit of its points -/
structure UTSeg where
  unit : ℝ
  mag : TSeg

/-- `length`, `geometry.py` 249-252 -/
noncomputable def UTSeg.length (s : UTSeg) : Qty ℝ := ⟨s.unit, s.mag.length⟩

/-- `local_coordinate_system`, `geometry.py` 1597-1617; the tangent is used without unit (1545, 1584) -/
noncomputable def UTSeg.lcs (s : UTSeg) (position : ℝ) : Except TErr ULcs := (s.mag.lcs position).map fun f => ⟨s.unit, f⟩

/-- `LinearHorizontalTraceSegment(length)`, `geometry.py` 1620-1644; `UREG.wraps` hands over millimetres -/
noncomputable def linearU (length : Qty ℝ) : Except TErr UTSeg := (linear length.mm).map fun s => ⟨1, s⟩

/-- `RadialHorizontalTraceSegment(radius, angle, clockwise)`, `geometry.py` 1647-1686 -/
noncomputable def radialU (radius : Qty ℝ) (angle : ℝ) (clockwise : Bool) : Except TErr UTSeg :=
  (radial radius.mm angle clockwise).map fun s => ⟨1, s⟩

/-- attributes of a trace; the total lengths are in millimetres -/
structure UTrace where
  segs : List UTSeg
  lookup : List ULcs
  total : List ℝ
  segLen : List (Qty ℝ)

/-- `_create_lookups`, `geometry.py` 1769-1796; `total_length` starts with a quantity in millimetres -/
noncomputable def createLookupsU : List UTSeg → ULcs → ℝ → Except TErr (List ULcs × List ℝ × List (Qty ℝ))
  | [], cs, total => .ok ([cs], [total], [])
  | s :: l, cs, total => do
    let lcsSegmentEnd ← s.lcs 1
    let (a, b, c) ← createLookupsU l (lcsSegmentEnd.add cs) (total + s.length.unit * s.length.mag)
    .ok (cs :: a, total :: b, s.length :: c)

/-- `length`, `geometry.py` 1830-1841 -/
noncomputable def UTrace.length (t : UTrace) : ℝ := t.total.getLastD 0

/-- `Trace(segments, coordinate_system)`, `geometry.py` 1725-1758 -/
noncomputable def mkTraceU (segs : List UTSeg) (cs : ULcs) : Except TErr UTrace := do
  let (a, b, c) ← createLookupsU segs cs 0
  let t : UTrace := ⟨segs, a, b, c⟩
  if t.length ≤ 0 then .error .valueError else .ok t

/-- `_get_segment_index`, `geometry.py` 1798-1816 -/
noncomputable def UTrace.segmentIndex (t : UTrace) (position : ℝ) : ℕ :=
  let position := clip position 0 t.length
  (firstIdx position t.total.tail.dropLast 0).getD (t.segs.length - 1)

/-- the system at a position of a segment, `geometry.py` 1886-1893 and 1927-1932 -/
noncomputable def UTrace.segmentCs (t : UTrace) (idx : ℕ) (position : ℝ) : Except TErr ULcs :=
  match t.segs[idx]?, t.total[idx]?, t.segLen[idx]?, t.lookup[idx]? with
  | some s, some start, some len, some cs => do
    let weight := (position - start) / len.mag / len.unit
    let f ← s.lcs weight
    .ok (f.add cs)
  | _, _, _, _ => .error .indexError

/-- `local_coordinate_system`, `geometry.py` 1867-1893, for a position in millimetres -/
noncomputable def UTrace.localCs (t : UTrace) (position : ℝ) : Except TErr ULcs :=
  t.segmentCs (t.segmentIndex position) position

/-- the loop in `rasterize`, `geometry.py` 1921-1935; the points are quantities, the result is converted to millimetres -/
noncomputable def UTrace.rasterLoop (t : UTrace) (width : ℝ) : List ℕ → ℕ → Except TErr (List (Vec3 ℝ))
  | [], _ => .ok []
  | i :: l, idx =>
    let location := i * width
    match firstIdx location (t.total.drop (idx + 1)) idx with
    | none => .error .indexError
    | some idx => do
      let f ← t.segmentCs idx location
      let r ← t.rasterLoop width l idx
      .ok (f.unit • f.mag.coordinates :: r)

/-- `rasterize`, `geometry.py` 1895-1938, for a width in millimetres -/
noncomputable def UTrace.rasterize (t : UTrace) (width : ℝ) : Except TErr (List (Vec3 ℝ)) :=
  if ¬ width > 0 then .error .valueError
  else do
    let width := clip width 0 t.length
    let num := (npRound (t.length / width)).toNat
    let r ← t.rasterLoop (t.length / num) (List.range num) 0
    match t.lookup.getLast? with
    | some f => .ok (r ++ [f.unit • f.mag.coordinates])
    | none => .error .indexError

/-- `Profile.rasterize` with `stack=False`, `geometry.py` 1374-1397: the results of the shapes are in millimetres -/
noncomputable def profileRasterU (shapes : List (List USeg)) (width : Qty ℝ) : Except GErr (List (List V)) :=
  shapes.mapM fun s => (Geo.rasterizeU s ⟨1, width.mm⟩).map Qty.mag

/-- `_get_transformed_profile_data`, `geometry.py` 2326-2346: `coords.m` are the numbers in the unit that the coordinates
have -/
noncomputable def transformedU (t : UTrace) (data : List (Vec3 ℝ)) (location : ℝ) : Except SErr (List (Vec3 ℝ)) := do
  let localCs ← (t.localCs location).mapError .trace
  .ok (data.map fun p => localCs.mag.orientation *ᵥ p + localCs.mag.coordinates)

/-- `_rasterize_constant_profile` with `stack=True`, `geometry.py` 2395-2408 -/
noncomputable def solidU (t : UTrace) (shapes : List (List USeg)) (pWidth tWidth : Qty ℝ) : Except SErr (List (Vec3 ℝ)) := do
  let locations ← (geometryLocations t.length tWidth.mm).mapError .trace
  let data ← (profileRasterU shapes pWidth).mapError .profile
  let sections ← locations.mapM (transformedU t (data.flatten.map insert0))
  .ok sections.flatten

/-! ### Specification: the same objects in millimetres -/

/-- a coordinate system with its coordinates in millimetres -/
noncomputable def ULcs.mm (f : ULcs) : Lcs ℝ := ⟨f.mag.orientation, f.unit • f.mag.coordinates⟩

/-- a trace segment in millimetres: all points are converted -/
noncomputable def UTSeg.mm (s : UTSeg) : TSeg := match s.mag with
  | .disc data limit => .disc (data.map fun p => (p.1, s.unit • p.2)) limit
  | .expr curve deriv maxCoord length limit =>
    .expr (fun x => s.unit • curve x) (fun x => s.unit • deriv x) maxCoord (s.unit * length) limit

/-- a trace in millimetres -/
noncomputable def UTrace.mm (t : UTrace) : Trace :=
  ⟨t.segs.map UTSeg.mm, t.lookup.map ULcs.mm, t.total, t.segLen.map Qty.mm⟩

end Weldx.Tr
