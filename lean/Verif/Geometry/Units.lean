import Verif.Geometry.Raster

/-!
# Model of shapes with units of length (C98)

Source: `/repo/weldx/geometry.py` 191-222 (`get_section_length`), 256-298 (`DynamicShapeSegment`), 403-519 (`LineSegment`),
525-771 (`ArcSegment`), 922-936, 1033-1088 and 1180-1214 (`Shape`); `/repo/weldx/constants.py` 69 (`_DEFAULT_LEN_UNIT`,
millimetre).

`Verif/Geometry/Model.lean` has lengths without units. Here a quantity is a magnitude together with its unit; a unit of length
is its size in millimetres (`10` for centimetre). Behaviour of pint that is modelled: a sum or a stack of quantities has the unit
of the first one, `UREG.wraps` converts quantities to millimetres and hands over magnitudes, a result of `UREG.wraps` that is
no quantity is taken as a magnitude in millimetres, `UREG.check` does not convert, `.m` is the magnitude in the unit that the
quantity happens to have.

Simplifications: as in `Verif/Geometry/Model.lean`. A segment keeps the unit of its points; the computations with magnitudes
(arc angle, radius, tests) are those of the model without units. Translations, transformations and reflections are not
modelled with units. Units are positive.
-/

namespace Weldx.Geo

/-- a quantity of the dimension length: the unit in millimetres and the magnitude -/
structure Qty (α : Type) where
  unit : ℝ
  mag : α

/-- the value in millimetres -/
noncomputable def Qty.mm {α : Type} [SMul ℝ α] (q : Qty α) : α := q.unit • q.mag

/-- `.to(unit)` -/
noncomputable def Qty.conv {α : Type} [SMul ℝ α] (q : Qty α) (u : ℝ) : Qty α := ⟨u, (q.unit / u) • q.mag⟩

/-- a segment with the unit of its points -/
structure USeg where
  unit : ℝ
  mag : Seg

/-- `LineSegment(points)`, `geometry.py` 407-444 -/
noncomputable def lineU (u : ℝ) (a b : V) : Except GErr USeg := do
  let s ← mkLine a b
  .ok ⟨u, s⟩

/-- `LineSegment.construct_with_points`, `geometry.py` 446-476; `vstack` takes the unit of the first point -/
noncomputable def linePoints (a b : Qty V) : Except GErr USeg := lineU a.unit a.mag (b.conv a.unit).mag

/-- `ArcSegment(points, arc_winding_ccw)`, `geometry.py` 529-577; the length is calculated in base units (158-181) and is
the same quantity -/
noncomputable def arcU (u : ℝ) (ps pe pc : V) (ccw : Bool) : Except GErr USeg := do
  let x ← mkArc ps pe pc ccw
  .ok ⟨u, .arc x⟩

/-- `ArcSegment.construct_with_points`, `geometry.py` 641-675 -/
noncomputable def arcPoints (ps pe pc : Qty V) (ccw : Bool) : Except GErr USeg :=
  arcU ps.unit ps.mag (pe.conv ps.unit).mag (pc.conv ps.unit).mag ccw

/-- `ArcSegment.construct_with_radius`, `geometry.py` 677-730. The difference of the points has the unit of the end point;
the ratio of the squares is converted to a number when 0.25 is subtracted. -/
noncomputable def arcRadius (ps pe : Qty V) (radius : Qty ℝ) (centerLeft ccw : Bool) : Except GErr USeg :=
  let vec : Qty V := ⟨pe.unit, pe.mag - (ps.conv pe.unit).mag⟩
  let s : ℝ := if centerLeft then -1 else 1
  let normal : V := ![s * vec.mag 1, -s * vec.mag 0]
  let lengthSq := dot vec.mag vec.mag
  if lengthSq = 0 then .error .valueError
  else
    let scaling := √(max (radius.unit * radius.unit / (vec.unit * vec.unit) * (radius.mag * radius.mag / lengthSq) - 1 / 4) 0)
    let startCenter : Qty V := ⟨vec.unit, (1 / 2 : ℝ) • vec.mag + scaling • normal⟩
    arcPoints ps pe ⟨ps.unit, ps.mag + (startCenter.conv ps.unit).mag⟩ ccw

/-- `get_points` at a relative position -/
noncomputable def USeg.point (s : USeg) (t : ℝ) : Qty V := ⟨s.unit, s.mag.point t⟩
/-- `length` -/
noncomputable def USeg.length (s : USeg) : Qty ℝ := ⟨s.unit, s.mag.length⟩
/-- `point_start`, `geometry.py` 259-263, in millimetres -/
noncomputable def USeg.pointStart (s : USeg) : V := (s.point 0).mm
/-- `point_end`, `geometry.py` 265-269, in millimetres -/
noncomputable def USeg.pointEnd (s : USeg) : V := (s.point 1).mm

/-- `DynamicShapeSegment.rasterize`, `geometry.py` 271-298: the number of points is calculated from quantities, the points
have the unit of the segment -/
noncomputable def USeg.rasterize (s : USeg) (width : Qty ℝ) : Except GErr (Qty (List V)) :=
  if width.mag ≤ 0 then .error .valueError
  else
    let ratio := s.unit / width.unit * (s.length.mag / width.mag)
    .ok ⟨s.unit, (linspace (numPoints (npRound ratio))).map fun t => (s.point t).mag⟩

/-- `_check_segments_connected`, `geometry.py` 922-936; the points are in millimetres -/
noncomputable def checkConnectedU : List USeg → Except GErr Unit
  | a :: b :: l =>
    if vectorIsClose a.pointEnd b.pointStart then checkConnectedU (b :: l) else .error .valueError
  | _ => .ok ()

/-- the line segments between consecutive points in millimetres, `geometry.py` 1063-1069 -/
noncomputable def linesU : List V → Except GErr (List USeg)
  | a :: b :: l => do
    let s ← linePoints ⟨1, a⟩ ⟨1, b⟩
    let r ← linesU (b :: l)
    .ok (s :: r)
  | _ => .ok []

/-- the check of the first new segment in `add_segments`, `geometry.py` 1084-1085 -/
noncomputable def joinU (segs new : List USeg) : Except GErr Unit :=
  match segs.getLast?, new with
  | some _, [] => .error .indexError
  | some x, y :: _ => checkConnectedU [x, y]
  | none, _ => .ok ()

/-- `add_segments`, `geometry.py` 1075-1088 -/
noncomputable def addSegmentsU (segs new : List USeg) : Except GErr (List USeg) := do
  joinU segs new
  checkConnectedU new
  .ok (segs ++ new)

/-- the points of the new lines, all in millimetres, `geometry.py` 1057-1060 -/
noncomputable def withEndU (segs : List USeg) (points : List V) : Except GErr (List V) :=
  match segs.getLast? with
  | some x => .ok (x.pointEnd :: points)
  | none => if points.length ≤ 1 then .error .valueError else .ok points

/-- `add_line_segments`, `geometry.py` 1033-1073, for an Nx2 matrix of points: `UREG.wraps` hands over millimetres -/
noncomputable def addLineSegmentsU (segs : List USeg) (points : Qty (List V)) : Except GErr (List USeg) := do
  let pts ← withEndU segs (points.mag.map fun p => points.unit • p)
  let new ← linesU pts
  addSegmentsU segs new

/-- `linear_interpolation`, `geometry.py` 479-504 (lines) and 733-771 (arcs) -/
noncomputable def USeg.interpolate (s s' : USeg) (w : ℝ) : Except GErr USeg :=
  match s.mag, s'.mag with
  | .line a b _, .line a' b' _ =>
    let w := clip w 0 1
    lineU s.unit ((1 - w) • a + (s'.unit / s.unit) • (w • a')) ((1 - w) • b + (s'.unit / s.unit) • (w • b'))
  | .line _ _ _, .arc _ => .error .typeError
  | .arc _, _ => .error .notImplemented

/-- the loop in `Shape.rasterize`, `geometry.py` 1205-1208: magnitudes of the points of each segment without the last one -/
noncomputable def rasterizeAllU (width : Qty ℝ) : List USeg → Except GErr (List V)
  | [] => .ok []
  | s :: l => do
    let p ← s.rasterize width
    let r ← rasterizeAllU width l
    .ok (p.mag.dropLast ++ r)

/-- `Shape.rasterize`, `geometry.py` 1180-1214; `UREG.wraps` converts the width to millimetres and takes the result as
millimetres -/
noncomputable def rasterizeU (segs : List USeg) (width : Qty ℝ) : Except GErr (Qty (List V)) :=
  match segs, segs.getLast? with
  | first :: _, some last =>
    if ¬ width.mm > 0 then .error .valueError
    else do
      let data ← rasterizeAllU ⟨1, width.mm⟩ segs
      if columnIsClose last.pointEnd first.pointStart then .ok ⟨1, data⟩ else .ok ⟨1, data ++ [last.pointEnd]⟩
  | _, _ => .error .weldxException

/-! ### Specification -/

/-- two descriptions of the same segment: the same points and the same length, in millimetres -/
def USeg.Same (s s' : USeg) : Prop :=
  (∀ t, (s.point t).mm = (s'.point t).mm) ∧ s.length.mm = s'.length.mm

/-- the points of a list of quantities, in millimetres -/
noncomputable def Qty.points (q : Qty (List V)) : List V := q.mag.map fun p => q.unit • p

/-- the contour of a shape in millimetres, as it should be: the raster points of each segment without the last one, followed
by the end point of the shape if it is not taken for the start point -/
def Contour (segs : List USeg) (width : Qty ℝ) (pts : List V) : Prop :=
  ∃ (pp : List (Qty (List V))) (tail : List V), List.Forall₂ (fun s p => s.rasterize width = .ok p) segs pp ∧
    pts = (pp.map fun p => p.points.dropLast).flatten ++ tail ∧
    ∀ first ∈ segs.head?, ∀ last ∈ segs.getLast?,
      tail = if columnIsClose last.pointEnd first.pointStart then [] else [last.pointEnd]

end Weldx.Geo
