import Verif.Geometry.Shape
import Mathlib.Analysis.SpecialFunctions.Trigonometric.Basic

/-!
# Model of the weld grooves

Source: `/repo/weldx/welding/groove/iso_9692_1.py` 39-79 (helpers), 82-98 (`IsoBaseGroove`), 198-232 (areas and
`_translate_reflect`), 235-1340 (the groove classes), 1603-1652 (`_helperfunction`); `/repo/weldx/welding/util.py` 59-86
(`compute_welding_speed`).

Simplifications: lengths are real numbers of millimetres, angles are real numbers of radians. The front face groove (`FFGroove`)
is modelled only by its parameters (its area is not implemented in the code). `sympy.Polygon` drops repeated and collinear points,
which changes neither bounds nor area; polygons are therefore not normalised. Areas from rasterised profiles use the rasterisation
of `Verif.Geometry.Model`.
-/

namespace Weldx.Groove

open Weldx.Geo

/-- the groove classes with their attributes, in the order of the dataclass fields -/
inductive Groove
  | I (t b : ℝ)
  | V (t alpha c b : ℝ)
  | VV (t alpha beta h c b : ℝ)
  | UV (t alpha beta R h b : ℝ)
  | U (t beta R c b : ℝ)
  | HV (t beta c b : ℝ)
  | HU (t beta R c b : ℝ)
  | DV (t alpha1 alpha2 c : ℝ) (h1 h2 : Option ℝ) (b : ℝ)
  | DU (t beta1 beta2 R R2 c : ℝ) (h1 h2 : Option ℝ) (b : ℝ)
  | DHV (t beta1 beta2 c : ℝ) (h1 h2 : Option ℝ) (b : ℝ)
  | DHU (t beta1 beta2 R R2 c : ℝ) (h1 h2 : Option ℝ) (b : ℝ)
  | FF (t1 : ℝ) (t2 alpha b e : Option ℝ)

/-- 96-98: the attributes that are quantities -/
def Groove.parameters : Groove → List ℝ
  | .I t b => [t, b]
  | .V t alpha c b => [t, alpha, c, b]
  | .VV t alpha beta h c b => [t, alpha, beta, h, c, b]
  | .UV t alpha beta R h b => [t, alpha, beta, R, h, b]
  | .U t beta R c b => [t, beta, R, c, b]
  | .HV t beta c b => [t, beta, c, b]
  | .HU t beta R c b => [t, beta, R, c, b]
  | .DV t a1 a2 c h1 h2 b => [t, a1, a2, c] ++ h1.toList ++ h2.toList ++ [b]
  | .DU t b1 b2 R R2 c h1 h2 b => [t, b1, b2, R, R2, c] ++ h1.toList ++ h2.toList ++ [b]
  | .DHV t b1 b2 c h1 h2 b => [t, b1, b2, c] ++ h1.toList ++ h2.toList ++ [b]
  | .DHU t b1 b2 R R2 c h1 h2 b => [t, b1, b2, R, R2, c] ++ h1.toList ++ h2.toList ++ [b]
  | .FF t1 t2 alpha b e => [t1] ++ t2.toList ++ alpha.toList ++ b.toList ++ e.toList

/-- 39-47: `_set_default_heights` -/
noncomputable def defaultHeights (t c : ℝ) : Option ℝ → Option ℝ → Option ℝ × Option ℝ
  | none, none => (some ((t - c) / 2), some ((t - c) / 2))
  | some h1, none => (some h1, some h1)
  | none, some h2 => (some h2, some h2)
  | some h1, some h2 => (some h1, some h2)

/-- 90-94: the check of the base class -/
noncomputable def checkParameters (g : Groove) : Except GErr Groove :=
  if ∀ x ∈ g.parameters, ¬ x < 0 then .ok g else .error .valueError

/-- `__post_init__`: 90-94 and, for the double sided grooves, 938-940, 1063-1065, 1180-1182 and 1294-1296, which replace the method of
the base class without calling it. -/
noncomputable def postInit : Groove → Except GErr Groove
  | .DV t a1 a2 c h1 h2 b => let h := defaultHeights t c h1 h2; .ok (.DV t a1 a2 c h.1 h.2 b)
  | .DU t b1 b2 R R2 c h1 h2 b => let h := defaultHeights t c h1 h2; .ok (.DU t b1 b2 R R2 c h.1 h.2 b)
  | .DHV t b1 b2 c h1 h2 b => let h := defaultHeights t c h1 h2; .ok (.DHV t b1 b2 c h.1 h.2 b)
  | .DHU t b1 b2 R R2 c h1 h2 b => let h := defaultHeights t c h1 h2; .ok (.DHU t b1 b2 R R2 c h.1 h.2 b)
  | g => checkParameters g

/-! ### shapes -/

/-- the segment names -/
inductive Kind
  | line | arc

/-- 1603-1652: `_helperfunction`; the points of an arc are start, center, end -/
noncomputable def helper : List Kind → List Geo.V → Except GErr (List Seg)
  | [], _ => .ok []
  | .line :: ks, p :: q :: r =>
    match mkLine p q with
    | .error e => .error e
    | .ok s => match helper ks (q :: r) with
      | .error e => .error e
      | .ok l => .ok (s :: l)
  | .arc :: ks, p :: c :: q :: r =>
    match mkArc p q c false with
    | .error e => .error e
    | .ok x => match helper ks (q :: r) with
      | .error e => .error e
      | .ok l => .ok (.arc x :: l)
  | _, _ => .error .indexError

/-- `geo.Shape(segments)` -/
noncomputable def shapeOf (ks : List Kind) (ps : List Geo.V) : Except GErr (List Seg) :=
  match helper ks ps with
  | .error e => .error e
  | .ok l => match checkConnected l with
    | .error e => .error e
    | .ok _ => .ok l

/-- `shape.translate(v)` -/
def moveBy (v : Geo.V) (l : List Seg) : List Seg := l.map (Seg.translate v)

/-- `reflect_across_line((0, 0), (0, 1))`: the normal is `(-1, 0)`, the distance zero, and the translations by zero are omitted -/
noncomputable def reflectY : List Seg → Except GErr (List Seg)
  | [] => .ok []
  | s :: l =>
    match s.transform (householder ![-1, 0]) with
    | .err e _ => .error e
    | .ok _ s' => match reflectY l with
      | .error e => .error e
      | .ok l' => .ok (s' :: l')

/-- the shapes of a profile -/
abbrev Profile := List (List Seg)

/-- 224-232: `_translate_reflect` -/
noncomputable def translateReflect (b : ℝ) (ks : List Kind) (ps : List Geo.V) : Except GErr Profile :=
  match shapeOf ks ps with
  | .error e => .error e
  | .ok l => match reflectY (moveBy ![-b / 2, 0] l) with
    | .error e => .error e
    | .ok r => .ok [moveBy ![-b / 2, 0] l, r]

/-- `Shape().add_line_segments(points)` -/
noncomputable def polyline : List Geo.V → Except GErr (List Seg)
  | p :: q :: r =>
    match mkLine p q with
    | .error e => .error e
    | .ok s => match polyline (q :: r) with
      | .error e => .error e
      | .ok l => .ok (s :: l)
  | _ => .ok []

/-- the straight workpiece of the half grooves, e.g. 761-770 -/
noncomputable def straight (w b t : ℝ) : Except GErr (List Seg) :=
  polyline [![-w - b / 2, 0], ![-b / 2, 0], ![-b / 2, t], ![-w - b / 2, t]]

/-- the half grooves: straight left workpiece, mirrored right workpiece -/
noncomputable def halfProfile (w b t : ℝ) (ks : List Kind) (ps : List Geo.V) : Except GErr Profile :=
  match shapeOf ks ps with
  | .error e => .error e
  | .ok l => match reflectY (moveBy ![-b / 2, 0] l) with
    | .error e => .error e
    | .ok r => match straight w b t with
      | .error e => .error e
      | .ok h => .ok [h, r]

/-- the adjustment of the width; `edge` is the horizontal extent of the groove face (its negative in some classes) -/
noncomputable def widen (w edge : ℝ) : ℝ := if w ≤ edge + 1 then w + edge else w

/-- the root face is left out if `c` is zero -/
noncomputable def rootFace (c : ℝ) (p : Geo.V) : List Geo.V := if c ≠ 0 then [p] else []
/-- its segment -/
noncomputable def rootKind (c : ℝ) : List Kind := if c ≠ 0 then [.line] else []

/-- 260-279 -/
noncomputable def profileI (w t b : ℝ) : Except GErr Profile :=
  translateReflect b [.line, .line, .line] [![-w, 0], ![0, 0], ![0, t], ![-w, t]]

/-- 323-366 -/
noncomputable def profileV (w t alpha c b : ℝ) : Except GErr Profile :=
  let s := Real.tan (alpha / 2) * (t - c)
  let w := widen w (max s 0)
  translateReflect b ([.line] ++ rootKind c ++ [.line, .line])
    ([![-w, 0], ![0, 0]] ++ rootFace c ![0, c] ++ [![-s, t], ![-w, t]])

/-- 418-458 -/
noncomputable def profileVV (w t alpha beta h c b : ℝ) : Except GErr Profile :=
  let s1 := Real.tan (alpha / 2) * (h - c)
  let s2 := Real.tan beta * (t - h)
  let w := widen w (max (s1 + s2) 0)
  translateReflect b ([.line] ++ rootKind c ++ [.line, .line, .line])
    ([![-w, 0], ![0, 0]] ++ rootFace c ![0, c] ++ [![-s1, h + c], ![-s1 - s2, t], ![-w, t]])

/-- 510-557 -/
noncomputable def profileUV (w t alpha beta R h b : ℝ) : Except GErr Profile :=
  let x1 := Real.tan (alpha / 2) * h
  let ym := h + √(R ^ 2 - x1 ^ 2)
  let xArc := -(R * Real.cos beta)
  let yArc := ym - R * Real.sin beta
  let xEnd := xArc - (t - yArc) * Real.tan beta
  let w := widen w (max (-xEnd) 0)
  translateReflect b [.line, .line, .arc, .line, .line]
    [![-w, 0], ![0, 0], ![-x1, h], ![0, ym], ![xArc, yArc], ![xEnd, t], ![-w, t]]

/-- the points of the U grooves, 625-671 and 839-861 -/
noncomputable def pointsU (w t beta R c : ℝ) : List Geo.V :=
  let x := R * Real.cos beta
  let y := R * Real.sin beta
  let s := Real.tan beta * (t - (c + R - y))
  let w := widen w (max (x + s) 0)
  [![-w, 0], ![0, 0]] ++ rootFace c ![0, c] ++ [![0, c + R], ![-x, c + R - y], ![-x - s, t], ![-w, t]]

/-- their segments -/
noncomputable def kindsU (c : ℝ) : List Kind := [.line] ++ rootKind c ++ [.arc, .line, .line]

/-- 605-673 -/
noncomputable def profileU (w t beta R c b : ℝ) : Except GErr Profile := translateReflect b (kindsU c) (pointsU w t beta R c)

/-- 713-772 -/
noncomputable def profileHV (w t beta c b : ℝ) : Except GErr Profile :=
  let s := Real.tan beta * (t - c)
  let w := widen w (max s 0)
  halfProfile w b t ([.line] ++ rootKind c ++ [.line, .line])
    ([![-w, 0], ![0, 0]] ++ rootFace c ![0, c] ++ [![-s, t], ![-w, t]])

/-- 820-882 -/
noncomputable def profileHU (w t beta R c b : ℝ) : Except GErr Profile :=
  let x := R * Real.cos beta
  let s := Real.tan beta * (t - (c + R - R * Real.sin beta))
  halfProfile (widen w (max (x + s) 0)) b t (kindsU c) (pointsU w t beta R c)

/-- the points of the double V groove, 964-986 -/
noncomputable def pointsDV (w t alpha1 alpha2 c h1 h2 : ℝ) : List Geo.V :=
  let su := Real.tan (alpha1 / 2) * h1
  let sl := Real.tan (alpha2 / 2) * h2
  let w := widen w (max (max su sl) 0)
  [![-w, 0], ![-sl, 0], ![0, h2]] ++ rootFace c ![0, h2 + c] ++ [![-su, t], ![-w, t]]

/-- their segments -/
noncomputable def kindsDV (c : ℝ) : List Kind := [.line, .line] ++ rootKind c ++ [.line, .line]

/-- 942-988 -/
noncomputable def profileDV (w t alpha1 alpha2 c h1 h2 b : ℝ) : Except GErr Profile :=
  translateReflect b (kindsDV c) (pointsDV w t alpha1 alpha2 c h1 h2)

/-- the points of the double U groove, 1092-1122 -/
noncomputable def pointsDU (w t beta1 beta2 R R2 c h1 h2 : ℝ) : List Geo.V :=
  let xu := R * Real.cos beta1
  let yu := R * Real.sin beta1
  let su := Real.tan beta1 * (h1 - (R - yu))
  let xl := R2 * Real.cos beta2
  let yl := R2 * Real.sin beta2
  let sl := Real.tan beta2 * (h2 - (R2 - yl))
  let w := widen w (max (max (xu + su) (xl + sl)) 0)
  [![-w, 0], ![-(sl + xl), 0], ![-xl, h2 - (R2 - yl)], ![0, h2 - R2], ![0, h2]] ++ rootFace c ![0, h1 + c] ++
    [![0, h2 + c + R], ![-xu, t - (h1 - (R - yu))], ![-(su + xu), t], ![-w, t]]

/-- their segments -/
noncomputable def kindsDU (c : ℝ) : List Kind := [.line, .line, .arc] ++ rootKind c ++ [.arc, .line, .line]

/-- 1067-1124 -/
noncomputable def profileDU (w t beta1 beta2 R R2 c h1 h2 b : ℝ) : Except GErr Profile :=
  translateReflect b (kindsDU c) (pointsDU w t beta1 beta2 R R2 c h1 h2)

/-- 1184-1219: the right shape of the double V groove and a straight workpiece of the default width -/
noncomputable def profileDHV (w t beta1 beta2 c h1 h2 b : ℝ) : Except GErr Profile :=
  match profileDV w t (beta1 * 2) (beta2 * 2) c h1 h2 b with
  | .error e => .error e
  | .ok p => match straight w b t with
    | .error e => .error e
    | .ok h => .ok [h, p.getD 1 []]

/-- 1298-1334 -/
noncomputable def profileDHU (w t beta1 beta2 R R2 c h1 h2 b : ℝ) : Except GErr Profile :=
  match profileDU w t beta1 beta2 R R2 c h1 h2 b with
  | .error e => .error e
  | .ok p => match straight w b t with
    | .error e => .error e
    | .ok h => .ok [h, p.getD 1 []]

/-! ### areas -/

/-- `x₁ y₂ - x₂ y₁` -/
def cross (p q : Geo.V) : ℝ := p 0 * q 1 - q 0 * p 1

/-- twice the signed area between a polygonal chain that is closed at `first` and the origin -/
def closed (first : Geo.V) : List Geo.V → ℝ
  | [] => 0
  | [p] => cross p first
  | p :: q :: r => cross p q + closed first (q :: r)

/-- `sympy.Polygon.area`: the signed area -/
noncomputable def polygonArea : List Geo.V → ℝ
  | [] => 0
  | p :: r => closed p (p :: r) / 2

/-- smallest number of a list -/
noncomputable def minOf : List ℝ → ℝ
  | [] => 0
  | [x] => x
  | x :: y :: l => min x (minOf (y :: l))
/-- greatest number of a list -/
noncomputable def maxOf : List ℝ → ℝ
  | [] => 0
  | [x] => x
  | x :: y :: l => max x (maxOf (y :: l))

/-- 50-53 and `Polygon.bounds` -/
noncomputable def bounds (ps : List Geo.V) : Geo.V × Geo.V :=
  (![minOf (ps.map (· 0)), minOf (ps.map (· 1))], ![maxOf (ps.map (· 0)), maxOf (ps.map (· 1))])

/-- 56-79: `_compute_cross_sect_shape_points` -/
noncomputable def crossArea (pieces : List (List Geo.V)) : ℝ :=
  let workpiece := (pieces.map fun ps => |polygonArea ps|).sum
  let box := bounds (pieces.flatMap fun ps => [(bounds ps).1, (bounds ps).2])
  polygonArea [![box.1 0, box.1 1], ![box.2 0, box.1 1], ![box.2 0, box.2 1], ![box.1 0, box.2 1]] - workpiece

/-- the end points of all segments -/
noncomputable def lineEnds : List Seg → Except GErr (List Geo.V)
  | [] => .ok []
  | .line a b l :: r =>
    match lineEnds r with
    | .error e => .error e
    | .ok ps => .ok ((Seg.line a b l).pointStart :: (Seg.line a b l).pointEnd :: ps)
  | .arc _ :: _ => .error .notImplemented

/-- all shapes -/
noncomputable def profilePoints : Profile → Except GErr (List (List Geo.V))
  | [] => .ok []
  | s :: r =>
    match lineEnds s with
    | .error e => .error e
    | .ok ps => match profilePoints r with
      | .error e => .error e
      | .ok l => .ok (ps :: l)

/-- 198-211: `_compute_cross_sect_area_from_profile` (the `RuntimeError` is `notImplemented` here) -/
noncomputable def areaFromProfile (p : Except GErr Profile) : Except GErr ℝ :=
  match p with
  | .error e => .error e
  | .ok p => match profilePoints p with
    | .error e => .error e
    | .ok l => .ok (crossArea l)

/-- `profile.rasterize(width, stack=False)` -/
noncomputable def rasterPoints (width : ℝ) : Profile → Except GErr (List (List Geo.V))
  | [] => .ok []
  | s :: r =>
    match rasterize s width with
    | .error e => .error e
    | .ok ps => match rasterPoints width r with
      | .error e => .error e
      | .ok l => .ok (ps :: l)

/-- 213-221: `_compute_cross_sect_area_interpolated` with the raster width 0.1 mm -/
noncomputable def areaInterpolated (p : Except GErr Profile) : Except GErr ℝ :=
  match p with
  | .error e => .error e
  | .ok p => match rasterPoints (1 / 10) p with
    | .error e => .error e
    | .ok l => .ok (crossArea l)

/-- the default widths of `to_profile` and the method that is used for the area -/
noncomputable def crossSectArea : Groove → Except GErr ℝ
  | .I t b => areaFromProfile (profileI 5 t b)
  | .V t alpha c b => areaFromProfile (profileV 2 t alpha c b)
  | .VV t alpha beta h c b => areaFromProfile (profileVV 5 t alpha beta h c b)
  | .UV t alpha beta R h b => areaInterpolated (profileUV 2 t alpha beta R h b)
  | .U t beta R c b => areaInterpolated (profileU 3 t beta R c b)
  | .HV t beta c b => areaFromProfile (profileHV 5 t beta c b)
  | .HU t beta R c b => areaInterpolated (profileHU 5 t beta R c b)
  | .DV t a1 a2 c (some h1) (some h2) b => areaFromProfile (profileDV 5 t a1 a2 c h1 h2 b)
  | .DU t b1 b2 R R2 c (some h1) (some h2) b => areaInterpolated (profileDU 5 t b1 b2 R R2 c h1 h2 b)
  | .DHV t b1 b2 c (some h1) (some h2) b => areaFromProfile (profileDHV 5 t b1 b2 c h1 h2 b)
  | .DHU t b1 b2 R R2 c (some h1) (some h2) b => areaInterpolated (profileDHU 5 t b1 b2 R R2 c h1 h2 b)
  | .DV .. => .error .typeError
  | .DU .. => .error .typeError
  | .DHV .. => .error .typeError
  | .DHU .. => .error .typeError
  | .FF .. => .error .notImplemented

/-- `compute_welding_speed`, `welding/util.py` 59-86; a division by an area of zero is an error -/
noncomputable def weldingSpeed (g : Groove) (wireFeed wireDiameter : ℝ) : Except GErr ℝ :=
  match crossSectArea g with
  | .error e => .error e
  | .ok a => if a = 0 then .error .valueError else .ok (Real.pi / 4 * wireDiameter ^ 2 * wireFeed / a)

end Weldx.Groove
