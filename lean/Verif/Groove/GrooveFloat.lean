import Verif.Geometry.ShapeFloat
import Verif.Groove.Model

/-!
# Grooves in the arithmetic of floating point numbers (C111)

Source: `/repo/weldx/welding/groove/iso_9692_1.py` 223-232 (`_translate_reflect`), 260-279, 323-366, 418-458, 510-557, 605-673,
713-772, 820-882, 942-988, 1067-1124, 1184-1219, 1298-1334 (`to_profile` of all classes except
`FFGroove`), 1603-1652 (`_helperfunction`); `/repo/weldx/geometry.py` 1033-1073 (`add_line_segments`), 1102-1165
(`apply_reflection`, `apply_reflection_across_line`).

Every operation on numbers is followed by a rounding, as in `Verif.Geometry.ShapeFloat`. `numpy.tan` is a function with
a small relative error.

Simplifications: as in `Verif.Geometry.ShapeFloat` and `Verif.Groove.Model`. Angles are given in radians; `Verif.Groove.GrooveFloatDegrees`
adds the conversion. Half and twice an angle are exact. The normal of the mirror axis is `(-1, 0)` and its distance is zero. The length of a line is the
norm of the difference of its points.
-/

namespace Weldx.Groove

open Weldx.Geo Matrix

/-- `numpy.tan` -/
structure Tangent (tangent : ℝ → ℝ) : Prop where
  error : ∀ x, 0 ≤ x → x < Real.pi / 2 → |tangent x - Real.tan x| ≤ Real.tan x / 2 ^ 50

section
variable (L : Lib)

open Classical in
/-- `LineSegment(points)` -/
noncomputable def mkLineF (a b : Geo.V) : Except GErr SegF :=
  if lenF L.fl (subF L.fl b a) ≤ 0 then .error .valueError else .ok (.line a b)

/-- 1603-1652: `_helperfunction`; the points of an arc are start, center, end -/
noncomputable def helperF : List Kind → List Geo.V → Except GErr (List SegF)
  | [], _ => .ok []
  | .line :: ks, p :: q :: r =>
    match mkLineF L p q with
    | .error e => .error e
    | .ok s => match helperF ks (q :: r) with
      | .error e => .error e
      | .ok l => .ok (s :: l)
  | .arc :: ks, p :: c :: q :: r =>
    match mkArcF L.fl L.acos p q c false with
    | .error e => .error e
    | .ok x => match helperF ks (q :: r) with
      | .error e => .error e
      | .ok l => .ok (.arc x :: l)
  | _, _ => .error .indexError

/-- `geo.Shape(segments)` -/
noncomputable def shapeF (ks : List Kind) (ps : List Geo.V) : Except GErr (List SegF) :=
  match helperF L ks ps with
  | .error e => .error e
  | .ok l => L.mkShape l

/-- `apply_translation` of a segment -/
noncomputable def translateF (v : Geo.V) : SegF → SegF
  | .line a b => .line (Geo.addF L.fl a v) (Geo.addF L.fl b v)
  | .arc x => .arc (x.translate L.fl v)

/-- `apply_transformation` of a segment -/
noncomputable def transformF (m : M) : SegF → Except GErr SegF
  | .line a b => mkLineF L (Geo.mulF L.fl m a) (Geo.mulF L.fl m b)
  | .arc x => match x.transform L.fl L.acos m with
    | .error e => .error e
    | .ok y => .ok (.arc y)

/-- `householder_matrix`, `geometry.py` 1124 -/
noncomputable def householderF (n : Geo.V) : M := fun i j =>
  L.fl ((if i = j then 1 else 0) - L.fl (L.fl (2 / Geo.dotF L.fl n n) * L.fl (n i * n j)))

/-- `apply_reflection`, `geometry.py` 1102-1132, for one segment and a line through the origin -/
noncomputable def reflectF (n : Geo.V) (s : SegF) : Except GErr SegF :=
  match transformF L (householderF L n) (translateF L 0 s) with
  | .error e => .error e
  | .ok s => .ok (translateF L 0 s)

/-- `reflect_across_line((0, 0), (0, 1))` -/
noncomputable def reflectYF : List SegF → Except GErr (List SegF)
  | [] => .ok []
  | s :: l =>
    match reflectF L ![-1, 0] s with
    | .error e => .error e
    | .ok s' => match reflectYF l with
      | .error e => .error e
      | .ok l' => .ok (s' :: l')

/-- 224-232: `_translate_reflect` -/
noncomputable def translateReflectF (b : ℝ) (ks : List Kind) (ps : List Geo.V) : Except GErr (List (List SegF)) :=
  match shapeF L ks ps with
  | .error e => .error e
  | .ok l =>
    let l := l.map (translateF L ![L.fl (-b / 2), 0])
    match reflectYF L l with
    | .error e => .error e
    | .ok r => .ok [l, r]

/-- the straight workpiece of the half grooves, e.g. 761-770, with `add_line_segments` -/
noncomputable def straightF (w b t : ℝ) : Except GErr (List SegF) :=
  let x := L.fl (-w - L.fl (b / 2))
  shapeF L [.line, .line, .line] [![x, 0], ![L.fl (-b / 2), 0], ![L.fl (-b / 2), t], ![x, t]]

/-- the half grooves: straight left workpiece, mirrored right workpiece, e.g. 754-772 -/
noncomputable def halfProfileF (w b t : ℝ) (ks : List Kind) (ps : List Geo.V) : Except GErr (List (List SegF)) :=
  match shapeF L ks ps with
  | .error e => .error e
  | .ok l => match reflectYF L (l.map (translateF L ![L.fl (-b / 2), 0])) with
    | .error e => .error e
    | .ok r => match straightF L w b t with
      | .error e => .error e
      | .ok h => .ok [h, r]

/-- the adjustment of the width -/
noncomputable def widenF (w edge : ℝ) : ℝ := if w ≤ L.fl (edge + 1) then L.fl (w + edge) else w

/-- 260-279 -/
noncomputable def profileIF (w t b : ℝ) : Except GErr (List (List SegF)) :=
  translateReflectF L b [.line, .line, .line] [![-w, 0], ![0, 0], ![0, t], ![-w, t]]

/-- the points of the V grooves, 336-364 and 732-752, where `half` is the angle of the groove face -/
noncomputable def pointsVF (tangent : ℝ → ℝ) (w t half c : ℝ) : List Geo.V :=
  let s := L.fl (tangent half * L.fl (t - c))
  let w := widenF L w (max s 0)
  [![-w, 0], ![0, 0]] ++ rootFace c ![0, c] ++ [![-s, t], ![-w, t]]

/-- their segments -/
noncomputable def kindsV (c : ℝ) : List Kind := [.line] ++ rootKind c ++ [.line, .line]

/-- 323-366 -/
noncomputable def profileVF (tangent : ℝ → ℝ) (w t alpha c b : ℝ) : Except GErr (List (List SegF)) :=
  translateReflectF L b (kindsV c) (pointsVF L tangent w t (alpha / 2) c)

/-- 713-772 -/
noncomputable def profileHVF (tangent : ℝ → ℝ) (w t beta c b : ℝ) : Except GErr (List (List SegF)) :=
  let s := L.fl (tangent beta * L.fl (t - c))
  halfProfileF L (widenF L w (max s 0)) b t (kindsV c) (pointsVF L tangent w t beta c)

/-- the points of the VV groove, 430-456 -/
noncomputable def pointsVVF (tangent : ℝ → ℝ) (w t alpha beta h c : ℝ) : List Geo.V :=
  let s1 := L.fl (tangent (alpha / 2) * L.fl (h - c))
  let s2 := L.fl (tangent beta * L.fl (t - h))
  let w := widenF L w (max (L.fl (s1 + s2)) 0)
  [![-w, 0], ![0, 0]] ++ rootFace c ![0, c] ++ [![-s1, L.fl (h + c)], ![L.fl (-s1 - s2), t], ![-w, t]]

/-- their segments -/
noncomputable def kindsVV (c : ℝ) : List Kind := [.line] ++ rootKind c ++ [.line, .line, .line]

/-- 418-458 -/
noncomputable def profileVVF (tangent : ℝ → ℝ) (w t alpha beta h c b : ℝ) : Except GErr (List (List SegF)) :=
  translateReflectF L b (kindsVV c) (pointsVVF L tangent w t alpha beta h c)

/-- the points of the double V groove, 964-986 -/
noncomputable def pointsDVF (tangent : ℝ → ℝ) (w t alpha1 alpha2 c h1 h2 : ℝ) : List Geo.V :=
  let su := L.fl (tangent (alpha1 / 2) * h1)
  let sl := L.fl (tangent (alpha2 / 2) * h2)
  let w := widenF L w (max (max su sl) 0)
  [![-w, 0], ![-sl, 0], ![0, h2]] ++ rootFace c ![0, L.fl (h2 + c)] ++ [![-su, t], ![-w, t]]

/-- 942-988 -/
noncomputable def profileDVF (tangent : ℝ → ℝ) (w t alpha1 alpha2 c h1 h2 b : ℝ) : Except GErr (List (List SegF)) :=
  translateReflectF L b (kindsDV c) (pointsDVF L tangent w t alpha1 alpha2 c h1 h2)

/-- the right shape of a profile and a straight workpiece of the default width, e.g. 1208-1219 -/
noncomputable def rightOf (w t b : ℝ) (p : Except GErr (List (List SegF))) : Except GErr (List (List SegF)) :=
  match p with
  | .error e => .error e
  | .ok p => match straightF L w b t with
    | .error e => .error e
    | .ok h => .ok [h, p.getD 1 []]

/-- 1184-1219 -/
noncomputable def profileDHVF (tangent : ℝ → ℝ) (w t beta1 beta2 c h1 h2 b : ℝ) : Except GErr (List (List SegF)) :=
  rightOf L w t b (profileDVF L tangent w t (beta1 * 2) (beta2 * 2) c h1 h2 b)

/-- the points of the UV groove, 533-555 -/
noncomputable def pointsUVF (tangent : ℝ → ℝ) (w t alpha beta R h : ℝ) : List Geo.V :=
  let x1 := L.fl (tangent (alpha / 2) * h)
  let ym := L.fl (h + L.fl (√(L.fl (L.fl (R ^ 2) - L.fl (x1 ^ 2)))))
  let x := L.fl (R * L.cosine beta)
  let yArc := L.fl (ym - L.fl (R * L.sine beta))
  let xEnd := L.fl (-x - L.fl (L.fl (t - yArc) * tangent beta))
  let w := widenF L w (max (-xEnd) 0)
  [![-w, 0], ![0, 0], ![-x1, h], ![0, ym], ![-x, yArc], ![xEnd, t], ![-w, t]]

/-- 510-557 -/
noncomputable def profileUVF (tangent : ℝ → ℝ) (w t alpha beta R h b : ℝ) : Except GErr (List (List SegF)) :=
  translateReflectF L b [.line, .line, .arc, .line, .line] (pointsUVF L tangent w t alpha beta R h)

/-- the points of the U grooves, 625-671 and 839-861 -/
noncomputable def pointsUF (tangent : ℝ → ℝ) (w t beta R c : ℝ) : List Geo.V :=
  let x := L.fl (R * L.cosine beta)
  let y := L.fl (R * L.sine beta)
  let s := L.fl (tangent beta * L.fl (t - L.fl (L.fl (c + R) - y)))
  let w := widenF L w (max (L.fl (x + s)) 0)
  [![-w, 0], ![0, 0]] ++ rootFace c ![0, c] ++
    [![0, L.fl (c + R)], ![-x, L.fl (L.fl (c + R) - y)], ![L.fl (-x - s), t], ![-w, t]]

/-- 605-673 -/
noncomputable def profileUF (tangent : ℝ → ℝ) (w t beta R c b : ℝ) : Except GErr (List (List SegF)) :=
  translateReflectF L b (kindsU c) (pointsUF L tangent w t beta R c)

/-- 820-882 -/
noncomputable def profileHUF (tangent : ℝ → ℝ) (w t beta R c b : ℝ) : Except GErr (List (List SegF)) :=
  let x := L.fl (R * L.cosine beta)
  let s := L.fl (tangent beta * L.fl (t - L.fl (L.fl (c + R) - L.fl (R * L.sine beta))))
  halfProfileF L (widenF L w (max (L.fl (x + s)) 0)) b t (kindsU c) (pointsUF L tangent w t beta R c)

/-- the points of the double U groove, 1092-1121 -/
noncomputable def pointsDUF (tangent : ℝ → ℝ) (w t beta1 beta2 R R2 c h1 h2 : ℝ) : List Geo.V :=
  let xu := L.fl (R * L.cosine beta1)
  let yu := L.fl (R * L.sine beta1)
  let su := L.fl (tangent beta1 * L.fl (h1 - L.fl (R - yu)))
  let xl := L.fl (R2 * L.cosine beta2)
  let yl := L.fl (R2 * L.sine beta2)
  let sl := L.fl (tangent beta2 * L.fl (h2 - L.fl (R2 - yl)))
  let w := widenF L w (max (max (L.fl (xu + su)) (L.fl (xl + sl))) 0)
  [![-w, 0], ![-L.fl (sl + xl), 0], ![-xl, L.fl (h2 - L.fl (R2 - yl))], ![0, L.fl (h2 - R2)], ![0, h2]] ++
    rootFace c ![0, L.fl (h1 + c)] ++
    [![0, L.fl (L.fl (h2 + c) + R)], ![-xu, L.fl (t - L.fl (h1 - L.fl (R - yu)))], ![-L.fl (su + xu), t], ![-w, t]]

/-- 1067-1124 -/
noncomputable def profileDUF (tangent : ℝ → ℝ) (w t beta1 beta2 R R2 c h1 h2 b : ℝ) : Except GErr (List (List SegF)) :=
  translateReflectF L b (kindsDU c) (pointsDUF L tangent w t beta1 beta2 R R2 c h1 h2)

/-- 1298-1334 -/
noncomputable def profileDHUF (tangent : ℝ → ℝ) (w t beta1 beta2 R R2 c h1 h2 b : ℝ) : Except GErr (List (List SegF)) :=
  rightOf L w t b (profileDUF L tangent w t beta1 beta2 R R2 c h1 h2 b)

end

end Weldx.Groove
