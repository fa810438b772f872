import Verif.Groove.GrooveFloat
import Verif.Groove.Front

/-!
# Front face grooves in the arithmetic of floating point numbers (C111)

Source: `/repo/weldx/welding/groove/iso_9692_1.py` 1391-1596 (`FFGroove.to_profile`); `/repo/weldx/geometry.py` 1033-1073
(`add_line_segments`).

Simplifications: as in `Verif.Groove.GrooveFloat` and `Verif.Groove.Front`. `numpy.pi` is the rounded number.
-/

namespace Weldx.Groove

open Weldx.Geo Matrix

section
variable (L : Lib)

/-- `alpha + np.pi / 2` -/
noncomputable def quarterF (alpha : ℝ) : ℝ := L.fl (alpha + L.fl (L.fl Real.pi / 2))

/-- `alpha + np.pi` -/
noncomputable def halfF (alpha : ℝ) : ℝ := L.fl (alpha + L.fl Real.pi)

/-- 1406-1429 -/
noncomputable def ff112F (w t1 : ℝ) : List (List Geo.V) :=
  let x := L.fl (2 * w + t1)
  [[![0, 0], ![x, 0], ![x, t1], ![0, t1], ![0, 0]],
   [![w, 0], ![L.fl (w + t1), 0], ![L.fl (w + t1), -w], ![w, -w], ![w, 0]]]

/-- 1431-1466 -/
noncomputable def ff311F (w t1 t2 alpha b : ℝ) : List (List Geo.V) :=
  let w := if w < L.fl (t1 + 1) then L.fl (t1 + w) else w
  let x1 := L.fl (L.cosine alpha * w)
  let y1 := L.fl (L.sine alpha * w)
  let x2 := L.fl (L.cosine (quarterF L alpha) * t1)
  let y2 := L.fl (L.sine (quarterF L alpha) * t1)
  let x3 := L.fl (x1 + x2)
  let y3 := L.fl (y1 + y2)
  [[![L.fl (t1 + x1), y1], ![t1, 0], ![L.fl (t1 + x2), y2], ![L.fl (t1 + x3), y3]],
   [![w, -b], ![0, -b], ![0, L.fl (-t2 - b)], ![w, L.fl (-t2 - b)]]]

/-- 1468-1490 -/
noncomputable def ff312F (w t1 t2 b : ℝ) : List (List Geo.V) :=
  [[![0, 0], ![w, 0], ![w, t1], ![0, t1]],
   [![0, -b], ![L.fl (2 * w), -b], ![L.fl (2 * w), L.fl (-t2 - b)], ![0, L.fl (-t2 - b)]]]

/-- 1492-1527 -/
noncomputable def ff313F (w t1 t2 alpha b : ℝ) : List (List Geo.V) :=
  let x := L.fl (L.fl (L.sine (quarterF L alpha) * b) + b)
  let y := L.fl (L.cosine (quarterF L alpha) * b)
  let x1 := L.fl (L.fl (L.sine alpha * t2) + x)
  let y1 := L.fl (L.fl (L.cosine alpha * t2) + y)
  let x2 := L.fl (L.fl (L.sine (quarterF L alpha) * L.fl (b + w)) + b)
  let y2 := L.fl (L.cosine (quarterF L alpha) * L.fl (b + w))
  let x3 := L.fl (L.fl (x1 + x2) - x)
  let y3 := L.fl (L.fl (y1 + y2) - y)
  [[![-w, 0], ![0, 0], ![0, t1], ![-w, t1]],
   [![x3, y3], ![x1, y1], ![x, y], ![x2, y2]]]

/-- 1529-1564 -/
noncomputable def ff412F (w t1 t2 alpha e : ℝ) : List (List Geo.V) :=
  let x1 := L.fl (L.sine alpha * e)
  let y1 := L.fl (L.cosine alpha * e)
  let x2 := L.fl (L.sine (halfF L alpha) * L.fl (t2 - e))
  let y2 := L.fl (L.cosine (halfF L alpha) * L.fl (t2 - e))
  let x3 := L.fl (x2 + L.fl (L.sine (quarterF L alpha) * w))
  let y3 := L.fl (y2 + L.fl (L.cosine (quarterF L alpha) * w))
  let x4 := L.fl (x1 + L.fl (L.sine (quarterF L alpha) * w))
  let y4 := L.fl (y1 + L.fl (L.cosine (quarterF L alpha) * w))
  [[![-w, 0], ![0, 0], ![0, t1], ![-w, t1]],
   [![x4, y4], ![x1, y1], ![x2, y2], ![x3, y3]]]

/-- 1566-1589 -/
noncomputable def ff413F (w t1 t2 b : ℝ) : List (List Geo.V) :=
  let x := L.fl (t1 + w)
  let y := L.fl (-t2 - b)
  [[![0, w], ![0, 0], ![t1, 0], ![t1, w]],
   [![-w, -b], ![x, -b], ![x, y], ![-w, y], ![-w, -b]]]

/-- the points of both shapes; `code` is `none` for other strings and a missing code number -/
noncomputable def ffPointsF (code : Option FFCode) (w t1 : ℝ) (t2 alpha b e : Option ℝ) : Except GErr (List (List Geo.V)) :=
  match code with
  | none => .error .valueError
  | some .c112 => .ok (ff112F L w t1)
  | some .c113 => .ok (ff112F L w t1)
  | some .c212 => .ok (ff112F L w t1)
  | some .c311 => match t2, alpha, b with
    | some t2, some alpha, some b => .ok (ff311F L w t1 t2 alpha b)
    | _, _, _ => .error .typeError
  | some .c312 => match t2, b with
    | some t2, some b => .ok (ff312F L w t1 t2 b)
    | _, _ => .error .typeError
  | some .c313 => match t2, alpha, b with
    | some t2, some alpha, some b => .ok (ff313F L w t1 t2 alpha b)
    | _, _, _ => .error .typeError
  | some .c411 => match t2, alpha, b with
    | some t2, some alpha, some b => .ok (ff313F L w t1 t2 alpha b)
    | _, _, _ => .error .typeError
  | some .c412 => match t2, alpha, e with
    | some t2, some alpha, some e => .ok (ff412F L w t1 t2 alpha e)
    | _, _, _ => .error .typeError
  | some .c413 => match t2, b with
    | some t2, some b => .ok (ff413F L w t1 t2 b)
    | _, _ => .error .typeError

/-- `geo.Shape().add_line_segments(points)`, `geometry.py` 1033-1073 -/
noncomputable def polylineF (ps : List Geo.V) : Except GErr (List SegF) :=
  if ps.length ≤ 1 then .error .valueError else shapeF L (List.replicate (ps.length - 1) .line) ps

/-- all shapes of a profile from their points -/
noncomputable def polylinesF : List (List Geo.V) → Except GErr (List (List SegF))
  | [] => .ok []
  | ps :: r =>
    match polylineF L ps with
    | .error e => .error e
    | .ok l => match polylinesF r with
      | .error e => .error e
      | .ok ls => .ok (l :: ls)

/-- `FFGroove.to_profile`, 1391-1596 -/
noncomputable def profileFFF (code : Option FFCode) (w t1 : ℝ) (t2 alpha b e : Option ℝ) : Except GErr (List (List SegF)) :=
  match ffPointsF L code w t1 t2 alpha b e with
  | .error err => .error err
  | .ok pts => polylinesF L pts

end

end Weldx.Groove
