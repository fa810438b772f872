import Verif.Geometry.ShapeFloat
import Verif.Trace.RasterFloat

/-!
# Rasterising shapes of lines in the arithmetic of floating point numbers (C113)

Source: `/repo/weldx/geometry.py` 183-200 (`_len_section_disc`), 232-247 (`get_points`), 274-299
(`DynamicShapeSegment.rasterize`), 1182-1213 (`Shape.rasterize`), and the linear interpolation of `scipy`.

Simplifications: shapes are lists of lines with a start and an end, arcs and units are left out. Every difference,
product, sum, quotient and root is rounded. The product with `max_coord`, which is 1 for lines, is exact.
-/

namespace Weldx.Groove

open Weldx.Geo Matrix Weldx.Tr

section
variable (L : Lib)

/-- the linear interpolation of `scipy` adds the product of the slope and the distance to the first point -/
noncomputable def linePointF (a b : Geo.V) (s : ℝ) : Geo.V := fun i => L.fl (L.fl (L.fl (b i - a i) * s) + a i)

/-- `DynamicShapeSegment.rasterize` for lines, `geometry.py` 274-299 -/
noncomputable def lineRasterF (w : ℝ) (a b : Geo.V) : Except GErr (List Geo.V) :=
  match segmentLocationsF L.fl (lenF L.fl (subF L.fl b a)) w with
  | .error e => .error e
  | .ok locs => .ok (locs.map (linePointF L a b))

/-- all but the last point of each segment, `geometry.py` 1206-1209 -/
noncomputable def linesRasterF (w : ℝ) : List (Geo.V × Geo.V) → Except GErr (List Geo.V)
  | [] => .ok []
  | (a, b) :: l =>
    match lineRasterF L w a b with
    | .error e => .error e
    | .ok p => match linesRasterF w l with
      | .error e => .error e
      | .ok r => .ok (p.dropLast ++ r)

/-- the comparison in `geometry.py` 1211-1212: a column (2x1 array) and a vector (2 numbers) are broadcast, so that
all components are compared with each other -/
def columnIsCloseF (a b : Geo.V) : Prop := ∀ i j, L.isclose (a i) (b j)

open Classical in
/-- `Shape.rasterize`, `geometry.py` 1182-1213 -/
noncomputable def shapeRasterF (lines : List (Geo.V × Geo.V)) (w : ℝ) : Except GErr (List Geo.V) :=
  match lines, lines.getLast? with
  | first :: _, some last =>
    if ¬ w > 0 then .error .valueError
    else match linesRasterF L w lines with
      | .error e => .error e
      | .ok data =>
        if columnIsCloseF L (linePointF L last.1 last.2 1) first.1 then .ok data
        else .ok (data ++ [linePointF L last.1 last.2 1])
  | _, _ => .error .weldxException

end

end Weldx.Groove
