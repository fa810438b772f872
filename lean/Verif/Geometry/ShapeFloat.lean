import Verif.Geometry.ArcFloat

/-!
# Points of segments and the connection of segments in the arithmetic of floating point numbers (C110)

Source: `/repo/weldx/geometry.py` 52-80 (`_vector_is_close`), 232-247 (`get_points`), 261-271 (`point_start`,
`point_end`), 623-643 (`_update_internals_and_get_series`), 895-936 (`Shape.__init__`,
`_check_segments_connected`), and the linear interpolation of `scipy` for lines.

Every operation on numbers is followed by a rounding `fl`. `numpy.cos` and `numpy.sin` are functions with a small
error, `numpy.arccos` is as in `Verif.Geometry.ArcFloat`.

Simplifications: overflow, underflow and units are left out. Products with `1` and `-1` that come from signs are exact.
-/

namespace Weldx.Geo

open Matrix

/-- `numpy.cos` and `numpy.sin` for arguments that occur here -/
structure Trigonometric (cosine sine : ℝ → ℝ) : Prop where
  cos_error : ∀ x, |x| ≤ 10 → |cosine x - Real.cos x| ≤ 1 / 2 ^ 50
  sin_error : ∀ x, |x| ≤ 10 → |sine x - Real.sin x| ≤ 1 / 2 ^ 50

/-- the functions that a library offers -/
structure Lib where
  /-- the rounding after an operation -/
  fl : ℝ → ℝ
  acos : ℝ → ℝ
  cosine : ℝ → ℝ
  sine : ℝ → ℝ

/-- the parameter `a` of the series of an arc, `geometry.py` 629-630. The sign of `np.cross` is the one of `detF`. -/
noncomputable def Lib.startAngle (L : Lib) (x : ArcF) : ℝ :=
  let diff := subF L.fl x.pStart x.pCenter
  let sign : ℝ := if detF L.fl ![1, 0] diff < 0 then -1 else 1
  L.acos (L.fl (dotF L.fl ![1, 0] diff / lenF L.fl diff)) * sign

/-- `get_points`, `geometry.py` 232-247, with the expression `(x*cos(a+s*w)+y*sin(a+s*w))*r + o` from line 628 -/
noncomputable def Lib.point (L : Lib) (x : ArcF) (s : ℝ) : V :=
  let phi := L.fl (L.startAngle x + s * x.sign)
  let dir (ex ey : ℝ) : ℝ := L.fl (L.fl (ex * L.cosine phi) + L.fl (ey * L.sine phi))
  let radius := lenF L.fl (subF L.fl x.pStart x.pCenter)
  ![L.fl (L.fl (dir 1 0 * radius) + x.pCenter 0), L.fl (L.fl (dir 0 1 * radius) + x.pCenter 1)]

/-- segments: a line with the points of its series or an arc -/
inductive SegF
  | line (a b : V)
  | arc (x : ArcF)

/-- `point_start`, `geometry.py` 261-265. At the first value the interpolation returns the first point. -/
noncomputable def Lib.pointStart (L : Lib) : SegF → V
  | .line a _ => a
  | .arc x => L.point x 0

/-- `point_end`, `geometry.py` 267-271, for segments that have been constructed. For lines the interpolation of
`scipy` adds the product of the slope and the distance to the first point. -/
noncomputable def Lib.pointEnd (L : Lib) : SegF → V
  | .line a b => addF L.fl (subF L.fl b a) a
  | .arc x => match calcAngleF L.fl L.acos x with
    | .ok w => L.point x w
    | .error _ => 0

/-- `np.isclose(a, b, atol=1e-9)` -/
def Lib.isclose (L : Lib) (a b : ℝ) : Prop :=
  |L.fl (a - b)| ≤ L.fl (L.fl (1 / 10 ^ 9) + L.fl (L.fl (1 / 10 ^ 5) * |b|))

/-- `_vector_is_close`, `geometry.py` 52-80, for two points -/
def Lib.vectorIsClose (L : Lib) (a b : V) : Prop := L.isclose (a 0) (b 0) ∧ L.isclose (a 1) (b 1)

open Classical in
/-- `_check_segments_connected`, `geometry.py` 922-936 -/
noncomputable def Lib.checkConnected (L : Lib) : List SegF → Except GErr PUnit
  | a :: b :: l =>
    if L.vectorIsClose (L.pointEnd a) (L.pointStart b) then L.checkConnected (b :: l) else .error .valueError
  | _ => .ok ⟨⟩

/-- `Shape(segments)`, `geometry.py` 895-910 -/
noncomputable def Lib.mkShape (L : Lib) (segments : List SegF) : Except GErr (List SegF) := do
  let _ ← L.checkConnected segments
  .ok segments

end Weldx.Geo
