import Verif.Groove.GrooveFloat
import Verif.Trace.Variable

/-!
# Interpolation of profiles in the arithmetic of floating point numbers (C112)

Source: `/repo/weldx/geometry.py` 479-505 (`LineSegment.linear_interpolation`), 733-773 (`ArcSegment.linear_interpolation`),
938-1006 (`Shape.interpolate`, `Shape.linear_interpolation`), 1992-2023 (`linear_profile_interpolation_sbs`), 2086-2103 and
2191-2213 (`VariableProfile._segment_index`, `local_profile`).

Simplifications: as in `Verif.Groove.GrooveFloat` and `Verif.Trace.Variable`. Every difference, product, sum and quotient is
rounded; `np.clip` and comparisons are exact.
-/

namespace Weldx.Groove

open Weldx.Geo Matrix Weldx.Tr

section
variable (L : Lib)

/-- `(1 - weight) * a + weight * b`, `geometry.py` 505 -/
noncomputable def lerpF (w x y : ℝ) : ℝ := L.fl (L.fl (L.fl (1 - w) * x) + L.fl (w * y))

/-- both coordinates -/
noncomputable def lerpV (w : ℝ) (p q : Geo.V) : Geo.V := fun i => lerpF L w (p i) (q i)

/-- `segment_a.linear_interpolation(segment_a, segment_b, weight)`, `geometry.py` 479-505 and 733-773; the method of the
first segment is used, 1001-1004 -/
noncomputable def segLerpF (w : ℝ) : SegF → SegF → Except GErr SegF
  | .line a b, .line a' b' => mkLineF L (lerpV L (clip w 0 1) a a') (lerpV L (clip w 0 1) b b')
  | .line _ _, .arc _ => .error .typeError
  | .arc _, _ => .error .notImplemented

/-- the loop, `geometry.py` 967-973 -/
noncomputable def segsLerpF (w : ℝ) : List SegF → List SegF → Except GErr (List SegF)
  | a :: as, b :: bs =>
    match segLerpF L w a b with
    | .error e => .error e
    | .ok c => match segsLerpF w as bs with
      | .error e => .error e
      | .ok cs => .ok (c :: cs)
  | _, _ => .ok []

/-- `Shape.linear_interpolation`, `geometry.py` 938-1006 -/
noncomputable def shapeLerpF (as bs : List SegF) (w : ℝ) : Except GErr (List SegF) :=
  if ¬ as.length = bs.length then .error .valueError
  else match segsLerpF L (clip w 0 1) as bs with
    | .error e => .error e
    | .ok cs => L.mkShape cs

/-- the loop, `geometry.py` 2016-2020 -/
noncomputable def shapesLerpF (w : ℝ) : List (List SegF) → List (List SegF) → Except GErr (List (List SegF))
  | a :: as, b :: bs =>
    match shapeLerpF L a b w with
    | .error e => .error e
    | .ok c => match shapesLerpF w as bs with
      | .error e => .error e
      | .ok cs => .ok (c :: cs)
  | _, _ => .ok []

/-- `linear_profile_interpolation_sbs`, `geometry.py` 1992-2023 -/
noncomputable def profileLerpF (as bs : List (List SegF)) (w : ℝ) : Except GErr (List (List SegF)) :=
  if ¬ as.length = bs.length then .error .valueError else shapesLerpF L (clip w 0 1) as bs

/-- the weight of a location between two others, `geometry.py` 2208-2209 -/
noncomputable def weightF (a b x : ℝ) : ℝ := L.fl (L.fl (x - a) / L.fl (b - a))

/-- `local_profile` with `_segment_index`, `geometry.py` 2086-2103 and 2191-2213 -/
noncomputable def localProfileF {P E : Type} (v : VarProfile P E) (location : ℝ) : Except (VErr E) P :=
  let location := clip location 0 v.maxLocation
  match firstIdx location (v.locations.drop 1) 0 with
  | none => .error .indexError
  | some idx =>
    match v.locations[idx]?, v.locations[idx + 1]?, v.schemes[idx]?, v.profiles[idx]?, v.profiles[idx + 1]? with
    | some a, some b, some f, some p, some q => (f p q (weightF L a b location)).mapError .scheme
    | _, _, _, _, _ => .error .indexError

end

end Weldx.Groove
