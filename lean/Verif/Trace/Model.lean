import Verif.Frame.Props
import Verif.Geometry.Model
import Mathlib.Analysis.SpecialFunctions.Trigonometric.Basic

/-!
# Model of traces

Source: `/repo/weldx/geometry.py` 1477-1938 (`DynamicTraceSegment`, `LinearHorizontalTraceSegment`,
`RadialHorizontalTraceSegment`, `Trace`) and 108-252 (`DynamicBaseSegment`).

Simplifications: numbers are real, lengths have no unit (millimetres); positions are single numbers (no arrays). A series
given by an expression is represented by its curve, its derivative and its length, which the code gets from sympy; for the
radial segment these are written down here and justified in `Verif/Trace/Segments.lean`. A discrete series is the list of its
positions and points; it is interpolated linearly and constant outside (`util/xarray.py` 278-393), results are in the order of
the requested positions.
-/

namespace Weldx.Tr

open Weldx.Geo (clip npRound)

/-- exceptions -/
inductive TErr where
  | valueError
  | indexError
  | lcs (e : LcsError)
  deriving DecidableEq, Repr

/-- data of a discrete series: position and point -/
abbrev Data := List (ℝ × Vec3 ℝ)

/-- `self._series.evaluate(s=position)` for discrete data -/
noncomputable def interpDisc : Data → ℝ → Vec3 ℝ
  | [], _ => 0
  | [p], _ => p.2
  | p :: q :: l, s =>
    if s ≤ p.1 then p.2
    else if s ≤ q.1 then p.2 + ((s - p.1) / (q.1 - p.1)) • (q.2 - p.2)
    else interpDisc (q :: l) s

/-- `argmin` of numpy: index of the first smallest element -/
noncomputable def argmin : List ℝ → ℕ
  | [] => 0
  | [_] => 0
  | a :: b :: l => if a ≤ (b :: l).getD (argmin (b :: l)) 0 then 0 else argmin (b :: l) + 1

/-- `_get_tangent_vec_discrete`, `geometry.py` 1535-1545. `lo` and `hi` are `idx_low` and `idx_low + 1` after the
subtraction; `-1` is the last index. -/
noncomputable def tangentDisc (data : Data) (position : ℝ) : Vec3 ℝ :=
  let posData := data.map Prod.fst
  let idx := argmin (posData.map fun p => |p - position|)
  let (lo, hi) :=
    if posData.getD idx 0 > position ∨ idx + 1 = posData.length then
      (if idx = 0 then posData.length - 1 else idx - 1, idx)
    else (idx, idx + 1)
  interpDisc data (posData.getD hi 0) - interpDisc data (posData.getD lo 0)

/-- `_get_lcs_from_coords_and_tangent`, `geometry.py` 1547-1574 -/
noncomputable def lcsFromTangent (limitOrientation : Bool) (coords tangent : Vec3 ℝ) : Except TErr (Lcs ℝ) :=
  let x := tangent
  let z : Vec3 ℝ := ![0, 0, 1]
  let y := crossProduct z x
  let (x, z) := if limitOrientation then (crossProduct y z, z) else (x, crossProduct x y)
  (construct (Matrix.of fun i j => (![x, y, z] : Fin 3 → Vec3 ℝ) j i) coords).mapError .lcs

/-- trace segments -/
inductive TSeg where
  /-- discrete series -/
  | disc (data : Data) (limitOrientation : Bool)
  /-- expression: curve, derivative, `max_coord` and length -/
  | expr (curve deriv : ℝ → Vec3 ℝ) (maxCoord length : ℝ) (limitOrientation : Bool)

/-- sum of the lengths of consecutive differences, `geometry.py` 186 and 197-199 -/
noncomputable def dataLength : Data → ℝ
  | p :: q :: l => norm2 (q.2 - p.2) + dataLength (q :: l)
  | _ => 0

/-- `length`, `geometry.py` 249-252 -/
noncomputable def TSeg.length : TSeg → ℝ
  | .disc data _ => dataLength data
  | .expr _ _ _ length _ => length

/-- `local_coordinate_system` with `_lcs_expr` and `_lcs_disc`, `geometry.py` 1576-1617 -/
noncomputable def TSeg.lcs : TSeg → ℝ → Except TErr (Lcs ℝ)
  | .disc data limit, position => lcsFromTangent limit (interpDisc data position) (tangentDisc data position)
  | .expr curve deriv maxCoord _ limit, position =>
    lcsFromTangent limit (curve (position * maxCoord)) (deriv (position * maxCoord))

/-- `DynamicBaseSegment.__init__` with `get_section_length`, `geometry.py` 202-230 and 111-155: segments without length are
rejected -/
noncomputable def checkLength (s : TSeg) : Except TErr TSeg := if s.length ≤ 0 then .error .valueError else .ok s

/-- `LinearHorizontalTraceSegment(length)`, `geometry.py` 1620-1644 -/
noncomputable def linear (length : ℝ) : Except TErr TSeg :=
  if length ≤ 0 then .error .valueError else checkLength (.disc [(0, ![0, 0, 0]), (1, ![length, 0, 0])] false)

/-- the expression of a radial segment, `geometry.py` 1679 -/
noncomputable def radialCurve (r w s : ℝ) : Vec3 ℝ :=
  r • (Real.sin s • (![1, 0, 0] : Vec3 ℝ) + (w * (Real.cos s - 1)) • (![0, 1, 0] : Vec3 ℝ))

/-- its derivative by the position -/
noncomputable def radialDeriv (r w s : ℝ) : Vec3 ℝ :=
  r • (Real.cos s • (![1, 0, 0] : Vec3 ℝ) + (w * -Real.sin s) • (![0, 1, 0] : Vec3 ℝ))

/-- `RadialHorizontalTraceSegment(radius, angle, clockwise)`, `geometry.py` 1647-1686 -/
noncomputable def radial (radius angle : ℝ) (clockwise : Bool) : Except TErr TSeg :=
  if radius ≤ 0 then .error .valueError
  else if angle ≤ 0 then .error .valueError
  else
    let w : ℝ := if clockwise then 1 else -1
    checkLength (.expr (radialCurve radius w) (radialDeriv radius w) angle (radius * angle) false)

/-- attributes of a trace, `geometry.py` 1754-1755 and 1779-1781 -/
structure Trace where
  segs : List TSeg
  lookup : List (Lcs ℝ)
  total : List ℝ
  segLen : List ℝ

/-- `_create_lookups`, `geometry.py` 1769-1796: the three tables from the current system and length on -/
noncomputable def createLookups : List TSeg → Lcs ℝ → ℝ → Except TErr (List (Lcs ℝ) × List ℝ × List ℝ)
  | [], cs, total => .ok ([cs], [total], [])
  | s :: l, cs, total => do
    let lcsSegmentEnd ← s.lcs 1
    let (a, b, c) ← createLookups l (lcsSegmentEnd.add cs) (total + s.length)
    .ok (cs :: a, total :: b, s.length :: c)

/-- `length`, `geometry.py` 1830-1841 -/
noncomputable def Trace.length (t : Trace) : ℝ := t.total.getLastD 0

/-- `Trace(segments, coordinate_system)`, `geometry.py` 1725-1758 -/
noncomputable def mkTrace (segs : List TSeg) (cs : Lcs ℝ) : Except TErr Trace := do
  let (a, b, c) ← createLookups segs cs 0
  let t : Trace := ⟨segs, a, b, c⟩
  if t.length ≤ 0 then .error .valueError else .ok t

/-- loops that look for the first entry that is not exceeded -/
noncomputable def firstIdx (position : ℝ) : List ℝ → ℕ → Option ℕ
  | [], _ => none
  | t :: l, i => if position ≤ t then some i else firstIdx position l (i + 1)

/-- `_get_segment_index`, `geometry.py` 1798-1816 -/
noncomputable def Trace.segmentIndex (t : Trace) (position : ℝ) : ℕ :=
  let position := clip position 0 t.length
  (firstIdx position t.total.tail.dropLast 0).getD (t.segs.length - 1)

/-- the system at a position of a segment, `geometry.py` 1886-1893 and 1927-1932 -/
noncomputable def Trace.segmentCs (t : Trace) (idx : ℕ) (position : ℝ) : Except TErr (Lcs ℝ) :=
  match t.segs[idx]?, t.total[idx]?, t.segLen[idx]?, t.lookup[idx]? with
  | some s, some start, some len, some cs => do
    let weight := (position - start) / len
    let f ← s.lcs weight
    .ok (f.add cs)
  | _, _, _, _ => .error .indexError

/-- `local_coordinate_system`, `geometry.py` 1867-1893 -/
noncomputable def Trace.localCs (t : Trace) (position : ℝ) : Except TErr (Lcs ℝ) :=
  t.segmentCs (t.segmentIndex position) position

/-- the loop in `rasterize`, `geometry.py` 1921-1935 -/
noncomputable def Trace.rasterLoop (t : Trace) (width : ℝ) : List ℕ → ℕ → Except TErr (List (Vec3 ℝ))
  | [], _ => .ok []
  | i :: l, idx =>
    let location := i * width
    match firstIdx location (t.total.drop (idx + 1)) idx with
    | none => .error .indexError
    | some idx => do
      let f ← t.segmentCs idx location
      let r ← t.rasterLoop width l idx
      .ok (f.coordinates :: r)

/-- `rasterize`, `geometry.py` 1895-1938 -/
noncomputable def Trace.rasterize (t : Trace) (width : ℝ) : Except TErr (List (Vec3 ℝ)) :=
  if ¬ width > 0 then .error .valueError
  else do
    let width := clip width 0 t.length
    let num := (npRound (t.length / width)).toNat
    let r ← t.rasterLoop (t.length / num) (List.range num) 0
    match t.lookup.getLast? with
    | some f => .ok (r ++ [f.coordinates])
    | none => .error .indexError

end Weldx.Tr
