import Verif.Base.Py
import Verif.Geometry.Sides
import Mathlib.Analysis.SpecialFunctions.Trigonometric.Inverse
import Mathlib.Algebra.Order.Round

/-!
# Model of shapes: line segments, arc segments and shapes in two dimensions

Source: `/repo/weldx/geometry.py` 49-103 (helpers), 108-252 (`DynamicBaseSegment`), 256-397
(`DynamicShapeSegment`), 403-519 (`LineSegment`), 525-884 (`ArcSegment`), 892-1298 (`Shape`).

Simplifications: real numbers instead of floats, lengths without units. The series of a line segment is its
two points, the series of an arc are the parameters of its expression; translations add to the offset. The
length of an arc, which the code gets from a symbolic integral, is radius times angle. Custom segments given by
other series are not modelled. Segments are mutable objects, therefore shapes refer to segments in a store.
-/

namespace Weldx.Geo

/-- points and vectors -/
abbrev V := Fin 2 → ℝ
abbrev M := Matrix (Fin 2) (Fin 2) ℝ

/-- exceptions -/
inductive GErr
  | valueError | indexError | typeError | weldxException | notImplemented
  deriving DecidableEq, Repr

/-- `np.isclose` for numbers -/
def isclose (atol a b : ℝ) : Prop := |a - b| ≤ atol + 1 / 100000 * |b|

noncomputable instance (atol a b : ℝ) : Decidable (isclose atol a b) := Classical.dec _

/-- `_vector_is_close`, `geometry.py` 51-80, for vectors of the same form -/
def vectorIsClose (a b : V) : Prop := isclose (1 / 1000000000) (a 0) (b 0) ∧ isclose (1 / 1000000000) (a 1) (b 1)

noncomputable instance (a b : V) : Decidable (vectorIsClose a b) := Classical.dec _

/-- `np.dot` -/
def dot (a b : V) : ℝ := a 0 * b 0 + a 1 * b 1
/-- `np.linalg.norm` -/
noncomputable def len (a : V) : ℝ := √(dot a a)

/-- `tf.normalize`, `transformations/util.py` 41-58 -/
noncomputable def normalize (a : V) : Except GErr V := if len a = 0 then .error .valueError else .ok ((len a)⁻¹ • a)

/-- `np.clip` -/
noncomputable def clip (x lo hi : ℝ) : ℝ := min (max x lo) hi

/-! ### segments -/

/-- attributes of an `ArcSegment`: `_points`, `_sign_winding`, `_radius`, `_max_coord`, the parameters `o`, `r`,
`a`, `w` of `_series` and `_length` -/
structure Arc where
  pStart : V
  pEnd : V
  pCenter : V
  sign : ℤ
  radius : ℝ
  maxCoord : ℝ
  o : V
  r : ℝ
  a : ℝ
  w : ℤ
  length : ℝ

/-- `_calculate_arc_angle`, `geometry.py` 591-607 -/
noncomputable def calcAngle (pStart pEnd pCenter : V) (sign : ℤ) : Except GErr ℝ := do
  let unitStart ← normalize (pStart - pCenter)
  let unitEnd ← normalize (pEnd - pCenter)
  let angle := Real.arccos (clip (dot unitStart unitEnd) (-1) 1)
  if |vectorPointsToLeft unitEnd unitStart + sign| > 0 then .ok angle else .ok (2 * Real.pi - angle)

/-- `_update_internals_and_get_series` (620-638), `_update_internals` (149-154) and `_check_valid` (609-617) -/
noncomputable def Arc.update : Py GErr Arc Unit := do
  let x ← Py.get
  let angle ← Py.lift (calcAngle x.pStart x.pEnd x.pCenter x.sign)
  Py.modify fun x => { x with maxCoord := angle }
  let diff := x.pStart - x.pCenter
  let radius := len diff
  let sign : ℝ := if diff 1 < 0 then -1 else 1
  Py.modify fun x => { x with
    radius := radius
    o := x.pCenter
    r := radius
    a := Real.arccos (diff 0 / radius) * sign
    w := x.sign }
  if radius * angle ≤ 0 then Py.raise .valueError
  else
    Py.modify fun x => { x with length := radius * angle }
    if isclose (1 / 100000000) (len (x.pEnd - x.pCenter) - len (x.pStart - x.pCenter)) 0 then pure ()
    else Py.raise .valueError

/-- `ArcSegment(points, arc_winding_ccw)`, `geometry.py` 529-577 -/
noncomputable def mkArc (pStart pEnd pCenter : V) (ccw : Bool) : Except GErr Arc :=
  match Arc.update ⟨pStart, pEnd, pCenter, if ccw then 1 else -1, 0, 0, 0, 0, 0, 0, 0⟩ with
  | .ok _ x => .ok x
  | .err e _ => .error e

/-- `get_points` for an arc: `(x*cos(a+s*w)+y*sin(a+s*w))*r + o`, `geometry.py` 625 -/
noncomputable def Arc.point (x : Arc) (s : ℝ) : V := x.r • ![Real.cos (x.a + s * x.w), Real.sin (x.a + s * x.w)] + x.o

/-- `construct_with_radius`, `geometry.py` 679-730. If both points are identical, a division by zero leads to
an invalid arc. -/
noncomputable def arcWithRadius (pStart pEnd : V) (radius : ℝ) (centerLeft ccw : Bool) : Except GErr Arc :=
  let vec := pEnd - pStart
  let s : ℝ := if centerLeft then -1 else 1
  let normal : V := ![s * vec 1, -s * vec 0]
  let lengthSq := dot vec vec
  if lengthSq = 0 then .error .valueError
  else
    let scaling := √(max (radius * radius / lengthSq - 1 / 4) 0)
    let center := pStart + ((1 / 2 : ℝ) • vec + scaling • normal)
    mkArc pStart pEnd center ccw

/-- segments; a line segment consists of its points and `_length` -/
inductive Seg
  | line (a b : V) (length : ℝ)
  | arc (x : Arc)

/-- `LineSegment(points)`, `geometry.py` 407-444, with `get_section_length` 191-222 -/
noncomputable def mkLine (a b : V) : Except GErr Seg :=
  if len (b - a) ≤ 0 then .error .valueError else .ok (.line a b (len (b - a)))

/-- `get_points(position)` with the relative position `t` on the segment; series are constant outside -/
noncomputable def Seg.point : Seg → ℝ → V
  | .line a b _, t => a + clip t 0 1 • (b - a)
  | .arc x, t => x.point (t * x.maxCoord)

/-- `point_start`, `geometry.py` 259-263 -/
noncomputable def Seg.pointStart (s : Seg) : V := s.point 0
/-- `point_end`, `geometry.py` 265-269 -/
noncomputable def Seg.pointEnd (s : Seg) : V := s.point 1

/-- `length` -/
def Seg.length : Seg → ℝ
  | .line _ _ l => l
  | .arc x => x.length

/-- `apply_translation`, `geometry.py` 301-332 and 869-884 -/
def Seg.translate (v : V) : Seg → Seg
  | .line a b l => .line (a + v) (b + v) l
  | .arc x => .arc { x with
      pStart := x.pStart + v
      pEnd := x.pEnd + v
      pCenter := x.pCenter + v
      o := x.o + v }

/-- `apply_transformation`, `geometry.py` 352-380 (lines) and 850-866 (arcs), on the attributes of a segment -/
noncomputable def Seg.transform (m : M) : Seg → Res GErr Seg Unit
  | .line a b l =>
    let a' := m.mulVec a
    let b' := m.mulVec b
    if len (b' - a') ≤ 0 then .err .valueError (.line a' b' l) else .ok () (.line a' b' (len (b' - a')))
  | .arc x =>
    let x := { x with
      pStart := m.mulVec x.pStart
      pEnd := m.mulVec x.pEnd
      pCenter := m.mulVec x.pCenter }
    match reflectionSign m with
    | none => .err .valueError (.arc x)
    | some s => match Arc.update { x with sign := x.sign * s } with
      | .ok _ x => .ok () (.arc x)
      | .err e x => .err e (.arc x)

/-- number of raster points, `geometry.py` 292-293 -/
def numPoints (n : ℤ) : ℕ := (max (n + 1) 2).toNat

/-- `np.linspace(0, 1, num)` -/
noncomputable def linspace (num : ℕ) : List ℝ := (List.range num).map fun i : ℕ => (i : ℝ) / ((num : ℝ) - 1)

/-- `np.round` with half to even -/
noncomputable def npRound (x : ℝ) : ℤ :=
  if Int.fract x < 1 / 2 then ⌊x⌋ else if 1 / 2 < Int.fract x then ⌊x⌋ + 1
  else if ⌊x⌋ % 2 = 0 then ⌊x⌋ else ⌊x⌋ + 1

/-- `DynamicShapeSegment.rasterize`, `geometry.py` 271-298 -/
noncomputable def Seg.rasterize (s : Seg) (width : ℝ) : Except GErr (List V) :=
  if width ≤ 0 then .error .valueError
  else .ok ((linspace (numPoints (npRound (s.length / width)))).map s.point)

/-! ### shapes -/

/-- segments are objects in a store; a shape is a list of references -/
structure ShState where
  store : ℕ → Seg
  segs : List ℕ

/-- `_check_segments_connected`, `geometry.py` 922-936 -/
noncomputable def checkConnected : List Seg → Except GErr Unit
  | a :: b :: l =>
    if vectorIsClose a.pointEnd b.pointStart then checkConnected (b :: l) else .error .valueError
  | _ => .ok ()

/-- `Shape(segments)`, `geometry.py` 895-910 -/
noncomputable def mkShape (store : ℕ → Seg) (l : List ℕ) : Except GErr ShState := do
  checkConnected (l.map store)
  .ok ⟨store, l⟩

/-- `add_segments`, `geometry.py` 1075-1088 -/
noncomputable def addSegments (new : List ℕ) : Py GErr ShState Unit := do
  let s ← Py.get
  match s.segs.getLast? with
  | some x => match new with
    | [] => Py.raise .indexError
    | y :: _ => Py.lift (checkConnected [s.store x, s.store y])
  | none => pure ()
  Py.lift (checkConnected (new.map s.store))
  Py.modify fun s => { s with segs := s.segs ++ new }

/-- creating the objects for new line segments; `fresh` is the first unused reference -/
noncomputable def allocLines (fresh : ℕ) : List V → Except GErr (List (ℕ × Seg))
  | a :: b :: l => do
    let s ← mkLine a b
    let r ← allocLines (fresh + 1) (b :: l)
    .ok ((fresh, s) :: r)
  | _ => .ok []

/-- store with additional objects -/
def extend (store : ℕ → Seg) (l : List (ℕ × Seg)) : ℕ → Seg := fun i => match l.find? (fun x => x.1 = i) with
  | some x => x.2
  | none => store i

/-- `add_line_segments`, `geometry.py` 1033-1073, for an Nx2 matrix of points -/
noncomputable def addLineSegments (fresh : ℕ) (points : List V) : Py GErr ShState Unit := do
  let s ← Py.get
  let pts ← match s.segs.getLast? with
    | some x => pure ((s.store x).pointEnd :: points)
    | none => if points.length ≤ 1 then Py.raise .valueError else pure points
  let new ← Py.lift (allocLines fresh pts)
  Py.modify fun s => { s with store := extend s.store new }
  addSegments (new.map Prod.fst)

/-- loop of `Shape.apply_transformation`, `geometry.py` 1090-1100 -/
noncomputable def transformAll (m : M) : List ℕ → Py GErr ShState Unit
  | [] => pure ()
  | i :: l => fun s => match (s.store i).transform m with
    | .ok _ x => transformAll m l { s with store := Function.update s.store i x }
    | .err e x => .err e { s with store := Function.update s.store i x }

/-- `Shape.apply_transformation` -/
noncomputable def applyTransformation (m : M) : Py GErr ShState Unit := fun s => transformAll m s.segs s

/-- `Shape.apply_translation`, `geometry.py` 1168-1179 -/
def applyTranslation (v : V) : Py GErr ShState Unit := fun s =>
  .ok () { s with store := s.segs.foldl (fun st i => Function.update st i ((st i).translate v)) s.store }

/-- `householder_matrix`, `geometry.py` 1122-1124 -/
noncomputable def householder (n : V) : M := 1 - (2 / dot n n) • Matrix.vecMulVec n n

open Classical in
/-- `apply_reflection`, `geometry.py` 1102-1132 -/
noncomputable def applyReflection (normal : V) (distance : ℝ) : Py GErr ShState Unit :=
  if vectorIsClose normal 0 then Py.raise .valueError
  else do
    let offset : V := distance • ((√(dot normal normal))⁻¹ • normal)
    applyTranslation (-offset)
    applyTransformation (householder normal)
    applyTranslation offset

open Classical in
/-- `apply_reflection_across_line`, `geometry.py` 1134-1166 -/
noncomputable def applyReflectionAcrossLine (pStart pEnd : V) : Py GErr ShState Unit :=
  if vectorIsClose pStart pEnd then Py.raise .valueError
  else
    let vec := pEnd - pStart
    let distance := |pStart 1 * pEnd 0 - pStart 0 * pEnd 1| / len vec
    let normal : V := if pointLeftOfLine 0 pStart pEnd > 0 then ![vec 1, -vec 0] else ![-vec 1, vec 0]
    applyReflection normal distance

/-- `linear_interpolation` of the class of the first segment, `geometry.py` 479-504 (lines) and 733-771 (arcs) -/
noncomputable def Seg.interpolate : Seg → Seg → ℝ → Except GErr Seg
  | .line a b _, .line a' b' _, w =>
    let w := clip w 0 1
    mkLine ((1 - w) • a + w • a') ((1 - w) • b + w • b')
  | .line _ _ _, .arc _, _ => .error .typeError
  | .arc _, _, _ => .error .notImplemented

/-- loop of `Shape.interpolate`, `geometry.py` 968-974 -/
noncomputable def interpolateAll (w : ℝ) : List (Seg → Seg → ℝ → Except GErr Seg) → List Seg → List Seg → Except GErr (List Seg)
  | f :: fs, a :: as, b :: bs => do
    let c ← f a b w
    let cs ← interpolateAll w fs as bs
    .ok (c :: cs)
  | [], _ :: _, _ :: _ => .error .indexError
  | _, _, _ => .ok []

/-- `Shape.interpolate`, `geometry.py` 938-975; the segments of the result are new objects -/
noncomputable def interpolateShapes (as bs : List Seg) (w : ℝ) (schemes : List (Seg → Seg → ℝ → Except GErr Seg)) :
    Except GErr (List Seg) :=
  if as.length ≠ bs.length then .error .valueError
  else do
    let cs ← interpolateAll (clip w 0 1) schemes as bs
    checkConnected cs
    .ok cs

/-- `Shape.linear_interpolation`, `geometry.py` 977-1006 -/
noncomputable def linearInterpolation (as bs : List Seg) (w : ℝ) : Except GErr (List Seg) :=
  interpolateShapes as bs w (as.map fun _ => Seg.interpolate)

/-- all but the last point of each segment, `geometry.py` 1206-1208 -/
noncomputable def rasterizeAll (width : ℝ) : List Seg → Except GErr (List V)
  | [] => .ok []
  | s :: l => do
    let p ← s.rasterize width
    let r ← rasterizeAll width l
    .ok (p.dropLast ++ r)

/-- the comparison in `geometry.py` 1210-1211: a column (2x1 array) and a vector (2 numbers) are broadcast, so that
all components are compared with each other -/
def columnIsClose (a b : V) : Prop := ∀ i j, isclose (1 / 1000000000) (a i) (b j)

noncomputable instance (a b : V) : Decidable (columnIsClose a b) := Classical.dec _

/-- `Shape.rasterize`, `geometry.py` 1181-1214 -/
noncomputable def rasterize (segs : List Seg) (width : ℝ) : Except GErr (List V) :=
  match segs, segs.getLast? with
  | first :: _, some last =>
    if ¬ width > 0 then .error .valueError
    else do
      let data ← rasterizeAll width segs
      if columnIsClose last.pointEnd first.pointStart then .ok data else .ok (data ++ [last.pointEnd])
  | _, _ => .error .weldxException

end Weldx.Geo
