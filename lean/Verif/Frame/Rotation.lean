import Verif.Frame.Model
import Mathlib.Data.Matrix.Basic
import Mathlib.LinearAlgebra.Matrix.Notation
import Mathlib.Analysis.SpecialFunctions.Trigonometric.Basic

/-!
# Rotations and their storage in files (C73)

Source: `/repo/weldx/transformations/rotation.py` 23-86 (`WXRotation`), `/repo/weldx/tags/core/transformations/rotation.py` 15-62.

Simplifications: a rotation is its matrix, a stack of rotations (scipy's `Rotation` with several elements) is a list. Quaternions,
matrices and rotation vectors stand for the matrices they describe: scipy's conversions are taken to be exact. The order of the
matrices in a sequence of Euler angles and the choice of angles by `as_euler` are those of scipy's documentation. A unit of
angles is its factor to radians and whether its name contains `rad`.
-/

namespace Weldx.Rot

/-- the axes `x`, `y`, `z` -/
inductive Axis
  | x | y | z
  deriving DecidableEq, Repr

/-- rotation about an axis -/
noncomputable def elem : Axis → ℝ → Mat3 ℝ
  | .x, t => !![1, 0, 0; 0, Real.cos t, -Real.sin t; 0, Real.sin t, Real.cos t]
  | .y, t => !![Real.cos t, 0, Real.sin t; 0, 1, 0; -Real.sin t, 0, Real.cos t]
  | .z, t => !![Real.cos t, -Real.sin t, 0; Real.sin t, Real.cos t, 0; 0, 0, 1]

/-- scipy: extrinsic rotations are about fixed axes, a later one is multiplied from the left; intrinsic ones about the rotated
axes, from the right -/
noncomputable def composeFrom (intrinsic : Bool) : Mat3 ℝ → List (Axis × ℝ) → Mat3 ℝ
  | M, [] => M
  | M, p :: l => composeFrom intrinsic (if intrinsic then M * elem p.1 p.2 else elem p.1 p.2 * M) l

/-- `Rotation.from_euler` for one set of angles in radians -/
noncomputable def compose (intrinsic : Bool) (l : List (Axis × ℝ)) : Mat3 ℝ := composeFrom intrinsic 1 l

/-- a sequence of axes: lower case letters are extrinsic, upper case letters intrinsic -/
structure Seq where
  intrinsic : Bool
  axes : List Axis
  deriving DecidableEq

/-- scipy accepts one to three axes, neighbours are different -/
def Seq.Valid (s : Seq) : Prop := s.axes ≠ [] ∧ s.axes.length ≤ 3 ∧ s.axes.IsChain (· ≠ ·)

/-- one value or several -/
inductive Shaped (A : Type)
  | one (a : A)
  | many (l : List A)

/-- apply a function to all values -/
def Shaped.map {A B : Type} (f : A → B) : Shaped A → Shaped B
  | one a => one (f a)
  | many l => many (l.map f)

/-- `numpy.squeeze`: a single value in a list loses the list -/
def Shaped.squeeze {A : Type} : Shaped A → Shaped A
  | many [a] => one a
  | a => a

/-- the attribute `wx_rot` -/
inductive Meta
  | quat | matrix | rotvec
  | euler (seq : Seq) (degrees : Bool)
  deriving DecidableEq

/-- a rotation object -/
structure Obj where
  vals : Shaped (Mat3 ℝ)
  info : Option Meta

/-- the stored tree -/
inductive Tree
  | quaternions (r : Shaped (Mat3 ℝ))
  | matrix (r : Shaped (Mat3 ℝ))
  | rotvec (r : Shaped (Mat3 ℝ))
  | euler (seq : Seq) (angles : Shaped (List ℝ)) (degrees : Bool)

/-- angle in radians of a number in degrees or radians -/
noncomputable def rad (degrees : Bool) (v : ℝ) : ℝ := if degrees then v * (Real.pi / 180) else v

/-- angle in degrees or radians of a number in radians -/
noncomputable def unrad (degrees : Bool) (v : ℝ) : ℝ := if degrees then v * (180 / Real.pi) else v

/-- `WXRotation.from_quat`, `from_matrix`, `from_rotvec`, `rotation.py` 28-56 -/
def fromQuat (r : Shaped (Mat3 ℝ)) : Obj := ⟨r, some .quat⟩
def fromMatrix (r : Shaped (Mat3 ℝ)) : Obj := ⟨r, some .matrix⟩
def fromRotvec (r : Shaped (Mat3 ℝ)) : Obj := ⟨r, some .rotvec⟩

/-- `WXRotation.from_euler`, `rotation.py` 58-86, for plain numbers; `none` if scipy does not accept the sequence or the number
of angles -/
noncomputable def fromEuler (s : Seq) (angles : Shaped (List ℝ)) (degrees : Bool) : Option Obj :=
  open Classical in
  if s.Valid ∧ (match angles with | .one a => a.length = s.axes.length | .many l => ∀ a ∈ l, a.length = s.axes.length) then
    some ⟨angles.map fun a => compose s.intrinsic (s.axes.zip (a.map (rad degrees))), some (.euler s degrees)⟩
  else none

/-- a unit of angles: factor to radians, and whether its name contains `rad`; `dimensionless` is the unit without name -/
structure AngleUnit where
  factor : ℝ
  dimensionless : Bool
  named : Bool

/-- `WXRotation.from_euler` for a quantity: the unit decides on `degrees` and the magnitude is converted -/
noncomputable def fromEulerQ (s : Seq) (angles : Shaped (List ℝ)) (u : AngleUnit) : Option Obj :=
  let degrees := !(u.dimensionless || u.named)
  fromEuler s (angles.map fun a => a.map fun v => unrad degrees (v * (if u.dimensionless then 1 else u.factor))) degrees

/-- `seq_str + "".join([c for c in "xyz" if c not in seq_str])`, `tags/core/transformations/rotation.py` 29-35 -/
def complete (l : List Axis) : List Axis :=
  if l.length = 3 then l else l ++ [Axis.x, Axis.y, Axis.z].filter fun a => a ∉ l

/-- `as_euler` of scipy for a sequence of three axes -/
abbrev AsEuler := Bool → List Axis → Mat3 ℝ → List ℝ

/-- the angles of one rotation that are stored: the first ones of the completed sequence -/
noncomputable def storedAngles (D : AsEuler) (s : Seq) (degrees : Bool) (R : Mat3 ℝ) : List ℝ :=
  ((D s.intrinsic (complete s.axes) R).map (unrad degrees)).take s.axes.length

/-- `to_yaml_tree`, `tags/core/transformations/rotation.py` 15-51 -/
noncomputable def write (D : AsEuler) (r : Obj) : Tree := match r.info with
  | none => .quaternions r.vals
  | some .quat => .quaternions r.vals
  | some .matrix => .matrix r.vals
  | some .rotvec => .rotvec r.vals
  | some (.euler s d) => .euler s (r.vals.map (storedAngles D s d)).squeeze d

/-- `from_yaml_tree`, `tags/core/transformations/rotation.py` 53-62: the unit of the stored angles is degree or radian -/
noncomputable def read : Tree → Option Obj
  | .quaternions r => some (fromQuat r)
  | .matrix r => some (fromMatrix r)
  | .rotvec r => some (fromRotvec r)
  | .euler s a d => fromEulerQ s a ⟨if d then Real.pi / 180 else 1, false, !d⟩

end Weldx.Rot
