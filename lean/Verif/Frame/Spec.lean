import Verif.Frame.Model

/-!
# Vocabulary for statements about coordinate systems
-/

namespace Weldx
open Matrix
variable {K : Type*} [CommRing K]

/-- The position in the parent system of a point that is given in the local system: walk from the
origin of the local system along its axes (the columns of the orientation). -/
def Lcs.toParent (f : Lcs K) (p : Vec3 K) : Vec3 K :=
  fun i => f.coordinates i + (p 0 * f.orientation i 0 + p 1 * f.orientation i 1 + p 2 * f.orientation i 2)

/-- The `j`-th axis of a system. -/
def Lcs.axis (f : Lcs K) (j : Fin 3) : Vec3 K := fun i => f.orientation i j

/-- Scalar product. -/
def dot3 (u v : Vec3 K) : K := u 0 * v 0 + u 1 * v 1 + u 2 * v 2

/-- The axes of a system have length one and are pairwise perpendicular. -/
def Lcs.Orthonormal (f : Lcs K) : Prop :=
  ∀ i j, dot3 (f.axis i) (f.axis j) = if i = j then 1 else 0

/-- Squared distance of two points. -/
def distSq (p q : Vec3 K) : K := (p 0 - q 0) ^ 2 + (p 1 - q 1) ^ 2 + (p 2 - q 2) ^ 2

/-- Volume spanned by the axes: `1` for right-handed and `-1` for left-handed systems. -/
def Lcs.handedness (f : Lcs K) : K := dot3 (f.axis 0) (crossProduct (f.axis 1) (f.axis 2))

end Weldx
