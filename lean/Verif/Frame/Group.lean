import Verif.Frame.Props
import Verif.Csm.Model

/-!
# Valid static coordinate systems as stored systems of a manager

The orthonormal systems form a group: the product is the `+` of `LocalCoordinateSystem`, the inverse is
`invert()`, the unit is `LocalCoordinateSystem()`.
-/

namespace Weldx
variable {K : Type} [CommRing K]

/-- The static coordinate systems that the constructor accepts. -/
def Frame (K : Type) [CommRing K] : Type := { f : Lcs K // f.Orthonormal }

namespace Frame

instance : Mul (Frame K) := ⟨fun a b => ⟨a.1.add b.1, (C03_orthonormal_closed _ _ a.2 b.2).1⟩⟩
instance : One (Frame K) := ⟨⟨Lcs.default, by rw [Lcs.orthonormal_iff]; simp [Lcs.default]⟩⟩
instance : Inv (Frame K) := ⟨fun a => ⟨a.1.invert, (C03_orthonormal_closed _ _ a.2 a.2).2.1⟩⟩

instance : Group (Frame K) where
  mul_assoc a b c := Subtype.ext (C01_add_assoc _ _ _)
  one_mul a := Subtype.ext (C01_default_neutral a.1 0).2.1
  mul_one a := Subtype.ext (C01_default_neutral a.1 0).2.2
  inv_mul_cancel a := Subtype.ext (C02_invert_inverse a.1 a.2 0).2.2.2

/-- static systems as the manager sees them -/
instance : LcsLike (Frame K) where
  invert a := a⁻¹
  isSeries _ := false
  isTimeDependent _ := false
  refTime _ := none

/-- Apply a system to a list of points (`xr_matmul` and addition in `transform_data`,
`cs_manager.py` 1754-1757). -/
def act (f : Frame K) (pts : List (Vec3 K)) : List (Vec3 K) := pts.map f.1.toParent

theorem act_mul (f g : Frame K) (pts : List (Vec3 K)) : act (f * g) pts = act g (act f pts) := by
  simp only [act, List.map_map]
  congr 1; funext p; exact C01_add_composes _ _ _

theorem act_one (pts : List (Vec3 K)) : act (1 : Frame K) pts = pts := by
  have : (Lcs.toParent (1 : Frame K).1) = id := funext fun p => (C01_default_neutral (1 : Frame K).1 p).1
  simp [act, this]

end Frame
end Weldx
