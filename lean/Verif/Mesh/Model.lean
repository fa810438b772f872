import Mathlib.Data.List.Range
import Mathlib.Data.List.Nodup
import Mathlib.Data.List.Basic

/-!
# Model of the triangulation of rasterised geometries

Source: `/repo/weldx/geometry.py` 2729-2862 (`SpatialData._shape_raster_points` to `from_geometry_raster`).

Only the indices of the triangles are modelled: a shape is given by its number of profiles, the number of points of
each profile and the direction `has_cw_ordering` reports. Points are numbered in the order of the raster data. numpy
arrays of triangles are lists of triples.
-/

namespace Weldx.Mesh

/-- a triangle: indices of its corners -/
structure Tri where
  a : Nat
  b : Nat
  c : Nat
  deriving DecidableEq, Repr

/-- `triangles + offset` -/
def Tri.shift (t : Tri) (k : Nat) : Tri := ⟨t.a + k, t.b + k, t.c + k⟩

/-- body of the loop in `_shape_profile_triangles`, `geometry.py` 2745-2754 -/
def baseTriangles (numProfilePoints : Nat) (cw : Bool) (i : Nat) : List Tri :=
  let idx0 := i
  let idx1 := (i + 1) % numProfilePoints
  let idx2 := idx0 + numProfilePoints
  let idx3 := idx1 + numProfilePoints
  if cw then [⟨idx0, idx2, idx1⟩, ⟨idx1, idx2, idx3⟩] else [⟨idx0, idx1, idx2⟩, ⟨idx1, idx3, idx2⟩]

/-- `_shape_profile_triangles`, `geometry.py` 2739-2765 -/
def profileTriangles (numProfiles numProfilePoints offset : Nat) (cw : Bool) : List Tri :=
  let triBase := (List.range numProfilePoints).flatMap (baseTriangles numProfilePoints cw)
  (List.range (numProfiles - 1)).flatMap fun i => triBase.map fun t => t.shift (i * numProfilePoints + offset)

/-- the loop in `_shape_front_back_triangles`, `geometry.py` 2777-2789, which makes the list `tri_cw` -/
def frontLoop (numProfilePoints offset i0 i1 : Nat) : List Tri :=
  if h : i0 + i1 < numProfilePoints - 2 then
    let p0 := i0 + offset
    if i1 = i0 then
      ⟨p0, p0 + 1, numProfilePoints + offset - i1 - 1⟩ :: frontLoop numProfilePoints offset (i0 + 1) i1
    else
      let p1 := numProfilePoints + offset - i1 - 2
      ⟨p0, p1, p1 + 1⟩ :: frontLoop numProfilePoints offset i0 (i1 + 1)
  else []
termination_by numProfilePoints - 2 - (i0 + i1)

/-- the other winding -/
def Tri.flip (t : Tri) : Tri := ⟨t.a, t.c, t.b⟩

/-- `_shape_front_back_triangles`, `geometry.py` 2767-2801 -/
def frontBackTriangles (numProfiles numProfilePoints offset : Nat) (cw : Bool) : List Tri :=
  let triCw := frontLoop numProfilePoints offset 0 0
  let triCcw := triCw.map Tri.flip
  let front := if cw then triCw else triCcw
  let back := if cw then triCcw else triCw
  front ++ back.map fun t => t.shift ((numProfiles - 1) * numProfilePoints)

/-- raster data of a shape: number of profiles, number of points of each profile, direction of the first profile -/
structure ShapeRaster where
  numProfiles : Nat
  numPoints : Nat
  cw : Bool

/-- `_shape_triangles`, `geometry.py` 2798-2830 -/
def shapeTriangles (s : ShapeRaster) (offset : Nat) (closedMesh : Bool) : List Tri :=
  if closedMesh then
    profileTriangles s.numProfiles s.numPoints offset s.cw ++ frontBackTriangles s.numProfiles s.numPoints offset s.cw
  else profileTriangles s.numProfiles s.numPoints offset s.cw

/-- the loop in `from_geometry_raster`, `geometry.py` 2854-2857, `len(points)` being `numPoints` -/
def geometryTriangles (closedMesh : Bool) : List ShapeRaster → Nat → List Tri
  | [], _ => []
  | s :: l, numPoints =>
    shapeTriangles s numPoints closedMesh ++ geometryTriangles closedMesh l (numPoints + s.numProfiles * s.numPoints)

end Weldx.Mesh
