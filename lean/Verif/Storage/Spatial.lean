import Mathlib.Algebra.Order.Field.Basic
import Verif.Storage.Props

/-!
# Spatial data (C78)

Source: `/repo/weldx/geometry.py` 2656-2701 (`SpatialData.__post_init__`), 2703-2723 (`from_file`), 2864-2875 (`limits`), 2950-2978
(`to_file`, `is_time_dependent`, `additional_dims`); `/repo/weldx/util/xarray.py` 577-631 (`xr_3d_vector`);
`/repo/weldx/tags/core/geometry/spatial_data.py` 15-28 (converter); schema `core/geometry/spatial_data-0.1.1.yaml` 64-92.

Simplifications: as in `Storage/Model.lean`. Whether a unit is a length is a function `isLen`. `transpose(..., "n", "c")` is a function
`T` with the properties `Transposes`. The time given to the constructor is the coordinate that is made of it. Values are floats or
integers. Stored arrays are no instances of `np.ndarray` when they are read, so that the triangles are converted again. The mesh files
contain points and triangles without changes.
-/

namespace Weldx.Sto

variable {F U A : Type}

inductive SErr
  | array (e : Err)
  | type
  | dimensionality
  | attribute
  | value
  | index
deriving DecidableEq

def lift {α : Type} : Except Err α → Except SErr α
  | .ok a => .ok a
  | .error e => .error (.array e)

structure SData (F U A : Type) where
  coordinates : XArr F U A
  triangles : Option (NdArr F)
  attributes : Option (List (String × NdArr F))

/-- the argument `coordinates`: an array of xarray or something else with an optional unit -/
inductive CoordIn (F U A : Type)
  | array (a : XArr F U A)
  | raw (a : NdArr F) (units : Option U)

/-- the argument `triangles`: an array of numpy or something else -/
inductive TriIn (F : Type)
  | array (a : NdArr F)
  | list (a : NdArr F)

/-- one value of `astype(float)` -/
def Cell.toFloat (ofInt : ℤ → F) : Cell F → Cell F
  | .int z => .float (ofInt z)
  | .bool b => .float (ofInt b.toNat)
  | c => c

/-- `astype(float)` -/
def NdArr.toFloat (ofInt : ℤ → F) (a : NdArr F) : NdArr F := ⟨.float 64, a.shape, a.cells.map (Cell.toFloat ofInt)⟩

/-- the coordinate `c` -/
def xyz : String × XVar F U A := ("c", ⟨["c"], ⟨.str, [3], [.str "x", .str "y", .str "z"]⟩, none, []⟩)

/-- `xr_3d_vector(data, time, add_dims=["n"])`, `util/xarray.py` 577-631 -/
def vector3d (ofInt : ℤ → F) (a : NdArr F) (units : Option U) (time : Option (XVar F U A)) : Except Err (XArr F U A) :=
  let time := if a.shape.length = 1 then none else time
  match time with
  | none => mkArr ⟨["n", "c"], a.toFloat ofInt, units, []⟩ [xyz]
  | some t => mkArr ⟨["time", "n", "c"], a.toFloat ofInt, units, []⟩ [xyz, ("time", t)]

/-- `transpose(..., "n", "c")`: a missing dimension is an error -/
def transposeNC (T : XArr F U A → XArr F U A) (a : XArr F U A) : Except SErr (XArr F U A) :=
  if "n" ∈ a.main.dims ∧ "c" ∈ a.main.dims then .ok (T a) else .error .value

/-- the triangles as an array, `geometry.py` 2694-2695 -/
def TriIn.toArr : TriIn F → NdArr F
  | .array a => a
  | .list a => { a with dtype := .uint 64 }

/-- the check of the triangles, `geometry.py` 2696-2701 -/
def checkTriangles (a : NdArr F) : Except SErr (NdArr F) := match a.shape.getLast? with
  | none => .error .index
  | some k => if k ≠ 3 then .error .value else if a.shape.length ≠ 2 then .error .value else .ok a

/-- the conversion and check of the triangles, `geometry.py` 2693-2701 -/
def initTriangles : Option (TriIn F) → Except SErr (Option (NdArr F))
  | none => .ok none
  | some t => (checkTriangles t.toArr).map some

/-- the coordinates as an array, `geometry.py` 2674-2679 -/
def initCoords (ofInt : ℤ → F) (c : CoordIn F U A) (time : Option (XVar F U A)) : Except SErr (XArr F U A) := match c with
  | .array a => .ok a
  | .raw a u => lift (vector3d ofInt a u time)

/-- the checks of units and triangles, `geometry.py` 2684-2701. The exception for a wrong unit is made with `self.coordinates.units`, which
is an attribute of the array. -/
def finish (isLen : U → Bool) (a : XArr F U A) (tri : Option (TriIn F)) (attributes : Option (List (String × NdArr F))) :
    Except SErr (SData F U A) :=
  match a.main.units with
  | none => .error .type
  | some u =>
    if isLen u then (initTriangles tri).map fun tri => ⟨a, tri, attributes⟩
    else .error (if "units" ∈ Dict.keys a.main.attrs then .dimensionality else .attribute)

/-- `SpatialData.__post_init__`, `geometry.py` 2672-2701 -/
def create (isLen : U → Bool) (ofInt : ℤ → F) (T : XArr F U A → XArr F U A) (c : CoordIn F U A) (tri : Option (TriIn F))
    (attributes : Option (List (String × NdArr F))) (time : Option (XVar F U A)) : Except SErr (SData F U A) := do
  let a ← initCoords ofInt c time
  let a ← transposeNC T a
  finish isLen a tri attributes

/-! ## Storage -/

/-- the tree of spatial data: the coordinates are a quantity or an array -/
structure SpTree (F U A : Type) where
  coordinates : (Stored F × U) ⊕ ArrTree F U A
  triangles : Option (NdArr F)
  attributes : Option (List (String × NdArr F))

/-- the schema of the triangles: unsigned integers of 32 or 64 bits, shape `[(~), 3]` -/
def validTriangles : Option (NdArr F) → Bool
  | none => true
  | some a => (a.dtype == .uint 32 || a.dtype == .uint 64) && (a.shape.length == 2 || a.shape.length == 1) && a.shape.getLast? == some 3

/-- `SpatialDataConverter.to_yaml_tree`, `spatial_data.py` 15-20, and the validation of the tree (the shape of the coordinates is
`[(~), 3]` or `[..., 3]`) -/
def writeSpatial (s : SData F U A) : Except Err (SpTree F U A) := do
  let c ← if s.coordinates.main.data.shape.length ≤ 2 then
      match s.coordinates.main.units with
      | some u => (writeQty ⟨s.coordinates.main.data, u⟩).map .inl
      | none => .error .schema
    else (writeArr s.coordinates).map .inr
  if s.coordinates.main.data.shape.getLast? = some 3 ∧ validTriangles s.triangles then .ok ⟨c, s.triangles, s.attributes⟩
  else .error .schema

/-- `SpatialDataConverter.from_yaml_tree`, `spatial_data.py` 22-28 -/
def readSpatial (isLen : U → Bool) (ofInt : ℤ → F) (T : XArr F U A → XArr F U A) (t : SpTree F U A) : Except SErr (SData F U A) := do
  let c ← match t.coordinates with
    | .inl q => .ok (CoordIn.raw (readQty q).value (some (readQty q).units))
    | .inr a => (lift (readArr a)).map CoordIn.array
  create isLen ofInt T c (t.triangles.map .list) t.attributes none

/-- a file of version 0.1.0: the coordinates are an array without unit -/
def readLegacy (isLen : U → Bool) (ofInt : ℤ → F) (T : XArr F U A → XArr F U A) (mm : U) (coordinates : NdArr F)
    (triangles : Option (NdArr F)) (attributes : Option (List (String × NdArr F))) : Except SErr (SData F U A) :=
  create isLen ofInt T (.raw coordinates (some mm)) (triangles.map .list) attributes none

/-! ## Limits and mesh files -/

/-- component `i` of all points of a flat list `[x, y, z, x, y, z, ...]` -/
def component {K : Type} (xs : List K) (i : ℕ) : List K := (List.range (xs.length / 3)).filterMap fun j => xs[3 * j + i]?

/-- `limits`, `geometry.py` 2864-2875: the smallest and largest value of each component over all other dimensions; there is no limit without
points (`ValueError`) -/
def limits {K : Type} [LinearOrder K] (xs : List K) : Option (List (K × K)) :=
  [0, 1, 2].mapM fun i => match (component xs i).min?, (component xs i).max? with
    | some a, some b => some (a, b)
    | _, _ => none

/-- a mesh file -/
structure MeshFile (K : Type) where
  points : List K
  triangles : List (List ℕ)

/-- `to_file`, `geometry.py` 2950-2967: the values in the given unit; `scale` is the length of a unit -/
def toFile {K : Type} [Field K] (scale : U → K) (xs : List K) (u : U) (triangles : List (List ℕ)) (target : U) : MeshFile K :=
  ⟨xs.map fun x => x * scale u / scale target, triangles⟩

/-- `from_file`, `geometry.py` 2703-2723: values with a unit -/
def fromFile {K : Type} (f : MeshFile K) (units : U) : List K × U × List (List ℕ) := (f.points, units, f.triangles)

end Weldx.Sto
