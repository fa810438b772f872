import Mathlib.Data.Int.Notation
import Mathlib.Data.Nat.Notation
import Verif.Base.Dict

/-!
# Storage of arrays, data sets and quantities (C77)

Source: `/repo/weldx/tags/core/common_types.py` 18-120 (`Dimension`, `Variable` and their converters), `tags/core/data_array.py` 22-50,
`tags/core/dataset.py` 13-40, `tags/units/pint_quantity.py` 31-45; schemas `core/variable-0.1.0.yaml`, `units/quantity-0.1.0.yaml`;
`/repo/weldx/constants.py` 21 (`force_ndarray_like`).

Modelled: data types, shapes and values of arrays with names, units, coordinates and attributes, the trees written by the converters, the
part of the schema which describes scalars, and the checks of the constructors of xarray which read the trees.

Simplifications and trusted behaviour of the libraries: numbers of type float are elements of a set `F`, and a float of fewer bits is the
double with the same value; the times of numpy are integer counts of their unit (not-a-time is the smallest integer). asdf stores arrays,
numbers, strings, units, and attributes (a set `A`) without changes, an entry with the value `None` reads as absent. `np.dtype(d.str)` is
`d`. A Python scalar given to numpy becomes `float64`, `int64` (or `uint64` if it does not fit), `bool` or a string. Encodings and
multi-indices are not modelled.
-/

namespace Weldx.Sto

variable {F U A : Type}

inductive DType
  | float (bits : ℕ)
  | int (bits : ℕ)
  | uint (bits : ℕ)
  | bool
  | datetime
  | timedelta
  | str
deriving DecidableEq

/-- one value of an array -/
inductive Cell (F : Type)
  | float (x : F)
  | int (z : ℤ)
  | bool (b : Bool)
  | time (z : ℤ)
  | str (s : String)

inductive Err
  | schema   -- validation error
  | value    -- `ValueError`
deriving DecidableEq

/-- `is_datetime(dtype) or is_timedelta(dtype)`, `dtype.char in ("M", "m")` -/
def DType.isTime : DType → Bool
  | .datetime => true
  | .timedelta => true
  | _ => false

structure NdArr (F : Type) where
  dtype : DType
  shape : List ℕ
  cells : List (Cell F)

/-- `astype(np.int64)` for times -/
def Cell.toInt : Cell F → Cell F
  | .time z => .int z
  | c => c

/-- `np.array(data, dtype=dtype)` for times -/
def Cell.toTime : Cell F → Cell F
  | .int z => .time z
  | c => c

/-- `convert_time_dtypes`, `common_types.py` 59-79 -/
def convertTime (a : NdArr F) : NdArr F :=
  if a.dtype.isTime then { dtype := .int 64, shape := a.shape, cells := a.cells.map Cell.toInt } else a

/-- the value of the key `data` of a variable or `value` of a quantity: an array or a Python scalar -/
inductive Stored (F : Type)
  | block (a : NdArr F)
  | scalar (c : Cell F)

/-- `if not data.shape: data = data.item()` -/
def store (a : NdArr F) : Stored F := match a.shape, a.cells with
  | [], [c] => .scalar c
  | _, _ => .block a

/-- the schema of `data`: an array or a number -/
def Stored.valid : Stored F → Bool
  | .block _ => true
  | .scalar (.float _) => true
  | .scalar (.int _) => true
  | .scalar _ => false

/-- the first integer that does not fit into `int64` -/
def bound : ℤ := 2 ^ 63

/-- `np.asarray` of a Python scalar -/
def ofPython : Cell F → NdArr F
  | .float x => ⟨.float 64, [], [.float x]⟩
  | .int z => ⟨if z < bound then .int 64 else .uint 64, [], [.int z]⟩
  | .bool b => ⟨.bool, [], [.bool b]⟩
  | .time z => ⟨.datetime, [], [.time z]⟩
  | .str s => ⟨.str, [], [.str s]⟩

def Stored.toArr : Stored F → NdArr F
  | .block a => a
  | .scalar c => ofPython c

/-! ## Variables -/

/-- a variable of xarray: dimensions, data (with a unit if the data is a quantity), attributes -/
structure XVar (F U A : Type) where
  dims : List String
  data : NdArr F
  units : Option U
  attrs : List (String × A)

/-- the tree of a variable -/
structure VarTree (F U A : Type) where
  name : String
  dims : List String
  dtype : DType
  data : Stored F
  attrs : Option (List (String × A))
  units : Option U

/-- `VariableConverter.to_yaml_tree`, `common_types.py` 81-103, and the validation of the tree -/
def writeVar (name : String) (v : XVar F U A) : Except Err (VarTree F U A) :=
  let data := store (convertTime v.data)
  if data.valid then
    .ok { name := name, dims := v.dims, dtype := v.data.dtype, data := data,
          attrs := if v.attrs.isEmpty then none else some v.attrs, units := v.units }
  else .error .schema

/-- `VariableConverter.from_yaml_tree`, `common_types.py` 105-120, and the conversion of the data by xarray -/
def readVar (t : VarTree F U A) : String × XVar F U A :=
  let raw := t.data.toArr
  let data := if t.dtype.isTime then { dtype := t.dtype, shape := raw.shape, cells := raw.cells.map Cell.toTime } else raw
  (t.name, { dims := t.dims, data := data, units := t.units, attrs := t.attrs.getD [] })

/-! ## Arrays with coordinates -/

structure XArr (F U A : Type) where
  name : Option String
  main : XVar F U A
  coords : List (String × XVar F U A)

/-- names and lengths of the dimensions -/
def XVar.sizes (v : XVar F U A) : List (String × ℕ) := v.dims.zip v.data.shape

/-- the checks of `Variable.__init__` and `_infer_coords_and_dims` of xarray for one coordinate -/
def checkCoord (main : XVar F U A) (e : String × XVar F U A) : Bool :=
  e.2.dims.length == e.2.data.shape.length &&
  e.2.sizes.all (fun p => Dict.get? main.sizes p.1 == some p.2) &&
  match Dict.get? main.sizes e.1 with
  | some s => e.2.data.shape == [s]
  | none => true

/-- `DataArray(data, coords, dims, attrs)` -/
def mkArr (main : XVar F U A) (coords : List (String × XVar F U A)) : Except Err (XArr F U A) :=
  if main.dims.length == main.data.shape.length && coords.all (checkCoord main) then .ok ⟨none, main, coords⟩ else .error .value

/-- the tree of an array -/
structure ArrTree (F U A : Type) where
  attributes : List (String × A)
  coordinates : List (VarTree F U A)
  data : VarTree F U A

/-- `XarrayDataArrayConverter.to_yaml_tree`, `data_array.py` 22-37 -/
def writeArr (a : XArr F U A) : Except Err (ArrTree F U A) := do
  let coords ← a.coords.mapM (fun e => writeVar e.1 e.2)
  let data ← writeVar "data" { a.main with attrs := [] }
  .ok { attributes := a.main.attrs, coordinates := coords, data := data }

/-- `XarrayDataArrayConverter.from_yaml_tree`, `data_array.py` 39-48 -/
def readArr (t : ArrTree F U A) : Except Err (XArr F U A) :=
  let coords := Dict.update [] (t.coordinates.map readVar)
  mkArr { (readVar t.data).2 with attrs := t.attributes } coords

/-! ## Data sets -/

structure XSet (F U A : Type) where
  vars : List (String × XVar F U A)
  coords : List (String × XVar F U A)
  attrs : List (String × A)

/-- names and lengths of the dimensions in the order of their first use: `obj.dims` -/
def sizesOf (vs : List (String × XVar F U A)) : List (String × ℕ) :=
  vs.foldl (fun acc e => Dict.update acc e.2.sizes) []

/-- `Dataset(data_vars, coords, attrs)`: every variable has one length for each of its dimensions, the lengths of the same dimension are
equal and no scalar has the name of a dimension (`calculate_dimensions`), a coordinate with the name of a dimension is an index
(`assert_valid_explicit_coords`), no name is used twice. Data variables which xarray makes coordinates, because they have the name of
their dimension, are rejected here. -/
def mkSet (vars coords : List (String × XVar F U A)) (attrs : List (String × A)) : Except Err (XSet F U A) :=
  let all := vars ++ coords
  let sizes := sizesOf all
  if all.all (fun e => e.2.dims.length == e.2.data.shape.length && e.2.sizes.all (fun p => Dict.get? sizes p.1 == some p.2)) &&
    coords.all (fun e => !(Dict.keys sizes).contains e.1 || e.2.dims == [e.1]) &&
    vars.all (fun e => !(Dict.keys coords).contains e.1 && !e.2.dims.contains e.1 &&
      !(e.2.dims.isEmpty && (Dict.keys sizes).contains e.1))
  then .ok ⟨vars, coords, attrs⟩ else .error .value

/-- the tree of a data set -/
structure SetTree (F U A : Type) where
  attributes : List (String × A)
  coordinates : List (VarTree F U A)
  dimensions : List (String × ℕ)
  dataVars : List (VarTree F U A)

/-- `XarrayDatasetConverter.to_yaml_tree`, `dataset.py` 13-33 -/
def writeSet (a : XSet F U A) : Except Err (SetTree F U A) := do
  let coords ← a.coords.mapM (fun e => writeVar e.1 e.2)
  let vars ← a.vars.mapM (fun e => writeVar e.1 e.2)
  .ok { attributes := a.attrs, coordinates := coords, dimensions := sizesOf (a.vars ++ a.coords), dataVars := vars }

/-- `XarrayDatasetConverter.from_yaml_tree`, `dataset.py` 35-40 -/
def readSet (t : SetTree F U A) : Except Err (XSet F U A) :=
  mkSet (Dict.update [] (t.dataVars.map readVar)) (Dict.update [] (t.coordinates.map readVar)) t.attributes

/-! ## Quantities -/

/-- an array with a unit -/
structure Qty (F U : Type) where
  value : NdArr F
  units : U

/-- `PintQuantityConverter.to_yaml_tree`, `pint_quantity.py` 31-39; the schema allows arrays and numbers -/
def writeQty (q : Qty F U) : Except Err (Stored F × U) :=
  if (store q.value).valid then .ok (store q.value, q.units) else .error .schema

/-- `PintQuantityConverter.from_yaml_tree`, `pint_quantity.py` 41-45; numpy makes an array of the value -/
def readQty (t : Stored F × U) : Qty F U := ⟨t.1.toArr, t.2⟩

end Weldx.Sto
