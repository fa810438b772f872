import Verif.Base.Dict

/-!
# Comparison of coordinates with a reference (C95)

Source: `/repo/weldx/util/xarray.py` 398-427 (`_check_dtype`), 430-543 (`xr_check_coords`); `/repo/weldx/transformations/local_cs.py` 347-358
(`_check_and_normalize_orientation`, the check of the coordinates), 373-385 (`_check_coordinates`); `/repo/weldx/core/time_series.py` 127-141
(`_check_data_array`), 165-168 (arrays as data of a series).

Simplifications: what `numpy.dtype` makes of a description is part of the description. Coordinates have at most one dimension; a coordinate
without a dimension has one value. The units of coordinates are strings; `U_`, the comparison of units and dimensions are parameters.
Comparing arrays of different lengths that can not be broadcast is a failed comparison, which also raises a `ValueError`.
-/

namespace Weldx.RefCheck

/-- data types of numpy. Strings have a length, times may have a unit. -/
inductive Dtype
  | bool
  | int (bits : ℕ)
  | uint (bits : ℕ)
  | float (bits : ℕ)
  | complex (bits : ℕ)
  | str (length : ℕ)
  | bytes (length : ℕ)
  | object
  | datetime (unit : Option String)
  | timedelta (unit : Option String)
  deriving DecidableEq

/-- the scalar type without length and unit, `dtype.type` -/
def Dtype.kind : Dtype → Dtype
  | .str _ => .str 0
  | .bytes _ => .bytes 0
  | .datetime _ => .datetime none
  | .timedelta _ => .timedelta none
  | d => d

/-- `numpy.issubdtype` for two data types -/
def issubdtype (a b : Dtype) : Bool := decide (a.kind = b.kind)

/-- a description of a data type: a string or a type, and what `numpy.dtype` makes of it -/
structure Desc where
  text : Option String
  dtype : Dtype

/-- `part in text` for strings -/
def contains (part text : String) : Bool := decide (part.toList <:+: text.toList)

/-- `xarray.py` 416-418: the description is a text that contains the name of a type of times -/
def Desc.timeText (r : Desc) : Bool :=
  match r.text with
  | some t => contains "timedelta64" t || contains "datetime64" t
  | none => false

/-- `_check_dtype`, `xarray.py` 398-427 -/
def checkDtype (var : Dtype) (ref : Desc) : Bool :=
  if var ≠ ref.dtype then
    if ref.timeText = true ∧ issubdtype var ref.dtype = true then true
    else if ¬(issubdtype var ref.dtype = true ∧ ref.dtype = .str 0) then false
    else true
  else true

/-- a coordinate with its dimensions, values, data type and the attribute `units` -/
structure Coord (V : Type) where
  dims : List String
  values : List V
  dtype : Dtype
  units : Option String

/-- the entry of the reference for one coordinate -/
structure Entry (V : Type) where
  values : Option (List V) := none
  dtype : Option (List Desc) := none
  optional : Bool := false
  units : Option String := none
  dimensionality : Option String := none

inductive Err
  | key
  | value
  | type
  | dimensionality
  deriving DecidableEq

variable {V U D : Type} [DecidableEq V] [DecidableEq U] [DecidableEq D]

/-- `numpy.all(a == b)` with broadcasting -/
def allEq (a b : List V) : Bool :=
  if a.length = b.length then decide (a = b)
  else
    match a, b with
    | [x], l => l.all fun y => decide (x = y)
    | l, [y] => l.all fun x => decide (x = y)
    | _, _ => false

/-- the units of pint: parsing and dimension -/
structure Pint (U D : Type) where
  unit : String → U
  dim : U → D

/-- `xarray.py` 508 -/
def badValues (c : Coord V) (check : Entry V) : Bool :=
  match check.values with
  | some v => ! allEq c.values v
  | none => false

/-- `xarray.py` 516-522 -/
def badDtype (c : Coord V) (check : Entry V) : Bool :=
  match check.dtype with
  | some l => ! l.any fun d => checkDtype c.dtype d
  | none => false

/-- `xarray.py` 526-528 -/
def badUnits (P : Pint U D) (c : Coord V) (check : Entry V) : Bool :=
  match check.units, c.units with
  | some u, some w => decide (w = "") || ! decide (P.unit w = P.unit u)
  | some _, none => true
  | none, _ => false

/-- `xarray.py` 534-537 -/
def badDimension (P : Pint U D) (c : Coord V) (check : Entry V) : Bool :=
  match check.dimensionality, c.units with
  | some u, some w => ! decide (P.dim (P.unit w) = P.dim (P.unit u))
  | some _, none => true
  | none, _ => false

/-- the checks of one entry, `xarray.py` 497-541 -/
def checkEntry (P : Pint U D) (coords : List (String × Coord V)) (key : String) (check : Entry V) : Except Err Unit :=
  if check.optional = true ∧ key ∉ Dict.keys coords then .ok ()
  else
    match Dict.get? coords key with
    | none => .error .key
    | some c =>
      if badValues c check then .error .value
      else if badDtype c check then .error .type
      else if badUnits P c check then .error .value
      else if badDimension P c check then .error .dimensionality
      else .ok ()

/-- `xr_check_coords`, `xarray.py` 430-543 -/
def checkCoords (P : Pint U D) (coords : List (String × Coord V)) : List (String × Entry V) → Except Err Unit
  | [] => .ok ()
  | (k, e) :: t =>
    match checkEntry P coords k e with
    | .error x => .error x
    | .ok _ => checkCoords P coords t

/-- the labels of coordinates are numbers or strings -/
inductive Label
  | num (n : Int)
  | text (s : String)
  deriving DecidableEq

/-- `local_cs.py` 350-357 -/
def orientationRef : List (String × Entry Label) :=
  [("c", { values := some [.text "x", .text "y", .text "z"] }), ("v", { values := some [.num 0, .num 1, .num 2] }),
    ("time", { dtype := some [⟨some "timedelta64", .timedelta none⟩], optional := true })]

/-- `local_cs.py` 377-383 -/
def coordinatesRef : List (String × Entry Label) :=
  [("c", { values := some [.text "x", .text "y", .text "z"] }),
    ("time", { dtype := some [⟨some "timedelta64", .timedelta none⟩], optional := true })]

/-- `time_series.py` 131 -/
def seriesRef : List (String × Entry V) := [("time", { dtype := some [⟨some "timedelta64[ns]", .timedelta (some "ns")⟩] })]

/-- an array: dimensions, coordinates, and whether its data is a quantity -/
structure Data (V : Type) where
  dims : List String
  coords : List (String × Coord V)
  quantity : Bool

/-- `_check_data_array`, `time_series.py` 127-141: exceptions get another text and keep their type -/
def checkDataArray (P : Pint U D) (a : Data V) : Except Err Unit :=
  match checkCoords P a.coords seriesRef with
  | .error .key => .error .key
  | .error .type => .error .type
  | .error .value => .error .value
  | .error e => .error e
  | .ok _ => if ¬a.quantity then .error .type else .ok ()

/-- `time_series.py` 165-168: the dimension `time` becomes the first one -/
def seriesFromArray (P : Pint U D) (a : Data V) : Except Err (Data V) :=
  match checkDataArray P a with
  | .error e => .error e
  | .ok _ => if "time" ∈ a.dims then .ok { a with dims := "time" :: a.dims.filter (· ≠ "time") } else .error .value

end Weldx.RefCheck
