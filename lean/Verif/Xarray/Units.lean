import Verif.Base.Dict
import Mathlib.Tactic.Common

/-!
# Units of coordinates and of the data of arrays (C83)

Source: `/repo/weldx/util/xarray.py` 229-238 (`_get_coordinate_quantities`), 241-252 (`_coordinates_from_quantities`), 851-857
(`coordinates_as_quantities`), 859-865 (`indexes_as_quantities`), 867-880 (`quantify`, second branch), 882-888 (`quantify_coords`),
890-896 (`dequantify_coords`), 898-909 (`units`).

Simplifications: parsing of unit texts (`U_`) and printing of units (`str`) are parameters; `Q_(values, unit)` parses a text in the same
way. A text is true if it is not empty; a `pint.Unit` is always true (it defines neither `__bool__` nor `__len__`). The attribute can also
be `None`. An index of pandas has no attribute `attrs`. The arrays are copied, so functions return new arrays.
-/

namespace Weldx.XUnits

variable {U V : Type}

/-- value of the attribute `units` -/
inductive UAttr (U : Type) | null | text (s : String) | unit (u : U)
  deriving DecidableEq

/-- a coordinate: dimensions, values, the attribute `units` if there is one, and if it is an index -/
structure Coord (U V : Type) where
  dims : List String
  vals : V
  units : Option (UAttr U)
  index : Bool
  deriving DecidableEq

/-- an array: coordinates, the unit of the data if it is a quantity, and the attribute `units` -/
structure Arr (U V : Type) where
  coords : List (String × Coord U V)
  dataUnit : Option U
  attr : Option (UAttr U)

/-- exceptions -/
inductive Err | unitError | attributeError
  deriving DecidableEq

/-- parsing and printing of units -/
structure Units (U : Type) where
  parse : String → Option U
  print : U → String

/-- values as they are, or a quantity -/
inductive Vals (U V : Type) | plain (v : V) | quantity (v : V) (u : U)
  deriving DecidableEq

/-- `U_(x)` for an attribute that is not `None` -/
def Units.get (L : Units U) : UAttr U → Except Err (Option U)
  | .null => .ok none
  | .unit u => .ok (some u)
  | .text s => match L.parse s with
    | some u => .ok (some u)
    | none => .error .unitError

/-- one value of the dictionary 229-238 and 851-857 -/
def coordVals (L : Units U) (c : Coord U V) : Except Err (Vals U V) :=
  match c.units with
  | none => .ok (.plain c.vals)
  | some .null => .ok (.plain c.vals)
  | some (.text s) =>
    if s = "" then .ok (.plain c.vals)
    else match L.parse s with
      | some u => .ok (.quantity c.vals u)
      | none => .error .unitError
  | some (.unit u) => .ok (.quantity c.vals u)

/-- a dictionary comprehension -/
def mapItems {α β : Type} (f : α → Except Err β) : List (String × α) → Except Err (List (String × β))
  | [] => .ok []
  | (k, a) :: t => match f a with
    | .error e => .error e
    | .ok b => match mapItems f t with
      | .error e => .error e
      | .ok r => .ok ((k, b) :: r)

/-- 851-857 `coordinates_as_quantities`, 229-238 `_get_coordinate_quantities` -/
def asQuantities (L : Units U) (a : Arr U V) : Except Err (List (String × Vals U V)) := mapItems (coordVals L) a.coords

/-- 859-865 `indexes_as_quantities`: the first index has no `attrs` -/
def indexesAsQuantities (a : Arr U V) : Except Err (List (String × Vals U V)) :=
  if a.coords.any (·.2.index) then .error .attributeError else .ok []

/-- an entry of the argument `coords` of `DataArray`: values as they are, or dimensions, values and unit -/
inductive Entry (U V : Type) | plain (v : V) | full (dim : String) (v : V) (units : UAttr U)

/-- 241-252 `_coordinates_from_quantities` -/
def fromQuantities (q : List (String × Vals U V)) : List (String × Entry U V) :=
  q.map fun e => (e.1, match e.2 with
    | .plain v => .plain v
    | .quantity v u => .full e.1 v (.unit u))

/-- one step of 882-888 and 890-896; `g` makes the new attribute from a unit -/
def stepCoord (L : Units U) (g : U → UAttr U) (c : Coord U V) : Except Err (Coord U V) :=
  match c.units with
  | none => .ok c
  | some x => match L.get x with
    | .error e => .error e
    | .ok none => .ok c
    | .ok (some u) => .ok { c with units := some (g u) }

/-- 882-888 `quantify_coords` -/
def quantifyCoords (L : Units U) (a : Arr U V) : Except Err (Arr U V) :=
  match mapItems (stepCoord L .unit) a.coords with
  | .error e => .error e
  | .ok cs => .ok { a with coords := cs }

/-- 890-896 `dequantify_coords` -/
def dequantifyCoords (L : Units U) (a : Arr U V) : Except Err (Arr U V) :=
  match mapItems (stepCoord L fun u => .text (L.print u)) a.coords with
  | .error e => .error e
  | .ok cs => .ok { a with coords := cs }

/-- 898-909 `units` -/
def units (L : Units U) (a : Arr U V) : Except Err (Option U) :=
  match a.dataUnit with
  | some u => .ok (some u)
  | none => match a.attr with
    | none => .ok none
    | some x => L.get x

end Weldx.XUnits
