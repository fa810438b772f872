import Verif.Base.Dict
import Verif.Validators.Model
import Verif.Version.Tags

/-!
# Validation of trees by the schemas (C91)

Source: the schema files in `/repo/weldx/schemas/weldx.bam.de/weldx/`; the validators `wx_unit`, `wx_shape` and `wx_property_tag` of
`/repo/weldx/asdf/validators.py`; `_get_instance_shape`, `_get_instance_units` in `/repo/weldx/asdf/util.py` 591-640;
`shape_from_tagged` and `units_from_tagged` in `/repo/weldx/tags/units/pint_quantity.py` 54-59, `core/common_types.py` 121-124,
`core/data_array.py` 48-56, `core/time_series.py` 48-54, `time/time.py` 24-29, `time/timedeltaindex.py` 49-62,
`time/datetimeindex.py` 38-50.

Simplifications: the schema language is JSON schema draft 4 as the asdf library uses it, which is not part of /repo: keywords about
objects ignore other nodes, an integer is a number, a boolean is not. References inside of a file are resolved with a budget of steps,
references to other files by inserting the schema. A crash of a validator counts before an error (in the code the first event counts;
what is accepted is the same, except that in `oneOf` a crash after the first error of an alternative is not noticed by the code). Numbers
have no values. `rangeLen` is the length of the pandas range for the texts of start, end and frequency. If a key is missing for
`shape_from_tagged` there is no shape (in the code a `KeyError`). Shapes of the entries of a mapping are considered one level deep;
no schema of the project goes deeper.
-/

namespace Weldx.Schema

/-- the tags of nodes: `asdf://weldx.bam.de/weldx/tags/<name>-0.1.<patch>`, arrays, other tags -/
inductive Tag
  | wx (name : String) (patch : Nat)
  | ndarray
  | other (uri : String)
  deriving DecidableEq

/-- patterns of tags in the schemas: any version, one version, `groove/**-0.1.*`, `tag:stsci.edu:asdf/core/ndarray-1.*` -/
inductive Pat
  | any (name : String)
  | exact (name : String) (patch : Nat)
  | groove
  | ndarray

/-- `uri_match`, see `C91_patterns` for the comparison with the model of the texts -/
def Pat.test : Pat → Tag → Bool
  | .any n, .wx m _ => decide (n = m)
  | .exact n k, .wx m j => decide (n = m ∧ k = j)
  | .groove, .wx m _ => decide (['g', 'r', 'o', 'o', 'v', 'e', '/'] <+: m.toList)
  | .ndarray, .ndarray => true
  | _, _ => false

/-- a node of the tree that is written -/
inductive Y
  | null
  | bool (b : Bool)
  | int (i : Int)
  | float
  | str (tag : Option Tag) (s : String)
  | list (tag : Option Tag) (l : List Y)
  | map (tag : Option Tag) (m : List (String × Y))
  | arr (dtype : String) (shape : List Nat)

/-- the tag of a node -/
def Y.tag : Y → Option Tag
  | .str t _ => t
  | .list t _ => t
  | .map t _ => t
  | .arr _ _ => some .ndarray
  | _ => none

/-- the keys of a mapping -/
def Y.get : Y → String → Option Y
  | .map _ m, k => Dict.get? m k
  | .arr d s, k =>
    if k = "datatype" then some (.str none d) else if k = "shape" then some (.list none (s.map fun n : Nat => .int n)) else none
  | _, _ => none

/-- JSON types -/
inductive Ty | object | array | string | number | integer | boolean
  deriving DecidableEq

/-- `type:` -/
def Ty.test : Ty → Y → Bool
  | .object, .map _ _ => true
  | .object, .arr _ _ => true
  | .array, .list _ _ => true
  | .string, .str _ _ => true
  | .number, .int _ => true
  | .number, .float => true
  | .integer, .int _ => true
  | .boolean, .bool _ => true
  | _, _ => false

/-- a schema: one keyword, or `all` for several of them -/
inductive S
  | type (t : Ty)
  | tag (p : Pat)
  | enum (l : List String)
  | pattern (p : List Char → Bool)
  | required (l : List String)
  | maxItems (n : Nat)
  /-- `additionalProperties: false` with the names of the properties -/
  | closed (l : List String)
  /-- one entry of `properties` -/
  | prop (name : String) (s : S)
  | items (s : S)
  /-- all keywords of a schema, or `allOf` -/
  | all (l : List S)
  | anyOf (l : List S)
  | oneOf (l : List S)
  /-- `$ref` inside of the file -/
  | ref (name : String)
  | propTag (l : List Pat)
  | unit (u : String)
  | shape (e : Val.Exp)

/-- result of a validation -/
inductive R | ok | bad | crash
  deriving DecidableEq

/-- errors -/
def R.ofBool (b : Bool) : R := if b then .ok else .bad

/-- all have to hold -/
def allR : List R → R
  | [] => .ok
  | .crash :: _ => .crash
  | .ok :: l => allR l
  | .bad :: l => if allR l = .crash then .crash else .bad

/-- the first one that holds -/
def anyR : List R → R
  | [] => .bad
  | .ok :: _ => .ok
  | .crash :: _ => .crash
  | .bad :: l => anyR l

/-- exactly one holds -/
def oneR (l : List R) : R := if R.crash ∈ l then .crash else R.ofBool (decide (l.count R.ok = 1))

/-- the units that pint knows, by their dimension, and ranges of pandas -/
structure Env (D : Type) where
  parse : String → Option D
  dless : D
  rangeLen : String → String → String → Option Nat

variable {D : Type} [DecidableEq D]

/-! ### Shapes -/

/-- the integers of a list -/
def intList : List Y → Option (List Int)
  | [] => some []
  | .int i :: l => (intList l).map (i :: ·)
  | _ :: _ => none

/-- nodes whose shape does not depend on a converter, `util.py` 591-613 -/
def Y.baseShape : Y → Option (List Int)
  | .bool _ => some [1]
  | .int _ => some [1]
  | .float => some [1]
  | .arr _ s => some (s.map Int.ofNat)
  | .map _ m => match Dict.get? m "shape" with
    | some (.list _ l) => intList l
    | _ => none
  | _ => none

/-- the text of a string -/
def Y.text : Y → String
  | .str _ s => s
  | _ => ""

/-- `shape_from_tagged` of timedelta and datetime indices -/
def indexShape (E : Env D) (m : List (String × Y)) : Option (List Int) :=
  match Dict.get? m "freq", Dict.get? m "start", Dict.get? m "end" with
  | some f, some a, some b => (E.rangeLen a.text b.text f.text).map fun n => [Int.ofNat n]
  | some _, _, _ => none
  | none, _, _ => (Dict.get? m "values").bind Y.baseShape

/-- shapes of the values of a `Time` -/
def timeShape (E : Env D) : Y → Option (List Int)
  | .map (some (.wx n _)) m => if n = "time/timedeltaindex" ∨ n = "time/datetimeindex" then indexShape E m else none
  | _ => none

/-- `_get_instance_shape` -/
def Y.shape (E : Env D) (y : Y) : Option (List Int) :=
  match y.baseShape with
  | some s => some s
  | none => match y with
    | .map (some (.wx n _)) m =>
      if n = "units/quantity" then match Dict.get? m "value" with
        | some (.map t v) => Y.baseShape (.map t v)
        | some (.arr d s) => Y.baseShape (.arr d s)
        | some _ => some [1]
        | none => none
      else if n = "core/variable" then (Dict.get? m "data").bind Y.baseShape
      else if n = "core/data_array" then ((Dict.get? m "data").bind fun v => v.get "data").bind Y.baseShape
      else if n = "core/time_series" then some [1]
      else if n = "time/time" then (Dict.get? m "values").bind (timeShape E)
      else if n = "time/timedeltaindex" ∨ n = "time/datetimeindex" then indexShape E m
      else none
    | _ => none

/-- a node as the shape validator sees it -/
def Y.leaf (E : Env D) (y : Y) : Val.Node :=
  match y with
  | .bool _ => .number
  | .int _ => .number
  | .float => .number
  | .arr _ _ => .mapping (y.shape E) []
  | .map _ _ => .mapping (y.shape E) []
  | _ => .other

/-- a node with its entries -/
def Y.node (E : Env D) (y : Y) : Val.Node :=
  match y with
  | .map _ m => .mapping (y.shape E) (m.map fun e => (e.1.toList, e.2.leaf E))
  | y => y.leaf E

/-- `WxShapeValidator` -/
def shapeR (E : Env D) (e : Val.Exp) (y : Y) : R :=
  match Val.wxShape e (y.node E) with
  | .accepted => .ok
  | .rejected => .bad
  | .crashed _ => .crash

/-! ### Units -/

/-- the units of a node -/
inductive U (D : Type) | none | some (d : D) | crash

/-- units without `units_from_tagged`, `util.py` 616-640 -/
def Y.baseUnits (E : Env D) : Y → U D
  | .bool _ => .some E.dless
  | .int _ => .some E.dless
  | .float => .some E.dless
  | .arr _ _ => .some E.dless
  | .map _ m => match Dict.get? m "units" with
    | some y => match E.parse y.text with
      | some d => .some d
      | none => .crash
    | none => .none
  | _ => .none

/-- `_get_instance_units` -/
def Y.units (E : Env D) (y : Y) : U D :=
  match y with
  | .map (some (.wx n _)) m =>
    if n = "core/data_array" ∧ Dict.get? m "units" = none then match Dict.get? m "data" with
      | some v => v.baseUnits E
      | none => .crash
    else y.baseUnits E
  | y => y.baseUnits E

/-- `_unit_validator` -/
def unitR (E : Env D) (u : String) (y : Y) : R :=
  match y.units E with
  | .none => .bad
  | .crash => .crash
  | .some d => match E.parse u with
    | none => .crash
    | some e => R.ofBool (decide (d = e))

/-! ### Keywords -/

/-- the tag of a node matches one of the patterns; builtin types have tags that match none -/
def tagTest (l : List Pat) (y : Y) : Bool := match y.tag with
  | none => false
  | some t => l.any fun p => p.test t

/-- `WxPropertyTagValidator` -/
def propTagR (l : List Pat) : Y → R
  | .map _ m => R.ofBool (m.all fun e => tagTest l e.2)
  | .arr _ _ => .bad
  | _ => .crash

/-- `required` -/
def requiredR (l : List String) : Y → R
  | .map _ m => R.ofBool (l.all fun k => (Dict.get? m k).isSome)
  | _ => .ok

/-- `additionalProperties: false` -/
def closedR (l : List String) : Y → R
  | .map _ m => R.ofBool (m.all fun e => decide (e.1 ∈ l))
  | _ => .ok

mutual
/-- A node is checked against a schema; `rf` checks the references. -/
def check (E : Env D) (rf : String → Y → R) : S → Y → R
  | .type t, y => R.ofBool (t.test y)
  | .tag p, y => R.ofBool (tagTest [p] y)
  | .enum l, y => match y with
    | .str _ s => R.ofBool (decide (s ∈ l))
    | _ => .bad
  | .pattern p, y => match y with
    | .str _ s => R.ofBool (p s.toList)
    | _ => .ok
  | .required l, y => requiredR l y
  | .maxItems n, y => match y with
    | .list _ l => R.ofBool (decide (l.length ≤ n))
    | _ => .ok
  | .closed l, y => closedR l y
  | .prop k s, y => match y.get k with
    | none => .ok
    | some v => check E rf s v
  | .items s, y => match y with
    | .list _ l => allR (l.map (check E rf s))
    | _ => .ok
  | .all l, y => allR (checkList E rf l y)
  | .anyOf l, y => anyR (checkList E rf l y)
  | .oneOf l, y => oneR (checkList E rf l y)
  | .ref n, y => rf n y
  | .propTag l, y => propTagR l y
  | .unit u, y => unitR E u y
  | .shape e, y => shapeR E e y
/-- the results for several schemas -/
def checkList (E : Env D) (rf : String → Y → R) : List S → Y → List R
  | [], _ => []
  | s :: l, y => check E rf s y :: checkList E rf l y
end

/-- references with a budget of `k` steps -/
def refs (E : Env D) (defs : String → Option S) : Nat → String → Y → R
  | 0, _, _ => .bad
  | k + 1, n, y => match defs n with
    | some s => check E (refs E defs k) s y
    | none => .crash

/-- a node is valid with respect to a schema if that is the result for any large enough budget -/
def Valid (E : Env D) (defs : String → Option S) (s : S) (y : Y) : Prop :=
  ∃ k₀, ∀ k, k₀ ≤ k → check E (refs E defs k) s y = .ok

/-- Every node of the tree that has a tag with a schema is valid. -/
inductive Accepted (E : Env D) (defs : String → Option S) (schemaOf : Tag → Option S) : Y → Prop
  | null : Accepted E defs schemaOf .null
  | bool (b : Bool) : Accepted E defs schemaOf (.bool b)
  | int (i : Int) : Accepted E defs schemaOf (.int i)
  | float : Accepted E defs schemaOf .float
  | arr (d : String) (s : List Nat) : Accepted E defs schemaOf (.arr d s)
  | str (t : Option Tag) (s : String) (h : ∀ g ∈ t, ∀ c ∈ schemaOf g, Valid E defs c (.str t s)) : Accepted E defs schemaOf (.str t s)
  | list (t : Option Tag) (l : List Y) (h : ∀ g ∈ t, ∀ c ∈ schemaOf g, Valid E defs c (.list t l))
      (hl : ∀ y ∈ l, Accepted E defs schemaOf y) : Accepted E defs schemaOf (.list t l)
  | map (t : Option Tag) (m : List (String × Y)) (h : ∀ g ∈ t, ∀ c ∈ schemaOf g, Valid E defs c (.map t m))
      (hm : ∀ e ∈ m, Accepted E defs schemaOf e.2) : Accepted E defs schemaOf (.map t m)

end Weldx.Schema
