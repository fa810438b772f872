import Verif.Version.Props

/-!
# Tags: patterns, converters, processes, grooves and registered quality standards (C90)

Source: `/repo/weldx/asdf/util.py` 519-541 (`uri_match`, `get_converter_for_tag`), `/repo/weldx/asdf/types.py` 70-123 (`WeldxConverterMeta`,
`WeldxConverter`, `format_tag`), `/repo/weldx/welding/processes.py` 10-35, `/repo/weldx/tags/processes/process.py` 10-33,
`/repo/weldx/tags/groove/iso_9692_1.py` 15-52, `/repo/weldx/config.py` 137-192, and `asdf.util.uri_match`.

Simplifications: strings in tags are lists of characters; time series are values of a type, their creation from something else is a function that
can fail; the metadata of C85 (`wx_metadata`, `wx_user`) is not repeated here; a class is its `name`, its `tags` and whether it derives
directly from `WeldxConverter`.
-/

namespace Weldx.Tag

/-- the exceptions -/
inductive Err | typeError | valueError | keyError | indexError
deriving DecidableEq

/-! ## Patterns -/

/-- elements of the regular expression of a pattern: a character, `[^/]*` and `.*` -/
inductive Part | chr (c : Char) | one | any
deriving DecidableEq

/-- `re.escape(pattern).replace(r"\*\*", r".*").replace(r"\*", r"[^/]*")` of `asdf.util` -/
def parse : List Char → List Part
  | [] => []
  | [c] => if c = '*' then [.one] else [.chr c]
  | c :: d :: t =>
    if c = '*' then if d = '*' then .any :: parse t else .one :: parse (d :: t)
    else .chr c :: parse (d :: t)

/-- repeat characters that are allowed, then continue -/
def star (ok : Char → Bool) (k : List Char → Bool) : List Char → Bool
  | [] => k []
  | d :: u => k (d :: u) || (ok d && star ok k u)

/-- one character, then continue -/
def single (c : Char) (k : List Char → Bool) : List Char → Bool
  | [] => false
  | d :: u => c == d && k u

/-- `re.fullmatch` -/
def full : List Part → List Char → Bool
  | [] => List.isEmpty
  | .chr c :: p => single c (full p)
  | .one :: p => star (· != '/') (full p)
  | .any :: p => star (· != '\n') (full p)

/-- `asdf.util.uri_match` -/
def asdfMatch (p u : List Char) : Bool := if '*' ∈ p then full (parse p) u else p == u

/-- util.py 519-530 `uri_match` with a list of patterns -/
def uriMatch (ps : List (List Char)) (u : List Char) : Bool := ps.any fun p => asdfMatch p u

/-! ## Converters -/

/-- the common start of all tags -/
def tagBase : List Char := "asdf://weldx.bam.de/weldx/tags/".toList

/-- types.py 111-123 `format_tag(name, version)` with the default organization and standard -/
def formatTag (name version : List Char) : List Char := tagBase ++ name ++ '-' :: version

/-- the version pattern of types.py 78 -/
def anyVersion : List Char := "0.1.*".toList

/-- a converter class -/
structure Cls where
  name : Option (List Char)
  tags : Option (List (List Char))
  direct : Bool
deriving DecidableEq

/-- types.py 87-91: `WeldxConverter` -/
def weldxConverter : Cls := ⟨none, none, false⟩

/-- types.py 73-84: a class with the attributes `name` and `tags` of its body that derives from `base` -/
def newClass (base : Cls) (name : Option (List Char)) (tags : Option (List (List Char))) : Cls where
  name := name.or base.name
  tags :=
    match name.or base.name with
    | some (c :: n) => some [formatTag (c :: n) anyVersion]
    | _ => tags.or base.tags
  direct := decide (base = weldxConverter)

/-- `WeldxConverter.__subclasses__()` -/
def subclasses (reg : List Cls) : List Cls := reg.filter (·.direct)

/-- util.py 532-541 `get_converter_for_tag`: the class, and whether there is a warning -/
def getConverter (reg : List Cls) (u : List Char) : Except Err (Option Cls × Bool) :=
  if ∃ c ∈ subclasses reg, c.tags = none then .error .typeError
  else
    let found := (subclasses reg).filter fun c => uriMatch (c.tags.getD []) u
    .ok (found.head?, decide (1 < found.length))

/-! ## The converters of weldx -/

/-- the names of the tags of a converter, and other patterns it defines -/
structure Row where
  names : List String
  extra : List String
deriving DecidableEq

/-- pint_quantity.py 17 -/
def stsci : String := "tag:stsci.edu:asdf/unit/quantity-1.*"

/-- groove/iso_9692_1.py 25 -/
def glob : String := "asdf://weldx.bam.de/weldx/tags/groove/iso_9692_1_2013_12/*Groove-0.1.*"

/-- welding/groove/iso_9692_1.py 237-1351: the subclasses of `IsoBaseGroove` -/
def grooves : List String :=
  ["IGroove", "VGroove", "VVGroove", "UVGroove", "UGroove", "HVGroove", "HUGroove", "DVGroove", "DUGroove", "DHVGroove", "DHUGroove", "FFGroove"]

/-- the converters in `/repo/weldx/tags` -/
def table : List Row :=
  [⟨["aws/design/base_metal"], []⟩,
   ⟨["aws/design/connection"], []⟩,
   ⟨["aws/design/joint_penetration"], []⟩,
   ⟨["aws/design/sub_assembly"], []⟩,
   ⟨["aws/design/weld_details"], []⟩,
   ⟨["aws/design/weldment"], []⟩,
   ⟨["aws/design/workpiece"], []⟩,
   ⟨["aws/process/arc_welding_process"], []⟩,
   ⟨["aws/process/gas_component"], []⟩,
   ⟨["aws/process/shielding_gas_for_procedure"], []⟩,
   ⟨["aws/process/shielding_gas_type"], []⟩,
   ⟨["core/data_array"], []⟩,
   ⟨["core/dataset"], []⟩,
   ⟨["core/dimension"], []⟩,
   ⟨["core/file"], []⟩,
   ⟨["core/generic_series"], []⟩,
   ⟨["core/generic_series_free_dimension"], []⟩,
   ⟨["core/geometry/spatial_data"], []⟩,
   ⟨["core/graph/di_edge"], []⟩,
   ⟨["core/graph/di_graph"], []⟩,
   ⟨["core/graph/di_node"], []⟩,
   ⟨["core/mathematical_expression"], []⟩,
   ⟨["core/media_file"], []⟩,
   ⟨["core/time_series"], []⟩,
   ⟨["core/transformations/coordinate_system_hierarchy"], []⟩,
   ⟨["core/transformations/local_coordinate_system"], []⟩,
   ⟨["core/transformations/rotation"], []⟩,
   ⟨["core/variable"], []⟩,
   ⟨["debug/test_property_tag"], []⟩,
   ⟨["debug/test_shape_validator"], []⟩,
   ⟨["debug/test_unit_validator"], []⟩,
   ⟨["equipment/measurement_equipment"], []⟩,
   ⟨["measurement/error"], []⟩,
   ⟨["measurement/measurement"], []⟩,
   ⟨["measurement/measurement_chain"], []⟩,
   ⟨["measurement/signal"], []⟩,
   ⟨["measurement/signal_transformation"], []⟩,
   ⟨["measurement/source"], []⟩,
   ⟨["process/GMAW", "process/CLOOS/spray_arc", "process/CLOOS/pulse"], []⟩,
   ⟨["time/datetimeindex"], []⟩,
   ⟨["time/time"], []⟩,
   ⟨["time/timedelta"], []⟩,
   ⟨["time/timedeltaindex"], []⟩,
   ⟨["time/timestamp"], []⟩,
   ⟨["units/quantity"], [stsci]⟩,
   ⟨["units/units"], []⟩,
   ⟨["uuid"], []⟩,
   ⟨grooves.map ("groove/iso_9692_1_2013_12/" ++ ·), [glob]⟩]

/-- `/repo/weldx/manifests/weldx-0.1.2.yaml`: the tags of weldx (the one of asdf left out), as names and last digit of the version -/
def manifest : List (String × Char) :=
  [("aws/design/base_metal", '0'), ("aws/design/connection", '0'), ("aws/design/joint_penetration", '0'),
   ("aws/design/sub_assembly", '0'), ("aws/design/weld_details", '0'), ("aws/design/weldment", '0'),
   ("aws/design/workpiece", '0'), ("aws/process/arc_welding_process", '0'), ("aws/process/gas_component", '0'),
   ("aws/process/shielding_gas_for_procedure", '0'), ("aws/process/shielding_gas_type", '0'), ("core/data_array", '0'),
   ("core/dataset", '0'), ("core/dimension", '0'), ("core/file", '0'), ("core/file", '1'), ("core/generic_series", '0'),
   ("core/generic_series_free_dimension", '0'), ("core/geometry/spatial_data", '0'), ("core/geometry/spatial_data", '1'),
   ("core/graph/di_edge", '0'), ("core/graph/di_graph", '0'), ("core/graph/di_node", '0'),
   ("core/mathematical_expression", '0'), ("core/media_file", '0'), ("core/time_series", '0'), ("core/time_series", '1'),
   ("core/transformations/coordinate_system_hierarchy", '0'), ("core/transformations/local_coordinate_system", '0'),
   ("core/transformations/local_coordinate_system", '1'), ("core/transformations/rotation", '0'), ("core/variable", '0'),
   ("core/variable", '1'), ("debug/test_property_tag", '0'), ("debug/test_shape_validator", '0'),
   ("debug/test_unit_validator", '0'), ("equipment/measurement_equipment", '0'), ("groove/iso_9692_1_2013_12/DHUGroove", '0'),
   ("groove/iso_9692_1_2013_12/DHVGroove", '0'), ("groove/iso_9692_1_2013_12/DUGroove", '0'),
   ("groove/iso_9692_1_2013_12/DVGroove", '0'), ("groove/iso_9692_1_2013_12/FFGroove", '0'),
   ("groove/iso_9692_1_2013_12/HUGroove", '0'), ("groove/iso_9692_1_2013_12/HVGroove", '0'),
   ("groove/iso_9692_1_2013_12/IGroove", '0'), ("groove/iso_9692_1_2013_12/UGroove", '0'),
   ("groove/iso_9692_1_2013_12/UVGroove", '0'), ("groove/iso_9692_1_2013_12/VGroove", '0'),
   ("groove/iso_9692_1_2013_12/VVGroove", '0'), ("measurement/error", '0'), ("measurement/measurement", '0'),
   ("measurement/measurement_chain", '0'), ("measurement/signal", '0'), ("measurement/signal_transformation", '0'),
   ("measurement/source", '0'), ("process/CLOOS/pulse", '0'), ("process/CLOOS/spray_arc", '0'), ("process/GMAW", '0'),
   ("time/datetimeindex", '0'), ("time/time", '0'), ("time/timedelta", '0'), ("time/timedeltaindex", '0'),
   ("time/timestamp", '0'), ("units/quantity", '0'), ("units/units", '0'), ("uuid", '0')]

/-- the tag of an entry of the manifest -/
def manifestTag (e : String × Char) : List Char := formatTag e.1.toList ("0.1.".toList ++ [e.2])

/-- the class of a row -/
def Row.cls (r : Row) : Cls where
  name := none
  tags := some (r.names.map (fun n => formatTag n.toList anyVersion) ++ r.extra.map String.toList)
  direct := true

/-- all converters -/
def weldx : List Cls := table.map Row.cls

/-! ## Processes -/

/-- the values in the dictionary `meta` -/
inductive Info
  | null | leaf (s : String) | list (l : List Info) | dict (d : List (String × Info))

mutual
/-- types.py 43: `remap(tree, lambda p, k, v: v is not None)` inside a value -/
def Info.strip : Info → Info
  | .null => .null
  | .leaf s => .leaf s
  | .list l => .list (stripList l)
  | .dict d => .dict (stripDict d)
def stripList : List Info → List Info
  | [] => []
  | .null :: t => stripList t
  | .leaf s :: t => .leaf s :: stripList t
  | .list l :: t => .list (stripList l) :: stripList t
  | .dict d :: t => .dict (stripDict d) :: stripList t
def stripDict : List (String × Info) → List (String × Info)
  | [] => []
  | (_, .null) :: t => stripDict t
  | (k, .leaf s) :: t => (k, .leaf s) :: stripDict t
  | (k, .list l) :: t => (k, .list (stripList l)) :: stripDict t
  | (k, .dict d) :: t => (k, .dict (stripDict d)) :: stripDict t
end

/-- `GmawProcess` -/
structure Proc (T : Type) where
  base : String
  manufacturer : String
  source : String
  parameters : List (String × T)
  tag : List Char
  info : Option Info

/-- processes.py 33: `v if isinstance(v, TimeSeries) else TimeSeries(v)` -/
def series {A T : Type} (conv : A → Except Err T) : A ⊕ T → Except Err T
  | .inl a => conv a
  | .inr s => .ok s

/-- processes.py 32-35: the values of the dictionary, converted if they are no time series -/
def convert {A T : Type} (conv : A → Except Err T) : List (String × (A ⊕ T)) → Except Err (List (String × T))
  | [] => .ok []
  | (k, v) :: t =>
    match series conv v with
    | .error e => .error e
    | .ok s => (convert conv t).map ((k, s) :: ·)

/-- processes.py 14-35: `GmawProcess(...)` -/
def Proc.create {A T : Type} (conv : A → Except Err T) (base manufacturer source : String) (parameters : List (String × (A ⊕ T)))
    (tag : Option (List Char)) (info : Option Info) : Except Err (Proc T) :=
  (convert conv parameters).map fun ps => ⟨base, manufacturer, source, ps, tag.getD "GMAW".toList, info⟩

/-- process.py 13-17 -/
def processTags : List (List Char) :=
  ["asdf://weldx.bam.de/weldx/tags/process/GMAW-0.1.*".toList,
   "asdf://weldx.bam.de/weldx/tags/process/CLOOS/spray_arc-0.1.*".toList,
   "asdf://weldx.bam.de/weldx/tags/process/CLOOS/pulse-0.1.*".toList]

/-- process.py 28-33 `select_tag` -/
def Proc.selectTag {T : Type} (p : Proc T) : Except Err (List Char) :=
  let tag := formatTag ("process/".toList ++ p.tag) "0.1.0".toList
  if uriMatch processTags tag then .ok tag else .error .valueError

/-- process.py 20-22 and types.py 33-44: what is written; `None` is left out -/
structure Stored (T : Type) where
  base : String
  manufacturer : String
  source : String
  parameters : List (String × T)
  tag : List Char
  info : Option Info

/-- saving: the tag and the tree -/
def Proc.save {T : Type} (p : Proc T) : Except Err (List Char × Stored T) :=
  p.selectTag.map fun t =>
    (t, ⟨p.base, p.manufacturer, p.source, p.parameters, p.tag, (match p.info with | some .null => none | i => i).map Info.strip⟩)

/-- process.py 24-26: reading -/
def Stored.read {A T : Type} (conv : A → Except Err T) (s : Stored T) : Except Err (Proc T) :=
  Proc.create conv s.base s.manufacturer s.source (s.parameters.map fun e => (e.1, .inr e.2)) (some s.tag) s.info

/-! ## Grooves -/

/-- groove/iso_9692_1.py 12 -/
def grooveBase : List Char := "groove/iso_9692_1_2013_12/".toList

/-- groove/iso_9692_1.py 22-25: the patterns without the last one -/
def groovePatterns (names : List String) : List (List Char) := names.map fun g => formatTag (grooveBase ++ g.toList) anyVersion

/-- `s in t` -/
def isIn (s : List Char) : List Char → Bool
  | [] => s == []
  | c :: t => s.isPrefixOf (c :: t) || isIn s t

/-- groove/iso_9692_1.py 38-52 `select_tag`; `tags` are the tags of the extension -/
def grooveTag (names : List String) (tags : List (List Char)) (cls : String) : Except Err (List Char) :=
  match (groovePatterns names).filter fun p => isIn (grooveBase ++ cls.toList) p with
  | [p] =>
    match tags.filter fun t => asdfMatch p t with
    | [] => .error .indexError
    | t :: _ => .ok t
  | _ => .error .valueError

/-- the text after the last occurrence of a separator -/
def afterLast? (sep : List Char) : List Char → Option (List Char)
  | [] => none
  | c :: t =>
    match afterLast? sep t with
    | some r => some r
    | none => if sep.isPrefixOf (c :: t) then some ((c :: t).drop sep.length) else none

/-- groove/iso_9692_1.py 15-17 `_get_class_from_tag` -/
def classFromTag (t : List Char) : List Char :=
  (Ver.rpartition ((afterLast? "/iso_9692_1_2013_12/".toList t).getD t)).1

/-! ## Quality standards -/

/-- the global configuration: the registered standards and the mappings added to asdf, the last one first -/
structure Config (C : Type) where
  standards : List (String × Ver.Standard C)
  active : List (String × C)

/-- config.py 142-152 `add_quality_standard`; a standard without files has no name and is not considered -/
def Config.add {C : Type} (c : Config C) (n : String) (s : Ver.Standard C) : Config C := { c with standards := Dict.set c.standards n s }

/-- config.py 154-174 `enable_quality_standard` -/
def Config.enable {C : Type} (c : Config C) (n : String) (v : Option Ver.V3) : Except Ver.Err (Config C) :=
  match Dict.get? c.standards n with
  | none => .error .keyError
  | some s =>
    match s.getMappings v with
    | .error e => .error e
    | .ok m => .ok { c with active := (n, m) :: c.active }

/-- config.py 176-192 `load_installed_standards`: `none` is something that is no standard; the configuration is changed up to the error -/
def Config.load {C : Type} (c : Config C) : List (Option (String × Ver.Standard C)) → Config C × Option Err
  | [] => (c, none)
  | none :: _ => (c, some .typeError)
  | some (n, s) :: t => (c.add n s).load t

end Weldx.Tag
