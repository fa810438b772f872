import Verif.Schema.Lemmas

/-!
# The trees that the converters write (C91)

Source: the `to_yaml_tree` methods of the converters in `/repo/weldx/tags/`; `to_yaml_tree_metadata` in `/repo/weldx/asdf/types.py`
(entries that are `None` are dropped); `build_tree` in `/repo/weldx/tags/core/graph.py` 68-112; the constructors of the classes as far as
they restrict the values.

Simplifications: objects are given by what is written of them. Of numbers and arrays only the types and shapes are kept. Entries of
`wx_metadata` and `wx_user` are left out, see `C91_metadata`. Tuples are lists. Numpy scalars are numbers.
-/

namespace Weldx.Schema

/-- a tag of version 0.1.0 -/
abbrev wx (n : String) : Tag := .wx n 0

/-- a text without tag -/
abbrev txt (s : String) : Y := .str none s

/-- a list of texts -/
def txts (l : List String) : Y := .list none (l.map txt)

/-! ### Quantities, `tags/units/pint_quantity.py` 31-39, 71-73 -/

/-- numbers -/
inductive Num
  | int (i : Int)
  | float
  | bool (b : Bool)
  | complex (text : String)

/-- native types; a complex number has a tag of the asdf standard -/
def Num.tree : Num → Y
  | .int i => .int i
  | .float => .float
  | .bool b => .bool b
  | .complex s => .str (some (.other "tag:stsci.edu:asdf/core/complex-1.0.0")) s

/-- integers and floating point numbers -/
def Num.Real : Num → Prop
  | .int _ => True
  | .float => True
  | _ => False

/-- the magnitude of a quantity -/
inductive Mag
  | scalar (n : Num)
  | array (dtype : String) (shape : List Nat)

/-- scalars are written as numbers -/
def Mag.tree : Mag → Y
  | .scalar n => n.tree
  | .array d s => .arr d s

/-- an array or a real number -/
def Mag.Real : Mag → Prop
  | .scalar n => n.Real
  | .array _ _ => True

/-- a unit -/
def unitTree (u : String) : Y := .str (some (wx "units/units")) u

/-- a quantity -/
structure Qty where
  mag : Mag
  units : String

/-- its tree -/
def Qty.tree (q : Qty) : Y := obj (wx "units/quantity") [("value", some q.mag.tree), ("units", some (unitTree q.units))]

/-! ### Time, `tags/time/` -/

/-- a timestamp between the years 1000 and 2999 (pandas: 1677 to 2262); `rest` is the text after the year -/
structure Stamp where
  year : Nat
  rest : List Char
  lower : 1000 ≤ year
  upper : year < 3000

/-- a digit -/
def digitChar (d : Nat) : Char := Char.ofNat (48 + d)

/-- `isoformat()` -/
def Stamp.text (t : Stamp) : String :=
  String.ofList ([digitChar (t.year / 1000), digitChar (t.year / 100 % 10), digitChar (t.year / 10 % 10), digitChar (t.year % 10)] ++ t.rest)

/-- the tree of a timestamp -/
def Stamp.tree (t : Stamp) : Y := .str (some (wx "time/timestamp")) t.text

/-- the tree of a timedelta -/
def deltaTree (s : String) : Y := .str (some (wx "time/timedelta")) s

/-- the frequency of an index or the number of its values -/
inductive Spacing
  | freq (f : String)
  | values (n : Nat)

/-- an index of timedeltas: the texts of the first, last, smallest and largest one -/
structure DeltaIndex where
  start : String
  stop : String
  min : String
  max : String
  spacing : Spacing

/-- an index of dates -/
structure DateIndex where
  start : Stamp
  stop : Stamp
  min : Stamp
  max : Stamp
  spacing : Spacing

/-- the first entries -/
def Spacing.freqTree : Spacing → Option Y
  | .freq f => some (txt f)
  | .values _ => none

/-- the first entries -/
def Spacing.valuesTree : Spacing → Option Y
  | .freq _ => none
  | .values n => some (.arr "int64" [n])

/-- `timedeltaindex.py` 26-39 -/
def DeltaIndex.tree (t : DeltaIndex) : Y := obj (wx "time/timedeltaindex") [("freq", t.spacing.freqTree),
  ("values", t.spacing.valuesTree), ("start", some (deltaTree t.start)), ("end", some (deltaTree t.stop)),
  ("min", some (deltaTree t.min)), ("max", some (deltaTree t.max))]

/-- `datetimeindex.py` 18-30 -/
def DateIndex.tree (t : DateIndex) : Y := obj (wx "time/datetimeindex") [("freq", t.spacing.freqTree),
  ("values", t.spacing.valuesTree), ("start", some t.start.tree), ("end", some t.stop.tree),
  ("min", some t.min.tree), ("max", some t.max.tree)]

/-- `Time.as_pandas()` -/
inductive TimeValues
  | delta (s : String)
  | deltas (i : DeltaIndex)
  | stamp (t : Stamp)
  | dates (i : DateIndex)

/-- the tree of the values -/
def TimeValues.tree : TimeValues → Y
  | .delta s => deltaTree s
  | .deltas i => i.tree
  | .stamp t => t.tree
  | .dates i => i.tree

/-- a `Time` -/
structure Time where
  values : TimeValues
  reference : Option Stamp

/-- `time.py` 13-18 -/
def Time.tree (t : Time) : Y := obj (wx "time/time") [("values", some t.values.tree), ("reference_time", t.reference.map Stamp.tree)]

/-- the number of times of an index, as it is calculated from the tree -/
def spacingLen {D : Type} (E : Env D) (start stop : String) : Spacing → Option Nat
  | .freq f => E.rangeLen start stop f
  | .values n => some n

/-- the number of times of an index -/
def TimeValues.len {D : Type} (E : Env D) : TimeValues → Option Nat
  | .deltas i => spacingLen E i.start i.stop i.spacing
  | .dates i => spacingLen E i.start.text i.stop.text i.spacing
  | _ => none

/-! ### Arrays with names, `tags/core/common_types.py` 81-103, `data_array.py` 20-35, `dataset.py` 13-33 -/

/-- the data of a variable -/
inductive VarData
  | scalar (n : Num)
  | text (s : String)
  | array (dtype : String) (shape : List Nat)

/-- scalars are written as they are -/
def VarData.tree : VarData → Y
  | .scalar n => n.tree
  | .text s => txt s
  | .array d s => .arr d s

/-- not a single truth value (a complex number is written as a text) -/
def VarData.Plain : VarData → Prop
  | .scalar (.bool _) => False
  | _ => True

/-- a variable; `attrs` is `none` for an empty dictionary -/
structure Variable where
  name : String
  dims : List String
  dtype : String
  data : VarData
  attrs : Option (List (String × Y))
  units : Option String

/-- its tree -/
def Variable.tree (v : Variable) : Y := obj (.wx "core/variable" 1) [("name", some (txt v.name)), ("dimensions", some (txts v.dims)),
  ("dtype", some (txt v.dtype)), ("data", some v.data.tree), ("attrs", v.attrs.map (.map none)), ("units", v.units.map unitTree)]

/-- a data array -/
structure DataArr where
  attrs : List (String × Y)
  coords : List Variable
  data : Variable

/-- its tree -/
def DataArr.tree (a : DataArr) : Y := obj (wx "core/data_array") [("attributes", some (.map none a.attrs)),
  ("coordinates", some (.list none (a.coords.map Variable.tree))), ("data", some a.data.tree)]

/-- a data set -/
structure DataSet where
  attrs : List (String × Y)
  coords : List Variable
  dims : List (String × Nat)
  vars : List Variable

/-- `Dimension` -/
def dimTree (d : String × Nat) : Y := obj (wx "core/dimension") [("name", some (txt d.1)), ("length", some (.int d.2))]

/-- its tree -/
def DataSet.tree (a : DataSet) : Y := obj (wx "core/dataset") [("attributes", some (.map none a.attrs)),
  ("coordinates", some (.list none (a.coords.map Variable.tree))), ("dimensions", some (.list none (a.dims.map dimTree))),
  ("variables", some (.list none (a.vars.map Variable.tree)))]

/-! ### Expressions and series -/

/-- a mathematical expression; parameters that are data arrays are written as quantities, `mathematical_expression.py` 19-33 -/
structure MathExpr where
  text : String
  params : List (String × Qty)

/-- its tree -/
def MathExpr.tree (e : MathExpr) : Y := obj (wx "core/mathematical_expression") [("expression", some (txt e.text)),
  ("parameters", some (.map none (e.params.map fun p => (p.1, p.2.tree))))]

/-- the possible methods of interpolation, `core/time_series.py` 33-36 -/
inductive Interp | step | linear

/-- the text -/
def Interp.text : Interp → String
  | .step => "step"
  | .linear => "linear"

/-- A `TimeSeries`: one number, one value that is an array of more dimensions (shape `1 :: rest`), discrete values with times, an
expression. -/
inductive Series
  | const (n : Num) (units : String)
  | single (dtype : String) (rest : List Nat) (units : String) (i : Interp)
  | discrete (t : Time) (dtype : String) (n : Nat) (rest : List Nat) (units : String) (i : Interp)
  | expr (e : MathExpr) (units : String) (shape : List Nat)

/-- shapes -/
def shapeTree (s : List Nat) : Y := .list none (s.map fun n : Nat => .int n)

/-- `time_series.py` 19-34 -/
def Series.tree : Series → Y
  | .const n u => obj (.wx "core/time_series" 1) [("units", some (unitTree u)), ("value", some n.tree)]
  | .single d r u i => obj (.wx "core/time_series" 1) [("time", none), ("units", some (unitTree u)), ("shape", some (shapeTree (1 :: r))),
      ("interpolation", some (txt i.text)), ("values", some (.arr d (1 :: r)))]
  | .discrete t d n r u i => obj (.wx "core/time_series" 1) [("time", some t.tree), ("units", some (unitTree u)),
      ("shape", some (shapeTree (n :: r))), ("interpolation", some (txt i.text)), ("values", some (.arr d (n :: r)))]
  | .expr e u s => obj (.wx "core/time_series" 1) [("expression", some e.tree), ("units", some (unitTree u)),
      ("shape", some (shapeTree s))]

/-- the units of a series -/
def Series.units : Series → String
  | .const _ u => u
  | .single _ _ u _ => u
  | .discrete _ _ _ _ u _ => u
  | .expr _ u _ => u

/-- a parameter of a generic series -/
inductive Param
  | qty (q : Qty)
  | array (a : DataArr)

/-- its tree -/
def Param.tree : Param → Y
  | .qty q => q.tree
  | .array a => a.tree

/-- a `GenericSeries` -/
inductive Generic
  | discrete (data : Qty) (dims : List String) (coords : List (String × Qty)) (i : Option String)
  | expr (text : String) (params : List (String × Param)) (dims : List (String × (Option String × String))) (units : String)

/-- `GenericSeriesFreeDimension` with symbol and units -/
def freeTree (d : Option String × String) : Y := obj (wx "core/generic_series_free_dimension") [("units", some (unitTree d.2)),
  ("symbol", d.1.map txt)]

/-- `generic_series.py` 30-56 -/
def Generic.tree : Generic → Y
  | .discrete q d c i => obj (wx "core/generic_series") [("data", some q.tree), ("dimensions", some (txts d)),
      ("coordinates", some (.map none (c.map fun p => (p.1, p.2.tree)))), ("interpolation", i.map txt)]
  | .expr s p d u => obj (wx "core/generic_series") [("expression", some (txt s)),
      ("parameters", some (.map none (p.map fun p => (p.1, p.2.tree)))),
      ("free_dimensions", some (.map none (d.map fun p => (p.1, freeTree p.2)))), ("units", some (unitTree u))]

/-! ### Files -/

/-- an `ExternalFile` as it is written; `content` is the number of bytes if the content is stored -/
structure ExtFile where
  filename : Option String
  suffix : Option String
  mimetype : Option String
  size : Option Nat
  created : Option Stamp
  modified : Option Stamp
  hostname : Option String
  directory : Option String
  content : Option Nat
  hash : Option (String × String)

/-- `file.py` 23-46 -/
def ExtFile.tree (f : ExtFile) : Y := obj (.wx "core/file" 1) [("filename", f.filename.map txt), ("suffix", f.suffix.map txt),
  ("mimetype", f.mimetype.map txt), ("size", f.size.map fun n : Nat => .int n), ("created", f.created.map Stamp.tree),
  ("modified", f.modified.map Stamp.tree), ("hostname", f.hostname.map txt), ("directory", f.directory.map txt),
  ("content", f.content.map fun n => .arr "uint8" [n]),
  ("content_hash", f.hash.map fun h => .map none [("algorithm", txt h.1), ("value", txt h.2)])]

/-- a `MediaFile`; the frames are a file or a data array -/
structure Media where
  reference : Option Stamp
  fps : Qty
  frames : Nat
  resolution : Nat × Nat
  file : Option ExtFile
  data : Option DataArr

/-- `media_file.py` 17-29 -/
def Media.tree (m : Media) : Y := obj (wx "core/media_file") [("reference_time", m.reference.map Stamp.tree), ("fps", some m.fps.tree),
  ("n_frames", some (.int m.frames)), ("resolution", some (.list none [.int m.resolution.1, .int m.resolution.2])),
  ("file", m.file.map ExtFile.tree), ("data", m.data.map DataArr.tree)]

/-! ### Geometry and transformations -/

/-- the coordinates of spatial data: a quantity for at most two dimensions, otherwise a data array -/
inductive Points
  | qty (q : Qty)
  | array (a : DataArr)

/-- the tree -/
def Points.tree : Points → Y
  | .qty q => q.tree
  | .array a => a.tree

/-- `SpatialData` -/
structure Spatial where
  coords : Points
  triangles : Option (String × List Nat)
  attrs : Option (List (String × Y))

/-- `spatial_data.py` 15-20 -/
def Spatial.tree (s : Spatial) : Y := obj (.wx "core/geometry/spatial_data" 1) [("coordinates", some s.coords.tree),
  ("triangles", s.triangles.map fun t => .arr t.1 t.2), ("attributes", s.attrs.map (.map none))]

/-- a rotation, by its constructor; `n` is the number of rotations if there are several -/
inductive Rot
  | quat (n : Option Nat)
  | matrix (n : Option Nat)
  | rotvec (n : Option Nat)
  | euler (sequence : String) (angles : Qty)

/-- the shape of several values -/
def several (n : Option Nat) (s : List Nat) : List Nat := match n with
  | none => s
  | some n => n :: s

/-- the entries for a rotation, `rotation.py` 15-51 -/
def Rot.fields : Rot → List (String × Option Y)
  | .quat n => [("quaternions", some (.arr "float64" (several n [4])))]
  | .matrix n => [("matrix", some (.arr "float64" (several n [3, 3])))]
  | .rotvec n => [("rotvec", some (.arr "float64" (several n [3])))]
  | .euler s q => [("sequence", some (txt s)), ("angles", some q.tree)]

/-- the tree -/
def Rot.tree (r : Rot) : Y := obj (wx "core/transformations/rotation") r.fields

/-- the coordinates of a coordinate system -/
inductive Coords
  | unity
  | values (v : Variable)
  | series (s : Series)

/-- the tree -/
def Coords.tree : Coords → Option Y
  | .unity => none
  | .values v => some v.tree
  | .series s => some s.tree

/-- a `LocalCoordinateSystem` -/
structure Lcs where
  orientation : Option Variable
  coords : Coords
  time : Option DeltaIndex
  reference : Option Stamp

/-- `local_coordinate_system.py` 17-52 -/
def Lcs.tree (l : Lcs) : Y := obj (.wx "core/transformations/local_coordinate_system" 1) [("orientations", l.orientation.map Variable.tree),
  ("coordinates", l.coords.tree), ("time", l.time.map DeltaIndex.tree), ("reference_time", l.reference.map Stamp.tree)]

/-! ### Graphs, `graph.py` -/

/-- the name of a node: a text, a UUID that is kept, a UUID that is dropped -/
inductive NodeName
  | text (s : String)
  | uuid (s : String)
  | dropped

/-- the tree of a name -/
def NodeName.tree : NodeName → Option Y
  | .text s => some (txt s)
  | .uuid s => some (.str (some (wx "uuid")) s)
  | .dropped => none

/-- The nodes that `build_tree` produces from a graph: name, attributes (without the ones that are `None`; an empty dictionary is dropped)
and edges with direction (`true`: forward) and attributes. -/
inductive GNode
  | mk (name : NodeName) (attrs : List (String × Y)) (edges : List (Bool × List (String × Y) × GNode))

/-- empty dictionaries and lists are dropped -/
def nonempty (m : List (String × Y)) : Option Y := if m = [] then none else some (.map none m)

/-- the tree of an edge -/
def edgeTree (fwd : Bool) (attrs : List (String × Y)) (target : Y) : Y := obj (wx "core/graph/di_edge") [("target_node", some target),
  ("direction", some (txt (if fwd then "fwd" else "bwd"))), ("attributes", nonempty attrs)]

mutual
/-- the tree of a node -/
def GNode.tree : GNode → Y
  | .mk n a es => obj (wx "core/graph/di_node") [("name", n.tree),
      ("edges", match es with
        | [] => none
        | e :: es => some (.list none (GNode.edges (e :: es)))),
      ("attributes", nonempty a)]
/-- the trees of the edges -/
def GNode.edges : List (Bool × List (String × Y) × GNode) → List Y
  | [] => []
  | (d, a, g) :: es => edgeTree d a g.tree :: GNode.edges es
end

/-- the tree of a graph, `graph.py` 154-162 -/
def graphTree (g : GNode) : Y := obj (wx "core/graph/di_graph") [("root_node", some g.tree)]

/-! ### Measurements -/

/-- `Error` -/
structure MError where
  deviation : Option (Sum Num Qty)

/-- its tree -/
def MError.tree (e : MError) : Y := obj (wx "measurement/error") [("deviation", e.deviation.map fun
  | .inl n => n.tree
  | .inr q => q.tree)]

/-- `Signal`; `true`: analog -/
structure MSignal where
  analog : Bool
  units : String
  data : Option Series

/-- its tree -/
def MSignal.tree (s : MSignal) : Y := obj (wx "measurement/signal") [("signal_type", some (txt (if s.analog then "analog" else "digital"))),
  ("units", some (unitTree s.units)), ("data", s.data.map Series.tree)]

/-- the type transformations that the constructor accepts -/
inductive TypeTrans | AA | AD | DA | DD

/-- the text -/
def TypeTrans.text : TypeTrans → String
  | .AA => "AA"
  | .AD => "AD"
  | .DA => "DA"
  | .DD => "DD"

/-- `SignalTransformation`; the constructor raises an error if neither function nor type is given, `measurement.py` 99-119 -/
structure MTrans where
  name : String
  error : Option MError
  func : Option MathExpr
  type : Option TypeTrans
  inputShape : Option (List Nat)
  outputShape : Option (List Nat)
  note : Option String
  given : func.isSome ∨ type.isSome

/-- its tree -/
def MTrans.tree (t : MTrans) : Y := obj (wx "measurement/signal_transformation") [("name", some (txt t.name)),
  ("error", t.error.map MError.tree), ("func", t.func.map MathExpr.tree), ("type_transformation", t.type.map fun x => txt x.text),
  ("input_shape", t.inputShape.map shapeTree), ("output_shape", t.outputShape.map shapeTree), ("meta", t.note.map txt)]

/-- `SignalSource` -/
structure MSource where
  name : String
  signal : MSignal
  error : Option MError

/-- its tree -/
def MSource.tree (s : MSource) : Y := obj (wx "measurement/source") [("name", some (txt s.name)), ("output_signal", some s.signal.tree),
  ("error", s.error.map MError.tree)]

/-- `MeasurementEquipment` -/
structure MEquipment where
  name : String
  sources : List MSource
  transformations : List MTrans

/-- its tree -/
def MEquipment.tree (m : MEquipment) : Y := obj (wx "equipment/measurement_equipment") [("name", some (txt m.name)),
  ("sources", some (.list none (m.sources.map MSource.tree))),
  ("transformations", some (.list none (m.transformations.map MTrans.tree)))]

/-- A measurement chain as a tree of signals: transformation, equipment and the chain from its output. -/
inductive MTree
  | mk (name : NodeName) (signal : MSignal) (next : List (MTrans × Option MEquipment × MTree))

mutual
/-- the graph of the chain; the root is the source, hence all edges are forward -/
def MTree.graph : MTree → GNode
  | .mk n s es => .mk n [("signal", s.tree)] (MTree.graphs es)
/-- the edges -/
def MTree.graphs : List (MTrans × Option MEquipment × MTree) → List (Bool × List (String × Y) × GNode)
  | [] => []
  | (t, q, m) :: es => (true, entries [("transformation", some t.tree), ("equipment", q.map MEquipment.tree)], m.graph) :: MTree.graphs es
end

/-- `MeasurementChain` -/
structure MChain where
  name : String
  source : MSource
  equipment : Option MEquipment
  root : MTree

/-- its tree, `measurement.py` 1050-1064 -/
def MChain.tree (c : MChain) : Y := obj (wx "measurement/measurement_chain") [("name", some (txt c.name)),
  ("data_source", some c.source.tree), ("source_equipment", c.equipment.map MEquipment.tree), ("graph", some (graphTree c.root.graph))]

/-- `Measurement` -/
structure Meas where
  name : String
  data : List Series
  chain : Option MChain

/-- its tree -/
def Meas.tree (m : Meas) : Y := obj (wx "measurement/measurement") [("name", some (txt m.name)),
  ("data", some (.list none (m.data.map Series.tree))), ("measurement_chain", m.chain.map MChain.tree)]

/-! ### Coordinate system manager -/

/-- data that is attached to a coordinate system -/
inductive CData
  | array (a : DataArr)
  | spatial (s : Spatial)

/-- the tree -/
def CData.tree : CData → Y
  | .array a => a.tree
  | .spatial s => s.tree

/-- The tree of coordinate systems: name, data and edges to further systems (direction, transformation). -/
inductive CTree
  | mk (name : String) (data : List (String × CData)) (next : List (Bool × Lcs × CTree))

mutual
/-- the graph of the defined edges -/
def CTree.graph : CTree → GNode
  | .mk n d es => .mk (.text n) [("data", .map none (d.map fun p => (p.1, p.2.tree)))] (CTree.graphs es)
/-- the edges -/
def CTree.graphs : List (Bool × Lcs × CTree) → List (Bool × List (String × Y) × GNode)
  | [] => []
  | (b, l, c) :: es => (b, [("transformation", l.tree), ("defined", .bool true)], c.graph) :: CTree.graphs es
end

/-- information about subsystems -/
inductive SubInfo
  | mk (name : String) (reference : Option Stamp) (common root : String) (members data : List String) (subs : List SubInfo)

mutual
/-- `SubsystemInfo.to_yaml_tree`, `/repo/weldx/transformations/cs_manager.py` 64-74 -/
def SubInfo.tree : SubInfo → Y
  | .mk n r c o m d s => .map none (entries [("name", some (txt n)), ("reference_time", r.map Stamp.tree), ("common_node", some (txt c)),
      ("root_node", some (txt o)), ("subsystems", some (.list none (SubInfo.trees s))), ("members", some (txts m)), ("data", some (txts d))])
/-- the list -/
def SubInfo.trees : List SubInfo → List Y
  | [] => []
  | s :: l => s.tree :: SubInfo.trees l
end

/-- `CoordinateSystemManager` -/
structure Csm where
  name : String
  reference : Option Stamp
  root : CTree
  subs : List SubInfo

/-- `coordinate_system_hierarchy.py` 14-28 -/
def Csm.tree (c : Csm) : Y := obj (wx "core/transformations/coordinate_system_hierarchy") [("name", some (txt c.name)),
  ("reference_time", c.reference.map Stamp.tree), ("graph", some (graphTree c.root.graph)),
  ("subsystems", some (.list none (SubInfo.trees c.subs)))]

/-! ### Processes and grooves -/

/-- `GmawProcess`; `tag` is `GMAW`, `CLOOS/spray_arc` or `CLOOS/pulse` -/
structure Gmaw where
  baseProcess : String
  manufacturer : String
  powerSource : String
  params : List (String × Series)
  tag : String
  info : Option (List (String × Y))

/-- `process.py` 20-22 -/
def Gmaw.tree (p : Gmaw) : Y := obj (wx ("process/" ++ p.tag)) [("base_process", some (txt p.baseProcess)),
  ("manufacturer", some (txt p.manufacturer)), ("power_source", some (txt p.powerSource)),
  ("parameters", some (.map none (p.params.map fun q => (q.1, q.2.tree)))), ("tag", some (txt p.tag)), ("meta", p.info.map (.map none))]

/-- the classes of grooves, `/repo/weldx/welding/groove/iso_9692_1.py` -/
inductive GrooveKind | I | V | VV | UV | U | HV | HU | DV | DU | DHV | DHU | FF
  deriving DecidableEq

/-- the names of the classes -/
def GrooveKind.text : GrooveKind → String
  | .I => "IGroove" | .V => "VGroove" | .VV => "VVGroove" | .UV => "UVGroove" | .U => "UGroove" | .HV => "HVGroove" | .HU => "HUGroove"
  | .DV => "DVGroove" | .DU => "DUGroove" | .DHV => "DHVGroove" | .DHU => "DHUGroove" | .FF => "FFGroove"

/-- the attributes in the order of the classes, lines 254-255, 310-313, 401-406, 493-498, 590-594, 703-706, 805-809, 919-925, 1040-1048,
1161-1167, 1271-1279, 1375-1380 -/
def GrooveKind.names : GrooveKind → List String
  | .I => ["t", "b"]
  | .V => ["t", "alpha", "c", "b"]
  | .VV => ["t", "alpha", "beta", "h", "c", "b"]
  | .UV => ["t", "alpha", "beta", "R", "h", "b"]
  | .U => ["t", "beta", "R", "c", "b"]
  | .HV => ["t", "beta", "c", "b"]
  | .HU => ["t", "beta", "R", "c", "b"]
  | .DV => ["t", "alpha_1", "alpha_2", "c", "h1", "h2", "b"]
  | .DU => ["t", "beta_1", "beta_2", "R", "R2", "c", "h1", "h2", "b"]
  | .DHV => ["t", "beta_1", "beta_2", "c", "h1", "h2", "b"]
  | .DHU => ["t", "beta_1", "beta_2", "R", "R2", "c", "h1", "h2", "b"]
  | .FF => ["t_1", "t_2", "alpha", "b", "e"]

/-- a groove: the value of each attribute (`none` for `None`) and the code numbers (a list of texts or a text) -/
structure Grv where
  kind : GrooveKind
  attr : String → Option Qty
  codes : Option (Sum String (List String))

/-- `iso_9692_1.py` 30-32 -/
def Grv.tree (g : Grv) : Y := obj (wx ("groove/iso_9692_1_2013_12/" ++ g.kind.text))
  (g.kind.names.map (fun a => (a, (g.attr a).map Qty.tree)) ++ [("code_number", g.codes.map fun
    | .inl s => txt s
    | .inr l => txts l)])

/-! ### AWS classes -/

/-- `GasComponent` -/
structure Gas where
  name : String
  percentage : Qty

/-- its tree -/
def Gas.tree (g : Gas) : Y := obj (wx "aws/process/gas_component") [("gas_chemical_name", some (txt g.name)),
  ("gas_percentage", some g.percentage.tree)]

/-- `ShieldingGasType` -/
structure GasType where
  components : List Gas
  name : String
  designation : Option String

/-- its tree -/
def GasType.tree (g : GasType) : Y := obj (wx "aws/process/shielding_gas_type") [("gas_component", some (.list none (g.components.map Gas.tree))),
  ("common_name", some (txt g.name)), ("designation", g.designation.map txt)]

/-- `ShieldingGasForProcedure` -/
structure GasProc where
  useTorch : Bool
  torch : GasType
  torchFlow : Qty
  useBacking : Option Bool
  backing : Option GasType
  backingFlow : Option Qty
  useTrailing : Option Bool
  trailing : Option GasType
  trailingFlow : Option Qty

/-- its tree -/
def GasProc.tree (g : GasProc) : Y := obj (wx "aws/process/shielding_gas_for_procedure") [("use_torch_shielding_gas", some (.bool g.useTorch)),
  ("torch_shielding_gas", some g.torch.tree), ("torch_shielding_gas_flowrate", some g.torchFlow.tree),
  ("use_backing_gas", g.useBacking.map .bool), ("backing_gas", g.backing.map GasType.tree),
  ("backing_gas_flowrate", g.backingFlow.map Qty.tree), ("use_trailing_gas", g.useTrailing.map .bool),
  ("trailing_shielding_gas", g.trailing.map GasType.tree), ("trailing_shielding_gas_flowrate", g.trailingFlow.map Qty.tree)]

/-- `BaseMetal`; texts of the optional attributes -/
structure Metal where
  name : String
  form : String
  thickness : Qty
  mNumber : Option String
  groupNumber : Option String
  diameter : Option Num
  specNumber : Option String
  specVersion : Option String
  specOrganization : Option String
  uns : Option String
  cas : Option String
  heat : Option String
  composition : Option String
  manufacturing : Option String
  service : Option String
  coating : Option String

/-- its tree -/
def Metal.tree (m : Metal) : Y := obj (wx "aws/design/base_metal") [("common_name", some (txt m.name)), ("product_form", some (txt m.form)),
  ("thickness", some m.thickness.tree), ("m_number", m.mNumber.map txt), ("group_number", m.groupNumber.map txt),
  ("diameter", m.diameter.map Num.tree), ("specification_number", m.specNumber.map txt), ("specification_version", m.specVersion.map txt),
  ("specification_organization", m.specOrganization.map txt), ("UNS_number", m.uns.map txt), ("CAS_number", m.cas.map txt),
  ("heat_lot_identification", m.heat.map txt), ("composition", m.composition.map txt), ("manufacturing_history", m.manufacturing.map txt),
  ("service_history", m.service.map txt), ("applied_coating_specification", m.coating.map txt)]

/-- `JointPenetration` -/
structure Penetration where
  complete : String
  root : Qty
  grooveSize : Option Num
  incomplete : Option Num
  size : Option Num
  sizeE1 : Option Num
  sizeE2 : Option Num
  depth : Option Num

/-- its tree -/
def Penetration.tree (p : Penetration) : Y := obj (wx "aws/design/joint_penetration") [("complete_or_partial", some (txt p.complete)),
  ("root_penetration", some p.root.tree), ("groove_weld_size", p.grooveSize.map Num.tree),
  ("incomplete_joint_penetration", p.incomplete.map Num.tree), ("weld_size", p.size.map Num.tree), ("weld_size_E1", p.sizeE1.map Num.tree),
  ("weld_size_E2", p.sizeE2.map Num.tree), ("depth_of_fusion", p.depth.map Num.tree)]

/-- the value of `joint_design`, annotated as text -/
inductive Design
  | text (s : String)
  | groove (g : Grv)

/-- its tree -/
def Design.tree : Design → Y
  | .text s => txt s
  | .groove g => g.tree

/-- `WeldDetails` -/
structure Details where
  design : Design
  sizes : Qty
  passes : Int

/-- its tree -/
def Details.tree (d : Details) : Y := obj (wx "aws/design/weld_details") [("joint_design", some d.design.tree),
  ("weld_sizes", some d.sizes.tree), ("number_of_passes", some (.int d.passes))]

/-- `Connection` -/
structure Conn where
  joint : String
  weld : String
  penetration : Penetration
  details : Details

/-- its tree -/
def Conn.tree (c : Conn) : Y := obj (wx "aws/design/connection") [("joint_type", some (txt c.joint)), ("weld_type", some (txt c.weld)),
  ("joint_penetration", some c.penetration.tree), ("weld_details", some c.details.tree)]

/-- `Workpiece` -/
def workpieceTree (geometry : String) : Y := obj (wx "aws/design/workpiece") [("geometry", some (txt geometry))]

/-- `SubAssembly` -/
structure Assembly where
  pieces : List String
  connection : Conn

/-- its tree -/
def Assembly.tree (a : Assembly) : Y := obj (wx "aws/design/sub_assembly") [("workpiece", some (.list none (a.pieces.map workpieceTree))),
  ("connection", some a.connection.tree)]

/-- `Weldment` -/
def weldmentTree (l : List Assembly) : Y := obj (wx "aws/design/weldment") [("sub_assembly", some (.list none (l.map Assembly.tree)))]

/-- `ArcWeldingProcess` -/
def arcTree (name abbr : String) : Y := obj (wx "aws/process/arc_welding_process") [("name", some (txt name)), ("abbreviation", some (txt abbr))]

end Weldx.Schema
