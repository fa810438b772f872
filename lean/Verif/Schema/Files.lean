import Verif.Schema.Model

/-!
# The schema files (C91)

Source: all files below `/repo/weldx/schemas/weldx.bam.de/weldx/` that belong to a tag, except the test classes in `debug`. The
definitions are produced from the files by a program that drops titles, descriptions, examples, the order of properties and the style of
output (and in `media_file` the unknown keywords `mime_type` and `number`). References to other files and to definitions that are not
recursive are inserted.
-/

namespace Weldx.Schema

/-- a sequence of character classes at the start of a text -/
def startsWith : List (Char → Bool) → List Char → Bool
  | [], _ => true
  | _ :: _, [] => false
  | p :: ps, c :: cs => p c && startsWith ps cs

/-- `re.search` for such a sequence -/
def search (ps : List (Char → Bool)) : List Char → Bool
  | [] => startsWith ps []
  | c :: cs => startsWith ps (c :: cs) || search ps cs

/-- a character of the class `[a-b]` -/
def between (a b c : Char) : Bool := decide (a ≤ c) && decide (c ≤ b)

/-- one character -/
def is (a c : Char) : Bool := decide (c = a)

/-- the pattern of `time/timestamp-0.1.0.yaml`: five alternatives, not anchored -/
def timestampPattern (s : List Char) : Bool :=
  search [between '0' '9', between '0' '9', between '0' '9', between '0' '9', is '-', is '0', between '1' '9'] s ||
  search [is '1', between '0' '2', is '-', is '0', between '1' '9'] s ||
  search [between '1' '2', between '0' '9'] s ||
  search [is '3', between '0' '1', fun c => is 'T' c || is ' ' c, between '0' '1', between '0' '9'] s ||
  search [is '2', between '0' '4', is ':', between '0' '5', between '0' '9', is ':', between '0' '5', between '0' '9'] s

/-- `[0-9a-f]` -/
def isHex (c : Char) : Bool := between '0' '9' c || between 'a' 'f' c

/-- the pattern of `uuid-0.1.0.yaml` (a line break at the end is not considered) -/
def uuidPattern (s : List Char) : Bool :=
  decide (s.length = 36) && startsWith (List.replicate 8 isHex ++ [is '-'] ++ List.replicate 4 isHex ++ [is '-', is '4'] ++
    List.replicate 3 isHex ++ [is '-', fun c => between '8' '9' c || between 'a' 'b' c] ++ List.replicate 3 isHex ++ [is '-'] ++
    List.replicate 12 isHex) s

/-- `aws/design/base_metal-0.1.0.yaml` -/
def awsDesignBaseMetal : S :=
  .all [.type .object, .prop "common_name" (.type .string), .prop "m_number" (.type .string), .prop "group_number" (.type .string),
    .prop "product_form" (.type .string), .prop "thickness" (.tag (.any "units/quantity")), .prop "diameter" (.type .number),
    .prop "specification_number" (.type .string), .prop "specification_version" (.type .string),
    .prop "specification_organization" (.type .string), .prop "UNS_number" (.type .string), .prop "CAS_number" (.type .string),
    .prop "heat_lot_identification" (.type .string), .prop "composition" (.type .string), .prop "manufacturing_history" (.type .string),
    .prop "service_history" (.type .string), .prop "applied_coating_specification" (.type .string), .required ["common_name",
    "product_form", "thickness"]]

/-- `aws/design/joint_penetration-0.1.0.yaml` -/
def awsDesignJointPenetration : S :=
  .all [.type .object, .prop "complete_or_partial" (.all [.type .string, .enum ["completePenetration", "partialPenetration"]]),
    .prop "root_penetration" (.tag (.any "units/quantity")), .prop "groove_weld_size" (.type .number),
    .prop "incomplete_joint_penetration" (.type .number), .prop "weld_size" (.type .number), .prop "weld_size_E1" (.type .number),
    .prop "weld_size_E2" (.type .number), .prop "depth_of_fusion" (.type .number), .required ["complete_or_partial", "root_penetration"]]

/-- `aws/design/weld_details-0.1.0.yaml` -/
def awsDesignWeldDetails : S :=
  .all [.type .object, .prop "joint_design" (.tag .groove), .prop "weld_sizes" (.tag (.any "units/quantity")),
    .prop "number_of_passes" (.type .integer), .required ["joint_design", "weld_sizes", "number_of_passes"]]

/-- `aws/design/connection-0.1.0.yaml` -/
def awsDesignConnection : S :=
  .all [.type .object, .prop "joint_type" (.all [.type .string, .enum ["butt_joint", "corner_joint", "t_joint", "lap_joint",
    "edge_joint", "flanged_butt_joint", "flanged_corner_joint", "flanged_t_joint", "flanged_lap_joint", "flanged_edge_joint"]]),
    .prop "weld_type" (.all [.type .string, .enum ["groove", "fillet", "plug", "slot", "spot", "seam", "flange", "stud", "surfacing",
    "upset", "flash", "bevelGroove", "flareBevelGroove", "doubleBevelGroove", "jGroove", "singleJGroove", "uGroove", "singleUGroove",
    "doubleUGroove", "vGroove", "flareVGroove", "singleVGroove", "doubleVGroove", "squareGroove", "edgeFlange", "braze"]]),
    .prop "joint_penetration" awsDesignJointPenetration, .prop "weld_details" awsDesignWeldDetails, .required ["joint_type", "weld_type",
    "joint_penetration", "weld_details"]]

/-- `aws/design/workpiece-0.1.0.yaml` -/
def awsDesignWorkpiece : S :=
  .all [.type .object, .prop "geometry" (.type .string), .required ["geometry"]]

/-- `aws/design/sub_assembly-0.1.0.yaml` -/
def awsDesignSubAssembly : S :=
  .all [.type .object, .prop "workpiece" (.all [.type .array, .items awsDesignWorkpiece]), .prop "connection" awsDesignConnection,
    .required ["workpiece", "connection"]]

/-- `aws/design/weldment-0.1.0.yaml` -/
def awsDesignWeldment : S :=
  .all [.type .object, .prop "sub_assembly" (.all [.type .array, .items awsDesignSubAssembly]), .required ["sub_assembly"]]

/-- `aws/process/arc_welding_process-0.1.0.yaml` -/
def awsProcessArcWeldingProcess : S :=
  .all [.type .object, .prop "name" (.all [.type .string, .enum ["atomicHydrogenWelding", "bareMetalArcWelding", "carbonArcWelding",
    "carbonArcWeldingGas", "carbonArcWeldingShielded", "electrogasWelding", "electroSlagWelding", "gasMetalArcWelding",
    "gasTungstenArcWelding", "plasmaArcWelding", "shieldedMetalArcWelding", "studArcWelding", "submergedArcWelding",
    "submergedArcWeldingSeries"]]), .prop "abbreviation" (.all [.type .string, .enum ["AHW", "BMAW", "CAW", "CAW-G", "CAW-S", "EGW",
    "ESW", "GMAW", "GTAW", "PAW", "SMAW", "SW", "SAW", "SAW-S"]]), .required ["name", "abbreviation"]]

/-- `aws/process/gas_component-0.1.0.yaml` -/
def awsProcessGasComponent : S :=
  .all [.type .object, .prop "gas_chemical_name" (.all [.type .string, .enum ["argon", "carbon dioxide", "helium", "hydrogen",
    "oxygen"]]), .prop "gas_percentage" (.all [.tag (.any "units/quantity"), .unit "percent"]), .required ["gas_chemical_name",
    "gas_percentage"]]

/-- `aws/process/shielding_gas_type-0.1.0.yaml` -/
def awsProcessShieldingGasType : S :=
  .all [.type .object, .prop "gas_component" (.all [.type .array, .items awsProcessGasComponent]), .prop "common_name" (.type .string),
    .prop "designation" (.type .string), .required ["gas_component", "common_name"]]

/-- `aws/process/shielding_gas_for_procedure-0.1.0.yaml` -/
def awsProcessShieldingGasForProcedure : S :=
  .all [.type .object, .prop "use_torch_shielding_gas" (.type .boolean), .prop "torch_shielding_gas" awsProcessShieldingGasType,
    .prop "torch_shielding_gas_flowrate" (.tag (.any "units/quantity")), .prop "use_backing_gas" (.type .boolean),
    .prop "backing_gas" awsProcessShieldingGasType, .prop "backing_gas_flowrate" (.tag (.any "units/quantity")),
    .prop "use_trailing_gas" (.type .boolean), .prop "trailing_shielding_gas" awsProcessShieldingGasType,
    .prop "trailing_shielding_gas_flowrate" (.tag (.any "units/quantity")), .required ["use_torch_shielding_gas", "torch_shielding_gas",
    "torch_shielding_gas_flowrate"]]

/-- `core/data_array-0.1.0.yaml` -/
def coreDataArray : S :=
  .all [.type .object, .prop "attributes" (.type .object), .prop "coordinates" (.all [.type .array,
    .items (.tag (.any "core/variable"))]), .prop "data" (.tag (.any "core/variable")), .required ["attributes", "coordinates", "data"]]

/-- `core/dataset-0.1.0.yaml` -/
def coreDataset : S :=
  .all [.type .object, .prop "attributes" (.type .object), .prop "dimensions" (.all [.type .array,
    .items (.tag (.any "core/dimension"))]), .prop "coordinates" (.all [.type .array, .items (.tag (.any "core/variable"))]),
    .prop "variables" (.all [.type .array, .items (.tag (.any "core/variable"))]), .required ["dimensions", "coordinates", "variables"]]

/-- `core/dimension-0.1.0.yaml` -/
def coreDimension : S :=
  .all [.type .object, .prop "name" (.type .string), .prop "length" (.type .integer), .required ["name", "length"]]

/-- `core/file-0.1.0.yaml` -/
def coreFile : S :=
  .all [.type .object, .prop "filename" (.type .string), .prop "suffix" (.type .string), .prop "size" (.type .number),
    .prop "created" (.tag (.any "time/timestamp")), .prop "modified" (.tag (.any "time/timestamp")), .prop "hostname" (.type .string),
    .prop "directory" (.type .string), .prop "content" (.tag .ndarray), .prop "content_hash" (.all [.type .object,
    .prop "algorithm" (.all [.type .string, .enum ["MD5", "SHA-256"]]), .prop "value" (.type .string), .required ["algorithm",
    "value"]]), .anyOf [.required ["filename", "content", "content_hash"], .required ["filename", "hostname"]]]

/-- `core/file-0.1.1.yaml` -/
def coreFile1 : S :=
  .all [.type .object, .prop "filename" (.type .string), .prop "suffix" (.type .string), .prop "mime" (.type .string),
    .prop "size" (.type .number), .prop "created" (.tag (.any "time/timestamp")), .prop "modified" (.tag (.any "time/timestamp")),
    .prop "hostname" (.type .string), .prop "directory" (.type .string), .prop "content" (.tag .ndarray),
    .prop "content_hash" (.all [.type .object, .prop "algorithm" (.all [.type .string, .enum ["MD5", "SHA-256"]]),
    .prop "value" (.type .string), .required ["algorithm", "value"]]), .anyOf [.required ["filename", "content", "content_hash"],
    .required ["filename", "hostname"]]]

/-- `core/generic_series-0.1.0.yaml` -/
def coreGenericSeries : S :=
  .oneOf [.all [.type .object, .prop "data" (.tag (.any "units/quantity")), .prop "interpolation" (.type .string),
    .prop "dimensions" (.all [.type .array, .items (.type .string)]), .prop "coordinates" (.all [.type .object,
    .propTag [.any "units/quantity"]]), .required ["data", "dimensions", "coordinates"]], .all [.type .object,
    .prop "expression" (.type .string), .prop "units" (.tag (.any "units/units")), .prop "free_dimensions" (.all [.type .object,
    .propTag [.exact "core/generic_series_free_dimension" 0]]), .prop "parameters" (.all [.type .object, .propTag [.any "units/quantity",
    .any "core/data_array"]]), .required ["expression", "units", "free_dimensions"]]]

/-- `core/generic_series_free_dimension-0.1.0.yaml` -/
def coreGenericSeriesFreeDimension : S :=
  .all [.type .object, .prop "symbol" (.type .string), .prop "units" (.tag (.any "units/units")), .required ["units"]]

/-- `core/geometry/spatial_data-0.1.0.yaml` -/
def coreGeometrySpatialData : S :=
  .all [.type .object, .prop "coordinates" (.all [.tag .ndarray, .prop "datatype" (.all [.type .string, .enum ["float32", "float64"]]),
    .shape (.shape [.str ['(', '~', ')'], .int 3])]), .prop "attributes" (.type .object), .prop "triangles" (.all [.tag .ndarray,
    .prop "datatype" (.all [.type .string, .enum ["uint32", "uint64"]]), .shape (.shape [.str ['(', '~', ')'], .int 3])]),
    .required ["coordinates"]]

/-- `core/geometry/spatial_data-0.1.1.yaml` -/
def coreGeometrySpatialData1 : S :=
  .all [.type .object, .prop "coordinates" (.oneOf [.all [.tag (.any "core/data_array"), .shape (.shape [.str ['.', '.', '.'], .int 3]),
    .unit "m"], .all [.tag (.any "units/quantity"), .shape (.shape [.str ['(', '~', ')'], .int 3]), .unit "m"]]),
    .prop "attributes" (.type .object), .prop "triangles" (.all [.tag .ndarray, .prop "datatype" (.all [.type .string, .enum ["uint32",
    "uint64"]]), .shape (.shape [.str ['(', '~', ')'], .int 3])]), .required ["coordinates"]]

/-- `core/graph/di_edge-0.1.0.yaml` -/
def coreGraphDiEdge : S :=
  .all [.type .object, .prop "direction" (.all [.type .string, .enum ["fwd", "bwd"]]),
    .prop "target_node" (.tag (.any "core/graph/di_node")), .prop "attributes" (.type .object), .required ["target_node"]]

/-- `core/graph/di_graph-0.1.0.yaml` -/
def coreGraphDiGraph : S :=
  .all [.type .object, .prop "root_node" (.tag (.any "core/graph/di_node")), .required ["root_node"]]

/-- `core/graph/di_node-0.1.0.yaml` -/
def coreGraphDiNode : S :=
  .all [.type .object, .prop "name" (.anyOf [.type .string, .tag (.any "uuid")]), .prop "edges" (.all [.type .array,
    .items (.tag (.any "core/graph/di_edge"))]), .prop "attributes" (.type .object)]

/-- `core/mathematical_expression-0.1.0.yaml` -/
def coreMathematicalExpression : S :=
  .all [.type .object, .prop "expression" (.type .string), .prop "parameters" (.all [.type .object, .propTag [.any "units/quantity"]]),
    .required ["expression"]]

/-- `core/media_file-0.1.0.yaml` -/
def coreMediaFile : S :=
  .all [.type .object, .prop "file" (.tag (.exact "core/file" 1)), .prop "reference_time" (.tag (.any "time/timestamp")),
    .prop "fps" (.all [.tag (.exact "units/quantity" 0), .unit "1/s"]), .prop "resolution" (.all [.type .array,
    .items (.type .integer)]), .prop "n_frames" (.type .integer)]

/-- `core/time_series-0.1.0.yaml` -/
def coreTimeSeries : S :=
  .oneOf [.all [.type .object, .prop "value" (.anyOf [.type .number, .type .integer, .tag .ndarray]),
    .prop "units" (.tag (.any "units/units")), .required ["value", "units"]], .all [.type .object,
    .prop "expression" (.tag (.any "core/mathematical_expression")), .prop "units" (.tag (.any "units/units")),
    .prop "shape" (.type .array), .required ["expression", "units"]], .all [.type .object,
    .prop "time" (.tag (.any "time/timedeltaindex")), .prop "units" (.tag (.any "units/units")), .prop "shape" (.type .array),
    .prop "interpolation" (.all [.type .string, .enum ["linear", "step"]]), .prop "values" (.tag .ndarray), .shape (.dict (.cons ['t',
    'i', 'm', 'e'] (.shape [.str ['t']]) (.cons ['v', 'a', 'l', 'u', 'e', 's'] (.shape [.str ['t'], .str ['.', '.', '.']]) .nil))),
    .required ["time", "units", "shape", "interpolation", "values"]]]

/-- `core/time_series-0.1.1.yaml` -/
def coreTimeSeries1 : S :=
  .oneOf [.all [.type .object, .prop "value" (.anyOf [.type .number, .type .integer, .tag .ndarray]),
    .prop "units" (.tag (.any "units/units")), .required ["value", "units"]], .all [.type .object,
    .prop "expression" (.tag (.any "core/mathematical_expression")), .prop "units" (.tag (.any "units/units")),
    .prop "shape" (.type .array), .required ["expression", "units"]], .all [.type .object, .prop "time" (.tag (.any "time/time")),
    .prop "units" (.tag (.any "units/units")), .prop "shape" (.type .array), .prop "interpolation" (.all [.type .string, .enum ["linear",
    "step"]]), .prop "values" (.tag .ndarray), .shape (.dict (.cons ['t', 'i', 'm', 'e'] (.shape [.str ['t']]) (.cons ['v', 'a', 'l',
    'u', 'e', 's'] (.shape [.str ['t'], .str ['.', '.', '.']]) .nil))), .required ["time", "units", "shape", "interpolation", "values"]]]

/-- `core/transformations/coordinate_system_hierarchy-0.1.0.yaml` -/
def coreTransformationsCoordinateSystemHierarchy : S :=
  .all [.type .object, .prop "name" (.type .string), .prop "reference_time" (.tag (.any "time/timestamp")),
    .prop "graph" (.all [.tag (.any "core/graph/di_graph"), .all [.type .object, .prop "root_node" (.ref "coordinate_system_node")]]),
    .prop "subsystems" (.ref "subsystem_info"), .required ["name", "graph"]]

/-- `core/transformations/local_coordinate_system-0.1.0.yaml` -/
def coreTransformationsLocalCoordinateSystem : S :=
  .all [.type .object, .prop "reference_time" (.tag (.any "time/timestamp")), .prop "time" (.tag (.any "time/timedeltaindex")),
    .prop "coordinates" (.oneOf [.tag (.any "core/variable"), .tag (.any "core/time_series")]),
    .prop "orientations" (.tag (.any "core/variable")), .shape (.dict (.cons ['c', 'o', 'o', 'r', 'd', 'i', 'n', 'a', 't', 'e',
    's'] (.shape [.str ['.', '.', '.'], .int 3]) (.cons ['o', 'r', 'i', 'e', 'n', 't', 'a', 't', 'i', 'o', 'n', 's'] (.shape [.str ['(',
    't', ')'], .int 3, .int 3]) .nil)))]

/-- `core/transformations/local_coordinate_system-0.1.1.yaml` -/
def coreTransformationsLocalCoordinateSystem1 : S :=
  .all [.type .object, .prop "reference_time" (.tag (.any "time/timestamp")), .prop "time" (.tag (.any "time/timedeltaindex")),
    .prop "coordinates" (.oneOf [.all [.tag (.any "core/variable"), .unit "m"], .all [.tag (.any "core/time_series"), .unit "m"]]),
    .prop "orientations" (.tag (.any "core/variable")), .shape (.dict (.cons ['c', 'o', 'o', 'r', 'd', 'i', 'n', 'a', 't', 'e',
    's'] (.shape [.str ['.', '.', '.'], .int 3]) (.cons ['o', 'r', 'i', 'e', 'n', 't', 'a', 't', 'i', 'o', 'n', 's'] (.shape [.str ['(',
    't', ')'], .int 3, .int 3]) .nil)))]

/-- `core/transformations/rotation-0.1.0.yaml` -/
def coreTransformationsRotation : S :=
  .oneOf [.all [.type .object, .prop "quaternions" (.all [.tag .ndarray, .shape (.shape [.str ['.', '.', '.'], .int 4])]),
    .required ["quaternions"], .closed ["quaternions"]], .all [.type .object, .prop "matrix" (.all [.tag .ndarray,
    .shape (.shape [.str ['.', '.', '.'], .int 3, .int 3])]), .required ["matrix"], .closed ["matrix"]], .all [.type .object,
    .prop "rotvec" (.all [.tag .ndarray, .shape (.shape [.str ['.', '.', '.'], .int 3])]), .required ["rotvec"], .closed ["rotvec"]],
    .all [.type .object, .prop "sequence" (.type .string), .prop "angles" (.all [.tag (.any "units/quantity"), .unit "degree"]),
    .required ["sequence", "angles"], .closed ["sequence", "angles"]]]

/-- `core/variable-0.1.0.yaml` -/
def coreVariable : S :=
  .all [.type .object, .prop "name" (.type .string), .prop "dimensions" (.type .array), .prop "dtype" (.type .string),
    .prop "data" (.oneOf [.tag .ndarray, .type .number]), .prop "units" (.tag (.any "units/units")), .prop "attrs" (.type .object),
    .required ["name", "dimensions", "dtype", "data"]]

/-- `core/variable-0.1.1.yaml` -/
def coreVariable1 : S :=
  .all [.type .object, .prop "name" (.type .string), .prop "dimensions" (.type .array), .prop "dtype" (.type .string),
    .prop "data" (.oneOf [.tag .ndarray, .type .number, .type .string]), .prop "units" (.tag (.any "units/units")),
    .prop "attrs" (.type .object), .required ["name", "dimensions", "dtype", "data"]]

/-- `equipment/measurement_equipment-0.1.0.yaml` -/
def equipmentMeasurementEquipment : S :=
  .all [.type .object, .prop "name" (.type .string), .prop "sources" (.all [.type .array, .items (.tag (.any "measurement/source"))]),
    .prop "transformations" (.all [.type .array, .items (.tag (.any "measurement/signal_transformation"))]), .required ["name"]]

/-- `groove/iso_9692_1_2013_12/DHUGroove-0.1.0.yaml` -/
def grooveIso96921201312DHUGroove : S :=
  .all [.type .object, .prop "t" (.all [.tag (.any "units/quantity"), .unit "mm"]), .prop "beta_1" (.all [.tag (.any "units/quantity"),
    .unit "deg"]), .prop "beta_2" (.all [.tag (.any "units/quantity"), .unit "deg"]), .prop "R" (.all [.tag (.any "units/quantity"),
    .unit "mm"]), .prop "R2" (.all [.tag (.any "units/quantity"), .unit "mm"]), .prop "b" (.all [.tag (.any "units/quantity"),
    .unit "mm"]), .prop "c" (.all [.tag (.any "units/quantity"), .unit "mm"]), .prop "h1" (.all [.tag (.any "units/quantity"),
    .unit "mm"]), .prop "h2" (.all [.tag (.any "units/quantity"), .unit "mm"]), .required ["t", "beta_1", "beta_2", "b", "c"]]

/-- `groove/iso_9692_1_2013_12/DHVGroove-0.1.0.yaml` -/
def grooveIso96921201312DHVGroove : S :=
  .all [.type .object, .prop "t" (.all [.tag (.any "units/quantity"), .unit "mm"]), .prop "beta_1" (.all [.tag (.any "units/quantity"),
    .unit "deg"]), .prop "beta_2" (.all [.tag (.any "units/quantity"), .unit "deg"]), .prop "b" (.all [.tag (.any "units/quantity"),
    .unit "mm"]), .prop "c" (.all [.tag (.any "units/quantity"), .unit "mm"]), .prop "h1" (.all [.tag (.any "units/quantity"),
    .unit "mm"]), .prop "h2" (.all [.tag (.any "units/quantity"), .unit "mm"]), .required ["t", "beta_1", "beta_2", "b", "c"]]

/-- `groove/iso_9692_1_2013_12/DUGroove-0.1.0.yaml` -/
def grooveIso96921201312DUGroove : S :=
  .all [.type .object, .prop "t" (.all [.tag (.any "units/quantity"), .unit "mm"]), .prop "beta_1" (.all [.tag (.any "units/quantity"),
    .unit "deg"]), .prop "beta_2" (.all [.tag (.any "units/quantity"), .unit "deg"]), .prop "R" (.all [.tag (.any "units/quantity"),
    .unit "mm"]), .prop "R2" (.all [.tag (.any "units/quantity"), .unit "mm"]), .prop "b" (.all [.tag (.any "units/quantity"),
    .unit "mm"]), .prop "c" (.all [.tag (.any "units/quantity"), .unit "mm"]), .prop "h1" (.all [.tag (.any "units/quantity"),
    .unit "mm"]), .prop "h2" (.all [.tag (.any "units/quantity"), .unit "mm"]), .required ["t", "beta_1", "beta_2", "R", "R2", "b", "c"]]

/-- `groove/iso_9692_1_2013_12/DVGroove-0.1.0.yaml` -/
def grooveIso96921201312DVGroove : S :=
  .all [.type .object, .prop "t" (.all [.tag (.any "units/quantity"), .unit "mm"]), .prop "alpha_1" (.all [.tag (.any "units/quantity"),
    .unit "deg"]), .prop "alpha_2" (.all [.tag (.any "units/quantity"), .unit "deg"]), .prop "b" (.all [.tag (.any "units/quantity"),
    .unit "mm"]), .prop "c" (.all [.tag (.any "units/quantity"), .unit "mm"]), .prop "h1" (.all [.tag (.any "units/quantity"),
    .unit "mm"]), .prop "h2" (.all [.tag (.any "units/quantity"), .unit "mm"]), .required ["t", "alpha_1", "alpha_2", "b", "c"]]

/-- `groove/iso_9692_1_2013_12/FFGroove-0.1.0.yaml` -/
def grooveIso96921201312FFGroove : S :=
  .all [.type .object, .prop "t_1" (.all [.tag (.any "units/quantity"), .unit "mm"]), .prop "t_2" (.all [.tag (.any "units/quantity"),
    .unit "mm"]), .prop "alpha" (.all [.tag (.any "units/quantity"), .unit "deg"]), .prop "b" (.all [.tag (.any "units/quantity"),
    .unit "mm"]), .prop "e" (.all [.tag (.any "units/quantity"), .unit "mm"]), .required ["t_1"]]

/-- `groove/iso_9692_1_2013_12/HUGroove-0.1.0.yaml` -/
def grooveIso96921201312HUGroove : S :=
  .all [.type .object, .prop "t" (.all [.tag (.any "units/quantity"), .unit "mm"]), .prop "beta" (.all [.tag (.any "units/quantity"),
    .unit "deg"]), .prop "R" (.all [.tag (.any "units/quantity"), .unit "mm"]), .prop "b" (.all [.tag (.any "units/quantity"),
    .unit "mm"]), .prop "c" (.all [.tag (.any "units/quantity"), .unit "mm"]), .required ["t", "beta", "R", "b", "c"]]

/-- `groove/iso_9692_1_2013_12/HVGroove-0.1.0.yaml` -/
def grooveIso96921201312HVGroove : S :=
  .all [.type .object, .prop "t" (.all [.tag (.any "units/quantity"), .unit "mm"]), .prop "beta" (.all [.tag (.any "units/quantity"),
    .unit "deg"]), .prop "b" (.all [.tag (.any "units/quantity"), .unit "mm"]), .prop "c" (.all [.tag (.any "units/quantity"),
    .unit "mm"]), .required ["t", "beta", "b", "c"]]

/-- `groove/iso_9692_1_2013_12/IGroove-0.1.0.yaml` -/
def grooveIso96921201312IGroove : S :=
  .all [.type .object, .prop "t" (.all [.tag (.any "units/quantity"), .unit "mm"]), .prop "b" (.all [.tag (.any "units/quantity"),
    .unit "mm"]), .required ["t", "b"]]

/-- `groove/iso_9692_1_2013_12/UGroove-0.1.0.yaml` -/
def grooveIso96921201312UGroove : S :=
  .all [.type .object, .prop "t" (.all [.tag (.any "units/quantity"), .unit "mm"]), .prop "beta" (.all [.tag (.any "units/quantity"),
    .unit "deg"]), .prop "R" (.all [.tag (.any "units/quantity"), .unit "mm"]), .prop "b" (.all [.tag (.any "units/quantity"),
    .unit "mm"]), .prop "c" (.all [.tag (.any "units/quantity"), .unit "mm"]), .required ["t", "beta", "R", "b", "c"]]

/-- `groove/iso_9692_1_2013_12/UVGroove-0.1.0.yaml` -/
def grooveIso96921201312UVGroove : S :=
  .all [.type .object, .prop "t" (.all [.tag (.any "units/quantity"), .unit "mm"]), .prop "alpha" (.all [.tag (.any "units/quantity"),
    .unit "deg"]), .prop "beta" (.all [.tag (.any "units/quantity"), .unit "deg"]), .prop "R" (.all [.tag (.any "units/quantity"),
    .unit "mm"]), .prop "b" (.all [.tag (.any "units/quantity"), .unit "mm"]), .prop "h" (.all [.tag (.any "units/quantity"),
    .unit "mm"]), .required ["t", "alpha", "beta", "R", "b", "h"]]

/-- `groove/iso_9692_1_2013_12/VGroove-0.1.0.yaml` -/
def grooveIso96921201312VGroove : S :=
  .all [.type .object, .prop "t" (.all [.tag (.any "units/quantity"), .unit "mm"]), .prop "alpha" (.all [.tag (.any "units/quantity"),
    .unit "deg"]), .prop "b" (.all [.tag (.any "units/quantity"), .unit "mm"]), .prop "c" (.all [.tag (.any "units/quantity"),
    .unit "mm"]), .required ["t", "alpha", "b", "c"]]

/-- `groove/iso_9692_1_2013_12/VVGroove-0.1.0.yaml` -/
def grooveIso96921201312VVGroove : S :=
  .all [.type .object, .prop "t" (.all [.tag (.any "units/quantity"), .unit "mm"]), .prop "alpha" (.all [.tag (.any "units/quantity"),
    .unit "deg"]), .prop "beta" (.all [.tag (.any "units/quantity"), .unit "deg"]), .prop "b" (.all [.tag (.any "units/quantity"),
    .unit "mm"]), .prop "c" (.all [.tag (.any "units/quantity"), .unit "mm"]), .prop "h" (.all [.tag (.any "units/quantity"),
    .unit "mm"]), .required ["t", "alpha", "beta", "b", "c", "h"]]

/-- `measurement/error-0.1.0.yaml` -/
def measurementError : S :=
  .all [.type .object, .prop "deviation" (.oneOf [.type .number, .tag (.any "units/quantity")]), .required ["deviation"]]

/-- `measurement/measurement-0.1.0.yaml` -/
def measurementMeasurement : S :=
  .all [.type .object, .prop "name" (.type .string), .prop "data" (.all [.type .array, .items (.tag (.any "core/time_series"))]),
    .prop "measurement_chain" (.tag (.any "measurement/measurement_chain")), .required ["name", "data"]]

/-- `measurement/measurement_chain-0.1.0.yaml` -/
def measurementMeasurementChain : S :=
  .all [.type .object, .prop "name" (.type .string), .prop "data_source" (.tag (.any "measurement/source")),
    .prop "graph" (.all [.tag (.any "core/graph/di_graph"), .all [.type .object, .prop "root_node" (.ref "signal_node")]]),
    .prop "source_equipment" (.tag (.any "equipment/measurement_equipment")), .required ["name", "data_source", "graph"]]

/-- `measurement/signal-0.1.0.yaml` -/
def measurementSignal : S :=
  .all [.type .object, .prop "signal_type" (.all [.type .string, .enum ["analog", "digital"]]),
    .prop "units" (.tag (.any "units/units")), .prop "data" (.tag (.any "core/time_series")), .required ["signal_type", "units"]]

/-- `measurement/signal_transformation-0.1.0.yaml` -/
def measurementSignalTransformation : S :=
  .all [.type .object, .prop "name" (.type .string), .prop "error" (.tag (.any "measurement/error")),
    .prop "func" (.tag (.any "core/mathematical_expression")), .prop "type_transformation" (.all [.type .string, .enum ["AA", "AD", "DA",
    "DD"]]), .anyOf [.required ["name", "error", "func"], .required ["name", "error", "type_transformation"]]]

/-- `measurement/source-0.1.0.yaml` -/
def measurementSource : S :=
  .all [.type .object, .prop "name" (.type .string), .prop "output_signal" (.tag (.any "measurement/signal")),
    .prop "error" (.tag (.any "measurement/error")), .required ["name", "output_signal"]]

/-- `process/CLOOS/pulse-0.1.0.yaml` -/
def processCLOOSPulse : S :=
  .all [.all [.type .object, .prop "base_process" (.type .string), .prop "manufacturer" (.type .string),
    .prop "power_source" (.type .string), .prop "parameters" (.all [.type .object, .propTag [.any "core/time_series"]]),
    .prop "meta" (.type .object), .required ["base_process", "manufacturer", "power_source", "parameters"]], .oneOf [.all [.type .object,
    .prop "base_process" (.all [.type .string, .enum ["pulse"]]), .prop "parameters" (.all [.type .object,
    .prop "wire_feedrate" (.all [.tag (.any "core/time_series"), .unit "m/s"]),
    .prop "pulse_voltage" (.all [.tag (.any "core/time_series"), .unit "V"]),
    .prop "pulse_duration" (.all [.tag (.any "core/time_series"), .unit "s"]),
    .prop "pulse_frequency" (.all [.tag (.any "core/time_series"), .unit "Hz"]),
    .prop "base_current" (.all [.tag (.any "core/time_series"), .unit "A"]), .required ["wire_feedrate", "pulse_voltage",
    "pulse_duration", "pulse_frequency", "base_current"]]), .prop "meta" (.all [.type .object, .prop "modulation" (.all [.type .string,
    .enum ["UI"]]), .required ["modulation"]])], .all [.type .object, .prop "base_process" (.all [.type .string, .enum ["pulse"]]),
    .prop "parameters" (.all [.type .object, .prop "wire_feedrate" (.all [.tag (.any "core/time_series"), .unit "m/s"]),
    .prop "pulse_current" (.all [.tag (.any "core/time_series"), .unit "A"]),
    .prop "pulse_duration" (.all [.tag (.any "core/time_series"), .unit "s"]),
    .prop "pulse_frequency" (.all [.tag (.any "core/time_series"), .unit "Hz"]),
    .prop "base_current" (.all [.tag (.any "core/time_series"), .unit "A"]), .required ["wire_feedrate", "pulse_current",
    "pulse_duration", "pulse_frequency", "base_current"]]), .prop "meta" (.all [.type .object, .prop "modulation" (.all [.type .string,
    .enum ["II"]]), .required ["modulation"]])]]]

/-- `process/CLOOS/spray_arc-0.1.0.yaml` -/
def processCLOOSSprayArc : S :=
  .all [.all [.all [.type .object, .prop "base_process" (.type .string), .prop "manufacturer" (.type .string),
    .prop "power_source" (.type .string), .prop "parameters" (.all [.type .object, .propTag [.any "core/time_series"]]),
    .prop "meta" (.type .object), .required ["base_process", "manufacturer", "power_source", "parameters"]], .all [.type .object,
    .prop "base_process" (.all [.type .string, .enum ["spray"]]), .prop "parameters" (.all [.type .object,
    .prop "wire_feedrate" (.all [.tag (.any "core/time_series"), .unit "m/s"]), .prop "voltage" (.all [.tag (.any "core/time_series"),
    .unit "V"]), .required ["wire_feedrate", "voltage"]])]], .all [.type .object, .prop "parameters" (.all [.type .object,
    .prop "impedance" (.all [.tag (.any "core/time_series"), .unit "percent"]),
    .prop "characteristic" (.all [.tag (.any "core/time_series"), .unit "V/A"]), .required ["impedance", "characteristic"]])]]

/-- `process/GMAW-0.1.0.yaml` -/
def processGMAW : S :=
  .all [.type .object, .prop "base_process" (.type .string), .prop "manufacturer" (.type .string), .prop "power_source" (.type .string),
    .prop "parameters" (.all [.type .object, .propTag [.any "core/time_series"]]), .prop "meta" (.type .object),
    .required ["base_process", "manufacturer", "power_source", "parameters"]]

/-- `time/timestamp-0.1.0.yaml` -/
def timeTimestamp : S :=
  .all [.type .string, .pattern timestampPattern]

/-- `time/datetimeindex-0.1.0.yaml` -/
def timeDatetimeindex : S :=
  .oneOf [.all [.type .object, .prop "values" (.tag .ndarray), .prop "start" timeTimestamp, .prop "end" timeTimestamp,
    .prop "freq" (.type .string), .prop "min" timeTimestamp, .prop "max" timeTimestamp, .required ["values"]], .all [.type .object,
    .prop "start" timeTimestamp, .prop "end" timeTimestamp, .prop "freq" (.type .string), .prop "min" timeTimestamp,
    .prop "max" timeTimestamp, .required ["start", "end", "freq"]]]

/-- `time/time-0.1.0.yaml` -/
def timeTime : S :=
  .all [.type .object, .prop "values" (.oneOf [.tag (.any "time/timedelta"), .tag (.any "time/timedeltaindex"),
    .tag (.any "time/timestamp"), .tag (.any "time/datetimeindex")]), .prop "reference_time" (.tag (.any "time/timestamp")),
    .required ["values"]]

/-- `time/timedelta-0.1.0.yaml` -/
def timeTimedelta : S :=
  .all [.type .string, .tag (.exact "time/timedelta" 0)]

/-- `time/timedeltaindex-0.1.0.yaml` -/
def timeTimedeltaindex : S :=
  .oneOf [.all [.type .object, .prop "values" (.tag .ndarray), .prop "start" timeTimedelta, .prop "end" timeTimedelta,
    .prop "freq" (.type .string), .prop "min" timeTimedelta, .prop "max" timeTimedelta, .required ["values"]], .all [.type .object,
    .prop "start" timeTimedelta, .prop "end" timeTimedelta, .prop "freq" (.type .string), .prop "min" timeTimedelta,
    .prop "max" timeTimedelta, .required ["start", "end", "freq"]]]

/-- `units/quantity-0.1.0.yaml` -/
def unitsQuantity : S :=
  .all [.type .object, .prop "value" (.oneOf [.type .number, .tag .ndarray]), .prop "units" (.tag (.any "units/units")),
    .required ["value", "units"]]

/-- `units/units-0.1.0.yaml` -/
def unitsUnits : S :=
  .all [.type .string, .tag (.any "units/units")]

/-- `uuid-0.1.0.yaml` -/
def uuid : S :=
  .all [.type .string, .tag (.any "uuid"), .pattern uuidPattern]

/-- `core/transformations/coordinate_system_hierarchy-0.1.0.yaml`, `definitions/coordinate_system_node` -/
def coordinateSystemNode : S :=
  .all [.tag (.any "core/graph/di_node"), .all [.type .object, .prop "attributes" (.all [.type .object,
    .prop "data" (.all [.type .object, .anyOf [.propTag [.any "core/data_array"], .propTag [.any "core/geometry/spatial_data"]]])]),
    .prop "edges" (.all [.type .array, .items (.ref "coordinate_transformation_edge")]), .required ["attributes"]]]

/-- `core/transformations/coordinate_system_hierarchy-0.1.0.yaml`, `definitions/coordinate_transformation_edge` -/
def coordinateTransformationEdge : S :=
  .all [.tag (.any "core/graph/di_edge"), .all [.type .object, .prop "attributes" (.all [.type .object,
    .prop "transformation" (.tag (.any "core/transformations/local_coordinate_system")), .required ["transformation"]]),
    .prop "target_node" (.ref "coordinate_system_node"), .required ["attributes"]]]

/-- `core/transformations/coordinate_system_hierarchy-0.1.0.yaml`, `definitions/subsystem_info` -/
def subsystemInfo : S :=
  .all [.type .array, .items (.all [.type .object, .prop "name" (.type .string), .prop "reference_time" (.tag (.any "time/timestamp")),
    .prop "common_node" (.type .string), .prop "root_node" (.type .string), .prop "members" (.all [.type .array,
    .items (.type .string)]), .prop "data" (.all [.type .array, .items (.type .string)]), .prop "subsystems" (.ref "subsystem_info")])]

/-- `measurement/measurement_chain-0.1.0.yaml`, `definitions/signal_node` -/
def signalNode : S :=
  .all [.tag (.any "core/graph/di_node"), .all [.type .object, .prop "attributes" (.all [.type .object,
    .prop "signal" (.tag (.any "measurement/signal")), .required ["signal"]]), .prop "edges" (.all [.type .array,
    .items (.ref "signal_transform_edge"), .maxItems 1]), .required ["attributes"]]]

/-- `measurement/measurement_chain-0.1.0.yaml`, `definitions/signal_transform_edge` -/
def signalTransformEdge : S :=
  .all [.tag (.any "core/graph/di_edge"), .all [.type .object, .prop "attributes" (.all [.type .object,
    .prop "transformation" (.tag (.any "measurement/signal_transformation")),
    .prop "equipment" (.tag (.any "equipment/measurement_equipment")), .required ["transformation"]]),
    .prop "target_node" (.ref "signal_node"), .prop "direction" (.enum ["fwd"]), .required ["attributes"]]]

/-- the definitions to which recursive references point -/
def defs (n : String) : Option S :=
  if n = "coordinate_system_node" then some coordinateSystemNode
  else if n = "coordinate_transformation_edge" then some coordinateTransformationEdge
  else if n = "subsystem_info" then some subsystemInfo
  else if n = "signal_node" then some signalNode
  else if n = "signal_transform_edge" then some signalTransformEdge
  else none

/-- the schemas with their tags, as in the manifests of the project -/
def table : List ((String × Nat) × S) := [
  (("aws/design/base_metal", 0), awsDesignBaseMetal),
  (("aws/design/joint_penetration", 0), awsDesignJointPenetration),
  (("aws/design/weld_details", 0), awsDesignWeldDetails),
  (("aws/design/connection", 0), awsDesignConnection),
  (("aws/design/workpiece", 0), awsDesignWorkpiece),
  (("aws/design/sub_assembly", 0), awsDesignSubAssembly),
  (("aws/design/weldment", 0), awsDesignWeldment),
  (("aws/process/arc_welding_process", 0), awsProcessArcWeldingProcess),
  (("aws/process/gas_component", 0), awsProcessGasComponent),
  (("aws/process/shielding_gas_type", 0), awsProcessShieldingGasType),
  (("aws/process/shielding_gas_for_procedure", 0), awsProcessShieldingGasForProcedure),
  (("core/data_array", 0), coreDataArray),
  (("core/dataset", 0), coreDataset),
  (("core/dimension", 0), coreDimension),
  (("core/file", 0), coreFile),
  (("core/file", 1), coreFile1),
  (("core/generic_series", 0), coreGenericSeries),
  (("core/generic_series_free_dimension", 0), coreGenericSeriesFreeDimension),
  (("core/geometry/spatial_data", 0), coreGeometrySpatialData),
  (("core/geometry/spatial_data", 1), coreGeometrySpatialData1),
  (("core/graph/di_edge", 0), coreGraphDiEdge),
  (("core/graph/di_graph", 0), coreGraphDiGraph),
  (("core/graph/di_node", 0), coreGraphDiNode),
  (("core/mathematical_expression", 0), coreMathematicalExpression),
  (("core/media_file", 0), coreMediaFile),
  (("core/time_series", 0), coreTimeSeries),
  (("core/time_series", 1), coreTimeSeries1),
  (("core/transformations/coordinate_system_hierarchy", 0), coreTransformationsCoordinateSystemHierarchy),
  (("core/transformations/local_coordinate_system", 0), coreTransformationsLocalCoordinateSystem),
  (("core/transformations/local_coordinate_system", 1), coreTransformationsLocalCoordinateSystem1),
  (("core/transformations/rotation", 0), coreTransformationsRotation),
  (("core/variable", 0), coreVariable),
  (("core/variable", 1), coreVariable1),
  (("equipment/measurement_equipment", 0), equipmentMeasurementEquipment),
  (("groove/iso_9692_1_2013_12/DHUGroove", 0), grooveIso96921201312DHUGroove),
  (("groove/iso_9692_1_2013_12/DHVGroove", 0), grooveIso96921201312DHVGroove),
  (("groove/iso_9692_1_2013_12/DUGroove", 0), grooveIso96921201312DUGroove),
  (("groove/iso_9692_1_2013_12/DVGroove", 0), grooveIso96921201312DVGroove),
  (("groove/iso_9692_1_2013_12/FFGroove", 0), grooveIso96921201312FFGroove),
  (("groove/iso_9692_1_2013_12/HUGroove", 0), grooveIso96921201312HUGroove),
  (("groove/iso_9692_1_2013_12/HVGroove", 0), grooveIso96921201312HVGroove),
  (("groove/iso_9692_1_2013_12/IGroove", 0), grooveIso96921201312IGroove),
  (("groove/iso_9692_1_2013_12/UGroove", 0), grooveIso96921201312UGroove),
  (("groove/iso_9692_1_2013_12/UVGroove", 0), grooveIso96921201312UVGroove),
  (("groove/iso_9692_1_2013_12/VGroove", 0), grooveIso96921201312VGroove),
  (("groove/iso_9692_1_2013_12/VVGroove", 0), grooveIso96921201312VVGroove),
  (("measurement/error", 0), measurementError),
  (("measurement/measurement", 0), measurementMeasurement),
  (("measurement/measurement_chain", 0), measurementMeasurementChain),
  (("measurement/signal", 0), measurementSignal),
  (("measurement/signal_transformation", 0), measurementSignalTransformation),
  (("measurement/source", 0), measurementSource),
  (("process/CLOOS/pulse", 0), processCLOOSPulse),
  (("process/CLOOS/spray_arc", 0), processCLOOSSprayArc),
  (("process/GMAW", 0), processGMAW),
  (("time/timestamp", 0), timeTimestamp),
  (("time/datetimeindex", 0), timeDatetimeindex),
  (("time/time", 0), timeTime),
  (("time/timedelta", 0), timeTimedelta),
  (("time/timedeltaindex", 0), timeTimedeltaindex),
  (("units/quantity", 0), unitsQuantity),
  (("units/units", 0), unitsUnits),
  (("uuid", 0), uuid)]

/-- the schema of a tag -/
def schemaOf : Tag → Option S
  | .wx n k => Dict.get? table (n, k)
  | _ => none

end Weldx.Schema
