{
 "claims": [
  {
   "property": "C01",
   "status": "proved",
   "theorems": [
    "Weldx.C01_add_composes",
    "Weldx.C01_add_assoc",
    "Weldx.C01_default_neutral"
   ],
   "note": "exact arithmetic (with rounding: C107); static systems"
  },
  {
   "property": "C02",
   "status": "proved",
   "theorems": [
    "Weldx.C02_invert_inverse",
    "Weldx.C02_invert_invert",
    "Weldx.C02_add_sub_cancel",
    "Weldx.C02_sub_relative",
    "Weldx.C02_sub_formula"
   ],
   "note": "exact arithmetic (with rounding: C107); static systems"
  },
  {
   "property": "C03",
   "status": "proved",
   "theorems": [
    "Weldx.C03_orthonormal_closed",
    "Weldx.C03_handedness",
    "Weldx.C03_isometry",
    "Weldx.C03_construct_iff",
    "Weldx.C03_construct_result"
   ],
   "note": "constructor over the real numbers, tolerance of the orthogonality test idealised to equality"
  },
  {
   "property": "C04",
   "status": "proved",
   "theorems": [
    "Weldx.C04_from_two_axes",
    "Weldx.C04_too_few_axes",
    "Weldx.C04_from_three_axes"
   ],
   "note": ""
  },
  {
   "property": "C05",
   "status": "proved",
   "theorems": [
    "Weldx.Csm.C05_tree",
    "Weldx.Csm.C05_links"
   ],
   "note": "relabel and interp_time are separate, see C17"
  },
  {
   "property": "C06",
   "status": "proved",
   "theorems": [
    "Weldx.Csm.C06_get_cs_path",
    "Weldx.Csm.C06_composition_unique",
    "Weldx.Csm.C06_order_independent",
    "Weldx.Csm.C06_missing_and_default"
   ],
   "note": "systems that can be evaluated (Coherent); static systems always can"
  },
  {
   "property": "C07",
   "status": "proved",
   "theorems": [
    "Weldx.Csm.C07_group_laws"
   ],
   "note": "in any group of transformations; for time dependent systems evaluated between samples see C23"
  },
  {
   "property": "C08",
   "status": "proved",
   "theorems": [
    "Weldx.Csm.C08_transform_data",
    "Weldx.Csm.C08_points"
   ],
   "note": ""
  },
  {
   "property": "C09",
   "status": "proved",
   "theorems": [
    "Weldx.Csm.C09_parent",
    "Weldx.Csm.C09_parent_child",
    "Weldx.Csm.C09_neighbors",
    "Weldx.Csm.C09_all_children",
    "Weldx.Csm.C09_unknown"
   ],
   "note": ""
  },
  {
   "property": "C10",
   "status": "proved",
   "theorems": [
    "Weldx.Csm.C10_delete_exact",
    "Weldx.Csm.C10_delete_keeps_relations",
    "Weldx.Csm.C10_delete_succeeds",
    "Weldx.Csm.C10_remove_missing",
    "Weldx.Csm.C10_delete_records"
   ],
   "note": ""
  },
  {
   "property": "C11",
   "status": "partial",
   "theorems": [
    "Weldx.Csm.C11_rejected_unchanged",
    "Weldx.Csm.C11_delete_data_partial",
    "Weldx.Csm.C11_delete_data_counterexample",
    "Weldx.Csm.C11_subsystem_calls_succeed"
   ],
   "note": "all mutating calls except delete_data (and relabel, C17): proved. delete_data: proved for systems, relations and data, false for subsystem records (machine-checked counterexample)"
  },
  {
   "property": "C12",
   "status": "proved",
   "theorems": [
    "Weldx.Csm.C12_add_changes_only_link",
    "Weldx.Csm.C12_new_system",
    "Weldx.Csm.C12_add_succeeds"
   ],
   "note": ""
  },
  {
   "property": "C13",
   "status": "proved",
   "theorems": [
    "Weldx.Csm.C13_data_consistent",
    "Weldx.Csm.C13_has_data_unknown",
    "Weldx.Csm.C13_assign",
    "Weldx.Csm.C13_delete",
    "Weldx.Csm.C13_get_data"
   ],
   "note": ""
  },
  {
   "property": "C14",
   "status": "proved",
   "theorems": [
    "Weldx.Csm.C14_merge_accepted",
    "Weldx.Csm.C14_merge_union",
    "Weldx.Csm.C14_merge_transformations"
   ],
   "note": ""
  },
  {
   "property": "C15",
   "status": "partial",
   "theorems": [
    "Weldx.Csm.C15_same_content_same_answers",
    "Weldx.Csm.C15_last_merged_is_extracted",
    "Weldx.Csm.C15_unmerge_restores_partial",
    "Weldx.Csm.C15_merge_unmerge",
    "Weldx.Csm.C15_unmerge_counterexample"
   ],
   "note": "any number of merges followed by unmerge: proved under the condition that a later manager has no data at a system shared only with an earlier merged one; without it false (counterexample). Changes between merge and unmerge are in C97"
  },
  {
   "property": "C16",
   "status": "partial",
   "theorems": [
    "Weldx.Csm.C16_add_accepted",
    "Weldx.Csm.C16_merge_accepted",
    "Weldx.Csm.C16_no_mixture_partial",
    "Weldx.Csm.C16_merge_counterexample"
   ],
   "note": "proved for all calls except merging a manager with own reference time, where it is false (counterexample)"
  },
  {
   "property": "C17",
   "status": "partial",
   "theorems": [
    "Weldx.Csm.C17_rename",
    "Weldx.Csm.C17_answers",
    "Weldx.Csm.C17_subsystems",
    "Weldx.Csm.C17_cycle",
    "Weldx.Csm.C17_cycle_counterexample",
    "Weldx.Csm.C17_collision_counterexample"
   ],
   "note": "Mappings without cycles that give different names to different systems rename every reachable manager without subsystems; relations, parents and data are found under the new names (C17_rename, C17_answers). Managers with subsystems raise without a change (C17_subsystems). Negations: a mapping with a cycle raises after the root has been changed (C17_cycle, C17_cycle_counterexample); a new name that is in use silently drops a system with its data (C17_collision_counterexample). The topological sort of networkx is specified, not modelled."
  },
  {
   "property": "C18",
   "status": "partial",
   "theorems": [
    "Weldx.Csm.C18_content",
    "Weldx.Csm.C18_series_counterexample",
    "Weldx.Csm.C18_not_tree",
    "Weldx.Csm.C18_single_counterexample",
    "Weldx.Csm.C18_roundtrip",
    "Weldx.Csm.C18_built",
    "Weldx.Csm.C18_root_counterexample"
   ],
   "note": "Managers built by the user (every operation but extraction of subsystems) with two or more systems and without systems given by expressions are written and read without any change (C18_built). Every other reachable manager with at least two systems and no expressions keeps its content, only the root may change (C18_content). Negations: a single system cannot be written (C18_single_counterexample), expressions make reading fail (C18_series_counterexample), extracted subsystems lose their root (C18_root_counterexample)."
  },
  {
   "property": "C19",
   "status": "partial",
   "theorems": [
    "Weldx.Csm.C19_merge",
    "Weldx.Csm.C19_new_record",
    "Weldx.Csm.C19_shared",
    "Weldx.Csm.C19_apart",
    "Weldx.Csm.C19_assign",
    "Weldx.Csm.C19_delete",
    "Weldx.Csm.C19_duplicate",
    "Weldx.Csm.C19_systems",
    "Weldx.Csm.C19_records",
    "Weldx.Csm.C19_alone",
    "Weldx.Csm.C19_shared_target",
    "Weldx.Csm.C19_apart_target",
    "Weldx.Csm.C19_alone_target",
    "Weldx.Csm.C19_assign_target"
   ],
   "note": "Refuted as stated, on a heap model of the objects: all systems of the merged-in manager but the common one have one data dictionary for both managers, so that both show the same data after any history of data operations (C19_shared); assigning (C19_assign) and deleting (C19_delete) in one is seen in the other, names of data stop being unique (C19_duplicate), and a further merge of the merged-in manager changes its record in the other one (C19_records). What holds: the merge itself leaves the other manager unchanged and shows the merge of the contents (C19_merge), data at the common system and at systems of only one manager stay apart (C19_apart), adding and deleting systems never changes the other manager (C19_systems); each command changes its own manager as in the model without objects (C19_alone). All of this includes assignments with a target system, for which the data is transformed first (C19_shared_target, C19_apart_target, C19_alone_target); the transformed data appears in the other manager, too (C19_assign_target)."
  },
  {
   "property": "C20",
   "status": "proved",
   "theorems": [
    "Weldx.TLcs.C20_own",
    "Weldx.TLcs.C20_exact",
    "Weldx.TLcs.C20_clamped",
    "Weldx.TLcs.C20_between",
    "Weldx.TLcs.C20_interp_time"
   ],
   "note": "Interpolation of two rotations by scipy is a parameter that gives its ends and rotations. Real arithmetic (with rounding: C108); all requested times distinct; C20_interp_time ties the interpolated system to the values; C20_own: at its own times a system is not changed."
  },
  {
   "property": "C21",
   "status": "proved",
   "theorems": [
    "Weldx.TLcs.C21_absolute",
    "Weldx.TLcs.C21_relative",
    "Weldx.TLcs.C21_last",
    "Weldx.TLcs.C21_idempotent"
   ],
   "note": "The last reset wins is stated for systems with a reference time; without one the first reset keeps the deltas."
  },
  {
   "property": "C22",
   "status": "proved",
   "theorems": [
    "Weldx.TLcs.C22_left",
    "Weldx.TLcs.C22_right",
    "Weldx.TLcs.C22_missing_reference_left",
    "Weldx.TLcs.C22_missing_reference_right"
   ],
   "note": "Interpolation of two rotations by scipy is a parameter that gives its ends and rotations. Finding: a left system without reference time is read relative to the one of the right system, the other order raises (C22_missing_reference_left/right). Finding: a static left system that still carries the single time of an earlier interpolation gives a static sum."
  },
  {
   "property": "C23",
   "status": "partial",
   "theorems": [
    "Weldx.C23_path_partial",
    "Weldx.C23_counterexample"
   ],
   "note": "False in general: between two samples of a turning system with an offset the stored inverse is not the inverse (C23_counterexample, for every interpolation of rotations). Proved for paths at all times at which each system is an expression, has a static orientation, has a sample or is clamped."
  },
  {
   "property": "C24",
   "status": "proved",
   "theorems": [
    "Weldx.Time.C24_union",
    "Weldx.Time.C24_union_values",
    "Weldx.Time.C24_union_instance",
    "Weldx.Time.C24_union_order_grouping",
    "Weldx.Time.C24_union_mixed"
   ],
   "note": "integer nanoseconds; conversions from strings and quantities are not modelled"
  },
  {
   "property": "C25",
   "status": "partial",
   "theorems": [
    "Weldx.Time.C25_resample_number",
    "Weldx.Time.C25_resample_interval",
    "Weldx.Time.C25_resample_rejected",
    "Weldx.Time.C25_float_values",
    "Weldx.Time.C25_float_number_partial",
    "Weldx.Time.C25_float_iff",
    "Weldx.Time.FloatDemo.C25_float_counterexample",
    "Weldx.Time.FloatDemo.C25_float_error_counterexample"
   ],
   "note": "Proved for time deltas (C25_resample_interval), for the errors (C25_resample_rejected), and for integers with exact arithmetic (C25_resample_number). numpy.linspace calculates with floating point numbers of 53 bits; with this arithmetic, for every rule to round to nearest, the behaviour is described completely by C25_float_values: the property holds exactly if the first and the last value, counted from the reference time, are numbers with 53 bits (C25_float_number_partial, C25_float_iff), which includes all within 104 days. Refuted otherwise: time stamps with microseconds twenty years after the reference time give one value too many (C25_float_counterexample) or a ValueError (C25_float_error_counterexample)."
  },
  {
   "property": "C26",
   "status": "proved",
   "theorems": [
    "Weldx.Time.C26_add_delta",
    "Weldx.Time.C26_sub_delta",
    "Weldx.Time.C26_sub_absolute",
    "Weldx.Time.C26_rejected",
    "Weldx.Time.C26_reflected",
    "Weldx.Time.C26_duration",
    "Weldx.Time.C26_duration_empty"
   ],
   "note": "differences that are not increasing are rejected by the constructor; stated in the theorems"
  },
  {
   "property": "C27",
   "status": "partial",
   "theorems": [
    "Weldx.Time.C27_eq",
    "Weldx.Time.C27_equals_partial",
    "Weldx.Time.C27_equals_counterexample"
   ],
   "note": "equals: proved for equal lengths and stored reference times; false in general (counterexamples: explicit first value as reference, different lengths raise, not transitive for empty times)"
  },
  {
   "property": "C28",
   "status": "proved",
   "theorems": [
    "Weldx.Meas.C28_tree",
    "Weldx.Meas.C28_queries",
    "Weldx.Meas.C28_add",
    "Weldx.Meas.C28_new_signal",
    "Weldx.Meas.C28_get_equipment",
    "Weldx.Meas.C28_transformation_names"
   ],
   "note": ""
  },
  {
   "property": "C29",
   "status": "proved",
   "theorems": [
    "Weldx.Meas.C29_types_and_units",
    "Weldx.Meas.C29_create"
   ],
   "note": "units as commutative group; a function is represented by the unit it returns"
  },
  {
   "property": "C30",
   "status": "proved",
   "theorems": [
    "Weldx.Meas.C30_attach",
    "Weldx.Meas.C30_attach_iff",
    "Weldx.Meas.C30_never_overwritten",
    "Weldx.Meas.C30_rejected_unchanged"
   ],
   "note": ""
  },
  {
   "property": "C31",
   "status": "partial",
   "theorems": [
    "Weldx.Meas.C31_round_trip_partial",
    "Weldx.Meas.C31_counterexample",
    "Weldx.Meas.C31_same_behaviour"
   ],
   "note": "name, source, equipment, graph always restored; identical object if the last added signal is the only one not used as input; default signal differs otherwise (counterexample)"
  },
  {
   "property": "C32",
   "status": "partial",
   "theorems": [
    "Weldx.Val.C32_shape_language_partial",
    "Weldx.Val.C32_variables",
    "Weldx.Val.C32_structure",
    "Weldx.Val.C32_negative",
    "Weldx.Val.C32_none_counterexample"
   ],
   "note": "exact for fixed sizes, intervals, variables, optional dimensions and ellipsis at either end (acceptance iff match); false for None (counterexample); ASCII strings"
  },
  {
   "property": "C33",
   "status": "partial",
   "theorems": [
    "Weldx.Val.C33_one_value",
    "Weldx.Val.C33_all_checked_partial",
    "Weldx.Val.C33_missing_key_counterexample"
   ],
   "note": "one value per variable: exact for the entries before a missing key; all entries checked if no key is missing; false otherwise (counterexample)"
  },
  {
   "property": "C34",
   "status": "partial",
   "theorems": [
    "Weldx.Val.C34_no_crash_partial",
    "Weldx.Val.C34_interval_counterexample",
    "Weldx.Val.C34_variable_counterexample",
    "Weldx.Val.C34_nested_counterexample"
   ],
   "note": "no exception if sizes reach the limits of half open intervals and no variable dimension is missing; false otherwise (three counterexamples)"
  },
  {
   "property": "C35",
   "status": "partial",
   "theorems": [
    "Weldx.Nested.C35_equal_data",
    "Weldx.Nested.C35_reflexive",
    "Weldx.Nested.C35_contained_partial",
    "Weldx.Nested.C35_both_directions_partial",
    "Weldx.Nested.C35_extra_key_counterexample",
    "Weldx.Nested.C35_empty_key_counterexample",
    "Weldx.Nested.C35_zero_key_counterexample",
    "Weldx.Nested.C35_text",
    "Weldx.Nested.C35_letters",
    "Weldx.Nested.C35_empty_list_counterexample",
    "Weldx.Nested.C35_shared_counterexample",
    "Weldx.Nested.C35_type_counterexample",
    "Weldx.Nested.C35_exception_counterexample"
   ],
   "note": "Equal data always compares equal (so the comparison is reflexive); success in both directions without shared containers means equal keys and leaves everywhere. The full statement is false: further keys of b, empty keys, empty lists, shared lists and types of containers are not noticed, and scalars in b raise an exception; each is a counterexample theorem."
  },
  {
   "property": "C36",
   "status": "partial",
   "theorems": [
    "Weldx.Me.C36_split",
    "Weldx.Me.C36_value",
    "Weldx.Me.C36_partition",
    "Weldx.Me.C36_unknown",
    "Weldx.Me.C36_names",
    "Weldx.Me.C36_overwrite",
    "Weldx.Me.C36_series",
    "Weldx.Me.C36_series_number",
    "Weldx.Me.C36_series_one"
   ],
   "note": "Splits, orders, partition, values and rejected names of evaluations are proved for expressions; stepwise evaluation of generic series agrees in dimensions and values (C36_series). Not true of the code, kept as theorems: set_parameters accepts names that are already fixed and replaces them (C36_overwrite), an unknown name leaves the object changed (C36_unknown), stepwise evaluation of a series loses coordinates (C36_series), a single number raises in a partial evaluation (C36_series_number). Units are not modelled."
  },
  {
   "property": "C37",
   "status": "proved",
   "theorems": [
    "Weldx.TimeSeries.C37_interp",
    "Weldx.TimeSeries.C37_exact",
    "Weldx.TimeSeries.C37_step",
    "Weldx.TimeSeries.C37_linear",
    "Weldx.TimeSeries.C37_constant",
    "Weldx.TimeSeries.C37_reference_lost",
    "Weldx.TimeSeries.C37_expression",
    "Weldx.TimeSeries.C37_expression_origin"
   ],
   "note": "Discrete series (step, linear, constant), time outside the range, sample values and expressions. Findings kept as theorems: the reference time is lost when a series with reference is interpolated at deltas (C37_reference_lost); an expression without reference queried at absolute times counts from the first requested time (C37_expression_origin)."
  },
  {
   "property": "C38",
   "status": "proved",
   "theorems": [
    "Weldx.File.C38_protected",
    "Weldx.File.C38_independent",
    "Weldx.File.C38_clear"
   ],
   "note": "Protected keys are invisible and unchanged under every operation sequence; the view behaves as a dictionary over the other keys. Differences from dict kept in the semantics: pop never raises, popitem removes any visible item, setdefault returns None; clear raises KeyError when a protected key is missing (C38_clear)."
  },
  {
   "property": "C39",
   "status": "partial",
   "theorems": [
    "Weldx.Ver.C39_highest",
    "Weldx.Ver.C39_one_base",
    "Weldx.Ver.C39_ambiguous",
    "Weldx.Ver.C39_prefix",
    "Weldx.Ver.C39_select",
    "Weldx.Ver.C39_select_counterexample",
    "Weldx.Ver.C39_select_digits_partial",
    "Weldx.Ver.C39_version",
    "Weldx.Ver.C39_tag_version"
   ],
   "note": "Highest version, uniqueness of the base and ambiguity proved. Negations: names that are prefixes of each other are not rejected (C39_prefix); select_tag chooses alphabetically, 0.9.0 over 0.10.0 (C39_select_counterexample). C39_select_digits_partial: right when all version numbers have one digit."
  },
  {
   "property": "C40",
   "status": "partial",
   "theorems": [
    "Weldx.File.C40_full",
    "Weldx.File.C40_unchanged",
    "Weldx.File.C40_paths",
    "Weldx.File.C40_lists",
    "Weldx.File.C40_metadata",
    "Weldx.File.C40_lost",
    "Weldx.File.C40_no_dict",
    "Weldx.File.C40_empty",
    "Weldx.File.C40_nonempty",
    "Weldx.File.C40_bare"
   ],
   "note": "Proved for all nested trees: no None is left, trees without None are unchanged, dictionary paths of any depth keep exactly the entries that are not None, metadata and user attributes are restored. Deviations kept as theorems: None entries of lists are dropped so that later entries move (C40_lists); empty or all-None metadata is not restored (C40_lost); metadata on objects stored as lists raises TypeError (C40_no_dict)."
  },
  {
   "property": "C41",
   "status": "partial",
   "theorems": [
    "Weldx.File.C41_chunks",
    "Weldx.File.C41_chunk_zero",
    "Weldx.File.C41_read",
    "Weldx.File.C41_changed",
    "Weldx.File.C41_roundtrip",
    "Weldx.File.C41_stale",
    "Weldx.File.C41_path",
    "Weldx.File.C41_read_hash"
   ],
   "note": "Hash independent of every positive chunk size; chunk size 0 hashes nothing (C41_chunk_zero), so 'every chunk size' fails for 0. Changed content is detected on reading up to hash collisions; an already stored hash is written without a check (C41_stale)."
  },
  {
   "property": "C42",
   "status": "proved",
   "theorems": [
    "Weldx.File.C42_header",
    "Weldx.File.C42_binary"
   ],
   "note": "The header is everything up to and including the first end marker line, for all byte contents after it. UTF-8 decoding and YAML parsing are not modelled."
  },
  {
   "property": "C43",
   "status": "proved",
   "theorems": [
    "Weldx.Mesh.C43_shape",
    "Weldx.Mesh.C43_geometry",
    "Weldx.Mesh.C43_count"
   ],
   "note": "All numbers of profiles >= 2 and points >= 3, both directions, any number of shapes with their offsets; number of triangles. Positions of the points and has_cw_ordering are the subject of C59."
  },
  {
   "property": "C44",
   "status": "partial",
   "theorems": [
    "Weldx.Tr.C44_no_jump",
    "Weldx.Tr.C44_direction",
    "Weldx.Tr.C44_outside_partial",
    "Weldx.Tr.C44_before_start",
    "Weldx.Tr.C44_before_start_counterexample",
    "Weldx.Tr.C44_behind_arc_counterexample",
    "Weldx.Tr.C44_accepted",
    "Weldx.Tr.C44_position",
    "Weldx.Tr.C44_start",
    "Weldx.Tr.C44_joint",
    "Weldx.Tr.C44_length",
    "Weldx.Tr.C44_plane"
   ],
   "note": "Proved for all traces of linear and radial segments and all positions on the trace (also: unit speed, no jumps, first axis is the direction of travel). Clamping of outside positions is false: before the start of a linear segment the system is turned by 180 degrees, beyond a radial segment the arc is continued (counterexamples proved); clamping of the position of linear segments behind the end is proved."
  },
  {
   "property": "C45",
   "status": "proved",
   "theorems": [
    "Weldx.Tr.C45_positions",
    "Weldx.Tr.C45_refused",
    "Weldx.Tr.C45_step",
    "Weldx.Tr.C45_dense",
    "Weldx.Tr.C45_geometry",
    "Weldx.Tr.C45_float_geometry",
    "Weldx.Tr.C45_float_trace"
   ],
   "note": "Positions of Trace.rasterize and of Geometry._rasterize_trace. The step is at most 3/2 of the width (nearest number of steps). With rounding after every operation (C45_float_geometry, C45_float_trace): same number of positions, strictly increasing, every position is found on a segment, up to errors of a few 2^-53 of the length, if the length is at most about 10^12 widths."
  },
  {
   "property": "C46",
   "status": "proved",
   "theorems": [
    "Weldx.Tr.C46_accepted",
    "Weldx.Tr.C46_between",
    "Weldx.Tr.C46_outside",
    "Weldx.Tr.C46_given",
    "Weldx.Tr.C46_linear",
    "Weldx.Tr.C46_linear_outside",
    "Weldx.Tr.C46_linear_number",
    "Weldx.Tr.C46_single_counterexample"
   ],
   "note": "For arbitrary schemes; linear_profile_interpolation_sbs returns the given profiles at the ends for profiles of lines. Finding: a single profile without scheme is accepted but has no local profile (C46_single_counterexample)."
  },
  {
   "property": "C47",
   "status": "partial",
   "theorems": [
    "Weldx.Geo.C47_add_lines",
    "Weldx.Geo.C47_history_partial",
    "Weldx.Geo.C47_tolerance",
    "Weldx.Geo.C47_tolerance_counterexample",
    "Weldx.Geo.C47_failed_transformation_counterexample",
    "Weldx.Geo.C47_same_object_counterexample",
    "Weldx.Geo.C47_construct",
    "Weldx.Geo.C47_add"
   ],
   "note": "Construction and both ways of adding segments are characterised exactly, including that refused calls change nothing. The history invariant is proved for shapes of distinct objects, translations, isometries, reflections and (for exactly connected lines) all invertible maps. Full statement false: relative tolerance, transformations that raise half way, repeated objects (counterexamples)."
  },
  {
   "property": "C48",
   "status": "proved",
   "theorems": [
    "Weldx.Geo.C48_reflection",
    "Weldx.Geo.C48_involution",
    "Weldx.Geo.C48_mirror",
    "Weldx.Geo.C48_across_line"
   ],
   "note": "Mirror images are specified geometrically (midpoint on the line, difference along the normal). Hypothesis: segments of the shape are distinct objects made by their constructors."
  },
  {
   "property": "C49",
   "status": "proved",
   "theorems": [
    "Weldx.Geo.C49_lines",
    "Weldx.Geo.C49_line_ends",
    "Weldx.Geo.C49_points",
    "Weldx.Geo.C49_arcs",
    "Weldx.Geo.C49_shapes",
    "Weldx.Geo.C49_shape_ends",
    "Weldx.Geo.C49_schemes",
    "Weldx.Geo.C49_tolerance_counterexample"
   ],
   "note": "For shapes of line segments that are exactly connected; refusal happens exactly if the two end points of a segment coincide. Shapes connected only up to the tolerance may be refused (counterexample). Any list of schemes: C49_schemes."
  },
  {
   "property": "C50",
   "status": "partial",
   "theorems": [
    "Weldx.Geo.C50_ties",
    "Weldx.Geo.C50_steps",
    "Weldx.Geo.C50_step_size",
    "Weldx.Geo.C50_step_counterexample",
    "Weldx.Geo.C50_segment",
    "Weldx.Geo.C50_line_distinct",
    "Weldx.Geo.C50_shape",
    "Weldx.Geo.C50_refused",
    "Weldx.Geo.C50_open",
    "Weldx.Geo.C50_closed_partial",
    "Weldx.Geo.C50_closed_counterexample",
    "Weldx.Tr.C50_float"
   ],
   "note": "Two parts of the statement are false and refuted: steps can exceed the raster width (bound 1.5 proved instead), and closed shapes are closed twice unless the start point has (nearly) equal coordinates (exact characterisation proved). The relative positions on a segment are also proved with rounding (C50_float)."
  },
  {
   "property": "C51",
   "status": "proved",
   "theorems": [
    "Weldx.Geo.C51_radius",
    "Weldx.Geo.C51_end",
    "Weldx.Geo.C51_winding",
    "Weldx.Geo.C51_accepted",
    "Weldx.Geo.C51_with_radius",
    "Weldx.Geo.C51_with_radius_accepted"
   ],
   "note": "Real arithmetic; the length of an arc is taken as radius times angle instead of the symbolic integral of the code."
  },
  {
   "property": "C52",
   "status": "partial",
   "theorems": [
    "Weldx.Groove.C52_area_U",
    "Weldx.Groove.C52_area_HU",
    "Weldx.Groove.C52_area_DU",
    "Weldx.Groove.C52_area_DHU",
    "Weldx.Groove.C52_area_UV",
    "Weldx.Groove.C52_U_accuracy",
    "Weldx.Groove.C52_HU_accuracy",
    "Weldx.Groove.C52_UV_accuracy",
    "Weldx.Groove.C52_DU_accuracy",
    "Weldx.Groove.C52_U",
    "Weldx.Groove.C52_HU",
    "Weldx.Groove.C52_U_arc",
    "Weldx.Groove.C52_UV",
    "Weldx.Groove.C52_DU_counterexample",
    "Weldx.Groove.C52_DU",
    "Weldx.Groove.C52_parameters",
    "Weldx.Groove.C52_parameters_checked",
    "Weldx.Groove.C52_parameters_counterexample",
    "Weldx.Groove.C52_heights",
    "Weldx.Groove.C52_heights_created",
    "Weldx.Groove.C52_heights_one",
    "Weldx.Groove.C52_heights_given",
    "Weldx.Groove.C52_area",
    "Weldx.Groove.C52_area_I",
    "Weldx.Groove.C52_area_V",
    "Weldx.Groove.C52_width",
    "Weldx.Groove.C52_area_HV",
    "Weldx.Groove.C52_area_V_degenerate",
    "Weldx.Groove.C52_no_area",
    "Weldx.Groove.C52_area_DV",
    "Weldx.Groove.C52_area_DHV",
    "Weldx.Groove.C52_area_VV",
    "Weldx.Groove.C52_VV_angle"
   ],
   "note": "Areas of all eleven plane grooves (I, V, HV, DV, DHV, VV, U, HU, UV, DU, DHU) in closed form; for the grooves with arcs the exact value of the rasterised area (C52_area_U ... C52_area_DHU) and a bound on its distance to the area of the true arc: never larger, and smaller by less than 0.006 mm^2 per arc pair whatever the size (C52_*_accuracy). Profiles of U, HU, UV, DU exist with tangent arcs. Negations: double grooves are never checked for negative parameters (C52_parameters_counterexample); one given height of a double groove is copied to the other, so heights need not add up (C52_heights_one); VV groove has the given angle only for c = 0 (C52_VV_angle); DU groove with different heights and a root face cannot be made (C52_DU_counterexample). Front face grooves are C74."
  },
  {
   "property": "C53",
   "status": "proved",
   "theorems": [
    "Weldx.Groove.C53_volume",
    "Weldx.Groove.C53_units",
    "Weldx.Groove.C53_positive",
    "Weldx.Groove.C53_zero",
    "Weldx.Groove.C53_V"
   ],
   "note": "Speed times groove area equals wire feed times wire cross section, in every system of units; positive for positive inputs and area; a groove of area zero raises ValueError."
  },
  {
   "property": "C54",
   "status": "proved",
   "theorems": [
    "Weldx.Geo.C54_vector_side",
    "Weldx.Geo.C54_zero_vector",
    "Weldx.Geo.C54_line_side",
    "Weldx.Geo.C54_vector_antisymmetric",
    "Weldx.Geo.C54_line_antisymmetric",
    "Weldx.Geo.C54_translation",
    "Weldx.Geo.C54_transformation",
    "Weldx.Geo.C54_reflection_sign",
    "Weldx.Geo.C54_plane_side"
   ],
   "note": "Over any ordered field; np.sign of exact numbers."
  },
  {
   "property": "C55",
   "status": "proved",
   "theorems": [
    "Weldx.Ver.C55_latest",
    "Weldx.Ver.C55_exact",
    "Weldx.Ver.C55_names",
    "Weldx.Ver.C55_empty"
   ],
   "note": "Latest schema, exact versions, unknown names and empty lists."
  },
  {
   "property": "C56",
   "status": "proved",
   "theorems": [
    "Weldx.Csm.C56_subsystems"
   ],
   "note": ""
  },
  {
   "property": "C57",
   "status": "partial",
   "theorems": [
    "Weldx.Csm.C57_reflexive",
    "Weldx.Csm.C57_content",
    "Weldx.Csm.C57_symmetric",
    "Weldx.Csm.C57_symmetric_plain",
    "Weldx.Csm.C57_symmetric_subs",
    "Weldx.Csm.C57_symmetric_iff",
    "Weldx.Csm.C57_transitive",
    "Weldx.Csm.C57_answers",
    "Weldx.Csm.C57_root_counterexample",
    "Weldx.Csm.C57_subsystem_counterexample",
    "Weldx.Csm.C57_nested_counterexample",
    "Weldx.Csm.C57_data_counterexample"
   ],
   "note": "Equality of reachable managers is reflexive and transitive; equal managers have the same systems, relations and (non-empty named) data and answer questions about relations equally; C57_symmetric_iff says exactly when equality is symmetric (names not empty): if the left operand and its subsystems, at any depth, have subsystems wherever the right one has; in particular for managers without subsystems or with flat subsystems on both sides. Negations: the root is not compared, so parents differ (C57_root_counterexample); subsystems of the right operand are not noticed if the left one has none (C57_subsystem_counterexample, C57_nested_counterexample for subsystems of subsystems); data with an empty name is not noticed (C57_data_counterexample)."
  },
  {
   "property": "C58",
   "status": "partial",
   "theorems": [
    "Weldx.Media.C58_monotone",
    "Weldx.Media.C58_frame",
    "Weldx.Media.C58_start",
    "Weldx.Media.C58_start_nonneg",
    "Weldx.Media.C58_count",
    "Weldx.Media.C58_rate",
    "Weldx.Media.C58_count_container",
    "Weldx.Media.C58_count_stored",
    "Weldx.Media.C58_times",
    "Weldx.Media.C58_times_counterexample",
    "Weldx.Media.C58_duration"
   ],
   "note": "Frame numbers are monotone and exact for streams that start at zero; less than one off otherwise. Negation: frame times are spread over the whole duration, so frame k is later than k/fps (C58_times_counterexample)."
  },
  {
   "property": "C59",
   "status": "partial",
   "theorems": [
    "Weldx.Mesh.C59_volume",
    "Weldx.Mesh.C59_direction_partial",
    "Weldx.Mesh.C59_outward_partial",
    "Weldx.Mesh.C59_counterexample"
   ],
   "note": "Volume formula proved for every straight sweep and both reported directions. has_cw_ordering is right if the first point is repeated at the end (or the closing edge does not contribute); it omits the edge from the last to the first point, and is wrong for an obtuse triangle (C59_counterexample): the surface is then turned inside out."
  },
  {
   "property": "C60",
   "status": "proved",
   "theorems": [
    "Weldx.Tr.C60_free",
    "Weldx.Tr.C60_limited",
    "Weldx.Tr.C60_vertical",
    "Weldx.Tr.C60_discrete_tangent",
    "Weldx.Tr.C60_before_first",
    "Weldx.Tr.C60_data_length"
   ],
   "note": "Discrete and symbolic segments; the length of symbolic segments is an input. Finding: before the first point of a discrete segment the tangent is the vector from the last to the first point (C60_before_first)."
  },
  {
   "property": "C61",
   "status": "proved",
   "theorems": [
    "Weldx.Tr.C61_constant",
    "Weldx.Tr.C61_systems",
    "Weldx.Tr.C61_congruent",
    "Weldx.Tr.C61_perpendicular",
    "Weldx.Tr.C61_variable",
    "Weldx.Tr.C61_variable_ends",
    "Weldx.Tr.C61_profile",
    "Weldx.Tr.C61_straight",
    "Weldx.Tr.C61_stack",
    "Weldx.Tr.C61_stack_ignored",
    "Weldx.Tr.C61_stack_refused"
   ],
   "note": "For traces of linear and radial segments; np.hstack of a profile without shapes is not modelled as an error. C61_stack, C61_stack_refused: with a constant profile the argument stack only changes the order of the points. C61_stack_ignored: with a variable profile it has no effect."
  },
  {
   "property": "C62",
   "status": "proved",
   "theorems": [
    "Weldx.C62_default",
    "Weldx.C62_static",
    "Weldx.C62_no_time_link",
    "Weldx.C62_no_time_path",
    "Weldx.C62_no_time_static",
    "Weldx.C62_no_time_counterexample",
    "Weldx.C62_get_cs",
    "Weldx.C62_kind"
   ],
   "note": "Interpolation of two rotations by scipy is a parameter that gives its ends and rotations. The path is given (existence and uniqueness: C06-C08). Static systems must not carry the single time of an earlier interpolation (TEdge.WF). Expressions count from the reference time of their system. Without a time: paths with at least one discrete time axis or only static systems give the composition; on other paths a system given by an expression is returned as stored (single link in the defined direction) or the query raises (C62_no_time_link, C62_no_time_path)."
  },
  {
   "property": "C63",
   "status": "partial",
   "theorems": [
    "Weldx.File.Session.C63_isolation",
    "Weldx.File.Session.C63_saved",
    "Weldx.File.Session.C63_close_without_sync",
    "Weldx.File.Session.C63_close_twice",
    "Weldx.File.Session.C63_tree_needs_rw",
    "Weldx.File.Session.C63_write_schema_unused",
    "Weldx.File.Session.C63_copy_overwrites",
    "Weldx.File.Session.C63_rejected_leaves_file",
    "Weldx.File.Session.C63_copy_schema",
    "Weldx.File.Session.C63_kwargs_shared",
    "Weldx.File.Session.C63_written",
    "Weldx.File.Session.C63_set",
    "Weldx.File.Session.C63_created",
    "Weldx.File.Session.C63_readonly_handle",
    "Weldx.File.Session.C63_sync_mode",
    "Weldx.File.Session.C63_kwargs",
    "Weldx.File.Session.C63_empty_tree",
    "Weldx.File.Session.C63_empty_handle",
    "Weldx.File.Session.C63_custom_schema"
   ],
   "note": "Proved over all sequences of calls: isolation of files that are not opened for writing, and of paths with something that is no ASDF file (C63_isolation); closing with sync stores the tree and reopening gives it (C63_saved, C63_close_without_sync, C63_tree_needs_rw). Refuted: the schema for writing is not used when an existing file is opened without a tree (C63_write_schema_unused), overwrite=False does not protect other ASDF files (C63_copy_overwrites), a copy does not keep the schemas (C63_copy_schema), the keyword dictionary of the caller is changed (C63_kwargs_shared), a rejected tree leaves an empty file that blocks the path (C63_rejected_leaves_file), closing twice raises (C63_close_twice)."
  },
  {
   "property": "C64",
   "status": "partial",
   "theorems": [
    "Weldx.Ds.C64_accepts",
    "Weldx.Ds.C64_dims",
    "Weldx.Ds.C64_value",
    "Weldx.Ds.C64_order",
    "Weldx.Ds.C64_steps",
    "Weldx.Ds.C64_steps_general",
    "Weldx.Ds.C64_grid",
    "Weldx.Ds.C64_bounds",
    "Weldx.Ds.C64_method_lost"
   ],
   "note": "Everything except the last part is proved for any number of dimensions (C64_accepts, C64_dims, C64_value, C64_grid, C64_bounds, C64_order). Evaluation in steps is proved for linear interpolation (C64_steps) and refuted for other methods: the result of an evaluation forgets the method (C64_method_lost, C64_steps_general). The methods 'quadratic' and 'cubic' are not modelled."
  },
  {
   "property": "C65",
   "status": "partial",
   "theorems": [
    "Weldx.Walk.C65_unit",
    "Weldx.Walk.C65_unit_no_crash",
    "Weldx.Walk.C65_nested_required",
    "Weldx.Walk.C65_missing",
    "Weldx.Walk.C65_list",
    "Weldx.Walk.C65_pattern",
    "Weldx.Walk.C65_pattern_middle",
    "Weldx.Walk.C65_tag",
    "Weldx.Walk.C65_property_tag"
   ],
   "note": "Proved for all trees that have the nested mappings of the schema (C65_unit, C65_unit_no_crash), for property tags (C65_property_tag) and patterns (C65_pattern, C65_pattern_middle). Refuted: a missing optional nested mapping is the reason of a KeyError instead of being accepted (C65_missing, C65_nested_required); the schema test_unit_validator-0.1.0 has such an optional property. asdf.util.uri_match is not part of the repository and is modelled from its documentation."
  },
  {
   "property": "C66",
   "status": "partial",
   "theorems": [
    "Weldx.TimeTags.C66_frequency",
    "Weldx.TimeTags.C66_tdi_general",
    "Weldx.TimeTags.C66_tdi",
    "Weldx.TimeTags.C66_tdi_shape",
    "Weldx.TimeTags.C66_week_text",
    "Weldx.TimeTags.C66_weeks",
    "Weldx.TimeTags.C66_resolution",
    "Weldx.TimeTags.C66_empty",
    "Weldx.TimeTags.C66_dti",
    "Weldx.TimeTags.C66_time_zone_lost",
    "Weldx.TimeTags.C66_time",
    "Weldx.TimeTags.C66_time_reference_set"
   ],
   "note": "Proved for nanosecond indexes that are not empty (C66_tdi, C66_dti, C66_time, C66_tdi_shape, C66_frequency for names of old and new pandas versions). Refuted: regular time deltas with steps of whole weeks are stored with a frequency that can not be read (C66_weeks), irregular indexes with another resolution change their values (C66_resolution), irregular time stamps lose the time zone (C66_time_zone_lost), empty indexes can not be stored (C66_empty), a relative Time with a reference time set later becomes absolute (C66_time_reference_set). Frequency inference of pandas is modelled from its documentation; for time stamps it is a parameter with the law that the inferred rule generates the index again."
  },
  {
   "property": "C67",
   "status": "partial",
   "theorems": [
    "Weldx.TimeSeries.C67_series",
    "Weldx.TimeSeries.C67_shape",
    "Weldx.TimeSeries.C67_constant",
    "Weldx.TimeSeries.C67_constant_iff",
    "Weldx.TimeSeries.C67_constant_array",
    "Weldx.TimeSeries.C67_expression"
   ],
   "note": "Proved for series with several values (C67_series, C67_shape). Refuted for others: constants lose their time and reference time (C67_constant, C67_constant_iff), a constant array can not be read if the asdf library drops the missing time (C67_constant_array), expressions lose their reference time (C67_expression)."
  },
  {
   "property": "C68",
   "status": "partial",
   "theorems": [
    "Weldx.Me.C68_test",
    "Weldx.Me.C68_never_unbound",
    "Weldx.Me.C68_result",
    "Weldx.Me.C68_accepts",
    "Weldx.Me.C68_class",
    "Weldx.Me.C68_errors",
    "Weldx.Me.C68_parameter",
    "Weldx.Me.C68_own_name_rejected",
    "Weldx.Me.C68_spatial",
    "Weldx.Me.C68_spatial_parameter",
    "Weldx.Me.C68_discrete",
    "Weldx.Me.C68_spatial_unchecked",
    "Weldx.Me.C68_variable_c"
   ],
   "note": "Proved: the constructor of GenericSeries accepts exactly the described inputs (C68_accepts, C68_test), its result meets the hypotheses of the evaluation theorems (C68_result), accidental exceptions do not happen (C68_errors), and exactly what derived classes check (C68_class, C68_discrete, C68_spatial). Refuted: the required coordinates are not guaranteed for expressions (C68_spatial_unchecked, C68_variable_c), and parameters whose dimension has their own name lose it and can be rejected (C68_parameter, C68_own_name_rejected). pint's arithmetic of units is a function here and modelled in C104_generic_create. Not modelled: parsing of the expression."
  },
  {
   "property": "C69",
   "status": "partial",
   "theorems": [
    "Weldx.Me.C69_expression",
    "Weldx.Me.C69_constructed",
    "Weldx.Me.C69_discrete",
    "Weldx.Me.C69_discrete_iff",
    "Weldx.Me.C69_discrete_unreadable",
    "Weldx.Me.C69_math",
    "Weldx.Me.C69_math_side_effect",
    "Weldx.Me.C69_math_leak",
    "Weldx.Me.C69_math_shared",
    "Weldx.Me.C69_math_user"
   ],
   "note": "Proved: every expression series that the constructor returns is written and read without change (C69_expression, C69_constructed); for discrete series and mathematical expressions the exact conditions under which this holds (C69_discrete, C69_discrete_iff, C69_math), and exactly what saving changes (C69_math_side_effect). Refuted: series without unit or with other coordinates can not be read (C69_discrete_unreadable); shared quantities get the dimensions of the last parameter (C69_math_shared), the attribute set by saving changes what later expressions are read as (C69_math_leak), and user metadata makes the file unreadable (C69_math_user). Coordinates of array parameters are always lost. Not modelled: strings of expressions, files of quantities."
  },
  {
   "property": "C70",
   "status": "partial",
   "theorems": [
    "Weldx.Csm.C70_ok_iff",
    "Weldx.Csm.C70_result",
    "Weldx.Csm.C70_inv",
    "Weldx.Csm.C70_inv_all",
    "Weldx.Csm.C70_unknown",
    "Weldx.Csm.C70_root",
    "Weldx.Csm.C70_original",
    "Weldx.Csm.C70_others",
    "Weldx.Csm.C70_copy",
    "Weldx.Csm.C70_repeat",
    "Weldx.C70_values",
    "Weldx.C70_kind",
    "Weldx.C70_no_time",
    "Weldx.C70_shared",
    "Weldx.InterpDemo.C70_reverse_counterexample"
   ],
   "note": "Proved: when the call succeeds (C70_ok_iff), everything it changes (C70_result), that the result is a valid manager with inverse directions (C70_inv, C70_inv_all), that the supplied directions keep their values at the given times (C70_values), that a call without in_place changes no existing object and gives the same manager (C70_original, C70_copy), that objects the manager does not refer to stay (C70_others), and that order and repetitions of the listed systems do not matter (C70_repeat; the general theorems need that interpolating a second time changes nothing, which is proved for the actual interpolation, so C70_values, C70_kind and C70_no_time hold for all lists). Refuted: the values of the other direction change (C70_reverse_counterexample); listing the root leaves a half changed manager (C70_root); systems without reference time that another manager uses too are moved in time for it (C70_shared); time deltas can not be used with a manager that has a reference time, unlike in get_cs (C70_kind)."
  },
  {
   "property": "C71",
   "status": "partial",
   "theorems": [
    "Weldx.C71_values",
    "Weldx.C71_values_arg",
    "Weldx.C71_array_arg",
    "Weldx.C71_arrays",
    "Weldx.C71_static",
    "Weldx.C71_default",
    "Weldx.C71_time_ignored",
    "Weldx.C71_same_deltas",
    "Weldx.C71_moved",
    "Weldx.C71_conflict",
    "Weldx.C71_kinds",
    "Weldx.C71_expression",
    "Weldx.C71_expression_unusable",
    "Weldx.ConstructDemo.C71_counterexample",
    "Weldx.C71_series_arg",
    "Weldx.C71_series_constant",
    "Weldx.C71_series",
    "Weldx.C71_series_step",
    "Weldx.C71_series_reference",
    "Weldx.C71_series_time",
    "Weldx.ConstructDemo.C71_series_counterexample"
   ],
   "note": "Proved: systems made of arrays that count from the same reference time (or of which one is static) have the given values at the given times, for any time axes, and count from the given reference time (C71_values, C71_arrays, C71_static, C71_values_arg, C71_array_arg, C71_expression); values that do not fit are rejected, as are arrays with different time deltas and different reference times (C71_conflict, C71_kinds). Refuted: only time deltas are compared, so that with the same time deltas and different reference times the coordinates are silently moved in time (C71_moved, C71_counterexample); the parameter time has no influence on arrays (C71_time_ignored); a system with an expression and orientations that have a reference time can not be evaluated at any time unless time_ref is given (C71_expression_unusable). Coordinates given as a discrete TimeSeries: the system has the values of the series at its time stamps (C71_series_arg, C71_series_constant, C71_series). Refuted for series: step interpolation becomes linear (C71_series_step), a reference time given together with a constant series is lost (C71_series_reference, C71_series_counterexample)."
  },
  {
   "property": "C72",
   "status": "partial",
   "theorems": [
    "Weldx.C72_read",
    "Weldx.C72_exact_iff",
    "Weldx.C72_stable",
    "Weldx.C72_values",
    "Weldx.C72_legacy",
    "Weldx.C72_expression",
    "Weldx.TagDemo.C72_still",
    "Weldx.TagDemo.C72_small"
   ],
   "note": "Proved: what is read (C72_read), exactly which systems are read as they were written (C72_exact_iff), that further files do not change them (C72_stable), the tolerance of the values (C72_values), expressions (C72_expression) and files of the first version (C72_legacy). Refuted: time dependent systems that stay at the origin are read as static systems without times (C72_still); small coordinates are lost depending on their unit, and zero coordinates lose their unit (C72_small)."
  },
  {
   "property": "C73",
   "status": "partial",
   "theorems": [
    "Weldx.Rot.C73_axes",
    "Weldx.Rot.C73_order",
    "Weldx.Rot.C73_exact",
    "Weldx.Rot.C73_stored",
    "Weldx.Rot.C73_euler",
    "Weldx.Rot.C73_one_three",
    "Weldx.Rot.C73_stable",
    "Weldx.Rot.C73_half_turn",
    "Weldx.Rot.C73_units",
    "Weldx.Rot.RotationDemo.C73_counterexample"
   ],
   "note": "Proved for any as_euler that meets its documentation (EulerOk, shown to be satisfiable): quaternions, matrices and rotation vectors are exact (C73_exact), Euler angles about one or three axes give the same rotations (C73_one_three), for two axes exactly if the second angle is not beyond a right angle (C73_euler), what was read is stable (C73_stable), units (C73_units). Refuted: for two axes and a second angle beyond ninety degrees the converter cuts off the third angle of the completed sequence, the rotation that is read differs by a half turn (C73_half_turn, C73_counterexample); a stack of one rotation becomes a single rotation (example)."
  },
  {
   "property": "C74",
   "status": "partial",
   "theorems": [
    "Weldx.Groove.C74_tee",
    "Weldx.Groove.C74_lap",
    "Weldx.Groove.C74_cross",
    "Weldx.Groove.C74_corner",
    "Weldx.Groove.C74_corner_obtuse",
    "Weldx.Groove.C74_corner_overlap",
    "Weldx.Groove.C74_bend",
    "Weldx.Groove.C74_bend_gap",
    "Weldx.Groove.C74_depth",
    "Weldx.Groove.C74_depth_overlap",
    "Weldx.Groove.C74_missing",
    "Weldx.Groove.C74_unknown",
    "Weldx.Groove.C74_file",
    "Weldx.Groove.C74_args",
    "Weldx.Groove.C74_required",
    "Weldx.Groove.C74_front_optional",
    "Weldx.Groove.C74_defaults",
    "Weldx.Groove.C74_created",
    "Weldx.Groove.C74_read_checked",
    "Weldx.Groove.FrontDemo.C74_counterexample_overlap",
    "Weldx.Groove.FrontDemo.C74_counterexample_gap"
   ],
   "note": "Proved: the plates, thicknesses, angles and distances of every code number (C74_tee, C74_lap, C74_cross, C74_corner, C74_bend, C74_depth), missing parameters and unknown codes are rejected (C74_missing, C74_unknown), the arguments of get_groove (C74_args, C74_required, C74_defaults), the file round trip of all classes (C74_file, C74_created). Refuted: for 3.1.3 and 4.1.1 the distance is 2 b cos(alpha / 2) (C74_bend, C74_bend_gap, C74_counterexample_gap); for obtuse angles the plates of 3.1.1 are closer than the root gap (C74_corner_obtuse) or overlap (C74_corner_overlap, C74_counterexample_overlap), those of 4.1.2 overlap (C74_depth_overlap)."
  },
  {
   "property": "C75",
   "status": "partial",
   "theorems": [
    "Weldx.SLcs.C75_absolute",
    "Weldx.SLcs.C75_single",
    "Weldx.SLcs.C75_relative",
    "Weldx.SLcs.C75_reset_keeps",
    "Weldx.SLcs.C75_reset_moves",
    "Weldx.SLcs.C75_query_reference",
    "Weldx.SLcs.C75_reset_iff",
    "Weldx.SLcs.C75_lost",
    "Weldx.SLcs.C75_construct",
    "Weldx.SLcs.C75_reset_none",
    "Weldx.SLcs.C75_reset_last",
    "Weldx.SLcs.Demo.C75_counterexample"
   ],
   "note": "Proved: the values at all absolute and relative times for every combination of reference times (C75_absolute, C75_single, C75_relative); resets do not change the motion if the series has a reference time (C75_reset_keeps), and without one exactly if the expression is periodic (C75_reset_iff); the last reset counts (C75_reset_last). Refuted: without a reference time of the series a reset moves the motion in time (C75_reset_moves, C75_counterexample); the reference time of the series is not that of the system, which then refuses absolute times (C75_lost); a rejected reset to None removes the reference time (C75_reset_none)."
  },
  {
   "property": "C76",
   "status": "partial",
   "theorems": [
    "Weldx.Me.C76_flat",
    "Weldx.Me.C76_expression_iff",
    "Weldx.Me.C76_expression_evaluate_partial",
    "Weldx.Me.C76_expression_oneway",
    "Weldx.Me.C76_expression_otherway",
    "Weldx.Me.C76_series_iff",
    "Weldx.Me.C76_series_kinds",
    "Weldx.Me.C76_series_equivalence",
    "Weldx.Me.C76_series_evaluate",
    "Weldx.Me.EqDemo.C76_counterexample",
    "Weldx.C76_time_series_partial",
    "Weldx.C76_time_series_discrete",
    "Weldx.C76_time_series_kinds",
    "Weldx.C76_time_series_reference",
    "Weldx.C76_system",
    "Weldx.C76_system_expression_partial",
    "Weldx.C76_system_reference",
    "Weldx.Me.EqDemo.C76_system_counterexample",
    "Weldx.Meas.C76_chain_equivalence",
    "Weldx.Meas.C76_chain_signals_partial",
    "Weldx.Meas.C76_chain_transformations"
   ],
   "note": "Proved: when expressions, series, time series, systems and chains are equal (C76_expression_iff, C76_series_iff, C76_system, C76_chain_equivalence), equal ones evaluate alike (C76_expression_evaluate_partial, C76_series_evaluate, C76_time_series_partial, C76_time_series_discrete, C76_chain_signals_partial). Refuted: the parameters are compared in one direction only, so that the comparison of expressions is not symmetric (C76_expression_oneway); the reference times of time series are not compared (C76_time_series_reference, C76_system_reference); the transformations of measurement chains are not compared (C76_chain_transformations)."
  },
  {
   "property": "C77",
   "status": "partial",
   "theorems": [
    "Weldx.Sto.C77_variable",
    "Weldx.Sto.C77_kept",
    "Weldx.Sto.C77_array",
    "Weldx.Sto.C77_array_same",
    "Weldx.Sto.C77_array_values",
    "Weldx.Sto.C77_array_again",
    "Weldx.Sto.C77_set",
    "Weldx.Sto.C77_set_same",
    "Weldx.Sto.C77_set_dimensions",
    "Weldx.Sto.C77_quantity",
    "Weldx.Sto.C77_array_identical",
    "Weldx.Sto.C77_name_lost",
    "Weldx.Sto.C77_scalar_type",
    "Weldx.Sto.C77_scalar_bool",
    "Weldx.Sto.C77_integers",
    "Weldx.Sto.C77_misfit"
   ],
   "note": "Proved: exactly when variables, arrays, data sets and quantities can be written (C77_variable, C77_array, C77_set, C77_quantity); what was written can always be read and keeps dimensions, values, units, attributes and coordinates (C77_array_values); the exact condition for identity (C77_array_same, C77_array_identical, C77_set_same, C77_kept); a second storage changes nothing (C77_array_again); the stored dimensions are right (C77_set_dimensions). Refuted: the name of an array is lost (C77_name_lost), scalars of shorter number types change their type (C77_scalar_type), scalar truth values can not be written (C77_scalar_bool)."
  },
  {
   "property": "C78",
   "status": "partial",
   "theorems": [
    "Weldx.Sto.C78_created",
    "Weldx.Sto.C78_wrong_unit",
    "Weldx.Sto.C78_no_unit",
    "Weldx.Sto.C78_write_iff",
    "Weldx.Sto.C78_read",
    "Weldx.Sto.C78_same",
    "Weldx.Sto.C78_signed_triangles",
    "Weldx.Sto.C78_legacy",
    "Weldx.Sto.C78_numbers",
    "Weldx.Sto.C78_times",
    "Weldx.Sto.C78_wrong_numbers",
    "Weldx.Sto.C78_limits",
    "Weldx.Sto.C78_limits_empty",
    "Weldx.Sto.C78_mesh_file",
    "Weldx.Sto.C78_mesh_unit",
    "Weldx.Sto.Demo.C78_attributes_lost"
   ],
   "note": "Proved: the checks of the constructor (C78_created, C78_no_unit), exactly which objects can be written (C78_write_iff), what was written can be read (C78_read), the exact condition for equality (C78_same), files of the old version (C78_legacy), the limits (C78_limits, C78_limits_empty), export and import (C78_mesh_file, C78_mesh_unit). Refuted: a wrong unit raises an AttributeError (C78_wrong_unit); triangles given as an array of signed integers are accepted but can not be written (C78_signed_triangles); attributes and additional coordinates of arrays with two dimensions are lost (C78_attributes_lost)."
  },
  {
   "property": "C79",
   "status": "proved",
   "theorems": [
    "Weldx.Lab.C79_transpose",
    "Weldx.Lab.C79_matmul",
    "Weldx.Lab.C79_matvec",
    "Weldx.Lab.C79_square",
    "Weldx.Lab.C79_square_vec",
    "Weldx.Lab.C79_square_result",
    "Weldx.Lab.C79_square_vec_result",
    "Weldx.Lab.C79_orthogonal",
    "Weldx.Lab.C79_add",
    "Weldx.Lab.C79_invert",
    "Weldx.Lab.C79_transform",
    "Weldx.Lab.C79_transform_rejects"
   ],
   "note": "Products with any names and flags (C79_matmul, C79_matvec), when the products with default names exist (C79_square, C79_square_vec) and their dimensions (C79_square_result, C79_square_vec_result), transposition (C79_transpose), orthogonality (C79_orthogonal), coordinate systems (C79_add, C79_invert) and data (C79_transform, C79_transform_rejects)."
  },
  {
   "property": "C80",
   "status": "partial",
   "theorems": [
    "Weldx.Time.C80_float_back_partial",
    "Weldx.Time.C80_float_quantity",
    "Weldx.Time.C80_float_counterexample",
    "Weldx.Time.C80_quantity",
    "Weldx.Time.C80_quantity_back",
    "Weldx.Time.C80_back_iff_partial",
    "Weldx.Time.C80_back_counterexample",
    "Weldx.Time.C80_array",
    "Weldx.Time.C80_array_datetime",
    "Weldx.Time.C80_pandas",
    "Weldx.Time.C80_item",
    "Weldx.Time.C80_items",
    "Weldx.Time.C80_items_reversed",
    "Weldx.Time.C80_close",
    "Weldx.Time.C80_close_self",
    "Weldx.Time.C80_close_kinds",
    "Weldx.Time.C80_close_not_symmetric",
    "Weldx.Time.C80_close_lengths",
    "Weldx.Time.C80_close_reference",
    "Weldx.Time.C80_close_own_quantity"
   ],
   "note": "Proved: values of quantities and arrays (C80_quantity, C80_array), the way back has the same values and restores the reference time if it is given again (C80_quantity_back, C80_array), exactly which times survive the way there and back (C80_back_iff_partial), the pandas types (C80_pandas), items and slices (C80_item, C80_items, C80_items_reversed), when times are close (C80_close, C80_close_self, C80_close_kinds). With rounding: error of the magnitudes (C80_float_quantity), the values survive if no duration is longer than nine days (C80_float_back_partial, if to_timedelta gives the nearest nanosecond), but not after three years (C80_float_counterexample). Refuted: the reference time is lost on the way to a quantity or array and back (C80_back_counterexample); arrays with time stamps raise a TypeError (C80_array_datetime); all_close is not symmetric (C80_close_not_symmetric), accepts different lengths (C80_close_lengths), and is false for the same points in time with other reference times (C80_close_reference) and for the quantity of the time itself (C80_close_own_quantity)."
  },
  {
   "property": "C81",
   "status": "partial",
   "theorems": [
    "Weldx.File.C81_suffix",
    "Weldx.File.C81_create",
    "Weldx.File.C81_directory",
    "Weldx.File.C81_write",
    "Weldx.File.C81_write_place",
    "Weldx.File.C81_write_when",
    "Weldx.File.C81_write_noname",
    "Weldx.File.C81_write_copy",
    "Weldx.File.C81_write_counterexample",
    "Weldx.File.C81_read",
    "Weldx.File.C81_second",
    "Weldx.File.C81_export_after_read",
    "Weldx.File.C81_save_path",
    "Weldx.File.C81_save_counterexample",
    "Weldx.File.C81_algorithm",
    "Weldx.File.C81_save_missing",
    "Weldx.Media.C81_media_sequence",
    "Weldx.Media.C81_media_memory",
    "Weldx.Media.C81_media_path",
    "Weldx.Media.C81_media_reference",
    "Weldx.Media.C81_media_fps_ignored",
    "Weldx.Media.C81_media_file",
    "Weldx.Media.C81_media_changed_counterexample",
    "Weldx.Media.C81_media_missing",
    "Weldx.Media.C81_media_malformed"
   ],
   "note": "Proved: what is recorded at creation (C81_suffix, C81_create, C81_directory), what and where is exported (C81_write, C81_write_place, C81_write_copy), storage and reading on every machine (C81_read, C81_save_path), media files from memory (C81_media_sequence, C81_media_memory), media files from paths (C81_media_path, C81_media_file, C81_media_missing, C81_media_fps_ignored), malformed trees (C81_media_malformed). Refuted: a stored name such as ../x is exported outside of the directory (C81_write_counterexample); the content is lost when an object that was read is stored again, or storing raises (C81_second); an object that was read cannot be exported into a directory unless the content is passed (C81_export_after_read); a lower case algorithm is accepted by an object from a buffer but cannot be stored (C81_save_counterexample); a changed video is read without an error although the hash of the old one is stored (C81_media_changed_counterexample)."
  },
  {
   "property": "C82",
   "status": "partial",
   "theorems": [
    "Weldx.TimeRef.C82_unset_new",
    "Weldx.TimeRef.C82_unset_times",
    "Weldx.TimeRef.C82_unset_no_ref",
    "Weldx.TimeRef.C82_restore_fails",
    "Weldx.TimeRef.C82_restore_new",
    "Weldx.TimeRef.C82_restore_times",
    "Weldx.TimeRef.C82_restore_unset",
    "Weldx.TimeRef.C82_unset_restore",
    "Weldx.TimeRef.C82_setter",
    "Weldx.TimeRef.C82_setter_frame",
    "Weldx.TimeRef.C82_setter_rejects",
    "Weldx.TimeRef.C82_reset_fails",
    "Weldx.TimeRef.C82_reset",
    "Weldx.TimeRef.C82_reset_none",
    "Weldx.TimeRef.C82_reset_counterexample"
   ],
   "note": "Proved: time_ref_unset (C82_unset_new, C82_unset_times, C82_unset_no_ref), time_ref_restore (C82_restore_new, C82_restore_times, C82_restore_fails), both directions (C82_restore_unset, C82_unset_restore), the setter (C82_setter, C82_setter_frame, C82_setter_rejects), reset_reference_time (C82_reset, C82_reset_fails, C82_reset_none). Refuted: without a time coordinate reset_reference_time ignores the request and even its type, so that the result has no reference time (C82_reset_counterexample)."
  },
  {
   "property": "C83",
   "status": "partial",
   "theorems": [
    "Weldx.XUnits.C83_quantities",
    "Weldx.XUnits.C83_quantities_fails",
    "Weldx.XUnits.C83_from_quantities",
    "Weldx.XUnits.C83_indexes",
    "Weldx.XUnits.C83_quantify",
    "Weldx.XUnits.C83_dequantify",
    "Weldx.XUnits.C83_quantify_fails",
    "Weldx.XUnits.C83_quantify_quantities",
    "Weldx.XUnits.C83_dequantify_quantities",
    "Weldx.XUnits.C83_units",
    "Weldx.XUnits.C83_units_none",
    "Weldx.XUnits.C83_empty_counterexample",
    "Weldx.XUnits.C83_indexes_counterexample"
   ],
   "note": "Proved: quantities of coordinates (C83_quantities, C83_quantities_fails), coordinates from quantities (C83_from_quantities), both forms (C83_quantify, C83_dequantify, C83_quantify_fails), the dictionary of quantities is the same exactly if no coordinate has the empty text as unit (C83_quantify_quantities, C83_dequantify_quantities), unit of the data (C83_units, C83_units_none). Refuted: a coordinate whose unit is the empty text is no quantity before quantify_coords and a dimensionless quantity after it (C83_empty_counterexample); indexes_as_quantities raises for every array with an index (C83_indexes, C83_indexes_counterexample)."
  },
  {
   "property": "C84",
   "status": "partial",
   "theorems": [
    "Weldx.Geo.Objects.C84_in_place",
    "Weldx.Geo.Objects.C84_history",
    "Weldx.Geo.Objects.C84_copy_frame",
    "Weldx.Geo.Objects.C84_copy_value",
    "Weldx.Geo.Objects.C84_copy_independent",
    "Weldx.Geo.Objects.C84_add",
    "Weldx.Geo.Objects.C84_add_refused",
    "Weldx.Geo.Objects.C84_copy_add",
    "Weldx.Geo.Objects.C84_profile_add",
    "Weldx.Geo.Objects.C84_profile_new",
    "Weldx.Geo.Objects.C84_shape_new",
    "Weldx.Geo.Objects.C84_add_counterexample",
    "Weldx.Geo.Objects.C84_in_place_counterexample"
   ],
   "note": "Proved: changes in place touch only segments of the shape (C84_in_place, C84_history); copies (C84_copy_frame, C84_copy_value, C84_copy_independent, C84_copy_add); add_segments changes exactly the shapes with the same list object (C84_add, C84_add_refused); profiles (C84_profile_add, C84_profile_new). Refuted: the constructor keeps the list that it gets, so that add_segments on one shape also extends another shape that was made from the same list (exShared_made, C84_add_counterexample); shapes that share a segment move together, after which one of them is not connected any more (C84_in_place_counterexample)."
  },
  {
   "property": "C85",
   "status": "partial",
   "theorems": [
    "Weldx.Dc.C85_saved",
    "Weldx.Dc.C85_others",
    "Weldx.Dc.C85_unshared",
    "Weldx.Dc.C85_unsorted",
    "Weldx.Dc.C85_again",
    "Weldx.Dc.C85_tree",
    "Weldx.Dc.C85_loaded",
    "Weldx.Dc.C85_roundtrip_partial",
    "Weldx.Dc.C85_extra",
    "Weldx.Dc.C85_changed",
    "Weldx.Dc.C85_equipment",
    "Weldx.Dc.C85_equipment_sources",
    "Weldx.Dc.C85_missing",
    "Weldx.Dc.C85_equipment_names",
    "Weldx.Dc.C85_shared_counterexample",
    "Weldx.Dc.C85_extra_counterexample",
    "Weldx.Dc.C85_default_counterexample",
    "Weldx.Dc.C85_arc",
    "Weldx.Dc.C85_arc_read"
   ],
   "note": "Proved: what saving does to the object, to lists and to other objects (C85_saved, C85_others, C85_unshared, C85_unsorted); the second time is the same (C85_again); what is written (C85_tree) and read (C85_loaded), with a full round trip for objects whose lists of strings are sorted and that have no further attributes (C85_roundtrip_partial) and for measurement equipment (C85_equipment); processes (C85_arc, C85_arc_read). Refuted: saving sorts lists of strings in the object itself, gives it new lists and loses the order (C85_changed, C85_shared_counterexample); an added attribute is written but the file can not be read (C85_extra, C85_extra_counterexample); None is read as the default (C85_default_counterexample); equipment without sources is allowed by the schema but can not be read (C85_equipment_sources)."
  },
  {
   "property": "C86",
   "status": "partial",
   "theorems": [
    "Weldx.Mesh.C86_points",
    "Weldx.Mesh.C86_closed",
    "Weldx.Mesh.C86_volume",
    "Weldx.Mesh.C86_direction",
    "Weldx.Mesh.C86_direction_closed",
    "Weldx.Mesh.C86_outward_partial",
    "Weldx.Mesh.C86_inward",
    "Weldx.Mesh.C86_sideways",
    "Weldx.Mesh.C86_length_partial",
    "Weldx.Mesh.C86_export",
    "Weldx.Mesh.C86_variable",
    "Weldx.Mesh.C86_diagonal_counterexample",
    "Weldx.Mesh.C86_trace_counterexample",
    "Weldx.Mesh.C86_export_counterexample"
   ],
   "note": "Proved: points (C86_points), closed surface for all horizontal traces (C86_closed), volume up to sign for each shape (C86_volume), the sign exactly (C86_direction, C86_direction_closed), towards the outside if the trace runs along the first axis and shapes repeat their first point (C86_outward_partial, C86_length_partial), the export (C86_export), variable profiles (C86_variable). Refuted: has_cw_ordering looks at the y- and z-coordinates in space, so the surface is turned inside out if the trace runs against the x-axis (C86_inward), or, for counter-clockwise shapes, perpendicular to it (C86_sideways, C86_trace_counterexample); closed shapes that start on the diagonal, such as the origin, do not repeat their first point and can be turned inside out even on the default trace (C86_diagonal_counterexample); to_file fails if two shapes have different numbers of raster points (C86_export_counterexample; with numpy from 1.24 on)."
  },
  {
   "property": "C87",
   "status": "proved",
   "theorems": [
    "Weldx.Csm.C87_plain",
    "Weldx.Csm.C87_default",
    "Weldx.Csm.C87_euler",
    "Weldx.Csm.C87_axes",
    "Weldx.Csm.C87_when",
    "Weldx.Csm.C87_no_conflict",
    "Weldx.Csm.C87_create_cs",
    "Weldx.Csm.C87_create_parts",
    "Weldx.Csm.C87_create_euler",
    "Weldx.Csm.C87_create_axes",
    "Weldx.Csm.C87_new",
    "Weldx.Csm.C87_existing",
    "Weldx.Csm.C87_supplied",
    "Weldx.Csm.C87_times"
   ],
   "note": "Real arithmetic, one orientation and position (C87_plain, C87_euler, C87_axes, C87_create_cs, C87_create_parts, C87_create_euler, C87_create_axes); what is stored for systems with several times (C87_supplied, C87_times); success and failure (C87_when, C87_no_conflict); the other systems (C87_new, C87_existing)."
  },
  {
   "property": "C88",
   "status": "partial",
   "theorems": [
    "Weldx.SchemaTree.C88_actual",
    "Weldx.SchemaTree.C88_summary_partial",
    "Weldx.SchemaTree.C88_summary_iff",
    "Weldx.SchemaTree.C88_types",
    "Weldx.SchemaTree.C88_information",
    "Weldx.SchemaTree.C88_letter",
    "Weldx.SchemaTree.C88_dimension_counterexample",
    "Weldx.SchemaTree.C88_prefix_counterexample",
    "Weldx.SchemaTree.C88_drop_counterexample",
    "Weldx.SchemaTree.C88_alternatives_counterexample",
    "Weldx.SchemaTree.C88_keyword_counterexample"
   ],
   "note": "Proved: the result for all such schemas (C88_actual), it is the overview if (C88_summary_partial) and only if (C88_summary_iff) every required property has a tag, a reference or the type object, array, string or number, and no other property begins with the name of a required one. Refuted: required integers, booleans and properties without type lose their last letter (C88_letter), as in the schemas of dimensions (C88_dimension_counterexample, 'lengt, required)') and weld details; other properties are marked as required (C88_prefix_counterexample); keys to drop do not match properties with a class (C88_drop_counterexample); KeyError if 'required' stands without 'properties', as in core/file (C88_alternatives_counterexample); properties without class that are named like a keyword vanish (C88_keyword_counterexample). Lists of schemas (items, oneOf) are in the model of the code but not in the class of schemas that the theorems describe."
  },
  {
   "property": "C89",
   "status": "proved",
   "theorems": [
    "Weldx.Csm.C89_all",
    "Weldx.Csm.C89_level",
    "Weldx.Csm.C89_distinct",
    "Weldx.Csm.C89_width",
    "Weldx.Csm.C89_planar",
    "Weldx.Csm.C89_arrow",
    "Weldx.Csm.C89_once",
    "Weldx.Csm.C89_colour"
   ],
   "note": "Positions are exact fractions instead of floating point numbers; the drawing itself is done by networkx and matplotlib. The statement on colours assumes that the inverse of a system depends on time exactly if the system does, and that systems given as expressions do."
  },
  {
   "property": "C90",
   "status": "partial",
   "theorems": [
    "Weldx.Tag.C90_pattern",
    "Weldx.Tag.C90_two_stars",
    "Weldx.Tag.C90_named",
    "Weldx.Tag.C90_format",
    "Weldx.Tag.C90_disjoint",
    "Weldx.Tag.C90_converter",
    "Weldx.Tag.C90_unique",
    "Weldx.Tag.C90_class",
    "Weldx.Tag.C90_name_counterexample",
    "Weldx.Tag.C90_derived_counterexample",
    "Weldx.Tag.C90_weldx",
    "Weldx.Tag.C90_unknown",
    "Weldx.Tag.C90_manifest",
    "Weldx.Tag.C90_created",
    "Weldx.Tag.C90_process_tag",
    "Weldx.Tag.C90_process_counterexample",
    "Weldx.Tag.C90_process_read_partial",
    "Weldx.Tag.C90_process_again",
    "Weldx.Tag.C90_meta_counterexample",
    "Weldx.Tag.C90_groove_tag",
    "Weldx.Tag.C90_groove_ambiguous",
    "Weldx.Tag.C90_groove_counterexample",
    "Weldx.Tag.C90_groove_class",
    "Weldx.Tag.C90_enable",
    "Weldx.Tag.C90_load"
   ],
   "note": "Refuted parts: a process whose tag is a known kind with a version appended is saved under a tag that does not exist; None in the dictionary meta is lost; the first tag of a groove is written, not the newest; a class with a name does not handle the tags it lists, and a converter derived from another converter is not found. Everything else is proved."
  },
  {
   "property": "C91",
   "status": "partial",
   "theorems": [
    "Weldx.Schema.C91_types",
    "Weldx.Schema.C91_node_shape",
    "Weldx.Schema.C91_node_units",
    "Weldx.Schema.C91_metadata",
    "Weldx.Schema.C91_rotation_metadata",
    "Weldx.Schema.C91_patterns",
    "Weldx.Schema.C91_manifest",
    "Weldx.Schema.C91_plain",
    "Weldx.Schema.C91_times",
    "Weldx.Schema.C91_quantity",
    "Weldx.Schema.C91_quantity_counterexample",
    "Weldx.Schema.C91_variable",
    "Weldx.Schema.C91_data_array",
    "Weldx.Schema.C91_dataset",
    "Weldx.Schema.C91_variable_counterexample",
    "Weldx.Schema.C91_expression",
    "Weldx.Schema.C91_series",
    "Weldx.Schema.C91_series_counterexample",
    "Weldx.Schema.C91_generic",
    "Weldx.Schema.C91_file",
    "Weldx.Schema.C91_file_counterexample",
    "Weldx.Schema.C91_media",
    "Weldx.Schema.C91_spatial",
    "Weldx.Schema.C91_spatial_counterexample",
    "Weldx.Schema.C91_rotation",
    "Weldx.Schema.C91_lcs",
    "Weldx.Schema.C91_lcs_unchecked",
    "Weldx.Schema.C91_graph",
    "Weldx.Schema.C91_uuid_counterexample",
    "Weldx.Schema.C91_error",
    "Weldx.Schema.C91_signal",
    "Weldx.Schema.C91_transformation",
    "Weldx.Schema.C91_transformation_counterexample",
    "Weldx.Schema.C91_chain",
    "Weldx.Schema.C91_measurement",
    "Weldx.Schema.C91_chain_counterexample",
    "Weldx.Schema.C91_hierarchy",
    "Weldx.Schema.C91_hierarchy_counterexample",
    "Weldx.Schema.C91_groove",
    "Weldx.Schema.C91_groove_counterexample",
    "Weldx.Schema.C91_gas",
    "Weldx.Schema.C91_gas_type",
    "Weldx.Schema.C91_gas_procedure",
    "Weldx.Schema.C91_gas_counterexample",
    "Weldx.Schema.C91_arc",
    "Weldx.Schema.C91_base_metal",
    "Weldx.Schema.C91_penetration",
    "Weldx.Schema.C91_details",
    "Weldx.Schema.C91_connection",
    "Weldx.Schema.C91_weldment",
    "Weldx.Schema.C91_design_counterexample",
    "Weldx.Schema.C91_gmaw",
    "Weldx.Schema.C91_spray",
    "Weldx.Schema.C91_pulse",
    "Weldx.Schema.C91_pulse_counterexample",
    "Weldx.Schema.C91_uuid",
    "Weldx.Schema.C91_timestamp",
    "Weldx.Schema.C91_timestamp_counterexample"
   ],
   "note": "Refuted parts, each with a witness: complex or boolean magnitudes, a single truth value as variable, a constant vector as time series, a file without host and content, triangles of signed integers, a rotation with metadata, UUIDs of other versions, transformations without error, errors without deviation, measurement chains with branches, arrays and spatial data at one system, double grooves without root face, a text as joint design, other gases, and a pulsed process with both sets of parameters are rejected; without coordinates the shape of orientations is not checked. Everything else is proved."
  },
  {
   "property": "C92",
   "status": "partial",
   "theorems": [
    "Weldx.Tr.C92_length",
    "Weldx.Tr.C92_section",
    "Weldx.Tr.C92_section_start",
    "Weldx.Tr.C92_additive",
    "Weldx.Tr.C92_monotone",
    "Weldx.Tr.C92_diff",
    "Weldx.Tr.C92_points",
    "Weldx.Tr.C92_tangent_partial",
    "Weldx.Tr.C92_tangent_linear",
    "Weldx.Tr.C92_tangent_scalar",
    "Weldx.Tr.C92_frame_partial",
    "Weldx.Tr.C92_frame_linear",
    "Weldx.Tr.C92_translate",
    "Weldx.Tr.C92_translate_many",
    "Weldx.Tr.C92_translate_length",
    "Weldx.Tr.C92_shared_series",
    "Weldx.Tr.C92_shared_frame",
    "Weldx.Tr.C92_radial",
    "Weldx.Tr.C92_counterexample"
   ],
   "note": "Refuted parts, each with a witness: an expression that is linear in the position has no coordinate system at any position (TypeError), one whose derivative has no vector neither (ValueError), the length of the section at position 0 raises, and a translation in place spoils the series that the segment was made from. Positions are single numbers; that sympy finds the integral is not modelled."
  },
  {
   "property": "C93",
   "status": "partial",
   "theorems": [
    "Weldx.Tr.C93_section",
    "Weldx.Tr.C93_total",
    "Weldx.Tr.C93_length_partial",
    "Weldx.Tr.C93_length_iff",
    "Weldx.Tr.C93_section_error",
    "Weldx.Tr.C93_ends_partial",
    "Weldx.Tr.C93_lcs_end_partial",
    "Weldx.Tr.C93_counterexample",
    "Weldx.Tr.C93_construct",
    "Weldx.Tr.C93_translate_points",
    "Weldx.Tr.C93_transform",
    "Weldx.Tr.C93_transform_error",
    "Weldx.Tr.C93_transform_state",
    "Weldx.Tr.C93_isometry",
    "Weldx.Tr.C93_raster",
    "Weldx.Tr.C93_raster_spacing_partial",
    "Weldx.Tr.C93_raster_counterexample",
    "Weldx.Tr.C93_depth_counterexample",
    "Weldx.Tr.C93_transform_counterexample"
   ],
   "note": "Proved for positions before max_coord and everywhere if no position exceeds max_coord. Refuted, each with a witness: with the default max_coord 1 and positions up to 2 the length is that of all points, but the segment ends at position 1; raster points at uneven positions have different distances; third components count for the length but are not part of the points; a singular matrix raises and leaves transformed points with the former length. Positions are single numbers."
  },
  {
   "property": "C94",
   "status": "partial",
   "theorems": [
    "Weldx.C94_sum_error",
    "Weldx.C94_inverse_error",
    "Weldx.C94_inverse_first_error",
    "Weldx.C94_difference_error",
    "Weldx.C94_calculation",
    "Weldx.C94_exact_calculation",
    "Weldx.C94_inverse_defect",
    "Weldx.C94_inverse_accepted",
    "Weldx.C94_sum_counterexample",
    "Weldx.C94_difference_counterexample",
    "Weldx.C94_exact",
    "Weldx.C94_accepted"
   ],
   "note": "Proved: angles of accepted systems, error bounds for sums and inverses that are accepted, exact results for orthonormal systems, and that no calculation raises while the number of systems times their error stays below 1e-8; inverses are orthonormal up to 2.5e-8 and accepted if the rows are perpendicular up to 4e-9. Refuted with one accepted system: its sum with an exact rotation raises, a - a raises, and inverting twice gives another system. Real numbers instead of floats; static systems."
  },
  {
   "property": "C95",
   "status": "partial",
   "theorems": [
    "Weldx.RefCheck.C95_accepted",
    "Weldx.RefCheck.C95_exception",
    "Weldx.RefCheck.C95_order",
    "Weldx.RefCheck.C95_values_partial",
    "Weldx.RefCheck.C95_values_counterexample",
    "Weldx.RefCheck.C95_type_partial",
    "Weldx.RefCheck.C95_time_text",
    "Weldx.RefCheck.C95_kinds",
    "Weldx.RefCheck.C95_str",
    "Weldx.RefCheck.C95_type_counterexample",
    "Weldx.RefCheck.C95_units",
    "Weldx.RefCheck.C95_units_counterexample",
    "Weldx.RefCheck.C95_orientation",
    "Weldx.RefCheck.C95_coordinates",
    "Weldx.RefCheck.C95_orientation_exception",
    "Weldx.RefCheck.C95_series",
    "Weldx.RefCheck.C95_series_exception",
    "Weldx.RefCheck.C95_series_counterexample"
   ],
   "note": "Characterised completely. Refuted, each with a witness: a reference with one value is met by coordinates of any length that repeat it, also by empty ones; the unit of a described time is ignored if the description contains the long name, and matters for types and short names; the empty unit never matches itself; the check of series accepts a coordinate without dimension and in other units (creating the series then fails with another message). Coordinates have at most one dimension."
  },
  {
   "property": "C96",
   "status": "partial",
   "theorems": [
    "Weldx.Turn.C96_exists",
    "Weldx.Turn.C96_about",
    "Weldx.Turn.C96_slerp_ok",
    "Weldx.Turn.C96_rate",
    "Weldx.Turn.C96_angle",
    "Weldx.Turn.C96_path",
    "Weldx.Turn.C96_unique",
    "Weldx.Turn.C96_left",
    "Weldx.Turn.C96_right_partial",
    "Weldx.Turn.C96_inverse_partial",
    "Weldx.Turn.C96_reverse_partial",
    "Weldx.Turn.C96_same",
    "Weldx.Turn.C96_fixed",
    "Weldx.Turn.C96_axis",
    "Weldx.Turn.C96_axis_other",
    "Weldx.Turn.C96_uniform",
    "Weldx.Turn.C96_full_turn",
    "Weldx.Turn.C96_series_left",
    "Weldx.Turn.C96_series_right_partial",
    "Weldx.Turn.C96_series_inverse_partial",
    "Weldx.Turn.C96_interp_time",
    "Weldx.Turn.C96_reverse_counterexample",
    "Weldx.Turn.C96_inverse_counterexample",
    "Weldx.Turn.C96_right_counterexample",
    "Weldx.Turn.C96_uniform_counterexample",
    "Weldx.Turn.C96_unique_counterexample"
   ],
   "note": "Slerp is a concrete function here; only the choice of rotation vectors is a parameter, and choices exist. Refuted for half turns, whatever rotation vectors are chosen: the way back, the inverse and a turned child differ. Refuted for larger angles: three quarters of a turn are interpolated as a quarter turn back, a full turn does not move."
  },
  {
   "property": "C97",
   "status": "partial",
   "theorems": [
    "Weldx.Csm.C97_unmerge",
    "Weldx.Csm.C97_root",
    "Weldx.Csm.C97_parent",
    "Weldx.Csm.C97_lost_parent",
    "Weldx.Csm.C97_add",
    "Weldx.Csm.C97_update",
    "Weldx.Csm.C97_assign",
    "Weldx.Csm.C97_delete_data",
    "Weldx.Csm.C97_delete",
    "Weldx.Csm.C97_merge",
    "Weldx.Csm.C97_added_lost",
    "Weldx.Csm.C97_added_kept",
    "Weldx.Csm.C97_data",
    "Weldx.Csm.C97_docstring_counterexample",
    "Weldx.Csm.C97_silent_counterexample"
   ],
   "note": "Refuted: systems added below a system that came with a merge are lost (with a warning), against the docstring; data and the relation to the parent of an added system at which another manager was merged are lost without a warning. The rest is proved, with the exact condition for data to survive."
  },
  {
   "property": "C98",
   "status": "partial",
   "theorems": [
    "Weldx.Geo.C98_translate",
    "Weldx.Geo.C98_isometry",
    "Weldx.Geo.C98_twin",
    "Weldx.Geo.C98_transform_line",
    "Weldx.Geo.C98_shape_translate",
    "Weldx.Geo.C98_shape_isometry",
    "Weldx.Geo.C98_reflection",
    "Weldx.Geo.C98_across_line",
    "Weldx.Geo.C98_transform_counterexample",
    "Weldx.Geo.C98_line",
    "Weldx.Geo.C98_arc_accepted",
    "Weldx.Geo.C98_arc",
    "Weldx.Geo.C98_arc_same",
    "Weldx.Geo.C98_line_same",
    "Weldx.Geo.C98_arc_radius",
    "Weldx.Geo.C98_raster",
    "Weldx.Geo.C98_connected",
    "Weldx.Geo.C98_add_lines",
    "Weldx.Geo.C98_interpolate",
    "Weldx.Geo.C98_shape",
    "Weldx.Geo.C98_shape_iff",
    "Weldx.Geo.C98_shape_mm",
    "Weldx.Geo.C98_shape_wrong",
    "Weldx.Geo.C98_shape_closed",
    "Weldx.Geo.C98_shape_counterexample",
    "Weldx.Geo.C98_arc_counterexample",
    "Weldx.Tr.C98_trace_length",
    "Weldx.Tr.C98_trace_segment",
    "Weldx.Tr.C98_add",
    "Weldx.Tr.C98_trace",
    "Weldx.Tr.C98_trace_position",
    "Weldx.Tr.C98_trace_raster",
    "Weldx.Tr.C98_standard",
    "Weldx.Tr.C98_section",
    "Weldx.Tr.C98_solid",
    "Weldx.Tr.C98_trace_counterexample"
   ],
   "note": "Refuted in three places: Shape.rasterize takes the numbers of each segment without conversion and labels them as millimetres (exact condition proved), Geometry does the same with the coordinates of trace segments (exact condition proved), and the radius tolerance of arcs is 1e-8 in whatever unit is used, so that the same arc may be accepted or transformed in one unit and refused in another (C98_arc_counterexample, C98_transform_counterexample). Everything else is proved for all units, also translations, transformations and reflections (C98_translate, C98_isometry, C98_twin, C98_reflection, C98_across_line)."
  },
  {
   "property": "C99",
   "status": "partial",
   "theorems": [
    "Weldx.C99_interp",
    "Weldx.C99_add",
    "Weldx.C99_invert",
    "Weldx.C99_sub",
    "Weldx.C99_link",
    "Weldx.C99_reverse",
    "Weldx.C99_get_cs",
    "Weldx.C99_get_cs_default",
    "Weldx.C99_transform",
    "Weldx.C99_transform_back",
    "Weldx.C99_transform_plain",
    "Weldx.C99_answers",
    "Weldx.C99_unity",
    "Weldx.C99_unity_series",
    "Weldx.C99_unity_counterexample"
   ],
   "note": "Proved except for the last sentence and one exception: data without unit are accepted if all numbers are zero (C99_transform_plain), and is_unity_translation compares with 1e-8 in whatever unit the coordinates have, so the same system can be in the origin or not (C99_unity_counterexample; exact condition C99_unity, C99_unity_series)."
  },
  {
   "property": "C100",
   "status": "partial",
   "theorems": [
    "Weldx.Groove.C100_profile",
    "Weldx.Groove.C100_same",
    "Weldx.Groove.C100_area",
    "Weldx.Groove.C100_speed",
    "Weldx.Groove.C100_accepted",
    "Weldx.Groove.C100_dimensions_iff",
    "Weldx.Groove.C100_dimensions",
    "Weldx.Groove.C100_dimensions_counterexample"
   ],
   "note": "Proved except for the last sentence: dimensions are checked for all parameters of I, V, VV, UV, U, HV and HU grooves (C100_dimensions), but not for the heights h1 and h2 of the double grooves and for no parameter of front face grooves except the first thickness (C100_dimensions_counterexample; exact condition C100_dimensions_iff)."
  },
  {
   "property": "C101",
   "status": "partial",
   "theorems": [
    "Weldx.Csm.C101_structure",
    "Weldx.Csm.C101_answer",
    "Weldx.Csm.C101_answer_default",
    "Weldx.Csm.C101_query",
    "Weldx.Csm.C101_default_partial",
    "Weldx.Csm.C101_unknown",
    "Weldx.Csm.C101_scipy",
    "Weldx.C101_unit_counterexample",
    "Weldx.C101_tolerance_counterexample",
    "Weldx.C101_default_counterexample"
   ],
   "note": "Proved for systems without expressions whose parts that are close to the unity are the unity (C101_query, C101_default_partial, C101_unknown; C101_answer and C101_answer_default: both answers are the composition of the systems on the path at each time; C101_scipy: the interpolation of scipy meets the hypotheses). Fails in three ways: the unit of a zero translation is lost (C101_unit_counterexample), parts within the tolerance of the writer become the unity whatever their unit is (C101_tolerance_counterexample), and a system whose time dependent parts are all unity loses its times (C101_default_counterexample)."
  },
  {
   "property": "C102",
   "status": "partial",
   "theorems": [
    "Weldx.Csm.C102_no_time_partial",
    "Weldx.Csm.C102_path",
    "Weldx.Csm.C102_chain_partial",
    "Weldx.Csm.C102_laws_partial",
    "Weldx.Csm.C102_stored",
    "Weldx.Csm.C102_missing_and_parent",
    "Weldx.Csm.C102_order_independent",
    "Weldx.Csm.C102_counterexample",
    "Weldx.Csm.C102_no_time",
    "Weldx.Csm.C102_no_time_expression",
    "Weldx.NoTimeDemo.C102_no_time_refused",
    "Weldx.C102_expression_untimed"
   ],
   "note": "C102_path holds at all times: the answer is the composition along the direct path, where the stored inverse is used against the direction of a supplied system. C102_chain_partial and C102_laws_partial hold at the times at which all systems that rotate have a support time or which lie outside of their times. Between them the statement is wrong: C102_counterexample. C102_missing_and_parent: unknown names and the default reference system. C102_no_time (C102_no_time_partial): without a time the answer has the times of the systems on the path and is their composition at each of them, if one of them has times or none is given by an expression. C102_no_time_expression: the other paths; a single link is returned as it is stored, everything else raises (C102_no_time_refused). C102_expression_untimed: an answer that is an expression comes from a single link and has no times. C102_stored: what the other direction of a link stores. C102_order_independent: equal answers."
  },
  {
   "property": "C103",
   "status": "partial",
   "theorems": [
    "Weldx.Csm.C103_named_partial",
    "Weldx.Csm.C103_rejected",
    "Weldx.Csm.C103_text",
    "Weldx.Csm.C103_counterexample",
    "Weldx.Csm.C103_named",
    "Weldx.Csm.C103_unusable"
   ],
   "note": "Proved for names that do not describe a time (C103_named, C103_unusable; C103_named_partial and C103_rejected are the versions for discrete systems). A reference time may be passed only if the times are absolute. Fails for a system with a name like \"1\", which pandas reads as a time: C103_text, C103_counterexample."
  },
  {
   "property": "C104",
   "status": "partial",
   "theorems": [
    "Weldx.Pint.C104_accepts",
    "Weldx.Pint.C104_value",
    "Weldx.Pint.C104_invariant",
    "Weldx.Pint.C104_unit",
    "Weldx.Pint.C104_arrays",
    "Weldx.Pint.C104_arrays_value",
    "Weldx.Pint.C104_arrays_unit",
    "Weldx.Pint.C104_generic_create",
    "Weldx.Pint.C104_generic_step",
    "Weldx.Pint.C104_generic",
    "Weldx.Pint.C104_generic_value",
    "Weldx.Pint.C104_time_series",
    "Weldx.Pint.C104_time_series_value",
    "Weldx.Pint.C104_series_create",
    "Weldx.Pint.C104_series",
    "Weldx.Pint.C104_discrete",
    "Weldx.Pint.C104_discrete_data",
    "Weldx.Pint.Demo.C104_time_unit_counterexample",
    "Weldx.Pint.Demo.C104_variable_units_counterexample",
    "Weldx.Pint.C104_time_arrays",
    "Weldx.Pint.C104_time_arrays_value"
   ],
   "note": "Proved for scalar values of variables and parameters (C104_accepts, C104_value, C104_invariant, C104_unit), arrays (C104_arrays, C104_arrays_value, C104_arrays_unit), time series (C104_time_series, C104_time_series_value, with arrays as parameters C104_time_arrays, C104_time_arrays_value), generic series (C104_series_create, C104_series, with arrays and stepwise evaluation C104_generic_create, C104_generic_step, C104_generic, C104_generic_value) and discrete series (C104_discrete, C104_discrete_data). Not true of the code, kept as theorems: the unit of interpolated values is not always the attribute units (C104_time_unit_counterexample), and a generic series accepts values with other dimensions than the declared ones, against its documentation (C104_variable_units_counterexample). Units with an offset like degree Celsius are not covered."
  },
  {
   "property": "C105",
   "status": "partial",
   "theorems": [
    "Weldx.Csm.C105_absolute",
    "Weldx.Csm.C105_absolute_partial",
    "Weldx.Csm.C105_absolute_counterexample",
    "Weldx.Csm.C105_timed_partial",
    "Weldx.Csm.C105_back_partial",
    "Weldx.Csm.C105_other_reference",
    "Weldx.Csm.C105_static_partial",
    "Weldx.Csm.C105_get_data",
    "Weldx.Csm.C105_counterexample"
   ],
   "note": "Proved for data without a reference time or with the one of the manager (C105_timed_partial, C105_back_partial), for data without times (C105_static_partial; a path whose systems have no times must not have an expression), and for get_data (C105_get_data). Not true of the code for data with another reference time: C105_other_reference describes exactly what happens (an error if the orientation moves, values at shifted times and dropped times if only the origin moves, correct values if nothing moves), C105_counterexample is a concrete case. Data with a reference time in a manager without one: C105_absolute describes exactly what happens, C105_absolute_partial gives the cases that are right, and C105_absolute_counterexample is a manager in which all data are lost without an error although data and systems have the same reference time."
  },
  {
   "property": "C106",
   "status": "partial",
   "theorems": [
    "Weldx.Csm.C106_stored_partial",
    "Weldx.Csm.C106_seen_partial",
    "Weldx.Csm.C106_refused",
    "Weldx.Csm.C106_counterexample"
   ],
   "note": "Proved for data without a reference time or with the one of the manager (C106_stored_partial); that it does not matter where they are stored at times at which both directions of all links are inverse to each other (C106_seen_partial, see C23); refused calls and calls without a target system (C106_refused). Fails for data with another reference time than the manager: measured times are lost without an error when the data are stored (C106_counterexample)."
  },
  {
   "property": "C107",
   "status": "proved",
   "theorems": [
    "Weldx.C107_calculation",
    "Weldx.C107_points",
    "Weldx.C107_round_trip",
    "Weldx.C107_associative",
    "Weldx.C107_path"
   ],
   "note": "every operation is rounded with a relative error of at most 2^-53; overflow and underflow are left out (exists_rounding: rounding to a nearest number with 53 bits is such a rounding); sums from left to right; static systems"
  },
  {
   "property": "C108",
   "status": "partial",
   "theorems": [
    "Weldx.Ip.C108_interp",
    "Weldx.Ip.C108_samples",
    "Weldx.Ip.C108_order",
    "Weldx.Ip.C108_monotone",
    "Weldx.Ip.C108_samples_false"
   ],
   "note": "Proved for both rules of scipy (data with one and with more dimensions): existence and error (C108_interp), order on the side of the earlier sample and elements that do not change (C108_order), monotony between samples (C108_monotone), exact samples for data with one dimension and at and before the first time for others (C108_samples). Refuted: samples of data with more dimensions are not always reproduced exactly; 1 becomes 1 - 2^-53 at its own time (C108_samples_false). The rules of xarray, scipy and numpy are assumptions; overflow and underflow are left out."
  },
  {
   "property": "C109",
   "status": "partial",
   "theorems": [
    "Weldx.Geo.C109_angle",
    "Weldx.Geo.C109_far_counterexample",
    "Weldx.Geo.C109_flat_counterexample",
    "Weldx.Geo.C109_moves",
    "Weldx.Geo.C109_history",
    "Weldx.Geo.C109_construct"
   ],
   "note": "Proved for points, radii and translations of limited size: up to 10^6 for the construction (C109_construct), 5*10^5 for changes (C109_moves, which also bounds the distance to the exact positions), 10^5 for both (C109_history), in the unit of the points, with a limit for the number of changes (number times size at most 5*10^5), points at least 1e-6 apart and a radius of at most 10^6 times their distance. The angle is the exact one up to 1e-6 (C109_angle). Refuted without these limits: an arc that was translated by 2^28 (268 m in micrometres) can't be transformed any more (C109_far_counterexample), and an arc that is almost straight is refused, although it is accepted with exact arithmetic (C109_flat_counterexample). Overflow and underflow are left out; the symbolic integral for the length is the rounded product of radius and angle."
  },
  {
   "property": "C110",
   "status": "partial",
   "theorems": [
    "Weldx.Geo.C110_semicircle_counterexample",
    "Weldx.Geo.C110_always",
    "Weldx.Geo.C110_points",
    "Weldx.Geo.C110_nearly_partial",
    "Weldx.Geo.C110_shape_partial",
    "Weldx.Geo.C110_gap"
   ],
   "note": "Refuted: a semicircle from (2, 2) to (0, 0) about (1, 1) and a line that starts in (0, 0) are refused as a shape with 'Segments are not connected', since the calculated end of the arc is more than 1e-8 away from the origin, although the tolerance is 1e-9 (C110_semicircle_counterexample). Proved: shapes are accepted if the sine of the angle of every arc is at least s, the sine of the angle between the first axis and its start is zero or at least s, and its radius is at most 10^4*s, with s at least 1e-8, coordinates up to 10^5 and radii that agree up to 1e-10 (C110_shape_partial, C110_nearly_partial, C110_points). Gaps that are larger than the tolerance are refused (C110_gap). For all arcs the error is at most a millionth of the radius plus twice the difference of both radii (C110_always). Overflow, underflow and units are left out."
  },
  {
   "property": "C111",
   "status": "partial",
   "theorems": [
    "Weldx.Groove.C111_FF_partial",
    "Weldx.Groove.C111_FF_code",
    "Weldx.Groove.C111_U_degrees_partial",
    "Weldx.Groove.C111_HU_degrees_partial",
    "Weldx.Groove.C111_V_degrees_partial",
    "Weldx.Groove.C111_HV_degrees_partial",
    "Weldx.Groove.C111_VV_degrees_partial",
    "Weldx.Groove.C111_DV_degrees_partial",
    "Weldx.Groove.C111_DHV_degrees_partial",
    "Weldx.Groove.C111_DU_degrees_partial",
    "Weldx.Groove.C111_DHU_degrees_partial",
    "Weldx.Groove.C111_UV_degrees_partial",
    "Weldx.Groove.C111_FF_degrees_partial",
    "Weldx.Groove.C111_DU_partial",
    "Weldx.Groove.C111_chain_partial",
    "Weldx.Groove.C111_DU_heights",
    "Weldx.Groove.C111_half_partial",
    "Weldx.Groove.C111_I_partial",
    "Weldx.Groove.C111_V_partial",
    "Weldx.Groove.C111_HV_partial",
    "Weldx.Groove.C111_HU_partial",
    "Weldx.Groove.C111_VV_partial",
    "Weldx.Groove.C111_DV_partial",
    "Weldx.Groove.C111_DHV_partial",
    "Weldx.Groove.C111_DHU_partial",
    "Weldx.Groove.C111_U_partial",
    "Weldx.Groove.C111_UV_partial"
   ],
   "note": "Refuted: a double U groove with a root face and different heights is refused although all dimensions fit together, since the root face ends at h1 + c while the center of the next arc is above h2 + c (C111_DU_heights; the example has 15 mm and 14 mm). Proved: U grooves with a radius between 0.1 mm and 400 mm, an angle with a cosine of at least 0.1, other lengths up to 1000 mm, a root face of zero or at least 1e-5 mm and a groove face of at least 1e-5 mm can be made (C111_U_partial), also double U grooves with equal heights or without root face and a lower angle whose sine is at least 0.001 and R2/400 (C111_DU_partial). With bounds of the same kind, I, V, VV and double V grooves can be made (C111_I_partial, C111_V_partial, C111_VV_partial, C111_DV_partial) and also the grooves with one straight side (C111_HV_partial, C111_HU_partial, C111_DHV_partial, C111_DHU_partial); the width is the given one or, if it exceeds the edge by less than one, the sum of both (Widened); the straight side of the double ones has the given width even when the other side is widened. UV grooves can be made if the radius is at most 100 mm and the lower face ends at least R/20 in front of the end of the arc (C111_UV_partial; points up to 1e-8, end of the groove face up to 1e-7). Front face grooves with lengths between 1e-5 mm and 1000 mm can be made and have the points of C74 up to 1e-9 (C111_FF_partial; for the code number 3.1.1 the width must differ from t_1 + 1 mm by 1e-9); missing parameters and other code numbers give the same errors as without rounding (C111_FF_code). The points of the VV groove are those of the code, with the middle at h + c. The points are the exact ones up to 1e-11, the ends of the groove faces up to 1e-8. Every chain of lines and arcs that are not too small becomes a profile whose right shape is exactly the mirror image of the left one (C111_chain_partial). Angles in degrees are converted with an error of at most 1e-15 (radiansF_close) and all grooves can be made with them, with twice these deviations and slightly narrower bounds (C111_U_degrees_partial and the corresponding theorems of the other grooves; a front face groove has the points of an angle that differs by at most 4e-15, C111_FF_degrees_partial). Missing: other dimensions. Overflow, underflow and units are left out."
  },
  {
   "property": "C112",
   "status": "partial",
   "theorems": [
    "Weldx.Groove.C112_shape_partial",
    "Weldx.Groove.C112_profile_partial",
    "Weldx.Groove.C112_weight",
    "Weldx.Groove.C112_between",
    "Weldx.Groove.C112_local_partial",
    "Weldx.Groove.C112_ends",
    "Weldx.Groove.C112_linear",
    "Weldx.Groove.C112_given",
    "Weldx.Groove.C112_outside",
    "Weldx.Groove.C112_refused",
    "Weldx.Groove.C112_same_counterexample",
    "Weldx.Groove.C112_gap_counterexample"
   ],
   "note": "Refuted: the interpolation of a line from (0, 0) to (3, 0) with itself and the number next to 0.053 as weight ends at 3 - 2^-51, since (1 - weight) * a + weight * b is rounded four times (C112_same_counterexample). Refuted too: two accepted shapes with a small gap between their lines at x = 100 and x = -100 cannot be interpolated, since the tolerance is relative to the coordinates and the gap is too large at x = 0 (C112_gap_counterexample). Proved: polylines with coordinates up to 4e4 whose interpolated points have a distance of at least 2e-6 can be interpolated and the points are exact up to 1e-9 (C112_shape_partial, C112_profile_partial), also at all locations of a variable profile (C112_local_partial). The rounded weight is between 0 and 1, has an error of at most 1e-15 and is exact at both ends (C112_weight). The results for weights 0 and 1 and at the given locations are exactly the given profiles (C112_ends, C112_linear, C112_given). Missing: a condition on gaps that is sufficient, larger coordinates and shorter lines. Overflow, underflow and units are left out."
  },
  {
   "property": "C113",
   "status": "partial",
   "theorems": [
    "Weldx.Groove.C113_line_partial",
    "Weldx.Groove.C113_shape_partial",
    "Weldx.Groove.C113_corners",
    "Weldx.Groove.C113_refused",
    "Weldx.Groove.C113_end_counterexample",
    "Weldx.Groove.C113_closed_counterexample"
   ],
   "note": "Refuted: the last raster point is not always the end of the shape, since the rounded difference of both ends is added to the start (C113_end_counterexample); a closed square with the first corner (1, 2) gets this corner twice, since each coordinate of the end is compared with both coordinates of the start (C113_closed_counterexample). Proved for coordinates up to 4e4 and widths from 1e-6: all points are the exact ones up to 1e-9 and the number of steps differs from the quotient by at most 0.51 (C113_line_partial, C113_shape_partial); all corners but the last one are raster points without any error (C113_corners); the end is added if one of its coordinates differs enough from one of the coordinates of the start and left out if all are equal (C113_shape_partial). Missing: arcs, larger coordinates and smaller widths. Overflow, underflow and units are left out."
  },
  {
   "property": "C114",
   "status": "partial",
   "theorems": [
    "Weldx.Geo.C114_raises",
    "Weldx.Geo.C114_answer",
    "Weldx.Geo.C114_unit_partial",
    "Weldx.Geo.C114_right_angle",
    "Weldx.Geo.C114_symmetric",
    "Weldx.Geo.C114_scale_counterexample",
    "Weldx.Geo.C114_parallel_counterexample"
   ],
   "note": "Refuted for the lengths: the product of both vectors is compared with the tolerance without dividing by the lengths. Any two vectors are called orthogonal if one of them is short enough, also parallel ones, and are not if it is long enough, unless the angle is exactly right (C114_scale_counterexample, C114_parallel_counterexample with the default tolerance). Proved: when the exception is raised, also for negative tolerances (C114_raises); the exact condition in terms of the angle and the lengths (C114_answer); the full statement about the angle for vectors of length one (C114_unit_partial); right angles (C114_right_angle); order, sense and common rotations (C114_symmetric). Real numbers instead of floats."
  },
  {
   "property": "C115",
   "status": "partial",
   "theorems": [
    "Weldx.Geo.C115_raises",
    "Weldx.Geo.C115_square",
    "Weldx.Geo.C115_orthogonal",
    "Weldx.Geo.C115_stack",
    "Weldx.Geo.C115_length_counterexample",
    "Weldx.Geo.C115_column_counterexample",
    "Weldx.Geo.C115_row"
   ],
   "note": "Refuted: the squares of the lengths of the rows are compared with the additional relative tolerance 1e-5 of np.allclose, so matrices with rows that are too long are accepted without a tolerance (C115_length_counterexample); a single column of ones is accepted, since np.eye is made with the number of columns and broadcast (C115_column_counterexample). Proved: the exact condition for square matrices (C115_square), orthogonal matrices are accepted (C115_orthogonal), arrays of several matrices (C115_stack), which shapes raise (C115_raises), a single row with several columns is never accepted (C115_row). Real numbers instead of floats."
  },
  {
   "property": "C116",
   "status": "partial",
   "theorems": [
    "Weldx.MethodName.C116_setter",
    "Weldx.MethodName.C116_supported_partial",
    "Weldx.MethodName.C116_constructor_counterexample",
    "Weldx.MethodName.C116_kept",
    "Weldx.MethodName.C116_equal"
   ],
   "note": "Refuted: the constructor takes every text without the check of the setter, and the schema of the file accepts it (C116_constructor_counterexample); evaluations of discrete series have the default method (C116_kept), so a series with another method is not equal to its evaluation at its own coordinates (C116_equal). Proved: the setter (C116_setter), all series are supported if the constructor only gets documented methods (C116_supported_partial), files keep the method of discrete series (C116_kept). The content of a series is abstract here."
  },
  {
   "property": "C117",
   "status": "partial",
   "theorems": [
    "Weldx.Leaves.C117_arrays",
    "Weldx.Leaves.C117_types",
    "Weldx.Leaves.C117_values",
    "Weldx.Leaves.C117_equivalence_partial",
    "Weldx.Leaves.C117_counterexample"
   ],
   "note": "Refuted: leaves with nan are not equal to themselves, so compare_nested(a, a) is false for them; entries of arrays are compared without their type, so 1 and 1.0 are equal in arrays and different in lists (C117_counterexample). Proved: symmetry and transitivity, and reflexivity exactly without nan (C117_equivalence_partial); arrays (C117_arrays), types (C117_types) and other leaves (C117_values). Quantities, pandas and xarray objects and Time are left out."
  },
  {
   "property": "C118",
   "status": "partial",
   "theorems": [
    "Weldx.Docs.C118_member",
    "Weldx.Docs.C118_class",
    "Weldx.Docs.C118_single_partial",
    "Weldx.Docs.C118_counterexample",
    "Weldx.Docs.C118_shared"
   ],
   "note": "Refuted: the search does not stop at the first docstring, so the most distant parent decides, and a parent without docstring removes one that was found (C118_counterexample); an inherited function is changed in the class that defines it (C118_shared). Proved: the exact result for one member (C118_member) and for a class whose functions are not used under several names (C118_class); the documented result if the parents have only one function of this name (C118_single_partial)."
  },
  {
   "property": "C119",
   "status": "partial",
   "theorems": [
    "Weldx.WriteSettings.C119_create",
    "Weldx.WriteSettings.C119_close",
    "Weldx.WriteSettings.C119_sync",
    "Weldx.WriteSettings.C119_write_to",
    "Weldx.WriteSettings.C119_copy",
    "Weldx.WriteSettings.C119_threshold",
    "Weldx.WriteSettings.C119_counterexample"
   ],
   "note": "Refuted: sync without arguments and write_to with any other argument ignore the compression of the constructor, and arguments that sync does not name (auto_inline) are lost on close (C119_counterexample). Proved: the settings on creation (C119_create), close (C119_close) and copy (C119_copy); exactly when the settings of sync and write_to are as wanted (C119_sync, C119_write_to); the threshold and the unchanged options (C119_threshold). What asdf does with the settings is not modelled; that its options are restored is an assumption about config_context."
  }
 ]
}