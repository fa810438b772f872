# Formal model of weldx: design

Source under study: `/repo` (BAMWelDX/weldx, pinned commit). The code is read as text only; it is never run.
Properties are listed in `properties.jsonl` (C01, C02, ...). This file says what is modelled, how the statements are proved, and what
is not covered. `MANIFEST.json` maps properties to theorem names. `seeded/LOG.jsonl` lists the wrong programs that were tried.

## Trusted base

* Lean 4.33.0 kernel. No axioms are added (section "Axioms"). No `sorry`, `native_decide`, `bv_decide`.
* Mathlib, for definitions of real numbers, matrices, trigonometric functions, lists.
* Faithfulness of the models to the Python text. Each definition cites file and lines, and says where it simplifies. Nothing in this
  project compares the models with a run of the code.
* Third-party libraries (numpy, xarray, pandas, networkx, scipy, sympy, pint, asdf, boltons, hashlib, PyAV) are represented by the
  behaviour weldx uses; each assumption is written at the definition that makes it. Main ones:
  * floating point numbers are replaced by exact elements of a commutative ring, field, ordered field or by real numbers;
    `np.isclose`-style tolerances become equality, except in the geometry of shapes and in C94, where the tolerance is part of the
    model.
    Rounding is outside the model, except in `Time/ResampleFloat.lean` (C25), where every operation of `numpy.linspace` is rounded
    to a nearest number with 53 bits (`Base/Binary64.lean`; the exponent is not bounded, ties are broken in any way), and in `Frame/Rounded.lean`
    (C107), where every operation on coordinate systems is rounded with a relative error of at most 2^-53, as are
    the raster positions in `Trace/RasterFloat.lean` (C45, C50). `Interp/Float.lean` (C108) interpolates and `Time/ConvertFloat.lean`
    (C80) converts times to quantities and back with numbers that are rounded to 53 bits after every operation. `Geometry/ArcFloat.lean`
    (C109) constructs and moves arcs with rounded operations, `Geometry/ShapeFloat.lean` (C110) evaluates their points and
    connects them to shapes; there the rounding of real numbers is to the nearest number (`Base/Binary64Real.lean`).
    `Groove/GrooveFloat.lean` and `Groove/FrontFloat.lean` (C111) make profiles of all grooves in this way, `Groove/InterpFloat.lean` (C112) interpolates profiles, `Groove/RasterLines.lean` (C113) rasterises shapes of lines.
    `Groove/GrooveFloatDegrees.lean` converts angles from degrees: a rounded product with a number close to π / 180 (`Factor`).
  * `networkx.shortest_path` is modelled by a concrete search. Theorems use only the facts that it returns a walk and
    never fails when there is one. `networkx.topological_sort` is specified (it finds an order if there is one).
  * `scipy.spatial.transform.Slerp` is a parameter that returns the given rotations at its ends and rotations in between. In C96 it is
    a concrete function that meets this (`C96_slerp_ok`); only the choice of rotation vectors stays a parameter.
  * pandas timestamps and timedeltas are integers (nanoseconds).
  * `set` iteration order is a parameter or does not matter.
* Python exceptions are values. Methods that change objects are functions `state → result × state`, so that changes made before an
  exception stay visible (`Base/Py.lean`).
* Objects are values except in `Csm/Alias.lean` and the `Nested` and `Geometry` models: histories of managers (`Csm.Reachable`) assume
  that two managers share no objects. `Csm/Alias.lean` has a heap and shows what sharing does after a merge (C19).

## Layout

`lean/Verif/<Area>/Model.lean` (or one file for small areas): model of the code, each definition with citation.
`Spec.lean`, or a section "Specification": small, independent vocabulary for the statements. `*Lemmas.lean`: helper lemmas. `*Props.lean`:
the property theorems, named `Cnn_...`, with non-trivial `example`s that satisfy their hypotheses. Theorems whose name ends in
`_counterexample` refute a statement for a concrete object of the model.

| area | properties | method |
|------|-----------|--------|
| `Base` | - | insertion ordered dictionaries, computations with state and exceptions |
| `Frame` | C01-C04, C73, C79 | orientation matrix and origin over a commutative ring; matrix identities; orthonormal frames are a group; rotations of Euler angles and their storage; products of arrays with named dimensions (`Labelled`: checks and broadcasting of `xr.apply_ufunc`, coordinates of shared dimensions are equal) |
| `Csm` | C05-C19, C56, C57, C70, C71, C87, C89 | ordered node and edge dictionaries as in networkx; invariant by induction over all histories; unique simple paths of trees; rerooting; renaming; serialisation as trees; heap model; creation from angles and axes (`Create`); positions and arrows of the drawing (`Layout`) |
| `Csm` | C97 | `unmerge` with its warning, systems that stay, are returned or are lost after changes made since the merge (`Unmerge`, `UnmergeProps`) |
| `Geometry`, `Trace` | C98 | quantities with units of length: construction, points, raster, connection and interpolation of segments, contours, translations, transformations, reflections, traces and geometries in other units than millimetre (`Geometry/Units`, `Geometry/UnitsProps`, `Geometry/UnitsMoves`, `Trace/Units`, `Trace/UnitsProps`) |
| `TimeLcs` | C99 | units of length of static and moving systems: sums, inverses, interpolation, answers of `get_cs` and `transform_data`, data without unit, the test for a system at the origin (`TimeLcs/Units`, `TimeLcs/UnitsProps`); queries without a time for systems given by expressions (`TimeLcs/NoTime`, part of C62) |
| `Groove` | C100 | units of groove parameters: profiles of all classes, areas, welding speed, filled in heights, the check of dimensions (`Groove/Units`, `Groove/UnitsProps`) |
| `Csm`, `TimeLcs` | C101 | a manager written with the systems converted one by one and read again (`Csm/SerialMap`), `get_cs` of both managers with units and times (`TimeLcs/FileQuery`) |
| `TimeLcs` | C102 | `get_cs` of a whole manager: the tree of `Csm` with time dependent systems, expressions and units (`TimeLcs/Manager`), and without a time (`TimeLcs/NoTimeManager`; `TimeLcs/FileAnswer`, which also gives the values of the answers in C101) |
| `TimeLcs` | C103 | `get_cs` with the name of a system as time (`TimeLcs/NamedTime`; systems that are given by expressions: `TimeLcs/NoTimeManager`) |
| `MathExpr` | C104 | expressions over quantities with units (factor and dimensionality): acceptance, values in base units, the unit of the result (`MathExpr/Units`); arrays with units (`MathExpr/UnitsArrays`); time series with arrays as parameters (`MathExpr/UnitsTime`); generic series with arrays and stepwise evaluation (`MathExpr/UnitsGeneric`); time series and generic series of expressions and of discrete values with units (`MathExpr/UnitsSeries`) |
| `TimeLcs` | C105 | `transform_data` and `get_data` of a whole manager for data with and without times: arrays with a coordinate of time deltas, `join="exact"` in the product and `arithmetic_join="inner"` in the sum of xarray (`TimeLcs/TimedData`), with reference times in a manager without one (`TimeLcs/DataRef`) |
| `TimeLcs` | C106 | `assign_data` of data with times and a target system (`TimeLcs/Scan`) |
| `Interp`, `TimeLcs`, `TimeSeries` | C20-C23, C37, C62, C67, C72, C75 | sample lists over ℝ-modules, interpolation as in xarray, time axes with reference times, creation and storage |
| `Time` | C24-C27, C66, C80 | integer deltas, optional reference; quantities with rational magnitudes and arrays with the attribute `time_ref` (`Convert`) |
| `Measurement` | C28-C31, C76 | graph of signals and transformations, invariant over all histories |
| `Validators` | C32-C34, C65 | character level parser of shapes, matching relation as specification, trees |
| `Nested` | C35, C117 | trees of containers with identities; leaves over ℝ with nan (`Leaves`) |
| `MathExpr`, `Series` | C36, C64, C68, C69, C76, C116 | expressions, labelled arrays, parameters; generic series; interpolation; names of interpolation methods with abstract content (`MethodName`) |
| `File` | C38, C40-C42, C63, C81 | dictionaries with protected keys, None removal, chunked reading, header search; `ExternalFile` with a file system of absolute paths (`External`) |
| `Version` | C39, C55, C90 | parsing and order of versions; patterns of tags and what they match, converter classes and their search, welding processes, tags of grooves, registry of standards (`Tags`) |
| `Schema` | C91 | the 63 schema files as data (`Files`), keywords and validators (`Model`), what the converters write (`Trees`), which objects are accepted (`Basic`, `Series`, `Shapes`, `Geometry`, `Frames`, `Graphs`, `Classes`), metadata, patterns and manifest (`Meta`), statements (`Props`) |
| `Trace` | C92 | segments that are described by expressions: evaluation, derivative, length and translation (`Expression`), points, tangents and frames (`ExpressionProps`), length of the curve and rules of differentiation (`ArcLength`), translations and the radial segment (`Shifted`) |
| `Trace` | C93 | segments that are described by points: length of sections and end points (`Discrete`), shape segments with translation, transformation and rasterisation (`ShapePoints`) |
| `Frame` | C94 | orthogonality check of coordinate systems with its tolerance (`Tolerance`), accepted systems (`ToleranceProps`), error bounds, calculations and systems for which they fail (`ToleranceBounds`) |
| `Frame` | C107 | calculations with rounding after every operation (`Rounded`), errors of single operations (`RoundedLemmas`), of whole calculations (`RoundedProps`) |
| `Interp` | C108 | linear interpolation with rounding after every operation (`Float`) |
| `TimeLcs` | C96 | interpolation of rotations along rotation vectors (`Slerp`), rotations about axes and Euler's theorem (`SlerpLemmas`), shortest ways, symmetries, uniform rotations and half turns (`SlerpProps`) |
| `Mesh` | C43, C59, C86 | index arithmetic of triangulations, signed volumes; surfaces of geometries placed in space (`Solid`) |
| `Trace` | C44-C46, C60, C61 | segments, frames along traces, variable profiles, rasterised solids; positions with rounding (`RasterFloat`) |
| `Geometry` | C47-C51, C54, C84, C109, C110, C114, C115 | points over ℝ, lines and arcs, shapes with object identities; lists, shapes and profiles as objects (`Objects`); arcs and shapes with rounding (`ArcFloat`, `ShapeFloat`); checks for orthogonal vectors and arrays of matrices over ℝ (`Orthogonal`, `OrthogonalMatrix`) |
| `Groove` | C52, C53, C74, C111, C112, C113 | groove cross sections, areas, welding speed, front face grooves, creation and storage; grooves with rounding (`GrooveFloat`), interpolation and rasterising with rounding (`InterpFloat`, `RasterLines`) |
| `Media` | C58, C81 | frame arithmetic; creation and storage of media files (`Storage`; what the video libraries read is a function of the content of the file) |
| `Storage` | C77, C78, C85 | typed arrays with names, units and attributes, trees of the converters, spatial data; generated converters of dataclasses with attribute dictionaries and lists as objects (`Dataclass`) |
| `Xarray` | C82, C83 | time coordinate with attribute dictionaries as objects (`TimeRef`), units of coordinates (`Units`; parsing and printing of units are parameters) |
| `Xarray` | C95 | comparison of coordinates with a reference: values with broadcasting, data types, units; its use for coordinate systems and series (`Check`, `CheckProps`) |
| `SchemaTree` | C88 | nested data visited as by `remap`, class of nested schemas as specification, one invariant for all five passes |

## Not modelled

Plotting and visualisation, interactive widgets, pint unit registry internals, ASDF library internals (YAML, blocks), floating point
rounding (except in C25, C45, C50, C80, C107 and C108), file system effects other than file content, threads (the library is single threaded), performance.

## Axioms

Output of `#print axioms` for all theorems of `MANIFEST.json`:

* 1021 theorems: [propext, Classical.choice, Quot.sound]
* 106 theorems: [propext, Quot.sound]
* 49 theorems: [propext]
* 7 theorems: does not depend on any axioms

All other theorems depend on `propext`, `Classical.choice` and `Quot.sound`; those with fewer axioms are: `C71_array_arg`, `C71_values_arg`, `C76_time_series_discrete`, `C76_time_series_kinds`, `Csm.C10_remove_missing`, `Csm.C11_delete_data_counterexample`, `Csm.C15_unmerge_counterexample`, `Csm.C18_not_tree`, `Csm.C18_root_counterexample`, `Csm.C18_single_counterexample`, `Csm.C19_alone_target`, `Csm.C19_systems`, `Csm.C57_data_counterexample`, `Csm.C57_nested_counterexample`, `Csm.C57_root_counterexample`, `Csm.C57_subsystem_counterexample`, `Csm.C70_original`, `Csm.C70_others`, `Csm.C87_no_conflict`, `Csm.C97_docstring_counterexample`, `Csm.C97_silent_counterexample`, `Dc.C85_arc`, `Dc.C85_arc_read`, `Dc.C85_missing`, `File.C38_clear`, `File.C40_bare`, `File.C40_empty`, `File.C40_full`, `File.C40_lists`, `File.C40_lost`, `File.C40_no_dict`, `File.C40_nonempty`, `File.C40_unchanged`, `File.C41_changed`, `File.C41_chunk_zero`, `File.C41_chunks`, `File.C41_path`, `File.C41_read_hash`, `File.C41_roundtrip`, `File.C41_stale`, `File.C42_binary`, `File.C42_header`, `File.Session.C63_close_twice`, `File.Session.C63_close_without_sync`, `File.Session.C63_copy_overwrites`, `File.Session.C63_copy_schema`, `File.Session.C63_created`, `File.Session.C63_custom_schema`, `File.Session.C63_empty_handle`, `File.Session.C63_empty_tree`, `File.Session.C63_isolation`, `File.Session.C63_kwargs`, `File.Session.C63_kwargs_shared`, `File.Session.C63_readonly_handle`, `File.Session.C63_rejected_leaves_file`, `File.Session.C63_saved`, `File.Session.C63_set`, `File.Session.C63_sync_mode`, `File.Session.C63_tree_needs_rw`, `File.Session.C63_write_schema_unused`, `File.Session.C63_written`, `Groove.C100_dimensions_counterexample`, `Me.C36_names`, `Me.C36_unknown`, `Me.C36_value`, `Me.C68_parameter`, `Me.C68_spatial_parameter`, `Me.C68_spatial_unchecked`, `Me.C69_discrete`, `Me.C69_discrete_iff`, `Me.C69_discrete_unreadable`, `Me.C69_math_leak`, `Me.C69_math_shared`, `Me.C69_math_user`, `Me.C76_expression_oneway`, `Me.C76_expression_otherway`, `Me.C76_series_kinds`, `Meas.C28_new_signal`, `Meas.C30_attach`, `Meas.C30_attach_iff`, `Meas.C30_rejected_unchanged`, `Meas.C31_counterexample`, `Meas.C31_same_behaviour`, `Meas.C76_chain_equivalence`, `Meas.C76_chain_transformations`, `Mesh.C43_count`, `MethodName.C116_equal`, `MethodName.C116_kept`, `Nested.C35_both_directions_partial`, `Nested.C35_contained_partial`, `Nested.C35_text`, `Nested.C35_zero_key_counterexample`, `RefCheck.C95_kinds`, `Schema.C91_node_units`, `Schema.C91_timestamp`, `Schema.C91_types`, `Sto.C77_array`, `Sto.C77_array_identical`, `Sto.C77_array_same`, `Sto.C77_array_values`, `Sto.C77_integers`, `Sto.C77_kept`, `Sto.C77_misfit`, `Sto.C77_name_lost`, `Sto.C77_quantity`, `Sto.C77_scalar_bool`, `Sto.C77_scalar_type`, `Sto.C77_set`, `Sto.C77_set_same`, `Sto.C77_variable`, `Sto.C78_created`, `Sto.C78_limits_empty`, `Sto.C78_no_unit`, `Sto.C78_wrong_unit`, `Tag.C90_enable`, `Tag.C90_load`, `Tag.C90_pattern`, `Tag.C90_two_stars`, `Time.C25_resample_rejected`, `Time.C26_duration_empty`, `Time.C27_equals_counterexample`, `Time.C80_close_lengths`, `Time.C80_close_not_symmetric`, `Time.C80_pandas`, `TimeRef.C82_reset_counterexample`, `TimeRef.C82_reset_none`, `TimeRef.C82_setter`, `TimeRef.C82_setter_frame`, `TimeRef.C82_setter_rejects`, `TimeSeries.C67_constant`, `TimeSeries.C67_constant_array`, `TimeSeries.C67_constant_iff`, `TimeSeries.C67_expression`, `TimeSeries.C67_shape`, `TimeTags.C66_dti`, `TimeTags.C66_empty`, `TimeTags.C66_frequency`, `TimeTags.C66_resolution`, `TimeTags.C66_time_reference_set`, `TimeTags.C66_time_zone_lost`, `TimeTags.C66_week_text`, `TimeTags.C66_weeks`, `Ver.C39_tag_version`, `Ver.C39_version`, `Walk.C65_list`, `Walk.C65_nested_required`, `Walk.C65_pattern`, `Walk.C65_pattern_middle`, `Walk.C65_tag`, `Walk.C65_unit`, `Walk.C65_unit_no_crash`, `XUnits.C83_dequantify`, `XUnits.C83_empty_counterexample`, `XUnits.C83_from_quantities`, `XUnits.C83_indexes`, `XUnits.C83_indexes_counterexample`, `XUnits.C83_quantify`, `XUnits.C83_quantify_fails`, `XUnits.C83_quantities`, `XUnits.C83_quantities_fails`, `XUnits.C83_units`, `XUnits.C83_units_none`.

## Status per property

The statements are in `properties.jsonl`. A property that the code does not have is reported as partial: the theorems then prove the part that holds and a counterexample for the rest.

| id | status | title | theorems | notes |
|--|--|--|--|--|
| C01 | proved | Adding two coordinate systems composes their transformations | add_composes, add_assoc, default_neutral | exact arithmetic (with rounding: C107); static systems |
| C02 | proved | Inversion and subtraction undo addition | invert_inverse, invert_invert, add_sub_cancel, sub_relative, sub_formula | exact arithmetic (with rounding: C107); static systems |
| C03 | proved | Orthogonality and handedness are closed under the operations | orthonormal_closed, handedness, isometry, construct_iff, construct_result | constructor over the real numbers, tolerance of the orthogonality test idealised to equality |
| C04 | proved | Constructing a system from two axes completes it to a right-handed one | from_two_axes, too_few_axes, from_three_axes |  |
| C05 | proved | The coordinate systems of a manager always form a tree | tree, links | relabel and interp_time are separate, see C17 |
| C06 | proved | get_cs always succeeds and does not depend on insertion order or path search | get_cs_path, composition_unique, order_independent, missing_and_default | systems that can be evaluated (Coherent); static systems always can |
| C07 | proved | get_cs obeys identity, inverse and chain laws | group_laws | in any group of transformations; for time dependent systems evaluated between samples see C23 |
| C08 | proved | Transforming data there and back is lossless and path consistent | transform_data, points |  |
| C09 | proved | Parent, child and neighbour queries describe the same tree | parent, parent_child, neighbors, all_children, unknown |  |
| C10 | proved | delete_cs removes exactly a system and its descendants | delete_exact, delete_keeps_relations, delete_succeeds, remove_missing, delete_records |  |
| C11 | partial | Rejected calls leave the manager unchanged | rejected_unchanged, delete_data_partial, delete_data_counterexample, subsystem_calls_succeed | all mutating calls except delete_data (and relabel, C17): proved. delete_data: proved for systems, relations and data, false for subsystem records (machine-checked counterexample) |
| C12 | proved | Re-adding an existing system replaces exactly that relation | add_changes_only_link, new_system, add_succeeds |  |
| C13 | proved | Data names are unique and lookups are consistent | data_consistent, has_data_unknown, assign, delete, get_data |  |
| C14 | proved | Merging preserves both managers | merge_accepted, merge_union, merge_transformations |  |
| C15 | partial | unmerge restores the merged parts | same_content_same_answers, last_merged_is_extracted, unmerge_restores_partial, merge_unmerge, unmerge_counterexample | any number of merges followed by unmerge: proved under the condition that a later manager has no data at a system shared only with an earlier merged one; without it false (counterexample). Changes between merge and unmerge are in C97 |
| C16 | partial | Time reference consistency | add_accepted, merge_accepted, no_mixture_partial, merge_counterexample | proved for all calls except merging a manager with own reference time, where it is false (counterexample) |
| C17 | partial | Renaming systems only changes names | rename, answers, subsystems, cycle, cycle_counterexample, collision_counterexample | Mappings without cycles that give different names to different systems rename every reachable manager without subsystems; relations, parents and data are found under the new names (C17_rename, C17_answers). Managers with subsystems raise without a change (C17_subsystems). Negations: a mapping with a cycle raises after the root has been changed (C17_cycle, C17_cycle_counterexample); a new name that is in use silently drops a system with its data (C17_collision_counterexample). The topological sort of networkx is specified, not modelled. |
| C18 | partial | A manager survives serialisation | content, series_counterexample, not_tree, single_counterexample, roundtrip, built, root_counterexample | Managers built by the user (every operation but extraction of subsystems) with two or more systems and without systems given by expressions are written and read without any change (C18_built). Every other reachable manager with at least two systems and no expressions keeps its content, only the root may change (C18_content). Negations: a single system cannot be written (C18_single_counterexample), expressions make reading fail (C18_series_counterexample), extracted subsystems lose their root (C18_root_counterexample). |
| C19 | partial | Managers do not share mutable state after a merge | merge, new_record, shared, apart, assign, delete, duplicate, systems, records, alone, shared_target, apart_target, alone_target, assign_target | Refuted as stated, on a heap model of the objects: all systems of the merged-in manager but the common one have one data dictionary for both managers, so that both show the same data after any history of data operations (C19_shared); assigning (C19_assign) and deleting (C19_delete) in one is seen in the other, names of data stop being unique (C19_duplicate), and a further merge of the merged-in manager changes its record in the other one (C19_records). What holds: the merge itself leaves the other manager unchanged and shows the merge of the contents (C19_merge), data at the common system and at systems of only one manager stay apart (C19_apart), adding and deleting systems never changes the other manager (C19_systems); each command changes its own manager as in the model without objects (C19_alone). All of this includes assignments with a target system, for which the data is transformed first (C19_shared_target, C19_apart_target, C19_alone_target); the transformed data appears in the other manager, too (C19_assign_target). |
| C20 | proved | Interpolation in time is exact at samples, clamped outside and bounded between | own, exact, clamped, between, interp_time | Interpolation of two rotations by scipy is a parameter that gives its ends and rotations. Real arithmetic (with rounding: C108); all requested times distinct; C20_interp_time ties the interpolated system to the values; C20_own: at its own times a system is not changed. |
| C21 | proved | Changing the reference time keeps absolute times | absolute, relative, last, idempotent | The last reset wins is stated for systems with a reference time; without one the first reset keeps the deltas. |
| C22 | proved | Adding time dependent systems composes them at the times of the left operand | left, right, missing_reference_left, missing_reference_right | Interpolation of two rotations by scipy is a parameter that gives its ends and rotations. Finding: a left system without reference time is read relative to the one of the right system, the other order raises (C22_missing_reference_left/right). Finding: a static left system that still carries the single time of an earlier interpolation gives a static sum. |
| C23 | partial | Forward and reverse queries are inverse at any time | path_partial, counterexample | False in general: between two samples of a turning system with an offset the stored inverse is not the inverse (C23_counterexample, for every interpolation of rotations). Proved for paths at all times at which each system is an expression, has a static orientation, has a sample or is clamped. |
| C24 | proved | Time union contains exactly the given times in order | union, union_values, union_instance, union_order_grouping, union_mixed | integer nanoseconds; conversions from strings and quantities are not modelled |
| C25 | partial | Resampling covers the range | resample_number, resample_interval, resample_rejected, float_values, float_number_partial, float_iff, float_counterexample, float_error_counterexample | Proved for time deltas (C25_resample_interval), for the errors (C25_resample_rejected), and for integers with exact arithmetic (C25_resample_number). numpy.linspace calculates with floating point numbers of 53 bits; with this arithmetic, for every rule to round to nearest, the behaviour is described completely by C25_float_values: the property holds exactly if the first and the last value, counted from the reference time, are numbers with 53 bits (C25_float_number_partial, C25_float_iff), which includes all within 104 days. Refuted otherwise: time stamps with microseconds twenty years after the reference time give one value too many (C25_float_counterexample) or a ValueError (C25_float_error_counterexample). |
| C26 | proved | Time arithmetic is consistent with absolute time | add_delta, sub_delta, sub_absolute, rejected, reflected, duration, duration_empty | differences that are not increasing are rejected by the constructor; stated in the theorems |
| C27 | partial | Comparison of Time respects absolute instants | eq, equals_partial, equals_counterexample | equals: proved for equal lengths and stored reference times; false in general (counterexamples: explicit first value as reference, different lengths raise, not transitive for empty times) |
| C28 | proved | Measurement chain is a tree rooted at the source with consistent signals | tree, queries, add, new_signal, get_equipment, transformation_names |  |
| C29 | proved | Signal types and units propagate along the chain | types_and_units, create | units as commutative group; a function is represented by the unit it returns |
| C30 | proved | Measurement data is attached once and never overwritten | attach, attach_iff, never_overwritten, rejected_unchanged |  |
| C31 | partial | A measurement chain survives conversion to and from a dictionary | round_trip_partial, counterexample, same_behaviour | name, source, equipment, graph always restored; identical object if the last added signal is the only one not used as input; default signal differs otherwise (counterexample) |
| C32 | partial | Shape validation decides exactly the documented shape language | shape_language_partial, variables, structure, negative, none_counterexample | exact for fixed sizes, intervals, variables, optional dimensions and ellipsis at either end (acceptance iff match); false for None (counterexample); ASCII strings |
| C33 | partial | A dimension variable has one value in a validated tree | one_value, all_checked_partial, missing_key_counterexample | one value per variable: exact for the entries before a missing key; all entries checked if no key is missing; false otherwise (counterexample) |
| C34 | partial | Shape validation never crashes on a syntactically valid schema | no_crash_partial, interval_counterexample, variable_counterexample, nested_counterexample | no exception if sizes reach the limits of half open intervals and no variable dimension is missing; false otherwise (three counterexamples) |
| C35 | partial | compare_nested is an equivalence on nested data | equal_data, reflexive, contained_partial, both_directions_partial, extra_key_counterexample, empty_key_counterexample, zero_key_counterexample, text, letters, empty_list_counterexample, shared_counterexample, type_counterexample, exception_counterexample | Equal data always compares equal (so the comparison is reflexive); success in both directions without shared containers means equal keys and leaves everywhere. The full statement is false: further keys of b, empty keys, empty lists, shared lists and types of containers are not noticed, and scalars in b raise an exception; each is a counterexample theorem. |
| C36 | partial | Partial evaluation of expressions agrees with full evaluation | split, value, partition, unknown, names, overwrite, series, series_number, series_one | Splits, orders, partition, values and rejected names of evaluations are proved for expressions; stepwise evaluation of generic series agrees in dimensions and values (C36_series). Not true of the code, kept as theorems: set_parameters accepts names that are already fixed and replaces them (C36_overwrite), an unknown name leaves the object changed (C36_unknown), stepwise evaluation of a series loses coordinates (C36_series), a single number raises in a partial evaluation (C36_series_number). Units are not modelled. |
| C37 | proved | Time series interpolation | interp, exact, step, linear, constant, reference_lost, expression, expression_origin | Discrete series (step, linear, constant), time outside the range, sample values and expressions. Findings kept as theorems: the reference time is lost when a series with reference is interpolated at deltas (C37_reference_lost); an expression without reference queried at absolute times counts from the first requested time (C37_expression_origin). |
| C38 | proved | Protected file content can not be changed or removed through the mapping interface | protected, independent, clear | Protected keys are invisible and unchanged under every operation sequence; the view behaves as a dictionary over the other keys. Differences from dict kept in the semantics: pop never raises, popitem removes any visible item, setdefault returns None; clear raises KeyError when a protected key is missing (C38_clear). |
| C39 | partial | Highest tag version is selected numerically | highest, one_base, ambiguous, prefix, select, select_counterexample, select_digits_partial, version, tag_version | Highest version, uniqueness of the base and ambiguity proved. Negations: names that are prefixes of each other are not rejected (C39_prefix); select_tag chooses alphabetically, 0.9.0 over 0.10.0 (C39_select_counterexample). C39_select_digits_partial: right when all version numbers have one digit. |
| C40 | partial | Metadata survives serialisation unless it is None | full, unchanged, paths, lists, metadata, lost, no_dict, empty, nonempty, bare | Proved for all nested trees: no None is left, trees without None are unchanged, dictionary paths of any depth keep exactly the entries that are not None, metadata and user attributes are restored. Deviations kept as theorems: None entries of lists are dropped so that later entries move (C40_lists); empty or all-None metadata is not restored (C40_lost); metadata on objects stored as lists raises TypeError (C40_no_dict). |
| C41 | partial | Stored file hash detects any content change | chunks, chunk_zero, read, changed, roundtrip, stale, path, read_hash | Hash independent of every positive chunk size; chunk size 0 hashes nothing (C41_chunk_zero), so 'every chunk size' fails for 0. Changed content is detected on reading up to hash collisions; an already stored hash is written without a check (C41_stale). |
| C42 | proved | YAML header extraction stops at the first document end | header, binary | The header is everything up to and including the first end marker line, for all byte contents after it. UTF-8 decoding and YAML parsing are not modelled. |
| C43 | proved | Rasterised geometry triangulation is a closed surface | shape, geometry, count | All numbers of profiles >= 2 and points >= 3, both directions, any number of shapes with their offsets; number of triangles. Positions of the points and has_cw_ordering are the subject of C59. |
| C44 | partial | Trace segments join continuously | no_jump, direction, outside_partial, before_start, before_start_counterexample, behind_arc_counterexample, accepted, position, start, joint, length, plane | Proved for all traces of linear and radial segments and all positions on the trace (also: unit speed, no jumps, first axis is the direction of travel). Clamping of outside positions is false: before the start of a linear segment the system is turned by 180 degrees, beyond a radial segment the arc is continued (counterexamples proved); clamping of the position of linear segments behind the end is proved. |
| C45 | proved | Rasterising a trace covers it | positions, refused, step, dense, geometry, float_geometry, float_trace | Positions of Trace.rasterize and of Geometry._rasterize_trace. The step is at most 3/2 of the width (nearest number of steps). With rounding after every operation (C45_float_geometry, C45_float_trace): same number of positions, strictly increasing, every position is found on a segment, up to errors of a few 2^-53 of the length, if the length is at most about 10^12 widths. |
| C46 | proved | Variable profile interpolates between the neighbouring profiles | accepted, between, outside, given, linear, linear_outside, linear_number, single_counterexample | For arbitrary schemes; linear_profile_interpolation_sbs returns the given profiles at the ends for profiles of lines. Finding: a single profile without scheme is accepted but has no local profile (C46_single_counterexample). |
| C47 | partial | Shapes stay connected | add_lines, history_partial, tolerance, tolerance_counterexample, failed_transformation_counterexample, same_object_counterexample, construct, add | Construction and both ways of adding segments are characterised exactly, including that refused calls change nothing. The history invariant is proved for shapes of distinct objects, translations, isometries, reflections and (for exactly connected lines) all invertible maps. Full statement false: relative tolerance, transformations that raise half way, repeated objects (counterexamples). |
| C48 | proved | Reflection is an involution and fixes its line | reflection, involution, mirror, across_line | Mirror images are specified geometrically (midpoint on the line, difference along the normal). Hypothesis: segments of the shape are distinct objects made by their constructors. |
| C49 | proved | Segment and shape interpolation | lines, line_ends, points, arcs, shapes, shape_ends, schemes, tolerance_counterexample | For shapes of line segments that are exactly connected; refusal happens exactly if the two end points of a segment coincide. Shapes connected only up to the tolerance may be refused (counterexample). Any list of schemes: C49_schemes. |
| C50 | partial | Rasterising a shape | ties, steps, step_size, step_counterexample, segment, line_distinct, shape, refused, open, closed_partial, closed_counterexample, float | Two parts of the statement are false and refuted: steps can exceed the raster width (bound 1.5 proved instead), and closed shapes are closed twice unless the start point has (nearly) equal coordinates (exact characterisation proved). The relative positions on a segment are also proved with rounding (C50_float). |
| C51 | proved | Arc segments are consistent | radius, end, winding, accepted, with_radius, with_radius_accepted | Real arithmetic; the length of an arc is taken as radius times angle instead of the symbolic integral of the code. |
| C52 | partial | Groove cross sections | area_U, area_HU, area_DU, area_DHU, area_UV, U_accuracy, HU_accuracy, UV_accuracy, DU_accuracy, U, HU, U_arc, UV, DU_counterexample, DU, parameters, parameters_checked, parameters_counterexample, heights, heights_created, heights_one, heights_given, area, area_I, area_V, width, area_HV, area_V_degenerate, no_area, area_DV, area_DHV, area_VV, VV_angle | Areas of all eleven plane grooves (I, V, HV, DV, DHV, VV, U, HU, UV, DU, DHU) in closed form; for the grooves with arcs the exact value of the rasterised area (C52_area_U ... C52_area_DHU) and a bound on its distance to the area of the true arc: never larger, and smaller by less than 0.006 mm^2 per arc pair whatever the size (C52_*_accuracy). Profiles of U, HU, UV, DU exist with tangent arcs. Negations: double grooves are never checked for negative parameters (C52_parameters_counterexample); one given height of a double groove is copied to the other, so heights need not add up (C52_heights_one); VV groove has the given angle only for c = 0 (C52_VV_angle); DU groove with different heights and a root face cannot be made (C52_DU_counterexample). Front face grooves are C74. |
| C53 | proved | Welding speed keeps the weld volume | volume, units, positive, zero, V | Speed times groove area equals wire feed times wire cross section, in every system of units; positive for positive inputs and area; a groove of area zero raises ValueError. |
| C54 | proved | Point and vector side tests are antisymmetric sign functions | vector_side, zero_vector, line_side, vector_antisymmetric, line_antisymmetric, translation, transformation, reflection_sign, plane_side | Over any ordered field; np.sign of exact numbers. |
| C55 | proved | Quality standard selection returns the newest version | latest, exact, names, empty | Latest schema, exact versions, unknown names and empty lists. |
| C56 | proved | Subsystem bookkeeping stays extractable | subsystems |  |
| C57 | partial | Manager equality is an equivalence relation | reflexive, content, symmetric, symmetric_plain, symmetric_subs, symmetric_iff, transitive, answers, root_counterexample, subsystem_counterexample, nested_counterexample, data_counterexample | Equality of reachable managers is reflexive and transitive; equal managers have the same systems, relations and (non-empty named) data and answer questions about relations equally; C57_symmetric_iff says exactly when equality is symmetric (names not empty): if the left operand and its subsystems, at any depth, have subsystems wherever the right one has; in particular for managers without subsystems or with flat subsystems on both sides. Negations: the root is not compared, so parents differ (C57_root_counterexample); subsystems of the right operand are not noticed if the left one has none (C57_subsystem_counterexample, C57_nested_counterexample for subsystems of subsystems); data with an empty name is not noticed (C57_data_counterexample). |
| C58 | partial | Media file frame lookup | monotone, frame, start, start_nonneg, count, rate, count_container, count_stored, times, times_counterexample, duration | Frame numbers are monotone and exact for streams that start at zero; less than one off otherwise. Negation: frame times are spread over the whole duration, so frame k is later than k/fps (C58_times_counterexample). |
| C59 | partial | Triangulated surfaces point outwards | volume, direction_partial, outward_partial, counterexample | Volume formula proved for every straight sweep and both reported directions. has_cw_ordering is right if the first point is repeated at the end (or the closing edge does not contribute); it omits the edge from the last to the first point, and is wrong for an obtuse triangle (C59_counterexample): the surface is then turned inside out. |
| C60 | proved | Custom trace segments have the frame of their tangent | free, limited, vertical, discrete_tangent, before_first, data_length | Discrete and symbolic segments; the length of symbolic segments is an input. Finding: before the first point of a discrete segment the tangent is the vector from the last to the first point (C60_before_first). |
| C61 | proved | The raster of a geometry is the profile swept along the trace | constant, systems, congruent, perpendicular, variable, variable_ends, profile, straight, stack, stack_ignored, stack_refused | For traces of linear and radial segments; np.hstack of a profile without shapes is not modelled as an error. C61_stack, C61_stack_refused: with a constant profile the argument stack only changes the order of the points. C61_stack_ignored: with a variable profile it has no effect. |
| C62 | proved | Queries with time compose the systems of the path at each point in time | default, static, no_time_link, no_time_path, no_time_static, no_time_counterexample, get_cs, kind | Interpolation of two rotations by scipy is a parameter that gives its ends and rotations. The path is given (existence and uniqueness: C06-C08). Static systems must not carry the single time of an earlier interpolation (TEdge.WF). Expressions count from the reference time of their system. Without a time: paths with at least one discrete time axis or only static systems give the composition; on other paths a system given by an expression is returned as stored (single link in the defined direction) or the query raises (C62_no_time_link, C62_no_time_path). |
| C63 | partial | Files change only through writable sessions | isolation, saved, close_without_sync, close_twice, tree_needs_rw, write_schema_unused, copy_overwrites, rejected_leaves_file, copy_schema, kwargs_shared, written, set, created, readonly_handle, sync_mode, kwargs, empty_tree, empty_handle, custom_schema | Proved over all sequences of calls: isolation of files that are not opened for writing, and of paths with something that is no ASDF file (C63_isolation); closing with sync stores the tree and reopening gives it (C63_saved, C63_close_without_sync, C63_tree_needs_rw). Refuted: the schema for writing is not used when an existing file is opened without a tree (C63_write_schema_unused), overwrite=False does not protect other ASDF files (C63_copy_overwrites), a copy does not keep the schemas (C63_copy_schema), the keyword dictionary of the caller is changed (C63_kwargs_shared), a rejected tree leaves an empty file that blocks the path (C63_rejected_leaves_file), closing twice raises (C63_close_twice). |
| C64 | partial | Discrete generic series are interpolated in each dimension | accepts, dims, value, order, steps, steps_general, grid, bounds, method_lost | Everything except the last part is proved for any number of dimensions (C64_accepts, C64_dims, C64_value, C64_grid, C64_bounds, C64_order). Evaluation in steps is proved for linear interpolation (C64_steps) and refuted for other methods: the result of an evaluation forgets the method (C64_method_lost, C64_steps_general). The methods 'quadratic' and 'cubic' are not modelled. |
| C65 | partial | Unit and tag validation decide exactly the declared requirements | unit, unit_no_crash, nested_required, missing, list, pattern, pattern_middle, tag, property_tag | Proved for all trees that have the nested mappings of the schema (C65_unit, C65_unit_no_crash), for property tags (C65_property_tag) and patterns (C65_pattern, C65_pattern_middle). Refuted: a missing optional nested mapping is the reason of a KeyError instead of being accepted (C65_missing, C65_nested_required); the schema test_unit_validator-0.1.0 has such an optional property. asdf.util.uri_match is not part of the repository and is modelled from its documentation. |
| C66 | partial | Time objects survive serialisation | frequency, tdi_general, tdi, tdi_shape, week_text, weeks, resolution, empty, dti, time_zone_lost, time, time_reference_set | Proved for nanosecond indexes that are not empty (C66_tdi, C66_dti, C66_time, C66_tdi_shape, C66_frequency for names of old and new pandas versions). Refuted: regular time deltas with steps of whole weeks are stored with a frequency that can not be read (C66_weeks), irregular indexes with another resolution change their values (C66_resolution), irregular time stamps lose the time zone (C66_time_zone_lost), empty indexes can not be stored (C66_empty), a relative Time with a reference time set later becomes absolute (C66_time_reference_set). Frequency inference of pandas is modelled from its documentation; for time stamps it is a parameter with the law that the inferred rule generates the index again. |
| C67 | partial | Time series survive serialisation | series, shape, constant, constant_iff, constant_array, expression | Proved for series with several values (C67_series, C67_shape). Refuted for others: constants lose their time and reference time (C67_constant, C67_constant_iff), a constant array can not be read if the asdf library drops the missing time (C67_constant_array), expressions lose their reference time (C67_expression). |
| C68 | partial | The constructor of a generic series finds every conflict | test, never_unbound, result, accepts, class, errors, parameter, own_name_rejected, spatial, spatial_parameter, discrete, spatial_unchecked, variable_c | Proved: the constructor of GenericSeries accepts exactly the described inputs (C68_accepts, C68_test), its result meets the hypotheses of the evaluation theorems (C68_result), accidental exceptions do not happen (C68_errors), and exactly what derived classes check (C68_class, C68_discrete, C68_spatial). Refuted: the required coordinates are not guaranteed for expressions (C68_spatial_unchecked, C68_variable_c), and parameters whose dimension has their own name lose it and can be rejected (C68_parameter, C68_own_name_rejected). pint's arithmetic of units is a function here and modelled in C104_generic_create. Not modelled: parsing of the expression. |
| C69 | partial | Generic series and mathematical expressions survive a file | expression, constructed, discrete, discrete_iff, discrete_unreadable, math, math_side_effect, math_leak, math_shared, math_user | Proved: every expression series that the constructor returns is written and read without change (C69_expression, C69_constructed); for discrete series and mathematical expressions the exact conditions under which this holds (C69_discrete, C69_discrete_iff, C69_math), and exactly what saving changes (C69_math_side_effect). Refuted: series without unit or with other coordinates can not be read (C69_discrete_unreadable); shared quantities get the dimensions of the last parameter (C69_math_shared), the attribute set by saving changes what later expressions are read as (C69_math_leak), and user metadata makes the file unreadable (C69_math_user). Coordinates of array parameters are always lost. Not modelled: strings of expressions, files of quantities. |
| C70 | partial | Interpolation of a whole coordinate system manager | ok_iff, result, inv, inv_all, unknown, root, original, others, copy, repeat, values, kind, no_time, shared, reverse_counterexample | Proved: when the call succeeds (C70_ok_iff), everything it changes (C70_result), that the result is a valid manager with inverse directions (C70_inv, C70_inv_all), that the supplied directions keep their values at the given times (C70_values), that a call without in_place changes no existing object and gives the same manager (C70_original, C70_copy), that objects the manager does not refer to stay (C70_others), and that order and repetitions of the listed systems do not matter (C70_repeat; the general theorems need that interpolating a second time changes nothing, which is proved for the actual interpolation, so C70_values, C70_kind and C70_no_time hold for all lists). Refuted: the values of the other direction change (C70_reverse_counterexample); listing the root leaves a half changed manager (C70_root); systems without reference time that another manager uses too are moved in time for it (C70_shared); time deltas can not be used with a manager that has a reference time, unlike in get_cs (C70_kind). |
| C71 | partial | A coordinate system has the values it was created with | values, values_arg, array_arg, arrays, static, default, time_ignored, same_deltas, moved, conflict, kinds, expression, expression_unusable, counterexample, series_arg, series_constant, series, series_step, series_reference, series_time, series_counterexample | Proved: systems made of arrays that count from the same reference time (or of which one is static) have the given values at the given times, for any time axes, and count from the given reference time (C71_values, C71_arrays, C71_static, C71_values_arg, C71_array_arg, C71_expression); values that do not fit are rejected, as are arrays with different time deltas and different reference times (C71_conflict, C71_kinds). Refuted: only time deltas are compared, so that with the same time deltas and different reference times the coordinates are silently moved in time (C71_moved, C71_counterexample); the parameter time has no influence on arrays (C71_time_ignored); a system with an expression and orientations that have a reference time can not be evaluated at any time unless time_ref is given (C71_expression_unusable). Coordinates given as a discrete TimeSeries: the system has the values of the series at its time stamps (C71_series_arg, C71_series_constant, C71_series). Refuted for series: step interpolation becomes linear (C71_series_step), a reference time given together with a constant series is lost (C71_series_reference, C71_series_counterexample). |
| C72 | partial | A coordinate system read from a file is the one that was written | read, exact_iff, stable, values, legacy, expression, still, small | Proved: what is read (C72_read), exactly which systems are read as they were written (C72_exact_iff), that further files do not change them (C72_stable), the tolerance of the values (C72_values), expressions (C72_expression) and files of the first version (C72_legacy). Refuted: time dependent systems that stay at the origin are read as static systems without times (C72_still); small coordinates are lost depending on their unit, and zero coordinates lose their unit (C72_small). |
| C73 | partial | A rotation read from a file is the one that was written | axes, order, exact, stored, euler, one_three, stable, half_turn, units, counterexample | Proved for any as_euler that meets its documentation (EulerOk, shown to be satisfiable): quaternions, matrices and rotation vectors are exact (C73_exact), Euler angles about one or three axes give the same rotations (C73_one_three), for two axes exactly if the second angle is not beyond a right angle (C73_euler), what was read is stable (C73_stable), units (C73_units). Refuted: for two axes and a second angle beyond ninety degrees the converter cuts off the third angle of the completed sequence, the rotation that is read differs by a half turn (C73_half_turn, C73_counterexample); a stack of one rotation becomes a single rotation (example). |
| C74 | partial | Front face grooves consist of the described plates, created and stored grooves keep their parameters | tee, lap, cross, corner, corner_obtuse, corner_overlap, bend, bend_gap, depth, depth_overlap, missing, unknown, file, args, required, front_optional, defaults, created, read_checked, counterexample_overlap, counterexample_gap | Proved: the plates, thicknesses, angles and distances of every code number (C74_tee, C74_lap, C74_cross, C74_corner, C74_bend, C74_depth), missing parameters and unknown codes are rejected (C74_missing, C74_unknown), the arguments of get_groove (C74_args, C74_required, C74_defaults), the file round trip of all classes (C74_file, C74_created). Refuted: for 3.1.3 and 4.1.1 the distance is 2 b cos(alpha / 2) (C74_bend, C74_bend_gap, C74_counterexample_gap); for obtuse angles the plates of 3.1.1 are closer than the root gap (C74_corner_obtuse) or overlap (C74_corner_overlap, C74_counterexample_overlap), those of 4.1.2 overlap (C74_depth_overlap). |
| C75 | partial | Systems with an expression keep their motion when the reference time changes | absolute, single, relative, reset_keeps, reset_moves, query_reference, reset_iff, lost, construct, reset_none, reset_last, counterexample | Proved: the values at all absolute and relative times for every combination of reference times (C75_absolute, C75_single, C75_relative); resets do not change the motion if the series has a reference time (C75_reset_keeps), and without one exactly if the expression is periodic (C75_reset_iff); the last reset counts (C75_reset_last). Refuted: without a reference time of the series a reset moves the motion in time (C75_reset_moves, C75_counterexample); the reference time of the series is not that of the system, which then refuses absolute times (C75_lost); a rejected reset to None removes the reference time (C75_reset_none). |
| C76 | partial | Equal objects behave in the same way | flat, expression_iff, expression_evaluate_partial, expression_oneway, expression_otherway, series_iff, series_kinds, series_equivalence, series_evaluate, counterexample, time_series_partial, time_series_discrete, time_series_kinds, time_series_reference, system, system_expression_partial, system_reference, system_counterexample, chain_equivalence, chain_signals_partial, chain_transformations | Proved: when expressions, series, time series, systems and chains are equal (C76_expression_iff, C76_series_iff, C76_system, C76_chain_equivalence), equal ones evaluate alike (C76_expression_evaluate_partial, C76_series_evaluate, C76_time_series_partial, C76_time_series_discrete, C76_chain_signals_partial). Refuted: the parameters are compared in one direction only, so that the comparison of expressions is not symmetric (C76_expression_oneway); the reference times of time series are not compared (C76_time_series_reference, C76_system_reference); the transformations of measurement chains are not compared (C76_chain_transformations). |
| C77 | partial | Arrays, data sets and quantities read from a file are those that were written | variable, kept, array, array_same, array_values, array_again, set, set_same, set_dimensions, quantity, array_identical, name_lost, scalar_type, scalar_bool, integers, misfit | Proved: exactly when variables, arrays, data sets and quantities can be written (C77_variable, C77_array, C77_set, C77_quantity); what was written can always be read and keeps dimensions, values, units, attributes and coordinates (C77_array_values); the exact condition for identity (C77_array_same, C77_array_identical, C77_set_same, C77_kept); a second storage changes nothing (C77_array_again); the stored dimensions are right (C77_set_dimensions). Refuted: the name of an array is lost (C77_name_lost), scalars of shorter number types change their type (C77_scalar_type), scalar truth values can not be written (C77_scalar_bool). |
| C78 | partial | Spatial data is checked when created and survives storage and export | created, wrong_unit, no_unit, write_iff, read, same, signed_triangles, legacy, numbers, times, wrong_numbers, limits, limits_empty, mesh_file, mesh_unit, attributes_lost | Proved: the checks of the constructor (C78_created, C78_no_unit), exactly which objects can be written (C78_write_iff), what was written can be read (C78_read), the exact condition for equality (C78_same), files of the old version (C78_legacy), the limits (C78_limits, C78_limits_empty), export and import (C78_mesh_file, C78_mesh_unit). Refuted: a wrong unit raises an AttributeError (C78_wrong_unit); triangles given as an array of signed integers are accepted but can not be written (C78_signed_triangles); attributes and additional coordinates of arrays with two dimensions are lost (C78_attributes_lost). |
| C79 | proved | Matrix operations on arrays with named dimensions act on every matrix of the array | transpose, matmul, matvec, square, square_vec, square_result, square_vec_result, orthogonal, add, invert, transform, transform_rejects | Products with any names and flags (C79_matmul, C79_matvec), when the products with default names exist (C79_square, C79_square_vec) and their dimensions (C79_square_result, C79_square_vec_result), transposition (C79_transpose), orthogonality (C79_orthogonal), coordinate systems (C79_add, C79_invert) and data (C79_transform, C79_transform_rejects). |
| C80 | partial | Times can be converted to all supported types and back without loss | float_back_partial, float_quantity, float_counterexample, quantity, quantity_back, back_iff_partial, back_counterexample, array, array_datetime, pandas, item, items, items_reversed, close, close_self, close_kinds, close_not_symmetric, close_lengths, close_reference, close_own_quantity | Proved: values of quantities and arrays (C80_quantity, C80_array), the way back has the same values and restores the reference time if it is given again (C80_quantity_back, C80_array), exactly which times survive the way there and back (C80_back_iff_partial), the pandas types (C80_pandas), items and slices (C80_item, C80_items, C80_items_reversed), when times are close (C80_close, C80_close_self, C80_close_kinds). With rounding: error of the magnitudes (C80_float_quantity), the values survive if no duration is longer than nine days (C80_float_back_partial, if to_timedelta gives the nearest nanosecond), but not after three years (C80_float_counterexample). Refuted: the reference time is lost on the way to a quantity or array and back (C80_back_counterexample); arrays with time stamps raise a TypeError (C80_array_datetime); all_close is not symmetric (C80_close_not_symmetric), accepts different lengths (C80_close_lengths), and is false for the same points in time with other reference times (C80_close_reference) and for the quantity of the time itself (C80_close_own_quantity). |
| C81 | partial | External files and media files keep their content and their attributes | suffix, create, directory, write, write_place, write_when, write_noname, write_copy, write_counterexample, read, second, export_after_read, save_path, save_counterexample, algorithm, save_missing, media_sequence, media_memory, media_path, media_reference, media_fps_ignored, media_file, media_changed_counterexample, media_missing, media_malformed | Proved: what is recorded at creation (C81_suffix, C81_create, C81_directory), what and where is exported (C81_write, C81_write_place, C81_write_copy), storage and reading on every machine (C81_read, C81_save_path), media files from memory (C81_media_sequence, C81_media_memory), media files from paths (C81_media_path, C81_media_file, C81_media_missing, C81_media_fps_ignored), malformed trees (C81_media_malformed). Refuted: a stored name such as ../x is exported outside of the directory (C81_write_counterexample); the content is lost when an object that was read is stored again, or storing raises (C81_second); an object that was read cannot be exported into a directory unless the content is passed (C81_export_after_read); a lower case algorithm is accepted by an object from a buffer but cannot be stored (C81_save_counterexample); a changed video is read without an error although the hash of the old one is stored (C81_media_changed_counterexample). |
| C82 | partial | Changing the reference time of an array keeps its absolute times | unset_new, unset_times, unset_no_ref, restore_fails, restore_new, restore_times, restore_unset, unset_restore, setter, setter_frame, setter_rejects, reset_fails, reset, reset_none, reset_counterexample | Proved: time_ref_unset (C82_unset_new, C82_unset_times, C82_unset_no_ref), time_ref_restore (C82_restore_new, C82_restore_times, C82_restore_fails), both directions (C82_restore_unset, C82_unset_restore), the setter (C82_setter, C82_setter_frame, C82_setter_rejects), reset_reference_time (C82_reset, C82_reset_fails, C82_reset_none). Refuted: without a time coordinate reset_reference_time ignores the request and even its type, so that the result has no reference time (C82_reset_counterexample). |
| C83 | partial | Units of coordinates do not depend on the form of the attribute | quantities, quantities_fails, from_quantities, indexes, quantify, dequantify, quantify_fails, quantify_quantities, dequantify_quantities, units, units_none, empty_counterexample, indexes_counterexample | Proved: quantities of coordinates (C83_quantities, C83_quantities_fails), coordinates from quantities (C83_from_quantities), both forms (C83_quantify, C83_dequantify, C83_quantify_fails), the dictionary of quantities is the same exactly if no coordinate has the empty text as unit (C83_quantify_quantities, C83_dequantify_quantities), unit of the data (C83_units, C83_units_none). Refuted: a coordinate whose unit is the empty text is no quantity before quantify_coords and a dimensionless quantity after it (C83_empty_counterexample); indexes_as_quantities raises for every array with an index (C83_indexes, C83_indexes_counterexample). |
| C84 | partial | Copies of shapes are independent and calls change only their own object | in_place, history, copy_frame, copy_value, copy_independent, add, add_refused, copy_add, profile_add, profile_new, shape_new, add_counterexample, in_place_counterexample | Proved: changes in place touch only segments of the shape (C84_in_place, C84_history); copies (C84_copy_frame, C84_copy_value, C84_copy_independent, C84_copy_add); add_segments changes exactly the shapes with the same list object (C84_add, C84_add_refused); profiles (C84_profile_add, C84_profile_new). Refuted: the constructor keeps the list that it gets, so that add_segments on one shape also extends another shape that was made from the same list (exShared_made, C84_add_counterexample); shapes that share a segment move together, after which one of them is not connected any more (C84_in_place_counterexample). |
| C85 | partial | Generated converters write and read all attributes, and saving leaves the object alone | saved, others, unshared, unsorted, again, tree, loaded, roundtrip_partial, extra, changed, equipment, equipment_sources, missing, equipment_names, shared_counterexample, extra_counterexample, default_counterexample, arc, arc_read | Proved: what saving does to the object, to lists and to other objects (C85_saved, C85_others, C85_unshared, C85_unsorted); the second time is the same (C85_again); what is written (C85_tree) and read (C85_loaded), with a full round trip for objects whose lists of strings are sorted and that have no further attributes (C85_roundtrip_partial) and for measurement equipment (C85_equipment); processes (C85_arc, C85_arc_read). Refuted: saving sorts lists of strings in the object itself, gives it new lists and loses the order (C85_changed, C85_shared_counterexample); an added attribute is written but the file can not be read (C85_extra, C85_extra_counterexample); None is read as the default (C85_default_counterexample); equipment without sources is allowed by the schema but can not be read (C85_equipment_sources). |
| C86 | partial | The surface of a geometry encloses the solid and can be exported | points, closed, volume, direction, direction_closed, outward_partial, inward, sideways, length_partial, export, variable, diagonal_counterexample, trace_counterexample, export_counterexample | Proved: points (C86_points), closed surface for all horizontal traces (C86_closed), volume up to sign for each shape (C86_volume), the sign exactly (C86_direction, C86_direction_closed), towards the outside if the trace runs along the first axis and shapes repeat their first point (C86_outward_partial, C86_length_partial), the export (C86_export), variable profiles (C86_variable). Refuted: has_cw_ordering looks at the y- and z-coordinates in space, so the surface is turned inside out if the trace runs against the x-axis (C86_inward), or, for counter-clockwise shapes, perpendicular to it (C86_sideways, C86_trace_counterexample); closed shapes that start on the diagonal, such as the origin, do not repeat their first point and can be turned inside out even on the default trace (C86_diagonal_counterexample); to_file fails if two shapes have different numbers of raster points (C86_export_counterexample; with numpy from 1.24 on). |
| C87 | proved | Systems created by the manager have the given relation to their reference system | plain, default, euler, axes, when, no_conflict, create_cs, create_parts, create_euler, create_axes, new, existing, supplied, times | Real arithmetic, one orientation and position (C87_plain, C87_euler, C87_axes, C87_create_cs, C87_create_parts, C87_create_euler, C87_create_axes); what is stored for systems with several times (C87_supplied, C87_times); success and failure (C87_when, C87_no_conflict); the other systems (C87_new, C87_existing). |
| C88 | partial | The overview of a schema shows its properties, their classes and which of them are required | actual, summary_partial, summary_iff, types, information, letter, dimension_counterexample, prefix_counterexample, drop_counterexample, alternatives_counterexample, keyword_counterexample | Proved: the result for all such schemas (C88_actual), it is the overview if (C88_summary_partial) and only if (C88_summary_iff) every required property has a tag, a reference or the type object, array, string or number, and no other property begins with the name of a required one. Refuted: required integers, booleans and properties without type lose their last letter (C88_letter), as in the schemas of dimensions (C88_dimension_counterexample, 'lengt, required)') and weld details; other properties are marked as required (C88_prefix_counterexample); keys to drop do not match properties with a class (C88_drop_counterexample); KeyError if 'required' stands without 'properties', as in core/file (C88_alternatives_counterexample); properties without class that are named like a keyword vanish (C88_keyword_counterexample). Lists of schemas (items, oneOf) are in the model of the code but not in the class of schemas that the theorems describe. |
| C89 | proved | The drawing of the graph of coordinate systems shows each system and each link once | all, level, distinct, width, planar, arrow, once, colour | Positions are exact fractions instead of floating point numbers; the drawing itself is done by networkx and matplotlib. The statement on colours assumes that the inverse of a system depends on time exactly if the system does, and that systems given as expressions do. |
| C90 | partial | Tags belong to exactly one converter, and processes, grooves and standards are stored under their own name | pattern, two_stars, named, format, disjoint, converter, unique, class, name_counterexample, derived_counterexample, weldx, unknown, manifest, created, process_tag, process_counterexample, process_read_partial, process_again, meta_counterexample, groove_tag, groove_ambiguous, groove_counterexample, groove_class, enable, load | Refuted parts: a process whose tag is a known kind with a version appended is saved under a tag that does not exist; None in the dictionary meta is lost; the first tag of a groove is written, not the newest; a class with a name does not handle the tags it lists, and a converter derived from another converter is not found. Everything else is proved. |
| C91 | partial | What a converter writes is accepted by the schema of its tag | types, node_shape, node_units, metadata, rotation_metadata, patterns, manifest, plain, times, quantity, quantity_counterexample, variable, data_array, dataset, variable_counterexample, expression, series, series_counterexample, generic, file, file_counterexample, media, spatial, spatial_counterexample, rotation, lcs, lcs_unchecked, graph, uuid_counterexample, error, signal, transformation, transformation_counterexample, chain, measurement, chain_counterexample, hierarchy, hierarchy_counterexample, groove, groove_counterexample, gas, gas_type, gas_procedure, gas_counterexample, arc, base_metal, penetration, details, connection, weldment, design_counterexample, gmaw, spray, pulse, pulse_counterexample, uuid, timestamp, timestamp_counterexample | Refuted parts, each with a witness: complex or boolean magnitudes, a single truth value as variable, a constant vector as time series, a file without host and content, triangles of signed integers, a rotation with metadata, UUIDs of other versions, transformations without error, errors without deviation, measurement chains with branches, arrays and spatial data at one system, double grooves without root face, a text as joint design, other gases, and a pulsed process with both sets of parameters are rejected; without coordinates the shape of orientations is not checked. Everything else is proved. |
| C92 | partial | Segments that are described by expressions | length, section, section_start, additive, monotone, diff, points, tangent_partial, tangent_linear, tangent_scalar, frame_partial, frame_linear, translate, translate_many, translate_length, shared_series, shared_frame, radial, counterexample | Refuted parts, each with a witness: an expression that is linear in the position has no coordinate system at any position (TypeError), one whose derivative has no vector neither (ValueError), the length of the section at position 0 raises, and a translation in place spoils the series that the segment was made from. Positions are single numbers; that sympy finds the integral is not modelled. |
| C93 | partial | Segments that are described by points | section, total, length_partial, length_iff, section_error, ends_partial, lcs_end_partial, counterexample, construct, translate_points, transform, transform_error, transform_state, isometry, raster, raster_spacing_partial, raster_counterexample, depth_counterexample, transform_counterexample | Proved for positions before max_coord and everywhere if no position exceeds max_coord. Refuted, each with a witness: with the default max_coord 1 and positions up to 2 the length is that of all points, but the segment ends at position 1; raster points at uneven positions have different distances; third components count for the length but are not part of the points; a singular matrix raises and leaves transformed points with the former length. Positions are single numbers. |
| C94 | partial | Orthogonality check with its tolerance | sum_error, inverse_error, inverse_first_error, difference_error, calculation, exact_calculation, inverse_defect, inverse_accepted, sum_counterexample, difference_counterexample, exact, accepted | Proved: angles of accepted systems, error bounds for sums and inverses that are accepted, exact results for orthonormal systems, and that no calculation raises while the number of systems times their error stays below 1e-8; inverses are orthonormal up to 2.5e-8 and accepted if the rows are perpendicular up to 4e-9. Refuted with one accepted system: its sum with an exact rotation raises, a - a raises, and inverting twice gives another system. Real numbers instead of floats; static systems. |
| C95 | partial | Comparison of coordinates with a reference | accepted, exception, order, values_partial, values_counterexample, type_partial, time_text, kinds, str, type_counterexample, units, units_counterexample, orientation, coordinates, orientation_exception, series, series_exception, series_counterexample | Characterised completely. Refuted, each with a witness: a reference with one value is met by coordinates of any length that repeat it, also by empty ones; the unit of a described time is ignored if the description contains the long name, and matters for types and short names; the empty unit never matches itself; the check of series accepts a coordinate without dimension and in other units (creating the series then fails with another message). Coordinates have at most one dimension. |
| C96 | partial | Interpolation of rotations on the shortest way | exists, about, slerp_ok, rate, angle, path, unique, left, right_partial, inverse_partial, reverse_partial, same, fixed, axis, axis_other, uniform, full_turn, series_left, series_right_partial, series_inverse_partial, interp_time, reverse_counterexample, inverse_counterexample, right_counterexample, uniform_counterexample, unique_counterexample | Slerp is a concrete function here; only the choice of rotation vectors is a parameter, and choices exist. Refuted for half turns, whatever rotation vectors are chosen: the way back, the inverse and a turned child differ. Refuted for larger angles: three quarters of a turn are interpolated as a quarter turn back, a full turn does not move. |
| C97 | partial | unmerge after changes made since the merge | unmerge, root, parent, lost_parent, add, update, assign, delete_data, delete, merge, added_lost, added_kept, data, docstring_counterexample, silent_counterexample | Refuted: systems added below a system that came with a merge are lost (with a warning), against the docstring; data and the relation to the parent of an added system at which another manager was merged are lost without a warning. The rest is proved, with the exact condition for data to survive. |
| C98 | partial | geometry does not depend on the unit of length | translate, isometry, twin, transform_line, shape_translate, shape_isometry, reflection, across_line, transform_counterexample, line, arc_accepted, arc, arc_same, line_same, arc_radius, raster, connected, add_lines, interpolate, shape, shape_iff, shape_mm, shape_wrong, shape_closed, shape_counterexample, arc_counterexample, trace_length, trace_segment, add, trace, trace_position, trace_raster, standard, section, solid, trace_counterexample | Refuted in three places: Shape.rasterize takes the numbers of each segment without conversion and labels them as millimetres (exact condition proved), Geometry does the same with the coordinates of trace segments (exact condition proved), and the radius tolerance of arcs is 1e-8 in whatever unit is used, so that the same arc may be accepted or transformed in one unit and refused in another (C98_arc_counterexample, C98_transform_counterexample). Everything else is proved for all units, also translations, transformations and reflections (C98_translate, C98_isometry, C98_twin, C98_reflection, C98_across_line). |
| C99 | partial | coordinate systems do not depend on the unit of length | interp, add, invert, sub, link, reverse, get_cs, get_cs_default, transform, transform_back, transform_plain, answers, unity, unity_series, unity_counterexample | Proved except for the last sentence and one exception: data without unit are accepted if all numbers are zero (C99_transform_plain), and is_unity_translation compares with 1e-8 in whatever unit the coordinates have, so the same system can be in the origin or not (C99_unity_counterexample; exact condition C99_unity, C99_unity_series). |
| C100 | partial | grooves do not depend on the units of their parameters | profile, same, area, speed, accepted, dimensions_iff, dimensions, dimensions_counterexample | Proved except for the last sentence: dimensions are checked for all parameters of I, V, VV, UV, U, HV and HU grooves (C100_dimensions), but not for the heights h1 and h2 of the double grooves and for no parameter of front face grooves except the first thickness (C100_dimensions_counterexample; exact condition C100_dimensions_iff). |
| C101 | partial | a manager read from a file answers get_cs like the written one | structure, answer, answer_default, query, default_partial, unknown, scipy, unit_counterexample, tolerance_counterexample, default_counterexample | Proved for systems without expressions whose parts that are close to the unity are the unity (C101_query, C101_default_partial, C101_unknown; C101_answer and C101_answer_default: both answers are the composition of the systems on the path at each time; C101_scipy: the interpolation of scipy meets the hypotheses). Fails in three ways: the unit of a zero translation is lost (C101_unit_counterexample), parts within the tolerance of the writer become the unity whatever their unit is (C101_tolerance_counterexample), and a system whose time dependent parts are all unity loses its times (C101_default_counterexample). |
| C102 | partial | get_cs composes the supplied systems at every requested time | no_time_partial, path, chain_partial, laws_partial, stored, missing_and_parent, order_independent, counterexample, no_time, no_time_expression, no_time_refused, expression_untimed | C102_path holds at all times: the answer is the composition along the direct path, where the stored inverse is used against the direction of a supplied system. C102_chain_partial and C102_laws_partial hold at the times at which all systems that rotate have a support time or which lie outside of their times. Between them the statement is wrong: C102_counterexample. C102_missing_and_parent: unknown names and the default reference system. C102_no_time (C102_no_time_partial): without a time the answer has the times of the systems on the path and is their composition at each of them, if one of them has times or none is given by an expression. C102_no_time_expression: the other paths; a single link is returned as it is stored, everything else raises (C102_no_time_refused). C102_expression_untimed: an answer that is an expression comes from a single link and has no times. C102_stored: what the other direction of a link stores. C102_order_independent: equal answers. |
| C103 | partial | get_cs with the name of a system as time uses the times of this system | named_partial, rejected, text, counterexample, named, unusable | Proved for names that do not describe a time (C103_named, C103_unusable; C103_named_partial and C103_rejected are the versions for discrete systems). A reference time may be passed only if the times are absolute. Fails for a system with a name like "1", which pandas reads as a time: C103_text, C103_counterexample. |
| C104 | partial | Expressions and series give the same physical results whatever units are used | accepts, value, invariant, unit, arrays, arrays_value, arrays_unit, generic_create, generic_step, generic, generic_value, time_series, time_series_value, series_create, series, discrete, discrete_data, time_unit_counterexample, variable_units_counterexample, time_arrays, time_arrays_value | Proved for scalar values of variables and parameters (C104_accepts, C104_value, C104_invariant, C104_unit), arrays (C104_arrays, C104_arrays_value, C104_arrays_unit), time series (C104_time_series, C104_time_series_value, with arrays as parameters C104_time_arrays, C104_time_arrays_value), generic series (C104_series_create, C104_series, with arrays and stepwise evaluation C104_generic_create, C104_generic_step, C104_generic, C104_generic_value) and discrete series (C104_discrete, C104_discrete_data). Not true of the code, kept as theorems: the unit of interpolated values is not always the attribute units (C104_time_unit_counterexample), and a generic series accepts values with other dimensions than the declared ones, against its documentation (C104_variable_units_counterexample). Units with an offset like degree Celsius are not covered. |
| C105 | partial | Data with times are transformed with the systems at the same points in time | absolute, absolute_partial, absolute_counterexample, timed_partial, back_partial, other_reference, static_partial, get_data, counterexample | Proved for data without a reference time or with the one of the manager (C105_timed_partial, C105_back_partial), for data without times (C105_static_partial; a path whose systems have no times must not have an expression), and for get_data (C105_get_data). Not true of the code for data with another reference time: C105_other_reference describes exactly what happens (an error if the orientation moves, values at shifted times and dropped times if only the origin moves, correct values if nothing moves), C105_counterexample is a concrete case. Data with a reference time in a manager without one: C105_absolute describes exactly what happens, C105_absolute_partial gives the cases that are right, and C105_absolute_counterexample is a manager in which all data are lost without an error although data and systems have the same reference time. |
| C106 | partial | Data with times can be assigned to any system of a manager with moving systems | stored_partial, seen_partial, refused, counterexample | Proved for data without a reference time or with the one of the manager (C106_stored_partial); that it does not matter where they are stored at times at which both directions of all links are inverse to each other (C106_seen_partial, see C23); refused calls and calls without a target system (C106_refused). Fails for data with another reference time than the manager: measured times are lost without an error when the data are stored (C106_counterexample). |
| C107 | proved | Calculations with coordinate systems stay close to the exact result despite rounding | calculation, points, round_trip, associative, path | every operation is rounded with a relative error of at most 2^-53; overflow and underflow are left out (exists_rounding: rounding to a nearest number with 53 bits is such a rounding); sums from left to right; static systems |
| C108 | partial | Linear interpolation in time stays on the line through the samples despite rounding | interp, samples, order, monotone, samples_false | Proved for both rules of scipy (data with one and with more dimensions): existence and error (C108_interp), order on the side of the earlier sample and elements that do not change (C108_order), monotony between samples (C108_monotone), exact samples for data with one dimension and at and before the first time for others (C108_samples). Refuted: samples of data with more dimensions are not always reproduced exactly; 1 becomes 1 - 2^-53 at its own time (C108_samples_false). The rules of xarray, scipy and numpy are assumptions; overflow and underflow are left out. |
| C109 | partial | Arcs can be constructed from a radius and moved despite rounding | angle, far_counterexample, flat_counterexample, moves, history, construct | Proved for points, radii and translations of limited size: up to 10^6 for the construction (C109_construct), 5*10^5 for changes (C109_moves, which also bounds the distance to the exact positions), 10^5 for both (C109_history), in the unit of the points, with a limit for the number of changes (number times size at most 5*10^5), points at least 1e-6 apart and a radius of at most 10^6 times their distance. The angle is the exact one up to 1e-6 (C109_angle). Refuted without these limits: an arc that was translated by 2^28 (268 m in micrometres) can't be transformed any more (C109_far_counterexample), and an arc that is almost straight is refused, although it is accepted with exact arithmetic (C109_flat_counterexample). Overflow and underflow are left out; the symbolic integral for the length is the rounded product of radius and angle. |
| C110 | partial | Segments that share points form a shape despite rounding | semicircle_counterexample, always, points, nearly_partial, shape_partial, gap | Refuted: a semicircle from (2, 2) to (0, 0) about (1, 1) and a line that starts in (0, 0) are refused as a shape with 'Segments are not connected', since the calculated end of the arc is more than 1e-8 away from the origin, although the tolerance is 1e-9 (C110_semicircle_counterexample). Proved: shapes are accepted if the sine of the angle of every arc is at least s, the sine of the angle between the first axis and its start is zero or at least s, and its radius is at most 10^4*s, with s at least 1e-8, coordinates up to 10^5 and radii that agree up to 1e-10 (C110_shape_partial, C110_nearly_partial, C110_points). Gaps that are larger than the tolerance are refused (C110_gap). For all arcs the error is at most a millionth of the radius plus twice the difference of both radii (C110_always). Overflow, underflow and units are left out. |
| C111 | partial | Grooves can be made despite rounding | FF_partial, FF_code, U_degrees_partial, HU_degrees_partial, V_degrees_partial, HV_degrees_partial, VV_degrees_partial, DV_degrees_partial, DHV_degrees_partial, DU_degrees_partial, DHU_degrees_partial, UV_degrees_partial, FF_degrees_partial, DU_partial, chain_partial, DU_heights, half_partial, I_partial, V_partial, HV_partial, HU_partial, VV_partial, DV_partial, DHV_partial, DHU_partial, U_partial, UV_partial | Refuted: a double U groove with a root face and different heights is refused although all dimensions fit together, since the root face ends at h1 + c while the center of the next arc is above h2 + c (C111_DU_heights; the example has 15 mm and 14 mm). Proved: U grooves with a radius between 0.1 mm and 400 mm, an angle with a cosine of at least 0.1, other lengths up to 1000 mm, a root face of zero or at least 1e-5 mm and a groove face of at least 1e-5 mm can be made (C111_U_partial), also double U grooves with equal heights or without root face and a lower angle whose sine is at least 0.001 and R2/400 (C111_DU_partial). With bounds of the same kind, I, V, VV and double V grooves can be made (C111_I_partial, C111_V_partial, C111_VV_partial, C111_DV_partial) and also the grooves with one straight side (C111_HV_partial, C111_HU_partial, C111_DHV_partial, C111_DHU_partial); the width is the given one or, if it exceeds the edge by less than one, the sum of both (Widened); the straight side of the double ones has the given width even when the other side is widened. UV grooves can be made if the radius is at most 100 mm and the lower face ends at least R/20 in front of the end of the arc (C111_UV_partial; points up to 1e-8, end of the groove face up to 1e-7). Front face grooves with lengths between 1e-5 mm and 1000 mm can be made and have the points of C74 up to 1e-9 (C111_FF_partial; for the code number 3.1.1 the width must differ from t_1 + 1 mm by 1e-9); missing parameters and other code numbers give the same errors as without rounding (C111_FF_code). The points of the VV groove are those of the code, with the middle at h + c. The points are the exact ones up to 1e-11, the ends of the groove faces up to 1e-8. Every chain of lines and arcs that are not too small becomes a profile whose right shape is exactly the mirror image of the left one (C111_chain_partial). Angles in degrees are converted with an error of at most 1e-15 (radiansF_close) and all grooves can be made with them, with twice these deviations and slightly narrower bounds (C111_U_degrees_partial and the corresponding theorems of the other grooves; a front face groove has the points of an angle that differs by at most 4e-15, C111_FF_degrees_partial). Missing: other dimensions. Overflow, underflow and units are left out. |
| C112 | partial | Variable profiles can be interpolated despite rounding | shape_partial, profile_partial, weight, between, local_partial, ends, linear, given, outside, refused, same_counterexample, gap_counterexample | Refuted: the interpolation of a line from (0, 0) to (3, 0) with itself and the number next to 0.053 as weight ends at 3 - 2^-51, since (1 - weight) * a + weight * b is rounded four times (C112_same_counterexample). Refuted too: two accepted shapes with a small gap between their lines at x = 100 and x = -100 cannot be interpolated, since the tolerance is relative to the coordinates and the gap is too large at x = 0 (C112_gap_counterexample). Proved: polylines with coordinates up to 4e4 whose interpolated points have a distance of at least 2e-6 can be interpolated and the points are exact up to 1e-9 (C112_shape_partial, C112_profile_partial), also at all locations of a variable profile (C112_local_partial). The rounded weight is between 0 and 1, has an error of at most 1e-15 and is exact at both ends (C112_weight). The results for weights 0 and 1 and at the given locations are exactly the given profiles (C112_ends, C112_linear, C112_given). Missing: a condition on gaps that is sufficient, larger coordinates and shorter lines. Overflow, underflow and units are left out. |
| C113 | partial | Raster points of shapes of lines lie on the shape despite rounding | line_partial, shape_partial, corners, refused, end_counterexample, closed_counterexample | Refuted: the last raster point is not always the end of the shape, since the rounded difference of both ends is added to the start (C113_end_counterexample); a closed square with the first corner (1, 2) gets this corner twice, since each coordinate of the end is compared with both coordinates of the start (C113_closed_counterexample). Proved for coordinates up to 4e4 and widths from 1e-6: all points are the exact ones up to 1e-9 and the number of steps differs from the quotient by at most 0.51 (C113_line_partial, C113_shape_partial); all corners but the last one are raster points without any error (C113_corners); the end is added if one of its coordinates differs enough from one of the coordinates of the start and left out if all are equal (C113_shape_partial). Missing: arcs, larger coordinates and smaller widths. Overflow, underflow and units are left out. |
| C114 | partial | Vectors are called orthogonal exactly if their angle is right | raises, answer, unit_partial, right_angle, symmetric, scale_counterexample, parallel_counterexample | Refuted for the lengths: the product of both vectors is compared with the tolerance without dividing by the lengths. Any two vectors are called orthogonal if one of them is short enough, also parallel ones, and are not if it is long enough, unless the angle is exactly right (C114_scale_counterexample, C114_parallel_counterexample with the default tolerance). Proved: when the exception is raised, also for negative tolerances (C114_raises); the exact condition in terms of the angle and the lengths (C114_answer); the full statement about the angle for vectors of length one (C114_unit_partial); right angles (C114_right_angle); order, sense and common rotations (C114_symmetric). Real numbers instead of floats. |
| C115 | partial | Arrays are called orthogonal exactly if all of their matrices are orthogonal | raises, square, orthogonal, stack, length_counterexample, column_counterexample, row | Refuted: the squares of the lengths of the rows are compared with the additional relative tolerance 1e-5 of np.allclose, so matrices with rows that are too long are accepted without a tolerance (C115_length_counterexample); a single column of ones is accepted, since np.eye is made with the number of columns and broadcast (C115_column_counterexample). Proved: the exact condition for square matrices (C115_square), orthogonal matrices are accepted (C115_orthogonal), arrays of several matrices (C115_stack), which shapes raise (C115_raises), a single row with several columns is never accepted (C115_row). Real numbers instead of floats. |
| C116 | partial | Generic series only have supported interpolation methods and keep them | setter, supported_partial, constructor_counterexample, kept, equal | Refuted: the constructor takes every text without the check of the setter, and the schema of the file accepts it (C116_constructor_counterexample); evaluations of discrete series have the default method (C116_kept), so a series with another method is not equal to its evaluation at its own coordinates (C116_equal). Proved: the setter (C116_setter), all series are supported if the constructor only gets documented methods (C116_supported_partial), files keep the method of discrete series (C116_kept). The content of a series is abstract here. |
| C117 | partial | Leaves of nested data are compared by type and value | arrays, types, values, equivalence_partial, counterexample | Refuted: leaves with nan are not equal to themselves, so compare_nested(a, a) is false for them; entries of arrays are compared without their type, so 1 and 1.0 are equal in arrays and different in lists (C117_counterexample). Proved: symmetry and transitivity, and reflexivity exactly without nan (C117_equivalence_partial); arrays (C117_arrays), types (C117_types) and other leaves (C117_values). Quantities, pandas and xarray objects and Time are left out. |
| C118 | partial | Docstrings are inherited from the nearest parent | member, class, single_partial, counterexample, shared | Refuted: the search does not stop at the first docstring, so the most distant parent decides, and a parent without docstring removes one that was found (C118_counterexample); an inherited function is changed in the class that defines it (C118_shared). Proved: the exact result for one member (C118_member) and for a class whose functions are not used under several names (C118_class); the documented result if the parents have only one function of this name (C118_single_partial). |
| C119 | partial | Files are written with the settings of the constructor | create, close, sync, write_to, copy, threshold, counterexample | Refuted: sync without arguments and write_to with any other argument ignore the compression of the constructor, and arguments that sync does not name (auto_inline) are lost on close (C119_counterexample). Proved: the settings on creation (C119_create), close (C119_close) and copy (C119_copy); exactly when the settings of sync and write_to are as wanted (C119_sync, C119_write_to); the threshold and the unchanged options (C119_threshold). What asdf does with the settings is not modelled; that its options are restored is an assumption about config_context. |

## Sources per module

Taken from the head of each file with model definitions; each definition cites its own lines.

* `Verif/Csm/Alias.lean`: Model of the objects behind the managers: `/repo/weldx/transformations/cs_manager.py` 438-552 (`add_cs`), 577-656 (`assign_data`, `delete_data`), 833-899 (`delete_cs`), 1825-1891 (`merge`), 1973-2000 (`subsystems`).
* `Verif/Csm/AliasTarget.lean`: Source: `/repo/weldx/transformations/cs_manager.py` 577-630 (`assign_data` with a target system).
* `Verif/Csm/Create.lean`: Source: `/repo/weldx/transformations/cs_manager.py` 658-701 (`create_cs`), 703-765 (`create_cs_from_euler`), 767-831 (`create_cs_from_axis_vectors`); `/repo/weldx/transformations/local_cs.py` 421-474 (`from_euler`), 477-541 (`from_axis_vectors`). Simplifications: as in `Csm/Model.lean`, `Frame/Model.lean` and `Frame/Rotation.lean`; one orientation and one position. `create` is the common part of the three methods for systems of any kind.
* `Verif/Csm/Equality.lean`: Model of `CoordinateSystemManager.__eq__`, `/repo/weldx/transformations/cs_manager.py` 146-186, and of the comparison of the subsystem records (`SubsystemInfo`, 44-61, with `dataclass_nested_eq`, `/repo/weldx/util/util.py` 308-347).
* `Verif/Csm/InterpTime.lean`: Source: `/repo/weldx/transformations/cs_manager.py` 1310-1378 (`interp_time`), `/repo/weldx/transformations/local_cs.py` 867-882 (`reset_reference_time`).
* `Verif/Csm/Layout.lean`: Source: `/repo/weldx/transformations/cs_manager.py` 1431-1462 (`_get_tree_positions_for_plot`) and 1485-1503 (the arrows in `plot_graph`). Simplifications: positions are exact fractions; the `while` loop has a bound of iterations, exceeding it is the error `diverge`. What networkx and matplotlib do with positions and lists of edges is not part of the model.
* `Verif/Csm/Model.lean`: Follows `/repo/weldx/transformations/cs_manager.py`, class `CoordinateSystemManager`. The `networkx.DiGraph` is represented by two insertion ordered dictionaries: node name to the node's `"data"` dictionary and (source, target) to the edge's attributes. `networkx` itself is not part of `/repo`; the functions `succs`, `removeNode`, `shortestPath` and `compose` below describe the documented behaviour of the `networkx` functions that the class calls.
* `Verif/Csm/Relabel.lean`: Model of `CoordinateSystemManager.relabel`, `/repo/weldx/transformations/cs_manager.py` 554-575, with `networkx.relabel_nodes(graph, mapping, copy=False)`. `networkx` is not part of `/repo`. Its in-place renaming works as follows: If no old name is also a new name, the systems are renamed in the order of the graph. Otherwise the names are sorted topologically (new names first); this fails if the mapping has a cycle. Each system is renamed by adding a node with the new name and the old attributes, and moving the edges.
* `Verif/Csm/Serial.lean`: Source: `/repo/weldx/tags/core/graph.py` (`build_tree` 68-118, `build_graph` 121-151, `DiGraphConverter` 154-174), `/repo/weldx/tags/core/transformations/coordinate_system_hierarchy.py` 15-35, `/repo/weldx/transformations/cs_manager.py` 1761-1807 (`_from_yaml_tree`, `_from_subsystem_graph`). Simplifications: the file keeps coordinate systems, data, names and times exactly; a missing list of edges is an empty one (`asdf` drops `None`, the default of `DiNode.edges` is an empty list); names are not UUIDs; subsystem records are written and read field by field, so they are passed unchanged (the order of sets may change). The recursion of `build_tree` gets a bound for the depth; exceeding it is reported as `diverge`.
* `Verif/Csm/SerialMap.lean`: Source: `/repo/weldx/tags/core/transformations/coordinate_system_hierarchy.py` 15-35, `/repo/weldx/tags/core/graph.py` 68-151. Simplifications: otherwise as in `Verif/Csm/Serial.lean`.
* `Verif/Docs/Inherit.lean`: Source: `/repo/weldx/util/util.py` 137-168 (`inherit_docstrings`).
* `Verif/File/External.lean`: Source: `/repo/weldx/util/external_file.py` 16-62 (`ExternalFile`, `__post_init__`), 101-131 (`get_file_content`, `write_to`); `/repo/weldx/tags/core/file.py` 24-69; `/repo/weldx/schemas/weldx.bam.de/weldx/core/file-0.1.0.yaml`. Simplifications: a path is the list of its parts; an absolute path starts at the root of the file system. Text is a list of characters. The file system maps absolute paths to files; links do not exist. `mimetypes.guess_type` and the host name belong to the file system. Values `None` are not written to a file (ASDF). Of the schema the rules about `content_hash.algorithm` and about required properties are modelled. Time stamps are numbers.
* `Verif/File/Hash.lean`: Source: `/repo/weldx/util/external_file.py` 66-99 (`calculate_hash`), 101-110 (`get_file_content`); `/repo/weldx/tags/core/file.py` 24-47 (`to_yaml_tree`), 49-69 (`from_yaml_tree`). Simplifications: a hash algorithm of `hashlib` is a machine that reads the bytes one after the other; `algs name` is `hash_mapping[name.upper()]`; of the attributes only those about the content are kept; the file on disk is its content at the time of the call; the conversion of the content to an array of `uint8` and back is the identity.
* `Verif/File/Header.lean`: Source: `/repo/weldx/asdf/util.py` 272-317 (`get_yaml_header`). Simplifications: the file is the list of its bytes, read from the start (`file.seek(0)` or a newly opened file); the decoding of the header as UTF-8 and the YAML parser are not modelled.
* `Verif/File/Metadata.lean`: Source: `/repo/weldx/asdf/types.py` 26-46 (`to_yaml_tree_metadata`), 49-66 (`from_yaml_tree_metadata`); `boltons.iterutils.remap` with the default `enter` and `exit` functions; `/repo/weldx/constants.py` (`META_ATTR`, `USER_ATTR`). Simplifications: containers are lists, tuples and dictionaries with string keys; all other objects are leaves; no object is contained in itself, and the identity of shared containers is not modelled.
* `Verif/File/Protected.lean`: Source: `/repo/weldx/asdf/util.py` 643-716 (`_ProtectedViewDict`), `/repo/weldx/asdf/file.py` 87-90 (`_PROTECTED_KEYS`), 550-715 (the mapping methods of `WeldxFile`), and the mixin methods of `collections.abc.MutableMapping` (`get`, `pop`, `setdefault`, `items`). Simplifications: warnings are not modelled; `keys()` makes a Python set, its order of iteration is unknown: it is a parameter `ord` of the model; the values are not changed in place.
* `Verif/File/Session.lean`: Source: `/repo/weldx/asdf/file.py` 218-306 (`__init__`), 308-336 (`_handle_file_input`), 338-362 (`_handle_custom_schema`), 381-404 (`_write_tree`), 424-452 (`_handle_path`), 503-541 (`close`, `sync`), 747-753 (`custom_schema`), 764-812 (`copy`), 848-898 (`write_to`). Simplifications. * A file or buffer has the tree of a valid ASDF file as content, or `n` other bytes. The tree is the part that the user sees (the mapping interface and the protected keys are modelled in `Protected.lean`); writing stores the whole tree. * `asdf` validates a tree with a custom schema when it is read or assigned (`Lib.accept`), and perhaps when it is written (`Lib.acceptW`, which may be constantly true). Both are parameters. * schemas are already resolved to paths (341-353); compression, inline thresholds and history entries are left out. * `update` raises if the file handle is closed or not writable. `write_to` and `copy` of a closed `WeldxFile` are not modelled: they raise here. * The dictionary `asdffile_kwargs` is an object with an identity, because the constructor changes it in place (251, 279, 291); only its entry "custom_schema" is modelled.
* `Verif/File/WriteSettings.lean`: Source: `/repo/weldx/asdf/file.py` 237-247 (the settings in `WeldxFile.__init__`), 365-377 (`_config_context`), 379-402 (`_write_tree`), 518-546 (`close`, `sync`), 798-808 (`copy`), 846-893 (`write_to`).
* `Verif/Frame/Labelled.lean`: Source: `/repo/weldx/util/xarray.py` 40-56 (`mat_vec_mul`), 59-80 (`_swap_list_items`), 83-103 (`xr_transpose_matrix_data`), 106-175 (`xr_matmul`), 178-199 (`xr_is_orthogonal_matrix`); their use in `/repo/weldx/transformations/local_cs.py` 203-211 (`__add__`), 790-801 (`invert`) and `/repo/weldx/transformations/cs_manager.py` 1754-1757 (`transform_data`).
* `Verif/Frame/Model.lean`: Source: `/repo/weldx/transformations/local_cs.py`, `/repo/weldx/transformations/util.py`. Simplifications: numbers are elements of a commutative ring (the real numbers where a square root is taken) instead of floats; lengths carry no unit; only systems without a time axis are modelled here (time dependent systems: `Verif/TimeLcs`).
* `Verif/Frame/Rotation.lean`: Source: `/repo/weldx/transformations/rotation.py` 23-86 (`WXRotation`), `/repo/weldx/tags/core/transformations/rotation.py` 15-62. Simplifications: a rotation is its matrix, a stack of rotations (scipy's `Rotation` with several elements) is a list. Quaternions, matrices and rotation vectors stand for the matrices they describe: scipy's conversions are taken to be exact. The order of the matrices in a sequence of Euler angles and the choice of angles by `as_euler` are those of scipy's documentation. A unit of angles is its factor to radians and whether its name contains `rad`.
* `Verif/Frame/Rounded.lean`: Source: as in `Verif.Frame.Tolerance`, and `/repo/weldx/transformations/util.py` 41-58 (`normalize`). Simplifications: overflow and underflow are left out; static systems.
* `Verif/Frame/Tolerance.lean`: Source: `/repo/weldx/transformations/local_cs.py` 94-96 (checks of `__init__`), 203-211 (`__add__`), 213-247 (`__sub__`), 347-371 (`_check_and_normalize_orientation`), 774-801 (`invert`); `/repo/weldx/util/xarray.py` 178-199 (`xr_is_orthogonal_matrix`). Simplifications: as in `Verif.Frame.Model`, real numbers instead of floats and static systems.
* `Verif/Geometry/ArcFloat.lean`: Source: `/repo/weldx/geometry.py` 525-577 (`__init__`), 591-638 (`_calculate_arc_angle`, `_check_valid`, `_update_internals_and_get_series`), 679-730 (`construct_with_radius`), 850-884 (`apply_transformation`, `apply_translation`), `/repo/weldx/transformations/util.py` 41-58 (`normalize`), 207-251 (`reflection_sign`, `vector_points_to_left_of_vector`). Simplifications: overflow and underflow are left out, lengths have the same unit. Products with `1` and `-1` are exact. Determinants are calculated from the products of the diagonals (`numpy` uses a decomposition). The length, which is a symbolic integral in the code, is the rounded product of radius and angle; only its sign matters here. Parameters of the series are left out.
* `Verif/Geometry/Model.lean`: Source: `/repo/weldx/geometry.py` 49-103 (helpers), 108-252 (`DynamicBaseSegment`), 256-397 (`DynamicShapeSegment`), 403-519 (`LineSegment`), 525-884 (`ArcSegment`), 892-1298 (`Shape`). Simplifications: real numbers instead of floats, lengths without units. The series of a line segment is its two points, the series of an arc are the parameters of its expression; translations add to the offset. The length of an arc, which the code gets from a symbolic integral, is radius times angle. Custom segments given by other series are not modelled. Segments are mutable objects, therefore shapes refer to segments in a store.
* `Verif/Geometry/Objects.lean`: Source: `/repo/weldx/geometry.py` 82-103 (`_to_list`), 895-910 (`Shape.__init__`), 1075-1088 (`add_segments`), 1090-1179 (changes in place), 1216-1298 (`reflect`, `reflect_across_line`, `transform`, `translate`), 1307-1326 (`Profile.__init__`), 1355-1371 (`add_shapes`). Simplifications: as in `Model.lean`. Segments, lists of segments, shapes and profiles have an identity; a shape holds a reference to a list, which is the list that was passed to the constructor. `copy.deepcopy` copies the list and every segment in it once; segment number `i` gets the new number `next + i`. The list of shapes of a profile is made by the constructor and not shared.
* `Verif/Geometry/Orthogonal.lean`: Source: `/repo/weldx/transformations/util.py` 138-159 (`is_orthogonal`). Simplifications: numbers are real numbers instead of floats, both vectors have the same length (`np.dot` raises otherwise), and they have no units.
* `Verif/Geometry/OrthogonalMatrix.lean`: Source: `/repo/weldx/transformations/util.py` 162-178 (`is_orthogonal_matrix`).
* `Verif/Geometry/ShapeFloat.lean`: Source: `/repo/weldx/geometry.py` 52-80 (`_vector_is_close`), 232-247 (`get_points`), 261-271 (`point_start`, `point_end`), 623-643 (`_update_internals_and_get_series`), 895-936 (`Shape.__init__`, `_check_segments_connected`), and the linear interpolation of `scipy` for lines. Simplifications: overflow, underflow and units are left out. Products with `1` and `-1` that come from signs are exact.
* `Verif/Geometry/Sides.lean`: Source: `/repo/weldx/transformations/util.py` 61-135 and 181-251.
* `Verif/Geometry/Units.lean`: Source: `/repo/weldx/geometry.py` 191-222 (`get_section_length`), 256-298 (`DynamicShapeSegment`), 403-519 (`LineSegment`), 525-771 (`ArcSegment`), 922-936, 1033-1088 and 1180-1214 (`Shape`); `/repo/weldx/constants.py` 69 (`_DEFAULT_LEN_UNIT`, millimetre). Simplifications: as in `Verif/Geometry/Model.lean`. A segment keeps the unit of its points; the computations with magnitudes (arc angle, radius, tests) are those of the model without units. Translations, transformations and reflections are not modelled with units. Units are positive.
* `Verif/Groove/Front.lean`: Source: `/repo/weldx/welding/groove/iso_9692_1.py` 1341-1600 (`FFGroove`), 1653-1951 (`get_groove` and the mappings of the classes); `/repo/weldx/tags/groove/iso_9692_1.py` 28-36 (converter). Simplifications: as in `Verif.Groove.Model`; a missing parameter that is used is a `TypeError` before any shape is made (in the code a shape of zero size could be reported first). Quantities are numbers of millimetres and radians, the checks of their dimensions are not modelled.
* `Verif/Groove/FrontFloat.lean`: Source: `/repo/weldx/welding/groove/iso_9692_1.py` 1391-1596 (`FFGroove.to_profile`); `/repo/weldx/geometry.py` 1033-1073 (`add_line_segments`). Simplifications: as in `Verif.Groove.GrooveFloat` and `Verif.Groove.Front`. `numpy.pi` is the rounded number.
* `Verif/Groove/GrooveFloat.lean`: Source: `/repo/weldx/welding/groove/iso_9692_1.py` 223-232 (`_translate_reflect`), 260-279, 323-366, 418-458, 510-557, 605-673, 713-772, 820-882, 942-988, 1067-1124, 1184-1219, 1298-1334 (`to_profile` of all classes except `FFGroove`), 1603-1652 (`_helperfunction`); `/repo/weldx/geometry.py` 1033-1073 (`add_line_segments`), 1102-1165 (`apply_reflection`, `apply_reflection_across_line`). Simplifications: as in `Verif.Geometry.ShapeFloat` and `Verif.Groove.Model`. Angles are given in radians; `Verif.Groove.GrooveFloatDegrees` adds the conversion. Half and twice an angle are exact. The normal of the mirror axis is `(-1, 0)` and its distance is zero. The length of a line is the norm of the difference of its points.
* `Verif/Groove/GrooveFloatDegrees.lean`: Source: `/repo/weldx/welding/groove/iso_9692_1.py` 323-366, 605-673 and the other `to_profile` methods: `np.sin`, `np.cos` and `np.tan` of a quantity in degrees convert it to radians first (pint). The conversion is a multiplication by a number close to `π / 180`. Half and twice an angle are exact and are taken before the conversion.
* `Verif/Groove/InterpFloat.lean`: Source: `/repo/weldx/geometry.py` 479-505 (`LineSegment.linear_interpolation`), 733-773 (`ArcSegment.linear_interpolation`), 938-1006 (`Shape.interpolate`, `Shape.linear_interpolation`), 1992-2023 (`linear_profile_interpolation_sbs`), 2086-2103 and 2191-2213 (`VariableProfile._segment_index`, `local_profile`). Simplifications: as in `Verif.Groove.GrooveFloat` and `Verif.Trace.Variable`. Every difference, product, sum and quotient is rounded; `np.clip` and comparisons are exact.
* `Verif/Groove/Model.lean`: Source: `/repo/weldx/welding/groove/iso_9692_1.py` 39-79 (helpers), 82-98 (`IsoBaseGroove`), 198-232 (areas and `_translate_reflect`), 235-1340 (the groove classes), 1603-1652 (`_helperfunction`); `/repo/weldx/welding/util.py` 59-86 (`compute_welding_speed`). Simplifications: lengths are real numbers of millimetres, angles are real numbers of radians. The front face groove (`FFGroove`) is modelled only by its parameters (its area is not implemented in the code). `sympy.Polygon` drops repeated and collinear points, which changes neither bounds nor area; polygons are therefore not normalised. Areas from rasterised profiles use the rasterisation of `Verif.Geometry.Model`.
* `Verif/Groove/RasterLines.lean`: Source: `/repo/weldx/geometry.py` 183-200 (`_len_section_disc`), 232-247 (`get_points`), 274-299 (`DynamicShapeSegment.rasterize`), 1182-1213 (`Shape.rasterize`), and the linear interpolation of `scipy`. Simplifications: shapes are lists of lines with a start and an end, arcs and units are left out. Every difference, product, sum, quotient and root is rounded. The product with `max_coord`, which is 1 for lines, is exact.
* `Verif/Groove/Units.lean`: Source: `/repo/weldx/welding/groove/iso_9692_1.py` 39-47, 90-98, 198-232 (base class), 234-1600 (the groove classes), 1603-1650 (`_helperfunction`); `/repo/weldx/util/util.py` 84-134 (`ureg_check_class`); `/repo/weldx/welding/util.py` 59-86. Simplifications: `_helperfunction` slices the coordinates before they are stacked and converted, here all are stacked and converted at once (both are done for each entry). Segments are those of the model in millimetres because every segment of a groove is created in millimetres (1630-1638, 1646 and `add_line_segments`). Angles have dimensions of angles; what happens to accepted parameters of a wrong dimension after the constructor is not modelled.
* `Verif/Interp/Float.lean`: Source: `/repo/weldx/util/xarray.py` 202-226 (`xr_fill_all`), 255-275 (`_add_coord_edges`), 278-395 (`xr_interp_like` with the method `linear`), 723-758 (`xr_interp_coordinates_in_time`). Simplifications: as in `Verif.Interp.Model`; additionally, overflow and underflow are left out. The rules of the libraries are taken from their documentation and source, which are not part of `/repo`.
* `Verif/Interp/Model.lean`: Source: `/repo/weldx/util/xarray.py` 202-226 (`xr_fill_all`), 255-275 (`_add_coord_edges`), 278-395 (`xr_interp_like`), 666-720 (`xr_interp_orientation_in_time`), 723-758 (`xr_interp_coordinates_in_time`). Simplifications: `time` is the only coordinate; times are integers (nanoseconds), all absolute or all relative; a `DataArray` with a time dimension is the list of its times and values. Only the methods `linear` and `step`. The indexes of the data and the requested times have no repeated values. Values are elements of a real vector space (arrays of fixed shape), so that units are fixed. The interpolation of two rotations by scipy is a parameter.
* `Verif/MathExpr/Equality.lean`: Source: `/repo/weldx/core/math_expression.py` 71-138 (`__eq__`, `equals` with structural comparison), `/repo/weldx/core/generic_series.py` 244-264 (`__eq__`), `/repo/weldx/core/time_series.py` 81-107 (`__eq__`), `/repo/weldx/transformations/local_cs.py` 249-267 (`__eq__`); `compare_nested` is in `Nested/Model.lean`, here it is used for dictionaries of arrays or names. Simplifications: as in `MathExpr/Model.lean` (no units), `TimeSeries/Model.lean` and `TimeLcs/Model.lean`. Two sympy expressions are structurally equal if they are the same tree. `DataArray.identical` compares dimensions, coordinates (a dictionary) and values; names and further attributes of arrays are not modelled, nor is the interpolation method of discrete generic series. Both operands have the same class.
* `Verif/MathExpr/Model.lean`: Source: `/repo/weldx/core/math_expression.py` 24-57 (constructor), 154-179 (`set_parameters`), 181-204 (`num_parameters`, `num_variables`), 229-242 (`get_variable_names`), 244-273 (`evaluate`); `/repo/weldx/core/generic_series.py` 496-533 (`_evaluate_preprocessor`, `_evaluate_expr`), 818-880 (`SeriesParameter`). Simplifications: no units (every value is a number of one type; no conversion and no unit error); the sympy expression is a syntax tree of numbers, symbols, functions of one and two numbers, and the lambdified function evaluates this tree; labelled arrays are compared by dimension name as xarray does it: the dimensions of a result are those of the first operand followed by the new ones of the second, equal dimensions of different length are a `ValueError`. Operands with different index coordinates for one dimension are joined by xarray; this is not modelled (error `notModelled`).
* `Verif/MathExpr/Units.lean`: Source: `/repo/weldx/core/math_expression.py` 24-57 (constructor), 154-179 (`set_parameters`), 193-204 (`num_variables`), 229-242 (`get_variable_names`), 244-273 (`evaluate`). Simplifications: an expression is a tree of the operations of sympy (a difference is a sum with a product by -1, a quotient is a product with a power); exponents are integers, and the square root; roots of negative numbers and division by zero are 0 instead of nan and infinity. No units with an offset (degrees Celsius). Arrays with units are in `Verif/MathExpr/UnitsArrays.lean`.
* `Verif/MathExpr/UnitsArrays.lean`: Source: `/repo/weldx/core/math_expression.py` 154-179 (`set_parameters`), 244-273 (`evaluate`).
* `Verif/MathExpr/UnitsGeneric.lean`: Source: `/repo/weldx/core/generic_series.py` 290-297 (`_init_get_updated_dims`), 299-321 (`_init_get_updated_units`), 323-356 (`_init_expression`), 358-405 (`_test_expr`), 465-533 (`evaluate`, `_evaluate_expr`). Simplifications: those of `Verif/MathExpr/UnitsArrays.lean`; coordinates are lists of numbers with a unit (a single number is a list of one number in a full evaluation, in a partial evaluation it fails, see `C36_series_number`); the constraints of derived classes are in `Verif/Series/Init.lean`.
* `Verif/MathExpr/UnitsSeries.lean`: Source: `/repo/weldx/core/time_series.py` 183-224 (`_init_expression`), 240-250 (`_interp_time_expression`), 373-389 (`interp_time`); `/repo/weldx/time.py` 432-457 (`as_quantity`); `/repo/weldx/core/generic_series.py` 299-356 (`_init_get_updated_units`, `_init_expression`), 358-405 (`_test_expr`), 465-543 (`evaluate`); `/repo/weldx/util/xarray.py` 278-395 (`xr_interp_like`). Simplifications: those of `Verif/MathExpr/Units.lean` and, for discrete values, of `Verif/Series/Discrete.lean`; the times are given as time deltas (`Verif/TimeSeries/Model.lean` has reference times); the coordinates of discrete values have units (without the attribute nothing is converted); only evaluations with values for all variables (`Verif/MathExpr/UnitsGeneric.lean` has stepwise evaluations).
* `Verif/MathExpr/UnitsTime.lean`: Source: `/repo/weldx/core/time_series.py` 183-224 (`_init_expression`), 240-250 (`_interp_time_expression`), 373-389 (`interp_time`), 446-459 (`shape`). Simplifications: those of `Verif/MathExpr/UnitsArrays.lean`; the times are given as time deltas in nanoseconds; the order of the dimensions of interpolated values is not described (`interp_time` moves the time to the front).
* `Verif/Measurement/Equality.lean`: Source: `/repo/weldx/measurement.py` 272-282 (`MeasurementChain.__eq__`), 34-40, 85-97, 122-138 (data classes).
* `Verif/Measurement/Model.lean`: Source: `/repo/weldx/measurement.py`.
* `Verif/Media/Props.lean`: Source: `/repo/weldx/util/media_file.py` 34-61 (`_pts_to_frame`, `_get_frame_rate`, `_get_frame_count`), 123-158 (`_init_from_sequence`, `_wrap_data_array`), 208-216 (`fps`, `duration`). Simplifications: floats are rational numbers; of a stream and of the object passed as `f` only the attributes used here are modelled.
* `Verif/Media/Storage.lean`: Source: `/repo/weldx/util/media_file.py` 86-121 (`__init__`, `_init_from_path`), 123-158 (`_init_from_sequence`, `_wrap_data_array`), 166-189 (`_get_video_metadata`), 191-243; `/repo/weldx/tags/core/media_file.py` 17-44. Simplifications: a frame is an element of any type with a width and a height. Reading a video is a function of the content of the file, which gives the frames, the stream and the duration of the first frame. Frames per second are numbers in `1/s` (a quantity is converted when it is read). Time stamps are numbers. The file system and external files are those of `File/External.lean`.
* `Verif/Mesh/Model.lean`: Source: `/repo/weldx/geometry.py` 2729-2862 (`SpatialData._shape_raster_points` to `from_geometry_raster`).
* `Verif/Mesh/Solid.lean`: Source: `/repo/weldx/geometry.py` 38-49 (`has_cw_ordering`), 2227-2262 (`Geometry.__init__`), 2574-2613 (`spatial_data`), 2616-2650 (`to_file`), 2725-2733 (`_shape_raster_points`), 2798-2862 (`_shape_triangles`, `from_geometry_raster`). Simplifications: lengths are real numbers (in millimetres). `np.stack` of the cross sections can not fail, since they have the same number of points. A list of arrays times a unit, in `to_file`, is an array, which does not exist if the arrays have different shapes (numpy from 1.24 on raises a `ValueError`).
* `Verif/Nested/Leaves.lean`: Source: `/repo/weldx/util/util.py` 171-174 (`_array_equal`), 185-213 (`_EqCompareNested.compare_funcs`, `_type_equalities`, `_compare`).
* `Verif/Nested/Model.lean`: Source: `/repo/weldx/util/util.py` 185-302, with `remap`, `default_enter` and `get_path` of `boltons.iterutils`.
* `Verif/Schema/Files.lean`: Source: all files below `/repo/weldx/schemas/weldx.bam.de/weldx/` that belong to a tag, except the test classes in `debug`. The definitions are produced from the files by a program that drops titles, descriptions, examples, the order of properties and the style of output (and in `media_file` the unknown keywords `mime_type` and `number`). References to other files and to definitions that are not recursive are inserted.
* `Verif/Schema/Meta.lean`: `default_to_yaml`-like code adds `wx_metadata` and `wx_user` to the tree of an object, `/repo/weldx/asdf/types.py` and `/repo/weldx/asdf/constants.py`. The schemas do not mention these keys.
* `Verif/Schema/Model.lean`: Source: the schema files in `/repo/weldx/schemas/weldx.bam.de/weldx/`; the validators `wx_unit`, `wx_shape` and `wx_property_tag` of `/repo/weldx/asdf/validators.py`; `_get_instance_shape`, `_get_instance_units` in `/repo/weldx/asdf/util.py` 591-640; `shape_from_tagged` and `units_from_tagged` in `/repo/weldx/tags/units/pint_quantity.py` 54-59, `core/common_types.py` 121-124, `core/data_array.py` 48-56, `core/time_series.py` 48-54, `time/time.py` 24-29, `time/timedeltaindex.py` 49-62, `time/datetimeindex.py` 38-50. Simplifications: the schema language is JSON schema draft 4 as the asdf library uses it, which is not part of /repo: keywords about objects ignore other nodes, an integer is a number, a boolean is not. References inside of a file are resolved with a budget of steps, references to other files by inserting the schema. A crash of a validator counts before an error (in the code the first event counts; what is accepted is the same, except that in `oneOf` a crash after the first error of an alternative is not noticed by the code). Numbers have no values. `rangeLen` is the length of the pandas range for the texts of start, end and frequency. If a key is missing for `shape_from_tagged` there is no shape (in the code a `KeyError`). Shapes of the entries of a mapping are considered one level deep; no schema of the project goes deeper.
* `Verif/Schema/Trees.lean`: Source: the `to_yaml_tree` methods of the converters in `/repo/weldx/tags/`; `to_yaml_tree_metadata` in `/repo/weldx/asdf/types.py` (entries that are `None` are dropped); `build_tree` in `/repo/weldx/tags/core/graph.py` 68-112; the constructors of the classes as far as they restrict the values. Simplifications: objects are given by what is written of them. Of numbers and arrays only the types and shapes are kept. Entries of `wx_metadata` and `wx_user` are left out, see `C91_metadata`. Tuples are lists. Numpy scalars are numbers.
* `Verif/SchemaTree/Model.lean`: Source: `/repo/weldx/asdf/util.py` 719-820 (`get_schema_tree`), with `remap` of `boltons.iterutils`. Simplifications: the schema file is given as tree; keys are texts, values that are neither list nor dictionary are their text. No part of the tree occurs twice as the same object. `remap` visits the items of all lists and dictionaries, inner ones first; the key of an item of a list, which has no influence, is the empty text. The class of a tag (`get_converter_for_tag`, `default_class_display_name`) is a parameter.
* `Verif/Series/Discrete.lean`: Source: `/repo/weldx/core/generic_series.py` 465-511 (`evaluate`, `_evaluate_preprocessor`), 535-543 (`_evaluate_array`); `/repo/weldx/util/xarray.py` 278-395 (`xr_interp_like`). Simplifications: values and coordinates are real numbers in fixed units; the coordinates of a dimension are strictly increasing; no dimension is empty. An array is a function of the indices of its dimensions. `xr_interp_like` adds the first and the last coordinate to the requested ones, interpolates, and fills what is outside (362-390): this is interpolation with constant values outside. Several dimensions are interpolated one after the other, as xarray does. The methods "quadratic" and "cubic" are not modelled; "slinear" and "zero" are "linear" and "step" inside the range.
* `Verif/Series/Init.lean`: Source: `/repo/weldx/core/generic_series.py` 44-90 (the class attributes of derived classes), 215-242 (`__init__`), 291-297 (`_init_get_updated_dims`), 299-321 (`_init_get_updated_units`), 323-356 (`_init_expression`), 358-405 (`_test_expr`), 407-432 (`_format_expression_params`), 581-595 (`_get_expression_dims`), 669-772 (the checks of derived classes), 837-853 (`SeriesParameter.__post_init__`); `/repo/weldx/core/spatial_series.py` 16-90; `/repo/weldx/util/xarray.py` 430-543 (`xr_check_coords`), 546-574 (`xr_check_dimensionality`). Simplifications: units are elements of a type with a dimensionality; the unit of an expression is found by a function that is not specified (pint evaluates it with the values one) and is only asked if the shapes fit, so an expression with both kinds of errors always gives the shape error; the rest as in `Verif.MathExpr.Model`. The string of the expression is not parsed.
* `Verif/Series/MethodName.lean`: Source: `/repo/weldx/core/generic_series.py` 226 (`__init__`), 240-265 (`__eq__`), 512-533 (`_evaluate_expr`), 535-543 (`_evaluate_array`), 605-623 (`interpolation`); `/repo/weldx/tags/core/generic_series.py` 51-87 (`to_yaml_tree`, `from_yaml_tree`). Simplifications: of a series only its kind and the name of its method are kept; `content` stands for all the rest. What xarray does with a name is not modelled. The rest is taken to survive a file, see C69 for that.
* `Verif/Series/Tag.lean`: Source: `/repo/weldx/tags/core/generic_series.py` 24-87 (`GenericSeriesConverter`), `/repo/weldx/tags/core/mathematical_expression.py` 13-48 (`MathematicalExpressionConverter`), `/repo/weldx/core/generic_series.py` 270-289 (`_init_discrete`), 817-886 (`SeriesParameter`), `/repo/weldx/util/xarray.py` 229-238 (`_get_coordinate_quantities`), `/repo/weldx/asdf/types.py` 26-66. Simplifications: `sympify(str(e)) = e`; quantities, units and arrays are written and read without change, and tuples come back as lists; a parameter of an expression series that is stored as quantity (only if it was given with a dimension of its own name) is treated as the array that the expression makes of it. Converters of mathematical expressions set an attribute of the quantity of a parameter; for this, quantities are objects in a store, and `xr.DataArray(q, dims)` keeps the object `q` as its data.
* `Verif/Storage/Dataclass.lean`: Source: `/repo/weldx/asdf/util.py` 427-500 (`dataclass_serialization_class`), `/repo/weldx/asdf/types.py` 26-66 (metadata and removal of `None`), `/repo/weldx/tags/equipment/measurement_equipment.py` 7-10, `/repo/weldx/measurement.py` 132-152 (`MeasurementEquipment`), `/repo/weldx/tags/aws/process/arc_welding_process.py` 7-63, `/repo/weldx/tags/processes/process.py` 20-26 and `/repo/weldx/tags/core/graph.py` 25-35 (`__dict__` without sorting). Simplifications. * The attribute dictionary of an object is an object of its own, because `to_yaml_tree` hands out `obj.__dict__` and changes it in place. Lists are objects with an identity as well. The items of a list are strings, `None` or other values (`leaf`); nested containers are leaves, the removal of `None` inside of them is the subject of C40. * The loop 38-41 of `types.py` assigns attributes of the object to its own dictionary; this has no effect and is left out. * `to_yaml_tree_mod` is not used by any converter in the repository and left out. * The order of strings is that of their code points, in Python and in Lean. * A dataclass is given by its fields with defaults and by `__post_init__`, which is a function of the values.
* `Verif/Storage/Model.lean`: Source: `/repo/weldx/tags/core/common_types.py` 18-120 (`Dimension`, `Variable` and their converters), `tags/core/data_array.py` 22-50, `tags/core/dataset.py` 13-40, `tags/units/pint_quantity.py` 31-45; schemas `core/variable-0.1.0.yaml`, `units/quantity-0.1.0.yaml`; `/repo/weldx/constants.py` 21 (`force_ndarray_like`). Simplifications and trusted behaviour of the libraries: numbers of type float are elements of a set `F`, and a float of fewer bits is the double with the same value; the times of numpy are integer counts of their unit (not-a-time is the smallest integer). asdf stores arrays, numbers, strings, units, and attributes (a set `A`) without changes, an entry with the value `None` reads as absent. `np.dtype(d.str)` is `d`. A Python scalar given to numpy becomes `float64`, `int64` (or `uint64` if it does not fit), `bool` or a string. Encodings and multi-indices are not modelled.
* `Verif/Storage/Spatial.lean`: Source: `/repo/weldx/geometry.py` 2656-2701 (`SpatialData.__post_init__`), 2703-2723 (`from_file`), 2864-2875 (`limits`), 2950-2978 (`to_file`, `is_time_dependent`, `additional_dims`); `/repo/weldx/util/xarray.py` 577-631 (`xr_3d_vector`); `/repo/weldx/tags/core/geometry/spatial_data.py` 15-28 (converter); schema `core/geometry/spatial_data-0.1.1.yaml` 64-92. Simplifications: as in `Storage/Model.lean`. Whether a unit is a length is a function `isLen`. `transpose(..., "n", "c")` is a function `T` with the properties `Transposes`. The time given to the constructor is the coordinate that is made of it. Values are floats or integers. Stored arrays are no instances of `np.ndarray` when they are read, so that the triangles are converted again. The mesh files contain points and triangles without changes.
* `Verif/Time/Convert.lean`: Source: `/repo/weldx/time.py` 365-367 (`__getitem__`), 412-430 (`all_close`), 432-457 (`as_quantity`), 465-470 (`as_timedelta_index`), 472-476 (`as_timestamp`), 478-482 (`as_datetime`), 490-499 (`as_pandas_index`), 501-521 (`as_data_array`), 661-680 (`_convert_quantity`), 682-696 (`_convert_xarray`). Simplifications: as in `Time/Model.lean`; magnitudes of quantities are rational numbers instead of floats; a quantity with one value and an index with one value are lists of length one.
* `Verif/Time/ConvertFloat.lean`: Source: `/repo/weldx/time.py` 432-457 (`as_quantity`), 661-680 (`_convert_quantity`). Simplifications: as in `Verif.Time.Convert` otherwise; overflow and underflow are left out.
* `Verif/Time/Model.lean`: Source: `/repo/weldx/time.py`. Simplifications: time stamps and time deltas are integers (nanoseconds, the resolution of pandas) without overflow; conversions from strings, quantities and xarray objects (661-721) are left out, so a `Time` is created from a list of values that are all time stamps or all time deltas.
* `Verif/Time/Tags.lean`: Source: `/repo/weldx/tags/time/timedeltaindex.py` 11-61, `/repo/weldx/tags/time/datetimeindex.py` 13-54, `/repo/weldx/tags/time/time.py` 9-35, `timedelta.py`, `timestamp.py`. Simplifications: the text of a frequency is a count and the text of the unit (digits are not touched by the code). The rules of calendar frequencies of a `DatetimeIndex` are a parameter. A time zone is an optional number.
* `Verif/TimeLcs/Construct.lean`: Source: `/repo/weldx/transformations/local_cs.py` 40-121 (`__init__`), 268-345 (`_build_orientation`, `_build_coordinates`, `_build_time`), 403-418 (`_unify_time_axis`); `/repo/weldx/util/xarray.py` 577-663 (`xr_3d_vector`, `xr_3d_matrix`), 799-812 (`time_ref_restore`), 823-846 (`time_ref`). Simplifications: as in `TimeLcs/Model.lean`. The checks and the normalisation of orientations are in `Frame/Model.lean`, units are fixed. `xarray.merge` with `join="exact"` is described by what it does with the coordinate `time`: different values are an error, the attributes are those of the first array that has it. A comparison of time axes of different lengths counts as different.
* `Verif/TimeLcs/ConstructSeries.lean`: Source: `/repo/weldx/transformations/local_cs.py` 333-345 (`_build_time`), 388-401 (`_coords_from_discrete_time_series`). Simplifications: as in `TimeLcs/Construct.lean` and `TimeSeries/Model.lean`; the values of the series are vectors of three lengths (other shapes are refused).
* `Verif/TimeLcs/DataRef.lean`: Source: `/repo/weldx/transformations/cs_manager.py` 1024-1061 (`_get_cs_on_edge` with `use_lcs_time_ref`), 1206-1246 (`get_cs`), 1709-1757 (`transform_data`). Simplifications: those of `Verif/TimeLcs/TimedData.lean`.
* `Verif/TimeLcs/Default.lean`: Source: `/repo/weldx/transformations/cs_manager.py` 1217-1222 and 1236-1237 (`get_cs` with `time=None`), 1660-1707 (`time_union`). Simplification: the smallest reference time of all systems of the manager (1698-1703) is a parameter.
* `Verif/TimeLcs/ExprRef.lean`: Source: `/repo/weldx/transformations/local_cs.py` 40-121 (`__init__`), 333-345 (`_build_time`), 388-401 (`_coords_from_discrete_time_series`), 601-612 (`reference_time`), 704-713 (`_interp_time_coordinates`), 723-772 (`interp_time`), 867-883 (`reset_reference_time`); `/repo/weldx/util/xarray.py` 822-851 (`time_ref`); `/repo/weldx/core/time_series.py` 373-389 (`interp_time`).
* `Verif/TimeLcs/FileAnswer.lean`: Source: `/repo/weldx/transformations/cs_manager.py` 1064-1246 (`get_cs`), 1660-1707 (`time_union`).
* `Verif/TimeLcs/FileQuery.lean`: Source: `/repo/weldx/transformations/cs_manager.py` 1206-1246 (`get_cs`); `/repo/weldx/tags/core/transformations/coordinate_system_hierarchy.py` 15-35; `/repo/weldx/tags/core/transformations/local_coordinate_system.py` 17-75. Simplifications: as in these files; the systems are discrete (not described by an expression).
* `Verif/TimeLcs/InterpCsm.lean`: Source: `/repo/weldx/transformations/cs_manager.py` 1310-1378 (`interp_time`), `/repo/weldx/transformations/local_cs.py` 723-772 (`interp_time`), 867-882 (`reset_reference_time`).
* `Verif/TimeLcs/Manager.lean`: Source: `/repo/weldx/transformations/cs_manager.py` 1023-1062 (`_get_cs_on_edge`), 1064-1246 (`get_cs`). Simplifications: as in these files.
* `Verif/TimeLcs/Model.lean`: Source: `/repo/weldx/transformations/local_cs.py` 40-121 (`__init__`), 130-213 (`__add__`), 213-247 (`__sub__`), 403-418 (`_unify_time_axis`), 569-640 (properties), 693-801 (`interp_time`, `invert`), 867-882 (`reset_reference_time`); `/repo/weldx/util/xarray.py` 823-846 (`WeldxAccessor.time_ref`). Simplifications: as in `Interp/Model.lean`; the data set is given by its coordinate `time` (time deltas; a scalar `time` left by selecting a single time is a list of length one), the attribute `time_ref` of this coordinate, and the two variables, with or without the dimension `time`. Coordinates described by an expression are in `TimeLcs/Series.lean`. The checks of the constructor are those of `Frame/Model.lean` and are not repeated.
* `Verif/TimeLcs/NamedTime.lean`: Source: `/repo/weldx/transformations/cs_manager.py` 1064-1246 (`get_cs`), 1660-1707 (`time_union`); `/repo/weldx/transformations/local_cs.py` 613-625 (`time`). Simplifications: as in `Verif/TimeLcs/Manager.lean`; which texts pandas reads as times, and as which, is a parameter. The time of a system that is described by an expression is not covered, as in `getCsDefault`.
* `Verif/TimeLcs/NoTime.lean`: Source: `/repo/weldx/transformations/cs_manager.py` 1024-1061 (`_get_cs_on_edge`) and 1206-1246 (`get_cs`) with `time=None` if no system of the path has times (`time_union` returns `None`, 1692-1695); `/repo/weldx/transformations/local_cs.py` 166-173 (`__add__`), 753-754 (`interp_time` without a time), 785-789 (`invert`). Simplification: as in `Verif/TimeLcs/Query.lean`.
* `Verif/TimeLcs/NoTimeManager.lean`: Source: `/repo/weldx/transformations/cs_manager.py` 1024-1062 (`_get_cs_on_edge`), 1064-1246 (`get_cs`), 1660-1707 (`time_union`); `/repo/weldx/transformations/local_cs.py` 166-173 (`__add__`), 613-625 (`time`), 753-754 (`interp_time` without a time). Simplifications: as in `Verif/TimeLcs/NamedTime.lean`.
* `Verif/TimeLcs/Query.lean`: Source: `/repo/weldx/transformations/cs_manager.py` 253-274 (`_add_edges`), 1024-1062 (`_get_cs_on_edge`), 1206-1246 (`get_cs`); `/repo/weldx/transformations/local_cs.py` 693-772 for coordinates that are a `TimeSeries` with an expression; `/repo/weldx/core/time_series.py` 344-389. Simplifications: the path is given by the list of the transformations stored on its edges (that it exists and is unique is the subject of `Csm/`); the time is given; an expression is a function of the time since the reference time of its system and has no reference time of its own.
* `Verif/TimeLcs/Scan.lean`: Source: `/repo/weldx/transformations/cs_manager.py` 577-630 (`assign_data`) with `target_system`, 1709-1757 (`transform_data`), 974-1006 (`get_data`). Simplifications: as in `Verif/TimeLcs/TimedData.lean`; the name of the data is a text (line 611 is not modelled).
* `Verif/TimeLcs/Slerp.lean`: Source: `/repo/weldx/util/xarray.py` 703-707 (`xr_interp_orientation_in_time`), which uses `scipy.spatial.transform.Slerp`. Simplifications: real numbers instead of floats. The matrices are proper rotations.
* `Verif/TimeLcs/Tag.lean`: Source: `/repo/weldx/tags/core/transformations/local_coordinate_system.py` 17-75; `/repo/weldx/transformations/local_cs.py` 635-660 (`is_unity_translation`, `is_unity_rotation`). Simplifications: as in `TimeLcs/Construct.lean`. Numbers are real numbers, so that the normalisation of rotations does not change them. The entries of the tree (`Variable`, `TimedeltaIndex`, `Timestamp`, `TimeSeries`) are stored without change. A unit of length is its factor to millimetres. `numpy.allclose(a, b)` is `|a - b| ≤ 1e-8 + 1e-5 * |b|` for all elements.
* `Verif/TimeLcs/TimedData.lean`: Source: `/repo/weldx/transformations/cs_manager.py` 974-1006 (`get_data`), 1709-1757 (`transform_data`); `/repo/weldx/util/xarray.py` 167-175 (`xr_matmul`); `/repo/weldx/time.py` 680-693 (`_convert_xarray`). Simplifications: those of `Verif/TimeLcs/Manager.lean`; data are lists of points with a unit of length; the times of data are strictly increasing time deltas. Attributes and triangles of `SpatialData` are passed on as they are and are not modelled.
* `Verif/TimeLcs/Units.lean`: Source: `/repo/weldx/transformations/local_cs.py` 130-247 (`__add__`, `__sub__`), 297-331 (`_build_coordinates`), 640-650 (`is_unity_translation`), 693-801 (`interp_time`, `invert`); `/repo/weldx/transformations/cs_manager.py` 1024-1062 (`_get_cs_on_edge`), 1206-1246 (`get_cs`), 1709-1757 (`transform_data`); `/repo/weldx/util/xarray.py` 278-395. Simplifications: as in `Verif/TimeLcs/Query.lean`; data are lists of points, without time; the result of an expression has a fixed unit.
* `Verif/TimeSeries/Model.lean`: Source: `/repo/weldx/core/time_series.py` 67-80, 146-187 (constructor with discrete values), 188-231 (with an expression), 226-250 (`_interp_time_discrete`, `_interp_time_expression`), 288-320 (`interpolation`, `time`), 344-389 (`interp_time`). Simplifications: values are elements of a real vector space (arrays of fixed shape with a fixed unit); an expression is a function of the time delta; `DataArray` objects are not passed to the constructor by the user; the interpolation of relative data at absolute times (xarray refuses to join the two kinds of index) is a `TypeError`.
* `Verif/TimeSeries/Tag.lean`: Source: `/repo/weldx/tags/core/time_series.py` 18-50; `/repo/weldx/core/time_series.py` 97-104 (`__eq__`), 322-342 (`time`, `reference_time`). Simplifications: as in `TimeSeries/Model.lean`; the expression itself and arrays survive serialisation. `scalar` tells that the values of a series are numbers (the shape of a constant is `(1,)`), `keepNone` that the asdf library stores the entry `time: None`.
* `Verif/Trace/Discrete.lean`: Source: `/repo/weldx/geometry.py` 183-200 (`_len_section_disc`), 202-230 (`get_section_length`), 261-271 (end points of a `DynamicShapeSegment`) and 1586-1595 (`_lcs_disc`). Simplifications: as in `Verif.Trace.Model`; positions are single numbers.
* `Verif/Trace/Expression.lean`: Source: `/repo/weldx/geometry.py` 108-252 (`DynamicBaseSegment`), 300-350 (translation of a `DynamicShapeSegment`), 1519-1533 and 1576-1584 (`DynamicTraceSegment`); `/repo/weldx/core/spatial_series.py` 16-87 (`SpatialSeries`); the evaluation of expressions is that of `Verif.MathExpr.Model`. Simplifications: numbers are real and have no unit (lengths in millimetres). A parameter is a number or a vector of three components with the dimension `c`; the labels of this dimension are 0, 1, 2. Positions are single numbers. The derivative that sympy finds is an argument; what is assumed about it is `IsDeriv`, and `Sym.diff` calculates it for sums, products, powers, sine, cosine and exponential function. The definite integral that sympy forms is the integral; that it finds the primitive is not modelled. It does not matter whether the components are inserted before or after the differentiation.
* `Verif/Trace/Model.lean`: Source: `/repo/weldx/geometry.py` 1477-1938 (`DynamicTraceSegment`, `LinearHorizontalTraceSegment`, `RadialHorizontalTraceSegment`, `Trace`) and 108-252 (`DynamicBaseSegment`). Simplifications: numbers are real, lengths have no unit (millimetres); positions are single numbers (no arrays). A series given by an expression is represented by its curve, its derivative and its length, which the code gets from sympy; for the radial segment these are written down here and justified in `Verif/Trace/Segments.lean`. A discrete series is the list of its positions and points; it is interpolated linearly and constant outside (`util/xarray.py` 278-393), results are in the order of the requested positions.
* `Verif/Trace/RasterFloat.lean`: Source: `/repo/weldx/geometry.py` 1769-1796 (`Trace._create_lookups`), 1895-1937 (`Trace.rasterize`), 2299-2325 (`Geometry._rasterize_trace`).
* `Verif/Trace/ShapePoints.lean`: Source: `/repo/weldx/geometry.py` 108-155 (`DynamicBaseSegment`), 258-398 (`DynamicShapeSegment`). Simplifications: real numbers instead of floats, lengths without units. The dimension of the positions is called `s`; with another name `apply_transformation` raises a `KeyError`.
* `Verif/Trace/Solid.lean`: Source: `/repo/weldx/geometry.py` 1374-1397 (`Profile.rasterize`), 2280-2296 (`_get_local_profile_data`), 2326-2373 (`_get_transformed_profile_data`, `_profile_raster_data_3d`), 2375-2456 (`_rasterize_constant_profile`, `_rasterize_variable_profile`). Simplifications: an array of points is the list of its columns, `hstack` is concatenation, `stack` makes a list of arrays. `np.hstack` of an empty list (a profile without shapes) is an empty list instead of a `ValueError`.
* `Verif/Trace/SolidStack.lean`: Source: `/repo/weldx/geometry.py` 2479-2509 (`Geometry.rasterize`), 2375-2456 (the functions it calls, `Verif/Trace/Solid.lean`). Simplifications: as in `Verif/Trace/Solid.lean`.
* `Verif/Trace/Units.lean`: Source: `/repo/weldx/geometry.py` 1535-1617 (`DynamicTraceSegment`), 1620-1686 (the other trace segments), 1769-1938 (`Trace`), 2326-2426 (`Geometry`); `/repo/weldx/transformations/local_cs.py` 204-210 (`__add__`). Simplifications: as in `Verif/Trace/Model.lean`; the result of an expression has a fixed unit.
* `Verif/Trace/Variable.lean`: Source: `/repo/weldx/geometry.py` 1992-2026 (`linear_profile_interpolation_sbs`), 2029-2213 (`VariableProfile`). Simplifications: a profile is the list of its shapes, a shape the list of its segments; locations are real numbers. An interpolation scheme is any function of two profiles and a weight.
* `Verif/Validators/Model.lean`: Source: `/repo/weldx/asdf/validators.py` 117-560 and `_get_instance_shape`, `/repo/weldx/asdf/util.py` 591-613.
* `Verif/Validators/Spec.lean`: Source: doc string of `_custom_shape_validator`, `/repo/weldx/asdf/validators.py` 432-453.
* `Verif/Validators/Walk.lean`: Source: `/repo/weldx/asdf/validators.py` 21-74 (`_walk_validator`), 77-112 (`_unit_validator`), 523-538 (`WxUnitValidator`), 562-592 (`WxPropertyTagValidator`); `/repo/weldx/asdf/util.py` 519-529 (`uri_match`), 616-640 (`_get_instance_units`); `/repo/weldx/tags/core/data_array.py` 54-56 (`units_from_tagged`). Simplifications: a tree has the node types of a YAML document. Units are represented by their dimension; parsing of unit strings is a parameter (`none`: pint raises). The generator of a validator is the list of errors that it yields and the exception that ends it, if any; the caller raises the first of these. `asdf.util.uri_match` is not part of /repo: `*` matches characters other than `/`, `**` matches all. `converter.units_from_tagged` exists only for data arrays. Tags of Python builtins (`_type_to_tag`) are the YAML tags.
* `Verif/Version/Model.lean`: Source: `/repo/weldx/asdf/util.py` 544-588 (`get_highest_tag_version`), `/repo/weldx/asdf/types.py` 99-100 (`select_tag`), `/repo/weldx/config.py` 20-72 (`QualityStandard.__init__`), 103-134 (`get_mappings`). Simplifications: strings are lists of characters; a `packaging.version.Version` is its release part (numbers separated by points; no pre-release, no local version, no leading `v`); the pattern is a predicate on tags; the files of a quality standard are their name, version and parsed content.
* `Verif/Version/Tags.lean`: Source: `/repo/weldx/asdf/util.py` 519-541 (`uri_match`, `get_converter_for_tag`), `/repo/weldx/asdf/types.py` 70-123 (`WeldxConverterMeta`, `WeldxConverter`, `format_tag`), `/repo/weldx/welding/processes.py` 10-35, `/repo/weldx/tags/processes/process.py` 10-33, `/repo/weldx/tags/groove/iso_9692_1.py` 15-52, `/repo/weldx/config.py` 137-192, and `asdf.util.uri_match`. Simplifications: strings in tags are lists of characters; time series are values of a type, their creation from something else is a function that can fail; the metadata of C85 (`wx_metadata`, `wx_user`) is not repeated here; a class is its `name`, its `tags` and whether it derives directly from `WeldxConverter`.
* `Verif/Xarray/Check.lean`: Source: `/repo/weldx/util/xarray.py` 398-427 (`_check_dtype`), 430-543 (`xr_check_coords`); `/repo/weldx/transformations/local_cs.py` 347-358 (`_check_and_normalize_orientation`, the check of the coordinates), 373-385 (`_check_coordinates`); `/repo/weldx/core/time_series.py` 127-141 (`_check_data_array`), 165-168 (arrays as data of a series). Simplifications: what `numpy.dtype` makes of a description is part of the description. Coordinates have at most one dimension; a coordinate without a dimension has one value. The units of coordinates are strings; `U_`, the comparison of units and dimensions are parameters. Comparing arrays of different lengths that can not be broadcast is a failed comparison, which also raises a `ValueError`.
* `Verif/Xarray/TimeRef.lean`: Source: `/repo/weldx/util/xarray.py` 790-797 (`time_ref_unset`), 799-812 (`time_ref_restore`), 814-819 (`reset_reference_time`), 821-828 (`time_ref`), 830-849 (its setter). Simplifications. * Times are integers (nanoseconds); there are no time zones and no missing values (`NaT`). The time coordinate has one dimension. * Attribute dictionaries are objects with an identity (positions of `Heap.dicts`), because the code assigns the dictionary of one array to another and changes dictionaries in place. The rules of xarray: `copy` copies the dictionary, `da["time"] = x` makes a coordinate with an empty dictionary, `v.attrs = d` stores a copy of `d`, `v.attrs[k] = x` changes the dictionary of `v` in place. * Everything in an array except the time coordinate is its `body`, which no function looks at. * `Time(value).as_timestamp()`: the argument is `None`, something that is a single time stamp, or something else (`TypeError`).
* `Verif/Xarray/Units.lean`: Source: `/repo/weldx/util/xarray.py` 229-238 (`_get_coordinate_quantities`), 241-252 (`_coordinates_from_quantities`), 851-857 (`coordinates_as_quantities`), 859-865 (`indexes_as_quantities`), 867-880 (`quantify`, second branch), 882-888 (`quantify_coords`), 890-896 (`dequantify_coords`), 898-909 (`units`). Simplifications: parsing of unit texts (`U_`) and printing of units (`str`) are parameters; `Q_(values, unit)` parses a text in the same way. A text is true if it is not empty; a `pint.Unit` is always true (it defines neither `__bool__` nor `__len__`). The attribute can also be `None`. An index of pandas has no attribute `attrs`. The arrays are copied, so functions return new arrays.
