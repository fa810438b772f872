{"id": "C01", "title": "Adding two coordinate systems composes their transformations", "statement": "If `a` is defined in `b` and `b` is defined in `c`, then mapping any point with `a + b` equals mapping it with `a` first and with `b` afterwards; consequently `+` is associative and the default system is its neutral element.", "quantifier": "all static coordinate systems and all points", "why_tests_cant": "three-dimensional continuous input space; a swapped factor or a missing rotation of the left origin is invisible for axis-aligned or zero-offset samples", "anchors": ["weldx/transformations/local_cs.py:LocalCoordinateSystem.__add__", "weldx/transformations/local_cs.py:LocalCoordinateSystem.__init__"]}
{"id": "C02", "title": "Inversion and subtraction undo addition", "statement": "`lcs.invert()` maps every point back (`lcs + lcs.invert()` and `lcs.invert() + lcs` are the identity, inverting twice gives the original), `(a + b) - b == a`, and `a - b` is the position of `a` as seen from `b` when both share a parent.", "quantifier": "all static coordinate systems with orthogonal orientation and all points", "why_tests_cant": "needs every rotation/translation combination", "anchors": ["weldx/transformations/local_cs.py:LocalCoordinateSystem.invert", "weldx/transformations/local_cs.py:LocalCoordinateSystem.__sub__"]}
{"id": "C03", "title": "Orthogonality and handedness are closed under the operations", "statement": "The constructor normalises the given axis vectors and accepts exactly those whose directions are pairwise orthogonal; sum and inverse of valid systems are valid again; handedness multiplies, so right-handed systems stay right-handed; lengths, distances and angles of transformed points are preserved.", "quantifier": "all orientations with non-zero axis vectors, all sums and inverses", "why_tests_cant": "invariant over arbitrary operation sequences", "anchors": ["weldx/transformations/local_cs.py:LocalCoordinateSystem._check_and_normalize_orientation", "weldx/transformations/util.py:is_orthogonal", "weldx/transformations/local_cs.py:LocalCoordinateSystem.__add__"]}
{"id": "C04", "title": "Constructing a system from two axes completes it to a right-handed one", "statement": "`from_axis_vectors` with any two of the three axes returns a system whose given axes point along the given vectors and whose missing axis makes it right-handed; with fewer than two axes it raises.", "quantifier": "all pairs of orthogonal non-zero vectors and each choice of the missing axis", "why_tests_cant": "the cyclic index of the cross product must be right for each missing axis and each vector pair", "anchors": ["weldx/transformations/local_cs.py:LocalCoordinateSystem.from_axis_vectors"]}
{"id": "C05", "title": "The coordinate systems of a manager always form a tree", "statement": "After any sequence of API calls (successful or rejected) all coordinate systems are connected to the root and between any two of them there is exactly one path without repetition; every relation is stored in both directions.", "quantifier": "all sequences of add_cs, create_cs, update, delete_cs, merge, unmerge, remove_subsystems, assign_data, delete_data", "why_tests_cant": "invariant over unbounded operation histories", "anchors": ["weldx/transformations/cs_manager.py:CoordinateSystemManager.add_cs", "weldx/transformations/cs_manager.py:CoordinateSystemManager.delete_cs", "weldx/transformations/cs_manager.py:CoordinateSystemManager.merge", "weldx/transformations/cs_manager.py:CoordinateSystemManager.unmerge"]}
{"id": "C06", "title": "get_cs always succeeds and does not depend on insertion order or path search", "statement": "For any two existing systems `get_cs(a, b)` returns a result, the result is the composition of the stored relations along any walk between them, and two managers with the same relations give the same answer whatever order the systems were added in.", "quantifier": "all reachable managers, all pairs of names, all walks", "why_tests_cant": "tree shapes, sizes and insertion orders are unbounded; the networkx path search is a black box", "anchors": ["weldx/transformations/cs_manager.py:CoordinateSystemManager.get_cs", "weldx/transformations/cs_manager.py:CoordinateSystemManager._get_cs_on_edge"]}
{"id": "C07", "title": "get_cs obeys identity, inverse and chain laws", "statement": "`get_cs(a, a)` is the identity, `get_cs(b, a)` is the inverse of `get_cs(a, b)`, and `get_cs(a, c) == get_cs(a, b) + get_cs(b, c)`.", "quantifier": "all reachable managers with static systems, all triples of names", "why_tests_cant": "holds only if stored reverse relations are always the inverses of the forward ones, in every reachable history", "anchors": ["weldx/transformations/cs_manager.py:CoordinateSystemManager.get_cs", "weldx/transformations/cs_manager.py:CoordinateSystemManager._add_edges", "weldx/transformations/cs_manager.py:CoordinateSystemManager._update_local_coordinate_system"]}
{"id": "C08", "title": "Transforming data there and back is lossless and path consistent", "statement": "`transform_data(x, a, b)` followed by `transform_data(., b, a)` returns the original points; going through an intermediate system gives the same as going directly; the number and order of points is kept.", "quantifier": "all reachable managers with static systems, all point lists, all names", "why_tests_cant": "unbounded data and tree shapes", "anchors": ["weldx/transformations/cs_manager.py:CoordinateSystemManager.transform_data"]}
{"id": "C09", "title": "Parent, child and neighbour queries describe the same tree", "statement": "`get_parent_system_name` is None exactly for the root; `a` is the parent of `b` exactly if `b` is a direct child of `a`; the neighbours of a system are its parent plus its direct children; the recursive child query returns exactly the systems whose chain of parents contains the given one, each once.", "quantifier": "all reachable managers and all names", "why_tests_cant": "unbounded tree depth; the implementation answers by path searches and a loop", "anchors": ["weldx/transformations/cs_manager.py:CoordinateSystemManager.get_parent_system_name", "weldx/transformations/cs_manager.py:CoordinateSystemManager.get_child_system_names", "weldx/transformations/cs_manager.py:CoordinateSystemManager.neighbors", "weldx/transformations/cs_manager.py:CoordinateSystemManager.is_neighbor_of"]}
{"id": "C10", "title": "delete_cs removes exactly a system and its descendants", "statement": "A successful `delete_cs(n, True)` removes exactly `n` and all systems below it; everything else, including all data and all transformations between remaining systems, is unchanged. Without the flag it succeeds only for leaves. The root can not be deleted.", "quantifier": "all reachable managers and all names", "why_tests_cant": "over-deletion or orphaned systems only show in some shapes", "anchors": ["weldx/transformations/cs_manager.py:CoordinateSystemManager.delete_cs"]}
{"id": "C11", "title": "Rejected calls leave the manager unchanged", "statement": "Every manager method that raises one of its documented errors leaves the observable state (systems, relations, data, subsystems) as it was.", "quantifier": "all reachable managers and all failing calls", "why_tests_cant": "has to hold for each error branch in each state", "anchors": ["weldx/transformations/cs_manager.py:CoordinateSystemManager.add_cs", "weldx/transformations/cs_manager.py:CoordinateSystemManager.merge", "weldx/transformations/cs_manager.py:CoordinateSystemManager.delete_cs", "weldx/transformations/cs_manager.py:CoordinateSystemManager.assign_data", "weldx/transformations/cs_manager.py:CoordinateSystemManager.relabel"]}
{"id": "C12", "title": "Re-adding an existing system replaces exactly that relation", "statement": "Calling `add_cs` for an existing neighbouring pair stores the new transformation in both directions; `get_cs` between two systems changes only if their path uses the pair; adding a new leaf changes no existing answer.", "quantifier": "all reachable managers, all updates, all pairs of names", "why_tests_cant": "depends on direction flag, on which side is the root, and on the shape", "anchors": ["weldx/transformations/cs_manager.py:CoordinateSystemManager.add_cs", "weldx/transformations/cs_manager.py:CoordinateSystemManager._update_local_coordinate_system"]}
{"id": "C13", "title": "Data names are unique and lookups are consistent", "statement": "After any history every data name is assigned to exactly one system; `data_names` lists each once; `get_data_system_name`, `has_data`, `get_data` and `delete_data` agree with the last assignment.", "quantifier": "all sequences of API calls", "why_tests_cant": "history property involving merges and deletions", "anchors": ["weldx/transformations/cs_manager.py:CoordinateSystemManager.assign_data", "weldx/transformations/cs_manager.py:CoordinateSystemManager.delete_data", "weldx/transformations/cs_manager.py:CoordinateSystemManager.data_names", "weldx/transformations/cs_manager.py:CoordinateSystemManager._find_data"]}
{"id": "C14", "title": "Merging preserves both managers", "statement": "After a successful merge, the systems are the union, the data is the union, every transformation that could be computed in one of the two managers is unchanged, and transformations across are the chain through the common system. Merging is rejected unless exactly one system name is shared and no data name is shared.", "quantifier": "all pairs of reachable managers", "why_tests_cant": "two unbounded structures", "anchors": ["weldx/transformations/cs_manager.py:CoordinateSystemManager.merge"]}
{"id": "C15", "title": "unmerge restores the merged parts", "statement": "Merging managers into another one and calling `unmerge` returns managers with the same systems, relations, data, root and reference time as the merged ones and restores the original manager.", "quantifier": "all sequences of merges followed by unmerge", "why_tests_cant": "interaction of several (nested) merges with data at shared systems", "anchors": ["weldx/transformations/cs_manager.py:CoordinateSystemManager.unmerge", "weldx/transformations/cs_manager.py:CoordinateSystemManager.subsystems", "weldx/transformations/cs_manager.py:CoordinateSystemManager.remove_subsystems"]}
{"id": "C16", "title": "Time reference consistency", "statement": "In every reachable manager that has no reference time of its own, either all or none of the time dependent systems carry a reference time; hence requesting a transformation never fails because of mixed time references.", "quantifier": "all sequences of API calls including merge", "why_tests_cant": "history property", "anchors": ["weldx/transformations/cs_manager.py:CoordinateSystemManager.add_cs", "weldx/transformations/cs_manager.py:CoordinateSystemManager.merge", "weldx/transformations/cs_manager.py:CoordinateSystemManager.uses_absolute_times"]}
{"id": "C17", "title": "Renaming systems only changes names", "statement": "`relabel` with any mapping of existing names either renames the systems, keeping all relations, data and the tree structure, or raises without a change.", "quantifier": "all reachable managers and all mappings", "why_tests_cant": "depends on collisions between old and new names", "anchors": ["weldx/transformations/cs_manager.py:CoordinateSystemManager.relabel"]}
{"id": "C18", "title": "A manager survives serialisation", "statement": "Writing a manager to a file and reading it gives a manager with the same systems, relations, data, root and therefore the same answers to all queries.", "quantifier": "all reachable managers", "why_tests_cant": "unbounded tree shapes; root is reconstructed from the ordering", "anchors": ["weldx/tags/core/graph.py:build_tree", "weldx/tags/core/graph.py:build_graph", "weldx/tags/core/transformations/coordinate_system_hierarchy.py", "weldx/transformations/cs_manager.py:CoordinateSystemManager._from_yaml_tree"]}
{"id": "C19", "title": "Managers do not share mutable state after a merge", "statement": "Changing one of two managers after they have been merged (assigning or deleting data, merging further managers) does not change the other.", "quantifier": "all histories after a merge", "why_tests_cant": "aliasing only shows in particular interleavings", "anchors": ["weldx/transformations/cs_manager.py:CoordinateSystemManager.merge"]}
{"id": "C20", "title": "Interpolation in time is exact at samples, clamped outside and bounded between", "statement": "Interpolating a time dependent system at one of its own times returns the stored value, before the first and after the last time it returns the first and last value, and between two times each coordinate stays between the neighbouring values.", "quantifier": "all strictly increasing time axes, all values, all target times", "why_tests_cant": "continuous input and unbounded number of samples; boundary conditions", "anchors": ["weldx/transformations/local_cs.py:LocalCoordinateSystem.interp_time", "weldx/transformations/local_cs.py:LocalCoordinateSystem._interp_time_coordinates", "weldx/util/xarray.py:xr_interp_like", "weldx/util/xarray.py:xr_interp_coordinates_in_time", "weldx/util/xarray.py:xr_interp_orientation_in_time"]}
{"id": "C21", "title": "Changing the reference time keeps absolute times", "statement": "Resetting the reference time of a system with a reference time keeps the absolute point in time of each sample; without a previous reference time it keeps the time deltas; both are idempotent and the last reset wins.", "quantifier": "all time axes and all timestamps", "why_tests_cant": "algebra over all timestamps and sequences of resets", "anchors": ["weldx/transformations/local_cs.py:LocalCoordinateSystem.reset_reference_time", "weldx/util/xarray.py:WeldxAccessor.time_ref"]}
{"id": "C22", "title": "Adding time dependent systems composes them at the times of the left operand", "statement": "The sum of time dependent systems has the times of the left operand (of the right one if the left is static) and at each such absolute time its value is the composition of the left value and the right value interpolated at that absolute time, whichever of the two reference times is earlier.", "quantifier": "all pairs of time dependent systems with both or no reference time", "why_tests_cant": "needs every relative position of reference times and time axes", "anchors": ["weldx/transformations/local_cs.py:LocalCoordinateSystem.__add__"]}
{"id": "C23", "title": "Forward and reverse queries are inverse at any time", "statement": "For time dependent systems, `get_cs(a, b, t)` and `get_cs(b, a, t)` are inverse to each other for every `t`.", "quantifier": "all time dependent systems and all times", "why_tests_cant": "fails only between samples of simultaneously rotating and translating systems", "anchors": ["weldx/transformations/cs_manager.py:CoordinateSystemManager._get_cs_on_edge", "weldx/transformations/cs_manager.py:CoordinateSystemManager._add_edges"]}
{"id": "C24", "title": "Time union contains exactly the given times in order", "statement": "`Time.union` of any number of times contains exactly the points in time of the arguments, sorted, independent of order and grouping of the arguments; for strictly increasing arguments there are no duplicates.", "quantifier": "all finite collections of monotonic times", "why_tests_cant": "unbounded collections", "anchors": ["weldx/time.py:Time.union", "weldx/time.py:Time._union_class", "weldx/time.py:Time._union_instance"]}
{"id": "C25", "title": "Resampling covers the range", "statement": "`resample(n)` returns n increasing values (for an integer) or equidistant steps (for a time delta) that start at the first and end at the last original value and lie within; it raises for less than two values or non-positive steps.", "quantifier": "all monotonic times and all steps", "why_tests_cant": "boundary when the step does not divide the duration", "anchors": ["weldx/time.py:Time.resample"]}
{"id": "C26", "title": "Time arithmetic is consistent with absolute time", "statement": "Adding a time delta shifts the absolute time by the delta and keeps the reference; the difference of two absolute times is the delta between them and adding it back recovers the first time; two absolute times can not be added.", "quantifier": "all Time values of length one or equal length", "why_tests_cant": "all combinations of relative/absolute operands and reference times", "anchors": ["weldx/time.py:Time.__add__", "weldx/time.py:Time.__sub__", "weldx/time.py:Time.__radd__", "weldx/time.py:Time.__rsub__"]}
{"id": "C27", "title": "Comparison of Time respects absolute instants", "statement": "Two absolute times with different reference times compare equal exactly if they denote the same instants; `equals` is an equivalence relation that never identifies a relative with an absolute time.", "quantifier": "all Time values", "why_tests_cant": "all pairs of references and deltas", "anchors": ["weldx/time.py:Time.__eq__", "weldx/time.py:Time.equals", "weldx/time.py:Time.as_quantity", "weldx/time.py:Time.as_timedelta"]}
{"id": "C28", "title": "Measurement chain is a tree rooted at the source with consistent signals", "statement": "After any history of successful and failing calls every signal except the source is produced by exactly one transformation of the same name, is reachable from the source, and names are unique.", "quantifier": "all sequences of add_transformation, add_transformation_from_equipment, create_transformation, add_signal_data", "why_tests_cant": "history invariant", "anchors": ["weldx/measurement.py:MeasurementChain.add_transformation", "weldx/measurement.py:MeasurementChain.create_transformation", "weldx/measurement.py:MeasurementChain._add_signal"]}
{"id": "C29", "title": "Signal types and units propagate along the chain", "statement": "Each transformation's input type letter matches the type of its input signal and its output letter the type of its output signal; each output unit is the unit the transformation's function produces for the input unit, or the input unit if there is no function.", "quantifier": "all reachable chains", "why_tests_cant": "must hold for each edge after any history", "anchors": ["weldx/measurement.py:MeasurementChain._determine_output_signal_type", "weldx/measurement.py:MeasurementChain._determine_output_signal_unit"]}
{"id": "C30", "title": "Measurement data is attached once and never overwritten", "statement": "`add_signal_data` attaches data only to signals without data; no call changes or removes data already attached; a rejected call changes nothing.", "quantifier": "all reachable chains and calls", "why_tests_cant": "history property including shared signal objects", "anchors": ["weldx/measurement.py:MeasurementChain.add_signal_data", "weldx/measurement.py:MeasurementChain._raise_if_data_exist"]}
{"id": "C31", "title": "A measurement chain survives conversion to and from a dictionary", "statement": "`from_dict(to_dict(mc))` equals `mc` and behaves the same for every subsequent call, including calls that use the last added signal by default.", "quantifier": "all reachable chains and continuations", "why_tests_cant": "the last added signal is not stored and reconstructed from the graph", "anchors": ["weldx/measurement.py:MeasurementChain.from_dict", "weldx/measurement.py:MeasurementChain.to_dict"]}
{"id": "C32", "title": "Shape validation decides exactly the documented shape language", "statement": "For a syntactically valid expected shape the validator accepts an actual shape exactly if it matches the documented pattern: fixed sizes, intervals, equal variables, optional dimensions at one end and an ellipsis at one end.", "quantifier": "all actual shapes and all valid expected shapes", "why_tests_cant": "unbounded lists and numbers", "anchors": ["weldx/asdf/validators.py:_compare_lists", "weldx/asdf/validators.py:_compare", "weldx/asdf/validators.py:_prepare_list", "weldx/asdf/validators.py:_validate_expected_list"]}
{"id": "C33", "title": "A dimension variable has one value in a validated tree", "statement": "If nested shape validation accepts a tree, every variable name stands for one single number in all shapes that were checked, and every shape whose key is present in the tree was checked.", "quantifier": "all nested expected shapes and all trees", "why_tests_cant": "unbounded nesting; bindings of different branches interact", "anchors": ["weldx/asdf/validators.py:_custom_shape_validator", "weldx/asdf/validators.py:WxShapeValidator"]}
{"id": "C34", "title": "Shape validation never crashes on a syntactically valid schema", "statement": "For a valid expected shape and any actual shape the validator accepts or reports a validation error, it does not raise an unrelated exception.", "quantifier": "all actual shapes and valid expected shapes", "why_tests_cant": "needs all length/pattern combinations", "anchors": ["weldx/asdf/validators.py:_compare_lists", "weldx/asdf/validators.py:_compare"]}
{"id": "C35", "title": "compare_nested is an equivalence on nested data", "statement": "`compare_nested(a, b)` is true exactly if the two nested structures have the same shape and equal leaves; in particular it is reflexive, symmetric and transitive.", "quantifier": "all nested lists, tuples and dictionaries", "why_tests_cant": "unbounded nesting", "anchors": ["weldx/util/util.py:_EqCompareNested"]}
{"id": "C36", "title": "Partial evaluation of expressions agrees with full evaluation", "statement": "Fixing some variables of an expression as parameters and evaluating the rest gives the same as evaluating all variables at once, in any order of fixing; the sets of parameters and variables always partition the symbols; unknown or already fixed names are rejected.", "quantifier": "all expressions, all splits of the variables", "why_tests_cant": "all subsets and orders", "anchors": ["weldx/core/math_expression.py:MathematicalExpression.set_parameters", "weldx/core/math_expression.py:MathematicalExpression.evaluate", "weldx/core/generic_series.py:GenericSeries._evaluate_expr"]}
{"id": "C37", "title": "Time series interpolation", "statement": "A discrete time series evaluated at its own times returns its values, outside its range the first/last value; with step interpolation it returns the value at the last time not after the query, with linear interpolation a value between the neighbours; a single value is constant.", "quantifier": "all discrete series and query times", "why_tests_cant": "continuous queries and unbounded samples", "anchors": ["weldx/core/time_series.py:TimeSeries.interp_time", "weldx/util/xarray.py:xr_interp_like", "weldx/util/xarray.py:_add_coord_edges"]}
{"id": "C38", "title": "Protected file content can not be changed or removed through the mapping interface", "statement": "No sequence of mapping operations on an opened file reads, changes or removes the protected entries; for all other keys the file behaves like a dictionary.", "quantifier": "all sequences of mapping operations", "why_tests_cant": "history property over all operations", "anchors": ["weldx/asdf/util.py:_ProtectedViewDict", "weldx/asdf/file.py:WeldxFile"]}
{"id": "C39", "title": "Highest tag version is selected numerically", "statement": "The tag chosen for a converter with several versions has the maximal version with respect to version ordering, and an ambiguous base tag is rejected.", "quantifier": "all tag lists", "why_tests_cant": "e.g. 0.9 versus 0.10; prefix relation of names", "anchors": ["weldx/asdf/util.py:get_highest_tag_version", "weldx/asdf/types.py:WeldxConverter.select_tag"]}
{"id": "C40", "title": "Metadata survives serialisation unless it is None", "statement": "Serialising an object drops exactly the entries that are None and nothing else changes; keys wx_metadata/wx_user are restored as attributes.", "quantifier": "all nested trees", "why_tests_cant": "nested lists and dictionaries of any depth", "anchors": ["weldx/asdf/types.py:WeldxConverter.to_yaml_tree", "weldx/asdf/types.py:format_tag"]}
{"id": "C41", "title": "Stored file hash detects any content change", "statement": "Reading an external file from a buffer succeeds only if the hash of the stored content equals the stored hash; the chunked hash of a file is the hash of its whole content for every chunk size.", "quantifier": "all contents and chunk sizes", "why_tests_cant": "unbounded contents", "anchors": ["weldx/util/external_file.py:ExternalFile.calculate_hash", "weldx/tags/core/file.py:ExternalFileConverter"]}
{"id": "C42", "title": "YAML header extraction stops at the first document end", "statement": "The header read from a file is exactly the content before the first document end marker line, or all content if there is none; binary data after the marker is never part of it.", "quantifier": "all byte contents", "why_tests_cant": "unbounded contents", "anchors": ["weldx/asdf/util.py:get_yaml_header"]}
{"id": "C43", "title": "Rasterised geometry triangulation is a closed surface", "statement": "The triangles generated from a closed profile swept along at least two positions use only valid point indices, and every directed edge of a triangle occurs exactly once and together with its opposite: the surface is watertight and consistently oriented.", "quantifier": "all numbers of profiles >= 2 and of points per profile >= 3", "why_tests_cant": "index arithmetic must be right for all sizes", "anchors": ["weldx/geometry.py:SpatialData._shape_profile_triangles", "weldx/geometry.py:SpatialData._shape_front_back_triangles", "weldx/geometry.py:SpatialData._shape_triangles"]}
{"id": "C44", "title": "Trace segments join continuously", "statement": "The local coordinate system of a trace at the end of one segment equals the one at the start of the next; at position 0 it is the start system; the total length is the sum of the segment lengths and positions outside are clamped.", "quantifier": "all traces of linear and radial segments and all positions", "why_tests_cant": "unbounded number of segments", "anchors": ["weldx/geometry.py:Trace._create_lookups", "weldx/geometry.py:Trace._get_segment_index", "weldx/geometry.py:Trace.local_coordinate_system"]}
{"id": "C45", "title": "Rasterising a trace covers it", "statement": "Rasterisation starts at the beginning and ends at the end of the trace, positions are equidistant within the raster width and not decreasing, and no position is repeated.", "quantifier": "all traces and raster widths", "why_tests_cant": "boundary handling between segments", "anchors": ["weldx/geometry.py:Trace.rasterize"]}
{"id": "C46", "title": "Variable profile interpolates between the neighbouring profiles", "statement": "`local_profile` returns the given profile at each given location, the first/last one outside the range, and between two locations the interpolation of exactly those two; constructor accepts exactly strictly ascending locations starting at 0 (or adds it).", "quantifier": "all location lists and all positions", "why_tests_cant": "unbounded lists and boundaries", "anchors": ["weldx/geometry.py:VariableProfile"]}
{"id": "C47", "title": "Shapes stay connected", "statement": "Every shape built by any sequence of operations consists of segments where each starts at the point its predecessor ends; adding a disconnected segment is rejected.", "quantifier": "all sequences of add_line_segments, add_segments, translations, reflections, transformations", "why_tests_cant": "history invariant", "anchors": ["weldx/geometry.py:Shape"]}
{"id": "C48", "title": "Reflection is an involution and fixes its line", "statement": "Reflecting a shape twice at the same line gives the original, points on the line are fixed, distances are preserved, orientation is reversed; reflection across a line through two points equals the reflection with the corresponding normal and distance.", "quantifier": "all lines and points", "why_tests_cant": "continuous input", "anchors": ["weldx/geometry.py:Shape.apply_reflection", "weldx/geometry.py:Shape.apply_reflection_across_line"]}
{"id": "C49", "title": "Segment and shape interpolation", "statement": "Linear interpolation of line segments or shapes returns the first for weight 0, the second for weight 1, keeps connectivity, and clamps weights outside.", "quantifier": "all segments/shapes and all weights", "why_tests_cant": "continuous input, unbounded segments", "anchors": ["weldx/geometry.py:LineSegment.linear_interpolation", "weldx/geometry.py:Shape.interpolate"]}
{"id": "C50", "title": "Rasterising a shape", "statement": "The rasterisation starts with the start point of the first segment, ends with the end point of the last one, contains each corner once and a closed shape is not closed twice; the number of raster points of a segment is such that no step exceeds the raster width unless the segment is shorter.", "quantifier": "all shapes and raster widths", "why_tests_cant": "rounding and boundaries", "anchors": ["weldx/geometry.py:Shape.rasterize", "weldx/geometry.py:DynamicShapeSegment.rasterize", "weldx/geometry.py:LineSegment"]}
{"id": "C51", "title": "Arc segments are consistent", "statement": "Start and end point of an accepted arc have the same distance to the center, every point on it has this distance, the arc constructed from radius and direction passes through both points and has the requested radius (or the smallest possible if forced), and center side and winding select the right one of the two candidates.", "quantifier": "all start/end points, radii, sides, windings", "why_tests_cant": "continuous input and sign cases", "anchors": ["weldx/geometry.py:ArcSegment"]}
{"id": "C52", "title": "Groove cross sections", "statement": "Groove parameters are accepted only if all lengths and angles are non-negative; the default heights partition the workpiece thickness; the cross section area equals bounding box minus workpiece parts.", "quantifier": "all groove parameter sets", "why_tests_cant": "continuous parameters", "anchors": ["weldx/welding/groove/iso_9692_1.py"]}
{"id": "C53", "title": "Welding speed keeps the weld volume", "statement": "The computed speed times the groove cross section equals wire feed times wire cross section in any unit system; it is positive for positive inputs.", "quantifier": "all groove, feed and diameter values", "why_tests_cant": "continuous parameters", "anchors": ["weldx/welding/util.py:compute_welding_speed"]}
{"id": "C54", "title": "Point and vector side tests are antisymmetric sign functions", "statement": "`point_left_of_line` and `vector_points_to_left_of_vector` return 1, 0, -1 exactly for left, on, right; swapping the line ends or the vectors negates the result; translation and rotation do not change it; `reflection_sign` is -1 exactly for reflections.", "quantifier": "all points, vectors and matrices", "why_tests_cant": "continuous input", "anchors": ["weldx/transformations/util.py:point_left_of_line", "weldx/transformations/util.py:reflection_sign", "weldx/transformations/util.py:vector_points_to_left_of_vector"]}
{"id": "C55", "title": "Quality standard selection returns the newest version", "statement": "A quality standard directory always resolves to the highest version if none is requested, to the exact requested one otherwise, and rejects unknown versions and inconsistent names.", "quantifier": "all sets of manifests", "why_tests_cant": "version ordering over all sets", "anchors": ["weldx/config.py:QualityStandard"]}
{"id": "C56", "title": "Subsystem bookkeeping stays extractable", "statement": "In every reachable manager each recorded subsystem only refers to existing systems that form a connected part, so that extracting subsystems never fails and each extracted manager is again a tree.", "quantifier": "all sequences of API calls with several and nested merges and deletions", "why_tests_cant": "history invariant", "anchors": ["weldx/transformations/cs_manager.py:CoordinateSystemManager.subsystems", "weldx/transformations/cs_manager.py:CoordinateSystemManager.delete_cs", "weldx/transformations/cs_manager.py:CoordinateSystemManager.merge"]}
{"id": "C57", "title": "Manager equality is an equivalence relation", "statement": "`csm_a == csm_b` is reflexive and symmetric and equal managers answer all queries equally.", "quantifier": "all pairs of reachable managers", "why_tests_cant": "pairs of unbounded structures", "anchors": ["weldx/transformations/cs_manager.py:CoordinateSystemManager.__eq__"]}
{"id": "C58", "title": "Media file frame lookup", "statement": "Conversion between time stamps, frames and durations is monotone and consistent.", "quantifier": "all frame rates and time stamps", "why_tests_cant": "rounding", "anchors": ["weldx/util/media_file.py"]}
{"id": "C59", "title": "Triangulated surfaces point outwards", "statement": "The orientation of the triangles follows the actual direction of the profile points, so that the volume enclosed by the triangles of a straight sweep is positive (length times area).", "quantifier": "all profiles with non-zero area and all straight sweeps", "why_tests_cant": "the sign depends on the position of the first and last point", "anchors": ["weldx/geometry.py:has_cw_ordering", "weldx/geometry.py:SpatialData._shape_triangles"]}
{"id": "C60", "title": "Custom trace segments have the frame of their tangent", "statement": "The system of a custom trace segment is orthonormal and right-handed with the tangent as first axis and a horizontal second axis; with limited orientation the third axis is vertical and the first one follows the horizontal part of the tangent; a vertical tangent is refused. The tangent of a discrete segment at a position is the direction of the piece that contains it.", "quantifier": "all discrete segments and all positions", "why_tests_cant": "unbounded number of points", "anchors": ["weldx/geometry.py:LinearHorizontalTraceSegment", "weldx/geometry.py:DynamicTraceSegment"]}
{"id": "C61", "title": "The raster of a geometry is the profile swept along the trace", "statement": "The raster of a geometry has one copy of the rasterised profile per position on the trace, placed congruently in the plane perpendicular to the trace; a variable profile is taken at the same fraction of its range, so that the ends belong to the first and last profile.", "quantifier": "all traces, profiles and raster widths", "why_tests_cant": "unbounded number of segments and real positions", "anchors": ["weldx/geometry.py:Geometry._rasterize_constant_profile", "weldx/geometry.py:Geometry._rasterize_variable_profile", "weldx/geometry.py:Geometry._get_transformed_profile_data"]}
{"id": "C62", "title": "Queries with time compose the systems of the path at each point in time", "statement": "`get_cs` for given times returns, at each of them, the composition of the systems of the path at this absolute point in time, where times of systems without reference time count from the one of the manager; without a time it does so at exactly the points in time of all systems of the path.", "quantifier": "all paths of static, discrete and expression based systems, all reference times and all times", "why_tests_cant": "unbounded paths and times", "anchors": ["weldx/transformations/cs_manager.py:CoordinateSystemManager.get_cs", "weldx/transformations/cs_manager.py:CoordinateSystemManager._get_cs_on_edge", "weldx/transformations/cs_manager.py:CoordinateSystemManager.time_union"]}
{"id": "C63", "title": "Files change only through writable sessions", "statement": "Over any sequence of opening, changing, synchronising, closing, writing and copying WeldxFile objects, the content of a file changes only by objects opened in mode 'rw' for it or by writing or copying to it; something that is not an ASDF file is never overwritten without being asked for; closing in mode 'rw' with sync stores the tree and reopening gives it back; the schema for writing validates what is written, overwrite=False protects existing files, and a copy has the schemas of its source.", "quantifier": "all sequences of calls on any number of files, including calls that raise", "why_tests_cant": "history with file system state", "anchors": ["weldx/asdf/file.py:WeldxFile.__init__", "weldx/asdf/file.py:WeldxFile.close", "weldx/asdf/file.py:WeldxFile.sync", "weldx/asdf/file.py:WeldxFile.copy", "weldx/asdf/file.py:WeldxFile.write_to", "weldx/asdf/file.py:WeldxFile._handle_path"]}
{"id": "C64", "title": "Discrete generic series are interpolated in each dimension", "statement": "Evaluating a discrete GenericSeries returns the values of its interpolation method with constant values outside of the range: stored values at stored coordinates, no values outside of the range of the stored ones, the requested coordinates as coordinates of the result; the order of the arguments is irrelevant, and evaluating in several steps gives the same as in one.", "quantifier": "all arrays with any number of dimensions, all methods and all coordinates", "why_tests_cant": "unbounded arrays and real coordinates", "anchors": ["weldx/core/generic_series.py:GenericSeries._evaluate_array", "weldx/util/xarray.py:xr_interp_like"]}
{"id": "C65", "title": "Unit and tag validation decide exactly the declared requirements", "statement": "A tree passes `wx_unit` exactly if every node named by the schema that exists has a unit of the required dimension, otherwise a ValidationError is raised; missing optional properties are accepted. A mapping passes `wx_property_tag` exactly if the tags of all of its values match one of the patterns, where a version pattern `base-1.2.*` accepts exactly the tags `base-1.2.<anything without a slash>`.", "quantifier": "all trees and schemas", "why_tests_cant": "unbounded trees", "anchors": ["weldx/asdf/validators.py:_walk_validator", "weldx/asdf/validators.py:_unit_validator", "weldx/asdf/validators.py:WxPropertyTagValidator", "weldx/asdf/util.py:_get_instance_units", "weldx/asdf/util.py:uri_match"]}
{"id": "C66", "title": "Time objects survive serialisation", "statement": "Converting a Time, TimedeltaIndex or DatetimeIndex to its file representation and back gives the same points in time, reference time and time zone, whether the values are regular (stored as frequency) or not, and for files of older pandas versions; the shape used by the validators is the number of values.", "quantifier": "all indexes, resolutions and reference times", "why_tests_cant": "frequency inference over unbounded values", "anchors": ["weldx/tags/time/timedeltaindex.py:TimedeltaIndexConverter", "weldx/tags/time/datetimeindex.py:DatetimeIndexConverter", "weldx/tags/time/time.py:TimeConverter"]}
{"id": "C67", "title": "Time series survive serialisation", "statement": "Converting a TimeSeries to its file representation and back gives an equal series with the same points in time, reference time, values and interpolation method, whether it is a constant, a set of discrete values or an expression; the shape used by the validators is the one of the series.", "quantifier": "all time series", "why_tests_cant": "unbounded values and times", "anchors": ["weldx/tags/core/time_series.py:TimeSeriesConverter"]}
{"id": "C68", "title": "The constructor of a generic series finds every conflict", "statement": "A GenericSeries from an expression is created exactly if its parameters are symbols of the expression, at least one variable is left, units are given for variables only, the variables have different dimensions that no parameter uses, the parameters fit to each other and the units are compatible; the accepted series can always be evaluated. Derived classes accept exactly the series that have the required variables, dimensions, units and coordinates.", "quantifier": "all expressions, parameters, dimension names and units", "why_tests_cant": "the test evaluations in the constructor use two sets of lengths; that they suffice for all lengths is a theorem", "anchors": ["weldx/core/generic_series.py:GenericSeries._init_expression", "weldx/core/generic_series.py:GenericSeries._test_expr", "weldx/core/generic_series.py:GenericSeries._check_constraints_expression", "weldx/core/generic_series.py:GenericSeries._check_constraints_discrete", "weldx/core/spatial_series.py:SpatialSeries"]}
{"id": "C69", "title": "Generic series and mathematical expressions survive a file", "statement": "Reading what GenericSeriesConverter and MathematicalExpressionConverter have written gives the same object: an expression series that was constructed gets the same expression, parameters, dimensions of variables, units and units of variables; a discrete series the same data, coordinates and interpolation; a mathematical expression the same parameters; and saving does not change the saved object.", "quantifier": "all expressions, parameters, dimension names and units; all discrete series; all stores of quantity objects and parameter lists, also with shared objects and user metadata", "why_tests_cant": "Failures need series without unit, coordinates that are not dimensions, the same quantity object in two parameters or in a later expression, or user metadata; a finite list of objects leaves combinations out.", "anchors": ["weldx/tags/core/generic_series.py:24-87", "weldx/tags/core/mathematical_expression.py:13-48", "weldx/core/generic_series.py:270-289", "weldx/core/generic_series.py:825-897", "weldx/asdf/types.py:26-66"]}
{"id": "C70", "title": "Interpolation of a whole coordinate system manager", "statement": "CoordinateSystemManager.interp_time replaces exactly the systems on the requested links: at the given times every such link keeps its values in both directions, the two directions stay inverse to each other, all other links, names, data and subsystems stay, and the call either succeeds or leaves the manager unchanged. Without in_place the original is not changed, and no call changes objects that belong to the user or to other managers.", "quantifier": "all managers that satisfy the invariants, with any sharing of systems between links and managers, any lists of affected systems, all times and reference times, all time dependent systems", "why_tests_cant": "Needs all trees with both directions of definition, shared coordinate systems, systems without reference time, and comparisons of every link before and after the call.", "anchors": ["weldx/transformations/cs_manager.py:1310-1378", "weldx/transformations/local_cs.py:723-772", "weldx/transformations/local_cs.py:867-882", "weldx/util/xarray.py:823-846"]}
{"id": "C71", "title": "A coordinate system has the values it was created with", "statement": "A LocalCoordinateSystem created from orientations and coordinates (values, values with times, or arrays with their own times) has these values at all of the given points in time: its times are those of the arguments, a reference time only changes how times are counted, and arguments that do not fit together are rejected.", "quantifier": "all orientations and coordinates with or without times, all time axes of any length (same or different for both), time stamps and time deltas, all combinations of reference times of the arrays, of the parameter time and of the parameter time_ref, and coordinates given by expressions", "why_tests_cant": "Needs all pairs of time axes and all combinations of up to four reference times.", "anchors": ["weldx/transformations/local_cs.py:40-121", "weldx/transformations/local_cs.py:268-345", "weldx/transformations/local_cs.py:403-418", "weldx/util/xarray.py:577-663", "weldx/util/xarray.py:799-846"]}
{"id": "C72", "title": "A coordinate system read from a file is the one that was written", "statement": "Writing a LocalCoordinateSystem with its converter and reading it again gives a system with the same orientations, coordinates, units, times and reference time, or, for components that the converter leaves out because they are the identity or zero, the same values within the tolerance.", "quantifier": "all coordinate systems: static and time dependent orientations and coordinates, coordinates given by expressions, any times and reference times, any units", "why_tests_cant": "Needs systems whose values are close to zero or the identity, mixtures of static and time dependent components, and all units.", "anchors": ["weldx/tags/core/transformations/local_coordinate_system.py:17-75", "weldx/transformations/local_cs.py:643-660", "weldx/transformations/local_cs.py:268-345"]}
{"id": "C73", "title": "A rotation read from a file is the one that was written", "statement": "Writing a rotation with its converter and reading it again gives the same rotations, with the same way of creation; rotations of Euler angles in any unit are those of the angles in radians.", "quantifier": "all rotations and stacks of rotations made of quaternions, matrices, rotation vectors or one to three Euler angles about any valid sequence of axes, any angles and units", "why_tests_cant": "The angles are reconstructed by scipy for a completed sequence of three axes; the statement is about all angles and sequences.", "anchors": ["weldx/tags/core/transformations/rotation.py:15-62", "weldx/transformations/rotation.py:22-86"]}
{"id": "C74", "title": "Front face grooves consist of the described plates, created and stored grooves keep their parameters", "statement": "The profile of a front face groove consists of two plates with the given thicknesses that enclose the given angle, do not overlap and are the root gap apart; missing parameters are rejected. get_groove hands every argument to the described attribute of the class, and a stored groove is read unchanged.", "quantifier": "all code numbers, thicknesses, angles, root gaps, special depths and widths; all groove types and arguments", "why_tests_cant": "Distances, overlaps and the file round trip depend on the class and on every combination of missing arguments, with continuous parameters.", "anchors": ["weldx/welding/groove/iso_9692_1.py:1341-1600", "weldx/welding/groove/iso_9692_1.py:1653-1951", "weldx/tags/groove/iso_9692_1.py:28-36"]}
{"id": "C75", "title": "Systems with an expression keep their motion when the reference time changes", "statement": "A LocalCoordinateSystem whose coordinates are a time series with an expression is, at each absolute time, where the expression says it is at the time since its reference time; it has the reference time of the series, and resetting the reference time does not change where it is.", "quantifier": "all orientations, all expressions, all reference times of the series and of the system (present or not), all requested times (one or several, absolute or relative, with any reference time), all sequences of resets", "why_tests_cant": "Which of the two reference times counts depends on three optional values, for discrete systems and for expressions.", "anchors": ["weldx/transformations/local_cs.py:40-121", "weldx/transformations/local_cs.py:333-345", "weldx/transformations/local_cs.py:601-612", "weldx/transformations/local_cs.py:704-713", "weldx/transformations/local_cs.py:723-772", "weldx/transformations/local_cs.py:867-883", "weldx/core/time_series.py:373-389"]}
{"id": "C76", "title": "Equal objects behave in the same way", "statement": "Two objects that compare equal give the same results: equal mathematical expressions, generic series and time series evaluate to the same values, equal coordinate systems are at the same place at the same time, and equal measurement chains have the same signals and transformations. The comparison is an equivalence.", "quantifier": "all expressions and parameters, all series of both kinds, all time series, all coordinate systems, all reachable states of measurement chains", "why_tests_cant": "Each comparison omits different attributes; the statement is about all pairs of objects that differ in any combination of attributes.", "anchors": ["weldx/core/math_expression.py:70-138", "weldx/core/generic_series.py:244-264", "weldx/core/time_series.py:81-104", "weldx/transformations/local_cs.py:249-268", "weldx/measurement.py:272-282"]}
{"id": "C77", "title": "Arrays, data sets and quantities read from a file are those that were written", "statement": "Every DataArray, Dataset and Quantity can be written, and the object that is read from the file equals the one that was written: values, data types, dimensions, coordinates, units, attributes, and names are the same.", "quantifier": "all data types, shapes and values, all coordinates (with or without dimensions), units, attributes, and names", "why_tests_cant": "The converters treat scalars and times separately; names, types, shapes and attributes combine without bound.", "anchors": ["weldx/tags/core/common_types.py:18-120", "weldx/tags/core/data_array.py:22-48", "weldx/tags/core/dataset.py:13-40", "weldx/tags/units/pint_quantity.py:31-45"]}
{"id": "C78", "title": "Spatial data is checked when created and survives storage and export", "statement": "SpatialData can only be created with coordinates in a length unit and triangles of three points, other units raise a DimensionalityError; its limits enclose all points and are attained; every such object can be written to a file, and the object that is read equals the one that was written; points exported to a mesh file are read at the same positions.", "quantifier": "all coordinates (arrays with any coordinates and attributes, or raw quantities), units, triangles of any data type, attributes, all target units", "why_tests_cant": "Static and time dependent data is stored in different ways; shapes, coordinates and types of triangles combine without bound.", "anchors": ["weldx/geometry.py:2656-2723", "weldx/geometry.py:2864-2875", "weldx/geometry.py:2950-2978", "weldx/util/xarray.py:577-631", "weldx/tags/core/geometry/spatial_data.py:15-28"]}
{"id": "C79", "title": "Matrix operations on arrays with named dimensions act on every matrix of the array", "statement": "xr_matmul is the product of the matrices (transposed as the flags say), or of a matrix and a vector, at every position of all other dimensions, whatever the names, the number and the order in memory of the dimensions; it exists exactly if all named dimensions exist with matching lengths, and a ValueError is raised otherwise; xr_transpose_matrix_data transposes every matrix and keeps the order of the dimensions; xr_is_orthogonal_matrix tells whether all matrices are orthogonal; therefore sums and inverses of coordinate systems and the transformation of data given by such arrays are those of the systems at each position.", "quantifier": "all arrays with distinct dimension names, all names, lengths and memory orders, all flags, all positions", "why_tests_cant": "Broadcasting rules depend on which dimensions two arrays share and in which order they are stored.", "anchors": ["weldx/util/xarray.py:40-56", "weldx/util/xarray.py:59-103", "weldx/util/xarray.py:106-175", "weldx/util/xarray.py:178-199", "weldx/transformations/local_cs.py:203-211", "weldx/transformations/local_cs.py:790-801", "weldx/transformations/cs_manager.py:1754-1757"]}
{"id": "C80", "title": "Times can be converted to all supported types and back without loss", "statement": "as_quantity gives the durations since the reference time in any unit and Time(t.as_quantity(unit)) is the same time (values and reference time); the same holds for as_data_array with durations and with time stamps; as_timedelta, as_datetime, as_timestamp and as_pandas_index describe the same points in time; t[i] and slices have the values at these positions and the reference time of t; all_close is reflexive, symmetric, and true for the same points in time in any representation.", "quantifier": "all valid times (relative, absolute, any reference time), all units, both kinds of arrays, all positions, all pairs of times", "why_tests_cant": "The result depends on the kind of the time, its reference time and its values in combination.", "anchors": ["weldx/time.py:365-367", "weldx/time.py:412-430", "weldx/time.py:432-457", "weldx/time.py:459-482", "weldx/time.py:490-521", "weldx/time.py:661-696"]}
{"id": "C81", "title": "External files and media files keep their content and their attributes", "statement": "An ExternalFile records name, suffix, directory, size, hash and times of the file it is created from; exporting writes exactly the stored content into the given directory under the stored name; after storage and reading the attributes and, if it was saved, the content are the same, and the object can be exported and stored again without loss. A media file from memory has the passed frames, resolution, frames per second and reference time and is read as it was written; a media file from a path is read with the same frames, or reading fails if the video has changed.", "quantifier": "all file systems, paths, contents, hash functions, options; all media files from paths, lists of frames and arrays; all machines on which a file is read", "why_tests_cant": "Depends on the order of writing, reading, storing again and exporting, and on changes of the file in between.", "anchors": ["weldx/util/external_file.py:16-62", "weldx/util/external_file.py:101-131", "weldx/tags/core/file.py:24-69", "weldx/util/media_file.py:86-158", "weldx/util/media_file.py:166-227", "weldx/tags/core/media_file.py:17-44"]}
{"id": "C82", "title": "Changing the reference time of an array keeps its absolute times", "statement": "time_ref_unset, time_ref_restore and reset_reference_time return a new array with the same absolute times, content and other attributes; time stamps and differences can be converted into each other and back without loss; the result of reset_reference_time has the requested reference time; the setter of time_ref keeps absolute times; nothing that existed before is changed, in particular no attribute dictionary of another array.", "quantifier": "all arrays and data sets with or without a time coordinate, all time stamps, differences or numbers in it, all attributes, all sharing of attribute dictionaries", "why_tests_cant": "Sharing with the original array, and arrays without a time coordinate, without values or with other attributes, combine without bound.", "anchors": ["weldx/util/xarray.py:790-797", "weldx/util/xarray.py:799-812", "weldx/util/xarray.py:814-819", "weldx/util/xarray.py:821-849"]}
{"id": "C83", "title": "Units of coordinates do not depend on the form of the attribute", "statement": "coordinates_as_quantities has one entry for each coordinate with its values and its unit; quantify_coords and dequantify_coords change only the form of the attribute (object or text): names, dimensions, values and units are kept, and so is the dictionary of quantities; indexes_as_quantities gives the quantities of the indexes; units is the unit of the data, or of the attribute if the data is no quantity.", "quantifier": "all arrays, all numbers of coordinates with and without units, all unit parsers and printers", "why_tests_cant": "Coordinates can have any unit or none, and an empty text as unit behaves differently from both.", "anchors": ["weldx/util/xarray.py:229-238", "weldx/util/xarray.py:241-252", "weldx/util/xarray.py:851-865", "weldx/util/xarray.py:882-909"]}
{"id": "C84", "title": "Copies of shapes are independent and calls change only their own object", "statement": "translate, transform, reflect and reflect_across_line return a new shape that looks like the shape after the corresponding change in place, share nothing with existing objects and change none of them, even when they raise; a change of a shape in place and add_segments change no other shape; a profile consists of the shapes that were passed, in their order, and profiles do not influence each other.", "quantifier": "all sets of segments, lists, shapes and profiles with any sharing, all histories of changes in place, all matrices, vectors and lines", "why_tests_cant": "Shapes can share lists and segments in any way; whether a change of one is visible in another depends on the whole history.", "anchors": ["weldx/geometry.py:82-103", "weldx/geometry.py:895-910", "weldx/geometry.py:1075-1100", "weldx/geometry.py:1216-1298", "weldx/geometry.py:1307-1326", "weldx/geometry.py:1355-1371"]}
{"id": "C85", "title": "Generated converters write and read all attributes, and saving leaves the object alone", "statement": "A dataclass with a converter made by dataclass_serialization_class (measurement equipment, signals, arc welding processes and others) is not changed when it is saved, saving twice writes the same, and reading gives an object with the same attributes and metadata. The name and the abbreviation of an arc welding process always agree.", "quantifier": "all sets of objects and lists with any sharing, all attributes, all classes given by fields, defaults, __post_init__ and from_yaml_tree_mod; all strings for the process", "why_tests_cant": "Sharing, added attributes and None combine with lists of any length; sorting while saving changes the original object.", "anchors": ["weldx/asdf/util.py:427-500", "weldx/asdf/types.py:26-66", "weldx/tags/equipment/measurement_equipment.py:7-20", "weldx/measurement.py:132-152", "weldx/tags/aws/process/arc_welding_process.py:7-71"]}
{"id": "C86", "title": "The surface of a geometry encloses the solid and can be exported", "statement": "The spatial data of a geometry have the points of its raster and a closed surface that is oriented towards the outside, wherever the trace starts and in whichever direction it runs, so that the enclosed volume is the length of a straight trace times the areas of the shapes; the export writes the same surface.", "quantifier": "all profiles and raster widths; all traces for the points and the closedness, all straight traces with any orthonormal right-handed start for the volume", "why_tests_cant": "The orientation depends on the direction of the trace in space and on the start point of each shape.", "anchors": ["weldx/geometry.py:38-49", "weldx/geometry.py:2227-2262", "weldx/geometry.py:2574-2613", "weldx/geometry.py:2616-2650", "weldx/geometry.py:2803-2862"]}
{"id": "C87", "title": "Systems created by the manager have the given relation to their reference system", "statement": "create_cs, create_cs_from_euler and create_cs_from_axis_vectors create a system exactly if the arguments describe an orthogonal orientation, the reference system exists and the name is new or that of a neighbour; otherwise the manager is unchanged. Points of the new system then have the position in the reference system that matrix, angles or axes describe (or the other way around if lcs_child_in_parent is False), and all other relations are kept; an existing system is moved with everything that is attached to it.", "quantifier": "all managers reachable by any calls, all names, all matrices, sequences of axes and angles, axis vectors and positions, both directions", "why_tests_cant": "Relates angles and axes to the positions of all points, and concerns all systems behind a moved one in any tree.", "anchors": ["weldx/transformations/cs_manager.py:658-701", "weldx/transformations/cs_manager.py:703-765", "weldx/transformations/cs_manager.py:767-831", "weldx/transformations/local_cs.py:421-474", "weldx/transformations/local_cs.py:477-541"]}
{"id": "C88", "title": "The overview of a schema shows its properties, their classes and which of them are required", "statement": "The dictionary that is made of a schema file has one key for each property, which consists of the name, the class and a note exactly if the property is required, with the remaining information, the shape as one text, and the nested properties below it.", "quantifier": "all nested schemas of values and objects with any names, tags, references, types, required properties and further information, all sets of keys to drop", "why_tests_cant": "The key is built by five passes over a tree of any depth and the note by replacing the last letter of all keys that begin with a required name.", "anchors": ["weldx/asdf/util.py:719-821"]}
{"id": "C89", "title": "The drawing of the graph of coordinate systems shows each system and each link once", "statement": "Every coordinate system of a manager gets exactly one position in the drawing, one level below its parent, no two systems share a position, and no two links cross; every link is drawn as one arrow from the reference system to the system that was described in it, with the colour of time dependent systems exactly if the supplied system depends on time.", "quantifier": "all managers that any sequence of calls can produce, with any number of systems and any tree", "why_tests_cant": "Whether positions coincide depends on the whole shape of the tree.", "anchors": ["weldx/transformations/cs_manager.py:1431-1462", "weldx/transformations/cs_manager.py:1484-1503", "weldx/transformations/cs_manager.py:901-926"]}
{"id": "C90", "title": "Tags belong to exactly one converter, and processes, grooves and standards are stored under their own name", "statement": "A tag matches a pattern exactly if it is the pattern with text in place of the stars. Every tag of the manifest, in every version 0.1.x, is handled by exactly one converter, the one of its type, and every converter handles the tags it lists. A welding process can be saved exactly if it is one of the three known kinds, and is read unchanged with all parameters as time series; a groove is saved with the newest tag of its class and the class is read back from it. Enabling a quality standard uses the requested version of the standard registered last under this name.", "quantifier": "all patterns, tags, converter classes, processes, lists of tags and registered standards", "why_tests_cant": "Which tags fit two patterns or none cannot be sampled.", "anchors": ["weldx/asdf/util.py:519-541", "weldx/asdf/types.py:70-123", "weldx/welding/processes.py:10-35", "weldx/tags/processes/process.py:10-33", "weldx/tags/groove/iso_9692_1.py:15-52", "weldx/config.py:137-192"]}
{"id": "C91", "title": "What a converter writes is accepted by the schema of its tag", "statement": "The tree that a converter writes for an object of the package is accepted by the schema of its tag, and so are all parts of it, so that every object can be saved. For each class it is stated exactly which objects are accepted: quantities, times, variables, arrays, series, files, spatial data, rotations, coordinate systems and hierarchies, graphs, measurement chains, grooves, the AWS classes and the processes. Metadata do not matter, there is one schema for each tag of the manifest, and the patterns in the schemas match the tags that their texts match.", "quantifier": "all objects that the constructors accept, as far as the tree depends on them; all units and ranges; all metadata", "why_tests_cant": "Whether an object can be saved depends on combinations of optional attributes, shapes, units and the structure of graphs.", "anchors": ["weldx/schemas/weldx.bam.de/weldx", "weldx/asdf/validators.py:30-480", "weldx/asdf/util.py:591-640", "weldx/tags/core", "weldx/tags/units", "weldx/tags/time", "weldx/tags/aws", "weldx/tags/measurement", "weldx/tags/groove/iso_9692_1.py:30-52", "weldx/tags/processes/process.py:10-33"]}
{"id": "C92", "title": "Segments that are described by expressions", "statement": "A segment with a series that is an expression has at each position the point that results from inserting the components of the parameters, the tangent of its coordinate system is the derivative of this curve, and its length up to a position is the length of the curve, that is the least upper bound of the lengths of inscribed polygons. Lengths are additive along the segment and at least the distance of the points. Translations shift all points by the sum of the vectors, in any number, and do not change lengths. The radial segment is such a segment.", "quantifier": "all expressions, parameters, positions and lists of translations; the derivative is any expression with the values of the derivative, and the rules of differentiation are proved to give one for sums, products, powers, sine, cosine and exponential function", "why_tests_cant": "That the integral is the length of the curve and that names of translations never collide holds for all expressions only by proof.", "anchors": ["weldx/geometry.py:108-252", "weldx/geometry.py:300-350", "weldx/geometry.py:1519-1533", "weldx/geometry.py:1576-1584", "weldx/geometry.py:1647-1686", "weldx/core/spatial_series.py:16-87"]}
{"id": "C93", "title": "Segments that are described by points", "statement": "A segment with a series of points has as length up to a position the length of the polygon through the points, that is the least upper bound of the lengths of inscribed polygons; it is created unless all points coincide. Translations and transformations move all its points and leave the length that a segment made from the moved points has; rotations and reflections keep it. Its raster points run from its start point to its end point, and their number follows from length and width. The end points are the first and the last point, raster points have equal distances, and a failing transformation changes nothing.", "quantifier": "all lists of points with ascending positions, all values of max_coord, positions, vectors, matrices and widths", "why_tests_cant": "The position search, the interpolation and the sum of norms agree with the length of the polygon for all data only by proof, and the statement fails only for special data (positions beyond max_coord, uneven positions, singular matrices).", "anchors": ["weldx/geometry.py:108-155", "weldx/geometry.py:183-252", "weldx/geometry.py:258-398", "weldx/geometry.py:1586-1595"]}
{"id": "C94", "title": "Orthogonality check with its tolerance", "statement": "Each system that the constructor accepts has axes of length one along the given vectors that are perpendicular up to the tolerance. Sums, inverses and differences of accepted systems are accepted and agree with the exact transformations up to the tolerance; in particular a - a is the identity up to the tolerance and inverting twice gives the system back. Whether a system is accepted does not depend on a rotation of the surrounding system.", "quantifier": "all real 3x3 matrices, all translation vectors, all points, all finite trees of sums and inverses", "why_tests_cant": "How errors accumulate over arbitrarily long calculations, and that there are accepted systems whose calculations raise, follows from inequalities for all matrices and not from samples.", "anchors": ["weldx/transformations/local_cs.py:94-96", "weldx/transformations/local_cs.py:203-211", "weldx/transformations/local_cs.py:246-247", "weldx/transformations/local_cs.py:347-371", "weldx/transformations/local_cs.py:774-801", "weldx/util/xarray.py:178-199"]}
{"id": "C95", "title": "Comparison of coordinates with a reference", "statement": "xr_check_coords succeeds exactly if each coordinate of the reference is there (or missing and optional) and has the values, one of the data types, the unit and the dimension of its entry; otherwise the exception is that of the first entry and the first check that fails, and the order of the entries does not matter for success. Orientations need the labels x, y, z and 0, 1, 2, and time deltas; data of series needs a dimension and a coordinate time with time deltas in nanoseconds, and a quantity.", "quantifier": "all dictionaries of coordinates, all references, all data types, all interpretations of units", "why_tests_cant": "Which coordinates pass for every reference, and that comparisons of arrays of different lengths and descriptions of times let other coordinates through, follows only from the case analysis over all of them.", "anchors": ["weldx/util/xarray.py:398-427", "weldx/util/xarray.py:430-543", "weldx/transformations/local_cs.py:347-358", "weldx/transformations/local_cs.py:373-387", "weldx/core/time_series.py:127-141", "weldx/core/time_series.py:167-170"]}
{"id": "C96", "title": "Interpolation of rotations on the shortest way", "statement": "The interpolation of two orientations gives them at its ends, turns about a fixed axis with a constant rate and never by more than a half turn: angles grow in proportion to the weight and add up. Except for half turns it does not depend on the choice of rotation vectors, is the same backwards, for the inverse orientations and after turning the parent or the child system. Directions common to both orientations stay. Samples of a rotation with a constant rate and less than a half turn between neighbours are interpolated exactly by interp_time.", "quantifier": "all rotation matrices, all weights, all choices of rotation vectors, all series of orientations, all requested times", "why_tests_cant": "That the statement holds for all pairs of rotations, and that half turns and larger angles between samples are the only exceptions, needs the existence and uniqueness of rotation vectors.", "anchors": ["weldx/util/xarray.py:xr_interp_orientation_in_time", "weldx/util/xarray.py:703-707", "weldx/transformations/local_cs.py:LocalCoordinateSystem.interp_time"]}
{"id": "C97", "title": "unmerge after changes made since the merge", "statement": "Whatever was done since the merges, unmerge succeeds and returns one manager for each merge, with the merged systems and the relations and data they have now. The manager keeps exactly the systems whose path to the root does not enter a merged manager; a system added later shares the fate of its parent; changes of relations and data change no fate, deletions only affect what is deleted or whose record is dropped. The warning lists exactly the systems that are in none of the results. (The docstring promises that added systems are never lost.)", "quantifier": "all histories of calls, in particular all changes between merge and unmerge", "why_tests_cant": "The statement quantifies over all histories, nested merges at added systems included.", "anchors": ["weldx/transformations/cs_manager.py:CoordinateSystemManager.unmerge", "weldx/transformations/cs_manager.py:CoordinateSystemManager.remove_subsystems", "weldx/transformations/cs_manager.py:1926-1943"]}
{"id": "C98", "title": "geometry does not depend on the unit of length", "statement": "Describing the same segments, traces and raster widths in other units of length gives the same results: points, lengths and raster points of segments, which segments are accepted and connected, interpolated lines, added lines, translated, transformed and reflected segments and shapes, contours of shapes, lengths, local systems and raster points of traces, and points of geometries.", "quantifier": "all positive units (also different ones for the parts), all lines, arcs, shapes, trace segments, traces, start systems and raster widths", "why_tests_cant": "The statement quantifies over all units and all places where a quantity is stripped of its unit.", "anchors": ["weldx/geometry.py:Shape.rasterize", "weldx/geometry.py:Geometry._get_transformed_profile_data", "weldx/geometry.py:ArcSegment._check_valid", "weldx/geometry.py:DynamicShapeSegment.rasterize", "weldx/geometry.py:Trace.local_coordinate_system", "weldx/transformations/local_cs.py:LocalCoordinateSystem.__add__"]}
{"id": "C99", "title": "coordinate systems do not depend on the unit of length", "statement": "Giving the coordinates of systems in other units of length changes no result: sums, differences, inverses and interpolated systems, the answers of get_cs along any path at any times, and transformed data are the same lengths; an answer has the unit of the first system of the path, transformed data keep their unit, and transforming there and back returns the same numbers. Data without unit are rejected. Also the test whether a system lies in the origin of its parent does not depend on the unit.", "quantifier": "all positive units (different ones for each system and for the data), all static and time dependent systems and expressions, all paths, times and reference times, all points", "why_tests_cant": "The statement quantifies over all combinations of units on a path, all interpolation cases and all orders of operations.", "anchors": ["weldx/transformations/local_cs.py:LocalCoordinateSystem.__add__", "weldx/transformations/local_cs.py:LocalCoordinateSystem.interp_time", "weldx/transformations/local_cs.py:LocalCoordinateSystem.is_unity_translation", "weldx/transformations/cs_manager.py:CoordinateSystemManager.get_cs", "weldx/transformations/cs_manager.py:CoordinateSystemManager.transform_data"]}
{"id": "C100", "title": "grooves do not depend on the units of their parameters", "statement": "Giving the parameters of a groove and the width of its profile in other units (also different units for each parameter) changes nothing: which grooves are accepted, the heights that are filled in, the profile, the cross sectional area and the welding speed are the same. A parameter of a wrong dimension is rejected when the groove is created.", "quantifier": "all positive units of length and angle for each parameter separately, all twelve groove classes, all code numbers, all parameters (also missing ones) and widths, all dimensions", "why_tests_cant": "The statement quantifies over all combinations of units in all sums, stacks and comparisons.", "anchors": ["weldx/welding/groove/iso_9692_1.py:IsoBaseGroove", "weldx/welding/groove/iso_9692_1.py:_helperfunction", "weldx/welding/groove/iso_9692_1.py:_set_default_heights", "weldx/welding/groove/iso_9692_1.py:FFGroove.to_profile", "weldx/util/util.py:ureg_check_class", "weldx/welding/util.py:compute_welding_speed"]}
{"id": "C101", "title": "a manager read from a file answers get_cs like the written one", "statement": "If a coordinate system manager is written to a file and read again, get_cs gives for every two coordinate systems, every time and every reference time the same answer as before: the same rotation and the same translation at every requested time, in the same unit, and the same times if no time is requested. Unknown names are rejected by both.", "quantifier": "all managers that can be built with two or more systems, all names, systems in any units of length with constant or time dependent parts, all times and reference times", "why_tests_cant": "The statement is about all queries through the tree of the read manager, whose root and order of relations differ, and about all values near the tolerance with which unity parts are left out.", "anchors": ["weldx/tags/core/transformations/coordinate_system_hierarchy.py:CoordinateSystemManagerConverter", "weldx/tags/core/transformations/local_coordinate_system.py:LocalCoordinateSystemConverter", "weldx/tags/core/graph/di_graph.py:DiGraphConverter", "weldx/transformations/cs_manager.py:CoordinateSystemManager.get_cs"]}
{"id": "C102", "title": "get_cs composes the supplied systems at every requested time", "statement": "get_cs between any two systems of a coordinate system manager succeeds for every increasing list of times and answers at each of these times with the composition of the supplied systems, each taken at this time, along any chain of supplied relations between the two systems, in either direction and with detours. So a system seen from itself is the identity, the two directions are inverse to each other, and three systems fulfil the chain law at every time. The answer does not depend on the order in which systems were added nor on the root.", "quantifier": "all managers that can be built, all systems, discrete or described by expressions, in any units of length, all times and reference times", "why_tests_cant": "The statement is about all trees, all times between and outside the support times, and all chains.", "anchors": ["weldx/transformations/cs_manager.py:CoordinateSystemManager.get_cs", "weldx/transformations/cs_manager.py:CoordinateSystemManager._get_cs_on_edge", "weldx/transformations/cs_manager.py:CoordinateSystemManager._add_edges"]}
{"id": "C103", "title": "get_cs with the name of a system as time uses the times of this system", "statement": "If the name of a coordinate system is passed to get_cs as time, the answer for any two systems is the one for the times of the named system as seen from its parent: at each of these times it is the composition of the systems on the path, and if it depends on time, it has exactly these times. The root, unknown names and systems with a constant relation to their parent are rejected.", "quantifier": "all managers that can be built, all pairs of systems, all names, discrete systems and expressions in either direction, with and without reference times", "why_tests_cant": "The statement is about all kinds of systems and all names, including names that pandas can read as a time.", "anchors": ["weldx/transformations/cs_manager.py:CoordinateSystemManager.get_cs", "weldx/transformations/cs_manager.py:CoordinateSystemManager.time_union", "weldx/transformations/local_cs.py:LocalCoordinateSystem.time"]}
{"id": "C104", "title": "Expressions and series give the same physical results whatever units are used", "statement": "A mathematical expression is evaluated exactly if the dimensions of its parameters and variables fit; otherwise a DimensionalityError is raised. The result has the right dimensionality and, in base units, is the value of the expression at the given values in base units, so it does not depend on the units that were used. Time series and generic series made from expressions are created exactly for expressions whose dimensions fit, and have the same values for every unit of time and of the variables. Series with discrete values interpolate at coordinates in any compatible unit and reject all others.", "quantifier": "all expressions built from numbers, symbols, sums, products, integer powers, square roots, absolute values and functions of numbers, all positive unit factors and dimensionalities, all times, all discrete series", "why_tests_cant": "Mistakes in the conversion of a sum or of a time unit show only for some combinations of units.", "anchors": ["weldx/core/math_expression.py:MathematicalExpression.evaluate", "weldx/core/time_series.py:TimeSeries._init_expression", "weldx/core/time_series.py:TimeSeries.interp_time", "weldx/core/generic_series.py:GenericSeries._test_expr", "weldx/core/generic_series.py:GenericSeries.evaluate", "weldx/util/xarray.py:xr_interp_like"]}
{"id": "C105", "title": "Data with times are transformed with the systems at the same points in time", "statement": "transform_data and get_data of a manager with moving systems: data with times keep their times, and the points of each time are mapped by the composition of the systems on the path at this point in time, whatever units of length are used; transforming there and back gives the same data. Data without times get the times of the systems on the path. In their own system data are returned unchanged.", "quantifier": "all managers that can be built, all systems (discrete or given by an expression, with any units), all pairs of systems, all data with strictly increasing times, with or without a reference time", "why_tests_cant": "The tests of transform_data use static systems (with a TODO for time dependency); one test of get_data has data with times, for a single moving origin and without any reference time. A shift between the reference times of data and manager silently selects values at wrong times and raises no error.", "anchors": ["weldx/transformations/cs_manager.py:CoordinateSystemManager.transform_data", "weldx/transformations/cs_manager.py:CoordinateSystemManager.get_data", "weldx/util/xarray.py:xr_matmul", "weldx/time.py:Time._convert_xarray"]}
{"id": "C106", "title": "Data with times can be assigned to any system of a manager with moving systems", "statement": "assign_data with a target system stores data with times in the target system: the times are the same, and the points of each time are mapped by the composition of the systems on the path at this point in time. get_data then shows the same points in every system as if the data had been stored where they were measured. Refused calls leave the manager unchanged; other data and all systems stay as they are.", "quantifier": "all managers that can be built, all systems (discrete or given by an expression, with any units), all triples of source, target and viewing system, all data with strictly increasing times", "why_tests_cant": "The statement relates two consecutive transformations along different paths of any tree at all times; data that are lost while storing can not be noticed in the stored data.", "anchors": ["weldx/transformations/cs_manager.py:CoordinateSystemManager.assign_data", "weldx/transformations/cs_manager.py:CoordinateSystemManager.get_data", "weldx/transformations/cs_manager.py:CoordinateSystemManager.transform_data"]}
{"id": "C107", "title": "Calculations with coordinate systems stay close to the exact result despite rounding", "statement": "Sums and inverses of coordinate systems, nested in any way and with rounding after every operation on numbers (including the normalisation and the orthogonality check of each new system), never raise an exception, and orientation, coordinates and the places of points differ from the result of exact arithmetic by at most a small multiple of 1e-15 per operation. In particular a + b - b is a, (a + b) + c is a + (b + c), and get_cs along a path is the exact composition, up to these bounds.", "quantifier": "all calculations with orthonormal systems for which the number of systems and operations times one plus the depth of nested inverses is at most a million, all roundings with a relative error of at most 2^-53", "why_tests_cant": "Tests compare a few results with a tolerance; how errors add up in calculations of any shape and length, and that the check of the constructor never fails because of them, is a statement about all of them.", "anchors": ["weldx/transformations/local_cs.py:LocalCoordinateSystem.__add__", "weldx/transformations/local_cs.py:LocalCoordinateSystem.invert", "weldx/transformations/local_cs.py:LocalCoordinateSystem._check_and_normalize_orientation", "weldx/transformations/util.py:normalize", "weldx/transformations/cs_manager.py:CoordinateSystemManager.get_cs"]}
{"id": "C108", "title": "Linear interpolation in time stays on the line through the samples despite rounding", "statement": "With rounding after every operation on numbers, xr_interp_like gives a value for every requested time. It differs from the value on the line through the two neighbouring samples by at most 2^-50 times the larger one of them, outside of the data it is the value at the first or last time, between two samples it follows their order, elements that do not change keep their value exactly, and samples are reproduced exactly.", "quantifier": "all arrays of any shape with ascending times that span less than 2^53 nanoseconds, all requested ascending times, all roundings to a nearest number with 53 bits (any rule for ties)", "why_tests_cant": "Tests compare a few interpolated values with a tolerance. Whether rounding can push a value away from a sample or out of the range depends on the digits of times and values.", "anchors": ["weldx/util/xarray.py:xr_interp_like", "weldx/util/xarray.py:_add_coord_edges", "weldx/util/xarray.py:xr_fill_all", "weldx/util/xarray.py:xr_interp_coordinates_in_time"]}
{"id": "C109", "title": "Arcs can be constructed from a radius and moved despite rounding", "statement": "With rounding after every operation on numbers, constructing an arc from two different points and a radius never raises an exception; the center lies on the requested side of the line through the points, and its distance to both points is the requested radius (or half of their distance, if the radius is too small) up to a few units in the last place of the coordinates. Rotating, reflecting and translating the arc any number of times never raises an exception either, each reflection reverses the sense of rotation, and the distances between the points are kept up to an error proportional to the number of changes.", "quantifier": "all points, radii, sides and senses of rotation, all sequences of translations and rounded orthogonal matrices, all roundings with a relative error of at most 2^-53", "why_tests_cant": "Tests build a few arcs with small round numbers. The check that compares both radii uses a tolerance of 1e-8 without regard to the size of the coordinates, so whether it fails depends on the digits that are lost in a long history of changes.", "anchors": ["weldx/geometry.py:ArcSegment.construct_with_radius", "weldx/geometry.py:ArcSegment._check_valid", "weldx/geometry.py:ArcSegment._calculate_arc_angle", "weldx/geometry.py:ArcSegment.apply_transformation", "weldx/geometry.py:ArcSegment.apply_translation"]}
{"id": "C110", "title": "Segments that share points form a shape despite rounding", "statement": "With rounding after every operation on numbers, the calculated start and end of lines and arcs agree with the points from which they were constructed within the tolerance that is used for the connection of segments. Hence a list of segments, each of which starts in the end point of the one before it, is accepted as a shape.", "quantifier": "all lists of lines and arcs, all points, all functions that round to the nearest number with 53 bits, all cosine, sine and arccosine functions with small errors", "why_tests_cant": "The end of an arc is calculated with an arccosine and trigonometric functions. Tests use a few angles; for some semicircles the error of the arccosine is a hundred million times larger than the error of its argument, and whether the tolerance is exceeded depends on the last digit of a scalar product and on the distance of the connection from the origin.", "anchors": ["weldx/geometry.py:Shape._check_segments_connected", "weldx/geometry.py:_vector_is_close", "weldx/geometry.py:ArcSegment._calculate_arc_angle", "weldx/geometry.py:ArcSegment._update_internals_and_get_series", "weldx/geometry.py:DynamicShapeSegment.point_end", "weldx/geometry.py:DynamicShapeSegment.point_start"]}
{"id": "C111", "title": "Grooves can be made despite rounding", "statement": "With rounding after every operation on numbers, the profile of an I, V, VV, UV, HV, U, HU, double V, double HV, double U, double HU or front face groove can be made whenever its dimensions fit together: no segment is refused and all segments are connected. The profile has the segments that are asked for, at the calculated points moved by half of the gap. The right shape is the mirror image of the left one or, for the grooves with one straight side, of the left one of the groove without straight side; the lines of a front face groove connect the points of its code number.", "quantifier": "all thicknesses, angles, radii, root faces, heights, gaps and widths, all functions that round to the nearest number with 53 bits, all cosine, sine, tangent and arccosine functions with small errors", "why_tests_cant": "Both radii of an arc are calculated from rounded coordinates and are compared with an absolute tolerance of 1e-8, the connection of segments with one of 1e-9. Whether a tolerance is exceeded depends on the last digits of all dimensions; tests use a few of them.", "anchors": ["weldx/welding/groove/iso_9692_1.py:UGroove.to_profile", "weldx/welding/groove/iso_9692_1.py:DUGroove.to_profile", "weldx/welding/groove/iso_9692_1.py:IGroove.to_profile", "weldx/welding/groove/iso_9692_1.py:VGroove.to_profile", "weldx/welding/groove/iso_9692_1.py:VVGroove.to_profile", "weldx/welding/groove/iso_9692_1.py:HVGroove.to_profile", "weldx/welding/groove/iso_9692_1.py:HUGroove.to_profile", "weldx/welding/groove/iso_9692_1.py:DVGroove.to_profile", "weldx/welding/groove/iso_9692_1.py:DHVGroove.to_profile", "weldx/welding/groove/iso_9692_1.py:DHUGroove.to_profile", "weldx/welding/groove/iso_9692_1.py:UVGroove.to_profile", "weldx/welding/groove/iso_9692_1.py:FFGroove.to_profile", "weldx/welding/groove/iso_9692_1.py:IsoBaseGroove._translate_reflect", "weldx/welding/groove/iso_9692_1.py:_helperfunction", "weldx/geometry.py:Shape.apply_reflection"]}
{"id": "C112", "title": "Variable profiles can be interpolated despite rounding", "statement": "With rounding after every operation on numbers, two profiles of lines of the same form can be interpolated: no line is refused and all lines are connected. The points are the exactly interpolated ones up to a small error. At the given locations the local profile of a variable profile is exactly the given one. The interpolation of a profile with itself is the profile.", "quantifier": "all profiles of lines, all weights, all variable profiles and locations, all functions that round to the nearest number with 53 bits", "why_tests_cant": "Whether neighbouring lines still meet after the interpolation of each end, whether the weight stays between 0 and 1, and whether the result is exact depend on the last digits of all coordinates; tests use a few weights and compare with tolerances.", "anchors": ["weldx/geometry.py:LineSegment.linear_interpolation", "weldx/geometry.py:Shape.interpolate", "weldx/geometry.py:Shape.linear_interpolation", "weldx/geometry.py:linear_profile_interpolation_sbs", "weldx/geometry.py:VariableProfile.local_profile"]}
{"id": "C113", "title": "Raster points of shapes of lines lie on the shape despite rounding", "statement": "With rounding after every operation on numbers, every shape of lines can be rasterised. All corners are raster points. The number of steps on a line is nearest to the quotient of its length and the raster width, and the points on a line have equal distances up to a small error. The last point is the end of the shape, and it is left out if the shape is closed.", "quantifier": "all shapes of lines with moderate coordinates, all raster widths, all functions that round to the nearest number with 53 bits", "why_tests_cant": "The number of points is calculated from a rounded length and the last one from a rounded difference. Whether a point is missing, appears twice or is not exactly a corner depends on the last digits of the coordinates; tests compare with tolerances.", "anchors": ["weldx/geometry.py:DynamicShapeSegment.rasterize", "weldx/geometry.py:Shape.rasterize", "weldx/geometry.py:DynamicShapeSegment.get_points"]}
{"id": "C114", "title": "Vectors are called orthogonal exactly if their angle is right", "statement": "is_orthogonal raises an exception exactly for vectors without length. Otherwise it answers yes if and only if the angle between both vectors is right up to the tolerance. The answer depends on the angle alone: not on the order, the sense and the lengths of the vectors, and not on a common rotation.", "quantifier": "all vectors of all dimensions, all tolerances", "why_tests_cant": "The tests use unit vectors and some rotated copies. Whether short or long vectors get the same answer as unit vectors of the same directions is a statement about all lengths.", "anchors": ["weldx/transformations/util.py:is_orthogonal"]}
{"id": "C115", "title": "Arrays are called orthogonal exactly if all of their matrices are orthogonal", "statement": "is_orthogonal_matrix answers yes if and only if all matrices in the last two dimensions are square and their rows are orthonormal up to the given tolerance. Orthogonal matrices are always accepted, also if only their columns are known to be orthonormal.", "quantifier": "all arrays of all shapes, all tolerances", "why_tests_cant": "The function is used in tests to check other results, always with rotations with three rows. Other shapes and matrices close to the tolerance are never tried.", "anchors": ["weldx/transformations/util.py:is_orthogonal_matrix"]}
{"id": "C116", "title": "Generic series only have supported interpolation methods and keep them", "statement": "Every generic series has one of the documented interpolation methods, no matter how it was made. The setter accepts exactly these methods and changes nothing else. A copy from a file has the same method, and an evaluation of a series has it as well.", "quantifier": "all sequences of constructions, assignments, evaluations and copies, all texts", "why_tests_cant": "The tests use valid names only. That no other name gets into a series is a statement about all texts and all ways to make a series.", "anchors": ["weldx/core/generic_series.py:GenericSeries.interpolation", "weldx/core/generic_series.py:GenericSeries.__init__", "weldx/core/generic_series.py:GenericSeries._evaluate_array", "weldx/tags/core/generic_series.py:GenericSeriesConverter"]}
{"id": "C117", "title": "Leaves of nested data are compared by type and value", "statement": "The comparison of two leaves in compare_nested is an equivalence relation. Leaves of different types are different, except for arrays that have not been loaded yet. Arrays are equal exactly if they have the same shape and the same entries.", "quantifier": "all numbers, texts, sets and arrays of all shapes", "why_tests_cant": "That a relation is symmetric and transitive is a statement about all pairs and triples of leaves; the tests compare selected pairs.", "anchors": ["weldx/util/util.py:_array_equal", "weldx/util/util.py:_EqCompareNested._compare"]}
{"id": "C118", "title": "Docstrings are inherited from the nearest parent", "statement": "After inherit_docstrings, each public function or property of the class without docstring has the first docstring found along the method resolution order. Members with a docstring, private members and the functions of other classes are not changed.", "quantifier": "all class hierarchies, all members and all docstrings", "why_tests_cant": "Tests check the docstring of one small hierarchy; the statement concerns every order of classes and every set of docstrings.", "anchors": ["weldx/util/util.py:inherit_docstrings"]}
{"id": "C119", "title": "Files are written with the settings of the constructor", "statement": "Each time a WeldxFile is written (on creation, by sync, close, write_to and copy), each setting has the value given in the call, or else the value given to the constructor, or else the default of asdf. This includes the compression and the threshold for inline arrays. The global options of asdf are the same before and after.", "quantifier": "all settings of the constructor, all arguments of the calls and all options of asdf", "why_tests_cant": "The statement concerns all combinations of arguments of the constructor and of five methods; the tests try the compression and the threshold with single methods.", "anchors": ["weldx/asdf/file.py:WeldxFile._config_context", "weldx/asdf/file.py:WeldxFile.sync", "weldx/asdf/file.py:WeldxFile.write_to", "weldx/asdf/file.py:WeldxFile.close", "weldx/asdf/file.py:WeldxFile.copy"]}
