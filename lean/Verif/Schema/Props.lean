import Verif.Schema.Meta

/-!
# What a converter writes is accepted by the schema of its tag (C91)

For each class of objects the statement says exactly which objects can be written. Objects that the constructors accept but the schemas
reject are given as counterexamples.
-/

set_option linter.unusedSectionVars false

namespace Weldx.Schema
variable {D : Type} [DecidableEq D] {E : Env D}

/-! ## Examples of units -/

/-- dimensions by name; no ranges with frequency -/
def demo : Env String where
  parse u := if u = "m" ∨ u = "mm" then some "length" else if u = "s" then some "time" else if u = "degree" ∨ u = "deg" ∨ u = "rad" then some "angle" else
    if u = "1/s" ∨ u = "Hz" then some "frequency" else if u = "V" then some "voltage" else if u = "A" then some "current" else
    if u = "m/s" ∨ u = "mm/s" then some "velocity" else if u = "percent" ∨ u = "" then some "" else none
  dless := ""
  rangeLen _ _ _ := none

/-- ten millimetres -/
def mm10 : Qty := ⟨.scalar .float, "mm"⟩

/-- an array of four points in millimetres -/
def points4 : Qty := ⟨.array "float64" [4, 3], "mm"⟩

/-- three coordinates as a variable -/
def coords3 : Variable := ⟨"coordinates", ["c"], "<f8", .array "float64" [3], none, some "mm"⟩

/-- three times -/
def times3 : Time := ⟨.deltas ⟨"P0DT0H0M0S", "P0DT0H0M2S", "P0DT0H0M0S", "P0DT0H0M2S", .values 3⟩, none⟩

/-- three values in volts -/
def volts3 : Series := .discrete times3 "float64" 3 [] "V" .linear

theorem demo_length : SameDim demo "mm" "m" := ⟨"length", by decide, by decide⟩

theorem demo_not {a b : String} (h : demo.parse a ≠ demo.parse b) : ¬ SameDim demo a b := fun ⟨_, h1, h2⟩ => h (h1.trans h2.symm)

/-! ## Quantities, times, arrays -/

/-- **C91.** Units, timestamps, timedeltas, indices and times are always accepted. -/
theorem C91_times (u s : String) (t : Stamp) (i : DeltaIndex) (j : DateIndex) (w : Time) :
    Acc E (unitTree u) ∧ Acc E (deltaTree s) ∧ Acc E t.tree ∧ Acc E i.tree ∧ Acc E j.tree ∧ Acc E w.tree :=
  ⟨acc_unit, delta_acc, Stamp.acc, DeltaIndex.acc, DateIndex.acc, Time.acc⟩

/-- **C91.** A quantity is accepted iff its magnitude is an array or a real number. -/
theorem C91_quantity {q : Qty} : Acc E q.tree ↔ q.mag.Real := Qty.acc

example : Acc demo mm10.tree ∧ Acc demo points4.tree := ⟨C91_quantity.2 trivial, C91_quantity.2 trivial⟩

/-- Complex numbers and truth values as magnitudes are rejected. -/
theorem C91_quantity_counterexample : ¬ Acc E (Qty.tree ⟨.scalar (.complex "1+2j"), "m"⟩) ∧ ¬ Acc E (Qty.tree ⟨.scalar (.bool true), ""⟩) :=
  ⟨fun h => C91_quantity.1 h, fun h => C91_quantity.1 h⟩

/-- **C91.** A variable is accepted iff its data is not a single truth value and its attributes are accepted. -/
theorem C91_variable {v : Variable} : Acc E v.tree ↔ v.data.Plain ∧ ∀ m ∈ v.attrs, AccAttrs E m := Variable.acc

/-- **C91.** The same for the parts of data arrays. -/
theorem C91_data_array {a : DataArr} : Acc E a.tree ↔ AccAttrs E a.attrs ∧ (∀ v ∈ a.coords, v.Good E) ∧ a.data.Good E := DataArr.acc

/-- **C91.** The same for the parts of data sets. -/
theorem C91_dataset {a : DataSet} : Acc E a.tree ↔ AccAttrs E a.attrs ∧ (∀ v ∈ a.coords, v.Good E) ∧ ∀ v ∈ a.vars, v.Good E := DataSet.acc

example : Acc demo coords3.tree := C91_variable.2 ⟨trivial, by simp [coords3]⟩

/-- a data array of points -/
def pointArray : DataArr := ⟨[("wx_unit", txt "m")], [coords3], { coords3 with name := "data", data := .array "float64" [2, 4, 3] }⟩

example : Acc demo pointArray.tree :=
  C91_data_array.2 ⟨by simp [pointArray, AccAttrs], by simp [pointArray, Variable.Good, coords3, VarData.Plain], trivial, by simp [pointArray, coords3]⟩

/-- A single truth value is rejected. -/
theorem C91_variable_counterexample : ¬ Acc E (Variable.tree ⟨"a", [], "|b1", .scalar (.bool true), none, none⟩) :=
  fun h => (C91_variable.1 h).1

/-! ## Series -/

/-- **C91.** An expression is accepted iff its parameters are arrays or real. -/
theorem C91_expression {e : MathExpr} : Acc E e.tree ↔ ∀ p ∈ e.params, p.2.mag.Real := MathExpr.acc

/-- **C91.** A time series is accepted iff it is a real number, has as many values as times, or is an expression that is accepted. -/
theorem C91_series {s : Series} : Acc E s.tree ↔ match s with
    | .const n _ => n.Real
    | .single _ _ _ _ => False
    | .discrete t _ n _ _ _ => t.values.len E = some n
    | .expr e _ _ => ∀ p ∈ e.params, p.2.mag.Real := by
  rw [Series.acc]
  cases s <;> exact Iff.rfl

example : Acc demo volts3.tree := C91_series.2 rfl
example : Acc demo (Series.expr ⟨"a*t", [("a", ⟨.array "float64" [1, 3], "mm/s"⟩)]⟩ "mm" [1, 3]).tree :=
  C91_series.2 (by simp [Mag.Real])

/-- A constant vector is rejected: neither a number nor times are written. -/
theorem C91_series_counterexample {d : String} {r : List Nat} {u : String} {i : Interp} : ¬ Acc E (Series.tree (.single d r u i)) :=
  fun h => C91_series.1 h

/-- **C91.** A generic series is accepted iff its quantities and arrays are. -/
theorem C91_generic {g : Generic} : Acc E g.tree ↔ match g with
    | .discrete q _ c _ => q.mag.Real ∧ ∀ p ∈ c, p.2.mag.Real
    | .expr _ p _ _ => ∀ q ∈ p, match q.2 with
      | .qty q => q.mag.Real
      | .array a => a.Good E := by
  rw [Generic.acc]
  cases g <;> exact Iff.rfl

example : Acc demo (Generic.discrete points4 ["a", "c"] [("a", ⟨.array "float64" [4], "s"⟩)] (some "linear")).tree :=
  C91_generic.2 ⟨trivial, by simp [Mag.Real]⟩

/-! ## Files -/

/-- **C91.** A file is accepted iff the algorithm is `MD5` or `SHA-256`, there is a name, and the content with its hash or the host. -/
theorem C91_file {f : ExtFile} : Acc E f.tree ↔ (∀ h ∈ f.hash, h.1 = "MD5" ∨ h.1 = "SHA-256") ∧
    f.filename.isSome ∧ (f.content.isSome ∧ f.hash.isSome ∨ f.hostname.isSome) := ExtFile.acc

/-- a file with content -/
def someFile : ExtFile := ⟨some "a.txt", some "txt", none, some 3, none, none, none, none, some 3, some ("SHA-256", "ab")⟩

example : Acc demo someFile.tree := C91_file.2 (by simp [someFile])

/-- A file without host whose content is not written is rejected. -/
theorem C91_file_counterexample : ¬ Acc E (ExtFile.tree { someFile with content := none }) :=
  fun h => by have := C91_file.1 h; simp [someFile] at this

/-- **C91.** A media file is accepted iff the frame rate is a frequency and the file or the data are accepted. -/
theorem C91_media {m : Media} : Acc E m.tree ↔
    m.fps.mag.Real ∧ SameDim E m.fps.units "1/s" ∧ (∀ f ∈ m.file, f.Good) ∧ ∀ a ∈ m.data, a.Good E := Media.acc

example : Acc demo (Media.tree ⟨none, ⟨.scalar .float, "Hz"⟩, 10, (4, 5), some someFile, none⟩) :=
  C91_media.2 ⟨trivial, ⟨"frequency", by decide, by decide⟩, by simp [ExtFile.Good, someFile], by simp⟩

/-! ## Geometry -/

/-- **C91.** Spatial data is accepted iff the coordinates are lengths with three components, triangles are unsigned integers with three
components, and the attributes are accepted. -/
theorem C91_spatial {s : Spatial} : Acc E s.tree ↔ (match s.coords with
      | .qty q => q.mag.Real ∧ SameDim E q.units "m" ∧ q.mag.shape.getLast? = some 3 ∧ q.mag.shape.length ≤ 2
      | .array a => a.Good E ∧ (∃ w ∈ a.data.units, SameDim E w "m") ∧ ∃ s ∈ a.data.data.shape, s.getLast? = some 3) ∧
    (∀ t ∈ s.triangles, (t.1 = "uint32" ∨ t.1 = "uint64") ∧ t.2.getLast? = some 3 ∧ t.2.length ≤ 2) ∧ ∀ m ∈ s.attrs, AccAttrs E m := by
  rw [Spatial.acc, Spatial.Good]
  cases s.coords <;> exact Iff.rfl

/-- four points and two triangles -/
def someSpatial : Spatial := ⟨.qty points4, some ("uint32", [2, 3]), none⟩

example : Acc demo someSpatial.tree :=
  C91_spatial.2 ⟨⟨trivial, demo_length, rfl, by simp [points4, Mag.shape]⟩, by simp [someSpatial], by simp [someSpatial]⟩

/-- Triangles of signed integers are rejected. -/
theorem C91_spatial_counterexample : ¬ Acc E (Spatial.tree { someSpatial with triangles := some ("int64", [2, 3]) }) :=
  fun h => by have := (C91_spatial.1 h).2.1; simp at this

/-- **C91.** A rotation is accepted iff, in case of angles, these are angles. -/
theorem C91_rotation {r : Rot} : Acc E r.tree ↔ match r with
    | .euler _ q => q.mag.Real ∧ SameDim E q.units "degree"
    | _ => True := by
  rw [Rot.acc]
  cases r <;> exact Iff.rfl

example : Acc demo (Rot.euler "xy" ⟨.array "float64" [2], "rad"⟩).tree ∧ Acc demo (Rot.quat (some 7)).tree :=
  ⟨C91_rotation.2 ⟨trivial, "angle", by decide, by decide⟩, C91_rotation.2 trivial⟩

/-- **C91.** A coordinate system is accepted iff its parts are, the coordinates are lengths with three components and then the
orientations are matrices. -/
theorem C91_lcs {l : Lcs} : Acc E l.tree ↔ (∀ o ∈ l.orientation, o.Good E) ∧ match l.coords with
    | .unity => True
    | .values v => v.Good E ∧ (∃ w ∈ v.units, SameDim E w "m") ∧ (∃ s ∈ v.data.shape, s.getLast? = some 3) ∧ ∀ o ∈ l.orientation, o.Matrices
    | .series s => s.Good E ∧ SameDim E s.units "m" ∧ s.shape.getLast? = some 3 ∧ ∀ o ∈ l.orientation, o.Matrices := by
  rw [Lcs.acc, Lcs.Good]
  cases l.coords <;> exact Iff.rfl

/-- constant coordinates and three orientations -/
def someLcs : Lcs := ⟨some ⟨"orientation", ["time", "c", "v"], "<f8", .array "float64" [3, 3, 3], none, none⟩, .values coords3, none, none⟩

example : Acc demo someLcs.tree :=
  C91_lcs.2 ⟨by simp [someLcs, Variable.Good, VarData.Plain], ⟨trivial, by simp [coords3]⟩, ⟨"mm", rfl, demo_length⟩, ⟨[3], rfl, rfl⟩,
    by rintro o ho; obtain rfl := Option.some.inj ho; exact ⟨[3, 3, 3], rfl, ⟨[3], rfl⟩, by simp⟩⟩

/-- Without coordinates the shape of the orientations is not checked. -/
theorem C91_lcs_unchecked {v : Variable} (hv : v.Good E) : Acc E (Lcs.tree ⟨some v, .unity, none, none⟩) :=
  C91_lcs.2 ⟨by rintro o ho; obtain rfl := Option.some.inj ho; exact hv, trivial⟩

/-! ## Graphs and measurements -/

/-- **C91.** A graph is accepted iff the attributes are and names that are UUIDs have version 4. -/
theorem C91_graph {g : GNode} : Acc E (graphTree g) ↔ g.Good E := graph_acc

example : Acc demo (graphTree (.mk (.text "a") [("x", .int 1)] [(true, [], .mk .dropped [] []), (false, [], .mk (.text "b") [] [])])) :=
  C91_graph.2 (by simp [GNode.Good, GNode.GoodEdges, NodeName.Good, AccAttrs])

/-- A UUID of version 1 is rejected. -/
theorem C91_uuid_counterexample : ¬ Acc E (graphTree (.mk (.uuid "a8098c1a-f86e-11da-bd1a-00112444be1e") [] [])) := by
  rw [C91_graph]
  rintro ⟨h, -⟩
  exact absurd h (by unfold NodeName.Good; decide +kernel)

/-- **C91.** Errors need a deviation. -/
theorem C91_error {e : MError} : Acc E e.tree ↔ match e.deviation with
    | none => False
    | some (.inl n) => n.Real
    | some (.inr q) => q.mag.Real := MError.acc

/-- **C91.** Signals, sources and equipment: their parts are accepted. -/
theorem C91_signal {s : MSignal} {o : MSource} {m : MEquipment} : (Acc E s.tree ↔ ∀ d ∈ s.data, d.Good E) ∧
    (Acc E o.tree ↔ o.signal.Good E ∧ ∀ e ∈ o.error, e.Good) ∧
    (Acc E m.tree ↔ (∀ s ∈ m.sources, s.Good E) ∧ ∀ t ∈ m.transformations, t.Good) := ⟨MSignal.acc, MSource.acc, MEquipment.acc⟩

/-- **C91.** Transformations need an error with a deviation. -/
theorem C91_transformation {t : MTrans} : Acc E t.tree ↔ (∃ e ∈ t.error, e.Good) ∧ ∀ f ∈ t.func, ∀ p ∈ f.params, p.2.mag.Real := MTrans.acc

/-- an error of one percent -/
def someError : MError := ⟨some (.inr ⟨.scalar .float, "percent"⟩)⟩

/-- a transformation with an error -/
def someTrans : MTrans := ⟨"amplifier", some someError, some ⟨"a*x", [("a", ⟨.scalar .float, "V"⟩)]⟩, some .AA, none, none, none, .inl rfl⟩

example : Acc demo someTrans.tree := C91_transformation.2 ⟨⟨someError, rfl, trivial⟩, by simp [someTrans, Mag.Real, Num.Real]⟩

/-- The constructor accepts transformations and errors without deviation, the schemas do not. -/
theorem C91_transformation_counterexample : ¬ Acc E (MTrans.tree { someTrans with error := none }) ∧ ¬ Acc E (MError.tree ⟨none⟩) :=
  ⟨fun h => by have := (C91_transformation.1 h).1; simp at this, fun h => C91_error.1 h⟩

/-- **C91.** A measurement chain is accepted iff its parts are and no signal is the input of more than one transformation. -/
theorem C91_chain {c : MChain} : Acc E c.tree ↔
    c.source.Good E ∧ (∀ q ∈ c.equipment, q.Good E) ∧ c.root.Linear ∧ c.root.Parts E := MChain.acc

/-- **C91.** A measurement is accepted iff its data and its chain are. -/
theorem C91_measurement {m : Meas} : Acc E m.tree ↔ (∀ d ∈ m.data, d.Good E) ∧ ∀ c ∈ m.chain, c.Good E := Meas.acc

/-- an analog signal -/
def someSignal : MSignal := ⟨true, "V", some volts3⟩

/-- a source -/
def someSource : MSource := ⟨"source", someSignal, some someError⟩

/-- a node without further transformations -/
def someEnd : MTree := .mk (.text "b") someSignal []

/-- a chain with one transformation -/
def someChain : MChain := ⟨"chain", someSource, none, .mk (.text "a") someSignal [(someTrans, none, someEnd)]⟩

/-- a chain with two transformations of one signal -/
def branching : MChain := { someChain with root := .mk (.text "a") someSignal [(someTrans, none, someEnd), (someTrans, none, someEnd)] }

theorem someSignal_good : someSignal.Good demo := by
  rintro d hd; obtain rfl := Option.some.inj hd; exact rfl

theorem someTrans_good : someTrans.Good := ⟨⟨someError, rfl, trivial⟩, by simp [someTrans, MathExpr.Good, Mag.Real, Num.Real]⟩

theorem someSource_good : someSource.Good demo :=
  ⟨someSignal_good, by rintro e he; obtain rfl := Option.some.inj he; exact trivial⟩

example : Acc demo someChain.tree ∧ Acc demo (Meas.tree ⟨"m", [volts3], some someChain⟩) := by
  have h : someChain.Good demo := ⟨someSource_good, by simp [someChain],
    by simp [someChain, MTree.Linear, MTree.LinearAll, someEnd],
    by simp [someChain, MTree.Parts, MTree.PartsAll, someEnd, NodeName.Good, someSignal_good, someTrans_good]⟩
  exact ⟨C91_chain.2 h, C91_measurement.2 ⟨by simp [volts3, Series.Good, times3, TimeValues.len, spacingLen], by
    rintro c hc; obtain rfl := Option.some.inj hc; exact h⟩⟩

/-- A chain with branches, as the documentation of the class allows, is rejected, although its parts are accepted. -/
theorem C91_chain_counterexample : branching.source.Good demo ∧ branching.root.Parts demo ∧ ∀ {D : Type} [DecidableEq D] {E : Env D},
    ¬ Acc E branching.tree := by
  refine ⟨someSource_good, ?_, fun {D} _ {E} h => ?_⟩
  · simp [branching, MTree.Parts, MTree.PartsAll, someEnd, NodeName.Good, someSignal_good, someTrans_good]
  · have := (C91_chain.1 h).2.2.1
    simp [branching, MTree.Linear] at this

/-! ## Hierarchies of coordinate systems -/

/-- **C91.** A hierarchy is accepted iff its parts are and no system has both arrays and spatial data. -/
theorem C91_hierarchy {c : Csm} : Acc E c.tree ↔ c.root.Uniform ∧ c.root.Parts E := Csm.acc

/-- a system with one child, which has data -/
def someCsm (d : List (String × CData)) : Csm := ⟨"csm", none, .mk "root" [] [(false, ⟨none, .unity, none, none⟩, .mk "child" d [])],
  [.mk "sub" none "child" "child" ["child"] [] []]⟩

theorem someSpatial_good : someSpatial.Good demo :=
  ⟨⟨trivial, demo_length, rfl, by simp [points4, Mag.shape]⟩, by simp [someSpatial], by simp [someSpatial]⟩

theorem pointArray_good : pointArray.Good demo :=
  ⟨by simp [pointArray, AccAttrs], by simp [pointArray, Variable.Good, coords3, VarData.Plain], trivial, by simp [pointArray, coords3]⟩

example : Acc demo (someCsm [("a", .spatial someSpatial), ("b", .spatial someSpatial)]).tree := by
  refine C91_hierarchy.2 ⟨⟨⟨true, by simp⟩, ⟨⟨false, by simp [CData.isArray]⟩, trivial⟩, trivial⟩, by simp, ?_⟩
  exact ⟨⟨by simp, trivial⟩, ⟨by simp [CData.Good, someSpatial_good], trivial⟩, trivial⟩

/-- A system with an array and spatial data is rejected, although both are accepted. -/
theorem C91_hierarchy_counterexample :
    (CData.array pointArray).Good demo ∧ (CData.spatial someSpatial).Good demo ∧ ∀ {D : Type} [DecidableEq D] {E : Env D},
      ¬ Acc E (someCsm [("a", .array pointArray), ("b", .spatial someSpatial)]).tree := by
  refine ⟨pointArray_good, someSpatial_good, fun {D} _ {E} h => ?_⟩
  obtain ⟨⟨-, ⟨⟨b, hb⟩, -⟩, -⟩, -⟩ := C91_hierarchy.1 h
  have h1 := hb ("a", .array pointArray) (by simp)
  have h2 := hb ("b", .spatial someSpatial) (by simp)
  rw [← h2] at h1
  simp [CData.isArray] at h1

/-! ## Grooves, AWS classes and processes -/

/-- **C91.** A groove is accepted iff the attributes that the schema requires are given, lengths are lengths and angles are angles. -/
theorem C91_groove {g : Grv} : Acc E g.tree ↔ (∀ a ∈ g.kind.required, (g.attr a).isSome = true) ∧
    ∀ a ∈ g.kind.names, ∀ q ∈ g.attr a, q.mag.Real ∧ SameDim E q.units (attrUnit a) := Grv.acc

/-- a groove of a kind with the given attributes -/
def someGroove (k : GrooveKind) (l : List String) : Grv :=
  ⟨k, fun a => if a ∈ l then some ⟨.scalar .float, if attrUnit a = "deg" then "rad" else "m"⟩ else none, some (.inr ["1.3"])⟩

example : Acc demo (someGroove .V ["t", "alpha", "c", "b"]).tree := by
  refine C91_groove.2 ⟨by decide, ?_⟩
  intro a ha q hq
  simp only [someGroove, GrooveKind.names, List.mem_cons, List.not_mem_nil, or_false] at ha
  rcases ha with rfl | rfl | rfl | rfl <;> (simp [someGroove, attrUnit] at hq; subst hq; refine ⟨trivial, ?_⟩)
  · exact ⟨"length", by decide, by decide⟩
  · exact ⟨"angle", by decide, by decide⟩
  · exact ⟨"length", by decide, by decide⟩
  · exact ⟨"length", by decide, by decide⟩

/-- The schemas of double grooves require the root face `c`, which the classes allow to be missing: `None` is rejected. -/
theorem C91_groove_counterexample {k : GrooveKind} (hk : k ∈ [GrooveKind.DV, .DU, .DHV, .DHU]) {g : Grv} (h1 : g.kind = k)
    (h2 : g.attr "c" = none) : ¬ Acc E g.tree := by
  intro h
  have := (C91_groove.1 h).1 "c" (by
    rw [h1]
    simp only [List.mem_cons, List.not_mem_nil, or_false] at hk
    rcases hk with rfl | rfl | rfl | rfl <;> simp [GrooveKind.required])
  simp [h2] at this

/-- **C91.** Gases: the name is one of five and the percentage is dimensionless. -/
theorem C91_gas {g : Gas} : Acc E g.tree ↔ g.name ∈ gases ∧ SameDim E g.percentage.units "percent" ∧ g.percentage.mag.Real := Gas.acc

/-- **C91.** The components of a gas are accepted. -/
theorem C91_gas_type {t : GasType} : Acc E t.tree ↔ ∀ c ∈ t.components, c.Good E := GasType.acc

/-- **C91.** The gases and the flow rates of a procedure are accepted. -/
theorem C91_gas_procedure {p : GasProc} : Acc E p.tree ↔ p.torch.Good E ∧ p.torchFlow.mag.Real ∧ (∀ b ∈ p.backing, b.Good E) ∧
      (∀ q ∈ p.backingFlow, q.mag.Real) ∧ (∀ b ∈ p.trailing, b.Good E) ∧ ∀ q ∈ p.trailingFlow, q.mag.Real := GasProc.acc

example : Acc demo (GasType.tree ⟨[⟨"argon", ⟨.scalar (.int 82), "percent"⟩⟩, ⟨"carbon dioxide", ⟨.scalar (.int 18), "percent"⟩⟩], "m", none⟩) := by
  refine C91_gas_type.2 ?_
  rintro c hc
  simp only [List.mem_cons, List.not_mem_nil, or_false] at hc
  rcases hc with rfl | rfl <;> exact ⟨by decide, ⟨"", by decide, by decide⟩, trivial⟩

/-- A name that is not among the five is rejected. -/
theorem C91_gas_counterexample {q : Qty} : ¬ Acc E (Gas.tree ⟨"nitrogen", q⟩) := fun h => absurd (C91_gas.1 h).1 (by simp [gases])

/-- **C91.** Names and abbreviations of arc welding processes; they may belong to different processes. -/
theorem C91_arc {n a : String} : Acc E (arcTree n a) ↔ n ∈ arcNames ∧ a ∈ arcAbbreviations := arc_acc

/-- **C91.** Base metals: texts do not matter. -/
theorem C91_base_metal {m : Metal} : Acc E m.tree ↔ m.thickness.mag.Real ∧ ∀ d ∈ m.diameter, d.Real := Metal.acc

/-- **C91.** Penetrations. -/
theorem C91_penetration {p : Penetration} : Acc E p.tree ↔ ((p.complete = "completePenetration" ∨ p.complete = "partialPenetration") ∧
    (∀ n ∈ p.grooveSize, n.Real) ∧ (∀ n ∈ p.incomplete, n.Real) ∧ (∀ n ∈ p.size, n.Real) ∧ (∀ n ∈ p.sizeE1, n.Real) ∧
    (∀ n ∈ p.sizeE2, n.Real) ∧ ∀ n ∈ p.depth, n.Real) ∧ p.root.mag.Real := Penetration.acc

/-- **C91.** Details of a weld: the design is a groove that is accepted. -/
theorem C91_details {d : Details} : Acc E d.tree ↔ ∃ g, d.design = .groove g ∧ g.Good E ∧ d.sizes.mag.Real := by
  rw [Details.acc, Details.Good]
  cases d.design <;> simp

/-- **C91.** Connections: the types of joint and weld are among the listed ones. -/
theorem C91_connection {c : Conn} : Acc E c.tree ↔ c.joint ∈ joints ∧ c.weld ∈ welds ∧ c.penetration.Good ∧ c.details.Good E := Conn.acc

/-- **C91.** Weldments: the connections of the assemblies are accepted. -/
theorem C91_weldment {l : List Assembly} : Acc E (weldmentTree l) ↔ ∀ a ∈ l, a.connection.Good E := weldment_acc

/-- The design of a joint is a text according to the class and has to be a groove according to the schema. -/
theorem C91_design_counterexample {s : String} {q : Qty} {n : Int} : ¬ Acc E (Details.tree ⟨.text s, q, n⟩) := by
  intro h
  obtain ⟨g, hg, -⟩ := C91_details.1 h
  simp at hg

/-- **C91.** Processes of the tag `GMAW`: the parameters and the further information are accepted. -/
theorem C91_gmaw {p : Gmaw} (h : p.tag = "GMAW") : Acc E p.tree ↔ (∀ q ∈ p.params, q.2.Good E) ∧ ∀ m ∈ p.info, AccAttrs E m := Gmaw.acc_gmaw h

/-- **C91.** Processes of the tag `CLOOS/spray_arc` need the base process and four parameters with units. -/
theorem C91_spray {p : Gmaw} (h : p.tag = "CLOOS/spray_arc") : Acc E p.tree ↔ p.Parts E ∧ p.baseProcess = "spray" ∧
    p.Has E "wire_feedrate" "m/s" ∧ p.Has E "voltage" "V" ∧ p.Has E "impedance" "percent" ∧ p.Has E "characteristic" "V/A" := Gmaw.acc_spray h

/-- **C91.** Processes of the tag `CLOOS/pulse` need the parameters of exactly one of the modulations. -/
theorem C91_pulse {p : Gmaw} (h : p.tag = "CLOOS/pulse") (hl : ∀ q ∈ p.params, (E.parse q.2.units).isSome = true)
    (hE : ∀ u ∈ ["m/s", "V", "s", "Hz", "A"], (E.parse u).isSome = true) : Acc E p.tree ↔ p.Parts E ∧ p.baseProcess = "pulse" ∧
    (p.Pulse E "pulse_voltage" "V" "UI" ∧ ¬ p.Pulse E "pulse_current" "A" "II" ∨
      ¬ p.Pulse E "pulse_voltage" "V" "UI" ∧ p.Pulse E "pulse_current" "A" "II") := Gmaw.acc_pulse h hl hE

/-- parameters of a pulsed process with a voltage -/
def pulseParams : List (String × Series) := [("wire_feedrate", .const .float "mm/s"), ("pulse_voltage", .const .float "V"),
  ("pulse_duration", .const .float "s"), ("pulse_frequency", .const .float "Hz"), ("base_current", .const .float "A")]

/-- a pulsed process -/
def somePulse (extra : List (String × Series)) (info : Option (List (String × Y))) : Gmaw :=
  ⟨"pulse", "CLOOS", "Quinto", pulseParams ++ extra, "CLOOS/pulse", info⟩

theorem pulse_units : ∀ u ∈ ["m/s", "V", "s", "Hz", "A"], (demo.parse u).isSome = true := by decide

theorem pulse_has {x : List (String × Series)} {i : Option (List (String × Y))} {k u w d : String}
    (h : Dict.get? (pulseParams ++ x) k = some (.const .float w)) (h1 : demo.parse w = some d) (h2 : demo.parse u = some d) :
    (somePulse x i).Has demo k u := ⟨_, h, d, h1, h2⟩

theorem pulse_good {x : List (String × Series)} {i : Option (List (String × Y))}
    (hi : ∀ m ∈ i, ∃ t, Dict.get? m "modulation" = some (.str t "UI")) : (somePulse x i).Pulse demo "pulse_voltage" "V" "UI" :=
  ⟨pulse_has (by rfl) rfl (by decide), pulse_has (by rfl) rfl (by decide), pulse_has (by rfl) rfl (by decide),
    pulse_has (by rfl) rfl (by decide), pulse_has (by rfl) rfl (by decide), hi⟩

example : Acc demo (somePulse [] (some [("modulation", txt "UI")])).tree := by
  refine (C91_pulse rfl (by decide) pulse_units).2 ⟨⟨?_, ?_⟩, rfl, .inl ⟨pulse_good ?_, ?_⟩⟩
  · simp [somePulse, pulseParams, Series.Good, Num.Real]
  · simp [somePulse, AccAttrs]
  · simp [Dict.get?]
  · rintro ⟨-, ⟨s, h, -⟩, -⟩
    simp [somePulse, pulseParams, Dict.get?] at h

/-- A pulsed process with voltage and current that does not say which modulation it has is rejected: both alternatives hold. -/
theorem C91_pulse_counterexample : ¬ Acc demo (somePulse [("pulse_current", .const .float "A")] none).tree := by
  intro h
  have h := ((C91_pulse rfl (by decide) pulse_units).1 h).2.2
  have h1 := pulse_good (x := [("pulse_current", .const .float "A")]) (i := none) (by simp)
  have h2 : (somePulse [("pulse_current", .const .float "A")] none).Pulse demo "pulse_current" "A" "II" :=
    ⟨pulse_has (by rfl) rfl (by decide), pulse_has (by rfl) rfl (by decide), pulse_has (by rfl) rfl (by decide),
      pulse_has (by rfl) rfl (by decide), pulse_has (by rfl) rfl (by decide), by simp [somePulse]⟩
  rcases h with ⟨-, h⟩ | ⟨h, -⟩
  · exact h h2
  · exact h h1

end Weldx.Schema
