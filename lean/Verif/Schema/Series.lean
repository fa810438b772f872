import Verif.Schema.Basic

/-!
# Arrays, expressions, series and files in the schemas (C91)
-/

namespace Weldx.Schema
variable {D : Type} [DecidableEq D] {E : Env D} {rf : String → Y → R}

theorem ok_prop_map {t : Option Tag} {m : List (String × Y)} {k : String} {s : S} :
    check E rf (.prop k s) (.map t m) = .ok ↔ ∀ v, Dict.get? m k = some v → check E rf s v = .ok := ok_prop

/-! ### Variables -/

@[simp] theorem tag_arr {d : String} {s : List Nat} : (Y.arr d s).tag = some .ndarray := rfl
@[simp] theorem test_txts {l : List String} : Ty.test .array (txts l) = true := rfl
@[simp] theorem VarData.acc {d : VarData} : Acc E d.tree := by cases d <;> simp [VarData.tree]

theorem VarData.data_iff {d : VarData} :
    check E rf (.oneOf [.tag .ndarray, .type .number, .type .string]) d.tree = .ok ↔ d.Plain := by
  cases d with
  | scalar n => cases n <;> simp [VarData.Plain, VarData.tree, Num.tree, check, checkList, oneR, Ty.test, tagTest, Y.tag, R.ofBool, Pat.test]
  | text s => simp [VarData.Plain, VarData.tree, check, checkList, oneR, Ty.test, tagTest, Y.tag, R.ofBool, Pat.test]
  | array d s => simp [VarData.Plain, VarData.tree, check, checkList, oneR, Ty.test, tagTest, Y.tag, R.ofBool, Pat.test]

@[simp] theorem tag_variable {v : Variable} : v.tree.tag = some (.wx "core/variable" 1) := rfl

theorem Variable.check_iff {v : Variable} : check E rf coreVariable1 v.tree = .ok ↔ v.data.Plain := by
  simp [coreVariable1, Variable.tree, ok_prop_obj, ok_required_obj, field, VarData.data_iff, tagTest, Pat.test]

/-- attributes that are accepted -/
def AccAttrs (E : Env D) (m : List (String × Y)) : Prop := ∀ e ∈ m, Acc E e.2

/-- a variable that can be written -/
def Variable.Good (E : Env D) (v : Variable) : Prop := v.data.Plain ∧ ∀ m ∈ v.attrs, AccAttrs E m

@[simp] theorem Variable.acc {v : Variable} : Acc E v.tree ↔ v.Good E := by
  rw [Variable.tree, acc_obj (s := coreVariable1) rfl fun rf => Variable.check_iff]
  simp [Variable.Good, AccAttrs]

/-- a data array that can be written -/
def DataArr.Good (E : Env D) (a : DataArr) : Prop := AccAttrs E a.attrs ∧ (∀ v ∈ a.coords, v.Good E) ∧ a.data.Good E

@[simp] theorem tag_data {a : DataArr} : a.tree.tag = some (wx "core/data_array") := rfl

@[simp] theorem DataArr.acc {a : DataArr} : Acc E a.tree ↔ a.Good E := by
  rw [DataArr.tree, acc_obj (P := True) (s := coreDataArray) rfl fun rf => ?_]
  · simp [DataArr.Good, AccAttrs]
  · simp [coreDataArray, ok_prop_obj, ok_required_obj, field, tagTest, Pat.test]

/-- a data set that can be written -/
def DataSet.Good (E : Env D) (a : DataSet) : Prop := AccAttrs E a.attrs ∧ (∀ v ∈ a.coords, v.Good E) ∧ ∀ v ∈ a.vars, v.Good E

@[simp] theorem tag_dim {d : String × Nat} : (dimTree d).tag = some (wx "core/dimension") := rfl
@[simp] theorem dim_acc {d : String × Nat} : Acc E (dimTree d) := by
  refine (acc_obj (P := True) (s := coreDimension) rfl fun rf => ?_).2 ⟨trivial, by simp⟩
  simp [coreDimension, ok_prop_obj, ok_required_obj, field]

theorem DataSet.acc {a : DataSet} : Acc E a.tree ↔ a.Good E := by
  rw [DataSet.tree, acc_obj (P := True) (s := coreDataset) rfl fun rf => ?_]
  · simp [DataSet.Good, AccAttrs, -Prod.exists, -Prod.forall]
  · simp [-Prod.exists, -Prod.forall, coreDataset, ok_prop_obj, ok_required_obj, field, tagTest, Pat.test]

/-! ### Expressions -/

/-- an expression that can be written -/
def MathExpr.Good (e : MathExpr) : Prop := ∀ p ∈ e.params, p.2.mag.Real

@[simp] theorem tag_expr {e : MathExpr} : e.tree.tag = some (wx "core/mathematical_expression") := rfl
@[simp] theorem MathExpr.acc {e : MathExpr} : Acc E e.tree ↔ e.Good := by
  rw [MathExpr.tree, acc_obj (P := True) (s := coreMathematicalExpression) rfl fun rf => ?_]
  · simp [MathExpr.Good, -Prod.exists, -Prod.forall]
  · simp [-Prod.exists, -Prod.forall, coreMathematicalExpression, ok_prop_obj, ok_required_obj, field, tagTest, Pat.test]

/-! ### Time series -/

@[simp] theorem tag_series {s : Series} : s.tree.tag = some (.wx "core/time_series" 1) := by cases s <;> rfl

@[simp] theorem hasDots_t : Val.hasDots ['t'] = false := by decide
@[simp] theorem hasDots_dots : Val.hasDots ['.', '.', '.'] = true := by decide

theorem shape_time (n : Int) : Val.validateShape [n] [.str ['t']] = .ok [(.str ['t'], n)] := by
  simp [Val.validateShape, Val.prepare, Val.Item.strip, Val.Item.chars, Val.validateExpected, Val.compareLists, Val.compareLoop,
    Val.checkDim, Val.isRangeFormatValid, Val.isAlnum, Val.isNumeric, Dict.set, Dict.get?, bind, Except.bind]

theorem shape_values (n : Int) (r : List Int) :
    Val.validateShape (n :: r) [.str ['t'], .str ['.', '.', '.']] = .ok [(.str ['t'], n)] := by
  simp [Val.validateShape, Val.prepare, Val.Item.strip, Val.Item.chars, Val.validateExpected, Val.compareLists, Val.compareLoop,
    Val.checkDim, Val.isRangeFormatValid, Val.isAlnum, Val.isNumeric, Dict.set, Dict.get?, bind, Except.bind]

/-- the entries as the validator of shapes sees them -/
theorem node_get {t : Option Tag} {m : List (String × Y)} (s : String) :
    ((Y.map t m).node E).get s.toList = .ok ((Dict.get? m s).map (Y.leaf E)) := by
  have : ∀ m : List (String × Y), Dict.get? (m.map fun e => (e.1.toList, e.2.leaf E)) s.toList = (Dict.get? m s).map (Y.leaf E) := by
    intro m
    induction m with
    | nil => rfl
    | cons e m ih =>
      simp only [List.map_cons, Dict.get?]
      by_cases h : e.1 = s
      · simp [h]
      · have h' : e.1.toList ≠ s.toList := fun hc => h (String.toList_inj.1 hc)
        simp [h, h', ih]
  simp only [Y.node, Val.Node.get, this]

theorem node_obj {t : Tag} {fs : List (String × Option Y)} (h : (fs.map Prod.fst).Nodup) {s : String} {c : List Char} (hc : c = s.toList) :
    ((obj t fs).node E).get c = .ok ((field fs s).map (Y.leaf E)) := by
  subst hc
  rw [obj, node_get, entries_get h]

theorem deltas_shape {i : DeltaIndex} {m} (hm : i.tree = .map (some (wx "time/timedeltaindex")) m) :
    indexShape E m = (spacingLen E i.start i.stop i.spacing).map fun n => [Int.ofNat n] := by
  obtain rfl : m = _ := (Y.map.inj hm).2.symm
  cases h : i.spacing <;>
  simp [indexShape, entries_get, field, h, Spacing.freqTree, Spacing.valuesTree, spacingLen, Y.baseShape, deltaTree, Y.text]

theorem dates_shape {i : DateIndex} {m} (hm : i.tree = .map (some (wx "time/datetimeindex")) m) :
    indexShape E m = (spacingLen E i.start.text i.stop.text i.spacing).map fun n => [Int.ofNat n] := by
  obtain rfl : m = _ := (Y.map.inj hm).2.symm
  cases h : i.spacing <;>
  simp [indexShape, entries_get, field, h, Spacing.freqTree, Spacing.valuesTree, spacingLen, Y.baseShape, Stamp.tree, Y.text]

theorem TimeValues.shape {v : TimeValues} : timeShape E v.tree = (v.len E).map fun n => [Int.ofNat n] := by
  cases v with
  | delta s => rfl
  | stamp t => rfl
  | deltas i =>
    simp only [TimeValues.tree, TimeValues.len, ← deltas_shape (i := i) rfl]
    simp [DeltaIndex.tree, obj, timeShape]
  | dates i =>
    simp only [TimeValues.tree, TimeValues.len, ← dates_shape (i := i) rfl]
    simp [DateIndex.tree, obj, timeShape]

theorem Time.leaf {t : Time} : t.tree.leaf E = .mapping ((t.values.len E).map fun n => [Int.ofNat n]) [] := by
  simp only [Time.tree, obj, Y.leaf]
  congr 1
  simp [Y.shape, Y.baseShape, entries_get, field, TimeValues.shape]

/-- the shapes of a time series -/
theorem series_shape {fs : List (String × Option Y)} {g : Tag} {t : Time} {d : String} {n : Nat} {r : List Nat}
    (hn : (fs.map Prod.fst).Nodup) (ht : field fs "time" = some t.tree) (hv : field fs "values" = some (.arr d (n :: r))) :
    shapeR E (.dict (.cons ['t', 'i', 'm', 'e'] (.shape [.str ['t']]) (.cons ['v', 'a', 'l', 'u', 'e', 's']
      (.shape [.str ['t'], .str ['.', '.', '.']]) .nil))) (obj g fs) = if t.values.len E = some n then .ok else .bad := by
  have h1 : ((obj g fs).node E).get ['t', 'i', 'm', 'e'] = .ok (some (t.tree.leaf E)) := by
    rw [node_obj hn (s := "time") (by decide), ht]; rfl
  have h2 : ((obj g fs).node E).get ['v', 'a', 'l', 'u', 'e', 's'] = .ok (some ((Y.arr d (n :: r)).leaf E)) := by
    rw [node_obj hn (s := "values") (by decide), hv]; rfl
  have k1 : Val.parseKey ['t', 'i', 'm', 'e'] = .ok (['t', 'i', 'm', 'e'], false) := rfl
  have k2 : Val.parseKey ['v', 'a', 'l', 'u', 'e', 's'] = .ok (['v', 'a', 'l', 'u', 'e', 's'], false) := rfl
  simp only [shapeR, Val.wxShape, Val.validate, Val.validateAll, k1, k2, h1, h2]
  rw [Time.leaf]
  cases hl : t.values.len E with
  | none => simp [Val.validateInstance, Val.Node.shape]
  | some k =>
    simp [Val.validateInstance, Val.Node.shape, shape_time, Except.map, Val.mergeVars, Dict.get?, Dict.set, Y.leaf, Y.shape, Y.baseShape,
      shape_values]
    by_cases hk : k = n <;> simp [hk]

theorem shape_no_time {fs : List (String × Option Y)} {g : Tag} (hn : (fs.map Prod.fst).Nodup) (ht : field fs "time" = none) (e es) :
    shapeR E (.dict (.cons ['t', 'i', 'm', 'e'] e es)) (obj g fs) = .ok := by
  have h1 : ((obj g fs).node E).get ['t', 'i', 'm', 'e'] = .ok none := by
    rw [node_obj hn (s := "time") (by decide), ht]; rfl
  simp [shapeR, Val.wxShape, Val.validate, Val.validateAll, Val.parseKey, h1]

/-- a time series that can be written: a real number, as many values as times, or an expression with real parameters -/
def Series.Good (E : Env D) : Series → Prop
  | .const n _ => n.Real
  | .single _ _ _ _ => False
  | .discrete t _ n _ _ _ => t.values.len E = some n
  | .expr e _ _ => e.Good

theorem allR_noCrash {l : List S} {y : Y} (h : ∀ s ∈ l, check E rf s y ≠ .crash) : check E rf (.all l) y ≠ .crash := by
  simp only [check]
  rw [ne_eq, allR_crash, mem_checkList]
  rintro ⟨s, hs, hc⟩
  exact h s hs hc

theorem ok_value {n : Num} : check E rf (.anyOf [.type .number, .type .integer, .tag .ndarray]) n.tree = .ok ↔ n.Real := by
  cases n <;> simp [Num.Real, Num.tree, check, checkList, anyR, Ty.test, tagTest, Y.tag, R.ofBool, Pat.test]

@[simp] theorem test_shape {l : List Nat} : Ty.test .array (shapeTree l) = true := rfl

theorem Series.noCrash {s : Series} : ∀ t ∈ ([.type .object, .prop "time" (.tag (.any "time/time")),
    .prop "units" (.tag (.any "units/units")), .prop "shape" (.type .array), .prop "interpolation" (.all [.type .string, .enum ["linear",
    "step"]]), .prop "values" (.tag .ndarray), .shape (.dict (.cons ['t', 'i', 'm', 'e'] (.shape [.str ['t']]) (.cons ['v', 'a', 'l',
    'u', 'e', 's'] (.shape [.str ['t'], .str ['.', '.', '.']]) .nil))), .required ["time", "units", "shape", "interpolation",
    "values"]] : List S), check E rf t s.tree ≠ .crash := by
  simp only [List.forall_mem_cons]
  refine ⟨by safe, by safe, by safe, by safe, by safe, by safe, ?_, by safe, by simp⟩
  simp only [check]
  cases s with
  | discrete t d n r u i =>
    rw [Series.tree, series_shape (t := t) (d := d) (n := n) (r := r) (by simp) (by simp [field]) (by simp [field])]
    split <;> simp
  | const n u => rw [Series.tree, shape_no_time (by simp) (by simp [field])]; simp
  | single d r u i => rw [Series.tree, shape_no_time (by simp) (by simp [field])]; simp
  | expr e u s => rw [Series.tree, shape_no_time (by simp) (by simp [field])]; simp

theorem Series.check_iff {s : Series} : check E rf coreTimeSeries1 s.tree = .ok ↔ match s with
    | .const n _ => n.Real
    | .single _ _ _ _ => False
    | .discrete t _ n _ _ _ => t.values.len E = some n
    | .expr _ _ _ => True := by
  unfold coreTimeSeries1
  rw [ok_oneOf_three (by safe) (by safe) (allR_noCrash Series.noCrash)]
  cases s with
  | const n u => simp [Series.tree, ok_prop_obj, ok_required_obj, field, tagTest, Pat.test, ok_value]
  | single d r u i => simp [Series.tree, ok_prop_obj, ok_required_obj, field, tagTest, Pat.test]
  | expr e u s => simp [Series.tree, ok_prop_obj, ok_required_obj, field, tagTest, Pat.test]
  | discrete t d n r u i =>
    have := series_shape (E := E) (g := .wx "core/time_series" 1) (fs := [("time", some t.tree), ("units", some (unitTree u)),
      ("shape", some (shapeTree (n :: r))), ("interpolation", some (txt i.text)), ("values", some (.arr d (n :: r)))])
      (t := t) (d := d) (n := n) (r := r) (by simp) (by simp [field]) (by simp [field])
    simp [Series.tree, ok_prop_obj, ok_required_obj, field, tagTest, Pat.test, this]
    cases i <;> simp [Interp.text]

@[simp] theorem Series.acc {s : Series} : Acc E s.tree ↔ s.Good E := by
  have h : ∀ rf : String → Y → R, check E rf coreTimeSeries1 s.tree = .ok ↔ _ := fun rf => Series.check_iff
  cases s with
  | const n u => rw [Series.tree] at h ⊢; rw [acc_obj (s := coreTimeSeries1) rfl h]; simp [Series.Good]
  | single d r u i => rw [Series.tree] at h ⊢; rw [acc_obj (s := coreTimeSeries1) rfl h]; simp [Series.Good]
  | expr e u s => rw [Series.tree] at h ⊢; rw [acc_obj (s := coreTimeSeries1) rfl h]; simp [Series.Good]
  | discrete t d n r u i => rw [Series.tree] at h ⊢; rw [acc_obj (s := coreTimeSeries1) rfl h]; simp [Series.Good]

/-! ### Generic series -/

/-- a generic series that can be written -/
def Generic.Good (E : Env D) : Generic → Prop
  | .discrete q _ c _ => q.mag.Real ∧ ∀ p ∈ c, p.2.mag.Real
  | .expr _ p _ _ => ∀ q ∈ p, match q.2 with
    | .qty q => q.mag.Real
    | .array a => a.Good E

@[simp] theorem free_tag {d} : (freeTree d).tag = some (wx "core/generic_series_free_dimension") := rfl
@[simp] theorem free_acc {d} : Acc E (freeTree d) := by
  refine (acc_obj (P := True) (s := coreGenericSeriesFreeDimension) rfl fun rf => ?_).2 ⟨trivial, by simp⟩
  simp [coreGenericSeriesFreeDimension, ok_prop_obj, ok_required_obj, field, tagTest, Pat.test]

theorem propTag_noCrash {l : List Pat} {t : Option Tag} {m : List (String × Y)} : check E rf (.propTag l) (.map t m) ≠ .crash := by
  simp [check, propTagR]

theorem prop_noCrash {k : String} {s : S} {y : Y} (h : ∀ v, y.get k = some v → check E rf s v ≠ .crash) : check E rf (.prop k s) y ≠ .crash := by
  simp only [check]
  cases hv : y.get k with
  | none => simp
  | some v => exact h v hv

theorem Param.tag {p : Param} : p.tree.tag = some (wx "units/quantity") ∨ p.tree.tag = some (wx "core/data_array") := by
  cases p
  · exact .inl rfl
  · exact .inr rfl

set_option maxHeartbeats 2000000 in
theorem Generic.check_iff {g : Generic} : check E rf coreGenericSeries g.tree = .ok := by
  have hobj : ∀ {l : List Pat} {m : List (String × Y)}, check E rf (.all [.type .object, .propTag l]) (.map none m) ≠ .crash := by
    intro l m
    refine allR_noCrash ?_
    simp only [List.forall_mem_cons]
    exact ⟨by safe, propTag_noCrash, by simp⟩
  unfold coreGenericSeries
  rw [ok_oneOf_two]
  · cases g with
    | discrete q d c i => simp [-Prod.exists, -Prod.forall, Generic.tree, ok_prop_obj, ok_required_obj, field, tagTest, Pat.test, txts]
    | expr s p d u =>
      refine .inr ⟨not_ok_all (s := .required ["data", "dimensions", "coordinates"]) (by simp) ?_, ?_⟩
      · rw [Generic.tree, ne_eq, ok_required_obj (by simp)]
        simp [field]
      simp only [ok_all_cons, ok_all_nil, and_true, Generic.tree]
      refine ⟨by simp, ?_, ?_, ?_, ?_, ?_⟩
      · rw [ok_prop_obj (by simp)]
        simp [field]
      · rw [ok_prop_obj (by simp)]
        simp [field, tagTest, Pat.test]
      · rw [ok_prop_obj (by simp)]
        simp [-Prod.exists, -Prod.forall, field, tagTest, Pat.test]
      rotate_left
      · rw [ok_required_obj (by simp)]
        simp [field]
      rw [ok_prop_obj (by simp)]
      simp [-Prod.exists, -Prod.forall, field, tagTest]
      intro a _
      rcases Param.tag (p := a.2) with h | h <;> simp [h, Pat.test]
  · refine allR_noCrash ?_
    simp only [List.forall_mem_cons]
    refine ⟨by safe, by safe, by safe, by safe, prop_noCrash ?_, by safe, by simp⟩
    cases g <;> (intro v hv; rw [Generic.tree, obj_get (by simp)] at hv; simp [field] at hv; try (subst hv; exact hobj))
  · refine allR_noCrash ?_
    simp only [List.forall_mem_cons]
    refine ⟨by safe, by safe, by safe, prop_noCrash ?_, prop_noCrash ?_, by safe, by simp⟩ <;>
    cases g <;> (intro v hv; rw [Generic.tree, obj_get (by simp)] at hv; simp [field] at hv; try (subst hv; exact hobj))

theorem Generic.acc {g : Generic} : Acc E g.tree ↔ g.Good E := by
  have h : ∀ rf : String → Y → R, check E rf coreGenericSeries g.tree = .ok ↔ True := fun rf => by simp [Generic.check_iff]
  cases g with
  | discrete q d c i =>
    rw [Generic.tree] at h ⊢; rw [acc_obj (s := coreGenericSeries) rfl h]
    simp [-Prod.exists, -Prod.forall, Generic.Good]
  | expr s p d u =>
    rw [Generic.tree] at h ⊢; rw [acc_obj (s := coreGenericSeries) rfl h]
    simp [-Prod.exists, -Prod.forall, Generic.Good]
    refine forall_congr' fun a => forall_congr' fun _ => ?_
    cases a.2 <;> simp [Param.tree]

/-! ### Files -/

/-- a file that can be written: a known algorithm, and content with hash or the host -/
def ExtFile.Good (f : ExtFile) : Prop :=
  (∀ h ∈ f.hash, h.1 = "MD5" ∨ h.1 = "SHA-256") ∧
  f.filename.isSome ∧ (f.content.isSome ∧ f.hash.isSome ∨ f.hostname.isSome)

@[simp] theorem tag_file {f : ExtFile} : f.tree.tag = some (.wx "core/file" 1) := rfl

theorem ok_anyOf_two {a b : S} {y : Y} (ha : check E rf a y ≠ .crash) :
    check E rf (.anyOf [a, b]) y = .ok ↔ check E rf a y = .ok ∨ check E rf b y = .ok := by
  simp only [check, checkList]
  cases h1 : check E rf a y <;> cases h2 : check E rf b y <;> simp_all [anyR]

theorem ExtFile.check_iff {f : ExtFile} : check E rf coreFile1 f.tree = .ok ↔ f.Good := by
  unfold coreFile1
  simp only [ok_all_cons, ok_all_nil, and_true]
  rw [ok_anyOf_two (by safe)]
  simp [-Prod.exists, -Prod.forall, ExtFile.tree, ok_prop_obj, ok_required_obj, field, tagTest, Pat.test, ExtFile.Good, ok_prop_map, Dict.get?]
  intro _
  constructor
  · rintro (⟨h1, h2, h3⟩ | ⟨h1, h2⟩)
    · exact ⟨h1, .inl ⟨h2, h3⟩⟩
    · exact ⟨h1, .inr h2⟩
  · rintro ⟨h1, ⟨h2, h3⟩ | h2⟩
    · exact .inl ⟨h1, h2, h3⟩
    · exact .inr ⟨h1, h2⟩

@[simp] theorem ExtFile.acc {f : ExtFile} : Acc E f.tree ↔ f.Good := by
  rw [ExtFile.tree, acc_obj (s := coreFile1) rfl fun rf => ExtFile.check_iff]
  simp [-Prod.exists, -Prod.forall]

/-- a media file that can be written -/
def Media.Good (E : Env D) (m : Media) : Prop :=
  m.fps.mag.Real ∧ SameDim E m.fps.units "1/s" ∧ (∀ f ∈ m.file, f.Good) ∧ ∀ a ∈ m.data, a.Good E

theorem Media.acc {m : Media} : Acc E m.tree ↔ m.Good E := by
  rw [Media.tree, acc_obj (P := SameDim E m.fps.units "1/s") (s := coreMediaFile) rfl fun rf => ?_]
  · simp [Media.Good]
    tauto
  · simp [coreMediaFile, ok_prop_obj, ok_required_obj, field, tagTest, Pat.test, Qty.unit_iff]

end Weldx.Schema
