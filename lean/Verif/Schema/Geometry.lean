import Verif.Schema.Shapes

/-!
# Spatial data, rotations and coordinate systems in the schemas (C91)
-/

set_option linter.unusedSimpArgs false

namespace Weldx.Schema
variable {D : Type} [DecidableEq D] {E : Env D} {rf : String → Y → R}

/-! ### Shapes of nodes -/

/-- the shape of a magnitude; a number has the shape `[1]` -/
def Mag.shape : Mag → List Nat
  | .scalar _ => [1]
  | .array _ s => s

/-- the shape of the data of a variable, if it has one -/
def VarData.shape : VarData → Option (List Nat)
  | .scalar (.complex _) => none
  | .scalar _ => some [1]
  | .text _ => none
  | .array _ s => some s

/-- the shape of a time series -/
def Series.shape : Series → List Nat
  | .const _ _ => [1]
  | .single _ r _ _ => 1 :: r
  | .discrete _ _ n r _ _ => n :: r
  | .expr _ _ s => s

theorem shape_qty {q : Qty} : q.tree.shape E = some (q.mag.shape.map Int.ofNat) := by
  simp only [Qty.tree, obj, Y.shape, Y.baseShape, entries_get, List.map_cons, List.map_nil]
  rw [entries_get (by simp), entries_get (by simp)]
  simp only [field]
  cases hm : q.mag with
  | scalar n => cases n <;> simp [Mag.tree, Num.tree, Mag.shape]
  | array d s => simp [Mag.tree, Mag.shape, Y.baseShape]

theorem VarData.base {d : VarData} : d.tree.baseShape = d.shape.map (List.map Int.ofNat) := by
  cases d with
  | scalar n => cases n <;> simp [VarData.tree, Num.tree, Y.baseShape, VarData.shape]
  | text s => simp [VarData.tree, Y.baseShape, VarData.shape]
  | array d s => simp [VarData.tree, Y.baseShape, VarData.shape]

theorem shape_variable {v : Variable} : v.tree.shape E = v.data.shape.map (List.map Int.ofNat) := by
  simp only [Variable.tree, obj, Y.shape, Y.baseShape]
  rw [entries_get (by simp), entries_get (by simp)]
  simp only [field]
  simp
  rw [entries_get (by simp)]
  simp [field, VarData.base]

theorem get_variable_data {v : Variable} : v.tree.get "data" = some v.data.tree := by
  rw [Variable.tree, obj_get (by simp)]
  simp [field]

theorem shape_data {a : DataArr} : a.tree.shape E = a.data.data.shape.map (List.map Int.ofNat) := by
  simp only [DataArr.tree, obj, Y.shape, Y.baseShape]
  rw [entries_get (by simp), entries_get (by simp)]
  simp only [field]
  simp
  rw [entries_get (by simp)]
  simp [field, get_variable_data, VarData.base]

theorem intList_shape (s : List Nat) : intList (s.map fun n : Nat => .int n) = some (s.map Int.ofNat) := by
  induction s with
  | nil => rfl
  | cons a t ih => simp [intList, ih]

theorem shape_series {s : Series} : s.tree.shape E = some (s.shape.map Int.ofNat) := by
  cases s with
  | const n u =>
    simp only [Series.tree, obj, Y.shape, Y.baseShape]
    rw [entries_get (by simp)]
    simp [field, Series.shape]
  | single d r u i =>
    simp only [Series.tree, obj, Y.shape, Y.baseShape]
    rw [entries_get (by simp)]
    have := intList_shape (1 :: r)
    simp [field, Series.shape, shapeTree] at this ⊢
    simp [this]
  | discrete t d n r u i =>
    simp only [Series.tree, obj, Y.shape, Y.baseShape]
    rw [entries_get (by simp)]
    have := intList_shape (n :: r)
    simp [field, Series.shape, shapeTree] at this ⊢
    simp [this]
  | expr e u s =>
    simp only [Series.tree, obj, Y.shape, Y.baseShape]
    rw [entries_get (by simp)]
    have := intList_shape s
    simp [field, Series.shape, shapeTree] at this ⊢
    simp [this]

/-- the result for a list of sizes -/
theorem shapeR_map {t : Option Tag} {m : List (String × Y)} {s : List Nat} {l : List Val.Item} {b : Prop} [Decidable b]
    {d : List (Val.Item × Int)} (hs : (Y.map t m).shape E = some (s.map Int.ofNat)) (h : Val.validateShape (s.map Int.ofNat) l = outcome b d) :
    shapeR E (.shape l) (.map t m) = if b then .ok else .bad := by
  simp only [shapeR, Val.wxShape, Val.validate, Val.validateInstance, Y.node, Val.Node.shape, hs, h, outcome]
  by_cases hb : b <;> simp [hb, Except.map]

theorem shapeR_arr {k : String} {s : List Nat} {l : List Val.Item} {b : Prop} [Decidable b]
    {d : List (Val.Item × Int)} (h : Val.validateShape (s.map Int.ofNat) l = outcome b d) :
    shapeR E (.shape l) (.arr k s) = if b then .ok else .bad := by
  simp only [shapeR, Val.wxShape, Val.validate, Val.validateInstance, Y.node, Y.leaf, Y.shape, Y.baseShape, Val.Node.shape, h, outcome]
  by_cases hb : b <;> simp [hb, Except.map]

theorem shapeR_none {t : Option Tag} {m : List (String × Y)} {l : List Val.Item} (hs : (Y.map t m).shape E = none) :
    shapeR E (.shape l) (.map t m) = .bad := by
  simp [shapeR, Val.wxShape, Val.validate, Val.validateInstance, Y.node, Val.Node.shape, hs]

theorem shapeR_data {a : DataArr} {s : List Nat} (hs : s ∈ a.data.data.shape) {l : List Val.Item} {b : Prop} [Decidable b]
    {d : List (Val.Item × Int)} (h : Val.validateShape (s.map Int.ofNat) l = outcome b d) :
    shapeR E (.shape l) a.tree = if b then .ok else .bad :=
  shapeR_map (by have := shape_data (E := E) (a := a); rw [Option.mem_def.1 hs] at this; simpa [DataArr.tree, obj] using this) h

/-! ### Units of nodes -/

theorem unitR_iff {y : Y} {w u : String} (h : y.units E = match E.parse w with
      | some d => .some d
      | none => .crash) : unitR E u y = .ok ↔ SameDim E w u := by
  unfold unitR SameDim
  rw [h]
  cases h1 : E.parse w with
  | none => simp
  | some d =>
    cases h2 : E.parse u with
    | none => simp
    | some e => simp [eq_comm (a := e)]

theorem Variable.unit_iff {v : Variable} {u : String} : unitR E u v.tree = .ok ↔ ∃ w ∈ v.units, SameDim E w u := by
  have hu : v.tree.units E = match v.units with
      | some w => match E.parse w with
        | some d => .some d
        | none => .crash
      | none => .none := by
    simp only [Variable.tree, obj, Y.units, Y.baseUnits]
    rw [entries_get (by simp)]
    simp only [field]
    cases v.units <;> simp [unitTree, Y.text] <;> rfl
  cases hw : v.units with
  | none => rw [hw] at hu; simp [unitR, hu]
  | some w => rw [hw] at hu; rw [unitR_iff hu]; simp

theorem DataArr.unit_iff {a : DataArr} {u : String} : unitR E u a.tree = .ok ↔ ∃ w ∈ a.data.units, SameDim E w u := by
  have hu : a.tree.units E = match a.data.units with
      | some w => match E.parse w with
        | some d => .some d
        | none => .crash
      | none => .none := by
    simp only [DataArr.tree, obj, Y.units, Y.baseUnits]
    rw [entries_get (by simp), entries_get (by simp)]
    simp [field]
    simp only [Variable.tree, obj, Y.units, Y.baseUnits]
    rw [entries_get (by simp)]
    simp only [field]
    cases a.data.units <;> simp [unitTree, Y.text] <;> rfl
  cases hw : a.data.units with
  | none => rw [hw] at hu; simp [unitR, hu]
  | some w => rw [hw] at hu; rw [unitR_iff hu]; simp

theorem Series.unit_iff {s : Series} {u : String} : unitR E u s.tree = .ok ↔ SameDim E s.units u := by
  refine unitR_iff ?_
  cases s <;> (simp only [Series.tree, obj, Y.units, Y.baseUnits]; rw [entries_get (by simp)]; simp [field, unitTree, Y.text, Series.units]; rfl)

/-! ### Alternatives -/

theorem oneOf_exists {l : List S} {y : Y} (h : check E rf (.oneOf l) y = .ok) : ∃ s ∈ l, check E rf s y = .ok := by
  by_contra hn
  refine bad_oneOf (E := E) (rf := rf) (l := l) (y := y) (fun t ht hc => hn ⟨t, ht, hc⟩) h

/-! ### Spatial data -/

/-- coordinates of points that can be written: lengths with three components -/
def Points.Good (E : Env D) : Points → Prop
  | .qty q => q.mag.Real ∧ SameDim E q.units "m" ∧ q.mag.shape.getLast? = some 3 ∧ q.mag.shape.length ≤ 2
  | .array a => a.Good E ∧ (∃ w ∈ a.data.units, SameDim E w "m") ∧ ∃ s ∈ a.data.data.shape, s.getLast? = some 3

/-- spatial data that can be written -/
def Spatial.Good (E : Env D) (s : Spatial) : Prop :=
  s.coords.Good E ∧
  (∀ t ∈ s.triangles, (t.1 = "uint32" ∨ t.1 = "uint64") ∧ t.2.getLast? = some 3 ∧ t.2.length ≤ 2) ∧
  ∀ m ∈ s.attrs, AccAttrs E m

theorem Points.check_iff {p : Points} : check E rf (.oneOf [.all [.tag (.any "core/data_array"), .shape (.shape [.str ['.', '.', '.'], .int 3]),
    .unit "m"], .all [.tag (.any "units/quantity"), .shape (.shape [.str ['(', '~', ')'], .int 3]), .unit "m"]]) p.tree = .ok ↔ match p with
  | .qty q => SameDim E q.units "m" ∧ q.mag.shape.getLast? = some 3 ∧ q.mag.shape.length ≤ 2
  | .array a => (∃ w ∈ a.data.units, SameDim E w "m") ∧ ∃ s ∈ a.data.data.shape, s.getLast? = some 3 := by
  cases p with
  | qty q =>
    have h1 : shapeR E (.shape [.str ['.', '.', '.'], .int 3]) q.tree = if q.mag.shape.getLast? = some 3 then .ok else .bad :=
      shapeR_map shape_qty (shape_last3 _)
    have h2 : shapeR E (.shape [.str ['(', '~', ')'], .int 3]) q.tree =
        if q.mag.shape.getLast? = some 3 ∧ q.mag.shape.length ≤ 2 then .ok else .bad := shapeR_map shape_qty (shape_points _)
    simp only [Points.tree]
    constructor
    · intro h
      obtain ⟨s, hs, h⟩ := oneOf_exists h
      simp only [List.mem_cons, List.not_mem_nil, or_false] at hs
      rcases hs with rfl | rfl
      · simp [tagTest, Pat.test] at h
      · simp [tagTest, Pat.test, Qty.unit_iff, h2] at h
        exact ⟨h.2, h.1⟩
    · rintro ⟨hu, hl⟩
      refine ok_oneOf (l₁ := [_]) (l₂ := []) ?_ ?_ (by simp)
      · simp [tagTest, Pat.test, Qty.unit_iff, h2, hu, hl]
      · simp only [List.forall_mem_cons, List.not_mem_nil, false_imp_iff, implies_true, and_true]
        refine bad_all ?_ ⟨.tag (.any "core/data_array"), by simp, by simp [check, tagTest, Pat.test]⟩
        simp only [List.forall_mem_cons]
        refine ⟨by safe, ?_, ?_, by simp⟩
        · simp only [check, h1]; split <;> simp
        · simp [check, Qty.unit_iff.2 hu]
  | array a =>
    simp only [Points.tree]
    constructor
    · intro h
      obtain ⟨s, hs, h⟩ := oneOf_exists h
      simp only [List.mem_cons, List.not_mem_nil, or_false] at hs
      rcases hs with rfl | rfl
      · cases hsh : a.data.data.shape with
        | none =>
          have := shapeR_none (E := E) (l := [.str ['.', '.', '.'], .int 3]) (t := some (wx "core/data_array")) (m := _) (by
            have := shape_data (E := E) (a := a); rw [hsh] at this; simpa [DataArr.tree, obj] using this)
          have h3 := (ok_all.1 h) (.shape (.shape [.str ['.', '.', '.'], .int 3])) (by simp)
          rw [ok_shape] at h3
          exact absurd (this.symm.trans h3) (by simp)
        | some s =>
          have h1 : shapeR E (.shape [.str ['.', '.', '.'], .int 3]) a.tree = if s.getLast? = some 3 then .ok else .bad :=
            shapeR_map (by have := shape_data (E := E) (a := a); rw [hsh] at this; simpa [DataArr.tree, obj] using this) (shape_last3 _)
          simp [tagTest, Pat.test, DataArr.unit_iff, h1] at h
          simp [h.1]
          simpa using h.2
      · simp [tagTest, Pat.test] at h
    · rintro ⟨hu, s, hs, hl⟩
      refine ok_oneOf (l₁ := []) (l₂ := [_]) ?_ (by simp) ?_
      · have h1 : shapeR E (.shape [.str ['.', '.', '.'], .int 3]) a.tree = if s.getLast? = some 3 then .ok else .bad :=
          shapeR_data hs (shape_last3 _)
        simp only [ok_all_cons, ok_all_nil, and_true, ok_tag, ok_shape, ok_unit, h1, if_pos hl, true_and, DataArr.unit_iff]
        exact ⟨by simp [tagTest, Pat.test], hu⟩
      · simp only [List.forall_mem_cons, List.not_mem_nil, false_imp_iff, implies_true, and_true]
        refine bad_all ?_ ⟨.tag (.any "units/quantity"), by simp, by simp [check, tagTest, Pat.test]⟩
        simp only [List.forall_mem_cons]
        refine ⟨by safe, ?_, ?_, by simp⟩
        · have h2 : shapeR E (.shape [.str ['(', '~', ')'], .int 3]) a.tree =
            if s.getLast? = some 3 ∧ s.length ≤ 2 then .ok else .bad := shapeR_data hs (shape_points _)
          simp only [check, h2]; split <;> simp
        · simp [check, DataArr.unit_iff.2 hu]

@[simp] theorem tag_spatial {s : Spatial} : s.tree.tag = some (.wx "core/geometry/spatial_data" 1) := rfl

theorem Points.acc {p : Points} : Acc E p.tree ↔ match p with
    | .qty q => q.mag.Real
    | .array a => a.Good E := by cases p <;> simp [Points.tree]

@[simp] theorem Spatial.acc {s : Spatial} : Acc E s.tree ↔ s.Good E := by
  rw [Spatial.tree, acc_obj (P := (match s.coords with
      | .qty q => SameDim E q.units "m" ∧ q.mag.shape.getLast? = some 3 ∧ q.mag.shape.length ≤ 2
      | .array a => (∃ w ∈ a.data.units, SameDim E w "m") ∧ ∃ s ∈ a.data.data.shape, s.getLast? = some 3) ∧
      ∀ t ∈ s.triangles, (t.1 = "uint32" ∨ t.1 = "uint64") ∧ t.2.getLast? = some 3 ∧ t.2.length ≤ 2) (s := coreGeometrySpatialData1) rfl
    fun rf => ?_]
  · cases hc : s.coords <;> simp [Spatial.Good, Points.Good, hc, Points.acc, AccAttrs, -Prod.exists, -Prod.forall] <;> tauto
  · simp only [coreGeometrySpatialData1, ok_all_cons, ok_all_nil, and_true]
    rw [ok_prop_obj (by simp), ok_prop_obj (by simp), ok_prop_obj (by simp), ok_required_obj (by simp)]
    simp only [field, reduceIte, Option.some.injEq, forall_eq', Points.check_iff]
    simp [field, -Prod.exists, -Prod.forall, tagTest, Pat.test, ok_prop, Y.get, shapeR_arr (shape_points _)]

end Weldx.Schema
