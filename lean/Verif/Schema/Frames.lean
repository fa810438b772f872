import Verif.Schema.Geometry

/-!
# Rotations and coordinate systems in the schemas (C91)
-/

set_option linter.unusedSimpArgs false
set_option linter.unusedSectionVars false

namespace Weldx.Schema
variable {D : Type} [DecidableEq D] {E : Env D} {rf : String → Y → R}

/-! ### Rotations -/

/-- rotations that can be written: angles have to be angles -/
def Rot.Good (E : Env D) : Rot → Prop
  | .euler _ q => q.mag.Real ∧ SameDim E q.units "degree"
  | _ => True

theorem prop_missing {k : String} {s : S} {y : Y} (h : y.get k = none) : check E rf (.prop k s) y = .ok := by simp [check, h]

/-- an alternative whose keyword is missing -/
theorem alt_missing {t : Tag} {fs : List (String × Option Y)} (hn : (fs.map Prod.fst).Nodup) {k : String} (h : field fs k = none)
    {s : S} {c : List String} : check E rf (.all [.type .object, .prop k s, .required [k], .closed c]) (obj t fs) = .bad := by
  refine bad_all ?_ ⟨.required [k], by simp, ?_⟩
  · simp only [List.forall_mem_cons]
    refine ⟨by safe, ?_, by safe, by safe, by simp⟩
    rw [prop_missing (by rw [obj_get hn, h])]; simp
  · exact Safe.bad (by constructor) (by rw [ne_eq, ok_required_obj hn]; simp [h])

/-- the alternative of angles -/
theorem alt_angles {t : Tag} {fs : List (String × Option Y)} (hn : (fs.map Prod.fst).Nodup) (h : field fs "angles" = none)
    (h2 : field fs "sequence" = none) {s s' : S} {c : List String} :
    check E rf (.all [.type .object, .prop "sequence" s', .prop "angles" s, .required ["sequence", "angles"], .closed c]) (obj t fs) = .bad := by
  refine bad_all ?_ ⟨.required _, List.mem_cons_of_mem _ (List.mem_cons_of_mem _ (List.mem_cons_of_mem _ (List.mem_cons_self ..))), ?_⟩
  · simp only [List.forall_mem_cons]
    refine ⟨by safe, ?_, ?_, by safe, by safe, by simp⟩
    · rw [prop_missing (by rw [obj_get hn, h2])]; simp
    · rw [prop_missing (by rw [obj_get hn, h])]; simp
  · exact Safe.bad (by constructor) (by rw [ne_eq, ok_required_obj hn]; simp [h])

@[simp] theorem tag_rot {r : Rot} : r.tree.tag = some (wx "core/transformations/rotation") := rfl

theorem suffix_several {n : Option Nat} : [3, 3] <:+ several n [3, 3] := by
  cases n with
  | none => exact ⟨[], rfl⟩
  | some n => exact ⟨[n], rfl⟩

theorem closed_obj {t : Tag} {fs : List (String × Option Y)} {l : List String} :
    check E rf (.closed l) (obj t fs) = .ok ↔ ∀ e ∈ fs, e.2.isSome = true → e.1 ∈ l := by
  rw [obj, ok_closed]
  constructor
  · intro h e he hs
    obtain ⟨k, o⟩ := e
    obtain ⟨y, rfl⟩ := Option.isSome_iff_exists.1 hs
    exact h (k, y) (mem_entries.2 he)
  · intro h e he
    exact h _ (mem_entries.1 he) rfl

theorem Rot.check_iff {r : Rot} : check E rf coreTransformationsRotation r.tree = .ok ↔ match r with
    | .euler _ q => SameDim E q.units "degree"
    | _ => True := by
  unfold coreTransformationsRotation
  cases r with
  | quat n =>
    simp only [iff_true, Rot.tree, Rot.fields]
    refine ok_oneOf (l₁ := []) ?_ (by simp) ?_
    · simp only [ok_all_cons, ok_all_nil, and_true]
      rw [ok_prop_obj (by simp), ok_required_obj (by simp), closed_obj]
      simp [field, tagTest, Pat.test, shapeR_arr (shape_last4 _)]
      cases n <;> simp [several]
    · simp only [List.forall_mem_cons]
      exact ⟨alt_missing (by simp) (by simp [field]), alt_missing (by simp) (by simp [field]), alt_angles (by simp) (by simp [field]) (by simp [field]), by simp⟩
  | matrix n =>
    simp only [iff_true, Rot.tree, Rot.fields]
    refine ok_oneOf (l₁ := [_]) ?_ ?_ ?_
    · simp only [ok_all_cons, ok_all_nil, and_true]
      rw [ok_prop_obj (by simp), ok_required_obj (by simp), closed_obj]
      simp [field, tagTest, Pat.test, shapeR_arr (shape_last33 _), suffix_several]
    · simp only [List.forall_mem_cons]
      exact ⟨alt_missing (by simp) (by simp [field]), by simp⟩
    · simp only [List.forall_mem_cons]
      exact ⟨alt_missing (by simp) (by simp [field]), alt_angles (by simp) (by simp [field]) (by simp [field]), by simp⟩
  | rotvec n =>
    simp only [iff_true, Rot.tree, Rot.fields]
    refine ok_oneOf (l₁ := [_, _]) ?_ ?_ ?_
    · simp only [ok_all_cons, ok_all_nil, and_true]
      rw [ok_prop_obj (by simp), ok_required_obj (by simp), closed_obj]
      simp [field, tagTest, Pat.test, shapeR_arr (shape_last3 _)]
      cases n <;> simp [several]
    · simp only [List.forall_mem_cons]
      exact ⟨alt_missing (by simp) (by simp [field]), alt_missing (by simp) (by simp [field]), by simp⟩
    · simp only [List.forall_mem_cons]
      exact ⟨alt_angles (by simp) (by simp [field]) (by simp [field]), by simp⟩
  | euler s q =>
    simp only [Rot.tree, Rot.fields]
    constructor
    · intro h
      obtain ⟨t, ht, h⟩ := oneOf_exists h
      simp only [List.mem_cons, List.not_mem_nil, or_false] at ht
      rcases ht with rfl | rfl | rfl | rfl
      · rw [alt_missing (by simp) (by simp [field])] at h; simp at h
      · rw [alt_missing (by simp) (by simp [field])] at h; simp at h
      · rw [alt_missing (by simp) (by simp [field])] at h; simp at h
      · simp only [ok_all_cons] at h
        have h1 := h.2.2.1
        rw [ok_prop_obj (by simp)] at h1
        simpa [field, tagTest, Pat.test, Qty.unit_iff] using h1
    · intro h
      refine ok_oneOf (l₁ := [_, _, _]) ?_ ?_ (by simp)
      · simp only [ok_all_cons, ok_all_nil, and_true]
        rw [ok_prop_obj (by simp), ok_prop_obj (by simp), ok_required_obj (by simp), closed_obj]
        simp [field, tagTest, Pat.test, Qty.unit_iff, h]
      · simp only [List.forall_mem_cons]
        exact ⟨alt_missing (by simp) (by simp [field]), alt_missing (by simp) (by simp [field]), alt_missing (by simp) (by simp [field]), by simp⟩

@[simp] theorem Rot.acc {r : Rot} : Acc E r.tree ↔ r.Good E := by
  have h : ∀ rf : String → Y → R, check E rf coreTransformationsRotation r.tree = .ok ↔ _ := fun rf => Rot.check_iff
  rw [Rot.tree] at h ⊢
  rw [acc_obj (s := coreTransformationsRotation) rfl h]
  cases r <;> simp [Rot.Good, Rot.fields, and_comm]

/-- A rotation with a further entry is rejected: the schema is closed. -/
theorem Rot.extra {r : Rot} {k : String} {y : Y} (hk : k ∉ ["quaternions", "matrix", "rotvec", "sequence", "angles"]) :
    ¬ Acc E (obj (wx "core/transformations/rotation") (r.fields ++ [(k, some y)])) := by
  intro h
  obtain ⟨⟨n, hv⟩, -⟩ := (acc_obj_valid (s := coreTransformationsRotation) rfl).1 h
  have h := hv n (Nat.le_refl n)
  unfold coreTransformationsRotation at h
  obtain ⟨t, ht, h⟩ := oneOf_exists h
  simp only [List.mem_cons, List.not_mem_nil, or_false] at ht
  have hc : ∀ {l : List String}, check E (refs E defs n) (.closed l) (obj (wx "core/transformations/rotation") (r.fields ++ [(k, some y)])) = .ok → k ∈ l := by
    intro l hl
    rw [closed_obj] at hl
    exact hl (k, some y) (by simp) rfl
  rcases ht with rfl | rfl | rfl | rfl
  · exact hk (by have := hc (ok_all.1 h (.closed ["quaternions"]) (by simp)); simp at this; simp [this])
  · exact hk (by have := hc (ok_all.1 h (.closed ["matrix"]) (by simp)); simp at this; simp [this])
  · exact hk (by have := hc (ok_all.1 h (.closed ["rotvec"]) (by simp)); simp at this; simp [this])
  · exact hk (by have := hc (ok_all.1 h (.closed ["sequence", "angles"]) (by simp)); simp at this; rcases this with h | h <;> simp [h])

/-! ### Coordinate systems -/

/-- orientations of which the shape is right -/
def Variable.Matrices (v : Variable) : Prop := ∃ s ∈ v.data.shape, [3, 3] <:+ s ∧ s.length ≤ 3

/-- coordinate systems that can be written; without coordinates the shape of the orientations does not matter -/
def Lcs.Good (E : Env D) (l : Lcs) : Prop :=
  (∀ o ∈ l.orientation, o.Good E) ∧
  match l.coords with
  | .unity => True
  | .values v => v.Good E ∧ (∃ w ∈ v.units, SameDim E w "m") ∧ (∃ s ∈ v.data.shape, s.getLast? = some 3) ∧ ∀ o ∈ l.orientation, o.Matrices
  | .series s => s.Good E ∧ SameDim E s.units "m" ∧ s.shape.getLast? = some 3 ∧ ∀ o ∈ l.orientation, o.Matrices


/-- the shapes of a coordinate system -/
def lcsShape : Val.Exp := .dict (.cons ['c', 'o', 'o', 'r', 'd', 'i', 'n', 'a', 't', 'e', 's'] (.shape [.str ['.', '.', '.'], .int 3])
  (.cons ['o', 'r', 'i', 'e', 'n', 't', 'a', 't', 'i', 'o', 'n', 's'] (.shape [.str ['(', 't', ')'], .int 3, .int 3]) .nil))

theorem merge_rot (s : List Nat) : Val.mergeVars [] (rotVars s) = some (rotVars s) := by
  unfold rotVars
  split <;> simp [Val.mergeVars, Dict.get?, Dict.set]

theorem lcs_shape {fs : List (String × Option Y)} {g : Tag} (hn : (fs.map Prod.fst).Nodup) {sc : Option (List Nat)} {c : Y}
    (hc : field fs "coordinates" = some c) (hcs : c.leaf E = .mapping (sc.map (List.map Int.ofNat)) [])
    {o : Option Variable} (ho : field fs "orientations" = o.map Variable.tree) :
    shapeR E lcsShape (obj g fs) = .ok ↔ (∃ s ∈ sc, s.getLast? = some 3) ∧ ∀ v ∈ o, v.Matrices := by
  have h1 : ((obj g fs).node E).get ['c', 'o', 'o', 'r', 'd', 'i', 'n', 'a', 't', 'e', 's'] = .ok (some (c.leaf E)) := by
    rw [node_obj hn (s := "coordinates") (by decide), hc]; rfl
  have h2 : ((obj g fs).node E).get ['o', 'r', 'i', 'e', 'n', 't', 'a', 't', 'i', 'o', 'n', 's'] =
      .ok (o.map fun v => .mapping (v.data.shape.map (List.map Int.ofNat)) []) := by
    rw [node_obj hn (s := "orientations") (by decide), ho]
    cases o with
    | none => rfl
    | some v =>
      have := shape_variable (E := E) (v := v)
      simp only [Variable.tree, obj] at this
      simp [Variable.tree, obj, Y.leaf, this]
  have k1 : Val.parseKey ['c', 'o', 'o', 'r', 'd', 'i', 'n', 'a', 't', 'e', 's'] =
    .ok (['c', 'o', 'o', 'r', 'd', 'i', 'n', 'a', 't', 'e', 's'], false) := rfl
  have k2 : Val.parseKey ['o', 'r', 'i', 'e', 'n', 't', 'a', 't', 'i', 'o', 'n', 's'] =
    .ok (['o', 'r', 'i', 'e', 'n', 't', 'a', 't', 'i', 'o', 'n', 's'], false) := rfl
  simp only [shapeR, Val.wxShape, lcsShape, Val.validate, Val.validateAll, k1, k2, h1, h2, hcs]
  cases sc with
  | none => simp [Val.validateInstance, Val.Node.shape]
  | some s =>
    by_cases hs : s.getLast? = some 3
    · simp only [Val.validateInstance, Val.Node.shape, Option.map_some, shape_last3, outcome, if_pos hs, Except.map, Val.mergeVars]
      cases o with
      | none => simp [hs]
      | some v =>
        cases hv : v.data.shape with
        | none => simp [Val.validateInstance, Val.Node.shape, Variable.Matrices, hv]
        | some r =>
          by_cases hr : [3, 3] <:+ r ∧ r.length ≤ 3
          · simp [Val.validateInstance, Val.Node.shape, Variable.Matrices, hv, shape_rot, outcome, hr, hs, Except.map, merge_rot]
          · simp [Val.validateInstance, Val.Node.shape, Variable.Matrices, hv, shape_rot, outcome, hr, hs, Except.map]
    · simp [Val.validateInstance, Val.Node.shape, shape_last3, outcome, hs, Except.map]

theorem lcs_no_coordinates {fs : List (String × Option Y)} {g : Tag} (hn : (fs.map Prod.fst).Nodup) (hc : field fs "coordinates" = none) :
    shapeR E lcsShape (obj g fs) = .ok := by
  have h1 : ((obj g fs).node E).get ['c', 'o', 'o', 'r', 'd', 'i', 'n', 'a', 't', 'e', 's'] = .ok none := by
    rw [node_obj hn (s := "coordinates") (by decide), hc]; rfl
  have k1 : Val.parseKey ['c', 'o', 'o', 'r', 'd', 'i', 'n', 'a', 't', 'e', 's'] =
    .ok (['c', 'o', 'o', 'r', 'd', 'i', 'n', 'a', 't', 'e', 's'], false) := rfl
  simp only [shapeR, Val.wxShape, lcsShape, Val.validate, Val.validateAll, k1, h1]

/-- the alternatives of the coordinates -/
def lcsCoords : S := .oneOf [.all [.tag (.any "core/variable"), .unit "m"], .all [.tag (.any "core/time_series"), .unit "m"]]

theorem lcsCoords_variable {v : Variable} : check E rf lcsCoords v.tree = .ok ↔ ∃ w ∈ v.units, SameDim E w "m" := by
  unfold lcsCoords
  constructor
  · intro h
    obtain ⟨t, ht, h⟩ := oneOf_exists h
    simp only [List.mem_cons, List.not_mem_nil, or_false] at ht
    rcases ht with rfl | rfl
    · simp only [ok_all_cons, ok_unit, Variable.unit_iff] at h
      exact h.2.1
    · simp [tagTest, Pat.test] at h
  · intro h
    refine ok_oneOf (l₁ := []) ?_ (by simp) ?_
    · simp only [ok_all_cons, ok_all_nil, ok_unit, Variable.unit_iff, ok_tag]
      exact ⟨by simp [tagTest, Pat.test], h, trivial⟩
    · simp only [List.forall_mem_cons]
      refine ⟨bad_all ?_ ⟨.tag (.any "core/time_series"), by simp, by simp [check, tagTest, Pat.test]⟩, by simp⟩
      simp only [List.forall_mem_cons]
      exact ⟨by safe, by simp [check, Variable.unit_iff.2 h], by simp⟩

theorem lcsCoords_series {s : Series} : check E rf lcsCoords s.tree = .ok ↔ SameDim E s.units "m" := by
  unfold lcsCoords
  constructor
  · intro h
    obtain ⟨t, ht, h⟩ := oneOf_exists h
    simp only [List.mem_cons, List.not_mem_nil, or_false] at ht
    rcases ht with rfl | rfl
    · simp [tagTest, Pat.test] at h
    · simp only [ok_all_cons, ok_unit, Series.unit_iff] at h
      exact h.2.1
  · intro h
    refine ok_oneOf (l₁ := [_]) ?_ ?_ (by simp)
    · simp only [ok_all_cons, ok_all_nil, ok_unit, Series.unit_iff, ok_tag]
      exact ⟨by simp [tagTest, Pat.test], h, trivial⟩
    · simp only [List.forall_mem_cons]
      refine ⟨bad_all ?_ ⟨.tag (.any "core/variable"), by simp, by simp [check, tagTest, Pat.test]⟩, by simp⟩
      simp only [List.forall_mem_cons]
      exact ⟨by safe, by simp [check, Series.unit_iff.2 h], by simp⟩

theorem leaf_series {s : Series} : s.tree.leaf E = .mapping ((some s.shape).map (List.map Int.ofNat)) [] := by
  have := shape_series (E := E) (s := s)
  cases s <;> (simp only [Series.tree, obj] at this; simp [Series.tree, obj, Y.leaf, this])

theorem leaf_variable {v : Variable} : v.tree.leaf E = .mapping (v.data.shape.map (List.map Int.ofNat)) [] := by
  have := shape_variable (E := E) (v := v)
  simp only [Variable.tree, obj] at this; simp [Variable.tree, obj, Y.leaf, this]

@[simp] theorem tag_lcs {l : Lcs} : l.tree.tag = some (.wx "core/transformations/local_coordinate_system" 1) := rfl

theorem Lcs.check_iff {l : Lcs} : check E rf coreTransformationsLocalCoordinateSystem1 l.tree = .ok ↔ match l.coords with
  | .unity => True
  | .values v => (∃ w ∈ v.units, SameDim E w "m") ∧ (∃ s ∈ v.data.shape, s.getLast? = some 3) ∧ ∀ o ∈ l.orientation, o.Matrices
  | .series s => SameDim E s.units "m" ∧ s.shape.getLast? = some 3 ∧ ∀ o ∈ l.orientation, o.Matrices := by
  have hd : coreTransformationsLocalCoordinateSystem1 = .all [.type .object, .prop "reference_time" (.tag (.any "time/timestamp")),
    .prop "time" (.tag (.any "time/timedeltaindex")), .prop "coordinates" lcsCoords,
    .prop "orientations" (.tag (.any "core/variable")), .shape lcsShape] := rfl
  rw [hd, Lcs.tree]
  simp only [ok_all_cons, ok_all_nil, and_true, ok_shape]
  rw [ok_prop_obj (by simp), ok_prop_obj (by simp), ok_prop_obj (by simp), ok_prop_obj (by simp)]
  cases hc : l.coords with
  | unity =>
    rw [lcs_no_coordinates (by simp) (by simp [field, Coords.tree])]
    simp [field, Coords.tree, tagTest, Pat.test]
  | values v =>
    rw [lcs_shape (sc := v.data.shape) (c := v.tree) (o := l.orientation) (by simp) (by simp [field, Coords.tree]) leaf_variable (by simp [field])]
    simp [field, Coords.tree, tagTest, Pat.test, lcsCoords_variable]
  | series s =>
    rw [lcs_shape (sc := some s.shape) (c := s.tree) (o := l.orientation) (by simp) (by simp [field, Coords.tree]) leaf_series (by simp [field])]
    simp [field, Coords.tree, tagTest, Pat.test, lcsCoords_series]

@[simp] theorem Lcs.acc {l : Lcs} : Acc E l.tree ↔ l.Good E := by
  have h : ∀ rf : String → Y → R, check E rf coreTransformationsLocalCoordinateSystem1 l.tree = .ok ↔ _ := fun rf => Lcs.check_iff
  rw [Lcs.tree] at h ⊢
  rw [acc_obj (s := coreTransformationsLocalCoordinateSystem1) rfl h]
  cases hc : l.coords <;> simp [Lcs.Good, hc, Coords.tree] <;> tauto

end Weldx.Schema
