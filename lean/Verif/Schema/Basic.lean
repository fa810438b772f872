import Verif.Schema.Trees

/-!
# Basic values, times, arrays and series in the schemas (C91)
-/

namespace Weldx.Schema
variable {D : Type} [DecidableEq D] {E : Env D} {rf : String → Y → R}

/-! ### Entries of objects -/

theorem obj_get {t : Tag} {fs : List (String × Option Y)} (h : (fs.map Prod.fst).Nodup) (k : String) :
    (obj t fs).get k = field fs k := entries_get h k

theorem ok_prop_obj {t : Tag} {fs : List (String × Option Y)} (h : (fs.map Prod.fst).Nodup) {k : String} {s : S} :
    check E rf (.prop k s) (obj t fs) = .ok ↔ ∀ v, field fs k = some v → check E rf s v = .ok := by
  rw [ok_prop, obj_get h]

theorem ok_required_obj {t : Tag} {fs : List (String × Option Y)} (h : (fs.map Prod.fst).Nodup) {l : List String} :
    check E rf (.required l) (obj t fs) = .ok ↔ ∀ k ∈ l, (field fs k).isSome = true := by
  simp [obj, entries_get h]

@[simp] theorem test_map {t : Option Tag} {m : List (String × Y)} : Ty.test .object (.map t m) = true := rfl
@[simp] theorem test_array {t : Option Tag} {m : List Y} : Ty.test .array (.list t m) = true := rfl
@[simp] theorem test_string {t : Option Tag} {s : String} : Ty.test .string (.str t s) = true := rfl
@[simp] theorem test_int {i : Int} : Ty.test .integer (.int i) = true := rfl
@[simp] theorem test_number {i : Int} : Ty.test .number (.int i) = true := rfl
@[simp] theorem test_bool {b : Bool} : Ty.test .boolean (.bool b) = true := rfl
@[simp] theorem test_object_obj {t : Tag} {fs : List (String × Option Y)} : Ty.test .object (obj t fs) = true := rfl
theorem tag_obj {t : Tag} {fs : List (String × Option Y)} : (obj t fs).tag = some t := rfl

/-! ### What is accepted -/

/-- a node of a tree with the schemas of the project -/
abbrev Acc (E : Env D) (y : Y) : Prop := Accepted E defs schemaOf y

@[simp] theorem acc_null : Acc E .null := .null
@[simp] theorem acc_bool {b : Bool} : Acc E (.bool b) := .bool b
@[simp] theorem acc_int {i : Int} : Acc E (.int i) := .int i
@[simp] theorem acc_float : Acc E .float := .float
@[simp] theorem acc_arr {d : String} {s : List Nat} : Acc E (.arr d s) := .arr d s
@[simp] theorem acc_txt {s : String} : Acc E (txt s) := .str none s (by simp)
@[simp] theorem acc_list {l : List Y} : Acc E (.list none l) ↔ ∀ y ∈ l, Acc E y :=
  ⟨fun h => by cases h; assumption, fun h => .list none l (by simp) h⟩
@[simp] theorem acc_map {m : List (String × Y)} : Acc E (.map none m) ↔ ∀ e ∈ m, Acc E e.2 :=
  ⟨fun h => by cases h; assumption, fun h => .map none m (by simp) h⟩
@[simp] theorem acc_txts {l : List String} : Acc E (txts l) := by simp [txts]
@[simp] theorem acc_shape {l : List Nat} : Acc E (shapeTree l) := by simp [shapeTree]

/-- A result that does not depend on the references is the result. -/
theorem valid_iff {s : S} {y : Y} {P : Prop} (h : ∀ rf : String → Y → R, check E rf s y = .ok ↔ P) : Valid E defs s y ↔ P :=
  ⟨fun ⟨k, hk⟩ => (h _).1 (hk k (Nat.le_refl k)), fun hp => ⟨0, fun _ _ => (h _).2 hp⟩⟩

theorem acc_tagged {t : Tag} {x : String} {s : S} {P : Prop} (hs : schemaOf t = some s)
    (h : ∀ rf : String → Y → R, check E rf s (.str (some t) x) = .ok ↔ P) : Acc E (.str (some t) x) ↔ P := by
  rw [← valid_iff h]
  constructor
  · rintro ⟨⟩
    rename_i h1
    exact h1 t rfl s hs
  · intro hv
    refine .str _ _ ?_
    rintro g hg c hc
    cases Option.mem_some.1 hg
    rw [hs] at hc
    cases Option.mem_some.1 hc
    exact hv

/-- a tagged object: its own schema and the entries -/
theorem acc_obj_valid {t : Tag} {fs : List (String × Option Y)} {s : S} (hs : schemaOf t = some s) :
    Acc E (obj t fs) ↔ Valid E defs s (obj t fs) ∧ ∀ e ∈ fs, ∀ y ∈ e.2, Acc E y := by
  constructor
  · intro h
    have h' : Accepted E defs schemaOf (.map (some t) (entries fs)) := h
    cases h'
    rename_i h2 h1
    refine ⟨h1 t rfl s hs, fun e he y hy => h2 (e.1, y) (mem_entries.2 ?_)⟩
    simp only
    rw [← Option.mem_def.1 hy]
    exact he
  · rintro ⟨h1, h2⟩
    refine .map _ _ ?_ ?_
    · rintro g hg c hc
      cases Option.mem_some.1 hg
      rw [hs] at hc
      cases Option.mem_some.1 hc
      exact h1
    · intro e he
      exact h2 _ (mem_entries.1 he) e.2 rfl

theorem acc_obj {t : Tag} {fs : List (String × Option Y)} {s : S} {P : Prop} (hs : schemaOf t = some s)
    (h : ∀ rf : String → Y → R, check E rf s (obj t fs) = .ok ↔ P) : Acc E (obj t fs) ↔ P ∧ ∀ e ∈ fs, ∀ y ∈ e.2, Acc E y := by
  rw [acc_obj_valid hs, valid_iff h]

/-! ### Units and quantities -/

/-- two units of the same dimension -/
def SameDim (E : Env D) (a b : String) : Prop := ∃ d, E.parse a = some d ∧ E.parse b = some d

@[simp] theorem tag_unit {u : String} : (unitTree u).tag = some (wx "units/units") := rfl
@[simp] theorem acc_unit {u : String} : Acc E (unitTree u) := by
  refine (acc_tagged (P := True) (s := unitsUnits) rfl fun rf => ?_).2 trivial
  simp [unitsUnits, Ty.test, tagTest, Y.tag, Pat.test]

@[simp] theorem tag_qty {q : Qty} : q.tree.tag = some (wx "units/quantity") := rfl

theorem Mag.value_iff {m : Mag} : check E rf (.oneOf [.type .number, .tag .ndarray]) m.tree = .ok ↔ m.Real := by
  cases m with
  | scalar n => cases n <;> simp [Mag.Real, Num.Real, Mag.tree, Num.tree, check, checkList, oneR, Ty.test, tagTest, Y.tag, R.ofBool, Pat.test]
  | array d s => simp [Mag.Real, Mag.tree, check, checkList, oneR, Ty.test, tagTest, Y.tag, R.ofBool, Pat.test]

theorem Qty.check_iff {q : Qty} : check E rf unitsQuantity q.tree = .ok ↔ q.mag.Real := by
  simp [unitsQuantity, Qty.tree, ok_prop_obj, ok_required_obj, field, test_object_obj, Mag.value_iff, tagTest, Pat.test]

@[simp] theorem Num.acc {n : Num} : Acc E n.tree := by
  cases n <;> simp [Num.tree]
  exact .str _ _ (by simp [schemaOf])

@[simp] theorem Mag.acc {m : Mag} : Acc E m.tree := by cases m <;> simp [Mag.tree]

@[simp] theorem Qty.acc {q : Qty} : Acc E q.tree ↔ q.mag.Real := by
  rw [Qty.tree, acc_obj (s := unitsQuantity) rfl fun rf => Qty.check_iff]
  simp

theorem Qty.unit_iff {q : Qty} {u : String} : unitR E u q.tree = .ok ↔ SameDim E q.units u := by
  have hu : q.tree.units E = match E.parse q.units with
      | some d => .some d
      | none => .crash := by
    simp [Y.units, Qty.tree, obj, Y.baseUnits, entries_get, field, unitTree, Y.text]
    rfl
  unfold unitR SameDim
  rw [hu]
  cases h1 : E.parse q.units with
  | none => simp
  | some d =>
    cases h2 : E.parse u with
    | none => simp
    | some e => simp [eq_comm (a := e)]

/-! ### Times -/

theorem digit_between {d : Nat} (h : d < 10) : between '0' '9' (digitChar d) = true := by
  have : ∀ d : Fin 10, between '0' '9' (digitChar d) = true := by decide
  exact this ⟨d, h⟩

theorem Stamp.pattern (t : Stamp) : timestampPattern t.text.toList = true := by
  have h1 : between '1' '2' (digitChar (t.year / 1000)) = true := by
    have : t.year / 1000 = 1 ∨ t.year / 1000 = 2 := by have := t.lower; have := t.upper; omega
    rcases this with h | h <;> rw [h] <;> decide
  have h2 : between '0' '9' (digitChar (t.year / 100 % 10)) = true := digit_between (Nat.mod_lt _ (by decide))
  simp [timestampPattern, Stamp.text, search, startsWith, h1, h2]

@[simp] theorem tag_stamp {t : Stamp} : t.tree.tag = some (wx "time/timestamp") := rfl
theorem Stamp.check_ok {t : Stamp} : check E rf timeTimestamp t.tree = .ok := by
  simp [timeTimestamp, Stamp.tree, Ty.test, t.pattern]
@[simp] theorem Stamp.acc {t : Stamp} : Acc E t.tree :=
  (acc_tagged (P := True) (s := timeTimestamp) rfl fun rf => by
    have := Stamp.check_ok (E := E) (rf := rf) (t := t)
    simpa [Stamp.tree] using this).2 trivial

@[simp] theorem tag_delta {s : String} : (deltaTree s).tag = some (wx "time/timedelta") := rfl
theorem delta_check {s : String} : check E rf timeTimedelta (deltaTree s) = .ok := by
  simp [timeTimedelta, deltaTree, Ty.test, tagTest, Y.tag, Pat.test]
@[simp] theorem delta_acc {s : String} : Acc E (deltaTree s) :=
  (acc_tagged (P := True) (s := timeTimedelta) rfl fun rf => by
    have := delta_check (E := E) (rf := rf) (s := s)
    simpa [deltaTree] using this).2 trivial

@[simp] theorem tag_deltas {i : DeltaIndex} : i.tree.tag = some (wx "time/timedeltaindex") := rfl
@[simp] theorem tag_dates {i : DateIndex} : i.tree.tag = some (wx "time/datetimeindex") := rfl

/-- exactly one of two -/
theorem ok_oneOf_two {a b : S} {y : Y} (ha : check E rf a y ≠ .crash) (hb : check E rf b y ≠ .crash) :
    check E rf (.oneOf [a, b]) y = .ok ↔ (check E rf a y = .ok ∧ check E rf b y ≠ .ok) ∨ (check E rf a y ≠ .ok ∧ check E rf b y = .ok) := by
  simp only [check, checkList]
  cases h1 : check E rf a y <;> cases h2 : check E rf b y <;> simp_all [oneR, R.ofBool]

/-- exactly one of three -/
theorem ok_oneOf_three {a b c : S} {y : Y} (ha : check E rf a y ≠ .crash) (hb : check E rf b y ≠ .crash) (hc : check E rf c y ≠ .crash) :
    check E rf (.oneOf [a, b, c]) y = .ok ↔ (check E rf a y = .ok ∧ check E rf b y ≠ .ok ∧ check E rf c y ≠ .ok) ∨
      (check E rf a y ≠ .ok ∧ check E rf b y = .ok ∧ check E rf c y ≠ .ok) ∨
      (check E rf a y ≠ .ok ∧ check E rf b y ≠ .ok ∧ check E rf c y = .ok) := by
  simp only [check, checkList]
  cases h1 : check E rf a y <;> cases h2 : check E rf b y <;> cases h3 : check E rf c y <;> simp_all [oneR, R.ofBool]

/-- no crash with keywords of this kind -/
macro "safe" : tactic => `(tactic| (apply Safe.noCrash; repeat' constructor))

theorem DeltaIndex.check_ok {i : DeltaIndex} : check E rf timeTimedeltaindex i.tree = .ok := by
  unfold timeTimedeltaindex
  rw [ok_oneOf_two (by safe) (by safe)]
  cases h : i.spacing <;>
  simp [DeltaIndex.tree, h, Spacing.freqTree, Spacing.valuesTree, ok_prop_obj, ok_required_obj, field, test_object_obj, delta_check,
    tagTest, Y.tag, Pat.test]

@[simp] theorem DeltaIndex.acc {i : DeltaIndex} : Acc E i.tree := by
  refine (acc_obj (P := True) (s := timeTimedeltaindex) rfl fun rf => ?_).2 ⟨trivial, ?_⟩
  · simpa [DeltaIndex.tree] using DeltaIndex.check_ok
  · cases h : i.spacing <;> simp [h, Spacing.freqTree, Spacing.valuesTree]

theorem DateIndex.check_ok {i : DateIndex} : check E rf timeDatetimeindex i.tree = .ok := by
  unfold timeDatetimeindex
  rw [ok_oneOf_two (by safe) (by safe)]
  cases h : i.spacing <;>
  simp [DateIndex.tree, h, Spacing.freqTree, Spacing.valuesTree, ok_prop_obj, ok_required_obj, field, test_object_obj, Stamp.check_ok,
    tagTest, Y.tag, Pat.test]

@[simp] theorem DateIndex.acc {i : DateIndex} : Acc E i.tree := by
  refine (acc_obj (P := True) (s := timeDatetimeindex) rfl fun rf => ?_).2 ⟨trivial, ?_⟩
  · simpa [DateIndex.tree] using DateIndex.check_ok
  · cases h : i.spacing <;> simp [h, Spacing.freqTree, Spacing.valuesTree]

@[simp] theorem TimeValues.acc {t : TimeValues} : Acc E t.tree := by cases t <;> simp [TimeValues.tree]

@[simp] theorem tag_time {t : Time} : t.tree.tag = some (wx "time/time") := rfl
theorem Time.check_ok {t : Time} : check E rf timeTime t.tree = .ok := by
  obtain ⟨v, r⟩ := t
  simp only [timeTime, Time.tree, ok_all_cons, ok_all_nil, and_true]
  refine ⟨by simp [test_object_obj], ?_, ?_, ?_⟩
  · rw [ok_prop_obj (by simp)]
    simp only [field, if_true, Option.some.injEq, forall_eq']
    cases v <;> simp [check, checkList, oneR, TimeValues.tree, tagTest, Pat.test, R.ofBool]
  · simp [ok_prop_obj, field, tagTest, Pat.test]
  · simp [ok_required_obj, field]

@[simp] theorem Time.acc {t : Time} : Acc E t.tree := by
  refine (acc_obj (P := True) (s := timeTime) rfl fun rf => ?_).2 ⟨trivial, ?_⟩
  · simpa [Time.tree] using Time.check_ok
  · simp

end Weldx.Schema
