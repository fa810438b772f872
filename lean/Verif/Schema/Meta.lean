import Verif.Schema.Classes
import Verif.Version.TagsProps

/-!
# Further entries of objects, patterns of tags and the manifest (C91)

`default_to_yaml`-like code adds `wx_metadata` and `wx_user` to the tree of an object, `/repo/weldx/asdf/types.py` and
`/repo/weldx/asdf/constants.py`. The schemas do not mention these keys.
-/

set_option linter.unusedSimpArgs false
set_option linter.unusedSectionVars false

namespace Weldx.Schema
variable {D : Type} [DecidableEq D] {E : Env D} {rf : String → Y → R}

/-! ### Further entries -/

/-- the keys of a dictionary of shapes do not contain the given one -/
def keysOther (k : List Char) : Val.Exps → Bool
  | .nil => true
  | .cons key _ es => (match Val.parseKey key with
    | .ok (n, _) => decide (n ≠ k)
    | .error _ => true) && keysOther k es

mutual
/-- the result for an object does not depend on an entry -/
def neutral (k : String) : S → Bool
  | .type _ => true
  | .tag _ => true
  | .enum _ => true
  | .pattern _ => true
  | .maxItems _ => true
  | .items _ => true
  | .required l => decide (k ∉ l)
  | .prop n _ => decide (n ≠ k)
  | .all l => neutralAll k l
  | .anyOf l => neutralAll k l
  | .oneOf l => neutralAll k l
  | .shape (.dict es) => keysOther k.toList es
  | _ => false
/-- for several schemas -/
def neutralAll (k : String) : List S → Bool
  | [] => true
  | s :: l => neutral k s && neutralAll k l
end

theorem get_append {m : List (String × Y)} {k n : String} {v : Y} (h : n ≠ k) : Dict.get? (m ++ [(k, v)]) n = Dict.get? m n := by
  induction m with
  | nil => simp [Dict.get?, Ne.symm h]
  | cons e m ih =>
    simp only [List.cons_append, Dict.get?]
    split
    · rfl
    · exact ih

theorem validate_other {t : Option Tag} {m : List (String × Y)} {k : String} {v : Y} {es : Val.Exps} (h : keysOther k.toList es = true)
    (d : List (Val.Item × Int)) :
    Val.validateAll ((Y.map t (m ++ [(k, v)])).node E) d es = Val.validateAll ((Y.map t m).node E) d es := by
  induction es using Val.Exps.rec (motive_1 := fun _ => True) generalizing d with
  | shape => trivial
  | inline => trivial
  | dict => trivial
  | other => trivial
  | nil => simp [Val.validateAll]
  | cons key e es _ ih =>
    simp only [keysOther, Bool.and_eq_true] at h
    simp only [Val.validateAll]
    cases hp : Val.parseKey key with
    | error x => rfl
    | ok r =>
      obtain ⟨n, o⟩ := r
      simp only [hp, decide_eq_true_eq] at h ⊢
      have hg : ((Y.map t (m ++ [(k, v)])).node E).get n = ((Y.map t m).node E).get n := by
        obtain ⟨s, rfl⟩ : ∃ s : String, s.toList = n := ⟨String.ofList n, String.toList_ofList⟩
        rw [node_get, node_get, get_append]
        rintro rfl; exact h.1 rfl
      rw [hg]
      split
      · rfl
      · rfl
      · split
        · rfl
        · rfl
        · split
          · rfl
          · exact ih h.2 _

mutual
theorem neutral_check : ∀ (s : S) (t : Option Tag) (m : List (String × Y)) (k : String) (v : Y), neutral k s = true →
    check E rf s (.map t (m ++ [(k, v)])) = check E rf s (.map t m)
  | .type ty, t, m, k, v, _ => by cases ty <;> rfl
  | .tag p, t, m, k, v, _ => by simp [check, tagTest, Y.tag]
  | .enum l, t, m, k, v, _ => by simp [check]
  | .pattern p, t, m, k, v, _ => by simp [check]
  | .maxItems n, t, m, k, v, _ => by simp [check]
  | .items s, t, m, k, v, _ => by simp [check]
  | .required l, t, m, k, v, h => by
    simp only [neutral, decide_eq_true_eq] at h
    simp only [check, requiredR]
    congr 1
    rw [Bool.eq_iff_iff, List.all_eq_true, List.all_eq_true]
    refine forall₂_congr fun n hn => ?_
    rw [get_append (by rintro rfl; exact h hn)]
  | .prop n s, t, m, k, v, h => by
    simp only [neutral, decide_eq_true_eq] at h
    simp only [check, Y.get, get_append h]
  | .all l, t, m, k, v, h => by
    simp only [neutral] at h
    simp only [check, neutral_checkList l t m k v h]
  | .anyOf l, t, m, k, v, h => by
    simp only [neutral] at h
    simp only [check, neutral_checkList l t m k v h]
  | .oneOf l, t, m, k, v, h => by
    simp only [neutral] at h
    simp only [check, neutral_checkList l t m k v h]
  | .shape e, t, m, k, v, h => by
    cases e with
    | dict es =>
      simp only [neutral] at h
      simp only [check, shapeR, Val.wxShape, Val.validate, validate_other h]
    | shape l => simp [neutral] at h
    | inline l => simp [neutral] at h
    | other => simp [neutral] at h
  | .closed l, t, m, k, v, h => by simp [neutral] at h
  | .ref n, t, m, k, v, h => by simp [neutral] at h
  | .propTag l, t, m, k, v, h => by simp [neutral] at h
  | .unit u, t, m, k, v, h => by simp [neutral] at h
theorem neutral_checkList : ∀ (l : List S) (t : Option Tag) (m : List (String × Y)) (k : String) (v : Y), neutralAll k l = true →
    checkList E rf l (.map t (m ++ [(k, v)])) = checkList E rf l (.map t m)
  | [], _, _, _, _, _ => rfl
  | s :: l, t, m, k, v, h => by
    simp only [neutralAll, Bool.and_eq_true] at h
    simp only [checkList, neutral_check s t m k v h.1, neutral_checkList l t m k v h.2]
end

theorem entries_append {fs : List (String × Option Y)} {k : String} {v : Y} : entries (fs ++ [(k, some v)]) = entries fs ++ [(k, v)] := by
  simp [entries]

theorem neutral_acc {t : Tag} {s : S} (hs : schemaOf t = some s) {k : String} (hk : neutral k s = true) {fs : List (String × Option Y)} {v : Y} :
    Acc E (obj t (fs ++ [(k, some v)])) ↔ Acc E (obj t fs) ∧ Acc E v := by
  rw [acc_obj_valid hs, acc_obj_valid hs]
  have h : Valid E defs s (obj t (fs ++ [(k, some v)])) ↔ Valid E defs s (obj t fs) := by
    unfold Valid
    simp only [obj, entries_append, neutral_check s _ _ _ _ hk]
  rw [h]
  simp only [List.mem_append, List.mem_singleton, and_assoc]
  refine and_congr_right fun _ => ?_
  constructor
  · intro h
    exact ⟨fun e he => h e (.inl he), h _ (.inr rfl) v rfl⟩
  · rintro ⟨h1, h2⟩ e (he | rfl) y hy
    · exact h1 e he y hy
    · obtain rfl := Option.some.inj hy; exact h2

theorem table_neutral : ∀ e ∈ table, e.1.1 ≠ "core/transformations/rotation" →
    neutral "wx_metadata" e.2 = true ∧ neutral "wx_user" e.2 = true := by
  decide +kernel

/-- **C91.** The keyword `type`: an object is a map or a numpy array (which asdf writes as a map), an array is a list, integers
are integers only, numbers are integers and floats; booleans are no numbers. -/
theorem C91_types (y : Y) : (Ty.test .object y = true ↔ (∃ t m, y = .map t m) ∨ ∃ d s, y = .arr d s) ∧
    (Ty.test .array y = true ↔ ∃ t l, y = .list t l) ∧ (Ty.test .string y = true ↔ ∃ t s, y = .str t s) ∧
    (Ty.test .integer y = true ↔ ∃ i, y = .int i) ∧ (Ty.test .number y = true ↔ (∃ i, y = .int i) ∨ y = .float) ∧
    (Ty.test .boolean y = true ↔ ∃ b, y = .bool b) := by
  cases y <;> simp [Ty.test]

example : Ty.test .integer .float = false ∧ Ty.test .object (.arr "float64" [3]) = true := ⟨rfl, rfl⟩

/-- **C91.** The shape validator sees each node, also as an entry of another one, with the shape that `_get_instance_shape`
finds; numbers have the shape `[1]`, strings, lists and `null` have none. -/
theorem C91_node_shape (y : Y) : (y.node E).shape = y.shape E ∧ (y.leaf E).shape = y.shape E ∧
    (((∃ b, y = .bool b) ∨ (∃ i, y = .int i) ∨ y = .float) → (y.node E).shape = some [1]) ∧
    ((y = .null ∨ (∃ t s, y = .str t s) ∨ ∃ t l, y = .list t l) → (y.node E).shape = none) := by
  cases y <;> simp [Y.node, Y.leaf, Y.shape, Y.baseShape, Val.Node.shape]

example : ((Y.int 7).node E).shape = some [1] := (C91_node_shape _).2.2.1 (.inr (.inl ⟨_, rfl⟩))

/-- **C91.** The unit that the unit validator sees: plain numbers and arrays are dimensionless, strings, lists and `null` have no
unit and are rejected, an object has the unit in its entry `units` (for data arrays without that entry the unit of their data). -/
theorem C91_node_units (y : Y) :
    (((∃ b, y = .bool b) ∨ (∃ i, y = .int i) ∨ y = .float ∨ ∃ d s, y = .arr d s) → y.units E = .some E.dless) ∧
    ((y = .null ∨ (∃ t s, y = .str t s) ∨ ∃ t l, y = .list t l) → y.units E = .none ∧ ∀ u, unitR E u y = .bad) ∧
    (∀ t m u d, y = .map t m → Dict.get? m "units" = some u → E.parse u.text = some d → y.units E = .some d) ∧
    (∀ j m v, y = .map (some (.wx "core/data_array" j)) m → Dict.get? m "units" = none → Dict.get? m "data" = some v →
      y.units E = v.baseUnits E) := by
  refine ⟨?_, ?_, ?_, ?_⟩
  · rintro (⟨b, rfl⟩ | ⟨i, rfl⟩ | rfl | ⟨d, s, rfl⟩) <;> rfl
  · rintro (rfl | ⟨t, s, rfl⟩ | ⟨t, l, rfl⟩) <;> exact ⟨rfl, fun _ => rfl⟩
  · rintro t m u d rfl hu hd
    have e : (Y.map t m).baseUnits E = .some d := by simp [Y.baseUnits, hu, hd]
    cases t with
    | none => exact e
    | some t => cases t <;> simp [Y.units, hu, e]
  · rintro j m v rfl hu hv
    simp [Y.units, hu, hv]

example : (Y.arr "float64" [3]).units E = .some E.dless := (C91_node_units _).1 (.inr (.inr (.inr ⟨_, _, rfl⟩)))

/-- **C91.** The metadata of an object (`wx_metadata`, `wx_user`) do not matter, except for rotations. -/
theorem C91_metadata {t : Tag} {s : S} (hs : schemaOf t = some s) (ht : t ≠ wx "core/transformations/rotation") {k : String}
    (hk : k = "wx_metadata" ∨ k = "wx_user") {fs : List (String × Option Y)} {v : Y} :
    Acc E (obj t (fs ++ [(k, some v)])) ↔ Acc E (obj t fs) ∧ Acc E v := by
  refine neutral_acc hs ?_
  cases t with
  | wx n j =>
    simp only [schemaOf] at hs
    have hm := Dict.mem_of_get? hs
    have hn : n ≠ "core/transformations/rotation" := by
      rintro rfl
      have : ∀ e ∈ table, e.1.1 = "core/transformations/rotation" → e.1.2 = 0 := by decide +kernel
      have := this _ hm rfl
      simp only at this
      subst this
      exact ht rfl
    have := table_neutral _ hm hn
    rcases hk with rfl | rfl
    · exact this.1
    · exact this.2
  | ndarray => simp [schemaOf] at hs
  | other u => simp [schemaOf] at hs

/-- Metadata of a rotation lead to a rejection. -/
theorem C91_rotation_metadata {r : Rot} {k : String} {y : Y} (hk : k = "wx_metadata" ∨ k = "wx_user") :
    ¬ Acc E (obj (wx "core/transformations/rotation") (r.fields ++ [(k, some y)])) := by
  refine Rot.extra ?_
  rcases hk with rfl | rfl <;> simp

example : Acc E (obj (wx "core/dimension") ([("name", some (txt "x")), ("length", some (.int 3))] ++ [("wx_user", some (txt "a"))])) ↔
    Acc E (obj (wx "core/dimension") [("name", some (txt "x")), ("length", some (.int 3))]) ∧ Acc E (txt "a") :=
  C91_metadata (s := coreDimension) rfl (by simp [wx]) (.inr rfl)

/-! ### Patterns -/

/-- the text of a tag -/
def Tag.text : Tag → List Char
  | .wx n k => Weldx.Tag.formatTag n.toList ("0.1.".toList ++ [digitChar k])
  | .ndarray => "tag:stsci.edu:asdf/core/ndarray-1.0.0".toList
  | .other u => u.toList

/-- the text of a pattern in the files -/
def Pat.text : Pat → List Char
  | .any n => Weldx.Tag.formatTag n.toList Weldx.Tag.anyVersion
  | .exact n k => Weldx.Tag.formatTag n.toList ("0.1.".toList ++ [digitChar k])
  | .groove => "asdf://weldx.bam.de/weldx/tags/groove/**-0.1.*".toList
  | .ndarray => "tag:stsci.edu:asdf/core/ndarray-1.*".toList

/-- names without special characters -/
def PlainName (n : String) : Prop := '-' ∉ n.toList ∧ '*' ∉ n.toList ∧ '\n' ∉ n.toList

/-- tags of the project or arrays, the last number of the version has one digit -/
def Tag.Plain : Tag → Prop
  | .wx n k => PlainName n ∧ k < 10
  | .ndarray => True
  | .other _ => False

/-- patterns with plain names -/
def Pat.Plain : Pat → Prop
  | .any n => PlainName n
  | .exact n k => PlainName n ∧ k < 10
  | _ => True

theorem digit_inj {a b : Nat} (ha : a < 10) (hb : b < 10) (h : digitChar a = digitChar b) : a = b := by
  have : ∀ a b : Fin 10, digitChar a = digitChar b → a = b := by decide
  exact congrArg Fin.val (this ⟨a, ha⟩ ⟨b, hb⟩ h)

theorem digit_ne {a : Nat} (ha : a < 10) : digitChar a ≠ '-' ∧ digitChar a ≠ '*' ∧ digitChar a ≠ '/' := by
  have : ∀ a : Fin 10, digitChar a ≠ '-' ∧ digitChar a ≠ '*' ∧ digitChar a ≠ '/' := by decide
  exact this ⟨a, ha⟩

theorem formatTag_inj {n m v w : List Char} (hn : '-' ∉ n) (hm : '-' ∉ m) (h : Weldx.Tag.formatTag n v = Weldx.Tag.formatTag m w) :
    n = m ∧ v = w := by
  unfold Weldx.Tag.formatTag at h
  rw [List.append_assoc, List.append_assoc, List.append_cancel_left_eq] at h
  exact Weldx.Tag.dash_inj hn hm h

theorem base_ne {l u : List Char} : ("tag:stsci.edu:asdf/core/ndarray-1." : String).toList ++ u ≠ Weldx.Tag.tagBase ++ l := by
  intro h
  have h1 : ("tag:stsci.edu:asdf/core/ndarray-1." : String).toList = 't' :: "ag:stsci.edu:asdf/core/ndarray-1.".toList := by decide +kernel
  have h2 : Weldx.Tag.tagBase = 'a' :: "sdf://weldx.bam.de/weldx/tags/".toList := by decide +kernel
  rw [h1, h2] at h
  simp at h

theorem ndarray_text : Tag.ndarray.text = ("tag:stsci.edu:asdf/core/ndarray-1." : String).toList ++ "0.0".toList := by decide +kernel

/-- the texts that the pattern of the grooves describes -/
theorem groove_match {u : List Char} : Weldx.Tag.asdfMatch Pat.groove.text u = true ↔
    ∃ a v, '\n' ∉ a ∧ '/' ∉ v ∧ u = Weldx.Tag.formatTag ("groove/".toList ++ a) ("0.1.".toList ++ v) := by
  have he : Pat.groove.text = (Weldx.Tag.tagBase ++ "groove/".toList) ++ ('*' :: '*' :: ("-0.1.".toList ++ ['*'])) := by decide +kernel
  have hd : ('-' :: "0.1.".toList : List Char) = "-0.1.".toList := by decide +kernel
  rw [Weldx.Tag.C90_pattern, he, Weldx.Tag.parse_append (by decide +kernel)]
  have hp : Weldx.Tag.parse ('*' :: '*' :: ("-0.1.".toList ++ ['*'])) = .any :: ("-0.1.".toList.map .chr ++ [.one]) := by decide +kernel
  rw [hp, Weldx.Tag.describes_text]
  simp only [Weldx.Tag.describes_cons (x := .any), Weldx.Tag.Fits, Weldx.Tag.describes_text, Weldx.Tag.describes_one]
  constructor
  · rintro ⟨w, rfl, a, b, ha, rfl, v, rfl, hv⟩
    refine ⟨a, v, ha, hv, ?_⟩
    rw [Weldx.Tag.formatTag, ← hd]
    simp
  · rintro ⟨a, v, ha, hv, rfl⟩
    refine ⟨_, ?_, a, _, ha, rfl, v, rfl, hv⟩
    rw [Weldx.Tag.formatTag, ← hd]
    simp

/-- the texts that a pattern with a name describes -/
theorem any_match {n u : List Char} (hn : '*' ∉ n) : Weldx.Tag.asdfMatch (Weldx.Tag.formatTag n Weldx.Tag.anyVersion) u = true ↔
    ∃ v, '/' ∉ v ∧ u = Weldx.Tag.formatTag n ("0.1.".toList ++ v) := by
  rw [Weldx.Tag.C90_named hn]
  exact Iff.rfl

/-- the texts that the pattern of arrays describes -/
theorem ndarray_match {u : List Char} (h : Weldx.Tag.asdfMatch Pat.ndarray.text u = true) :
    ∃ v, u = ("tag:stsci.edu:asdf/core/ndarray-1." : String).toList ++ v := by
  have he : Pat.ndarray.text = ("tag:stsci.edu:asdf/core/ndarray-1." : String).toList ++ ['*'] := by
    decide +kernel
  rw [he] at h
  generalize hq : ("tag:stsci.edu:asdf/core/ndarray-1." : String).toList = q at h
  have hs : '*' ∉ q := by rw [← hq]; decide +kernel
  obtain ⟨v, -, h⟩ := (Weldx.Tag.match_prefix hs).1 h
  exact ⟨v, h⟩

/-- the texts that a pattern without wildcards describes -/
theorem exact_match {n u : List Char} {k : Nat} (hn : '*' ∉ n) (hk : k < 10) :
    Weldx.Tag.asdfMatch (Weldx.Tag.formatTag n ("0.1.".toList ++ [digitChar k])) u = true ↔
      u = Weldx.Tag.formatTag n ("0.1.".toList ++ [digitChar k]) := by
  have h2 := (digit_ne hk).2.1
  have h3 : '*' ∉ Weldx.Tag.tagBase := by decide +kernel
  have h4 : '*' ∉ "0.1.".toList := by decide +kernel
  have h5 : '*' ∉ Weldx.Tag.formatTag n ("0.1.".toList ++ [digitChar k]) := by
    unfold Weldx.Tag.formatTag
    intro h
    rcases List.mem_append.1 h with h | h
    · rcases List.mem_append.1 h with h | h
      · exact h3 h
      · exact hn h
    · rcases List.mem_cons.1 h with h | h
      · exact absurd h (by decide)
      · rcases List.mem_append.1 h with h | h
        · exact h4 h
        · exact h2 (List.mem_singleton.1 h).symm
  unfold Weldx.Tag.asdfMatch
  rw [if_neg (by simpa using h5), beq_iff_eq]
  exact eq_comm

set_option maxHeartbeats 2000000 in
/-- **C91.** The test of the patterns is the comparison of the texts. -/
theorem C91_patterns {p : Pat} {t : Tag} (hp : p.Plain) (ht : t.Plain) : p.test t = Weldx.Tag.asdfMatch p.text t.text := by
  rw [Bool.eq_iff_iff]
  cases t with
  | other u => exact absurd ht (by simp [Tag.Plain])
  | ndarray =>
    cases p with
    | any n =>
      have hn : PlainName n := hp
      refine ⟨fun h => absurd h (by simp [Pat.test]), fun h => ?_⟩
      exfalso
      obtain ⟨s, -, h⟩ := (any_match hn.2.1).1 h
      rw [ndarray_text, Weldx.Tag.formatTag, List.append_assoc] at h
      exact base_ne h
    | exact n k =>
      have hn : PlainName n := hp.1
      refine ⟨fun h => absurd h (by simp [Pat.test]), fun h => ?_⟩
      exfalso
      have h := (exact_match hn.2.1 hp.2).1 h
      rw [ndarray_text, Weldx.Tag.formatTag, List.append_assoc] at h
      exact base_ne h
    | groove =>
      simp only [Pat.test, Bool.false_eq_true, false_iff]
      rw [groove_match]
      rintro ⟨a, v, -, -, h⟩
      rw [ndarray_text, Weldx.Tag.formatTag, List.append_assoc] at h
      exact base_ne h
    | ndarray => decide +kernel
  | wx m j =>
    obtain ⟨⟨hm1, hm2, hm3⟩, hj⟩ := ht
    cases p with
    | any n =>
      have hn : PlainName n := hp
      have ht : Pat.test (.any n) (.wx m j) = true ↔ n = m := by simp [Pat.test]
      rw [ht]
      refine Iff.trans ?_ (any_match hn.2.1).symm
      constructor
      · rintro rfl
        exact ⟨[digitChar j], by simpa using (digit_ne hj).2.2.symm, rfl⟩
      · rintro ⟨s, -, h⟩
        exact (String.toList_inj.1 (formatTag_inj hm1 hn.1 h).1).symm
    | exact n k =>
      have hn : PlainName n := hp.1
      have ht : Pat.test (.exact n k) (.wx m j) = true ↔ n = m ∧ k = j := by simp [Pat.test]
      rw [ht]
      refine Iff.trans ?_ (exact_match hn.2.1 hp.2).symm
      constructor
      · rintro ⟨rfl, rfl⟩; rfl
      · intro h
        obtain ⟨h1, h2⟩ := formatTag_inj hm1 hn.1 h
        have h2 := List.append_cancel_left h2
        exact ⟨(String.toList_inj.1 h1).symm, digit_inj hp.2 hj (List.cons.inj h2).1.symm⟩
    | groove =>
      simp only [Pat.test, decide_eq_true_eq]
      rw [groove_match]
      have hg : "groove/".toList = ['g', 'r', 'o', 'o', 'v', 'e', '/'] := by decide +kernel
      constructor
      · rintro ⟨a, ha⟩
        refine ⟨a, [digitChar j], ?_, by simpa using (digit_ne hj).2.2.symm, ?_⟩
        · intro h; apply hm3; rw [← ha]; simp [h]
        · rw [hg]
          exact congrArg (fun x => Weldx.Tag.formatTag x ("0.1.".toList ++ [digitChar j])) ha.symm
      · rintro ⟨a, v, -, hv, h⟩
        have h : Weldx.Tag.formatTag m.toList ("0.1.".toList ++ [digitChar j]) = _ := h
        by_cases ha : '-' ∈ a
        · exfalso
          obtain ⟨x, y, rfl, hx⟩ := List.eq_append_cons_of_mem ha
          have h' : Weldx.Tag.formatTag m.toList ("0.1.".toList ++ [digitChar j]) =
              Weldx.Tag.formatTag ("groove/".toList ++ x) (y ++ '-' :: ("0.1.".toList ++ v)) := by
            rw [h]; simp [Weldx.Tag.formatTag]
          have h2 := (formatTag_inj hm1 (by rw [hg]; simp [hx]) h').2
          have h3 : '-' ∈ "0.1.".toList ++ [digitChar j] := by rw [h2]; simp
          have h4 : '-' ∉ "0.1.".toList := by decide +kernel
          simp only [List.mem_append, h4, List.mem_singleton, false_or] at h3
          exact (digit_ne hj).1 h3.symm
        · have := (formatTag_inj hm1 (by rw [hg]; simp [ha]) h).1
          rw [this, ← hg]
          exact ⟨a, rfl⟩
    | ndarray =>
      refine ⟨fun h => absurd h (by simp [Pat.test]), fun h => ?_⟩
      exfalso
      obtain ⟨v, h⟩ := ndarray_match h
      have h : Weldx.Tag.formatTag m.toList ("0.1.".toList ++ [digitChar j]) = _ := h
      rw [Weldx.Tag.formatTag, List.append_assoc] at h
      exact base_ne h.symm

example : (Pat.any "core/variable").test (.wx "core/variable" 1) = true ∧ PlainName "core/variable" :=
  ⟨rfl, by unfold PlainName; decide +kernel⟩

/-! ### The manifest -/

/-- the entries of the manifest apart from the ones for tests -/
def userTags : List (String × Char) := Weldx.Tag.manifest.filter fun e => !("debug/".toList).isPrefixOf e.1.toList

/-- **C91.** There is exactly one schema for each tag of the manifest. -/
theorem C91_manifest : (table.map fun e => (e.1.1, digitChar e.1.2)).Perm userTags := by
  decide +kernel

/-- All names and versions in the table are plain. -/
theorem C91_plain : ∀ e ∈ table, Tag.Plain (.wx e.1.1 e.1.2) := by
  unfold Tag.Plain PlainName
  decide +kernel

end Weldx.Schema
