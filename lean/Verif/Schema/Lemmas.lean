import Verif.Schema.Files
import Verif.Validators.Props

/-!
# Lemmas about the validation of trees (C91)
-/

namespace Weldx.Schema
variable {D : Type} [DecidableEq D]

@[simp] theorem ofBool_ok {b : Bool} : R.ofBool b = .ok ↔ b = true := by cases b <;> simp [R.ofBool]
@[simp] theorem ofBool_bad {b : Bool} : R.ofBool b = .bad ↔ b = false := by cases b <;> simp [R.ofBool]
@[simp] theorem ofBool_crash {b : Bool} : R.ofBool b ≠ .crash := by cases b <;> simp [R.ofBool]

theorem allR_ok {l : List R} : allR l = .ok ↔ ∀ r ∈ l, r = .ok := by
  induction l with
  | nil => simp [allR]
  | cons a t ih =>
    cases a
    · simp [allR, ih]
    · simp only [allR, List.mem_cons, forall_eq_or_imp]
      split <;> simp
    · simp [allR]

theorem allR_crash {l : List R} : allR l = .crash ↔ .crash ∈ l := by
  induction l with
  | nil => simp [allR]
  | cons a t ih =>
    cases a
    · simp [allR, ih]
    · simp only [allR, List.mem_cons]
      split
      · rename_i h; simp [ih.1 h]
      · rename_i h; simpa using fun h' => h (ih.2 h')
    · simp [allR]

theorem allR_bad {l : List R} (hc : R.crash ∉ l) (hb : R.bad ∈ l) : allR l = .bad := by
  cases h : allR l
  · exact absurd (allR_ok.1 h _ hb) (by simp)
  · rfl
  · exact absurd (allR_crash.1 h) hc

/-- the node satisfies the schema -/
abbrev Ok (E : Env D) (rf : String → Y → R) (s : S) (y : Y) : Prop := check E rf s y = .ok

variable {E : Env D} {rf : String → Y → R}

theorem mem_checkList {l : List S} {y : Y} {r : R} : r ∈ checkList E rf l y ↔ ∃ s ∈ l, check E rf s y = r := by
  induction l with
  | nil => simp [checkList]
  | cons a t ih => simp [checkList, ih, eq_comm]

@[simp] theorem ok_type {t : Ty} {y : Y} : check E rf (.type t) y = .ok ↔ t.test y = true := by simp [check]
@[simp] theorem ok_tag {p : Pat} {y : Y} : check E rf (.tag p) y = .ok ↔ tagTest [p] y = true := by simp [check]
@[simp] theorem ok_required {l : List String} {t : Option Tag} {m : List (String × Y)} :
    check E rf (.required l) (.map t m) = .ok ↔ ∀ k ∈ l, (Dict.get? m k).isSome = true := by simp [check, requiredR]
@[simp] theorem ok_all_nil {y : Y} : check E rf (.all []) y = .ok := by simp [check, checkList, allR]
@[simp] theorem ok_all_cons {s : S} {l : List S} {y : Y} :
    check E rf (.all (s :: l)) y = .ok ↔ check E rf s y = .ok ∧ check E rf (.all l) y = .ok := by
  simp [check, checkList, allR_ok]
theorem ok_all {l : List S} {y : Y} : check E rf (.all l) y = .ok ↔ ∀ s ∈ l, check E rf s y = .ok := by
  simp [check, allR_ok, mem_checkList]
@[simp] theorem ok_enum {l : List String} {t : Option Tag} {s : String} : check E rf (.enum l) (.str t s) = .ok ↔ s ∈ l := by
  simp [check]
@[simp] theorem ok_pattern {p : List Char → Bool} {t : Option Tag} {s : String} :
    check E rf (.pattern p) (.str t s) = .ok ↔ p s.toList = true := by simp [check]
@[simp] theorem ok_items {s : S} {t : Option Tag} {l : List Y} :
    check E rf (.items s) (.list t l) = .ok ↔ ∀ y ∈ l, check E rf s y = .ok := by simp [check, allR_ok]
@[simp] theorem ok_maxItems {n : Nat} {t : Option Tag} {l : List Y} :
    check E rf (.maxItems n) (.list t l) = .ok ↔ l.length ≤ n := by simp [check]
@[simp] theorem ok_ref {n : String} {y : Y} : check E rf (.ref n) y = .ok ↔ rf n y = .ok := by simp [check]
@[simp] theorem ok_unit {u : String} {y : Y} : check E rf (.unit u) y = .ok ↔ unitR E u y = .ok := by simp [check]
@[simp] theorem ok_shape {e : Val.Exp} {y : Y} : check E rf (.shape e) y = .ok ↔ shapeR E e y = .ok := by simp [check]
@[simp] theorem ok_propTag {l : List Pat} {t : Option Tag} {m : List (String × Y)} :
    check E rf (.propTag l) (.map t m) = .ok ↔ ∀ e ∈ m, tagTest l e.2 = true := by
  simp only [check, propTagR, ofBool_ok, List.all_eq_true]
@[simp] theorem ok_closed {l : List String} {t : Option Tag} {m : List (String × Y)} :
    check E rf (.closed l) (.map t m) = .ok ↔ ∀ e ∈ m, e.1 ∈ l := by
  simp only [check, closedR, ofBool_ok, List.all_eq_true, decide_eq_true_eq]
theorem ok_prop {k : String} {s : S} {y : Y} : check E rf (.prop k s) y = .ok ↔ ∀ v, y.get k = some v → check E rf s v = .ok := by
  simp only [check]
  cases h : y.get k <;> simp
@[simp] theorem ok_anyOf_nil {y : Y} : check E rf (.anyOf []) y ≠ .ok := by simp [check, checkList, anyR]
theorem ok_anyOf_cons {s : S} {l : List S} {y : Y} :
    check E rf (.anyOf (s :: l)) y = .ok ↔ check E rf s y = .ok ∨ check E rf s y = .bad ∧ check E rf (.anyOf l) y = .ok := by
  simp only [check, checkList]
  cases h : check E rf s y <;> simp [anyR]

/-- schemas whose keywords can not crash -/
inductive Safe : S → Prop
  | type (t) : Safe (.type t)
  | tag (p) : Safe (.tag p)
  | enum (l) : Safe (.enum l)
  | pattern (p) : Safe (.pattern p)
  | required (l) : Safe (.required l)
  | maxItems (n) : Safe (.maxItems n)
  | closed (l) : Safe (.closed l)
  | prop (k s) (h : Safe s) : Safe (.prop k s)
  | items (s) (h : Safe s) : Safe (.items s)
  | nil : Safe (.all [])
  | cons (s l) (h : Safe s) (hl : Safe (.all l)) : Safe (.all (s :: l))
  | anyNil : Safe (.anyOf [])
  | anyCons (s l) (h : Safe s) (hl : Safe (.anyOf l)) : Safe (.anyOf (s :: l))
  | oneNil : Safe (.oneOf [])
  | oneCons (s l) (h : Safe s) (hl : Safe (.oneOf l)) : Safe (.oneOf (s :: l))

theorem oneR_crash {l : List R} : oneR l = .crash ↔ .crash ∈ l := by
  unfold oneR
  split
  · simp_all
  · simp_all

theorem Safe.noCrash {s : S} (h : Safe s) : ∀ y, check E rf s y ≠ .crash := by
  induction h with
  | type t => intro y; simp [check]
  | tag p => intro y; simp [check]
  | enum l => intro y; cases y <;> simp [check]
  | pattern p => intro y; cases y <;> simp [check]
  | required l => intro y; cases y <;> simp [check, requiredR]
  | maxItems n => intro y; cases y <;> simp [check]
  | closed l => intro y; cases y <;> simp [check, closedR]
  | prop k s h ih =>
    intro y
    simp only [check]
    cases y.get k
    · simp
    · exact ih _
  | items s h ih =>
    intro y
    cases y <;> simp only [check, ne_eq, reduceCtorEq, not_false_eq_true]
    rw [allR_crash]
    intro hc
    obtain ⟨z, _, hz⟩ := List.mem_map.1 hc
    exact ih z hz
  | nil => intro y; simp [check, checkList, allR]
  | cons s l h hl ih ihl =>
    intro y
    have := ihl y
    simp only [check] at this ⊢
    rw [ne_eq, allR_crash] at this ⊢
    simp only [checkList, List.mem_cons, not_or]
    exact ⟨fun hc => ih y hc.symm, this⟩
  | anyNil => intro y; simp [check, checkList, anyR]
  | anyCons s l h hl ih ihl =>
    intro y
    have h1 := ih y
    have h2 := ihl y
    simp only [check, checkList] at h2 ⊢
    cases hc : check E rf s y
    · simp [anyR]
    · simpa [anyR] using h2
    · exact absurd hc h1
  | oneNil => intro y; simp [check, checkList, oneR]
  | oneCons s l h hl ih ihl =>
    intro y
    have := ihl y
    simp only [check] at this ⊢
    rw [ne_eq, oneR_crash] at this ⊢
    simp only [checkList, List.mem_cons, not_or]
    exact ⟨fun hc => ih y hc.symm, this⟩

theorem Safe.bad {s : S} (h : Safe s) {y : Y} (hn : check E rf s y ≠ .ok) : check E rf s y = .bad := by
  cases hc : check E rf s y
  · exact absurd hc hn
  · rfl
  · exact absurd hc (h.noCrash y)

/-- if one alternative holds and no other one -/
theorem ok_oneOf {l₁ l₂ : List S} {s : S} {y : Y} (h : check E rf s y = .ok)
    (h1 : ∀ t ∈ l₁, check E rf t y = .bad) (h2 : ∀ t ∈ l₂, check E rf t y = .bad) :
    check E rf (.oneOf (l₁ ++ s :: l₂)) y = .ok := by
  have hl : ∀ (l : List S) (l' : List S), checkList E rf (l ++ l') y = checkList E rf l y ++ checkList E rf l' y := by
    intro l l'
    induction l with
    | nil => rfl
    | cons a t ih => simp [checkList, ih]
  have hb : ∀ (l : List S), (∀ t ∈ l, check E rf t y = .bad) → checkList E rf l y = List.replicate l.length .bad := by
    intro l hl
    induction l with
    | nil => rfl
    | cons a t ih =>
      simp only [checkList, List.length_cons, List.replicate_succ]
      rw [hl a (by simp), ih fun t ht => hl t (by simp [ht])]
  simp only [check]
  rw [hl]
  simp only [checkList]
  rw [hb _ h1, hb _ h2, h]
  unfold oneR
  rw [if_neg (by simp [List.mem_replicate])]
  simp [List.count_replicate]

/-- a `oneOf` whose alternatives are all wrong -/
theorem bad_oneOf {l : List S} {y : Y} (h : ∀ t ∈ l, check E rf t y ≠ .ok) : check E rf (.oneOf l) y ≠ .ok := by
  simp only [check]
  unfold oneR
  split
  · simp
  · simp only [ne_eq, ofBool_ok, decide_eq_true_eq]
    have : List.count R.ok (checkList E rf l y) = 0 := by
      rw [List.count_eq_zero]
      intro hm
      obtain ⟨s, hs, hc⟩ := mem_checkList.1 hm
      exact h s hs hc
    omega

/-- a list of keywords of which one does not hold -/
theorem bad_all {l : List S} {y : Y} (hc : ∀ s ∈ l, check E rf s y ≠ .crash) (hb : ∃ s ∈ l, check E rf s y = .bad) :
    check E rf (.all l) y = .bad := by
  simp only [check]
  refine allR_bad (fun h => ?_) ?_
  · obtain ⟨s, hs, h⟩ := mem_checkList.1 h
    exact hc s hs h
  · obtain ⟨s, hs, h⟩ := hb
    exact mem_checkList.2 ⟨s, hs, h⟩

theorem not_ok_all {l : List S} {y : Y} {s : S} (hs : s ∈ l) (h : check E rf s y ≠ .ok) : check E rf (.all l) y ≠ .ok :=
  fun hc => h (ok_all.1 hc s hs)

/-! ### Dictionaries without `None` -/

/-- `remap(tree, lambda p, k, v: v is not None)` for the entries of a dictionary -/
def entries (fs : List (String × Option Y)) : List (String × Y) := fs.filterMap fun f => f.2.map fun y => (f.1, y)

/-- the node of an object -/
def obj (t : Tag) (fs : List (String × Option Y)) : Y := .map (some t) (entries fs)

/-- entries that may be missing -/
def field : List (String × Option Y) → String → Option Y
  | [], _ => none
  | (a, o) :: fs, k => if a = k then o else field fs k

theorem entries_get {fs : List (String × Option Y)} (h : (fs.map Prod.fst).Nodup) (k : String) :
    Dict.get? (entries fs) k = field fs k := by
  induction fs with
  | nil => rfl
  | cons f t ih =>
    obtain ⟨a, o⟩ := f
    simp only [List.map_cons, List.nodup_cons] at h
    have hn : ∀ (l : List (String × Option Y)), a ∉ l.map Prod.fst → Dict.get? (entries l) a = none := by
      intro l hl
      rw [Dict.get?_eq_none]
      intro hm
      obtain ⟨v, hv⟩ := Dict.mem_keys_iff.1 hm
      simp only [entries, List.mem_filterMap] at hv
      obtain ⟨⟨b, p⟩, hb, hp⟩ := hv
      cases p with
      | none => simp at hp
      | some y =>
        simp only [Option.map_some, Option.some.injEq, Prod.mk.injEq] at hp
        rw [← hp.1] at hl
        exact hl (List.mem_map.2 ⟨_, hb, rfl⟩)
    cases o with
    | none =>
      simp only [entries, List.filterMap_cons, Option.map_none, field]
      split
      · rename_i hk; subst hk; exact hn t h.1
      · exact ih h.2
    | some y =>
      simp only [entries, List.filterMap_cons, Option.map_some, field, Dict.get?]
      split
      · rfl
      · exact ih h.2

theorem mem_entries {fs : List (String × Option Y)} {e : String × Y} : e ∈ entries fs ↔ (e.1, some e.2) ∈ fs := by
  obtain ⟨a, y⟩ := e
  simp only [entries, List.mem_filterMap]
  constructor
  · rintro ⟨⟨b, o⟩, hb, ho⟩
    cases o with
    | none => simp at ho
    | some z => simp at ho; obtain ⟨rfl, rfl⟩ := ho; exact hb
  · intro h; exact ⟨_, h, rfl⟩

end Weldx.Schema
