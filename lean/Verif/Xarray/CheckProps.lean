import Verif.Xarray.Check

/-!
# Properties of the comparison of coordinates with a reference (C95)
-/

namespace Weldx.RefCheck

variable {V U D : Type} [DecidableEq V] [DecidableEq U] [DecidableEq D]

/-! ## Specification -/

/-- a text names a type of times -/
def NamesTime (t : String) : Prop := "timedelta64".toList <:+: t.toList ∨ "datetime64".toList <:+: t.toList

/-- a data type has a described one: it is the same, or both are strings and the description has no length, or both are times of the same
kind and the description is a text with the long name of a type of times -/
def HasType (d : Dtype) (r : Desc) : Prop :=
  d = r.dtype ∨ (∃ n, d = .str n ∧ r.dtype = .str 0) ∨ ∃ t, r.text = some t ∧ NamesTime t ∧ d.kind = r.dtype.kind

/-- two lists have the same values after broadcasting -/
def SameValues (a b : List V) : Prop :=
  a = b ∨ (∃ x, a = [x] ∧ ∀ y ∈ b, y = x) ∨ ∃ y, b = [y] ∧ ∀ x ∈ a, x = y

/-- the values of a coordinate are the ones of the reference, if there are any -/
def GoodValues (c : Coord V) (e : Entry V) : Prop := ∀ v, e.values = some v → SameValues c.values v

/-- the data type of a coordinate is one of the reference, if there are any -/
def GoodType (c : Coord V) (e : Entry V) : Prop := ∀ l, e.dtype = some l → ∃ d ∈ l, HasType c.dtype d

/-- the unit of a coordinate is the one of the reference, if there is one -/
def GoodUnits (P : Pint U D) (c : Coord V) (e : Entry V) : Prop :=
  ∀ u, e.units = some u → ∃ w, c.units = some w ∧ w ≠ "" ∧ P.unit w = P.unit u

/-- the unit of a coordinate has the dimension of the reference, if there is one -/
def GoodDimension (P : Pint U D) (c : Coord V) (e : Entry V) : Prop :=
  ∀ u, e.dimensionality = some u → ∃ w, c.units = some w ∧ P.dim (P.unit w) = P.dim (P.unit u)

/-- a coordinate meets an entry of the reference -/
structure Meets (P : Pint U D) (c : Coord V) (e : Entry V) : Prop where
  values : GoodValues c e
  type : GoodType c e
  units : GoodUnits P c e
  dimensionality : GoodDimension P c e

/-- the first reason why the coordinates do not meet an entry -/
inductive Fails (P : Pint U D) (coords : List (String × Coord V)) (k : String) (e : Entry V) : Err → Prop
  | missing (h : k ∉ Dict.keys coords) (ho : e.optional = false) : Fails P coords k e .key
  | values {c} (h : Dict.get? coords k = some c) (hv : ¬GoodValues c e) : Fails P coords k e .value
  | type {c} (h : Dict.get? coords k = some c) (hv : GoodValues c e) (ht : ¬GoodType c e) : Fails P coords k e .type
  | units {c} (h : Dict.get? coords k = some c) (hv : GoodValues c e) (ht : GoodType c e) (hu : ¬GoodUnits P c e) : Fails P coords k e .value
  | dimensionality {c} (h : Dict.get? coords k = some c) (hv : GoodValues c e) (ht : GoodType c e) (hu : GoodUnits P c e)
      (hd : ¬GoodDimension P c e) : Fails P coords k e .dimensionality

/-- the coordinates meet an entry: the coordinate is there and meets it, or it is missing and optional -/
def Fits (P : Pint U D) (coords : List (String × Coord V)) (k : String) (e : Entry V) : Prop :=
  (∃ c, Dict.get? coords k = some c ∧ Meets P c e) ∨ (k ∉ Dict.keys coords ∧ e.optional = true)

/-! ## Lemmas -/

theorem allEq_iff (a b : List V) : allEq a b = true ↔ SameValues a b := by
  unfold allEq SameValues
  split
  · rename_i h
    rw [decide_eq_true_iff]
    constructor
    · exact Or.inl
    · rintro (h' | ⟨x, rfl, h'⟩ | ⟨y, rfl, h'⟩)
      · exact h'
      · rcases b with _ | ⟨y, _ | _⟩ <;> simp at h h' ⊢
        exact h'.symm
      · rcases a with _ | ⟨x, _ | _⟩ <;> simp at h h' ⊢
        exact h'
  · rename_i h
    rcases a with _ | ⟨x, _ | ⟨x', a⟩⟩ <;> rcases b with _ | ⟨y, _ | ⟨y', b⟩⟩ <;> simp at h ⊢
    all_goals grind

theorem timeText_iff (r : Desc) : r.timeText = true ↔ ∃ t, r.text = some t ∧ NamesTime t := by
  obtain ⟨t, d⟩ := r
  cases t with
  | none => simp [Desc.timeText]
  | some t =>
    have : (contains "timedelta64" t || contains "datetime64" t) = true ↔ NamesTime t := by
      rw [Bool.or_eq_true, contains, contains, decide_eq_true_iff, decide_eq_true_iff]
      rfl
    simp only [Desc.timeText, this, Option.some.injEq, exists_eq_left']

theorem checkDtype_iff (d : Dtype) (r : Desc) : checkDtype d r = true ↔ HasType d r := by
  have hs : (d.kind = r.dtype.kind ∧ r.dtype = .str 0) ↔ (∃ n, d = .str n ∧ r.dtype = .str 0) := by
    constructor
    · rintro ⟨h, h'⟩
      rw [h'] at h ⊢
      cases d <;> simp [Dtype.kind] at h ⊢
    · rintro ⟨n, rfl, h'⟩
      simp [Dtype.kind, h']
  have ht : (∃ t, r.text = some t ∧ NamesTime t ∧ d.kind = r.dtype.kind) ↔ r.timeText = true ∧ d.kind = r.dtype.kind := by
    rw [timeText_iff]
    constructor
    · rintro ⟨t, h1, h2, h3⟩; exact ⟨⟨t, h1, h2⟩, h3⟩
    · rintro ⟨⟨t, h1, h2⟩, h3⟩; exact ⟨t, h1, h2, h3⟩
  unfold HasType checkDtype
  rw [← hs, ht, issubdtype]
  by_cases h : d = r.dtype
  · simp [h]
  · by_cases h1 : d.kind = r.dtype.kind <;> by_cases h2 : r.dtype = .str 0 <;> cases r.timeText <;> simp [h, h1, h2] <;> simp_all

omit [DecidableEq U] [DecidableEq D] in
theorem badValues_iff (c : Coord V) (e : Entry V) : badValues c e = false ↔ GoodValues c e := by
  unfold badValues GoodValues
  cases e.values <;> simp [allEq_iff]

omit [DecidableEq V] in
theorem badDtype_iff (c : Coord V) (e : Entry V) : badDtype c e = false ↔ GoodType c e := by
  unfold badDtype GoodType
  cases e.dtype <;> simp [checkDtype_iff]

omit [DecidableEq V] [DecidableEq D] in
theorem badUnits_iff (P : Pint U D) (c : Coord V) (e : Entry V) : badUnits P c e = false ↔ GoodUnits P c e := by
  unfold badUnits GoodUnits
  cases e.units <;> cases c.units <;> simp

omit [DecidableEq V] [DecidableEq U] in
theorem badDimension_iff (P : Pint U D) (c : Coord V) (e : Entry V) : badDimension P c e = false ↔ GoodDimension P c e := by
  unfold badDimension GoodDimension
  cases e.dimensionality <;> cases c.units <;> simp

theorem checkEntry_ok {P : Pint U D} {coords : List (String × Coord V)} {k : String} {e : Entry V} :
    checkEntry P coords k e = .ok () ↔ Fits P coords k e := by
  unfold checkEntry Fits
  by_cases hk : k ∈ Dict.keys coords
  · obtain ⟨c, hc⟩ := Dict.get?_isSome.2 hk
    simp only [hk, hc, not_true_eq_false, and_false, if_false, false_and, or_false, Option.some.injEq, exists_eq_left']
    constructor
    · intro h
      refine ⟨(badValues_iff c e).1 ?_, (badDtype_iff c e).1 ?_, (badUnits_iff P c e).1 ?_, (badDimension_iff P c e).1 ?_⟩ <;>
        cases h1 : badValues c e <;> cases h2 : badDtype c e <;> cases h3 : badUnits P c e <;> cases h4 : badDimension P c e <;>
        simp [h1, h2, h3, h4] at h ⊢
    · rintro ⟨h1, h2, h3, h4⟩
      simp [(badValues_iff c e).2 h1, (badDtype_iff c e).2 h2, (badUnits_iff P c e).2 h3, (badDimension_iff P c e).2 h4]
  · have hc := Dict.get?_eq_none.2 hk
    simp only [hk, hc, not_false_eq_true, and_true, true_and, reduceCtorEq, false_and, exists_false, false_or]
    cases e.optional <;> simp

theorem checkEntry_error {P : Pint U D} {coords : List (String × Coord V)} {k : String} {e : Entry V} {x : Err} :
    checkEntry P coords k e = .error x ↔ Fails P coords k e x := by
  unfold checkEntry
  by_cases hk : k ∈ Dict.keys coords
  · obtain ⟨c, hc⟩ := Dict.get?_isSome.2 hk
    simp only [hk, hc, not_true_eq_false, and_false, if_false]
    have b1 := badValues_iff c e
    have b2 := badDtype_iff c e
    have b3 := badUnits_iff P c e
    have b4 := badDimension_iff P c e
    constructor
    · intro h
      cases h1 : badValues c e with
      | true => simp [h1] at h; subst h; exact .values hc (fun g => by simp [b1.2 g] at h1)
      | false =>
        cases h2 : badDtype c e with
        | true => simp [h1, h2] at h; subst h; exact .type hc (b1.1 h1) (fun g => by simp [b2.2 g] at h2)
        | false =>
          cases h3 : badUnits P c e with
          | true => simp [h1, h2, h3] at h; subst h; exact .units hc (b1.1 h1) (b2.1 h2) (fun g => by simp [b3.2 g] at h3)
          | false =>
            cases h4 : badDimension P c e with
            | true =>
              simp [h1, h2, h3, h4] at h; subst h
              exact .dimensionality hc (b1.1 h1) (b2.1 h2) (b3.1 h3) (fun g => by simp [b4.2 g] at h4)
            | false => simp [h1, h2, h3, h4] at h
    · intro h
      cases h with
      | missing h' => exact absurd hk h'
      | values h' hv =>
        obtain rfl := Option.some.inj (hc.symm.trans h')
        rw [← b1, Bool.not_eq_false] at hv
        simp [hv]
      | type h' hv ht =>
        obtain rfl := Option.some.inj (hc.symm.trans h')
        rw [← b2, Bool.not_eq_false] at ht
        simp [b1.2 hv, ht]
      | units h' hv ht hu =>
        obtain rfl := Option.some.inj (hc.symm.trans h')
        rw [← b3, Bool.not_eq_false] at hu
        simp [b1.2 hv, b2.2 ht, hu]
      | dimensionality h' hv ht hu hd =>
        obtain rfl := Option.some.inj (hc.symm.trans h')
        rw [← b4, Bool.not_eq_false] at hd
        simp [b1.2 hv, b2.2 ht, b3.2 hu, hd]
  · have hc := Dict.get?_eq_none.2 hk
    cases ho : e.optional with
    | true =>
      simp only [hk, not_false_eq_true, and_self, if_true, reduceCtorEq, false_iff]
      intro h
      cases h with
      | missing _ h' => rw [ho] at h'; cases h'
      | _ h' => rw [hc] at h'; cases h'
    | false =>
      simp only [hc, Bool.false_eq_true, false_and, if_false, Except.error.injEq]
      constructor
      · rintro rfl; exact .missing hk ho
      · intro h
        cases h with
        | missing => rfl
        | _ h' => rw [hc] at h'; cases h'

/-! ## The check -/

/-- **C95, accepted coordinates.** The check succeeds exactly if the coordinates meet all entries of the reference. -/
theorem C95_accepted (P : Pint U D) (coords : List (String × Coord V)) (ref : List (String × Entry V)) :
    checkCoords P coords ref = .ok () ↔ ∀ r ∈ ref, Fits P coords r.1 r.2 := by
  induction ref with
  | nil => simp [checkCoords]
  | cons r t ih =>
    obtain ⟨k, e⟩ := r
    rw [List.forall_mem_cons, ← ih, ← checkEntry_ok, checkCoords]
    cases h : checkEntry P coords k e <;> simp

/-- **C95, exceptions.** The exception is that of the first entry that is not met, and there that of the first check that fails. -/
theorem C95_exception (P : Pint U D) (coords : List (String × Coord V)) (ref : List (String × Entry V)) (x : Err) :
    checkCoords P coords ref = .error x ↔
      ∃ pre k e post, ref = pre ++ (k, e) :: post ∧ (∀ r ∈ pre, Fits P coords r.1 r.2) ∧ Fails P coords k e x := by
  induction ref with
  | nil => simp [checkCoords]
  | cons r t ih =>
    obtain ⟨k, e⟩ := r
    simp only [checkCoords]
    cases h : checkEntry P coords k e with
    | error y =>
      simp only [Except.error.injEq]
      constructor
      · rintro rfl
        exact ⟨[], k, e, t, rfl, by simp, checkEntry_error.1 h⟩
      · rintro ⟨pre, k', e', post, h1, h2, h3⟩
        cases pre with
        | nil =>
          simp only [List.nil_append, List.cons.injEq, Prod.mk.injEq] at h1
          obtain ⟨⟨rfl, rfl⟩, rfl⟩ := h1
          have := checkEntry_error.2 h3
          rw [h] at this
          exact Except.error.inj this
        | cons a pre =>
          simp only [List.cons_append, List.cons.injEq] at h1
          obtain ⟨rfl, rfl⟩ := h1
          have := checkEntry_ok.2 (h2 (k, e) (by simp))
          rw [h] at this
          cases this
    | ok u =>
      simp only [ih]
      have hf : Fits P coords k e := checkEntry_ok.1 h
      constructor
      · rintro ⟨pre, k', e', post, rfl, h2, h3⟩
        refine ⟨(k, e) :: pre, k', e', post, rfl, ?_, h3⟩
        exact List.forall_mem_cons.2 ⟨hf, h2⟩
      · rintro ⟨pre, k', e', post, h1, h2, h3⟩
        cases pre with
        | nil =>
          simp only [List.nil_append, List.cons.injEq, Prod.mk.injEq] at h1
          obtain ⟨⟨rfl, rfl⟩, rfl⟩ := h1
          have := checkEntry_error.2 h3
          rw [h] at this
          cases this
        | cons a pre =>
          simp only [List.cons_append, List.cons.injEq] at h1
          obtain ⟨rfl, rfl⟩ := h1
          exact ⟨pre, k', e', post, rfl, fun r hr => h2 r (by simp [hr]), h3⟩

/-- **C95, order.** Whether the check succeeds does not depend on the order of the entries. -/
theorem C95_order (P : Pint U D) (coords : List (String × Coord V)) {ref ref' : List (String × Entry V)} (h : ref.Perm ref') :
    checkCoords P coords ref = .ok () ↔ checkCoords P coords ref' = .ok () := by
  rw [C95_accepted, C95_accepted]
  exact ⟨fun g r hr => g r (h.mem_iff.2 hr), fun g r hr => g r (h.mem_iff.1 hr)⟩

/-! ## Values -/

/-- **C95, values.** If the reference has two different values, the coordinate needs exactly the values of the reference. -/
theorem C95_values_partial {v : List V} (hv : ∃ x ∈ v, ∃ y ∈ v, x ≠ y) (a : List V) : allEq a v = true ↔ a = v := by
  rw [allEq_iff]
  obtain ⟨x, hx, y, hy, hxy⟩ := hv
  constructor
  · rintro (h | ⟨z, -, h⟩ | ⟨z, rfl, -⟩)
    · exact h
    · exact absurd ((h x hx).trans (h y hy).symm) hxy
    · simp at hx hy
      exact absurd (hx.trans hy.symm) hxy
  · exact Or.inl

/-- **C95, refutation.** A reference with a single value is met by coordinates of any length that repeat the value, also by an empty one;
an empty reference is met by each coordinate with one value. -/
theorem C95_values_counterexample (x : V) (n : ℕ) : allEq (List.replicate n x) [x] = true ∧ allEq [x] [] = true ∧
    (n ≠ 1 → List.replicate n x ≠ [x]) := by
  refine ⟨?_, ?_, ?_⟩
  · rw [allEq_iff]
    exact Or.inr (Or.inr ⟨x, rfl, fun y hy => (List.mem_replicate.1 hy).2⟩)
  · rw [allEq_iff]
    exact Or.inr (Or.inl ⟨x, rfl, by simp⟩)
  · intro h h'
    have := congrArg List.length h'
    simp at this
    exact h this

/-! ## Data types -/

/-- **C95, data types.** Apart from strings without length and texts with names of times, only the described data type is accepted. -/
theorem C95_type_partial (d : Dtype) {r : Desc} (h : r.dtype ≠ .str 0) (ht : ∀ t, r.text = some t → ¬NamesTime t) :
    checkDtype d r = true ↔ d = r.dtype := by
  rw [checkDtype_iff]
  constructor
  · rintro (h' | ⟨n, -, h'⟩ | ⟨t, h1, h2, -⟩)
    · exact h'
    · exact absurd h' h
    · exact absurd h2 (ht t h1)
  · exact Or.inl

/-- **C95, times.** A text that names a type of times accepts exactly the times of its kind, with any unit or none. -/
theorem C95_time_text (d : Dtype) {t : String} (ht : NamesTime t) (u : Option String) :
    (checkDtype d ⟨some t, .timedelta u⟩ = true ↔ ∃ w, d = .timedelta w) ∧
      (checkDtype d ⟨some t, .datetime u⟩ = true ↔ ∃ w, d = .datetime w) := by
  simp only [checkDtype_iff, HasType]
  constructor
  · constructor
    · rintro (rfl | ⟨n, -, h⟩ | ⟨s, -, -, h⟩)
      · exact ⟨u, rfl⟩
      · cases h
      · cases d <;> simp [Dtype.kind] at h ⊢
    · rintro ⟨w, rfl⟩
      exact Or.inr (Or.inr ⟨t, rfl, ht, rfl⟩)
  · constructor
    · rintro (rfl | ⟨n, -, h⟩ | ⟨s, -, -, h⟩)
      · exact ⟨u, rfl⟩
      · cases h
      · cases d <;> simp [Dtype.kind] at h ⊢
    · rintro ⟨w, rfl⟩
      exact Or.inr (Or.inr ⟨t, rfl, ht, rfl⟩)

/-- **C95, kinds.** The lengths of strings and bytes and the units of times do not matter; all other types have to be equal, also the
sizes of numbers. -/
theorem C95_kinds (a b : Dtype) : issubdtype a b = true ↔ a = b ∨ (∃ m n, a = .str m ∧ b = .str n) ∨
    (∃ m n, a = .bytes m ∧ b = .bytes n) ∨ (∃ u v, a = .datetime u ∧ b = .datetime v) ∨ ∃ u v, a = .timedelta u ∧ b = .timedelta v := by
  unfold issubdtype
  rw [decide_eq_true_eq]
  cases a <;> cases b <;> simp [Dtype.kind]

/-- a number with 64 bits is no number with 32 bits, and a date with a unit is a date -/
example : issubdtype (.int 64) (.int 32) = false ∧ issubdtype (.datetime (some "ns")) (.datetime none) = true := by
  refine ⟨?_, (C95_kinds _ _).2 (.inr (.inr (.inr (.inl ⟨_, _, rfl, rfl⟩))))⟩
  rw [Bool.eq_false_iff, Ne, C95_kinds]
  simp

/-- **C95, strings.** The type `str` accepts strings of each length. -/
theorem C95_str (d : Dtype) (text : Option String) : checkDtype d ⟨text, .str 0⟩ = true ↔ ∃ n, d = .str n := by
  rw [checkDtype_iff, HasType]
  constructor
  · rintro (rfl | ⟨n, h, -⟩ | ⟨t, -, -, h⟩)
    · exact ⟨0, rfl⟩
    · exact ⟨n, h⟩
    · cases d <;> simp [Dtype.kind] at h ⊢
  · rintro ⟨n, rfl⟩
    exact Or.inr (Or.inl ⟨n, rfl, rfl⟩)

theorem namesTime_timedelta : NamesTime "timedelta64" ∧ NamesTime "timedelta64[ns]" ∧ ¬NamesTime "m8[ns]" := by
  unfold NamesTime
  decide +kernel

/-- **C95, refutation.** The unit of a described time is ignored if the description is a text with the long name, but not for a type or
another name of the same data type. A type without unit does not accept times with units, its name does. -/
theorem C95_type_counterexample :
    checkDtype (.timedelta (some "s")) ⟨some "timedelta64[ns]", .timedelta (some "ns")⟩ = true ∧
    checkDtype (.timedelta (some "s")) ⟨some "m8[ns]", .timedelta (some "ns")⟩ = false ∧
    checkDtype (.timedelta (some "ns")) ⟨some "timedelta64", .timedelta none⟩ = true ∧
    checkDtype (.timedelta (some "ns")) ⟨none, .timedelta none⟩ = false := by
  obtain ⟨h1, h2, h3⟩ := namesTime_timedelta
  refine ⟨((C95_time_text _ h2 _).1).2 ⟨_, rfl⟩, ?_, ((C95_time_text _ h1 _).1).2 ⟨_, rfl⟩, ?_⟩
  · rw [← Bool.not_eq_true, C95_type_partial _ (by simp) (by rintro t ⟨⟩; exact h3)]
    simp
  · rw [← Bool.not_eq_true, C95_type_partial _ (by simp) (by simp)]
    simp

/-! ## Units -/

/-- **C95, units and dimensions.** A coordinate that has the unit of the reference also has its dimension. -/
theorem C95_units {P : Pint U D} {coords : List (String × Coord V)} {k u : String}
    (h : checkCoords P coords [(k, { units := some u })] = .ok ()) : checkCoords P coords [(k, { dimensionality := some u })] = .ok () := by
  rw [C95_accepted] at h ⊢
  simp only [List.mem_singleton, forall_eq] at h ⊢
  rcases h with ⟨c, hc, h⟩ | ⟨-, h⟩
  · refine Or.inl ⟨c, hc, by simp [GoodValues], by simp [GoodType], by simp [GoodUnits], ?_⟩
    rintro _ ⟨⟩
    obtain ⟨w, hw, -, he⟩ := h.units u rfl
    exact ⟨w, hw, by rw [he]⟩
  · simp at h

/-- **C95, refutation.** A coordinate whose unit is the empty text, which is how dimensionless units are written, does not meet a reference
with the same unit. It meets the reference with the same dimension. -/
theorem C95_units_counterexample (P : Pint U D) (k : String) (c : Coord V) (hc : c.units = some "") :
    checkCoords P [(k, c)] [(k, { units := some "" })] = .error .value ∧
    checkCoords P [(k, c)] [(k, { dimensionality := some "" })] = .ok () := by
  constructor
  · rw [C95_exception]
    refine ⟨[], k, _, [], rfl, by simp, .units (c := c) (by simp [Dict.get?]) (by simp [GoodValues]) (by simp [GoodType]) ?_⟩
    intro h
    obtain ⟨w, hw, hn, -⟩ := h "" rfl
    rw [hc] at hw
    exact hn (Option.some.inj hw).symm
  · rw [C95_accepted]
    simp only [List.mem_singleton, forall_eq]
    refine Or.inl ⟨c, by simp [Dict.get?], by simp [GoodValues], by simp [GoodType], by simp [GoodUnits], ?_⟩
    rintro _ ⟨⟩
    exact ⟨"", hc, rfl⟩

/-! ## Coordinate systems -/

theorem fits_values (P : Pint U D) (coords : List (String × Coord V)) (k : String) {v : List V} (hv : ∃ x ∈ v, ∃ y ∈ v, x ≠ y) :
    Fits P coords k { values := some v } ↔ ∃ c, Dict.get? coords k = some c ∧ c.values = v := by
  constructor
  · rintro (⟨c, hc, h⟩ | ⟨-, h⟩)
    · exact ⟨c, hc, (C95_values_partial hv _).1 ((allEq_iff _ _).2 (h.values v rfl))⟩
    · simp at h
  · rintro ⟨c, hc, rfl⟩
    refine Or.inl ⟨c, hc, ?_, by simp [GoodType], by simp [GoodUnits], by simp [GoodDimension]⟩
    rintro _ ⟨⟩
    exact Or.inl rfl

omit [DecidableEq V] [DecidableEq U] [DecidableEq D] in
theorem good_time {c : Coord V} {o : Bool} {t : String} {u : Option String} (ht : NamesTime t) :
    GoodType c { dtype := some [⟨some t, .timedelta u⟩], optional := o } ↔ ∃ w, c.dtype = .timedelta w := by
  rw [← (C95_time_text _ ht u).1, checkDtype_iff]
  simp [GoodType]

theorem fits_time (P : Pint U D) (coords : List (String × Coord V)) :
    Fits P coords "time" { dtype := some [⟨some "timedelta64", .timedelta none⟩], optional := true } ↔
      ∀ c, Dict.get? coords "time" = some c → ∃ w, c.dtype = .timedelta w := by
  constructor
  · rintro (⟨c, hc, h⟩ | ⟨h, -⟩) c' hc'
    · obtain rfl := Option.some.inj (hc.symm.trans hc')
      exact (good_time namesTime_timedelta.1).1 h.type
    · rw [Dict.get?_eq_none.2 h] at hc'; cases hc'
  · intro h
    cases hc : Dict.get? coords "time" with
    | none => exact Or.inr ⟨Dict.get?_eq_none.1 hc, rfl⟩
    | some c =>
      exact Or.inl ⟨c, hc, by simp [GoodValues], (good_time namesTime_timedelta.1).2 (h c hc), by simp [GoodUnits], by simp [GoodDimension]⟩

theorem labels_differ : (∃ x ∈ [Label.text "x", .text "y", .text "z"], ∃ y ∈ [Label.text "x", .text "y", .text "z"], x ≠ y) ∧
    ∃ x ∈ [Label.num 0, .num 1, .num 2], ∃ y ∈ [Label.num 0, .num 1, .num 2], x ≠ y :=
  ⟨⟨.text "x", by simp, .text "y", by simp, by simp⟩, ⟨.num 0, by simp, .num 1, by simp, by simp⟩⟩

/-- **C95, coordinate systems.** The coordinates of orientations are accepted exactly if `c` has the values x, y, z, `v` the values 0, 1, 2,
and `time`, if there is one, contains time deltas. -/
theorem C95_orientation (P : Pint U D) (coords : List (String × Coord Label)) :
    checkCoords P coords orientationRef = .ok () ↔
      (∃ c, Dict.get? coords "c" = some c ∧ c.values = [.text "x", .text "y", .text "z"]) ∧
      (∃ c, Dict.get? coords "v" = some c ∧ c.values = [.num 0, .num 1, .num 2]) ∧
      ∀ c, Dict.get? coords "time" = some c → ∃ w, c.dtype = .timedelta w := by
  rw [C95_accepted, orientationRef, List.forall_mem_cons, List.forall_mem_cons, List.forall_mem_singleton, fits_values _ _ _ labels_differ.1,
    fits_values _ _ _ labels_differ.2, fits_time]

/-- **C95, coordinates of systems.** Likewise for the origin, which has no dimension `v`. -/
theorem C95_coordinates (P : Pint U D) (coords : List (String × Coord Label)) :
    checkCoords P coords coordinatesRef = .ok () ↔
      (∃ c, Dict.get? coords "c" = some c ∧ c.values = [.text "x", .text "y", .text "z"]) ∧
      ∀ c, Dict.get? coords "time" = some c → ∃ w, c.dtype = .timedelta w := by
  rw [C95_accepted, coordinatesRef, List.forall_mem_cons, List.forall_mem_singleton, fits_values _ _ _ labels_differ.1, fits_time]

/-- **C95, exceptions of coordinate systems.** Missing coordinates raise a `KeyError`, other labels a `ValueError`, other times a
`TypeError`; the axes come first. -/
theorem C95_orientation_exception (P : Pint U D) (coords : List (String × Coord Label)) :
    ("c" ∉ Dict.keys coords → checkCoords P coords orientationRef = .error .key) ∧
    (∀ c, Dict.get? coords "c" = some c → c.values ≠ [.text "x", .text "y", .text "z"] →
      checkCoords P coords orientationRef = .error .value) ∧
    (∀ c v t, Dict.get? coords "c" = some c → c.values = [.text "x", .text "y", .text "z"] →
      Dict.get? coords "v" = some v → v.values = [.num 0, .num 1, .num 2] →
      Dict.get? coords "time" = some t → (∀ w, t.dtype ≠ .timedelta w) → checkCoords P coords orientationRef = .error .type) := by
  refine ⟨fun h => ?_, fun c hc h => ?_, fun c v t hc h1 hv h2 ht h3 => ?_⟩
  · exact (C95_exception _ _ _ _).2 ⟨[], _, _, _, rfl, by simp, .missing h rfl⟩
  · refine (C95_exception _ _ _ _).2 ⟨[], _, _, _, rfl, by simp, .values hc fun hg => h ?_⟩
    exact (C95_values_partial labels_differ.1 _).1 ((allEq_iff _ _).2 (hg _ rfl))
  · refine (C95_exception _ _ _ _).2 ⟨orientationRef.take 2, _, _, [], rfl, ?_, .type ht (by simp [GoodValues]) fun hg => ?_⟩
    · rw [orientationRef, List.take_succ_cons, List.take_succ_cons, List.take_zero, List.forall_mem_cons, List.forall_mem_singleton,
        fits_values _ _ _ labels_differ.1, fits_values _ _ _ labels_differ.2]
      exact ⟨⟨c, hc, h1⟩, v, hv, h2⟩
    · obtain ⟨w, hw⟩ := (good_time namesTime_timedelta.1).1 hg
      exact h3 w hw

/-! ## Time series -/

theorem series_cases (P : Pint U D) (coords : List (String × Coord V)) :
    ("time" ∉ Dict.keys coords ∧ checkCoords P coords seriesRef = .error .key) ∨
    (∃ c, Dict.get? coords "time" = some c ∧ (∃ w, c.dtype = .timedelta w) ∧ checkCoords P coords seriesRef = .ok ()) ∨
    ∃ c, Dict.get? coords "time" = some c ∧ (∀ w, c.dtype ≠ .timedelta w) ∧ checkCoords P coords seriesRef = .error .type := by
  cases hc : Dict.get? coords "time" with
  | none =>
    have hk := Dict.get?_eq_none.1 hc
    exact Or.inl ⟨hk, (C95_exception _ _ _ _).2 ⟨[], _, _, [], rfl, by simp, .missing hk rfl⟩⟩
  | some c =>
    by_cases h : ∃ w, c.dtype = .timedelta w
    · refine Or.inr (Or.inl ⟨c, rfl, h, (C95_accepted _ _ _).2 ?_⟩)
      rw [seriesRef, List.forall_mem_singleton]
      exact Or.inl ⟨c, hc, by simp [GoodValues], (good_time namesTime_timedelta.2.1).2 h, by simp [GoodUnits], by simp [GoodDimension]⟩
    · refine Or.inr (Or.inr ⟨c, rfl, by simpa using h, (C95_exception _ _ _ _).2 ⟨[], _, _, [], rfl, by simp, ?_⟩⟩)
      exact .type hc (by simp [GoodValues]) fun hg => h ((good_time namesTime_timedelta.2.1).1 hg)

/-- **C95, data of series.** An array is accepted as data of a series exactly if it is a quantity and has a dimension and a coordinate
`time` with time deltas. The result has the dimension `time` first and the other dimensions in their order. -/
theorem C95_series (P : Pint U D) (a b : Data V) : seriesFromArray P a = .ok b ↔
    (∃ c, Dict.get? a.coords "time" = some c ∧ ∃ w, c.dtype = .timedelta w) ∧ a.quantity = true ∧ "time" ∈ a.dims ∧
      b = { a with dims := "time" :: a.dims.filter (· ≠ "time") } := by
  unfold seriesFromArray checkDataArray
  rcases series_cases P a.coords with ⟨h1, h2⟩ | ⟨c, h1, h3, h2⟩ | ⟨c, h1, h3, h2⟩
  · have := Dict.get?_eq_none.2 h1
    simp [h2, this]
  · obtain ⟨w, hw⟩ := h3
    cases hq : a.quantity <;> by_cases hd : "time" ∈ a.dims <;> simp [h2, h1, hw, hd, eq_comm]
  · simp only [h2, h1, Option.some.injEq, exists_eq_left', reduceCtorEq, false_iff, not_and]
    rintro ⟨w, hw⟩
    exact absurd hw (h3 w)

/-- **C95, exceptions of series.** A missing coordinate raises a `KeyError`, a coordinate without time deltas and plain numbers raise a
`TypeError`, a coordinate without dimension raises a `ValueError`. -/
theorem C95_series_exception (P : Pint U D) (a : Data V) :
    (seriesFromArray P a = .error .key ↔ "time" ∉ Dict.keys a.coords) ∧
    (seriesFromArray P a = .error .type ↔ ∃ c, Dict.get? a.coords "time" = some c ∧ ((∀ w, c.dtype ≠ .timedelta w) ∨ a.quantity = false)) ∧
    (seriesFromArray P a = .error .value ↔
      (∃ c, Dict.get? a.coords "time" = some c ∧ ∃ w, c.dtype = .timedelta w) ∧ a.quantity = true ∧ "time" ∉ a.dims) ∧
    seriesFromArray P a ≠ .error .dimensionality := by
  unfold seriesFromArray checkDataArray
  rcases series_cases P a.coords with ⟨h1, h2⟩ | ⟨c, h1, ⟨w, hw⟩, h2⟩ | ⟨c, h1, h3, h2⟩
  · have := Dict.get?_eq_none.2 h1
    simp [h2, this, h1]
  · have := Dict.get?_isSome.1 ⟨c, h1⟩
    cases hq : a.quantity <;> by_cases hd : "time" ∈ a.dims <;> simp [h2, h1, hw, hd, this]
  · have := Dict.get?_isSome.1 ⟨c, h1⟩
    simp only [h2, h1, this, Option.some.injEq, exists_eq_left', reduceCtorEq, Except.error.injEq, not_true_eq_false, false_iff, true_iff,
      ne_eq, not_false_eq_true, and_true, not_and]
    refine ⟨trivial, Or.inl h3, ?_⟩
    rintro ⟨w, hw⟩
    exact absurd hw (h3 w)

/-! ## Examples -/

/-- the coordinates of a system that depends on time -/
def exampleCoords : List (String × Coord Label) :=
  [("c", ⟨["c"], [.text "x", .text "y", .text "z"], .str 1, none⟩), ("v", ⟨["v"], [.num 0, .num 1, .num 2], .int 64, none⟩),
    ("time", ⟨["time"], [.num 0, .num 1000000000], .timedelta (some "ns"), none⟩)]

/-- **C95, refutation.** The message of the check says that `time` needs to be a dimension with values of type `timedelta64[ns]`. A
coordinate without dimension and with another unit passes the check. Creating the series then fails without this message. -/
theorem C95_series_counterexample (P : Pint U D) : ∃ a : Data Label, checkDataArray P a = .ok () ∧ "time" ∉ a.dims ∧
    (∃ c, Dict.get? a.coords "time" = some c ∧ c.dims = [] ∧ c.dtype ≠ .timedelta (some "ns")) ∧ seriesFromArray P a = .error .value := by
  let a : Data Label := ⟨["x"], [("time", ⟨[], [.num 1], .timedelta (some "s"), none⟩)], true⟩
  have hv := ((C95_series_exception P a).2.2.1).2 ⟨⟨_, rfl, _, rfl⟩, rfl, by decide⟩
  refine ⟨a, ?_, by decide, ⟨_, rfl, rfl, by decide⟩, hv⟩
  unfold checkDataArray
  rcases series_cases P a.coords with ⟨h1, -⟩ | ⟨c, -, -, h2⟩ | ⟨c, h1, h3, -⟩
  · exact absurd (by decide) h1
  · rw [h2]; rfl
  · cases h1
    exact absurd rfl (h3 (some "s"))

example (P : Pint U D) : checkCoords P exampleCoords orientationRef = .ok () :=
  (C95_orientation _ _).2 ⟨⟨_, rfl, rfl⟩, ⟨_, rfl, rfl⟩, by rintro _ ⟨⟩; exact ⟨_, rfl⟩⟩

example (P : Pint U D) : checkCoords P (exampleCoords.take 1) orientationRef = .error .key :=
  (C95_exception _ _ _ _).2 ⟨orientationRef.take 1, "v", _, _, rfl,
    by rw [orientationRef, List.take_succ_cons, List.take_zero, List.forall_mem_singleton, fits_values _ _ _ labels_differ.1]; exact ⟨_, rfl, rfl⟩,
    .missing (by decide) rfl⟩

example (P : Pint U D) : ∃ b, seriesFromArray P ⟨["c", "time"], exampleCoords, true⟩ = .ok b ∧ b.dims = ["time", "c"] :=
  ⟨_, (C95_series _ _ _).2 ⟨⟨_, rfl, _, rfl⟩, rfl, by decide, rfl⟩, by decide⟩

end Weldx.RefCheck
