import Verif.Time.Convert
import Verif.Time.Props
import Mathlib.Tactic.NormNum
import Mathlib.Tactic.FieldSimp

/-!
# Conversions of `Time`: properties (C80)
-/

namespace Weldx.Time

/-- the same kind, values and reference time -/
def Same (t u : Time) : Prop := t.abs = u.abs ∧ t.vals = u.vals ∧ ∀ r, t.HasRef r ↔ u.HasRef r

theorem round_back (n : Int) {u : ℚ} (hu : u ≠ 0) : round ((n : ℚ) / 10 ^ 9 / u * u * 10 ^ 9) = n := by
  have : (n : ℚ) / 10 ^ 9 / u * u * 10 ^ 9 = n := by field_simp
  rw [this, round_intCast]

theorem hasRef_unique {t : Time} {r s : Int} (h : t.HasRef r) (h' : t.HasRef s) : r = s := by
  have h1 := referenceTime_iff.2 h
  have h2 := referenceTime_iff.2 h'
  rw [h1] at h2
  cases h2; rfl

theorem asTimedelta_ref {t : Time} {r : Int} (h : t.HasRef r) : t.asTimedelta = .ok (t.vals.map (· - r)) := by
  have := referenceTime_iff.2 h
  simp only [asTimedelta, h.1, if_true, this, bind, Except.bind]

theorem asTimedelta_rel {t : Time} (h : t.abs = false) : t.asTimedelta = .ok t.vals := by simp [asTimedelta, h]

theorem map_back (l : List Int) (r : Int) : (l.map (· - r)).map (· + r) = l := by
  simp [List.map_map, Function.comp_def]

/-- **C80.** Quantities have the durations since the reference time in any unit, and know the reference time. -/
theorem C80_quantity {t : Time} (u : ℚ) :
    (t.abs = false → t.asQuantity u = .ok ⟨t.vals.map fun n : Int => (n : ℚ) / 10 ^ 9 / u, u, none⟩) ∧
    ∀ r, t.HasRef r → t.asQuantity u = .ok ⟨t.vals.map fun n : Int => ((n - r : Int) : ℚ) / 10 ^ 9 / u, u, some r⟩ := by
  constructor
  · intro h
    simp [asQuantity, asTimedelta_rel h, h, bind, Except.bind]
  · intro r h
    simp only [asQuantity, asTimedelta_ref h, referenceTime_iff.2 h, h.1, if_true, bind, Except.bind, List.map_map, Function.comp_def]

/-- **C80.** The way back from a quantity (of any unit) gives the same values. Relative times are restored; the reference time of
absolute times is replaced by the given one or forgotten. -/
theorem C80_quantity_back {t : Time} (hv : t.Valid) {u : ℚ} (hu : u ≠ 0) {q : TQ} (h : t.asQuantity u = .ok q) :
    ofQuantity q none = .ok ⟨t.abs, t.vals, none⟩ ∧
    ∀ r, ofQuantity q (some r) = .ok ⟨true, if t.abs then t.vals else t.vals.map (· + r), some r⟩ := by
  obtain ⟨ab, v, s⟩ := t
  cases ab with
  | false =>
    have := (C80_quantity (t := ⟨false, v, s⟩) u).1 rfl
    rw [this] at h
    cases h
    have e : ((v.map fun n : Int => (n : ℚ) / 10 ^ 9 / u).map fun x => round (x * u * 10 ^ 9)) = v := by
      rw [List.map_map]
      conv_rhs => rw [← List.map_id v]
      exact List.map_congr_left fun n _ => round_back n hu
    constructor
    · show make false _ none = _
      rw [e]
      exact make_rel.2 ⟨hv.sorted, rfl⟩
    · intro r
      show make false _ (some r) = _
      rw [e]
      exact make_rel.2 ⟨hv.sorted, rfl⟩
  | true =>
    have hr : ∃ r, (⟨true, v, s⟩ : Time).HasRef r := by
      cases s with
      | some r => exact ⟨r, rfl, .inl rfl⟩
      | none =>
        cases v with
        | nil => simp [asQuantity, asTimedelta, referenceTime, bind, Except.bind] at h
        | cons a l => exact ⟨a, rfl, .inr ⟨rfl, rfl⟩⟩
    obtain ⟨r, hr⟩ := hr
    rw [(C80_quantity u).2 r hr] at h
    cases h
    have e : ((v.map fun n : Int => ((n - r : Int) : ℚ) / 10 ^ 9 / u).map fun x => round (x * u * 10 ^ 9)).map (· + r) = v := by
      rw [List.map_map, List.map_map]
      conv_rhs => rw [← List.map_id v]
      apply List.map_congr_left
      intro n _
      simp only [Function.comp_def, id]
      rw [round_back _ hu]; ring
    constructor
    · show make true _ none = _
      rw [e]
      exact make_abs.2 ⟨hv.sorted, rfl⟩
    · intro r'
      show make true _ (some r') = _
      rw [e]
      exact make_abs.2 ⟨hv.sorted, rfl⟩

theorem same_forgotten {t : Time} (hv : t.Valid) : Same ⟨t.abs, t.vals, none⟩ t ↔ t.abs = false ∨ t.ref = none ∨ t.ref = t.vals.head? := by
  constructor
  · rintro ⟨-, -, h⟩
    cases ha : t.abs with
    | false => exact .inl rfl
    | true =>
      right
      cases hr : t.ref with
      | none => exact .inl rfl
      | some r =>
        right
        have := (h r).2 ⟨ha, .inl hr⟩
        rcases this.2 with h' | h'
        · cases h'
        · exact h'.2.symm
  · intro h
    refine ⟨rfl, rfl, fun r => ?_⟩
    obtain ⟨ab, v, s⟩ := t
    simp only [HasRef]
    rcases h with h | h | h
    · simp only at h; subst h; simp
    · simp only at h; subst h; simp
    · simp only at h; subst h
      cases v <;> simp

/-- **C80.** Exactly which times survive a conversion to a quantity or to an array with durations and back without an additional
reference time: relative times, and absolute times whose reference time is their first value. -/
theorem C80_back_iff_partial {t : Time} (hv : t.Valid) (hne : t.vals ≠ []) {u : ℚ} (hu : u ≠ 0) :
    ∃ q t', t.asQuantity u = .ok q ∧ ofQuantity q none = .ok t' ∧
      (Same t' t ↔ t.abs = false ∨ t.ref = none ∨ t.ref = t.vals.head?) := by
  have : ∃ q, t.asQuantity u = .ok q := by
    cases ha : t.abs with
    | false => exact ⟨_, (C80_quantity u).1 ha⟩
    | true =>
      obtain ⟨r, hr⟩ := HasRef.exists ha hne
      exact ⟨_, (C80_quantity u).2 r hr⟩
  obtain ⟨q, hq⟩ := this
  exact ⟨q, _, hq, (C80_quantity_back hv hu hq).1, same_forgotten hv⟩

/-- **C80, refutation.** The time `[2 s, 3 s]` after a reference time refers to its first value after the way to a quantity and back. -/
theorem C80_back_counterexample : ∃ t q t', t.Valid ∧ t.HasRef 0 ∧ t.asQuantity 1 = .ok q ∧ ofQuantity q none = .ok t' ∧
    t'.HasRef (2 * 10 ^ 9) ∧ ¬ Same t' t := by
  have hv : (⟨true, [2 * 10 ^ 9, 3 * 10 ^ 9], some 0⟩ : Time).Valid := ⟨by simp, fun h => by cases h⟩
  have hr : (⟨true, [2 * 10 ^ 9, 3 * 10 ^ 9], some 0⟩ : Time).HasRef 0 := ⟨rfl, .inl rfl⟩
  have hq := (C80_quantity (t := ⟨true, [2 * 10 ^ 9, 3 * 10 ^ 9], some 0⟩) 1).2 0 hr
  refine ⟨_, _, _, hv, hr, hq, (C80_quantity_back hv one_ne_zero hq).1, ⟨rfl, .inr ⟨rfl, rfl⟩⟩, ?_⟩
  rw [same_forgotten hv]
  simp

/-- **C80.** Arrays with durations know the reference time; the way back is as for quantities. -/
theorem C80_array {t : Time} (hv : t.Valid) :
    (t.abs = false → t.asDataArray true = .ok ⟨false, t.vals, none⟩) ∧
    (∀ r, t.HasRef r → t.asDataArray true = .ok ⟨false, t.vals.map (· - r), some r⟩) ∧
    ∀ a, t.asDataArray true = .ok a → ofDataArray a none = .ok ⟨t.abs, t.vals, none⟩ ∧
      ∀ r, ofDataArray a (some r) = .ok ⟨true, if t.abs then t.vals else t.vals.map (· + r), some r⟩ := by
  have h1 : t.abs = false → t.asDataArray true = .ok ⟨false, t.vals, none⟩ := fun h => by
    simp [asDataArray, asTimedelta_rel h, referenceTime_rel h, bind, Except.bind]
  have h2 : ∀ r, t.HasRef r → t.asDataArray true = .ok ⟨false, t.vals.map (· - r), some r⟩ := fun r h => by
    simp [asDataArray, asTimedelta_ref h, referenceTime_iff.2 h, bind, Except.bind]
  refine ⟨h1, h2, fun a ha => ?_⟩
  cases hab : t.abs with
  | false =>
    rw [h1 hab] at ha
    cases ha
    exact ⟨(make_rel (ref := none)).2 ⟨hv.sorted, rfl⟩, fun r => (make_rel (ref := some r)).2 ⟨hv.sorted, rfl⟩⟩
  | true =>
    have hr : ∃ r, t.HasRef r := by
      obtain ⟨ab, v, s⟩ := t
      cases hab
      cases s with
      | some r => exact ⟨r, rfl, .inl rfl⟩
      | none =>
        cases v with
        | nil => simp [asDataArray, asTimedelta, referenceTime, bind, Except.bind] at ha
        | cons a l => exact ⟨a, rfl, .inr ⟨rfl, rfl⟩⟩
    obtain ⟨r, hr⟩ := hr
    rw [h2 r hr] at ha
    cases ha
    simp only [ofDataArray, Bool.false_eq_true, if_false, map_back, if_true]
    exact ⟨make_abs.2 ⟨hv.sorted, rfl⟩, fun r => make_abs.2 ⟨hv.sorted, rfl⟩⟩

/-- **C80, refutation.** Arrays with time stamps (`as_data_array(timedelta_base=False)`) can not be turned into a `Time`: the attribute
with the reference time is added to the time stamps, which is a `TypeError`. This holds for every absolute time. -/
theorem C80_array_datetime {t : Time} (hv : t.Valid) :
    (∀ r, t.HasRef r → ∃ a, t.asDataArray false = .ok a ∧ a.vals = t.vals ∧ a.datetime = true ∧ a.ref = some r ∧
      ∀ s, ofDataArray a s = .error .typeError) ∧
    (t.abs = false → ∃ a, t.asDataArray false = .ok a ∧ ofDataArray a none = .ok t) := by
  constructor
  · intro r h
    refine ⟨⟨true, t.vals, some r⟩, ?_, rfl, rfl, rfl, fun s => rfl⟩
    simp [asDataArray, referenceTime_iff.2 h, h.1, bind, Except.bind]
  · intro h
    refine ⟨⟨false, t.vals, none⟩, ?_, ?_⟩
    · simp [asDataArray, referenceTime_rel h, h, bind, Except.bind]
    · refine (make_rel (ref := none)).2 ⟨hv.sorted, ?_⟩
      obtain ⟨ab, v, s⟩ := t
      have := hv.ref_abs h
      simp only at h this
      subst h; subst this; rfl

/-- **C80.** The pandas types: durations count from the reference time, only absolute times are time stamps, and only single ones are a
`Timestamp`. -/
theorem C80_pandas {t : Time} :
    (∀ d r, t.HasRef r → t.asTimedelta = .ok d → t.asDatetime = .ok (d.map (· + r))) ∧
    (t.abs = false → t.asTimedelta = .ok t.vals ∧ t.asDatetime = .error .typeError ∧ t.asTimestamp = .error .typeError) ∧
    (∀ x, t.asTimestamp = .ok x ↔ t.abs = true ∧ t.vals = [x]) ∧
    (∀ l, t.asDatetime = .ok l ↔ t.asIndex = (true, l)) := by
  refine ⟨fun d r h hd => ?_, fun h => ⟨asTimedelta_rel h, by simp [asDatetime, h], ?_⟩, fun x => ?_, fun l => ?_⟩
  · rw [asTimedelta_ref h] at hd
    cases hd
    rw [map_back]
    simp [asDatetime, h.1]
  · obtain ⟨ab, v, s⟩ := t
    simp only at h; subst h; rfl
  · obtain ⟨ab, v, s⟩ := t
    cases ab
    · simp [asTimestamp]
    · match v with
      | [] => simp [asTimestamp]
      | [y] => simp [asTimestamp]
      | y :: z :: l => simp [asTimestamp]
  · obtain ⟨ab, v, s⟩ := t
    cases ab <;> simp [asDatetime, asIndex]

/-! ## Access to values -/

/-- **C80.** A single value of a time: the value at this position, counted from the end for negative positions, with the same reference
time; positions outside are an `IndexError`. -/
theorem C80_item {t : Time} (hv : t.Valid) (hne : t.vals ≠ []) (i : Int) :
    (∀ (k : ℕ) x, t.vals[k]? = some x → (i = k ∨ i = k - t.vals.length) →
      ∃ u, t.getItem i = .ok u ∧ u.Valid ∧ u.abs = t.abs ∧ u.vals = [x] ∧ ∀ r, t.HasRef r → u.HasRef r) ∧
    ((i < - t.vals.length ∨ t.vals.length ≤ i) → t.getItem i = .error .indexError) := by
  constructor
  · intro k x hk hi
    have hlt : k < t.vals.length := (List.getElem?_eq_some_iff.1 hk).1
    have hkk : (if i < 0 then i + t.vals.length else i) = (k : Int) := by
      rcases hi with rfl | rfl
      · rw [if_neg (by omega)]
      · rw [if_pos (by omega)]; omega
    obtain ⟨ro, h1, u, h2, h3, h4, h5, h6⟩ := make_with_ref hv hne (l := [x]) (by simp)
    refine ⟨u, ?_, h4, h3, h5, h6⟩
    unfold getItem
    simp only [hkk]
    rw [if_pos ⟨by omega, by exact_mod_cast hlt⟩, h1]
    have : t.vals.getD (Int.toNat k) 0 = x := by simp [List.getD_eq_getElem?_getD, hk]
    simp only [this]
    exact h2
  · intro h
    unfold getItem
    have : ¬ (0 ≤ (if i < 0 then i + t.vals.length else i) ∧ (if i < 0 then i + (t.vals.length : Int) else i) < t.vals.length) := by
      split_ifs <;> omega
    simp only [this, if_false]

/-- **C80.** Several values of a time in ascending order of their positions: these values with the same reference time. -/
theorem C80_items {t : Time} (hv : t.Valid) (hne : t.vals ≠ []) {pos : List ℕ} (hp : pos.Pairwise (· ≤ ·)) :
    ∃ u, t.getItems pos = .ok u ∧ u.Valid ∧ u.abs = t.abs ∧ u.vals = pos.filterMap (t.vals[·]?) ∧ ∀ r, t.HasRef r → u.HasRef r := by
  have hl : (pos.filterMap (t.vals[·]?)).Pairwise (· ≤ ·) := by
    rw [List.pairwise_filterMap]
    refine hp.imp ?_
    intro a b hab x hx y hy
    obtain ⟨h1, rfl⟩ := List.getElem?_eq_some_iff.1 hx
    obtain ⟨h2, rfl⟩ := List.getElem?_eq_some_iff.1 hy
    rcases hab.lt_or_eq with h | rfl
    · exact List.pairwise_iff_getElem.1 hv.sorted a b h1 h2 h
    · exact le_refl _
  obtain ⟨ro, h1, u, h2, h3, h4, h5, h6⟩ := make_with_ref hv hne hl
  refine ⟨u, ?_, h4, h3, h5, h6⟩
  unfold getItems
  rw [h1]
  exact h2

/-- **C80.** Positions in the opposite order are rejected (`t[::-1]`) if the values differ. -/
theorem C80_items_reversed {t : Time} (hv : t.Valid) {a b : Int} {i j : ℕ} (hij : i < j) (ha : t.vals[i]? = some a) (hb : t.vals[j]? = some b)
    (hab : a < b) : t.getItems [j, i] = .error .valueError := by
  have hne : t.vals ≠ [] := by intro h; rw [h] at ha; cases ha
  have hl : ¬ ([b, a] : List Int).Pairwise (· ≤ ·) := by simp; omega
  have e : [j, i].filterMap (t.vals[·]?) = [b, a] := by simp [ha, hb]
  unfold getItems
  obtain ⟨ab, v, s⟩ := t
  have key : ∀ r, (ab = false → r = none) → make ab [b, a] r = .error .valueError := by
    intro r hr
    cases hm : make ab [b, a] r with
    | ok u =>
      cases ab
      · exact absurd (make_rel.1 hm).1 hl
      · exact absurd (make_abs.1 hm).1 hl
    | error e =>
      revert hm
      unfold make
      cases r <;> cases ab <;> simp only [Bool.false_eq_true, if_false, if_true] <;> split_ifs <;> intro h <;> cases h <;> rfl
  simp only [e]
  cases ab with
  | false => rw [referenceTime_rel rfl]; exact key none fun _ => rfl
  | true =>
    obtain ⟨r, hr⟩ := HasRef.exists (t := ⟨true, v, s⟩) rfl hne
    rw [referenceTime_iff.2 hr]; exact key (some r) fun h => by cases h

/-! ## Comparison with a tolerance -/

/-- **C80.** When two times compare as close: the same kind and reference time, compatible lengths, and differences within ten
nanoseconds plus the hundred thousandth part of the *second* duration. -/
theorem C80_close {t o : Time} (ho : o.Valid) {r s : Int} (ht : t.abs = o.abs) (h1 : t.abs = true → t.HasRef r) (h2 : o.abs = true → o.HasRef s)
    (h0 : t.abs = false → r = 0 ∧ s = 0) (hl : t.vals.length = o.vals.length) :
    ∃ b, t.allClose o = .ok b ∧ (b = true ↔ r = s ∧ ∀ (i : ℕ) x y, t.vals[i]? = some x → o.vals[i]? = some y →
      |(x - r) - (y - s)| * 10 ^ 5 ≤ 10 ^ 6 + |y - s|) := by
  have key : ∀ (a b : List Int), a.length = b.length → ∃ l, elementwise close a b = .ok l ∧
      (l.all id = true ↔ ∀ (i : ℕ) x y, a[i]? = some x → b[i]? = some y → |x - y| * 10 ^ 5 ≤ 10 ^ 6 + |y|) := by
    intro a b hab
    have e : elementwise close a b = .ok (List.zipWith close a b) := by
      match a, b with
      | [], [] => rfl
      | [x], [y] => rfl
      | a0 :: a1 :: a, b0 :: b1 :: b => exact if_pos hab
    refine ⟨_, e, ?_⟩
    rw [List.all_eq_true]
    constructor
    · intro h i x y hx hy
      have := h (close x y) (List.mem_of_getElem? (i := i) (by rw [List.getElem?_zipWith, hx, hy]))
      simpa [close] using this
    · intro h c hc
      obtain ⟨i, hi⟩ := List.getElem?_of_mem hc
      rw [List.getElem?_zipWith] at hi
      cases hx : a[i]? with
      | none => rw [hx] at hi; simp at hi
      | some x =>
        cases hy : b[i]? with
        | none => rw [hx, hy] at hi; simp at hi
        | some y =>
          rw [hx, hy] at hi
          cases hi
          simpa [close] using h i x y hx hy
  cases ha : t.abs with
  | false =>
    obtain ⟨rfl, rfl⟩ := h0 ha
    have hb : o.abs = false := ht ▸ ha
    obtain ⟨l, e1, e2⟩ := key t.vals o.vals hl
    refine ⟨l.all id, ?_, by simpa using e2⟩
    simp [allClose, ofTime_valid ho, referenceTime_rel ha, referenceTime_rel hb, asTimedelta_rel ha, asTimedelta_rel hb, e1, bind, Except.bind]
  | true =>
    have hb : o.abs = true := ht ▸ ha
    have r1 := h1 ha
    have r2 := h2 hb
    by_cases hrs : r = s
    · subst hrs
      obtain ⟨l, e1, e2⟩ := key (t.vals.map (· - r)) (o.vals.map (· - r)) (by simpa using hl)
      refine ⟨l.all id, ?_, ?_⟩
      · simp only [allClose, ofTime_valid ho, referenceTime_iff.2 r1, referenceTime_iff.2 r2, asTimedelta_ref r1, asTimedelta_ref r2, e1, bind,
          Except.bind, ne_eq, not_true_eq_false, if_false]
      · rw [e2]
        simp only [List.getElem?_map, true_and]
        constructor
        · intro h i x y hx hy
          exact h i (x - r) (y - r) (by rw [hx]; rfl) (by rw [hy]; rfl)
        · intro h i x y hx hy
          cases hx' : t.vals[i]? with
          | none => rw [hx'] at hx; cases hx
          | some x' =>
            cases hy' : o.vals[i]? with
            | none => rw [hy'] at hy; cases hy
            | some y' =>
              rw [hx'] at hx; rw [hy'] at hy
              cases hx; cases hy
              exact h i x' y' hx' hy'
    · refine ⟨false, ?_, by simp [hrs]⟩
      simp only [allClose, ofTime_valid ho, referenceTime_iff.2 r1, referenceTime_iff.2 r2, bind, Except.bind]
      rw [if_pos (by simpa using hrs)]

/-- **C80.** Every time is close to itself. -/
theorem C80_close_self {t : Time} (hv : t.Valid) (hne : t.vals ≠ []) : t.allClose t = .ok true := by
  have : ∃ r, (t.abs = true → t.HasRef r) ∧ (t.abs = false → r = 0 ∧ r = 0) := by
    cases ha : t.abs with
    | false => exact ⟨0, (fun h => by cases h), fun _ => ⟨rfl, rfl⟩⟩
    | true =>
      obtain ⟨r, hr⟩ := HasRef.exists ha hne
      exact ⟨r, fun _ => hr, fun h => by cases h⟩
  obtain ⟨r, h1, h2⟩ := this
  obtain ⟨b, e1, e2⟩ := C80_close hv rfl h1 h1 h2 rfl
  rw [e1]
  congr 1
  rw [e2]
  refine ⟨rfl, fun i x y hx hy => ?_⟩
  rw [hx] at hy
  cases hy
  have := abs_nonneg (x - r)
  simp only [sub_self, abs_zero, zero_mul]
  omega

/-- **C80.** Absolute and relative times are never close. -/
theorem C80_close_kinds {t o : Time} (ho : o.Valid) (hne : t.vals ≠ []) (hoe : o.vals ≠ []) (h : t.abs ≠ o.abs) : t.allClose o = .ok false := by
  cases ha : t.abs with
  | false =>
    have hb : o.abs = true := by cases hb : o.abs <;> simp_all
    obtain ⟨r, hr⟩ := HasRef.exists hb hoe
    simp [allClose, ofTime_valid ho, referenceTime_rel ha, referenceTime_iff.2 hr, bind, Except.bind]
  | true =>
    have hb : o.abs = false := by cases hb : o.abs <;> simp_all
    obtain ⟨r, hr⟩ := HasRef.exists ha hne
    simp [allClose, ofTime_valid ho, referenceTime_rel hb, referenceTime_iff.2 hr, bind, Except.bind]

/-- **C80, refutation.** `all_close` is not symmetric: 100001.000005 s is not close to 100000 s, but the other way round it is. -/
theorem C80_close_not_symmetric : ∃ t o : Time, t.Valid ∧ o.Valid ∧ t.allClose o = .ok false ∧ o.allClose t = .ok true :=
  ⟨⟨false, [100001000005000], none⟩, ⟨false, [100000000000000], none⟩, ⟨by simp, fun _ => rfl⟩, ⟨by simp, fun _ => rfl⟩, by rfl, by rfl⟩

/-- **C80, refutation.** Times with different numbers of values can be close. -/
theorem C80_close_lengths : ∃ t o : Time, t.Valid ∧ o.Valid ∧ t.vals.length ≠ o.vals.length ∧ t.allClose o = .ok true :=
  ⟨⟨false, [5], none⟩, ⟨false, [5, 5], none⟩, ⟨by simp, fun _ => rfl⟩, ⟨by simp, fun _ => rfl⟩, by simp, by rfl⟩

/-- **C80, refutation.** The same points in time with different reference times are not close. -/
theorem C80_close_reference {v : List Int} (hs : v.Pairwise (· ≤ ·)) {r s : Int} (h : r ≠ s) :
    (⟨true, v, some r⟩ : Time).allClose ⟨true, v, some s⟩ = .ok false := by
  have ho : (⟨true, v, some s⟩ : Time).Valid := ⟨hs, fun h => by cases h⟩
  simp [allClose, ofTime_valid ho, referenceTime, h, bind, Except.bind]

/-- **C80, refutation.** An absolute time is not close to its own quantity (or array with durations) unless its reference time is its
first value. -/
theorem C80_close_own_quantity {t : Time} (hv : t.Valid) {r x : Int} (hr : t.HasRef r) (hx : t.vals.head? = some x) (hrx : r ≠ x) {u : ℚ}
    (hu : u ≠ 0) : ∃ q t', t.asQuantity u = .ok q ∧ ofQuantity q none = .ok t' ∧ t.allClose t' = .ok false := by
  have hq := (C80_quantity u).2 r hr
  refine ⟨_, _, hq, (C80_quantity_back hv hu hq).1, ?_⟩
  have hr' : (⟨t.abs, t.vals, none⟩ : Time).HasRef x := ⟨hr.1, .inr ⟨rfl, hx⟩⟩
  have ho : (⟨t.abs, t.vals, none⟩ : Time).Valid := ⟨hv.sorted, fun _ => rfl⟩
  simp [allClose, ofTime_valid ho, referenceTime_iff.2 hr, referenceTime_iff.2 hr', hrx, bind, Except.bind]

/-! ## Examples -/

/-- milliseconds of a time after a reference time -/
example : ∃ q, (⟨true, [102000000, 105000000], some 100000000⟩ : Time).asQuantity (1 / 1000) = .ok q ∧ q.mag = [2, 5] ∧ q.ref = some 100000000 := by
  refine ⟨_, (C80_quantity _).2 100000000 ⟨rfl, .inl rfl⟩, ?_, rfl⟩
  norm_num

example : ∃ u, (⟨true, [102, 105, 109], some 100⟩ : Time).getItem (-1) = .ok u ∧ u.vals = [109] ∧ u.HasRef 100 := by
  obtain ⟨u, h1, _, _, h2, h3⟩ := (C80_item (t := ⟨true, [102, 105, 109], some 100⟩) ⟨by simp, (fun h => by cases h)⟩ (by simp) (-1)).1 2 109 rfl
    (by simp)
  exact ⟨u, h1, h2, h3 100 ⟨rfl, .inl rfl⟩⟩

/-- nanoseconds apart: close -/
example : (⟨true, [102, 105], some 100⟩ : Time).allClose ⟨true, [103, 110], some 100⟩ = .ok true := by rfl

end Weldx.Time
