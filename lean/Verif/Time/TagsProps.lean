import Verif.Time.Tags
import Mathlib.Tactic.IntervalCases

/-!
# Properties of the serialisation of time objects (C66)
-/

namespace Weldx.TimeTags

theorem steps_range {d a : Int} {t : List Int} (h : Steps d (a :: t)) : a :: t = range a d t.length := by
  induction t generalizing a with
  | nil => rfl
  | cons b t ih =>
    obtain ⟨rfl, h⟩ := h
    rw [List.length_cons, range, ← ih h]

theorem steps_last {d a : Int} {t : List Int} (h : Steps d (a :: t)) : (a :: t).getLastD 0 = a + d * t.length := by
  induction t generalizing a with
  | nil => simp
  | cons b t ih =>
    obtain ⟨rfl, h⟩ := h
    have : (a :: (a + d) :: t).getLastD 0 = ((a + d) :: t).getLastD 0 := by simp [List.getLastD]
    rw [this, ih h]
    push_cast [List.length_cons]
    ring

theorem delta_steps {l : List Int} {d : Int} (h : delta? l = some d) : d ≠ 0 ∧ Steps d l ∧ 3 ≤ l.length := by
  match l with
  | [] => simp [delta?] at h
  | [_] => simp [delta?] at h
  | [_, _] => simp [delta?] at h
  | a :: b :: c :: t =>
    simp only [delta?] at h
    split at h
    · rename_i hh
      cases h
      exact ⟨hh.1, hh.2, by simp⟩
    · cases h

theorem parse_text_new (a d : Int) (hw : d % week ≠ 0) : parse (handle (text unitNs a d)) = some d := by
  unfold text
  rw [if_neg hw]
  simp only [unitNs, List.find?_cons]
  by_cases h1 : d % 86400000000000 = 0
  · simp [h1, handle, replaceChar, parse, unitNs]; omega
  by_cases h2 : d % 3600000000000 = 0
  · simp [h1, h2, handle, replaceChar, parse, unitNs]; omega
  by_cases h3 : d % 60000000000 = 0
  · simp [h1, h2, h3, handle, replaceChar, parse, unitNs]; omega
  by_cases h4 : d % 1000000000 = 0
  · simp [h1, h2, h3, h4, handle, replaceChar, parse, unitNs]; omega
  by_cases h5 : d % 1000000 = 0
  · simp [h1, h2, h3, h4, h5, handle, replaceChar, parse, unitNs]; omega
  by_cases h6 : d % 1000 = 0
  · simp [h1, h2, h3, h4, h5, h6, handle, replaceChar, parse, unitNs]; omega
  · simp [h1, h2, h3, h4, h5, h6, handle, replaceChar, parse, unitNs]

theorem parse_text_old (a d : Int) (hw : d % week ≠ 0) : parse (handle (text unitNsOld a d)) = some d := by
  unfold text
  rw [if_neg hw]
  simp only [unitNsOld, List.find?_cons]
  by_cases h1 : d % 86400000000000 = 0
  · simp [h1, handle, replaceChar, parse, unitNs]; omega
  by_cases h2 : d % 3600000000000 = 0
  · simp [h1, h2, handle, replaceChar, parse, unitNs]; omega
  by_cases h3 : d % 60000000000 = 0
  · simp [h1, h2, h3, handle, replaceChar, parse, unitNs]; omega
  by_cases h4 : d % 1000000000 = 0
  · simp [h1, h2, h3, h4, handle, replaceChar, parse, unitNs]; omega
  by_cases h5 : d % 1000000 = 0
  · simp [h1, h2, h3, h4, h5, handle, replaceChar, parse, unitNs]; omega
  by_cases h6 : d % 1000 = 0
  · simp [h1, h2, h3, h4, h5, h6, handle, replaceChar, parse, unitNs]; omega
  · simp [h1, h2, h3, h4, h5, h6, handle, replaceChar, parse, unitNs]

theorem parse_week (names : List (List Char × Int)) (a d : Int) (hw : d % week = 0) : parse (handle (text names a d)) = none := by
  unfold text
  rw [if_pos hw]
  unfold weekday
  have h : ((a / 86400000000000) % 7).toNat < 7 := by omega
  generalize ((a / 86400000000000) % 7).toNat = n at h
  interval_cases n <;> rfl

/-- C66: the text of every fixed frequency that is no number of weeks is read correctly, whether it was written with the names of old or
of new pandas versions. -/
theorem C66_frequency (names : List (List Char × Int)) (hn : names = unitNs ∨ names = unitNsOld) (a d : Int) (hw : d % week ≠ 0) :
    parse (handle (text names a d)) = some d := by
  rcases hn with rfl | rfl
  · exact parse_text_new a d hw
  · exact parse_text_old a d hw

theorem range_back {f : Freq} {a d : Int} {t : List Int} (hp : parse f = some d) (hd : d ≠ 0) (h : Steps d (a :: t)) :
    timedeltaRange a ((a :: t).getLastD 0) f = .ok (a :: t) := by
  unfold timedeltaRange
  rw [hp, steps_last h]
  have : (a + d * (t.length : Int) - a) / d = t.length := by
    rw [add_sub_cancel_left, Int.mul_ediv_cancel_left _ hd]
  simp only [hd, if_false, this, Int.natCast_nonneg, if_true, Int.toNat_natCast]
  rw [← steps_range h]

/-- C66: what is read for a `TimedeltaIndex` that is not empty and has no steps of weeks: the same points in time for regular ones, the same
integers, as nanoseconds, for others. -/
theorem C66_tdi_general (names : List (List Char × Int)) (hn : names = unitNs ∨ names = unitNsOld) (i : Index) (h0 : i.vals ≠ [])
    (hw : ∀ d, delta? i.ns = some d → d % week ≠ 0) :
    (tdiToTree names i).bind tdiFromTree = .ok (if (delta? i.ns).isSome then ⟨1, i.ns⟩ else ⟨1, i.vals⟩) := by
  unfold tdiToTree
  cases hl : i.ns with
  | nil => simp [Index.ns] at hl; exact absurd hl h0
  | cons a t =>
    simp only
    cases hd : delta? (a :: t) with
    | none => simp [Except.bind, tdiFromTree]
    | some d =>
      obtain ⟨h1, h2, -⟩ := delta_steps hd
      have hp := C66_frequency names hn a d (hw d (by rw [hl]; exact hd))
      simp only [Except.bind, tdiFromTree, range_back hp h1 h2, Except.map, Option.isSome_some, if_true]

/-- C66: a `TimedeltaIndex` in nanoseconds that is not empty and has no steps of weeks survives serialisation. -/
theorem C66_tdi (names : List (List Char × Int)) (hn : names = unitNs ∨ names = unitNsOld) (l : List Int) (h0 : l ≠ [])
    (hw : ∀ d, delta? l = some d → d % week ≠ 0) : (tdiToTree names ⟨1, l⟩).bind tdiFromTree = .ok ⟨1, l⟩ := by
  have hns : Index.ns ⟨1, l⟩ = l := by simp [Index.ns]
  rw [C66_tdi_general names hn ⟨1, l⟩ h0 (by rw [hns]; exact hw), hns]
  simp

/-- C66: the shape for the validation is the length. -/
theorem C66_tdi_shape (names : List (List Char × Int)) (hn : names = unitNs ∨ names = unitNsOld) (i : Index) (h0 : i.vals ≠ [])
    (hw : ∀ d, delta? i.ns = some d → d % week ≠ 0) : (tdiToTree names i).bind tdiShape = .ok [i.vals.length] := by
  unfold tdiToTree
  have hlen : i.ns.length = i.vals.length := by simp [Index.ns]
  cases hl : i.ns with
  | nil => simp [Index.ns] at hl; exact absurd hl h0
  | cons a t =>
    simp only
    cases hd : delta? (a :: t) with
    | none => simp [Except.bind, tdiShape]
    | some d =>
      obtain ⟨h1, h2, -⟩ := delta_steps hd
      have hp := C66_frequency names hn a d (hw d (by rw [hl]; exact hd))
      simp only [Except.bind, tdiShape, range_back hp h1 h2, Except.map]
      rw [← hl, hlen]

/-- C66: exactly the differences of whole weeks, 604800 seconds each, are written as a number of weeks that begin with a certain day; it is the
day of the week of the first value, 1970-01-01 being a Thursday. -/
theorem C66_week_text (names : List (List Char × Int)) (hn : names = unitNs ∨ names = unitNsOld) (start d : Int) :
    ((text names start d).unit.take 2 = ['W', '-'] ↔ ∃ n, d = n * 604800000000000) ∧
    (∀ n k j : Int, ∀ i : Nat, d = n * 604800000000000 → 0 ≤ j → j < 86400000000000 → i < 7 →
      start = ((7 * k + i) * 86400000000000 + j) →
      text names start d = ⟨n, ['W', '-'] ++ [['T', 'H', 'U'], ['F', 'R', 'I'], ['S', 'A', 'T'], ['S', 'U', 'N'], ['M', 'O', 'N'],
        ['T', 'U', 'E'], ['W', 'E', 'D']].getD i []⟩) := by
  have hw : week = 604800000000000 := by decide
  constructor
  · unfold text
    rw [hw]
    split_ifs with h
    · exact ⟨fun _ => ⟨d / 604800000000000, by omega⟩, fun _ => by simp⟩
    · constructor
      · intro hu
        exfalso
        cases hf : names.find? (fun u => d % u.2 = 0) with
        | none => rw [hf] at hu; simp at hu
        | some u =>
          rw [hf] at hu
          have hm := List.mem_of_find?_eq_some hf
          have hne : ∀ v ∈ names, v.1.take 2 ≠ ['W', '-'] := by rcases hn with rfl | rfl <;> decide
          exact hne u hm hu
      · rintro ⟨n, rfl⟩; exact absurd (by omega) h
  · rintro n k j i rfl h0 h1 hi rfl
    unfold text
    rw [hw, if_pos (by omega)]
    have h2 : n * 604800000000000 / 604800000000000 = n := by omega
    have h3 : ((7 * k + (i : Int)) * 86400000000000 + j) / 86400000000000 % 7 = i := by omega
    unfold weekday
    rw [h2, h3]
    rfl

/-- two weeks, beginning on 1970-01-05 at noon -/
example : text unitNs 388800000000000 1209600000000000 = ⟨2, ['W', '-', 'M', 'O', 'N']⟩ :=
  (C66_week_text unitNs (.inl rfl) _ _).2 2 0 43200000000000 4 rfl (by decide) (by decide) (by decide) rfl

/-- C66: a regular `TimedeltaIndex` with steps of weeks is stored, but can not be read. -/
theorem C66_weeks (names : List (List Char × Int)) (i : Index) (d : Int) (hd : delta? i.ns = some d) (hw : d % week = 0) :
    ∃ t, tdiToTree names i = .ok t ∧ tdiFromTree t = .error .valueError ∧ tdiShape t = .error .valueError := by
  unfold tdiToTree
  cases hl : i.ns with
  | nil => rw [hl] at hd; simp [delta?] at hd
  | cons a t =>
    rw [hl] at hd
    simp only [hd]
    refine ⟨_, rfl, ?_, ?_⟩ <;> simp [tdiFromTree, tdiShape, timedeltaRange, parse_week names a d hw, Except.map]

/-- three values with a difference of a week -/
example : delta? (Index.ns ⟨1, [0, week, 2 * week]⟩) = some week ∧ week % week = 0 := by decide

/-- C66: an irregular index with another resolution than nanoseconds gets other points in time: seconds become nanoseconds. -/
theorem C66_resolution (names : List (List Char × Int)) : ∃ i j : Index, (tdiToTree names i).bind tdiFromTree = .ok j ∧ i.ns ≠ j.ns := by
  refine ⟨⟨1000000000, [1, 2]⟩, ⟨1, [1, 2]⟩, ?_, by decide⟩
  simp [tdiToTree, Index.ns, delta?, Except.bind, tdiFromTree]

/-- C66: an empty index can not be stored. -/
theorem C66_empty (names : List (List Char × Int)) (r : Int) : tdiToTree names ⟨r, []⟩ = .error .indexError := rfl

/-- the hypotheses of `C66_tdi` hold for regular and irregular values -/
example : delta? [0, 1500, 3000] = some 1500 ∧ (1500 : Int) % week ≠ 0 ∧ delta? [0, 1, 3] = none := by decide

/-! ### `DatetimeIndex` -/

/-- C66: a `DatetimeIndex` in nanoseconds survives serialisation, if it is regular or has no time zone. -/
theorem C66_dti {R : Type} (c : Cal R) (hc : c.Lawful) (l : List Int) (tz : Option Int) (h0 : l ≠ [])
    (hz : c.infer l = none → tz = none) : (dtiToTree c ⟨⟨1, l⟩, tz⟩).bind (dtiFromTree c) = .ok ⟨⟨1, l⟩, tz⟩ := by
  have hns : Index.ns ⟨1, l⟩ = l := by simp [Index.ns]
  unfold dtiToTree
  simp only [hns]
  cases l with
  | nil => exact absurd rfl h0
  | cons a t =>
    simp only
    cases hi : c.infer (a :: t) with
    | none => simp [Except.bind, dtiFromTree, hz hi]
    | some r => simp only [Except.bind, dtiFromTree, hc a t r hi, Except.map]

/-- C66: the time zone of irregular time stamps is lost. -/
theorem C66_time_zone_lost {R : Type} (c : Cal R) (a : Int) (t : List Int) (hi : c.infer (a :: t) = none) (z : Int) :
    (dtiToTree c ⟨⟨1, a :: t⟩, some z⟩).bind (dtiFromTree c) = .ok ⟨⟨1, a :: t⟩, none⟩ := by
  have hns : Index.ns ⟨1, a :: t⟩ = a :: t := by simp [Index.ns]
  unfold dtiToTree
  simp only [hns, hi]
  rfl

/-- fixed frequencies as rules -/
def exCal : Cal Int where
  infer := delta?
  range a b d := if d = 0 then .error .valueError else if 0 ≤ (b - a) / d then .ok (range a d ((b - a) / d).toNat) else .ok []

/-- the law holds for fixed frequencies -/
theorem exCal_lawful : exCal.Lawful := by
  intro a t d h
  obtain ⟨h1, h2, -⟩ := delta_steps h
  show (if d = 0 then _ else _) = _
  rw [if_neg h1, steps_last h2]
  have : (a + d * (t.length : Int) - a) / d = t.length := by
    rw [add_sub_cancel_left, Int.mul_ediv_cancel_left _ h1]
  simp only [this, Int.natCast_nonneg, if_true, Int.toNat_natCast]
  rw [← steps_range h2]

example : exCal.infer [0, 1, 3] = none ∧ exCal.infer [0, 5, 10] = some 5 := by decide

/-! ### `Time` -/

/-- C66: a `Time` that is not empty survives serialisation, if values with a reference time are absolute, as after construction, and time
deltas have no steps of weeks. -/
theorem C66_time {R : Type} (names : List (List Char × Int)) (hn : names = unitNs ∨ names = unitNsOld) (c : Cal R) (hc : c.Lawful)
    (t : Time) (h0 : t.vals ≠ []) (hm : Time.monotonic t.vals = true) (hr : t.ref.isSome → t.abs = true)
    (hw : t.abs = false → ∀ d, delta? t.vals = some d → d % week ≠ 0) :
    (timeToTree names c t).bind (timeFromTree c) = .ok (.ok t) := by
  obtain ⟨b, l, r⟩ := t
  simp only at h0 hm hr hw
  have hmk : Time.make b l r = .ok ⟨b, l, r⟩ := by
    unfold Time.make
    cases r with
    | none => simp [hm]
    | some r => simp [hr rfl, hm]
  have hns : Index.ns ⟨1, l⟩ = l := by simp [Index.ns]
  cases b with
  | true =>
    match l, h0 with
    | [v], _ => simp [timeToTree, Except.bind, timeFromTree, hmk]
    | a :: b :: t, h0 =>
      have h := C66_dti c hc (a :: b :: t) none h0 (fun _ => rfl)
      simp only [timeToTree]
      cases hd : dtiToTree c ⟨⟨1, a :: b :: t⟩, none⟩ with
      | error e => rw [hd] at h; cases h
      | ok x =>
        rw [hd] at h
        simp only [Except.bind] at h
        simp [Except.map, Except.bind, timeFromTree, h, hns, hmk]
  | false =>
    match l, h0 with
    | [v], _ => simp [timeToTree, Except.bind, timeFromTree, hmk]
    | a :: b :: t, h0 =>
      have h := C66_tdi names hn (a :: b :: t) h0 (hw rfl)
      simp only [timeToTree]
      cases hd : tdiToTree names ⟨1, a :: b :: t⟩ with
      | error e => rw [hd] at h; cases h
      | ok x =>
        rw [hd] at h
        simp only [Except.bind] at h
        simp [Except.map, Except.bind, timeFromTree, h, hns, hmk]

/-- C66: a `Time` with time deltas whose reference time was set later is read as absolute time. -/
theorem C66_time_reference_set {R : Type} (names : List (List Char × Int)) (c : Cal R) : ∃ t t' : Time,
    Time.make false [5] none = .ok t ∧ (timeToTree names c (t.setReferenceTime 100)).bind (timeFromTree c) = .ok (.ok t') ∧
      (t.setReferenceTime 100).abs = false ∧ t'.abs = true := by
  exact ⟨⟨false, [5], none⟩, ⟨true, [105], some 100⟩, rfl, rfl, rfl, rfl⟩

/-- an absolute time with reference satisfies the hypotheses -/
example : ∃ t : Time, Time.make false [0, 1, 3] (some 100) = .ok t ∧ (timeToTree unitNs exCal t).bind (timeFromTree exCal) = .ok (.ok t) :=
  ⟨⟨true, [100, 101, 103], some 100⟩, rfl, C66_time unitNs (.inl rfl) exCal exCal_lawful _ (by simp) rfl (fun _ => rfl) (by simp)⟩

end Weldx.TimeTags
