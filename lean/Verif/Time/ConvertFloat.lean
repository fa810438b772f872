import Verif.Base.Binary64
import Verif.Time.ConvertProps

/-!
# Conversions between `Time` and quantities with the arithmetic of floating point numbers (C80)

Source: `/repo/weldx/time.py` 432-457 (`as_quantity`), 661-680 (`_convert_quantity`).

`as_quantity` multiplies integers (nanoseconds) with the factor of the unit, which gives floating point numbers. The way back
multiplies them with the factor of seconds and passes the result to `pandas.to_timedelta`. All numbers are rounded to a nearest
one with 53 bits. `pandas.to_timedelta` is a parameter `td`; where it matters, it is assumed to give the nearest number of
nanoseconds (or any that is not farther away than half a nanosecond).

Simplifications: as in `Verif.Time.Convert` otherwise; overflow and underflow are left out.
-/

namespace Weldx.Time
open Binary64

/-- `Q_(n, "ns").to(unit).m`, `time.py` 449-452 -/
def toUnitF (fl : ℚ → ℚ) (unit : ℚ) (n : Int) : ℚ := fl (fl n * fl (1 / 10 ^ 9 / unit))

/-- `pd.to_timedelta(x.to("s").magnitude, "s")`, `time.py` 674 -/
def fromUnitF (fl : ℚ → ℚ) (td : ℚ → Int) (unit : ℚ) (x : ℚ) : Int := td (fl (x * fl unit))

/-- `as_quantity`, `time.py` 432-457 -/
def asQuantityF (fl : ℚ → ℚ) (t : Time) (unit : ℚ) : Except TimeError TQ := do
  let d ← t.asTimedelta
  let mag := d.map (toUnitF fl unit)
  if t.abs then .ok ⟨mag, unit, ← t.referenceTime⟩ else .ok ⟨mag, unit, none⟩

/-- `Time(quantity, time_ref)`, `time.py` 277-300 with `_convert_quantity`, 661-680 -/
def ofQuantityF (fl : ℚ → ℚ) (td : ℚ → Int) (q : TQ) (ref : Option Int) : Except TimeError Time :=
  let delta := q.mag.map (fromUnitF fl td q.unit)
  match q.ref with
  | some r => make true (delta.map (· + r)) ref
  | none => make false delta ref

/-! ### specification -/

/-- `to_timedelta` does not miss by more than half a nanosecond -/
def NearestNs (td : ℚ → Int) : Prop := ∀ x, |(td x : ℚ) - x * 10 ^ 9| ≤ 1 / 2

/-- a duration that occurs in a time: since the reference time, or the value itself -/
inductive Duration (t : Time) : Int → Prop
  | rel {n : Int} : t.abs = false → n ∈ t.vals → Duration t n
  | abs {n r : Int} : t.HasRef r → n ∈ t.vals → Duration t (n - r)

/-! ### errors -/

theorem rounds_relative {fl : ℚ → ℚ} (hfl : Rounds fl) (x : ℚ) : ∃ e : ℚ, |e| ≤ 1 / 2 ^ 53 ∧ fl x = x * (1 + e) := by
  by_cases h : x = 0
  · exact ⟨0, by norm_num, by rw [h, hfl.zero]; ring⟩
  refine ⟨(fl x - x) / x, ?_, by field_simp; ring⟩
  rw [abs_div, div_le_iff₀ (abs_pos.2 h)]
  have := hfl.error x
  linarith

/-- relative errors of products -/
theorem relative_mul {a b k l : ℚ} (ha : |a - 1| ≤ k) (hb : |b - 1| ≤ l) : |a * b - 1| ≤ k + l + k * l := by
  have hk : 0 ≤ k := le_trans (abs_nonneg _) ha
  rw [show a * b - 1 = (a - 1) + (b - 1) + (a - 1) * (b - 1) by ring]
  refine (abs_add_le _ _).trans (add_le_add ((abs_add_le _ _).trans (add_le_add ha hb)) ?_)
  rw [abs_mul]
  exact mul_le_mul ha hb (abs_nonneg _) hk

/-- the magnitude of a quantity has a relative error of three roundings -/
theorem toUnitF_error {fl : ℚ → ℚ} (hfl : Rounds fl) (u : ℚ) (n : Int) :
    ∃ a : ℚ, |a - 1| ≤ 3 / 2 ^ 53 + 4 / 2 ^ 106 ∧ toUnitF fl u n = n / 10 ^ 9 / u * a := by
  unfold toUnitF
  obtain ⟨a, ha, ea⟩ := rounds_relative hfl (n : ℚ)
  obtain ⟨b, hb, eb⟩ := rounds_relative hfl (1 / 10 ^ 9 / u)
  rw [ea, eb]
  obtain ⟨c, hc, ec⟩ := rounds_relative hfl ((n : ℚ) * (1 + a) * (1 / 10 ^ 9 / u * (1 + b)))
  rw [ec]
  refine ⟨(1 + a) * (1 + b) * (1 + c), ?_, by ring⟩
  have h1 := relative_mul (a := 1 + a) (b := 1 + b) (by simpa using ha) (by simpa using hb)
  refine (relative_mul h1 (b := 1 + c) (by simpa using hc)).trans ?_
  norm_num

/-- the way to a unit and back before the conversion to nanoseconds -/
theorem unit_error {fl : ℚ → ℚ} (hfl : Rounds fl) {u : ℚ} (hu : 0 < u) (n : Int) :
    |fl (toUnitF fl u n * fl u) * 10 ^ 9 - n| ≤ |(n : ℚ)| * (5 / 2 ^ 53 + 12 / 2 ^ 106) := by
  obtain ⟨a, ha, ea⟩ := toUnitF_error hfl u n
  obtain ⟨b, hb, eb⟩ := rounds_relative hfl u
  rw [ea, eb]
  obtain ⟨c, hc, ec⟩ := rounds_relative hfl ((n : ℚ) / 10 ^ 9 / u * a * (u * (1 + b)))
  rw [ec]
  have e : (n : ℚ) / 10 ^ 9 / u * a * (u * (1 + b)) * (1 + c) * 10 ^ 9 - n = n * (a * (1 + b) * (1 + c) - 1) := by
    field_simp
  rw [e, abs_mul]
  refine mul_le_mul_of_nonneg_left ?_ (abs_nonneg _)
  have h1 := relative_mul (b := 1 + b) ha (by simpa using hb)
  refine (relative_mul h1 (b := 1 + c) (by simpa using hc)).trans ?_
  norm_num

/-- durations of up to nine days survive -/
theorem fromUnitF_toUnitF {fl : ℚ → ℚ} (hfl : Rounds fl) {td : ℚ → Int} (htd : NearestNs td) {u : ℚ} (hu : 0 < u) {n : Int}
    (hn : |n| ≤ 8 * 10 ^ 14) : fromUnitF fl td u (toUnitF fl u n) = n := by
  unfold fromUnitF
  have h1 := unit_error hfl hu n
  have h2 := htd (fl (toUnitF fl u n * fl u))
  generalize fl (toUnitF fl u n * fl u) = x at *
  have h3 : |(n : ℚ)| ≤ 8 * 10 ^ 14 := by exact_mod_cast hn
  have h4 : |(n : ℚ)| * (5 / 2 ^ 53 + 12 / 2 ^ 106) < 1 / 2 :=
    lt_of_le_of_lt (mul_le_mul_of_nonneg_right h3 (by norm_num)) (by norm_num)
  have h5 : |((td x - n : Int) : ℚ)| < 1 := by
    push_cast
    rw [show (td x : ℚ) - n = (td x - x * 10 ^ 9) + (x * 10 ^ 9 - n) by ring]
    refine lt_of_le_of_lt (abs_add_le _ _) (lt_of_lt_of_eq (add_lt_add_of_le_of_lt h2 (lt_of_le_of_lt h1 h4)) ?_)
    norm_num
  have h6 : |td x - n| < 1 := by exact_mod_cast h5
  rw [abs_lt] at h6
  omega

/-! ### both directions -/

/-- **C80**: with rounded numbers, and in any unit, the values of a time survive the way to a quantity and back if no duration is
longer than nine days. -/
theorem C80_float_back_partial {fl : ℚ → ℚ} (hfl : Rounds fl) {td : ℚ → Int} (htd : NearestNs td) {t : Time} (hv : t.Valid)
    {u : ℚ} (hu : 0 < u) (hd : ∀ n, Duration t n → |n| ≤ 8 * 10 ^ 14) {q : TQ} (h : asQuantityF fl t u = .ok q) :
    ofQuantityF fl td q none = .ok ⟨t.abs, t.vals, none⟩ ∧
    ∀ r, ofQuantityF fl td q (some r) = .ok ⟨true, if t.abs then t.vals else t.vals.map (· + r), some r⟩ := by
  obtain ⟨ab, v, s⟩ := t
  cases ab with
  | false =>
    have e0 : asQuantityF fl ⟨false, v, s⟩ u = .ok ⟨v.map (toUnitF fl u), u, none⟩ := by
      simp [asQuantityF, asTimedelta_rel (t := ⟨false, v, s⟩) rfl, bind, Except.bind]
    rw [e0] at h
    cases h
    have e : (v.map (toUnitF fl u)).map (fromUnitF fl td u) = v := by
      rw [List.map_map]
      conv_rhs => rw [← List.map_id v]
      exact List.map_congr_left fun n hn => fromUnitF_toUnitF hfl htd hu (hd n (.rel rfl hn))
    constructor
    · show make false _ none = _
      rw [e]
      exact make_rel.2 ⟨hv.sorted, rfl⟩
    · intro r
      show make false _ (some r) = _
      rw [e]
      exact make_rel.2 ⟨hv.sorted, rfl⟩
  | true =>
    have hr : ∃ r, (⟨true, v, s⟩ : Time).HasRef r := by
      cases s with
      | some r => exact ⟨r, rfl, .inl rfl⟩
      | none =>
        cases v with
        | nil => simp [asQuantityF, asTimedelta, referenceTime, bind, Except.bind] at h
        | cons a l => exact ⟨a, rfl, .inr ⟨rfl, rfl⟩⟩
    obtain ⟨r, hr⟩ := hr
    have e0 : asQuantityF fl ⟨true, v, s⟩ u = .ok ⟨(v.map (· - r)).map (toUnitF fl u), u, some r⟩ := by
      simp only [asQuantityF, asTimedelta_ref hr, referenceTime_iff.2 hr, if_true, bind, Except.bind]
    rw [e0] at h
    cases h
    have e : (((v.map (· - r)).map (toUnitF fl u)).map (fromUnitF fl td u)).map (· + r) = v := by
      rw [List.map_map, List.map_map, List.map_map]
      conv_rhs => rw [← List.map_id v]
      apply List.map_congr_left
      intro n hn
      simp only [Function.comp_def, id]
      rw [fromUnitF_toUnitF hfl htd hu (hd _ (.abs hr hn))]; ring
    constructor
    · show make true _ none = _
      rw [e]
      exact make_abs.2 ⟨hv.sorted, rfl⟩
    · intro r'
      show make true _ (some r') = _
      rw [e]
      exact make_abs.2 ⟨hv.sorted, rfl⟩

/-- **C80**: the magnitudes of the quantity are the durations, with a relative error of less than `2 ^ (-51)`. -/
theorem C80_float_quantity {fl : ℚ → ℚ} (hfl : Rounds fl) (u : ℚ) (n : Int) :
    |toUnitF fl u n - n / 10 ^ 9 / u| ≤ |(n : ℚ) / 10 ^ 9 / u| / 2 ^ 51 := by
  obtain ⟨a, ha, ea⟩ := toUnitF_error hfl u n
  rw [ea, show (n : ℚ) / 10 ^ 9 / u * a - n / 10 ^ 9 / u = n / 10 ^ 9 / u * (a - 1) by ring, abs_mul]
  have h : |a - 1| ≤ 1 / 2 ^ 51 := ha.trans (by norm_num)
  have := mul_le_mul_of_nonneg_left h (abs_nonneg ((n : ℚ) / 10 ^ 9 / u))
  refine this.trans (le_of_eq (by ring))

/-- **C80, refutation for long durations**: more than three years after the reference time, neighbouring nanoseconds give the same
quantity. Whatever `to_timedelta` does, one of the two times is not restored. -/
theorem C80_float_counterexample {fl : ℚ → ℚ} (hfl : Rounds fl) (td : ℚ → Int) (u : ℚ) :
    asQuantityF fl ⟨false, [10 ^ 17], none⟩ u = asQuantityF fl ⟨false, [10 ^ 17 + 1], none⟩ u ∧
    ∃ n : Int, (n = 10 ^ 17 ∨ n = 10 ^ 17 + 1) ∧ ∃ q, asQuantityF fl ⟨false, [n], none⟩ u = .ok q ∧
      ofQuantityF fl td q none ≠ .ok ⟨false, [n], none⟩ := by
  have h0 : fl ((10 ^ 17 : Int) : ℚ) = 10 ^ 17 := by
    rw [hfl.exact ⟨5 ^ 17, 17, by norm_num, by norm_num⟩]; norm_num
  have h1 : fl ((10 ^ 17 + 1 : Int) : ℚ) = 10 ^ 17 := by
    obtain ⟨m, hm⟩ := repr_multiple (hfl.repr ((10 ^ 17 + 1 : Int) : ℚ)) (e := 4) (by
      have h2 : (((2 ^ 4 * 2 ^ 52 : ℤ)) : ℚ) ≤ fl ((10 ^ 17 + 1 : Int) : ℚ) :=
        hfl.ge_of_repr ⟨2 ^ 52, 4, by norm_num, by norm_num⟩ (by norm_num)
      refine le_trans ?_ (le_trans h2 (le_abs_self _))
      norm_num)
    have h3 := hfl.nearest ((10 ^ 17 + 1 : Int) : ℚ) (10 ^ 17) ⟨5 ^ 17, 17, by norm_num, by norm_num⟩
    rw [hm] at h3 ⊢
    have h4 : |(10 ^ 17 : ℚ) - ((10 ^ 17 + 1 : Int) : ℚ)| = 1 := by norm_num
    rw [h4, abs_le] at h3
    norm_num at h3
    have h5 : (m : ℚ) * 16 ≤ 100000000000000002 := by linarith [h3.2]
    have h6 : (100000000000000000 : ℚ) ≤ m * 16 := by linarith [h3.1]
    have h7 : m * 16 ≤ 100000000000000002 := by exact_mod_cast h5
    have h8 : (100000000000000000 : Int) ≤ m * 16 := by exact_mod_cast h6
    have h9 : m = 6250000000000000 := by omega
    rw [h9]; norm_num
  have e : asQuantityF fl ⟨false, [10 ^ 17], none⟩ u = asQuantityF fl ⟨false, [10 ^ 17 + 1], none⟩ u := by
    simp only [asQuantityF, asTimedelta_rel (t := ⟨false, [10 ^ 17], none⟩) rfl,
      asTimedelta_rel (t := ⟨false, [10 ^ 17 + 1], none⟩) rfl, bind, Except.bind, List.map_cons, List.map_nil, toUnitF, h0, h1,
      Bool.false_eq_true, if_false]
  refine ⟨e, ?_⟩
  have hq : asQuantityF fl ⟨false, [10 ^ 17], none⟩ u = .ok ⟨[toUnitF fl u (10 ^ 17)], u, none⟩ := by
    simp only [asQuantityF, asTimedelta_rel (t := ⟨false, [10 ^ 17], none⟩) rfl, bind, Except.bind, List.map_cons, List.map_nil,
      Bool.false_eq_true, if_false]
  by_cases h : ofQuantityF fl td ⟨[toUnitF fl u (10 ^ 17)], u, none⟩ none = .ok ⟨false, [10 ^ 17], none⟩
  · refine ⟨10 ^ 17 + 1, .inr rfl, _, e ▸ hq, ?_⟩
    rw [h]
    intro h'
    simp at h'
  · exact ⟨10 ^ 17, .inl rfl, _, hq, h⟩

/-- the hypotheses are met: rounding to 53 bits, rounding to nanoseconds, two times in a second after a reference time -/
example : ∃ fl, Rounds fl ∧ ∃ q, asQuantityF fl ⟨true, [10 ^ 9, 10 ^ 9 + 3], some 7⟩ (1 / 1000) = .ok q ∧
    ofQuantityF fl (fun x => round (x * 10 ^ 9)) q none = .ok ⟨true, [10 ^ 9, 10 ^ 9 + 3], none⟩ := by
  obtain ⟨fl, hfl⟩ := exists_rounds
  have hr : (⟨true, [10 ^ 9, 10 ^ 9 + 3], some 7⟩ : Time).HasRef 7 := ⟨rfl, .inl rfl⟩
  have e0 : ∃ q, asQuantityF fl ⟨true, [10 ^ 9, 10 ^ 9 + 3], some 7⟩ (1 / 1000) = .ok q := by
    simp only [asQuantityF, asTimedelta_ref hr, referenceTime_iff.2 hr, if_true, bind, Except.bind]
    exact ⟨_, rfl⟩
  obtain ⟨q, hq⟩ := e0
  refine ⟨fl, hfl, q, hq, (C80_float_back_partial hfl (td := fun x => round (x * 10 ^ 9)) ?_ ⟨by simp, fun h => by cases h⟩
    (by norm_num) ?_ hq).1⟩
  · intro x
    have := abs_sub_round (x * 10 ^ 9)
    rwa [abs_sub_comm] at this
  · rintro n (⟨h, _⟩ | ⟨h, hn⟩)
    · cases h
    · have := hasRef_unique h hr
      subst this
      simp only [List.mem_cons, List.not_mem_nil, or_false] at hn
      rcases hn with rfl | rfl <;> norm_num

end Weldx.Time
