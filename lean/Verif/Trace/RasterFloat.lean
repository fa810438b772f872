import Verif.Trace.Raster
import Verif.Frame.Rounded

/-!
# Positions on a trace in the arithmetic of floating point numbers (C45)

Source: `/repo/weldx/geometry.py` 1769-1796 (`Trace._create_lookups`), 1895-1937 (`Trace.rasterize`), 2299-2325
(`Geometry._rasterize_trace`).

Every operation is followed by a rounding with a relative error of at most `2 ^ (-53)`, see
`Verif.Frame.Rounded`. Modelled are the positions: the table of total lengths, the search for the segment of
each position, and its relative position on the segment.
-/

namespace Weldx.Tr

open Weldx.Geo (clip npRound npRound_near)

/-! ## Model -/

section
variable (fl : ℝ → ℝ)

/-- `np.arange(0, stop, step)`: the number of values is the quotient rounded up, the values are multiples of
the step -/
noncomputable def arangeF (stop step : ℝ) : List ℝ :=
  (List.range ⌈fl (stop / step)⌉.toNat).map fun i : ℕ => fl (i * step)

/-- `Geometry._rasterize_trace`, `geometry.py` 2299-2325 -/
noncomputable def geometryLocationsF (traceLength width : ℝ) : Except TErr (List ℝ) :=
  if ¬ width > 0 then .error .valueError
  else
    let width := min width traceLength
    let num := (npRound (fl (traceLength / width))).toNat
    let widthEff := fl (traceLength / num)
    .ok (arangeF fl (fl (traceLength - fl (widthEff / 2))) widthEff ++ [traceLength])

/-- `_total_length_lookup`, `geometry.py` 1780-1796, from the current length on -/
noncomputable def totalsF : List ℝ → ℝ → List ℝ
  | [], total => [total]
  | x :: l, total => total :: totalsF l (fl (total + x))

/-- the loop in `rasterize`, `geometry.py` 1921-1930: the number of the segment and the relative position on it
for each location -/
noncomputable def rasterLoopF (total lens : List ℝ) (width : ℝ) : List ℕ → ℕ → Except TErr (List (ℕ × ℝ))
  | [], _ => .ok []
  | i :: l, idx =>
    match firstIdx (fl (i * width)) (total.drop (idx + 1)) idx with
    | none => .error .indexError
    | some k => match total[k]?, lens[k]? with
      | some start, some len => match rasterLoopF total lens width l k with
        | .error e => .error e
        | .ok r => .ok ((k, fl (fl (fl (i * width) - start) / len)) :: r)
      | _, _ => .error .indexError

/-- `Trace.rasterize`, `geometry.py` 1895-1937, for segments with the given lengths; the end of the trace is
added to these positions -/
noncomputable def traceRasterF (lens : List ℝ) (width : ℝ) : Except TErr (List (ℕ × ℝ)) :=
  if ¬ width > 0 then .error .valueError
  else
    let total := totalsF fl lens 0
    let length := total.getLastD 0
    let width := clip width 0 length
    let num := (npRound (fl (length / width))).toNat
    rasterLoopF fl total lens (fl (length / num)) (List.range num) 0

end

/-- positions of `DynamicShapeSegment.rasterize`, `geometry.py` 271-298, for a segment of the given length:
`np.linspace(0, 1, num)` multiplies the step, and its last value is the end -/
noncomputable def segmentLocationsF (fl : ℝ → ℝ) (length width : ℝ) : Except Geo.GErr (List ℝ) :=
  if width ≤ 0 then .error .valueError
  else
    let num := Geo.numPoints (npRound (fl (length / width)))
    .ok ((List.range num).map fun i : ℕ => if i + 1 = num then 1 else fl (i * fl (1 / ((num : ℝ) - 1))))

/-! ## Lemmas -/

section
variable {fl : ℝ → ℝ} (hfl : Rounding fl)
include hfl

theorem fl_le {x : ℝ} (hx : 0 ≤ x) : x - x / 2 ^ 53 ≤ fl x ∧ fl x ≤ x + x / 2 ^ 53 := by
  have h := hfl.error x
  rw [abs_of_nonneg hx, abs_le] at h
  constructor <;> linarith [h.1, h.2]

theorem fl_nonneg {x : ℝ} (hx : 0 ≤ x) : 0 ≤ fl x := by
  have h := (fl_le hfl hx).1
  norm_num at h
  linarith

theorem stepsF {L w : ℝ} (hL : 0 < L) (hw : 0 < w) (hb : L ≤ 10 ^ 12 * w) :
    ∃ n : ℕ, (npRound (fl (L / min w L))).toNat = n ∧ 0 < n ∧ (n : ℝ) ≤ 2 * 10 ^ 12 ∧ (L ≤ w → n = 1) ∧
      (w ≤ L → |(n : ℝ) - L / w| ≤ 1 / 2 + L / w / 2 ^ 53) := by
  have hm : 0 < min w L := lt_min hw hL
  have hx : 1 ≤ L / min w L := by rw [le_div_iff₀ hm, one_mul]; exact min_le_right _ _
  have hx2 : L / min w L ≤ 10 ^ 12 := by
    rw [div_le_iff₀ hm]
    rcases le_total w L with h | h
    · rwa [min_eq_left h]
    · rw [min_eq_right h]; norm_num; linarith
  have hr := npRound_near (fl (L / min w L))
  obtain ⟨f1, f2⟩ := fl_le hfl (le_trans zero_le_one hx)
  have hr' := abs_le.1 hr
  have h1 : 1 ≤ npRound (fl (L / min w L)) := by
    by_contra hcon
    have : npRound (fl (L / min w L)) ≤ 0 := by omega
    have : ((npRound (fl (L / min w L)) : ℤ) : ℝ) ≤ 0 := by exact_mod_cast this
    norm_num at f1
    linarith [hr'.1]
  have hcast : (((npRound (fl (L / min w L))).toNat : ℕ) : ℝ) = npRound (fl (L / min w L)) := by
    have : ((npRound (fl (L / min w L))).toNat : ℤ) = npRound (fl (L / min w L)) := Int.toNat_of_nonneg (by omega)
    exact_mod_cast this
  refine ⟨_, rfl, by omega, ?_, ?_, ?_⟩
  · rw [hcast]
    norm_num at f2 hx2 ⊢
    linarith [hr'.2]
  · intro h
    rw [min_eq_right h, div_self hL.ne'] at *
    have : ((npRound (fl 1) : ℤ) : ℝ) < 2 := by norm_num at f2; linarith [hr'.2]
    have : npRound (fl 1) < 2 := by exact_mod_cast this
    omega
  · intro h
    rw [hcast]
    rw [min_eq_left h] at hr' f1 f2 ⊢
    rw [abs_le]
    constructor <;> linarith [hr'.1, hr'.2]

/-- the width and the positions up to rounding -/
theorem posF {L : ℝ} {n : ℕ} (hL : 0 < L) (hn : 0 < n) (i : ℕ) :
    |fl (i * fl (L / n)) - i * L / n| ≤ 3 / 2 ^ 53 * (i * L / n) := by
  have hn' : (0 : ℝ) < n := by exact_mod_cast hn
  have hq : 0 ≤ L / n := (div_pos hL hn').le
  obtain ⟨a, b⟩ := fl_le hfl hq
  have hi : (0 : ℝ) ≤ i := Nat.cast_nonneg i
  have a' := mul_le_mul_of_nonneg_left a hi
  have b' := mul_le_mul_of_nonneg_left b hi
  have h0 : 0 ≤ (i : ℝ) * fl (L / n) := mul_nonneg hi (fl_nonneg hfl hq)
  obtain ⟨c, d⟩ := fl_le hfl h0
  have e : (i : ℝ) * L / n = i * (L / n) := mul_div_assoc _ _ _
  have h1 : 0 ≤ (i : ℝ) * (L / n) := mul_nonneg hi hq
  rw [e, abs_le]
  have a2 : (i : ℝ) * (L / n) - i * (L / n) / 2 ^ 53 ≤ i * fl (L / n) := by
    refine le_trans (le_of_eq ?_) a'; ring
  have b2 : (i : ℝ) * fl (L / n) ≤ i * (L / n) + i * (L / n) / 2 ^ 53 := by
    refine le_trans b' (le_of_eq ?_); ring
  generalize (i : ℝ) * fl (L / n) = y at *
  generalize (i : ℝ) * (L / n) = x at *
  norm_num at *
  constructor <;> linarith

theorem posF_lt {L : ℝ} {n : ℕ} (hL : 0 < L) (hn : 0 < n) (hn2 : (n : ℝ) ≤ 2 * 10 ^ 12) {i j : ℕ} (hij : i < j)
    (hj : j ≤ n) : fl (i * fl (L / n)) < fl (j * fl (L / n)) := by
  have hn' : (0 : ℝ) < n := by exact_mod_cast hn
  have hq : 0 < L / n := div_pos hL hn'
  have h1 := (abs_le.1 (posF hfl hL hn i)).2
  have h2 := (abs_le.1 (posF hfl hL hn j)).1
  have h3 : (i : ℝ) + 1 ≤ j := by exact_mod_cast hij
  have h4 : (j : ℝ) ≤ n := by exact_mod_cast hj
  have k1 := mul_le_mul_of_nonneg_right h3 hq.le
  have k2 := mul_le_mul_of_nonneg_right (h4.trans hn2) hq.le
  rw [mul_div_assoc] at h1 h2
  rw [add_mul, one_mul] at k1
  generalize (i : ℝ) * (L / n) = x at *
  generalize (j : ℝ) * (L / n) = y at *
  generalize L / (n : ℝ) = q at *
  norm_num at *
  linarith

theorem posF_le {L : ℝ} {n : ℕ} (hL : 0 < L) (hn : 0 < n) (hn2 : (n : ℝ) ≤ 2 * 10 ^ 12) {i : ℕ} (hi : i < n) :
    fl (i * fl (L / n)) ≤ L - L / n / 2 := by
  have hn' : (0 : ℝ) < n := by exact_mod_cast hn
  have hq : 0 < L / n := div_pos hL hn'
  have h1 := (abs_le.1 (posF hfl hL hn i)).2
  have h3 : (i : ℝ) + 1 ≤ n := by exact_mod_cast hi
  have k1 := mul_le_mul_of_nonneg_right h3 hq.le
  have k2 := mul_le_mul_of_nonneg_right hn2 hq.le
  rw [mul_div_assoc] at h1
  rw [add_mul, one_mul] at k1
  have e : (n : ℝ) * (L / n) = L := by field_simp
  rw [e] at k1 k2
  generalize (i : ℝ) * (L / n) = x at *
  generalize L / (n : ℝ) = q at *
  norm_num at *
  linarith

theorem countF {L : ℝ} {n : ℕ} (hL : 0 < L) (hn : 0 < n) (hn2 : (n : ℝ) ≤ 2 * 10 ^ 12) :
    ⌈fl (fl (L - fl (fl (L / n) / 2)) / fl (L / n))⌉ = n := by
  have hn' : (0 : ℝ) < n := by exact_mod_cast hn
  have hn1 : (1 : ℝ) ≤ n := by exact_mod_cast hn
  have hq : 0 < L / n := div_pos hL hn'
  have e : (n : ℝ) * (L / n) = L := by field_simp
  have k1 := mul_le_mul_of_nonneg_right hn1 hq.le
  have k2 := mul_le_mul_of_nonneg_right hn2 hq.le
  rw [e] at k1 k2
  obtain ⟨a, b⟩ := fl_le hfl hq.le
  have hW : 0 < fl (L / n) := by norm_num at a; linarith
  obtain ⟨c, d⟩ := fl_le hfl (show 0 ≤ fl (L / n) / 2 by linarith)
  have hS : 0 ≤ L - fl (fl (L / n) / 2) := by norm_num at *; linarith
  obtain ⟨f, g⟩ := fl_le hfl hS
  have hS2 : 0 ≤ fl (L - fl (fl (L / n) / 2)) := fl_nonneg hfl hS
  obtain ⟨p, r⟩ := fl_le hfl (div_nonneg hS2 hW.le)
  have a' := mul_le_mul_of_nonneg_left a hn'.le
  have b' := mul_le_mul_of_nonneg_left b hn'.le
  rw [mul_sub, ← mul_div_assoc _ (L / (n : ℝ)), e] at a'
  rw [mul_add, ← mul_div_assoc _ (L / (n : ℝ)), e] at b'
  have hdiv : fl (L - fl (fl (L / n) / 2)) / fl (L / n) * fl (L / n) = fl (L - fl (fl (L / n) / 2)) :=
    div_mul_cancel₀ _ hW.ne'
  rw [Int.ceil_eq_iff]
  push_cast
  generalize hz : fl (fl (L - fl (fl (L / n) / 2)) / fl (L / n)) = z at *
  generalize fl (L - fl (fl (L / n) / 2)) / fl (L / n) = y at *
  have p' := mul_le_mul_of_nonneg_right p hW.le
  have r' := mul_le_mul_of_nonneg_right r hW.le
  rw [sub_mul, div_mul_eq_mul_div, hdiv] at p'
  rw [add_mul, div_mul_eq_mul_div, hdiv] at r'
  constructor
  · refine lt_of_mul_lt_mul_right ?_ hW.le
    rw [sub_mul, one_mul]
    generalize fl (L - fl (fl (L / n) / 2)) = s at *
    generalize fl (fl (L / n) / 2) = h at *
    generalize (n : ℝ) * fl (L / n) = nW at *
    generalize z * fl (L / n) = zW at *
    generalize fl (L / n) = W at *
    generalize L / (n : ℝ) = q at *
    norm_num at *
    linarith
  · refine le_of_mul_le_mul_right ?_ hW
    generalize fl (L - fl (fl (L / n) / 2)) = s at *
    generalize fl (fl (L / n) / 2) = h at *
    generalize (n : ℝ) * fl (L / n) = nW at *
    generalize z * fl (L / n) = zW at *
    generalize fl (L / n) = W at *
    generalize L / (n : ℝ) = q at *
    norm_num at *
    linarith

/-! ## Positions of the profiles of a geometry -/

/-- **C45, rounding.** If the trace is at most `10 ^ 12` times as long as the raster width, rounding does not
change the number of positions in `np.arange`: the positions begin with 0, increase, end with the length of the
trace, are equidistant up to a relative error of `3 / 2 ^ 53`, and there are `n + 1` of them, where `n` is nearest
to the quotient of length and width up to its rounding. -/
theorem C45_float_geometry {L w : ℝ} (hL : 0 < L) (hw : 0 < w) (hb : L ≤ 10 ^ 12 * w) :
    ∃ (n : ℕ) (locs : List ℝ), geometryLocationsF fl L w = .ok (locs ++ [L]) ∧ 0 < n ∧ locs.length = n ∧
      (L ≤ w → n = 1) ∧ (w ≤ L → |(n : ℝ) - L / w| ≤ 1 / 2 + L / w / 2 ^ 53) ∧ locs[0]? = some 0 ∧
      (locs ++ [L]).Pairwise (· < ·) ∧
      ∀ (i : ℕ) x, (locs ++ [L])[i]? = some x → |x - i * L / n| ≤ 3 / 2 ^ 53 * (i * L / n) := by
  obtain ⟨n, hn, hn0, hn2, h1, h2⟩ := stepsF hfl hL hw hb
  have hn' : (0 : ℝ) < n := by exact_mod_cast hn0
  have hc := countF hfl hL hn0 hn2
  refine ⟨n, (List.range n).map fun i : ℕ => fl (i * fl (L / n)), ?_, hn0, by simp, h1, h2, ?_, ?_, ?_⟩
  · unfold geometryLocationsF arangeF
    rw [if_neg (not_not.2 hw)]
    simp only [hn, hc, Int.toNat_natCast]
  · rw [List.getElem?_map, List.getElem?_range hn0]
    have := hfl.error 0
    have h0 : fl 0 = 0 := by simpa using this
    simp [h0]
  · rw [List.pairwise_append]
    refine ⟨?_, List.pairwise_singleton _ _, ?_⟩
    · rw [List.pairwise_map]
      refine List.Pairwise.imp_of_mem ?_ List.pairwise_lt_range
      intro i j hi hj hij
      exact posF_lt hfl hL hn0 hn2 hij (List.mem_range.1 hj).le
    · intro x hx y hy
      rw [List.mem_singleton] at hy
      subst hy
      obtain ⟨i, hi, rfl⟩ := List.mem_map.1 hx
      have := posF_le hfl hL hn0 hn2 (List.mem_range.1 hi)
      have : 0 < y / n := div_pos hL hn'
      linarith
  · intro i x hx
    rcases lt_trichotomy i n with hi | hi | hi
    · rw [List.getElem?_append_left (by simpa using hi), List.getElem?_map, List.getElem?_range hi] at hx
      cases hx
      exact posF hfl hL hn0 i
    · subst hi
      rw [List.getElem?_append_right (by simp)] at hx
      simp at hx
      subst hx
      rw [mul_div_cancel_left₀ _ hn'.ne', sub_self, abs_zero]
      positivity
    · rw [List.getElem?_eq_none (by simp; omega)] at hx
      cases hx

/-! ## Positions on the segments of a shape -/

/-- **C50, rounding.** The relative positions at which a segment of a shape is rasterised begin with 0, increase, end
with 1 and are equidistant up to a relative error of `3 / 2 ^ 53`; the number of steps is nearest to the quotient of
length and width up to its rounding, or one if this is less than one. -/
theorem C50_float {L w : ℝ} (hL : 0 < L) (hw : 0 < w) (hb : L ≤ 10 ^ 12 * w) :
    ∃ (n : ℕ) (locs : List ℝ), segmentLocationsF fl L w = .ok locs ∧ 0 < n ∧ locs.length = n + 1 ∧
      (n = 1 ∧ L / w < 2 ∨ |(n : ℝ) - L / w| ≤ 1 / 2 + L / w / 2 ^ 53) ∧ locs[0]? = some 0 ∧ locs[n]? = some 1 ∧
      locs.Pairwise (· < ·) ∧ ∀ (i : ℕ) x, locs[i]? = some x → |x - i / n| ≤ 3 / 2 ^ 53 * (i / n) := by
  have hx : 0 ≤ L / w := (div_pos hL hw).le
  have hx2 : L / w ≤ 10 ^ 12 := by rw [div_le_iff₀ hw]; exact hb
  obtain ⟨f1, f2⟩ := fl_le hfl hx
  have hr := abs_le.1 (npRound_near (fl (L / w)))
  obtain ⟨n, hn, hn0⟩ : ∃ n : ℕ, Geo.numPoints (npRound (fl (L / w))) = n + 1 ∧ 0 < n := by
    unfold Geo.numPoints
    exact ⟨(max (npRound (fl (L / w)) + 1) 2).toNat - 1, by omega, by omega⟩
  have hcase : n = 1 ∧ npRound (fl (L / w)) ≤ 1 ∨ (n : ℤ) = npRound (fl (L / w)) := by
    unfold Geo.numPoints at hn; omega
  have hn' : (0 : ℝ) < n := by exact_mod_cast hn0
  have hnear : n = 1 ∧ L / w < 2 ∨ |(n : ℝ) - L / w| ≤ 1 / 2 + L / w / 2 ^ 53 := by
    rcases hcase with ⟨h1, h2⟩ | h1
    · left
      refine ⟨h1, ?_⟩
      have : ((npRound (fl (L / w)) : ℤ) : ℝ) ≤ 1 := by exact_mod_cast h2
      norm_num at f1
      linarith [hr.1]
    · right
      have : (n : ℝ) = npRound (fl (L / w)) := by exact_mod_cast h1
      rw [this, abs_le]
      constructor <;> linarith [hr.1, hr.2]
  have hn2 : (n : ℝ) ≤ 2 * 10 ^ 12 := by
    rcases hnear with ⟨rfl, _⟩ | h
    · norm_num
    · have := (abs_le.1 h).2
      generalize (n : ℝ) = m at *
      norm_num at this hx2 ⊢
      linarith
  have hval : ∀ i, i < n → (if i + 1 = n + 1 then (1 : ℝ) else fl (i * fl (1 / n))) = fl (i * fl (1 / n)) := by
    intro i hi; rw [if_neg (by omega)]
  have hget : ∀ i : ℕ, ((List.range (n + 1)).map fun i : ℕ => if i + 1 = n + 1 then (1 : ℝ) else fl (i * fl (1 / n)))[i]? =
      if i < n then some (fl (i * fl (1 / n))) else if i = n then some 1 else none := by
    intro i
    rw [List.getElem?_map]
    rcases lt_trichotomy i n with h | h | h
    · rw [List.getElem?_range (by omega), if_pos h, Option.map_some, hval i h]
    · subst h; rw [List.getElem?_range (by omega)]; simp
    · rw [List.getElem?_eq_none (by simp; omega), if_neg (by omega), if_neg (by omega)]; rfl
  refine ⟨n, (List.range (n + 1)).map fun i : ℕ => if i + 1 = n + 1 then (1 : ℝ) else fl (i * fl (1 / n)), ?_, hn0,
    by simp, hnear, ?_, ?_, ?_, ?_⟩
  · unfold segmentLocationsF
    rw [if_neg (not_le.2 hw)]
    simp only [hn]
    push_cast
    rw [add_sub_cancel_right]
  · rw [hget, if_pos hn0]
    have := hfl.error 0
    have h0 : fl 0 = 0 := by simpa using this
    simp [h0]
  · rw [hget, if_neg (by omega), if_pos rfl]
  · rw [List.pairwise_map]
    refine List.Pairwise.imp_of_mem ?_ List.pairwise_lt_range
    intro i j hi hj hij
    rw [List.mem_range] at hi hj
    rw [hval i (by omega)]
    rcases Nat.lt_or_ge j n with h | h
    · rw [hval j h]
      exact posF_lt hfl one_pos hn0 hn2 hij h.le
    · rw [if_pos (by omega)]
      have := posF_le hfl one_pos hn0 hn2 (show i < n by omega)
      have : 0 < 1 / (n : ℝ) := div_pos one_pos hn'
      linarith
  · intro i x hx
    rw [hget] at hx
    split at hx
    · cases hx
      have := posF hfl one_pos hn0 i
      rwa [mul_one] at this
    · split at hx
      · rename_i h; subst h
        cases hx
        rw [div_self hn'.ne', sub_self, abs_zero]
        positivity
      · cases hx

/-! ## Positions of `Trace.rasterize` -/

omit hfl in
theorem totalsF_zero (fl : ℝ → ℝ) : ∀ (l : List ℝ) (t : ℝ), (totalsF fl l t)[0]? = some t
  | [], _ => rfl
  | _ :: _, _ => rfl

omit hfl in
theorem totalsF_length (fl : ℝ → ℝ) : ∀ (l : List ℝ) (t : ℝ), (totalsF fl l t).length = l.length + 1
  | [], _ => rfl
  | x :: l, t => by simp [totalsF, totalsF_length fl l]

omit hfl in
theorem totalsF_succ (fl : ℝ → ℝ) : ∀ (l : List ℝ) (t : ℝ) {k : ℕ} {x s : ℝ}, l[k]? = some x →
    (totalsF fl l t)[k]? = some s → (totalsF fl l t)[k + 1]? = some (fl (s + x))
  | [], _, k, _, _, h, _ => by simp at h
  | y :: l, t, 0, x, s, h, hs => by
    cases h; cases hs
    show (totalsF fl l (fl (t + y)))[0]? = _
    rw [totalsF_zero]
  | y :: l, t, k + 1, x, s, h, hs => by
    have h' : l[k]? = some x := by simpa using h
    have hs' : (totalsF fl l (fl (t + y)))[k]? = some s := by simpa [totalsF] using hs
    have := totalsF_succ fl l (fl (t + y)) h' hs'
    simpa [totalsF] using this

/-- error of the total lengths -/
theorem totalsF_error {lens : List ℝ} (hp : ∀ x ∈ lens, 0 < x) (hm : lens.length ≤ 10 ^ 6) :
    ∀ k ≤ lens.length, ∃ s, (totalsF fl lens 0)[k]? = some s ∧ 0 ≤ s ∧
      |s - (lens.take k).sum| ≤ 2 * k / 2 ^ 53 * (lens.take k).sum
  | 0, _ => ⟨0, totalsF_zero _ _ _, le_rfl, by simp⟩
  | k + 1, hk => by
    obtain ⟨s, h1, h0, h2⟩ := totalsF_error hp hm k (by omega)
    have hx : lens[k]? = some lens[k] := List.getElem?_eq_getElem (by omega)
    have hx0 : 0 < lens[k] := hp _ (List.getElem_mem _)
    have h3 := totalsF_succ fl lens 0 hx h1
    obtain ⟨a, b⟩ := fl_le hfl (show 0 ≤ s + lens[k] by linarith)
    refine ⟨_, h3, fl_nonneg hfl (by linarith), ?_⟩
    have e : (lens.take (k + 1)).sum = (lens.take k).sum + lens[k] := by
      rw [List.take_add_one, hx, List.sum_append]; simp only [Option.toList_some, List.sum_singleton]
    rw [e]
    have hS : 0 ≤ (lens.take k).sum := List.sum_nonneg fun x hx => (hp x (List.mem_of_mem_take hx)).le
    have hk0 : (0 : ℝ) ≤ k := Nat.cast_nonneg k
    have hk6 : (k : ℝ) ≤ 10 ^ 6 := by exact_mod_cast (show k ≤ 10 ^ 6 by omega)
    rw [abs_le] at h2 ⊢
    push_cast
    generalize (lens.take k).sum = S at *
    generalize lens[k] = x at *
    generalize fl (s + x) = z at *
    have m1 := mul_le_mul_of_nonneg_right hk6 hS
    have m2 : 0 ≤ (k : ℝ) * x := mul_nonneg hk0 hx0.le
    have e1 : 2 * (k : ℝ) / 2 ^ 53 * S = 2 / 2 ^ 53 * (k * S) := by ring
    have e2 : 2 * ((k : ℝ) + 1) / 2 ^ 53 * (S + x) = 2 / 2 ^ 53 * (k * S) + 2 / 2 ^ 53 * (k * x) +
      2 / 2 ^ 53 * (S + x) := by ring
    rw [e1] at h2
    rw [e2]
    generalize (k : ℝ) * S = kS at *
    generalize (k : ℝ) * x = kx at *
    obtain ⟨h2a, h2b⟩ := h2
    norm_num at *
    constructor <;> linarith

omit hfl in
/-- the search finds the first entry that is not exceeded -/
theorem firstIdx_find {p : ℝ} : ∀ (l : List ℝ) (idx : ℕ), (∃ y ∈ l, p ≤ y) → ∃ m y, firstIdx p l idx = some (idx + m) ∧
    l[m]? = some y ∧ p ≤ y ∧ ∀ m' < m, ∀ z, l[m']? = some z → z < p
  | [], _, h => by simp at h
  | y :: l, idx, h => by
    by_cases hy : p ≤ y
    · exact ⟨0, y, by simp [firstIdx, hy], rfl, hy, fun m' h => by omega⟩
    · obtain ⟨m, z, h1, h2, h3, h4⟩ := firstIdx_find l (idx + 1) (by
        obtain ⟨z, hz, h1⟩ := h
        rcases List.mem_cons.1 hz with rfl | hz
        · exact absurd h1 hy
        · exact ⟨z, hz, h1⟩)
      refine ⟨m + 1, z, ?_, h2, h3, ?_⟩
      · rw [firstIdx, if_neg hy, h1]; congr 1; omega
      · rintro (_ | m') hm w hw
        · cases hw; exact not_le.1 hy
        · exact h4 m' (by omega) w hw

omit hfl in
/-- the loop: for each position the segment that contains it -/
theorem rasterLoopF_ok {lens : List ℝ} {L W : ℝ} (hlast : (totalsF fl lens 0)[lens.length]? = some L) :
    ∀ (l : List ℕ) (idx : ℕ), idx < lens.length → l.Pairwise (fun i j : ℕ => fl (i * W) ≤ fl (j * W)) →
      (∀ i ∈ l, 0 ≤ fl (i * W) ∧ fl (i * W) ≤ L) →
      (∀ i ∈ l, ∀ s, (totalsF fl lens 0)[idx]? = some s → s ≤ fl (i * W)) →
      ∃ r, rasterLoopF fl (totalsF fl lens 0) lens W l idx = .ok r ∧ r.length = l.length ∧
        ∀ (j i : ℕ), l[j]? = some i → ∃ (k : ℕ) (s len : ℝ), lens[k]? = some len ∧ (totalsF fl lens 0)[k]? = some s ∧
          s ≤ fl (i * W) ∧ fl (i * W) ≤ fl (s + len) ∧ r[j]? = some (k, fl (fl (fl (i * W) - s) / len))
  | [], _, _, _, _, _ => ⟨[], rfl, rfl, by simp⟩
  | i :: l, idx, hidx, hp, hr, hs => by
    have hmem : ∃ y ∈ (totalsF fl lens 0).drop (idx + 1), fl (i * W) ≤ y := by
      refine ⟨L, ?_, (hr i (by simp)).2⟩
      rw [List.mem_iff_getElem?]
      refine ⟨lens.length - (idx + 1), ?_⟩
      rw [List.getElem?_drop, show idx + 1 + (lens.length - (idx + 1)) = lens.length by omega]
      exact hlast
    obtain ⟨m, y, f1, f2, f3, f4⟩ := firstIdx_find _ idx hmem
    rw [List.getElem?_drop] at f2
    have hlt : idx + 1 + m < lens.length + 1 := by
      rw [← totalsF_length fl lens 0]
      by_contra hc
      rw [List.getElem?_eq_none (by omega)] at f2
      cases f2
    have hk : idx + m < lens.length := by omega
    have hlen : lens[idx + m]? = some lens[idx + m] := List.getElem?_eq_getElem hk
    have htot : (totalsF fl lens 0)[idx + m]? =
        some ((totalsF fl lens 0)[idx + m]'(by rw [totalsF_length]; omega)) := List.getElem?_eq_getElem _
    generalize (totalsF fl lens 0)[idx + m]'(by rw [totalsF_length]; omega) = s at htot
    have hsucc := totalsF_succ fl lens 0 hlen htot
    rw [show idx + 1 + m = idx + m + 1 by omega, hsucc] at f2
    cases f2
    -- the start of the segment is not behind the position
    have hstart : s ≤ fl (i * W) := by
      rcases Nat.eq_zero_or_pos m with rfl | hm
      · exact hs i (by simp) s htot
      · refine (f4 (m - 1) (by omega) s ?_).le
        rw [List.getElem?_drop, show idx + 1 + (m - 1) = idx + m by omega]
        exact htot
    have hp' := List.pairwise_cons.1 hp
    obtain ⟨r, r1, r2, r3⟩ := rasterLoopF_ok hlast l (idx + m) hk hp'.2 (fun i hi => hr i (by simp [hi]))
      (by
        intro j hj s' hs'
        rw [htot] at hs'
        cases hs'
        exact hstart.trans (hp'.1 j hj))
    refine ⟨(idx + m, fl (fl (fl (i * W) - s) / lens[idx + m])) :: r, ?_, by simp [r2], ?_⟩
    · simp only [rasterLoopF, f1, htot, hlen, r1]
    · rintro (_ | j) i' hj
      · cases hj
        exact ⟨idx + m, s, lens[idx + m], hlen, htot, hstart, f3, rfl⟩
      · obtain ⟨k, s', len, a, b, c, d, e⟩ := r3 j i' (by simpa using hj)
        exact ⟨k, s', len, a, b, c, d, by simpa using e⟩

/-- **C45, rounding.** `Trace.rasterize` never fails because of rounding and leaves no position out: for a trace
of up to a million segments, which is at most `10 ^ 12` times as long as the raster width, each of the `n` positions
is found on a segment. The position is not before the start of this segment, and behind its end by no more than the
error of the total length; its distance from the exact position `i S / n` on the trace of length `S` is at most
`(4 m + 8) S / 2 ^ 53` for `m` segments. -/
theorem C45_float_trace {lens : List ℝ} (hp : ∀ x ∈ lens, 0 < x) (hne : lens ≠ []) (hm : lens.length ≤ 10 ^ 6) {w : ℝ}
    (hw : 0 < w) (hb : lens.sum ≤ 9 * 10 ^ 11 * w) :
    ∃ (n : ℕ) (r : List (ℕ × ℝ)), traceRasterF fl lens w = .ok r ∧ 0 < n ∧ r.length = n ∧
      ∀ i < n, ∃ (k : ℕ) (weight len : ℝ), r[i]? = some (k, weight) ∧ lens[k]? = some len ∧ 0 ≤ weight ∧
        weight * len ≤ len + 8 / 2 ^ 53 * lens.sum ∧
        |(lens.take k).sum + weight * len - i * lens.sum / n| ≤ (4 * lens.length + 8) / 2 ^ 53 * lens.sum := by
  obtain ⟨L, hlast, -, hLerr⟩ := totalsF_error hfl hp hm lens.length le_rfl
  rw [List.take_length] at hLerr
  have hpos : 0 < lens.length := List.length_pos_iff.2 hne
  have hS : 0 < lens.sum := by
    obtain ⟨x, l, rfl⟩ := List.exists_cons_of_ne_nil hne
    rw [List.sum_cons]
    have h1 := hp x (by simp)
    have h2 : 0 ≤ l.sum := List.sum_nonneg fun y hy => (hp y (by simp [hy])).le
    linarith
  have hm6 : (lens.length : ℝ) ≤ 10 ^ 6 := by exact_mod_cast hm
  have hm0 : (0 : ℝ) ≤ lens.length := Nat.cast_nonneg _
  have hmS := mul_le_mul_of_nonneg_right hm6 hS.le
  have hmS0 := mul_nonneg hm0 hS.le
  have e1 : 2 * (lens.length : ℝ) / 2 ^ 53 * lens.sum = 2 / 2 ^ 53 * (lens.length * lens.sum) := by ring
  rw [e1, abs_le] at hLerr
  have hL : 0 < L := by
    obtain ⟨a, b⟩ := hLerr
    norm_num at a hmS
    linarith
  have hL2 : L ≤ lens.sum + lens.sum / 10 ^ 9 := by
    obtain ⟨a, b⟩ := hLerr
    norm_num at b hmS ⊢
    linarith
  have hbL : L ≤ 10 ^ 12 * w := by norm_num at *; linarith
  obtain ⟨n, hn, hn0, hn2, -, -⟩ := stepsF hfl hL hw hbL
  have hn' : (0 : ℝ) < n := by exact_mod_cast hn0
  have hlastD : (totalsF fl lens 0).getLastD 0 = L := by
    rw [List.getLastD_eq_getLast?, List.getLast?_eq_getElem?, totalsF_length, Nat.add_sub_cancel, hlast]; rfl
  have hclip : clip w 0 L = min w L := by unfold clip; rw [max_eq_left hw.le]
  have hle : ∀ i ∈ List.range n, 0 ≤ fl ((i : ℕ) * fl (L / n)) ∧ fl ((i : ℕ) * fl (L / n)) ≤ L := by
    intro i hi
    refine ⟨fl_nonneg hfl (mul_nonneg (Nat.cast_nonneg _) (fl_nonneg hfl (div_pos hL hn').le)), ?_⟩
    have := posF_le hfl hL hn0 hn2 (List.mem_range.1 hi)
    have : 0 < L / n := div_pos hL hn'
    linarith
  obtain ⟨r, r1, r2, r3⟩ := rasterLoopF_ok (L := L) (W := fl (L / n)) hlast (List.range n) 0 hpos
    (by
      refine List.Pairwise.imp_of_mem ?_ List.pairwise_lt_range
      intro i j hi hj hij
      exact (posF_lt hfl hL hn0 hn2 hij (List.mem_range.1 hj).le).le)
    hle
    (by
      intro i hi s hs
      rw [totalsF_zero] at hs
      cases hs
      exact (hle i hi).1)
  refine ⟨n, r, ?_, hn0, by simpa using r2, ?_⟩
  · unfold traceRasterF
    rw [if_neg (not_not.2 hw)]
    simp only [hlastD, hclip, hn]
    exact r1
  · intro i hi
    obtain ⟨k, s, len, a, b, c, d, e⟩ := r3 i i (List.getElem?_range hi)
    have hkl : k < lens.length := by
      by_contra hc
      rw [List.getElem?_eq_none (by omega)] at a
      cases a
    have hlen0 : 0 < len := hp _ (List.mem_of_getElem? a)
    refine ⟨k, _, len, e, a, ?_, ?_⟩
    · exact fl_nonneg hfl (div_nonneg (fl_nonneg hfl (by linarith)) hlen0.le)
    obtain ⟨s', hs', hs0, herr⟩ := totalsF_error hfl hp hm k hkl.le
    rw [b] at hs'
    cases hs'
    have hpos := posF hfl hL hn0 i
    have hiL := (hle i (List.mem_range.2 hi)).2
    have hdiff : 0 ≤ fl (i * fl (L / n)) - s := by linarith
    obtain ⟨p1, p2⟩ := fl_le hfl hdiff
    have hd0 := fl_nonneg hfl hdiff
    obtain ⟨q1, q2⟩ := fl_le hfl (div_nonneg hd0 hlen0.le)
    have q1' := mul_le_mul_of_nonneg_right q1 hlen0.le
    have q2' := mul_le_mul_of_nonneg_right q2 hlen0.le
    rw [sub_mul, div_mul_eq_mul_div (_ / len), div_mul_cancel₀ _ hlen0.ne'] at q1'
    rw [add_mul, div_mul_eq_mul_div (_ / len), div_mul_cancel₀ _ hlen0.ne'] at q2'
    obtain ⟨_, t2⟩ := fl_le hfl (show 0 ≤ s + len by linarith)
    -- partial sums
    have hSk0 : 0 ≤ (lens.take k).sum := List.sum_nonneg fun x hx => (hp x (List.mem_of_mem_take hx)).le
    have hsplit : (lens.take (k + 1)).sum + (lens.drop (k + 1)).sum = lens.sum := by
      rw [← List.sum_append, List.take_append_drop]
    have hdrop : 0 ≤ (lens.drop (k + 1)).sum := List.sum_nonneg fun x hx => (hp x (List.mem_of_mem_drop hx)).le
    have htake : (lens.take (k + 1)).sum = (lens.take k).sum + len := by
      rw [List.take_add_one, a, List.sum_append]; simp only [Option.toList_some, List.sum_singleton]
    have hkm : (k : ℝ) ≤ lens.length := by exact_mod_cast hkl.le
    have hk0 : (0 : ℝ) ≤ k := Nat.cast_nonneg k
    have hkS : (k : ℝ) * (lens.take k).sum ≤ lens.length * lens.sum :=
      mul_le_mul hkm (by linarith) hSk0 hm0
    have e2 : 2 * (k : ℝ) / 2 ^ 53 * (lens.take k).sum = 2 / 2 ^ 53 * (k * (lens.take k).sum) := by ring
    rw [e2, abs_le] at herr
    rw [abs_le] at hpos
    -- position and exact position
    have hin : (i : ℝ) / n ≤ 1 := by
      rw [div_le_one hn']; exact_mod_cast hi.le
    have hin0 : 0 ≤ (i : ℝ) / n := div_nonneg (Nat.cast_nonneg _) hn'.le
    have e3 : (i : ℝ) * L / n = i / n * L := by ring
    have e4 : (i : ℝ) * lens.sum / n = i / n * lens.sum := by ring
    have hx1 : (i : ℝ) / n * L ≤ L := mul_le_of_le_one_left hL.le hin
    have hx0 : 0 ≤ (i : ℝ) / n * L := mul_nonneg hin0 hL.le
    have hx2 : |(i : ℝ) / n * L - i / n * lens.sum| ≤ 2 / 2 ^ 53 * (lens.length * lens.sum) := by
      rw [← mul_sub, abs_mul, abs_of_nonneg hin0]
      exact (mul_le_of_le_one_left (abs_nonneg _) hin).trans (abs_le.2 hLerr)
    rw [e3] at hpos
    rw [e4]
    rw [abs_le] at hx2
    have e5 : (4 * (lens.length : ℝ) + 8) / 2 ^ 53 * lens.sum =
      4 / 2 ^ 53 * (lens.length * lens.sum) + 8 / 2 ^ 53 * lens.sum := by ring
    rw [e5, abs_le]
    obtain ⟨hpos1, hpos2⟩ := hpos
    obtain ⟨hx21, hx22⟩ := hx2
    obtain ⟨herr1, herr2⟩ := herr
    obtain ⟨hLerr1, hLerr2⟩ := hLerr
    clear r3 r1 r2 hle e1 e2 e3 e4 e5
    generalize fl (fl (fl (i * fl (L / n)) - s) / len) * len = wl at *
    generalize fl (fl (i * fl (L / n)) - s) = dd at *
    generalize fl (i * fl (L / n)) = loc at *
    generalize (i : ℝ) / n * L = pos at *
    generalize (i : ℝ) / n * lens.sum = pos' at *
    generalize (k : ℝ) * (lens.take k).sum = kS at *
    generalize (lens.length : ℝ) * lens.sum = mS at *
    generalize (lens.take k).sum = Sk at *
    generalize fl (s + len) = T at *
    generalize lens.sum = S at *
    norm_num at *
    refine ⟨?_, ?_, ?_⟩ <;> linarith

end

/-- The hypotheses are met by a trace of three segments. -/
example (fl : ℝ → ℝ) (hfl : Rounding fl) : ∃ r, traceRasterF fl [10, 3, 1 / 3] (1 / 7) = .ok r :=
  let ⟨_, r, h, _⟩ := C45_float_trace hfl (lens := [10, 3, 1 / 3]) (by simp) (by simp) (by simp) (w := 1 / 7)
    (by norm_num) (by norm_num)
  ⟨r, h⟩

end Weldx.Tr
