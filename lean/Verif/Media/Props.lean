import Mathlib.Data.Rat.Floor
import Mathlib.Tactic.Linarith
import Mathlib.Tactic.Ring
import Mathlib.Tactic.FieldSimp
import Mathlib.Tactic.Positivity

/-!
# Media files: frames, time stamps and durations (C58)

Source: `/repo/weldx/util/media_file.py` 34-61 (`_pts_to_frame`, `_get_frame_rate`, `_get_frame_count`), 123-158
(`_init_from_sequence`, `_wrap_data_array`), 208-216 (`fps`, `duration`).

Simplifications: floats are rational numbers; of a stream and of the object passed as `f` only the attributes used here are modelled.
-/

namespace Weldx.Media

/-- `int(x)`: towards zero -/
def trunc (x : ℚ) : ℤ := if 0 ≤ x then ⌊x⌋ else ⌈x⌉

/-- 37-38 -/
def ptsToFrame (pts timeBase frameRate startTime : ℚ) : ℤ :=
  trunc (pts * timeBase * frameRate) - trunc (startTime * timeBase * frameRate)

/-- fractions as PyAV gives them -/
structure Fraction where
  numerator : ℤ
  denominator : ℤ

/-- `float(fraction)` -/
def Fraction.value (f : Fraction) : ℚ := f.numerator / f.denominator

/-- the attributes of a video stream; `none` and zero are false -/
structure Stream where
  averageRate : Fraction
  timeBase : Fraction
  frames : ℕ
  duration : Option ℤ

/-- the exceptions -/
inductive MediaErr
  | valueError
deriving DecidableEq

/-- 41-47 -/
def frameRate (s : Stream) : Except MediaErr ℚ :=
  if s.averageRate.denominator ≠ 0 ∧ s.averageRate.numerator ≠ 0 then .ok s.averageRate.value
  else if s.timeBase.denominator ≠ 0 ∧ s.timeBase.numerator ≠ 0 then .ok (1 / s.timeBase.value)
  else .error .valueError

/-- an attribute that is `None` or zero counts as missing -/
def truthy : Option ℤ → Option ℤ
  | some d => if d ≠ 0 then some d else none
  | none => none

/-- 50-61; the result `none` is not a number -/
def frameCount (fDuration : Option ℤ) (s : Stream) : Except MediaErr (Option ℤ) :=
  if s.frames ≠ 0 then .ok (some s.frames)
  else match truthy s.duration with
    | some d => match frameRate s with
      | .error e => .error e
      | .ok r => .ok (some (ptsToFrame d s.timeBase.value r 0))
    | none => match truthy fDuration with
      | some d => match frameRate s with
        | .error e => .error e
        | .ok r => .ok (some (ptsToFrame d (1 / 1000000) r 0))
      | none => .ok none

/-- 213-216: `duration` in seconds -/
def duration (n : ℕ) (fps : ℚ) : ℚ := n / fps

/-- 152: `np.linspace(0, self.duration.m, len(self._handle))`; a single number is the start -/
def frameTimes (n : ℕ) (fps : ℚ) : List ℚ :=
  (List.range n).map fun (k : ℕ) => if n = 1 then 0 else (k : ℚ) * (duration n fps / (n - 1))

/-! ## Lemmas -/

theorem trunc_mono {x y : ℚ} (h : x ≤ y) : trunc x ≤ trunc y := by
  unfold trunc
  split
  · rename_i hx
    rw [if_pos (hx.trans h)]
    exact Int.floor_le_floor h
  · rename_i hx
    have hx' := not_le.1 hx
    split
    · rename_i hy
      have h1 : ⌈x⌉ ≤ 0 := Int.ceil_le.2 (by push_cast; exact hx'.le)
      exact h1.trans (Int.floor_nonneg.2 hy)
    · exact Int.ceil_le_ceil h

theorem trunc_int (n : ℤ) : trunc n = n := by
  unfold trunc
  split
  · exact Int.floor_intCast n
  · exact Int.ceil_intCast n

theorem trunc_abs (x : ℚ) : |x - trunc x| < 1 := by
  unfold trunc
  split
  · have h1 := Int.floor_le x
    have h2 := Int.lt_floor_add_one x
    rw [abs_lt]; constructor <;> linarith
  · have h1 := Int.le_ceil x
    have h2 := Int.ceil_lt_add_one x
    rw [abs_lt]; constructor <;> linarith

/-! ## C58 -/

/-- **C58** (monotone): later time stamps never have a smaller frame number; the start has the number zero. -/
theorem C58_monotone {p q timeBase rate start : ℚ} (ht : 0 ≤ timeBase) (hr : 0 ≤ rate) (h : p ≤ q) :
    ptsToFrame p timeBase rate start ≤ ptsToFrame q timeBase rate start ∧ ptsToFrame start timeBase rate start = 0 := by
  unfold ptsToFrame
  have : p * timeBase * rate ≤ q * timeBase * rate :=
    mul_le_mul_of_nonneg_right (mul_le_mul_of_nonneg_right h ht) hr
  have := trunc_mono this
  exact ⟨by omega, by omega⟩

/-- **C58** (accuracy): for a stream that starts at zero the frame number is the largest one whose time does not exceed the time stamp. -/
theorem C58_frame {p timeBase rate : ℚ} (ht : 0 < timeBase) (hr : 0 < rate) (hp : 0 ≤ p) {k : ℤ} :
    ptsToFrame p timeBase rate 0 = k ↔ (k : ℚ) / rate ≤ p * timeBase ∧ p * timeBase < ((k : ℚ) + 1) / rate := by
  have h0 : trunc ((0 : ℚ) * timeBase * rate) = 0 := by
    rw [zero_mul, zero_mul]; exact_mod_cast trunc_int 0
  have hx : 0 ≤ p * timeBase * rate := by positivity
  unfold ptsToFrame
  rw [h0, sub_zero]
  unfold trunc
  rw [if_pos hx, Int.floor_eq_iff, div_le_iff₀ hr, lt_div_iff₀ hr]

/-- **C58** (other starts): in general the frame number differs from the exact one by less than two, as both time stamps are rounded. -/
theorem C58_start (p timeBase rate start : ℚ) :
    |(ptsToFrame p timeBase rate start : ℚ) - (p - start) * timeBase * rate| < 2 := by
  have h1 := abs_lt.1 (trunc_abs (p * timeBase * rate))
  have h2 := abs_lt.1 (trunc_abs (start * timeBase * rate))
  unfold ptsToFrame
  push_cast
  rw [abs_lt]
  constructor <;> linarith [h1.1, h1.2, h2.1, h2.2]

/-- **C58** (nonnegative time stamps): the difference from the exact number is less than one. -/
theorem C58_start_nonneg {p timeBase rate start : ℚ} (ht : 0 ≤ timeBase) (hr : 0 ≤ rate) (hs : 0 ≤ start) (hp : 0 ≤ p) :
    |(ptsToFrame p timeBase rate start : ℚ) - (p - start) * timeBase * rate| < 1 := by
  have h1 : 0 ≤ p * timeBase * rate := by positivity
  have h2 : 0 ≤ start * timeBase * rate := by positivity
  unfold ptsToFrame trunc
  rw [if_pos h1, if_pos h2]
  push_cast
  have a1 := Int.floor_le (p * timeBase * rate)
  have a2 := Int.lt_floor_add_one (p * timeBase * rate)
  have b1 := Int.floor_le (start * timeBase * rate)
  have b2 := Int.lt_floor_add_one (start * timeBase * rate)
  rw [abs_lt]
  constructor <;> linarith

/-- two ticks per frame, start at tick one: tick two is in frame one although only half of a frame has passed -/
example : ptsToFrame 2 (1 / 2) 1 1 = 1 ∧ ((2 : ℚ) - 1) * (1 / 2) * 1 = 1 / 2 := by
  constructor
  · have h1 : (2 : ℚ) * (1 / 2) * 1 = ((1 : ℤ) : ℚ) := by norm_num
    have h2 : trunc ((1 : ℚ) * (1 / 2) * 1) = 0 := by
      unfold trunc
      rw [if_pos (by norm_num), Int.floor_eq_iff]
      norm_num
    unfold ptsToFrame
    rw [h1, trunc_int, h2]; norm_num
  · norm_num

/-- **C58** (frame count): if the number of frames is not stored, a stream of `n` frames, whose duration in ticks is exact, has `n`
frames. -/
theorem C58_count {s : Stream} {f : Option ℤ} {n d : ℤ} (hf : s.frames = 0) (hd : s.duration = some d) (hd0 : d ≠ 0)
    (hr : s.averageRate.denominator ≠ 0 ∧ s.averageRate.numerator ≠ 0)
    (hex : (d : ℚ) * s.timeBase.value = n / s.averageRate.value) : frameCount f s = .ok (some n) := by
  have hv : s.averageRate.value ≠ 0 := by
    unfold Fraction.value
    exact div_ne_zero (by exact_mod_cast hr.2) (by exact_mod_cast hr.1)
  have h0 : trunc ((0 : ℚ) * s.timeBase.value * s.averageRate.value) = 0 := by
    rw [zero_mul, zero_mul]; exact_mod_cast trunc_int 0
  simp only [frameCount, hf, ne_eq, not_true_eq_false, if_false, truthy, hd, hd0, not_false_eq_true, if_true, frameRate, hr,
    and_self, ptsToFrame, h0, sub_zero]
  rw [hex, div_mul_cancel₀ _ hv, trunc_int]

example : frameCount none ⟨⟨25, 1⟩, ⟨1, 12800⟩, 0, some 51200⟩ = .ok (some 100) :=
  C58_count (d := 51200) rfl rfl (by norm_num) ⟨by norm_num, by norm_num⟩ (by norm_num [Fraction.value])

/-- **C58** (frame rate): it is the average rate if this is known, otherwise one frame per tick of the time base; without both the rate can
not be determined. -/
theorem C58_rate (s : Stream) :
    (s.averageRate.denominator ≠ 0 → s.averageRate.numerator ≠ 0 → frameRate s = .ok s.averageRate.value) ∧
    (s.averageRate.denominator = 0 ∨ s.averageRate.numerator = 0 → s.timeBase.denominator ≠ 0 → s.timeBase.numerator ≠ 0 →
      ∃ r, frameRate s = .ok r ∧ r * s.timeBase.value = 1) ∧
    (s.averageRate.denominator = 0 ∨ s.averageRate.numerator = 0 → s.timeBase.denominator = 0 ∨ s.timeBase.numerator = 0 →
      frameRate s = .error .valueError) := by
  have no : ∀ f : Fraction, f.denominator = 0 ∨ f.numerator = 0 → ¬ (f.denominator ≠ 0 ∧ f.numerator ≠ 0) := by
    rintro f (h | h) ⟨h1, h2⟩
    · exact h1 h
    · exact h2 h
  refine ⟨fun h1 h2 => by simp only [frameRate, if_pos (And.intro h1 h2)], fun h h1 h2 => ?_, fun h h' => ?_⟩
  · refine ⟨1 / s.timeBase.value, by simp only [frameRate, if_neg (no _ h), if_pos (And.intro h1 h2)], ?_⟩
    have : s.timeBase.value ≠ 0 := by
      unfold Fraction.value
      exact div_ne_zero (by exact_mod_cast h2) (by exact_mod_cast h1)
    field_simp
  · simp only [frameRate, if_neg (no _ h), if_neg (no _ h')]

/-- **C58** (frame count of the container): without frames and duration of the stream, the duration of the container, which is given in
microseconds, is used: `n` frames that last exactly as long are counted as `n`. -/
theorem C58_count_container {s : Stream} {n d : ℤ} {r : ℚ} (hf : s.frames = 0) (hd : s.duration = none ∨ s.duration = some 0)
    (hd0 : d ≠ 0) (hr : frameRate s = .ok r) (hr0 : r ≠ 0) (hex : (d : ℚ) / 1000000 = n / r) :
    frameCount (some d) s = .ok (some n) := by
  have ht : truthy s.duration = none := by
    rcases hd with h | h <;> simp [truthy, h]
  have h0 : trunc ((0 : ℚ) * (1 / 1000000) * r) = 0 := by
    rw [zero_mul, zero_mul]; exact_mod_cast trunc_int 0
  have h1 : (d : ℚ) * (1 / 1000000) * r = n := by
    have : (d : ℚ) * (1 / 1000000) = n / r := by rw [← hex]; ring
    rw [this, div_mul_cancel₀ _ hr0]
  have ht' : truthy (some d) = some d := by simp [truthy, hd0]
  simp only [frameCount, hf, ne_eq, not_true_eq_false, if_false, ht, ht', hr, ptsToFrame, h0, sub_zero, h1, trunc_int]

/-- a container of two seconds, the rate is that of the time base -/
example : frameCount (some 2000000) ⟨⟨0, 1⟩, ⟨1, 50⟩, 0, none⟩ = .ok (some 100) := by
  obtain ⟨r, h1, h2⟩ := (C58_rate ⟨⟨0, 1⟩, ⟨1, 50⟩, 0, none⟩).2.1 (.inr rfl) (by norm_num) (by norm_num)
  have h3 : r = 50 := by
    simp only [Fraction.value] at h2
    push_cast at h2
    linarith
  exact C58_count_container rfl (.inl rfl) (by norm_num) h1 (by rw [h3]; norm_num) (by rw [h3]; norm_num)

/-- **C58** (stored number of frames): it is used whatever the duration is. -/
theorem C58_count_stored {s : Stream} {f : Option ℤ} (h : s.frames ≠ 0) : frameCount f s = .ok (some s.frames) := by
  simp [frameCount, h]

/-- **C58** (order of the frames): the times of the frames start at zero, are strictly increasing, and there is one for every frame. -/
theorem C58_times {n : ℕ} {fps : ℚ} (hf : 0 < fps) :
    (frameTimes n fps).length = n ∧ (0 < n → (frameTimes n fps)[0]? = some 0) ∧ (frameTimes n fps).Pairwise (· < ·) := by
  refine ⟨by simp [frameTimes], ?_, ?_⟩
  · intro hn
    simp [frameTimes, hn]
  · unfold frameTimes
    rw [List.pairwise_map]
    refine List.Pairwise.imp_of_mem (R := fun a b : ℕ => a < b) ?_ List.pairwise_lt_range
    intro a b ha hb hab
    have hb' := List.mem_range.1 hb
    have hn : n ≠ 1 := by omega
    have hn1 : (1 : ℚ) < n := by exact_mod_cast (by omega : 1 < n)
    rw [if_neg hn, if_neg hn]
    have : 0 < duration n fps / (n - 1) := by
      unfold duration
      apply div_pos (div_pos (by linarith) hf) (by linarith)
    exact mul_lt_mul_of_pos_right (by exact_mod_cast hab) this

/-- **C58** (inconsistent times): the last frame is placed at the end of the recording instead of one frame before it, so that every frame
but the first is too late: the time of frame `k` is not `k / fps`. -/
theorem C58_times_counterexample {n k : ℕ} {fps : ℚ} (hf : 0 < fps) (hk : 0 < k) (hn : k < n) :
    ∃ t, (frameTimes n fps)[k]? = some t ∧ t = (k : ℚ) / fps * (n / (n - 1)) ∧ (k : ℚ) / fps < t ∧
      (k = n - 1 → t = duration n fps) := by
  have hn1 : (1 : ℚ) < n := by exact_mod_cast (by omega : 1 < n)
  have hne : n ≠ 1 := by omega
  have hk0 : (0 : ℚ) < k := by exact_mod_cast hk
  have hd : (0 : ℚ) < n - 1 := by linarith
  refine ⟨(k : ℚ) / fps * (n / (n - 1)), ?_, rfl, ?_, ?_⟩
  · unfold frameTimes
    rw [List.getElem?_map, List.getElem?_range hn]
    simp only [Option.map_some, if_neg hne, Option.some.injEq]
    unfold duration
    field_simp
  · have h1 : (1 : ℚ) < n / (n - 1) := by rw [lt_div_iff₀ hd]; linarith
    have h2 : (0 : ℚ) < k / fps := div_pos hk0 hf
    nlinarith
  · intro e
    have : (k : ℚ) = n - 1 := by
      rw [e, Nat.cast_sub (by omega)]; norm_num
    rw [this]
    unfold duration
    field_simp

/-- ten frames at ten frames per second: the second frame is at 1/9 s -/
example : (frameTimes 10 10)[1]? = some (1 / 9) := by
  obtain ⟨t, h1, h2, -⟩ := C58_times_counterexample (n := 10) (k := 1) (fps := 10) (by norm_num) (by norm_num) (by norm_num)
  rw [h1, h2]; norm_num

/-- **C58** (duration): one frame lasts `1 / fps`. -/
theorem C58_duration {n m : ℕ} {fps : ℚ} (hf : 0 < fps) :
    duration n fps * fps = n ∧ (n ≤ m ↔ duration n fps ≤ duration m fps) := by
  unfold duration
  refine ⟨div_mul_cancel₀ _ hf.ne', ?_⟩
  rw [div_le_div_iff_of_pos_right hf]
  exact_mod_cast Iff.rfl

end Weldx.Media
