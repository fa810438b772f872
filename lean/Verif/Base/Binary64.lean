import Mathlib.Data.Rat.Floor
import Mathlib.Algebra.Order.Round
import Mathlib.Algebra.Order.Field.Power
import Mathlib.Algebra.Order.Archimedean.Basic
import Mathlib.Tactic.Linarith
import Mathlib.Tactic.Ring
import Mathlib.Tactic.FieldSimp
import Mathlib.Tactic.Positivity
import Mathlib.Tactic.NormNum
import Mathlib.Tactic.Push

/-!
# Binary floating point numbers with a significand of 53 bits

The numbers `numpy` calculates with when it gets integers: rational numbers `m * 2 ^ e` with `|m| ≤ 2 ^ 53`.
The exponent is not bounded, so that overflow and underflow are not modelled. The result of an operation is
the exact result rounded to a nearest one of these numbers. Nothing is said about ties: every statement
holds for all rules that break them, in particular for the rule "to even" of IEEE 754.
-/

namespace Weldx.Binary64

/-- a number with a significand of at most 53 bits -/
def Repr (x : ℚ) : Prop := ∃ m e : ℤ, |m| ≤ 2 ^ 53 ∧ x = m * (2 : ℚ) ^ e

/-- a function that rounds to a nearest number with a significand of 53 bits -/
structure Rounds (fl : ℚ → ℚ) : Prop where
  repr : ∀ x, Repr (fl x)
  nearest : ∀ x y, Repr y → |fl x - x| ≤ |y - x|

/-- `astype("i8")`: conversion to an integer drops the digits behind the point. -/
def trunc (x : ℚ) : ℤ := if x < 0 then ⌈x⌉ else ⌊x⌋

/-! ### conversion to an integer -/

theorem trunc_int (k : ℤ) : trunc (k : ℚ) = k := by
  rw [trunc]; split <;> simp

theorem trunc_mono {x y : ℚ} (h : x ≤ y) : trunc x ≤ trunc y := by
  rw [trunc, trunc]
  split <;> split
  · exact Int.ceil_le_ceil h
  · rename_i h1 h2
    have h3 : ⌈x⌉ ≤ 0 := Int.ceil_le.2 (by push_cast; linarith)
    have h4 : 0 ≤ ⌊y⌋ := Int.le_floor.2 (by push_cast; linarith)
    omega
  · rename_i h1 h2; exfalso; linarith
  · exact Int.floor_le_floor h

theorem trunc_dist (x : ℚ) : |(trunc x : ℚ) - x| < 1 := by
  rw [trunc]
  split
  · have h1 := Int.le_ceil x
    have h2 := Int.ceil_lt_add_one x
    rw [abs_lt]; constructor <;> linarith
  · have h1 := Int.floor_le x
    have h2 := Int.lt_floor_add_one x
    rw [abs_lt]; constructor <;> linarith

/-! ### the numbers -/

theorem repr_zero : Repr 0 := ⟨0, 0, by norm_num, by simp⟩

/-- All integers up to `2 ^ 53` are numbers with 53 bits. -/
theorem repr_small {k : ℤ} (h : |k| ≤ 2 ^ 53) : Repr (k : ℚ) := ⟨k, 0, h, by simp⟩

/-- so are their multiples of powers of two, like whole seconds in nanoseconds -/
theorem repr_scaled {k : ℤ} (e : ℕ) (h : |k| ≤ 2 ^ 53) : Repr ((k * 2 ^ e : ℤ) : ℚ) :=
  ⟨k, e, h, by push_cast; simp⟩

theorem repr_neg {x : ℚ} (h : Repr x) : Repr (-x) := by
  obtain ⟨m, e, h1, rfl⟩ := h
  exact ⟨-m, e, by rwa [abs_neg], by push_cast; ring⟩

/-- Beyond `2 ^ 53 * 2 ^ e` the numbers are multiples of `2 ^ e`. -/
theorem repr_multiple {x : ℚ} (h : Repr x) {e : ℤ} (hx : (2 : ℚ) ^ (52 + e) ≤ |x|) :
    ∃ k : ℤ, x = k * (2 : ℚ) ^ e := by
  obtain ⟨m, f, h1, rfl⟩ := h
  rcases le_or_gt e f with hf | hf
  · obtain ⟨n, hn⟩ := Int.eq_ofNat_of_zero_le (a := f - e) (by omega)
    refine ⟨m * 2 ^ n, ?_⟩
    have : f = n + e := by omega
    rw [this, zpow_add₀ (by norm_num)]
    push_cast
    rw [zpow_natCast]; ring
  · have hm : |(m : ℚ)| ≤ 2 ^ 53 := by exact_mod_cast h1
    rw [abs_mul, abs_of_pos (by positivity : (0 : ℚ) < 2 ^ f)] at hx
    have h2 : (2 : ℚ) ^ (52 + e) = 2 ^ 53 * (2 : ℚ) ^ (e - 1) := by
      rw [show (2 : ℚ) ^ 53 = (2 : ℚ) ^ (53 : ℤ) by norm_num, ← zpow_add₀ (by norm_num)]
      congr 1; ring
    have h3 : (2 : ℚ) ^ f ≤ (2 : ℚ) ^ (e - 1) := zpow_le_zpow_right₀ (by norm_num) (by omega)
    have h4 : |(m : ℚ)| * (2 : ℚ) ^ f ≤ 2 ^ 53 * (2 : ℚ) ^ (e - 1) :=
      mul_le_mul hm h3 (by positivity) (by positivity)
    have h5 : |(m : ℚ)| * (2 : ℚ) ^ f = 2 ^ 53 * (2 : ℚ) ^ (e - 1) := le_antisymm h4 (h2 ▸ hx)
    rcases abs_choice (m : ℚ) with h6 | h6
    · refine ⟨2 ^ 52, ?_⟩
      rw [h6] at h5
      rw [h5, ← h2, zpow_add₀ (by norm_num)]; norm_num
    · refine ⟨-2 ^ 52, ?_⟩
      rw [h6] at h5
      have h7 : (m : ℚ) * (2 : ℚ) ^ f = -(2 ^ 53 * (2 : ℚ) ^ (e - 1)) := by linarith
      rw [h7, ← h2, zpow_add₀ (by norm_num)]; norm_num

namespace Rounds

variable {fl : ℚ → ℚ} (hfl : Rounds fl)

include hfl

/-- Rounding does not change the numbers. -/
theorem exact {x : ℚ} (h : Repr x) : fl x = x := by
  have := hfl.nearest x x h
  simp at this
  linarith

theorem exact_iff {x : ℚ} : fl x = x ↔ Repr x :=
  ⟨fun h => h ▸ hfl.repr x, hfl.exact⟩

theorem zero : fl 0 = 0 := hfl.exact repr_zero

/-- Rounding keeps the order. -/
theorem mono {x y : ℚ} (h : x ≤ y) : fl x ≤ fl y := by
  rcases h.eq_or_lt with rfl | h
  · exact le_rfl
  by_contra hc
  push Not at hc
  have h1 := hfl.nearest x (fl y) (hfl.repr y)
  have h2 := hfl.nearest y (fl x) (hfl.repr x)
  rcases abs_cases (fl x - x) with ⟨e1, _⟩ | ⟨e1, _⟩ <;>
  rcases abs_cases (fl y - x) with ⟨e2, _⟩ | ⟨e2, _⟩ <;>
  rcases abs_cases (fl y - y) with ⟨e3, _⟩ | ⟨e3, _⟩ <;>
  rcases abs_cases (fl x - y) with ⟨e4, _⟩ | ⟨e4, _⟩ <;>
  rw [e1, e2] at h1 <;> rw [e3, e4] at h2 <;> linarith

theorem le_of_repr {x y : ℚ} (hy : Repr y) (h : x ≤ y) : fl x ≤ y := by
  have := hfl.mono h; rwa [hfl.exact hy] at this

theorem ge_of_repr {x y : ℚ} (hx : Repr x) (h : x ≤ y) : x ≤ fl y := by
  have := hfl.mono h; rwa [hfl.exact hx] at this

end Rounds

/-- For every positive number there is one with 53 bits with a relative distance of at most `2 ^ (-53)`. -/
theorem exists_close {x : ℚ} (hx : 0 < x) : ∃ y, Repr y ∧ |y - x| ≤ x / 2 ^ 53 := by
  obtain ⟨n, h1, h2⟩ := exists_mem_Ico_zpow (y := (2 : ℚ)) hx (by norm_num)
  set q : ℚ := 2 ^ (n - 52) with hq
  have hqp : 0 < q := by positivity
  have e1 : (2 : ℚ) ^ n = 2 ^ 52 * q := by
    rw [hq, show (2 : ℚ) ^ 52 = (2 : ℚ) ^ (52 : ℤ) by norm_num, ← zpow_add₀ (by norm_num)]
    congr 1; ring
  have e2 : (2 : ℚ) ^ (n + 1) = 2 ^ 53 * q := by
    rw [zpow_add₀ (by norm_num), e1]; ring
  rw [e1] at h1; rw [e2] at h2
  have h3 : 2 ^ 52 ≤ x / q := by rwa [le_div_iff₀ hqp]
  have h4 : x / q < 2 ^ 53 := by rwa [div_lt_iff₀ hqp]
  have h5 := abs_sub_round (x / q)
  refine ⟨round (x / q) * q, ⟨round (x / q), n - 52, ?_, rfl⟩, ?_⟩
  · rw [abs_le] at h5
    have h6 : (round (x / q) : ℚ) < (2 ^ 53 : ℤ) + 1 := by push_cast; linarith
    have h7 : ((-1 : ℤ) : ℚ) < round (x / q) := by push_cast; linarith
    have h6' : round (x / q) < 2 ^ 53 + 1 := by exact_mod_cast h6
    have h7' : -1 < round (x / q) := by exact_mod_cast h7
    rw [abs_le]; omega
  · have h6 : (round (x / q) : ℚ) * q - x = -((x / q - round (x / q)) * q) := by
      field_simp; ring
    rw [h6, abs_neg, abs_mul, abs_of_pos hqp]
    have h7 : |x / q - round (x / q)| * q ≤ 1 / 2 * q := mul_le_mul_of_nonneg_right h5 hqp.le
    have h8 : 1 / 2 * q ≤ x / 2 ^ 53 := by
      rw [le_div_iff₀ (by positivity)]
      nlinarith
    linarith

theorem Rounds.error {fl : ℚ → ℚ} (hfl : Rounds fl) (x : ℚ) : |fl x - x| ≤ |x| / 2 ^ 53 := by
  rcases lt_trichotomy x 0 with h | rfl | h
  · obtain ⟨y, h1, h2⟩ := exists_close (x := -x) (by linarith)
    have h3 := hfl.nearest x (-y) (repr_neg h1)
    have h4 : |(-y) - x| = |y - -x| := by rw [← abs_neg]; congr 1; ring
    rw [h4] at h3
    rw [abs_of_neg h]
    linarith
  · rw [hfl.zero]; simp
  · obtain ⟨y, h1, h2⟩ := exists_close h
    have h3 := hfl.nearest x y h1
    rw [abs_of_pos h]; linarith

/-- A rounded integer is an integer. -/
theorem Rounds.integer {fl : ℚ → ℚ} (hfl : Rounds fl) (k : ℤ) : ∃ j : ℤ, fl k = j := by
  rcases le_or_gt |k| (2 ^ 53) with h | h
  · exact ⟨k, hfl.exact (repr_small h)⟩
  · have h2 : (2 : ℚ) ^ (52 + (0 : ℤ)) ≤ |fl k| := by
      rcases abs_cases k with ⟨e, _⟩ | ⟨e, _⟩
      · have h3 : (((2 ^ 53 : ℤ)) : ℚ) ≤ fl k :=
          hfl.ge_of_repr (repr_small (by norm_num)) (by exact_mod_cast (show (2 : ℤ) ^ 53 ≤ k by omega))
        have h4 := le_abs_self (fl k)
        push_cast at h3
        have h5 : (2 : ℚ) ^ (52 + (0 : ℤ)) ≤ 2 ^ 53 := by norm_num
        linarith
      · have h3 : fl k ≤ (((-2 ^ 53 : ℤ)) : ℚ) :=
          hfl.le_of_repr (repr_small (by norm_num)) (by exact_mod_cast (show k ≤ -(2 : ℤ) ^ 53 by omega))
        have h4 := neg_le_abs (fl k)
        push_cast at h3
        have h5 : (2 : ℚ) ^ (52 + (0 : ℤ)) ≤ 2 ^ 53 := by norm_num
        linarith
    obtain ⟨j, hj⟩ := repr_multiple (hfl.repr k) h2
    exact ⟨j, by simpa using hj⟩

/-! ### rounding exists -/

/-- Every number has a nearest one with 53 bits. -/
theorem exists_nearest (x : ℚ) : ∃ y, Repr y ∧ ∀ z, Repr z → |y - x| ≤ |z - x| := by
  have pos : ∀ x : ℚ, 0 < x → ∃ y, Repr y ∧ ∀ z, Repr z → |y - x| ≤ |z - x| := by
    intro x hx
    obtain ⟨n, h1, h2⟩ := exists_mem_Ico_zpow (y := (2 : ℚ)) hx (by norm_num)
    set q : ℚ := 2 ^ (n - 52) with hq
    have hqp : 0 < q := by positivity
    have e1 : (2 : ℚ) ^ n = 2 ^ 52 * q := by
      rw [hq, show (2 : ℚ) ^ 52 = (2 : ℚ) ^ (52 : ℤ) by norm_num, ← zpow_add₀ (by norm_num)]
      congr 1; ring
    have e2 : (2 : ℚ) ^ (n + 1) = 2 ^ 53 * q := by
      rw [zpow_add₀ (by norm_num), e1]; ring
    rw [e1] at h1; rw [e2] at h2
    have h3 : 2 ^ 52 ≤ x / q := by rwa [le_div_iff₀ hqp]
    have h4 : x / q < 2 ^ 53 := by rwa [div_lt_iff₀ hqp]
    have key : ∀ k : ℤ, |(round (x / q) : ℚ) * q - x| ≤ |(k : ℚ) * q - x| := by
      intro k
      have h6 : ∀ j : ℤ, |(j : ℚ) * q - x| = |x / q - j| * q := by
        intro j
        rw [show (j : ℚ) * q - x = -((x / q - j) * q) by field_simp; ring, abs_neg, abs_mul,
          abs_of_pos hqp]
      rw [h6, h6]
      exact mul_le_mul_of_nonneg_right (round_le (x / q) k) hqp.le
    have h5 := abs_sub_round (x / q)
    refine ⟨round (x / q) * q, ⟨round (x / q), n - 52, ?_, rfl⟩, fun z hz => ?_⟩
    · rw [abs_le] at h5
      have h6 : (round (x / q) : ℚ) < (2 ^ 53 : ℤ) + 1 := by push_cast; linarith
      have h7 : ((-1 : ℤ) : ℚ) < round (x / q) := by push_cast; linarith
      have h6' : round (x / q) < 2 ^ 53 + 1 := by exact_mod_cast h6
      have h7' : -1 < round (x / q) := by exact_mod_cast h7
      rw [abs_le]; omega
    · rcases le_or_gt ((2 : ℚ) ^ n) z with hz2 | hz2
      · obtain ⟨k, hk⟩ := repr_multiple hz (e := n - 52)
          (by rw [show 52 + (n - 52) = n by ring]; exact hz2.trans (le_abs_self z))
        rw [hk]; exact key k
      · refine (key (2 ^ 52)).trans ?_
        push_cast
        rw [e1] at hz2
        rw [abs_of_nonpos (by linarith), abs_of_nonpos (by linarith)]
        linarith
  rcases lt_trichotomy x 0 with h | rfl | h
  · obtain ⟨y, h1, h2⟩ := pos (-x) (by linarith)
    refine ⟨-y, repr_neg h1, fun z hz => ?_⟩
    have h3 := h2 (-z) (repr_neg hz)
    have e1 : |-y - x| = |y - -x| := by rw [← abs_neg]; congr 1; ring
    have e2 : |z - x| = |-z - -x| := by rw [← abs_neg]; congr 1; ring
    rw [e1, e2]; exact h3
  · exact ⟨0, repr_zero, fun z _ => by simp⟩
  · exact pos x h

/-- a number whose distance to a multiple of `2 ^ e` with 53 bits is less than half of `2 ^ e` is rounded to it -/
theorem Rounds.eq_of_close {fl : ℚ → ℚ} (hfl : Rounds fl) {x : ℚ} {k e : ℤ} (hk : |k| ≤ 2 ^ 53)
    (hx : (2 : ℚ) ^ (52 + e) ≤ x) (h : |k * (2 : ℚ) ^ e - x| < (2 : ℚ) ^ e / 2) : fl x = k * (2 : ℚ) ^ e := by
  have hp : (0 : ℚ) < (2 : ℚ) ^ (52 + e) := by positivity
  have h1 : (2 : ℚ) ^ (52 + e) ≤ fl x := hfl.ge_of_repr ⟨1, 52 + e, by norm_num, by simp⟩ hx
  obtain ⟨j, hj⟩ := repr_multiple (hfl.repr x) (e := e) (by rw [abs_of_pos (by linarith)]; exact h1)
  have h2 := hfl.nearest x (k * (2 : ℚ) ^ e) ⟨k, e, hk, rfl⟩
  rw [hj] at h2 ⊢
  have h3 : |((j - k : ℤ) : ℚ)| * (2 : ℚ) ^ e < 1 * (2 : ℚ) ^ e := by
    have hq : (0 : ℚ) < (2 : ℚ) ^ e := by positivity
    rw [← abs_of_pos hq, ← abs_mul, abs_of_pos hq]
    have e1 : ((j - k : ℤ) : ℚ) * (2 : ℚ) ^ e = (j * (2 : ℚ) ^ e - x) - (k * (2 : ℚ) ^ e - x) := by push_cast; ring
    rw [e1]
    refine lt_of_le_of_lt (abs_sub _ _) ?_
    linarith
  have h4 := lt_of_mul_lt_mul_right h3 (by positivity)
  have h5 : |j - k| < 1 := by exact_mod_cast h4
  have h6 : j = k := by rw [abs_lt] at h5; omega
  rw [h6]

/-- The statements about all functions that round are about something. -/
theorem exists_rounds : ∃ fl, Rounds fl := by
  choose fl h1 h2 using exists_nearest
  exact ⟨fl, h1, h2⟩

end Weldx.Binary64
