import Verif.Base.Binary64
import Verif.Time.Props

/-!
# `Time.resample` with the arithmetic of floating point numbers

`pandas.timedelta_range` with a number of values uses `numpy.linspace`, which calculates with floating point
numbers of 53 bits, although the time deltas are integers of 64 bits. The model of `resample` in
`Verif.Time.Model` uses exact arithmetic; here the operations are rounded.

* `linspaceF`: `numpy.linspace(start, stop, num)` is `arange(0, num) * step + start` with
  `step = (stop - start) / (num - 1)` and the last value replaced by `stop`; `timedelta_range` converts the
  values to integers with `astype("i8")`. Every operation is rounded to a nearest number with 53 bits.
* `resampleF`: `time.py` 636-659 with this function.

Not modelled: overflow (a time delta of `pandas` has less than 64 bits).
-/

namespace Weldx
namespace Time
open Binary64

/-- `pandas.timedelta_range(start, end, periods=n)` (called in `time.py` 646): `numpy.linspace` followed by
`astype("i8")`. -/
def linspaceF (fl : ℚ → ℚ) (t0 t1 : Int) (n : Nat) : List Int :=
  let start := fl t0
  let stop := fl t1
  let step := fl (fl (stop - start) / (n - 1 : ℚ))
  (List.range n).map fun i => trunc (if i + 1 = n then stop else fl (fl (i * step) + start))

/-- `resample` with a number, `time.py` 636-646, 655-658. -/
def resampleF (fl : ℚ → ℚ) (t : Time) (n : Int) : Except TimeError Time := do
  if t.vals.length ≤ 1 then .error .runtimeError
  else do
    let tdi ← t.asTimedelta
    match tdi.min?, tdi.max? with
    | some t0, some t1 => do
      let new ← if n < 2 then Except.error TimeError.valueError else .ok (linspaceF fl t0 t1 n.toNat)
      let new := if new.getLast? = some t1 then new else new ++ [t1]
      let ref ← t.referenceTime
      make false new ref
    | _, _ => .error .valueError

/-! ### `linspace` -/

section linspace

variable {fl : ℚ → ℚ} (hfl : Rounds fl)

include hfl

/-- Three rounded operations in a row. -/
theorem three_roundings {x : ℚ} (hx : 0 ≤ x) {i m : ℚ} (hi : 0 ≤ i) (hm : 0 < m) :
    |fl (i * fl (fl x / m)) - i * x / m| ≤ 4 / 2 ^ 53 * (i * x / m) ∧ 0 ≤ fl (fl x / m) := by
  have p0 : 0 ≤ fl x := hfl.ge_of_repr repr_zero hx
  have p1 : 0 ≤ fl x / m := div_nonneg p0 hm.le
  have p2 : 0 ≤ fl (fl x / m) := hfl.ge_of_repr repr_zero p1
  refine ⟨?_, p2⟩
  have e1 := hfl.error x
  have e2 := hfl.error (fl x / m)
  have e3 := hfl.error (i * fl (fl x / m))
  rw [abs_of_nonneg hx] at e1
  rw [abs_of_nonneg p1] at e2
  rw [abs_of_nonneg (mul_nonneg hi p2)] at e3
  generalize fl (i * fl (fl x / m)) = w at *
  generalize fl (fl x / m) = v at *
  generalize fl x = u at *
  rw [abs_le] at e1 e2 e3
  -- normalise by `m`
  set y := x / m with hy
  have hy0 : 0 ≤ y := div_nonneg hx hm.le
  have hu1 : u / m ≤ y * (1 + 1 / 2 ^ 53) := by
    rw [hy, div_mul_eq_mul_div]; exact div_le_div_of_nonneg_right (by linarith) hm.le
  have hu2 : y * (1 - 1 / 2 ^ 53) ≤ u / m := by
    rw [hy, div_mul_eq_mul_div]; exact div_le_div_of_nonneg_right (by linarith) hm.le
  generalize u / m = z at *
  have hv1 : v ≤ z * (1 + 1 / 2 ^ 53) := by linarith
  have hv2 : z * (1 - 1 / 2 ^ 53) ≤ v := by linarith
  have hv3 : v ≤ y * ((1 + 1 / 2 ^ 53) * (1 + 1 / 2 ^ 53)) := by
    have := mul_le_mul_of_nonneg_right hu1 (show (0 : ℚ) ≤ 1 + 1 / 2 ^ 53 by positivity)
    linarith
  have hv4 : y * ((1 - 1 / 2 ^ 53) * (1 - 1 / 2 ^ 53)) ≤ v := by
    have := mul_le_mul_of_nonneg_right hu2 (show (0 : ℚ) ≤ 1 - 1 / 2 ^ 53 by norm_num)
    linarith
  have hw1 : w ≤ i * v * (1 + 1 / 2 ^ 53) := by linarith
  have hw2 : i * v * (1 - 1 / 2 ^ 53) ≤ w := by linarith
  have hiv1 := mul_le_mul_of_nonneg_left hv3 hi
  have hiv2 := mul_le_mul_of_nonneg_left hv4 hi
  have hiv3 := mul_le_mul_of_nonneg_right hiv1 (show (0 : ℚ) ≤ 1 + 1 / 2 ^ 53 by positivity)
  have hiv4 := mul_le_mul_of_nonneg_right hiv2 (show (0 : ℚ) ≤ 1 - 1 / 2 ^ 53 by norm_num)
  have hiy : 0 ≤ i * y := mul_nonneg hi hy0
  have e : i * x / m = i * y := by rw [hy]; ring
  rw [e]
  generalize hq : i * y = q at *
  have c1 : w ≤ q * ((1 + 1 / 2 ^ 53) * (1 + 1 / 2 ^ 53) * (1 + 1 / 2 ^ 53)) := by
    rw [← hq]; linarith
  have c2 : q * ((1 - 1 / 2 ^ 53) * (1 - 1 / 2 ^ 53) * (1 - 1 / 2 ^ 53)) ≤ w := by
    rw [← hq]; linarith
  have c3 : q * ((1 + 1 / 2 ^ 53) * (1 + 1 / 2 ^ 53) * (1 + 1 / 2 ^ 53)) ≤ q * (1 + 4 / 2 ^ 53) :=
    mul_le_mul_of_nonneg_left (by norm_num) hiy
  have c4 : q * (1 - 4 / 2 ^ 53) ≤ q * ((1 - 1 / 2 ^ 53) * (1 - 1 / 2 ^ 53) * (1 - 1 / 2 ^ 53)) :=
    mul_le_mul_of_nonneg_left (by norm_num) hiy
  rw [abs_le]; constructor <;> linarith

/-- The values of `linspace` between two representable numbers `s ≤ e`: they start with `s`, are sorted, do
not exceed `e` and deviate from an even division by at most `(|s| + (e - s)) / 2 ^ 50`. -/
theorem linspaceF_val {s e : ℚ} (hs : Repr s) (he : Repr e) (hse : s ≤ e) {n : Nat} (hn : 2 ≤ n)
    (hn2 : n ≤ 2 ^ 51) :
    let y := fun i : Nat => if i + 1 = n then e else fl (fl (i * fl (fl (e - s) / (n - 1 : ℚ))) + s)
    y 0 = s ∧ (∀ i j, i ≤ j → j < n → y i ≤ y j) ∧
    ∀ i, i < n → |y i - (s + i * (e - s) / (n - 1))| ≤ (|s| + (e - s)) / 2 ^ 50 := by
  intro y
  have hm : (0 : ℚ) < (n : ℚ) - 1 := by
    have : (2 : ℚ) ≤ n := by exact_mod_cast hn
    linarith
  have hd : 0 ≤ e - s := by linarith
  have step := fun i : Nat => three_roundings hfl hd (i := (i : ℚ)) (by positivity) hm
  set st := fl (fl (e - s) / (n - 1 : ℚ)) with hst
  have hy : ∀ i, i + 1 ≠ n → y i = fl (fl (i * st) + s) := by
    intro i hi; rw [hst]; simp only [y, if_neg hi]
  have hyl : ∀ i, i + 1 = n → y i = e := by intro i hi; simp only [y, if_pos hi]
  have ratio : ∀ i : Nat, i + 1 < n →
      (i : ℚ) * (e - s) / (n - 1) ≤ (e - s) * (1 - 4 / 2 ^ 53) := by
    intro i hi
    rw [div_le_iff₀ hm, mul_comm (i : ℚ), mul_assoc]
    refine mul_le_mul_of_nonneg_left ?_ hd
    have h1 : (i : ℚ) + 2 ≤ n := by exact_mod_cast hi
    have h2 : (n : ℚ) ≤ 2 ^ 51 := by exact_mod_cast hn2
    have h3 : (4 / 2 ^ 53 : ℚ) * n ≤ 1 := by
      have := mul_le_mul_of_nonneg_left h2 (show (0 : ℚ) ≤ 4 / 2 ^ 53 by positivity)
      norm_num at this ⊢
      linarith
    linarith
  have below : ∀ i : Nat, i + 1 < n → fl (i * st) ≤ e - s := by
    intro i hi
    have h1 := (abs_le.1 (step i).1).2
    have h2 := ratio i hi
    have h3 := mul_le_mul_of_nonneg_left h2 (show (0 : ℚ) ≤ 1 + 4 / 2 ^ 53 by positivity)
    have h4 : (1 + 4 / 2 ^ 53 : ℚ) * ((e - s) * (1 - 4 / 2 ^ 53)) ≤ (e - s) := by
      have : (1 + 4 / 2 ^ 53 : ℚ) * ((e - s) * (1 - 4 / 2 ^ 53)) =
        (e - s) * ((1 + 4 / 2 ^ 53 : ℚ) * (1 - 4 / 2 ^ 53)) := by ring
      rw [this]
      have := mul_le_mul_of_nonneg_left (show ((1 + 4 / 2 ^ 53 : ℚ) * (1 - 4 / 2 ^ 53)) ≤ 1 by norm_num) hd
      linarith
    linarith
  refine ⟨?_, ?_, ?_⟩
  · rw [hy 0 (by omega)]
    simp [hfl.zero, hfl.exact hs]
  · intro i j hij hj
    by_cases h1 : j + 1 = n
    · rw [hyl j h1]
      by_cases h2 : i + 1 = n
      · rw [hyl i h2]
      · rw [hy i h2]
        have := below i (by omega)
        exact hfl.le_of_repr he (by linarith)
    · rw [hy j h1, hy i (by omega)]
      have h2 : (i : ℚ) ≤ j := by exact_mod_cast hij
      exact hfl.mono (by
        have := hfl.mono (mul_le_mul_of_nonneg_right h2 (step 0).2)
        linarith)
  · intro i hi
    by_cases h1 : i + 1 = n
    · rw [hyl i h1]
      have h2 : (i : ℚ) = n - 1 := by
        have : ((i + 1 : Nat) : ℚ) = n := by exact_mod_cast h1
        push_cast at this; linarith
      rw [h2, mul_comm, mul_div_assoc, div_self hm.ne']
      rw [show e - (s + (e - s) * 1) = 0 by ring, abs_zero]
      exact div_nonneg (add_nonneg (abs_nonneg _) hd) (by positivity)
    · rw [hy i h1]
      have h2 := (step i).1
      have h3 := hfl.error (fl (i * st) + s)
      have h4 := below i (by omega)
      have h5 : 0 ≤ fl (i * st) :=
        hfl.ge_of_repr repr_zero (mul_nonneg (by positivity) (step 0).2)
      have h6 : |fl (i * st) + s| ≤ (e - s) + |s| := by
        refine (abs_add_le _ _).trans ?_
        rw [abs_of_nonneg h5]; linarith
      have h7 := ratio i (by omega)
      have h8 : (i : ℚ) * (e - s) / (n - 1) ≤ e - s := by
        have := mul_le_mul_of_nonneg_left (show (1 - 4 / 2 ^ 53 : ℚ) ≤ 1 by norm_num) hd
        linarith
      have h9 : (4 / 2 ^ 53 : ℚ) * ((i : ℚ) * (e - s) / (n - 1)) ≤ 4 / 2 ^ 53 * (e - s) :=
        mul_le_mul_of_nonneg_left h8 (by positivity)
      have h10 := abs_nonneg s
      rw [abs_le] at h2 h3 ⊢
      generalize fl (fl (i * st) + s) = w at *
      generalize fl (i * st) = p at *
      generalize |p + s| = ps at *
      generalize (i : ℚ) * (e - s) / (n - 1) = r at *
      constructor <;> linarith [h2.1, h2.2, h3.1, h3.2]

end linspace

/-- The list `linspaceF` for all integers `t0 ≤ t1`. -/
theorem linspaceF_spec {fl : ℚ → ℚ} (hfl : Rounds fl) {t0 t1 : Int} (h : t0 ≤ t1) {n : Nat} (hn : 2 ≤ n)
    (hn2 : n ≤ 2 ^ 51) {s e : Int} (hs : fl t0 = s) (he : fl t1 = e) :
    (linspaceF fl t0 t1 n).length = n ∧ (linspaceF fl t0 t1 n).head? = some s ∧
      (linspaceF fl t0 t1 n).getLast? = some e ∧ (linspaceF fl t0 t1 n).Pairwise (· ≤ ·) ∧ s ≤ e ∧
      ∀ i, i < n → ∃ v : Int, (linspaceF fl t0 t1 n)[i]? = some v ∧
        |(v : ℚ) - (s + i * (e - s) / (n - 1))| < 1 + (|(s : ℚ)| + (e - s)) / 2 ^ 50 := by
  have hse : (s : ℚ) ≤ e := by
    rw [← hs, ← he]; exact hfl.mono (by exact_mod_cast h)
  obtain ⟨h1, h2, h3⟩ := linspaceF_val hfl (s := s) (e := e) (hs ▸ hfl.repr _) (he ▸ hfl.repr _) hse hn hn2
  have hl : linspaceF fl t0 t1 n = (List.range n).map fun i : Nat => trunc
      (if i + 1 = n then (e : ℚ) else fl (fl (i * fl (fl ((e : ℚ) - s) / (n - 1 : ℚ))) + s)) := by
    rw [linspaceF, hs, he]
  have hg : ∀ i, i < n → (linspaceF fl t0 t1 n)[i]? = some (trunc
      (if i + 1 = n then (e : ℚ) else fl (fl (i * fl (fl ((e : ℚ) - s) / (n - 1 : ℚ))) + s))) := by
    intro i hi; rw [hl]; simp [hi]
  have hlen : (linspaceF fl t0 t1 n).length = n := by rw [hl]; simp
  refine ⟨hlen, ?_, ?_, ?_, by exact_mod_cast hse, ?_⟩
  · rw [List.head?_eq_getElem?, hg 0 (by omega), show trunc _ = trunc _ from congrArg trunc h1, trunc_int]
  · rw [List.getLast?_eq_getElem?, hlen, hg (n - 1) (by omega), if_pos (by omega), trunc_int]
  · rw [hl, List.pairwise_map]
    refine List.Pairwise.imp_of_mem ?_ (List.pairwise_lt_range (n := n))
    intro i j hi hj hij
    exact trunc_mono (h2 i j hij.le (List.mem_range.1 hj))
  · intro i hi
    refine ⟨_, hg i hi, ?_⟩
    have h4 := h3 i hi
    have h5 := trunc_dist
      (if i + 1 = n then (e : ℚ) else fl (fl (i * fl (fl ((e : ℚ) - s) / (n - 1 : ℚ))) + s))
    dsimp only at h4
    generalize (if i + 1 = n then (e : ℚ) else _) = w at *
    rw [abs_lt] at h5 ⊢
    rw [abs_le] at h4
    constructor <;> linarith

/-! ### `resample` -/

theorem make_unsorted {l : List Int} {ro : Option Int} (h : ¬ l.Pairwise (· ≤ ·)) :
    make false l ro = .error .valueError := by
  cases ro with
  | none =>
    show (if monotonic l then _ else _) = _
    rw [if_neg (fun hm => h ((monotonic_iff _).1 hm))]
  | some r =>
    show (if monotonic (l.map (· + r)) then _ else _) = _
    rw [if_neg (fun hm => h ?_)]
    have := (monotonic_iff _).1 hm
    rw [List.pairwise_map] at this
    simpa using this

/-- The common part of `resampleF`. -/
theorem resampleF_eq (fl : ℚ → ℚ) {t : Time} (hv : t.Valid) {a b : Int} (hl : 2 ≤ t.vals.length)
    (ha : t.vals.head? = some a) (hb : t.vals.getLast? = some b) {n : Int} (hn : 2 ≤ n) :
    ∃ ro, t.referenceTime = .ok ro ∧ t.resampleF fl n =
      make false (if (linspaceF fl (a - t.offset : Int) (b - t.offset : Int) n.toNat).getLast? = some (b - t.offset)
        then linspaceF fl (a - t.offset : Int) (b - t.offset : Int) n.toNat
        else linspaceF fl (a - t.offset : Int) (b - t.offset : Int) n.toNat ++ [b - t.offset]) ro := by
  have hne : t.vals ≠ [] := by intro e; rw [e] at hl; simp at hl
  obtain ⟨ro, hro, -⟩ := make_offset hne (l := []) List.Pairwise.nil
  refine ⟨ro, hro, ?_⟩
  have hmm := sorted_min_max (l := t.vals.map (· - t.offset)) (a := a - t.offset) (b := b - t.offset)
    (by rw [List.pairwise_map]; simpa using hv.sorted) (by simp [ha]) (by simp [hb])
  have hlen : ¬ t.vals.length ≤ 1 := by omega
  rw [resampleF, if_neg hlen, asTimedelta_eq hne]
  show (match (t.vals.map (· - t.offset)).min?, (t.vals.map (· - t.offset)).max? with
    | some t0, some t1 => _
    | _, _ => _) = _
  rw [hmm.1, hmm.2.1]
  dsimp only
  rw [if_neg (by omega : ¬ n < 2), hro]
  rfl

/-- **C25.** In the arithmetic of floating point numbers resampling with a number `2 ≤ n ≤ 2 ^ 51` behaves as
follows, where `A` and `B` are the first and the last value as time deltas from the reference time and `s`
and `e` their nearest numbers with 53 bits. If `e` is larger than `B`, the call fails with a `ValueError`.
Otherwise the result is a time of the same kind and with the same reference time; it is sorted, starts with
`s`, ends with `B`, has `n` values if `e = B` and one more if not, and its `i`-th value deviates from an even
division of `s` to `e` by less than `1 + (|s| + (e - s)) / 2 ^ 50` nanoseconds. -/
theorem C25_float_values {fl : ℚ → ℚ} (hfl : Rounds fl) {t : Time} (hv : t.Valid) {a b : Int}
    (hl : 2 ≤ t.vals.length) (ha : t.vals.head? = some a) (hb : t.vals.getLast? = some b) {n : Int}
    (hn : 2 ≤ n) (hn2 : n ≤ 2 ^ 51) :
    ∃ s e : Int, fl (a - t.offset : Int) = s ∧ fl (b - t.offset : Int) = e ∧
      (b - t.offset < e → t.resampleF fl n = .error .valueError) ∧
      (e ≤ b - t.offset → ∃ u, t.resampleF fl n = .ok u ∧ u.abs = t.abs ∧ u.Valid ∧
        (∀ r, t.HasRef r → u.HasRef r) ∧
        (u.vals.length : Int) = (if e = b - t.offset then n else n + 1) ∧
        u.vals.head? = some (s + t.offset) ∧ u.vals.getLast? = some b ∧
        ∀ i : Nat, i < n → ∃ v : Int, u.vals[i]? = some (v + t.offset) ∧
          |(v : ℚ) - (s + i * (e - s) / (n - 1))| < 1 + (|(s : ℚ)| + (e - s)) / 2 ^ 50) := by
  obtain ⟨k, rfl⟩ : ∃ k : Nat, n = k := ⟨n.toNat, by omega⟩
  have hk : 2 ≤ k := by omega
  have hk2 : k ≤ 2 ^ 51 := by exact_mod_cast hn2
  have hne : t.vals ≠ [] := by intro e; rw [e] at hl; simp at hl
  have hab : a ≤ b := ((sorted_min_max hv.sorted ha hb).2.2 b (List.mem_of_getLast? hb)).1
  obtain ⟨s, hs⟩ := hfl.integer (a - t.offset)
  obtain ⟨e, he⟩ := hfl.integer (b - t.offset)
  obtain ⟨h1, h2, h3, h4, h5, h6⟩ := linspaceF_spec hfl (t0 := a - t.offset) (t1 := b - t.offset)
    (by omega) hk hk2 hs he
  obtain ⟨ro, hro, hr⟩ := resampleF_eq fl hv hl ha hb hn
  rw [show ((k : Int)).toNat = k by omega] at hr
  generalize linspaceF fl (a - t.offset : Int) (b - t.offset : Int) k = l at *
  refine ⟨s, e, hs, he, fun hlt => ?_, fun hle => ?_⟩
  · rw [hr, h3, if_neg (by simp; omega)]
    have hnot : ¬ (l ++ [b - t.offset]).Pairwise (· ≤ ·) := by
      intro hp
      rw [List.pairwise_append] at hp
      have := hp.2.2 e (List.mem_of_getLast? h3) (b - t.offset) (by simp)
      omega
    exact make_unsorted hnot
  · by_cases heq : e = b - t.offset
    · rw [if_pos heq]
      rw [h3, if_pos (by rw [heq])] at hr
      obtain ⟨ro', hro', u, hu, h7, h8, h9, h10⟩ := make_offset hne h4
      cases hro.symm.trans hro'
      refine ⟨u, hr.trans hu, h7, h8, fun r hr => ⟨h7.trans hr.1, .inl (h10 r hr)⟩, by rw [h9]; simp [h1],
        by rw [h9]; simp [h2], by rw [h9]; simp [h3, heq], fun i hi => ?_⟩
      obtain ⟨v, hv1, hv2⟩ := h6 i (by omega)
      exact ⟨v, by rw [h9]; simp [hv1], by exact_mod_cast hv2⟩
    · rw [if_neg heq]
      rw [h3, if_neg (by simpa using heq)] at hr
      have h4' : (l ++ [b - t.offset]).Pairwise (· ≤ ·) := by
        rw [List.pairwise_append]
        refine ⟨h4, by simp, fun x hx y hy => ?_⟩
        rw [List.mem_singleton] at hy
        subst hy
        obtain ⟨l', rfl⟩ := List.getLast?_eq_some_iff.1 h3
        rw [List.pairwise_append] at h4
        rcases List.mem_append.1 hx with hx | hx
        · have := h4.2.2 x hx e (by simp); omega
        · simp at hx; omega
      obtain ⟨ro', hro', u, hu, h7, h8, h9, h10⟩ := make_offset hne h4'
      cases hro.symm.trans hro'
      have hne2 : l ≠ [] := by intro e; rw [e] at h1; simp at h1; omega
      refine ⟨u, hr.trans hu, h7, h8, fun r hr => ⟨h7.trans hr.1, .inl (h10 r hr)⟩, by rw [h9]; simp [h1],
        by rw [h9, List.map_append]; simp [List.head?_append, h2], by rw [h9]; simp, fun i hi => ?_⟩
      obtain ⟨v, hv1, hv2⟩ := h6 i (by omega)
      exact ⟨v, by rw [h9, List.map_append, List.getElem?_append_left (by simp; omega)]; simp [hv1],
        by exact_mod_cast hv2⟩

/-- **C25** in the arithmetic of floating point numbers, for times whose first and last value are numbers
with 53 bits if they are counted from the reference time, in particular for all within `2 ^ 53` nanoseconds
(104 days): exactly `n` values, sorted, from the first to the last original value, within the original range,
and the `i`-th value deviates from an even division by less than `1 + (|A| + (B - A)) / 2 ^ 50` nanoseconds.
Missing: times for which one of the two is no such number; `C25_float_iff` shows that they are wrong. -/
theorem C25_float_number_partial {fl : ℚ → ℚ} (hfl : Rounds fl) {t : Time} (hv : t.Valid) {a b : Int}
    (hl : 2 ≤ t.vals.length) (ha : t.vals.head? = some a) (hb : t.vals.getLast? = some b) {n : Int}
    (hn : 2 ≤ n) (hn2 : n ≤ 2 ^ 51) (hA : Binary64.Repr ((a - t.offset : Int) : ℚ))
    (hB : Binary64.Repr ((b - t.offset : Int) : ℚ)) :
    ∃ u, t.resampleF fl n = .ok u ∧ u.abs = t.abs ∧ u.Valid ∧ (∀ r, t.HasRef r → u.HasRef r) ∧
      u.vals.length = n ∧ u.vals.head? = some a ∧ u.vals.getLast? = some b ∧
      (∀ x ∈ u.vals, a ≤ x ∧ x ≤ b) ∧
      ∀ i : Nat, i < n → ∃ v : Int, u.vals[i]? = some v ∧
        |(v : ℚ) - (a + i * (b - a) / (n - 1))| < 1 + (|(a : ℚ) - t.offset| + (b - a)) / 2 ^ 50 := by
  obtain ⟨s, e, hs, he, -, h⟩ := C25_float_values hfl hv hl ha hb hn hn2
  rw [hfl.exact hA] at hs
  rw [hfl.exact hB] at he
  have hs' : s = a - t.offset := by exact_mod_cast hs.symm
  have he' : e = b - t.offset := by exact_mod_cast he.symm
  subst hs' he'
  obtain ⟨u, h1, h2, h3, h4, h5, h6, h7, h8⟩ := h le_rfl
  rw [if_pos rfl] at h5
  rw [show a - t.offset + t.offset = a by ring] at h6
  refine ⟨u, h1, h2, h3, h4, h5, h6, h7, (sorted_min_max h3.sorted h6 h7).2.2, fun i hi => ?_⟩
  obtain ⟨v, hv1, hv2⟩ := h8 i hi
  refine ⟨_, hv1, ?_⟩
  push_cast at hv2 ⊢
  rw [show (v : ℚ) + t.offset - (a + i * (b - a) / (n - 1)) =
    v - (a - t.offset + i * (b - t.offset - (a - t.offset)) / (n - 1)) by ring]
  rw [show (b : ℚ) - a = b - t.offset - (a - t.offset) by ring]
  exact hv2

/-- **C25.** Resampling with a number returns that number of values from the first to the last original value
exactly if both are numbers with 53 bits, counted from the reference time. -/
theorem C25_float_iff {fl : ℚ → ℚ} (hfl : Rounds fl) {t : Time} (hv : t.Valid) {a b : Int}
    (hl : 2 ≤ t.vals.length) (ha : t.vals.head? = some a) (hb : t.vals.getLast? = some b) {n : Int}
    (hn : 2 ≤ n) (hn2 : n ≤ 2 ^ 51) :
    (∃ u, t.resampleF fl n = .ok u ∧ u.vals.length = n ∧ u.vals.head? = some a ∧ u.vals.getLast? = some b) ↔
      Binary64.Repr ((a - t.offset : Int) : ℚ) ∧ Binary64.Repr ((b - t.offset : Int) : ℚ) := by
  constructor
  · rintro ⟨u, h1, h2, h3, h4⟩
    obtain ⟨s, e, hs, he, herr, hok⟩ := C25_float_values hfl hv hl ha hb hn hn2
    rcases lt_or_ge (b - t.offset) e with hc | hc
    · rw [herr hc] at h1; cases h1
    · obtain ⟨u', h5, -, -, -, h6, h7, -⟩ := hok hc
      cases h1.symm.trans h5
      rw [h3] at h7
      have hs' : s = a - t.offset := by
        have : a = s + t.offset := by simpa using h7
        omega
      have he' : e = b - t.offset := by
        by_contra hne
        rw [if_neg hne] at h6
        omega
      subst hs' he'
      exact ⟨hfl.exact_iff.1 hs, hfl.exact_iff.1 he⟩
  · rintro ⟨hA, hB⟩
    obtain ⟨u, h1, -, -, -, h2, h3, h4, -⟩ := C25_float_number_partial hfl hv hl ha hb hn hn2 hA hB
    exact ⟨u, h1, h2, h3, h4⟩

/-! ### time stamps with microseconds -/

namespace FloatDemo

/-- `Time(["2020-01-01", "2020-01-01 00:00:01.000005"], "2000-01-01")` in nanoseconds since the reference
time: twenty years with five leap days are 631152000 seconds -/
def five : Time := ⟨true, [631152000000000000, 631152001000005000], some 0⟩

/-- `Time(["2020-01-01", "2020-01-01 00:00:01.000001"], "2000-01-01")` -/
def one : Time := ⟨true, [631152000000000000, 631152001000001000], some 0⟩

/-- `Time(["2020-01-01", "2020-01-01 00:00:01"], "2000-01-01")` -/
def seconds : Time := ⟨true, [631152000000000000, 631152001000000000], some 0⟩

theorem five_valid : five.Valid ∧ one.Valid ∧ seconds.Valid :=
  ⟨⟨by decide, by decide⟩, ⟨by decide, by decide⟩, ⟨by decide, by decide⟩⟩

/-- whole seconds are numbers with 53 bits for more than a century -/
theorem seconds_repr : Binary64.Repr ((631152000000000000 : Int) : ℚ) ∧
    Binary64.Repr ((631152001000000000 : Int) : ℚ) :=
  ⟨by simpa using repr_scaled (k := 1232718750000000) 9 (by norm_num),
    by simpa using repr_scaled (k := 1232718751953125) 9 (by norm_num)⟩

/-- Beyond `2 ^ 59` the numbers are multiples of `2 ^ 7`. -/
theorem spacing {fl : ℚ → ℚ} (hfl : Rounds fl) {x lo : Int} (hx : 2 ^ 59 ≤ x) (hlo : |lo| ≤ 2 ^ 53) :
    ∃ j : Int, fl x = ((j * 128 : Int) : ℚ) ∧ |j * 128 - x| ≤ |lo * 128 - x| := by
  have h1 : ((2 ^ 59 : Int) : ℚ) ≤ fl x :=
    hfl.ge_of_repr (by simpa using repr_scaled (k := 1) 59 (by norm_num)) (by exact_mod_cast hx)
  obtain ⟨j, hj⟩ := repr_multiple (hfl.repr x) (e := 7) (by
    push_cast at h1
    refine le_trans ?_ (le_abs_self _)
    norm_num at h1 ⊢
    exact h1)
  have h2 := hfl.nearest x _ (repr_scaled (k := lo) 7 hlo)
  have h3 : fl x = ((j * 128 : Int) : ℚ) := by rw [hj]; norm_num
  refine ⟨j, h3, ?_⟩
  rw [h3] at h2
  have h4 : |j * 128 - x| ≤ |lo * 2 ^ 7 - x| := by exact_mod_cast h2
  simpa using h4

/-- **C25 is false of the code:** three values requested, four returned. -/
theorem C25_float_counterexample {fl : ℚ → ℚ} (hfl : Rounds fl) :
    ∃ u, five.resampleF fl 3 = .ok u ∧ u.vals.length = 4 := by
  obtain ⟨s, e, -, he, -, h⟩ := C25_float_values hfl five_valid.1 (a := 631152000000000000)
    (b := 631152001000005000) (by decide) rfl rfl (n := 3) (by norm_num) (by norm_num)
  obtain ⟨j, h1, h2⟩ := spacing hfl (x := 631152001000005000) (lo := 631152001000005000 / 128) (by norm_num)
    (by norm_num)
  have ho : five.offset = 0 := rfl
  rw [ho] at he h
  rw [Int.sub_zero, h1] at he
  have he' : e = j * 128 := by exact_mod_cast he.symm
  norm_num at h2
  rw [abs_le] at h2
  obtain ⟨u, h3, -, -, -, h4, -⟩ := h (by omega)
  rw [if_neg (by omega)] at h4
  exact ⟨u, h3, by omega⟩

/-- **C25 is false of the code:** a `ValueError` because of times that are not monotonic, for a time and a
number that are valid. -/
theorem C25_float_error_counterexample {fl : ℚ → ℚ} (hfl : Rounds fl) :
    one.resampleF fl 3 = .error .valueError := by
  obtain ⟨s, e, -, he, h, -⟩ := C25_float_values hfl five_valid.2.1 (a := 631152000000000000)
    (b := 631152001000001000) (by decide) rfl rfl (n := 3) (by norm_num) (by norm_num)
  obtain ⟨j, h1, h2⟩ := spacing hfl (x := 631152001000001000) (lo := 631152001000001000 / 128 + 1) (by norm_num)
    (by norm_num)
  have ho : one.offset = 0 := rfl
  rw [ho] at he h
  rw [Int.sub_zero, h1] at he
  have he' : e = j * 128 := by exact_mod_cast he.symm
  norm_num at h2
  rw [abs_le] at h2
  exact h (by omega)

/-- The hypotheses of the theorems are met: there is a way to round and the time stamps with whole seconds
are resampled correctly. -/
example : ∃ fl u, Rounds fl ∧ seconds.resampleF fl 3 = .ok u ∧ u.vals.length = 3 := by
  obtain ⟨fl, hfl⟩ := exists_rounds
  obtain ⟨u, h1, -, -, -, h2, -⟩ := C25_float_number_partial hfl five_valid.2.2 (a := 631152000000000000)
    (b := 631152001000000000) (by decide) rfl rfl (n := 3) (by norm_num) (by norm_num)
    seconds_repr.1 seconds_repr.2
  exact ⟨fl, u, hfl, h1, by omega⟩

end FloatDemo

end Time
end Weldx
