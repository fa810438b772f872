import Verif.Base.Binary64
import Verif.Interp.Props

/-!
# Interpolation of arrays in time with the arithmetic of floating point numbers (C108)

Source: `/repo/weldx/util/xarray.py` 202-226 (`xr_fill_all`), 255-275 (`_add_coord_edges`), 278-395
(`xr_interp_like` with the method `linear`), 723-758 (`xr_interp_coordinates_in_time`).

`xarray` turns times into numbers by subtracting the first time of the data and converting the integers
(nanoseconds) to floating point numbers. `scipy.interpolate.interp1d` uses one of two rules: `numpy.interp` for data
with one dimension, and formulas of its own for data with more dimensions (like coordinates, which have the
dimensions `time` and `c`). Both calculate `slope * (x - x_lo) + y_lo`; they differ in the interval that is used at
a sample. Every operation is followed by a rounding to a nearest number with 53 bits.

Simplifications: as in `Verif.Interp.Model`; additionally, overflow and underflow are left out. The rules of the
libraries are taken from their documentation and source, which are not part of `/repo`.
-/

namespace Weldx.Ip

open Binary64

/-- the two ways `scipy.interpolate.interp1d` interpolates linearly -/
inductive Rule
  /-- `numpy.interp`, data with one dimension -/
  | oneDim
  /-- data with more dimensions -/
  | moreDims

section model
variable (fl : ℚ → ℚ) {ι : Type}

/-- the position of a time: nanoseconds since the first time of the data as floating point number -/
def pos (t0 t : Int) : ℚ := fl ((t - t0 : Int) : ℚ)

/-- `slope * (x - x_lo) + y_lo` with `slope = (y_hi - y_lo) / (x_hi - x_lo)` -/
def linF (x0 y0 x1 y1 x : ℚ) : ℚ := fl (fl (fl (fl (y1 - y0) / fl (x1 - x0)) * fl (x - x0)) + y0)

/-- the formula for all elements of an array -/
def linArr (t0 : Int) (p q : Int × (ι → ℚ)) (t : Int) : ι → ℚ := fun i =>
  linF fl (pos fl t0 p.1) (p.2 i) (pos fl t0 q.1) (q.2 i) (pos fl t0 t)

/-- linear interpolation by `interp1d`, no value outside the range of the data -/
def lin1d (rule : Rule) (t0 : Int) : Series (ι → ℚ) → Int → Option (ι → ℚ)
  | [], _ => none
  | [p], t => if pos fl t0 t = pos fl t0 p.1 then some p.2 else none
  | p :: q :: l, t =>
    match rule with
    | .oneDim =>
      if pos fl t0 t < pos fl t0 p.1 then none
      else if pos fl t0 t = pos fl t0 p.1 then some p.2
      else if pos fl t0 t < pos fl t0 q.1 then some (linArr fl t0 p q t)
      else lin1d rule t0 (q :: l) t
    | .moreDims =>
      if pos fl t0 t < pos fl t0 p.1 then none
      else if pos fl t0 t ≤ pos fl t0 q.1 then some (linArr fl t0 p q t)
      else lin1d rule t0 (q :: l) t

/-- the values at one point of the extended index, `util/xarray.py` 361-382. A single value is spread over the whole
index. -/
def rawF (rule : Rule) (s : Series (ι → ℚ)) (t : Int) : Option (ι → ℚ) :=
  match s with
  | [] => none
  | [p] => if t = p.1 then some p.2 else none
  | p :: q :: l => lin1d fl rule p.1 (p :: q :: l) t

/-- `xr_interp_like(da, {"time": ts}, method="linear")`, `util/xarray.py` 278-395 -/
def interpLikeF (rule : Rule) (s : Series (ι → ℚ)) (ts : List Int) : Option (List (ι → ℚ)) :=
  let index := addEdges s ts
  let da := fillAll (index.map (rawF fl rule s))
  ts.mapM fun t => (da[index.idxOf t]?).join

end model

/-! ### specification -/

section spec
variable {ι : Type}

/-- the exact value on the line through two samples -/
def onLine (p q : Int × (ι → ℚ)) (t : Int) (i : ι) : ℚ :=
  p.2 i + ((t : ℚ) - p.1) / (q.1 - p.1) * (q.2 i - p.2 i)

/-- at a time in the range of the data the value is the only one, or it is on the line through two neighbouring samples,
up to the error `2 ^ (-50)` relative to the larger one of the two -/
inductive Near (s : Series (ι → ℚ)) (t : Int) (v : ι → ℚ) : Prop
  | only {p : Int × (ι → ℚ)} : s = [p] → v = p.2 → Near s t v
  | between {k : ℕ} {p q : Int × (ι → ℚ)} : s[k]? = some p → s[k + 1]? = some q → p.1 ≤ t → t ≤ q.1 →
      (∀ i, |v i - onLine p q t i| ≤ max |p.2 i| |q.2 i| / 2 ^ 50) → Near s t v

/-- the time of the range from `a` to `b` that is closest to `t` -/
def clamp (a b t : Int) : Int := max a (min t b)

end spec

/-! ### one interval -/

section interval
variable {fl : ℚ → ℚ} (hfl : Rounds fl)

include hfl

theorem pos_exact {t0 t : Int} (h0 : t0 ≤ t) (h1 : t - t0 ≤ 2 ^ 53) : pos fl t0 t = (t : ℚ) - t0 := by
  unfold pos
  rw [hfl.exact (repr_small (by rw [abs_of_nonneg (by omega)]; exact h1))]
  push_cast; ring

theorem rounded {x : ℚ} : ∃ e : ℚ, |e| ≤ 1 / 2 ^ 53 ∧ fl x = x * (1 + e) := by
  by_cases h : x = 0
  · exact ⟨0, by norm_num, by rw [h, hfl.zero]; ring⟩
  refine ⟨(fl x - x) / x, ?_, by field_simp; ring⟩
  rw [abs_div, div_le_iff₀ (abs_pos.2 h)]
  have := hfl.error x
  linarith

/-- the error of the formula -/
theorem linF_error {x0 y0 x1 y1 x : ℚ} (h0 : x0 ≤ x) (h1 : x ≤ x1) (h : x0 < x1) (e1 : fl (x1 - x0) = x1 - x0)
    (e0 : fl (x - x0) = x - x0) :
    |linF fl x0 y0 x1 y1 x - (y0 + (x - x0) / (x1 - x0) * (y1 - y0))| ≤ max |y0| |y1| / 2 ^ 50 := by
  unfold linF
  rw [e1, e0]
  obtain ⟨a, ha, e⟩ := rounded hfl (x := y1 - y0)
  rw [e]
  obtain ⟨b, hb, e⟩ := rounded hfl (x := (y1 - y0) * (1 + a) / (x1 - x0))
  rw [e]
  obtain ⟨c, hc, e⟩ := rounded hfl (x := (y1 - y0) * (1 + a) / (x1 - x0) * (1 + b) * (x - x0))
  rw [e]
  obtain ⟨d, hd, e⟩ := rounded hfl (x := (y1 - y0) * (1 + a) / (x1 - x0) * (1 + b) * (x - x0) * (1 + c) + y0)
  rw [e]
  clear e
  have hX : 0 < x1 - x0 := by linarith
  set w := (x - x0) / (x1 - x0) with hw
  have w0 : 0 ≤ w := div_nonneg (by linarith) hX.le
  have w1 : w ≤ 1 := by rw [hw, div_le_one hX]; linarith
  have e : (y1 - y0) * (1 + a) / (x1 - x0) * (1 + b) * (x - x0) = w * (y1 - y0) * ((1 + a) * (1 + b)) := by
    rw [hw]; field_simp
  rw [e]
  set M := max |y0| |y1| with hM
  have m0 : |y0| ≤ M := le_max_left _ _
  have m1 : |y1| ≤ M := le_max_right _ _
  have hMn : 0 ≤ M := le_trans (abs_nonneg _) m0
  have hD : |w * (y1 - y0)| ≤ 2 * M := by
    rw [abs_mul, abs_of_nonneg w0]
    have h2 : |y1 - y0| ≤ 2 * M := by have := abs_sub y1 y0; linarith
    have := mul_le_mul w1 h2 (abs_nonneg _) zero_le_one
    linarith
  have hL : |y0 + w * (y1 - y0)| ≤ M := by
    rw [show y0 + w * (y1 - y0) = (1 - w) * y0 + w * y1 by ring]
    refine (abs_add_le _ _).trans ?_
    rw [abs_mul, abs_mul, abs_of_nonneg w0, abs_of_nonneg (by linarith : 0 ≤ 1 - w)]
    nlinarith
  set E := w * (y1 - y0) with hE
  have hk : |(1 + a) * (1 + b) * (1 + c) - 1| ≤ 3 / 2 ^ 53 + 4 / 2 ^ 106 := by
    rw [show (1 + a) * (1 + b) * (1 + c) - 1 = a + b + c + a * b + a * c + b * c + a * b * c by ring]
    have h1 : |a * b| ≤ 1 / 2 ^ 53 * (1 / 2 ^ 53) := by
      rw [abs_mul]; exact mul_le_mul ha hb (abs_nonneg _) (by norm_num)
    have h2 : |a * c| ≤ 1 / 2 ^ 53 * (1 / 2 ^ 53) := by
      rw [abs_mul]; exact mul_le_mul ha hc (abs_nonneg _) (by norm_num)
    have h3 : |b * c| ≤ 1 / 2 ^ 53 * (1 / 2 ^ 53) := by
      rw [abs_mul]; exact mul_le_mul hb hc (abs_nonneg _) (by norm_num)
    have h4 : |a * b * c| ≤ 1 / 2 ^ 53 * (1 / 2 ^ 53) * (1 / 2 ^ 53) := by
      rw [abs_mul]; exact mul_le_mul h1 hc (abs_nonneg _) (by norm_num)
    rw [abs_le] at *
    norm_num at *
    constructor <;> linarith [h1.1, h1.2, h2.1, h2.2, h3.1, h3.2, h4.1, h4.2, ha.1, ha.2, hb.1, hb.2, hc.1, hc.2]
  set K := (1 + a) * (1 + b) * (1 + c) - 1 with hK
  rw [show (E * ((1 + a) * (1 + b)) * (1 + c) + y0) * (1 + d) - (y0 + E) = E * K * (1 + d) + (y0 + E) * d by
    rw [hK]; ring]
  refine (abs_add_le _ _).trans ?_
  have h1 : |E * K * (1 + d)| ≤ 2 * M * (3 / 2 ^ 53 + 4 / 2 ^ 106) * (1 + 1 / 2 ^ 53) := by
    rw [abs_mul, abs_mul]
    refine mul_le_mul (mul_le_mul hD hk (abs_nonneg _) (by positivity)) ?_ (abs_nonneg _) (by positivity)
    have := abs_add_le 1 d
    rw [abs_one] at this
    linarith
  have h2 : |(y0 + E) * d| ≤ M * (1 / 2 ^ 53) := by
    rw [abs_mul]; exact mul_le_mul hL hd (abs_nonneg _) hMn
  have h3 : 2 * M * (3 / 2 ^ 53 + 4 / 2 ^ 106) * (1 + 1 / 2 ^ 53) + M * (1 / 2 ^ 53) =
    M * (2 * (3 / 2 ^ 53 + 4 / 2 ^ 106) * (1 + 1 / 2 ^ 53) + 1 / 2 ^ 53) := by ring
  have h4 : M * (2 * (3 / 2 ^ 53 + 4 / 2 ^ 106) * (1 + 1 / 2 ^ 53) + 1 / 2 ^ 53) ≤ M * (1 / 2 ^ 50) :=
    mul_le_mul_of_nonneg_left (by norm_num) hMn
  have h5 : M * (1 / 2 ^ 50) = M / 2 ^ 50 := by ring
  linarith

/-- at the lower end -/
theorem linF_left {x0 y0 x1 y1 : ℚ} (hy : Repr y0) : linF fl x0 y0 x1 y1 x0 = y0 := by
  unfold linF
  rw [sub_self, hfl.zero, mul_zero, hfl.zero, zero_add, hfl.exact hy]

/-- equal values -/
theorem linF_const {x0 y0 x1 x : ℚ} (hy : Repr y0) : linF fl x0 y0 x1 y0 x = y0 := by
  unfold linF
  rw [sub_self, hfl.zero, zero_div, hfl.zero, zero_mul, hfl.zero, zero_add, hfl.exact hy]

/-- larger positions do not have smaller values if the values increase -/
theorem linF_mono {x0 y0 x1 y1 x x' : ℚ} (h : x0 < x1) (hy : y0 ≤ y1) (hx : x ≤ x') :
    linF fl x0 y0 x1 y1 x ≤ linF fl x0 y0 x1 y1 x' := by
  have h1 : 0 ≤ fl (fl (y1 - y0) / fl (x1 - x0)) := by
    refine hfl.ge_of_repr repr_zero (div_nonneg ?_ ?_) <;> exact hfl.ge_of_repr repr_zero (by linarith)
  unfold linF
  refine hfl.mono (by gcongr; exact hfl.mono (mul_le_mul_of_nonneg_left (hfl.mono (by linarith)) h1))

theorem linF_anti {x0 y0 x1 y1 x x' : ℚ} (h : x0 < x1) (hy : y1 ≤ y0) (hx : x ≤ x') :
    linF fl x0 y0 x1 y1 x' ≤ linF fl x0 y0 x1 y1 x := by
  have h1 : fl (fl (y1 - y0) / fl (x1 - x0)) ≤ 0 := by
    refine hfl.le_of_repr repr_zero (div_nonpos_of_nonpos_of_nonneg ?_ ?_)
    · exact hfl.le_of_repr repr_zero (by linarith)
    · exact hfl.ge_of_repr repr_zero (by linarith)
  unfold linF
  refine hfl.mono (by gcongr; exact hfl.mono (mul_le_mul_of_nonpos_left (hfl.mono (by linarith)) h1))

end interval

/-! ### all intervals -/

section all
variable {fl : ℚ → ℚ} {ι : Type}

/-- where the value at a time comes from -/
inductive Chosen (fl : ℚ → ℚ) (rule : Rule) (t0 : Int) (s : Series (ι → ℚ)) (t : Int) (v : ι → ℚ) : Prop
  | sample : (t, v) ∈ s → (rule = .moreDims → s.length = 1) → Chosen fl rule t0 s t v
  | inner {k : ℕ} {p q : Int × (ι → ℚ)} : s[k]? = some p → s[k + 1]? = some q → p.1 ≤ t → t ≤ q.1 →
      (rule = .oneDim → p.1 < t ∧ t < q.1) → (p.1 = t → k = 0) → v = linArr fl t0 p q t → Chosen fl rule t0 s t v

variable (hfl : Rounds fl)
include hfl

theorem pos_lt {t0 a t : Int} (h0 : t0 ≤ a) (h1 : a - t0 < 2 ^ 53) : (pos fl t0 t < pos fl t0 a ↔ t < a) ∧
    (pos fl t0 t = pos fl t0 a ↔ t = a) := by
  have ha := pos_exact hfl h0 h1.le
  rcases lt_trichotomy t a with h | h | h
  · have h2 : pos fl t0 t ≤ ((a - 1 - t0 : Int) : ℚ) :=
      hfl.le_of_repr (repr_small (by rw [abs_le]; omega)) (by exact_mod_cast (by omega : t - t0 ≤ a - 1 - t0))
    have h3 : pos fl t0 t < pos fl t0 a := by rw [ha]; push_cast at h2; linarith
    exact ⟨⟨fun _ => h, fun _ => h3⟩, ⟨fun e => absurd e h3.ne, fun e => absurd e h.ne⟩⟩
  · subst h; simp
  · have h2 : ((a + 1 - t0 : Int) : ℚ) ≤ pos fl t0 t :=
      hfl.ge_of_repr (repr_small (by rw [abs_le]; omega)) (by exact_mod_cast (by omega : a + 1 - t0 ≤ t - t0))
    have h3 : pos fl t0 a < pos fl t0 t := by rw [ha]; push_cast at h2; linarith
    exact ⟨⟨fun e => absurd e (not_lt.2 h3.le), fun e => absurd e (by omega)⟩,
      ⟨fun e => absurd e h3.ne', fun e => absurd e (by omega)⟩⟩

theorem pos_le {t0 a t : Int} (h0 : t0 ≤ a) (h1 : a - t0 < 2 ^ 53) : pos fl t0 t ≤ pos fl t0 a ↔ t ≤ a := by
  rw [le_iff_lt_or_eq, (pos_lt hfl h0 h1).1, (pos_lt hfl h0 h1).2, ← le_iff_lt_or_eq]

theorem lin1d_spec (rule : Rule) {t0 : Int} : ∀ {s : Series (ι → ℚ)}, Ascending s →
    (∀ p ∈ s, t0 ≤ p.1 ∧ p.1 - t0 < 2 ^ 53) → ∀ {p q : Int × (ι → ℚ)}, s.head? = some p → s.getLast? = some q →
    ∀ t : Int, (t < p.1 → lin1d fl rule t0 s t = none) ∧ (q.1 < t → lin1d fl rule t0 s t = none) ∧
      (p.1 ≤ t → t ≤ q.1 → ∃ v, lin1d fl rule t0 s t = some v ∧ Chosen fl rule t0 s t v)
  | [], _, _, p, q, hp, _, t => by simp at hp
  | [a], _, hr, p, q, hp, hq, t => by
    simp only [List.head?_cons, Option.some.injEq, List.getLast?_singleton] at hp hq
    subst hp; subst hq
    simp only [lin1d, (pos_lt hfl (hr a (by simp)).1 (hr a (by simp)).2).2]
    refine ⟨fun h => if_neg (by omega), fun h => if_neg (by omega), fun h1 h2 =>
      ⟨a.2, if_pos (by omega), .sample ?_ fun _ => rfl⟩⟩
    have : t = a.1 := by omega
    subst this
    simp
  | a :: b :: l, h, hr, p, q, hp, hq, t => by
    simp only [List.head?_cons, Option.some.injEq] at hp
    subst hp
    have hab : a.1 < b.1 := (List.pairwise_cons.1 h).1 b (by simp)
    have hq' : (b :: l).getLast? = some q := by simpa [List.getLast?_cons_cons] using hq
    have hbq := asc_last (List.pairwise_cons.1 h).2 hq' (by simp : b ∈ b :: l)
    have ra := hr a (by simp)
    have rb := hr b (by simp)
    have ih := lin1d_spec rule (s := b :: l) (List.pairwise_cons.1 h).2 (fun x hx => hr x (by simp [hx])) rfl hq' t
    cases rule with
    | oneDim =>
      simp only [lin1d, (pos_lt hfl ra.1 ra.2).1, (pos_lt hfl ra.1 ra.2).2, (pos_lt hfl rb.1 rb.2).1]
      refine ⟨fun h => if_pos h, ?_, ?_⟩
      · intro h1
        rw [if_neg (by omega), if_neg (by omega), if_neg (by omega)]
        exact ih.2.1 h1
      · intro h1 h2
        rw [if_neg (by omega)]
        by_cases h3 : t = a.1
        · rw [if_pos h3]
          exact ⟨_, rfl, .sample (by rw [h3]; simp) (by simp)⟩
        rw [if_neg h3]
        by_cases h4 : t < b.1
        · rw [if_pos h4]
          exact ⟨_, rfl, .inner (k := 0) rfl rfl h1 h4.le (fun _ => ⟨by omega, h4⟩) (fun _ => rfl) rfl⟩
        · rw [if_neg h4]
          obtain ⟨v, hv, hc⟩ := ih.2.2 (by omega) h2
          refine ⟨v, hv, ?_⟩
          cases hc with
          | sample hm _ => exact .sample (List.mem_cons_of_mem _ hm) (by simp)
          | @inner k p' q' c1 c2 c3 c4 c5 c6 c7 =>
            exact .inner (k := k + 1) (by simpa using c1) (by simpa using c2) c3 c4 c5
              (fun e => absurd e (c5 rfl).1.ne) c7
    | moreDims =>
      simp only [lin1d, (pos_lt hfl ra.1 ra.2).1, pos_le hfl rb.1 rb.2]
      refine ⟨fun h => if_pos h, ?_, ?_⟩
      · intro h1
        rw [if_neg (by omega), if_neg (by omega)]
        exact ih.2.1 h1
      · intro h1 h2
        rw [if_neg (by omega)]
        by_cases h4 : t ≤ b.1
        · rw [if_pos h4]
          exact ⟨_, rfl, .inner (k := 0) rfl rfl h1 h4 (by simp) (fun _ => rfl) rfl⟩
        · rw [if_neg h4]
          obtain ⟨v, hv, hc⟩ := ih.2.2 (by omega) h2
          refine ⟨v, hv, ?_⟩
          cases hc with
          | sample hm hl =>
            exfalso
            have h5 := hl rfl
            cases l with
            | nil =>
              simp only [List.mem_singleton] at hm
              have : t = b.1 := by rw [← hm]
              omega
            | cons c l => simp at h5
          | @inner k p' q' c1 c2 c3 c4 c5 c6 c7 =>
            refine .inner (k := k + 1) (by simpa using c1) (by simpa using c2) c3 c4 (by simp) (fun e => ?_) c7
            have := c6 e
            subst this
            simp only [List.getElem?_cons_zero, Option.some.injEq] at c1
            subst c1
            omega

end all

/-! ### interpolation -/

section interp
variable {fl : ℚ → ℚ} {ι : Type}

/-- the data: times strictly increase and the whole range is shorter than `2 ^ 53` nanoseconds (104 days) -/
structure Usable (s : Series (ι → ℚ)) (a b : Int × (ι → ℚ)) : Prop where
  ascending : Ascending s
  first : s.head? = some a
  last : s.getLast? = some b
  short : b.1 - a.1 < 2 ^ 53

theorem Usable.range {s : Series (ι → ℚ)} {a b : Int × (ι → ℚ)} (h : Usable s a b) :
    ∀ p ∈ s, a.1 ≤ p.1 ∧ p.1 - a.1 < 2 ^ 53 := by
  intro p hp
  have h1 := asc_first h.ascending h.first hp
  have h2 := asc_last h.ascending h.last hp
  have := h.short
  omega

theorem Usable.le {s : Series (ι → ℚ)} {a b : Int × (ι → ℚ)} (h : Usable s a b) : a.1 ≤ b.1 :=
  asc_last h.ascending h.last (List.mem_of_mem_head? h.first)

variable (hfl : Rounds fl)
include hfl

/-- every value comes from the samples around the time in the range of the data that is closest to the requested one -/
theorem interpF_chosen (rule : Rule) {s : Series (ι → ℚ)} {a b : Int × (ι → ℚ)} (h : Usable s a b) {ts : List Int}
    (ht : ts.Pairwise (· < ·)) : ∃ r, interpLikeF fl rule s ts = some r ∧
      List.Forall₂ (fun t v => Chosen fl rule a.1 s (clamp a.1 b.1 t) v) ts r := by
  have e1 : ∀ t, rawF fl rule s t = match s with
      | [p] => if t = p.1 then some p.2 else none
      | s => lin1d fl rule a.1 s t := by
    intro t
    match s, h.first with
    | [p], _ => rfl
    | p :: q :: l, hf => simp only [List.head?_cons, Option.some.injEq] at hf; subst hf; rfl
  have spec : ∀ t, (t < a.1 → rawF fl rule s t = none) ∧ (b.1 < t → rawF fl rule s t = none) ∧
      (a.1 ≤ t → t ≤ b.1 → ∃ v, rawF fl rule s t = some v ∧ Chosen fl rule a.1 s t v) := by
    intro t
    rw [e1]
    match s, h with
    | [], h => have := h.first; simp at this
    | [p], h =>
      have h1 := h.first
      have h2 := h.last
      simp only [List.head?_cons, Option.some.injEq, List.getLast?_singleton] at h1 h2
      subst h1; subst h2
      refine ⟨fun h => if_neg (by omega), fun h => if_neg (by omega), fun h1 h2 =>
        ⟨p.2, if_pos (by omega), .sample ?_ fun _ => rfl⟩⟩
      have : t = p.1 := by omega
      subst this
      simp
    | p :: q :: l, h => exact lin1d_spec hfl rule h.ascending h.range h.first h.last t
  have hadd : (addEdges s ts).Pairwise (· < ·) ∧ a.1 ∈ addEdges s ts ∧ b.1 ∈ addEdges s ts ∧
      ∀ t ∈ ts, t ∈ addEdges s ts := by
    match s, h with
    | [], h => have := h.first; simp at this
    | [p], h =>
      have h1 := h.first
      have h2 := h.last
      simp only [List.head?_cons, Option.some.injEq, List.getLast?_singleton] at h1 h2
      subst h1; subst h2
      have h1 : [p.1].Pairwise (· < ·) := by simp
      simp only [addEdges]
      refine ⟨union_strict ht h1, ?_, ?_, ?_⟩
      · rw [Time.mem_unionVals (sorted_le ht) (sorted_le h1)]; simp
      · rw [Time.mem_unionVals (sorted_le ht) (sorted_le h1)]; simp
      · intro t h'
        rw [Time.mem_unionVals (sorted_le ht) (sorted_le h1)]; simp [h']
    | p :: q :: l, h =>
      have hf := h.first
      simp only [List.head?_cons, Option.some.injEq] at hf
      subst hf
      have hl' : (q :: l).getLast? = some b := by simpa [List.getLast?_cons_cons] using h.last
      have h1 : [p.1, b.1].Pairwise (· < ·) := by
        simpa using (List.pairwise_cons.1 h.ascending).1 b (List.mem_of_getLast? hl')
      have e : addEdges (p :: q :: l) ts = Time.unionVals ts [p.1, b.1] := by
        simp only [addEdges, h.last]
      rw [e]
      refine ⟨union_strict ht h1, ?_, ?_, ?_⟩
      · rw [Time.mem_unionVals (sorted_le ht) (sorted_le h1)]; simp
      · rw [Time.mem_unionVals (sorted_le ht) (sorted_le h1)]; simp
      · intro t h'
        rw [Time.mem_unionVals (sorted_le ht) (sorted_le h1)]; simp [h']
  obtain ⟨hg, hag, hbg, hts⟩ := hadd
  have hab := h.le
  unfold interpLikeF
  apply mapM_forall
  intro t htm
  have htg := hts t htm
  by_cases h1 : t < a.1
  · obtain ⟨v, hv, hc⟩ := (spec a.1).2.2 le_rfl hab
    refine ⟨v, filled_before hg hag hv (fun u hu => (spec u).1 hu) htg h1, ?_⟩
    rwa [show clamp a.1 b.1 t = a.1 by unfold clamp; omega]
  by_cases h2 : b.1 < t
  · obtain ⟨v, hv, hc⟩ := (spec b.1).2.2 hab le_rfl
    refine ⟨v, filled_after hg hbg hv (fun u hu => (spec u).2.1 hu) htg h2, ?_⟩
    rwa [show clamp a.1 b.1 t = b.1 by unfold clamp; omega]
  · obtain ⟨v, hv, hc⟩ := (spec t).2.2 (by omega) (by omega)
    refine ⟨v, filled_some htg hv, ?_⟩
    rwa [show clamp a.1 b.1 t = t by unfold clamp; omega]

/-- differences of positions are exact -/
theorem pos_sub {t0 p t : Int} (h0 : t0 ≤ p) (h1 : p ≤ t) (h2 : t - t0 < 2 ^ 53) :
    pos fl t0 t - pos fl t0 p = (t : ℚ) - p ∧ fl (pos fl t0 t - pos fl t0 p) = pos fl t0 t - pos fl t0 p := by
  rw [pos_exact hfl h0 (by omega), pos_exact hfl (by omega : t0 ≤ t) (by omega)]
  have e : (t : ℚ) - t0 - ((p : ℚ) - t0) = ((t - p : Int) : ℚ) := by push_cast; ring
  rw [e]
  exact ⟨by push_cast; ring, hfl.exact (repr_small (by rw [abs_le]; omega))⟩

/-- the value in an interval -/
theorem linArr_error {t0 t : Int} {p q : Int × (ι → ℚ)} (h0 : t0 ≤ p.1) (h1 : p.1 ≤ t) (h2 : t ≤ q.1) (hpq : p.1 < q.1)
    (h3 : q.1 - t0 < 2 ^ 53) (i : ι) :
    |linArr fl t0 p q t i - onLine p q t i| ≤ max |p.2 i| |q.2 i| / 2 ^ 50 := by
  obtain ⟨a1, a2⟩ := pos_sub hfl h0 hpq.le h3
  obtain ⟨b1, b2⟩ := pos_sub hfl h0 h1 (by omega)
  have c1 : (p.1 : ℚ) < q.1 := by exact_mod_cast hpq
  have c2 : (p.1 : ℚ) ≤ t := by exact_mod_cast h1
  have c3 : (t : ℚ) ≤ q.1 := by exact_mod_cast h2
  have := linF_error hfl (y0 := p.2 i) (y1 := q.2 i) (x0 := pos fl t0 p.1) (x1 := pos fl t0 q.1) (x := pos fl t0 t)
    (by linarith) (by linarith) (by linarith) a2 b2
  rw [a1, b1] at this
  exact this

/-- **C108**: interpolation with rounded numbers has a value for every time. It is on the line through the neighbouring
samples, with a relative error of at most `2 ^ (-50)`. Times outside of the data count like the first or the last one. -/
theorem C108_interp (rule : Rule) {s : Series (ι → ℚ)} {a b : Int × (ι → ℚ)} (h : Usable s a b) {ts : List Int}
    (ht : ts.Pairwise (· < ·)) : ∃ r, interpLikeF fl rule s ts = some r ∧
      List.Forall₂ (fun t v => Near s (clamp a.1 b.1 t) v) ts r := by
  obtain ⟨r, hr, hf⟩ := interpF_chosen hfl rule h ht
  refine ⟨r, hr, hf.imp ?_⟩
  intro t v hc
  generalize clamp a.1 b.1 t = u at hc
  cases hc with
  | sample hm hl =>
    obtain ⟨k, hk⟩ := List.getElem?_of_mem hm
    by_cases h1 : s.length = 1
    · obtain ⟨p, rfl⟩ := List.length_eq_one_iff.1 h1
      simp only [List.mem_singleton] at hm
      exact .only rfl (by rw [← hm])
    have hlt := (List.getElem?_eq_some_iff.1 hk).1
    by_cases h2 : k + 1 < s.length
    · have hn := List.getElem?_eq_getElem h2
      have hlt' := asc_index h.ascending hk hn (by omega)
      refine .between hk hn le_rfl hlt'.le fun i => ?_
      have : onLine (u, v) (s[k + 1]) u i = v i := by unfold onLine; simp
      rw [this, sub_self, abs_zero]; positivity
    · have h3 : k - 1 < s.length := by omega
      have hn := List.getElem?_eq_getElem h3
      have hk' : s[(k - 1) + 1]? = some (u, v) := by rw [show k - 1 + 1 = k by omega]; exact hk
      have hlt' := asc_index h.ascending hn hk' (by omega)
      refine .between hn hk' hlt'.le le_rfl fun i => ?_
      have : onLine (s[k - 1]) (u, v) u i = v i := by
        unfold onLine
        have h5 : ((u : ℚ) - ((s[k - 1]).1 : ℚ)) ≠ 0 := by
          have : ((s[k - 1]).1 : ℚ) < u := by exact_mod_cast hlt'
          linarith
        simp only
        rw [div_self h5]; ring
      rw [this, sub_self, abs_zero]; positivity
  | @inner k p q c1 c2 c3 c4 c5 c6 c7 =>
    have hp := h.range p (List.mem_of_getElem? c1)
    have hq := h.range q (List.mem_of_getElem? c2)
    refine .between c1 c2 c3 c4 fun i => ?_
    rw [c7]
    exact linArr_error hfl hp.1 c3 c4 (asc_index h.ascending c1 c2 (by omega)) hq.2 i

/-- **C108**: samples that are floating point numbers are reproduced exactly: all of them for data with one dimension, the
first one for data with more dimensions. This includes the values outside of the range of the data. -/
theorem C108_samples (rule : Rule) {s : Series (ι → ℚ)} {a b : Int × (ι → ℚ)} (h : Usable s a b)
    (hs : ∀ p ∈ s, ∀ i, Repr (p.2 i)) {ts : List Int}
    (ht : ts.Pairwise (· < ·)) : ∃ r, interpLikeF fl rule s ts = some r ∧
      List.Forall₂ (fun t v => ∀ w, (clamp a.1 b.1 t, w) ∈ s → rule = .oneDim ∨ t ≤ a.1 → v = w) ts r := by
  obtain ⟨r, hr, hf⟩ := interpF_chosen hfl rule h ht
  refine ⟨r, hr, hf.imp ?_⟩
  intro t v hc w hw hor
  have hcl : t ≤ a.1 → clamp a.1 b.1 t = a.1 := by
    intro h'; have := h.le; unfold clamp; omega
  generalize clamp a.1 b.1 t = u at *
  have uniq : ∀ {x y : Int × (ι → ℚ)}, x ∈ s → y ∈ s → x.1 = y.1 → x = y := by
    intro x y hx hy e
    obtain ⟨i, hi⟩ := List.getElem?_of_mem hx
    obtain ⟨j, hj⟩ := List.getElem?_of_mem hy
    rcases lt_trichotomy i j with hij | hij | hij
    · have := asc_index h.ascending hi hj hij; omega
    · subst hij; rw [hi] at hj; exact Option.some.inj hj
    · have := asc_index h.ascending hj hi hij; omega
  cases hc with
  | sample hm _ => exact congrArg Prod.snd (uniq hm hw rfl)
  | @inner k p q c1 c2 c3 c4 c5 c6 c7 =>
    have hpm := List.mem_of_getElem? c1
    rcases hor with ho | ho
    · exfalso
      obtain ⟨j, hj⟩ := List.getElem?_of_mem hw
      have c8 := c5 ho
      rcases Nat.lt_or_ge j (k + 1) with hjk | hjk
      · have := asc_index_le h.ascending hj c1 (by omega); simp only at this; omega
      · have := asc_index_le h.ascending c2 hj (by omega); simp only at this; omega
    · have hu := hcl ho
      have h1 := asc_first h.ascending h.first hpm
      have e : p = (u, w) := uniq hpm hw (by simp only; omega)
      subst e
      rw [c7]
      funext i
      exact linF_left hfl (hs _ hpm i)

/-- **C108**: an element that has the same value at both samples around a time has exactly this value, and a value between
two samples is never outside of them on the side of the earlier one. -/
theorem C108_order (rule : Rule) {s : Series (ι → ℚ)} {a b : Int × (ι → ℚ)} (h : Usable s a b)
    (hs : ∀ p ∈ s, ∀ i, Repr (p.2 i)) {ts : List Int}
    (ht : ts.Pairwise (· < ·)) : ∃ r, interpLikeF fl rule s ts = some r ∧
      List.Forall₂ (fun t v => s = [(clamp a.1 b.1 t, v)] ∨ ∃ (k : ℕ) (p q : Int × (ι → ℚ)), s[k]? = some p ∧
        s[k + 1]? = some q ∧ p.1 ≤ clamp a.1 b.1 t ∧ clamp a.1 b.1 t ≤ q.1 ∧
        ∀ i, (p.2 i = q.2 i → v i = p.2 i) ∧ (p.2 i ≤ q.2 i → p.2 i ≤ v i) ∧ (q.2 i ≤ p.2 i → v i ≤ p.2 i)) ts r := by
  obtain ⟨r, hr, hf⟩ := interpF_chosen hfl rule h ht
  refine ⟨r, hr, hf.imp ?_⟩
  intro t v hc
  generalize clamp a.1 b.1 t = u at *
  cases hc with
  | sample hm hl =>
    by_cases h1 : s.length = 1
    · obtain ⟨p, rfl⟩ := List.length_eq_one_iff.1 h1
      simp only [List.mem_singleton] at hm
      left; rw [hm]
    right
    obtain ⟨k, hk⟩ := List.getElem?_of_mem hm
    have hlt := (List.getElem?_eq_some_iff.1 hk).1
    by_cases h2 : k + 1 < s.length
    · have hn := List.getElem?_eq_getElem h2
      have hlt' := asc_index h.ascending hk hn (by omega)
      exact ⟨k, _, _, hk, hn, le_rfl, hlt'.le, fun i => ⟨fun _ => rfl, fun _ => le_rfl, fun _ => le_rfl⟩⟩
    · have h3 : k - 1 < s.length := by omega
      have hn := List.getElem?_eq_getElem h3
      have hk' : s[(k - 1) + 1]? = some (u, v) := by rw [show k - 1 + 1 = k by omega]; exact hk
      have hlt' := asc_index h.ascending hn hk' (by omega)
      exact ⟨k - 1, _, _, hn, hk', hlt'.le, le_rfl, fun i => ⟨fun e => e.symm, fun e => e, fun e => e⟩⟩
  | @inner k p q c1 c2 c3 c4 c5 c6 c7 =>
    right
    have hp := h.range p (List.mem_of_getElem? c1)
    have hq := h.range q (List.mem_of_getElem? c2)
    have hpq := asc_index h.ascending c1 c2 (by omega)
    have hx : pos fl a.1 p.1 < pos fl a.1 q.1 := (pos_lt hfl hq.1 hq.2).1.2 hpq
    have hu : pos fl a.1 p.1 ≤ pos fl a.1 u := by
      rcases c3.eq_or_lt with e | e
      · rw [e]
      · exact ((pos_lt hfl (by omega) (by omega)).1.2 e).le
    refine ⟨k, p, q, c1, c2, c3, c4, fun i => ?_⟩
    have hy := hs p (List.mem_of_getElem? c1) i
    rw [c7]
    refine ⟨fun e => ?_, fun e => ?_, fun e => ?_⟩
    · show linF fl _ _ _ _ _ = _
      rw [← e]
      exact linF_const hfl hy
    · have := linF_mono hfl hx e hu
      rw [linF_left hfl hy] at this
      exact this
    · have := linF_anti hfl hx e hu
      rw [linF_left hfl hy] at this
      exact this

omit hfl in
theorem forall₂_at {α β : Type} {R : α → β → Prop} {l : List α} {r : List β} (h : List.Forall₂ R l r) :
    ∀ (j : ℕ) (x : α) (y : β), l[j]? = some x → r[j]? = some y → R x y := by
  induction h with
  | nil => simp
  | cons h0 _ ih =>
    intro j x y
    cases j with
    | zero => simp only [List.getElem?_cons_zero, Option.some.injEq]; rintro rfl rfl; exact h0
    | succ j => simpa using ih j x y

/-- **C108**: between two neighbouring samples the values do not decrease if the samples do not, and the other way round. -/
theorem C108_monotone (rule : Rule) {s : Series (ι → ℚ)} {a b : Int × (ι → ℚ)} (h : Usable s a b) {ts : List Int}
    (ht : ts.Pairwise (· < ·)) : ∃ r, interpLikeF fl rule s ts = some r ∧
      ∀ (j j' : ℕ) (t t' : Int) (v v' : ι → ℚ), ts[j]? = some t → ts[j']? = some t' → r[j]? = some v → r[j']? = some v' →
        t ≤ t' → ∀ (k : ℕ) (p q : Int × (ι → ℚ)), s[k]? = some p → s[k + 1]? = some q → p.1 < t → t' < q.1 →
          ∀ i, (p.2 i ≤ q.2 i → v i ≤ v' i) ∧ (q.2 i ≤ p.2 i → v' i ≤ v i) := by
  obtain ⟨r, hr, hf⟩ := interpF_chosen hfl rule h ht
  refine ⟨r, hr, ?_⟩
  intro j j' t t' v v' hj hj' hv hv' htt k p q hp hq h1 h2 i
  have hpr := h.range p (List.mem_of_getElem? hp)
  have hqr := h.range q (List.mem_of_getElem? hq)
  have hql := asc_last h.ascending h.last (List.mem_of_getElem? hq)
  have inside : ∀ {u : Int} {w : ι → ℚ}, Chosen fl rule a.1 s (clamp a.1 b.1 u) w → p.1 < u → u < q.1 →
      w = linArr fl a.1 p q u := by
    intro u w hc h3 h4
    rw [show clamp a.1 b.1 u = u by unfold clamp; omega] at hc
    cases hc with
    | sample hm _ =>
      exfalso
      obtain ⟨n, hn⟩ := List.getElem?_of_mem hm
      rcases Nat.lt_or_ge n (k + 1) with hnk | hnk
      · have := asc_index_le h.ascending hn hp (by omega); simp only at this; omega
      · have := asc_index_le h.ascending hq hn (by omega); simp only at this; omega
    | @inner k' p' q' c1 c2 c3 c4 c5 c6 c7 =>
      have e : k' = k := by
        rcases lt_trichotomy k' k with hk | hk | hk
        · have := asc_index_le h.ascending c2 hp (by omega); omega
        · exact hk
        · have := asc_index_le h.ascending hq c1 (by omega); omega
      subst e
      rw [hp] at c1; rw [hq] at c2
      cases c1; cases c2
      exact c7
  have e1 := inside (forall₂_at hf j t v hj hv) h1 (by omega)
  have e2 := inside (forall₂_at hf j' t' v' hj' hv') (by omega) h2
  have hx : pos fl a.1 p.1 < pos fl a.1 q.1 := (pos_lt hfl hqr.1 hqr.2).1.2 (by omega)
  have hu : pos fl a.1 t ≤ pos fl a.1 t' := hfl.mono (by exact_mod_cast (by omega : t - a.1 ≤ t' - a.1))
  rw [e1, e2]
  exact ⟨fun e => linF_mono hfl hx e hu, fun e => linF_anti hfl hx e hu⟩

end interp

/-! ### samples of data with more dimensions -/

/-- data with two elements at each time, 49 nanoseconds apart -/
def fortyNine : Series (Fin 2 → ℚ) := [(0, ![0, 2]), (49, ![1, 2]), (98, ![0, 2])]

theorem fortyNine_usable : Usable fortyNine (0, ![0, 2]) (98, ![0, 2]) :=
  ⟨by simp [fortyNine, Ascending], rfl, rfl, by norm_num⟩

theorem fortyNine_repr : ∀ p ∈ fortyNine, ∀ i, Repr (p.2 i) := by
  have h0 : Repr 0 := repr_zero
  have h1 : Repr 1 := ⟨1, 0, by norm_num, by norm_num⟩
  have h2 : Repr 2 := ⟨2, 0, by norm_num, by norm_num⟩
  intro p hp i
  simp only [fortyNine, List.mem_cons, List.not_mem_nil, or_false] at hp
  rcases hp with rfl | rfl | rfl <;> fin_cases i <;> simpa using by assumption

/-- **C108**, refutation for data with more dimensions: rounding can change the value at a sample. The stored value is
`1`, the interpolated one at the same time is `1 - 2 ^ (-53)`. -/
theorem C108_samples_false {fl : ℚ → ℚ} (hfl : Rounds fl) : ∃ v : Fin 2 → ℚ,
    interpLikeF fl .moreDims fortyNine [49] = some [v] ∧ v 0 = 1 - 1 / 2 ^ 53 ∧ v ≠ ![1, 2] := by
  obtain ⟨r, hr, hf⟩ := interpF_chosen hfl .moreDims fortyNine_usable (ts := [49]) (by simp)
  have he : clamp 0 98 49 = 49 := by unfold clamp; omega
  have one : fl 1 = 1 := hfl.exact ⟨1, 0, by norm_num, by norm_num⟩
  have p0 : pos fl 0 0 = 0 := by simp [pos, hfl.zero]
  have p49 : pos fl 0 49 = 49 := by rw [pos_exact hfl (by norm_num) (by norm_num)]; norm_num
  have f49 : fl 49 = 49 := hfl.exact ⟨49, 0, by norm_num, by norm_num⟩
  have slope : fl (1 / 49) = ((5882252574524729 : ℤ) : ℚ) * (2 : ℚ) ^ (-58 : ℤ) := by
    refine hfl.eq_of_close (by norm_num) (by norm_num) ?_
    norm_num [abs_lt]
  have prod : fl (((5882252574524729 : ℤ) : ℚ) * (2 : ℚ) ^ (-58 : ℤ) * 49) =
      ((2 ^ 53 - 1 : ℤ) : ℚ) * (2 : ℚ) ^ (-53 : ℤ) := by
    refine hfl.eq_of_close (by norm_num) (by norm_num) ?_
    norm_num [abs_lt]
  have val : linF fl 0 0 49 1 49 = 1 - 1 / 2 ^ 53 := by
    unfold linF
    rw [sub_zero, sub_zero, one, f49, slope, prod, add_zero, hfl.exact ⟨2 ^ 53 - 1, -53, by norm_num, rfl⟩]
    norm_num
  cases hf with
  | @cons _ v _ r hc hn =>
    cases hn
    refine ⟨v, hr, ?_⟩
    have hv : v 0 = 1 - 1 / 2 ^ 53 := by
      simp only [he] at hc
      cases hc with
      | sample _ hl => have := hl rfl; simp [fortyNine] at this
      | @inner k p q c1 c2 c3 c4 c5 c6 c7 =>
        match k, c1, c2, c6 with
        | 0, c1, c2, _ =>
          simp only [fortyNine, List.getElem?_cons_zero, List.getElem?_cons_succ, Option.some.injEq, zero_add] at c1 c2
          subst c1; subst c2
          rw [c7]
          show linF fl (pos fl 0 0) _ (pos fl 0 49) _ (pos fl 0 49) = _
          rw [p0, p49]
          exact val
        | 1, c1, c2, c6 =>
          simp only [fortyNine, List.getElem?_cons_zero, List.getElem?_cons_succ, Option.some.injEq] at c1
          subst c1
          have := c6 rfl
          omega
        | k + 2, c1, c2, _ => simp [fortyNine] at c2
    exact ⟨hv, fun e => by rw [e] at hv; norm_num at hv⟩

/-- the hypotheses of the theorems are met by these data -/
example : ∃ fl, Rounds fl ∧ (∃ r, interpLikeF fl .oneDim fortyNine [-5, 7, 49, 60, 200] = some r ∧
    List.Forall₂ (fun t v => ∀ w, (clamp 0 98 t, w) ∈ fortyNine → Rule.oneDim = .oneDim ∨ t ≤ 0 → v = w)
      [-5, 7, 49, 60, 200] r) :=
  let ⟨fl, hfl⟩ := exists_rounds
  ⟨fl, hfl, C108_samples hfl .oneDim fortyNine_usable fortyNine_repr (by simp)⟩

example : ∃ fl, Rounds fl ∧ (∃ r, interpLikeF fl .moreDims fortyNine [-5, 7, 49, 60, 200] = some r ∧
    List.Forall₂ (fun t v => Near fortyNine (clamp 0 98 t) v) [-5, 7, 49, 60, 200] r) :=
  let ⟨fl, hfl⟩ := exists_rounds
  ⟨fl, hfl, C108_interp hfl .moreDims fortyNine_usable (by simp)⟩

end Weldx.Ip
