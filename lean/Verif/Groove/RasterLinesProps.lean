import Verif.Groove.RasterLines
import Verif.Groove.InterpFloatProps

/-!
# Rasterising shapes of lines with rounding (C113)
-/

namespace Weldx.Groove

open Weldx.Geo Matrix Weldx.Binary64Real Weldx.Tr

/-! ### specification -/

/-- the lines between successive points -/
def pairsOf : List Geo.V → List (Geo.V × Geo.V)
  | p :: q :: r => (p, q) :: pairsOf (q :: r)
  | _ => []

/-- the number of steps on a line: nearest to the quotient of length and width, up to its rounding, but at least one -/
def StepsAt (w : ℝ) (p q : Geo.V) (n : ℕ) : Prop :=
  0 < n ∧ (n = 1 ∧ len (q - p) / w < 201 / 100 ∨ |(n : ℝ) - len (q - p) / w| ≤ 51 / 100)

/-- The points on each line begin with its start and have equal distances, up to 1e-9. The end of the last line is left
out. -/
def GridAt (w : ℝ) : List Geo.V → List Geo.V → Prop
  | p :: q :: r, pts => ∃ (n : ℕ) (head tail : List Geo.V), pts = head ++ tail ∧ head.length = n ∧ StepsAt w p q n ∧
      head[0]? = some p ∧ (∀ (i : ℕ) x, head[i]? = some x → NearV (mixP (i / n) p q) x) ∧ GridAt w (q :: r) tail
  | _, pts => pts = []

section
variable {L : Lib} (hfl : Rounds L.fl)

include hfl in
theorem linePointF_close {a b : Geo.V} (ha : Moderate a) (hb : Moderate b) {s t : ℝ} (h0 : 0 ≤ t) (h1 : t ≤ 1)
    (hs : |s - t| ≤ 1 / 10 ^ 15) : NearV (mixP t a b) (linePointF L a b s) := by
  intro i
  have hr := rounds_rounding hfl
  show |L.fl (L.fl (L.fl (b i - a i) * s) + a i) - (a i + t * (b i - a i))| ≤ _
  have xa := abs_le.1 (ha i)
  have xb := abs_le.1 (hb i)
  have hd : |b i - a i| ≤ 8 * 10 ^ 4 := by rw [abs_le]; constructor <;> linarith
  have e1 := fl_abs hr hd
  have hs1 : |s| ≤ 2 := by
    have := abs_le.1 hs
    rw [abs_le]; norm_num at this ⊢; constructor <;> linarith
  have e6 : |(b i - a i) * (s - t)| ≤ 8 * 10 ^ 4 * (1 / 10 ^ 15) := by
    rw [abs_mul]; exact mul_le_mul hd hs (abs_nonneg _) (by norm_num)
  generalize hdd : b i - a i = d at *
  generalize hc : L.fl d = c at *
  have hcb : |c| ≤ 9 * 10 ^ 4 := by
    have := abs_le.1 e1
    have := abs_le.1 hd
    rw [abs_le]; norm_num at *; constructor <;> linarith
  have b1 : |c * s| ≤ 9 * 10 ^ 4 * 2 := by
    rw [abs_mul]; exact mul_le_mul hcb hs1 (abs_nonneg _) (by norm_num)
  have e2 := fl_abs hr b1
  have e5 : |(c - d) * s| ≤ 8 * 10 ^ 4 / 2 ^ 53 * 2 := by
    rw [abs_mul]; exact mul_le_mul e1 hs1 (abs_nonneg _) (by norm_num)
  generalize hp : L.fl (c * s) = p at *
  have b2 : |p + a i| ≤ 3 * 10 ^ 5 := by
    have := abs_le.1 b1
    have := abs_le.1 e2
    rw [abs_le]; norm_num at *; constructor <;> linarith
  have e3 := fl_abs hr b2
  generalize L.fl (p + a i) = u at *
  have k : u - (a i + t * d) = (u - (p + a i)) + (p - c * s) + (c - d) * s + d * (s - t) := by ring
  rw [k]
  have e2 := abs_le.1 e2
  have e3 := abs_le.1 e3
  have e5 := abs_le.1 e5
  have e6 := abs_le.1 e6
  generalize (c - d) * s = m1 at *
  generalize d * (s - t) = m2 at *
  rw [abs_le]; norm_num at *; constructor <;> linarith

include hfl in
theorem linePointF_zero {a : Geo.V} (ha : ReprP a) (b : Geo.V) : linePointF L a b 0 = a := by
  funext i
  show L.fl (L.fl (L.fl (b i - a i) * 0) + a i) = a i
  rw [mul_zero, hfl.zero, zero_add, hfl.exact (ha i)]

theorem len_moderate {a b : Geo.V} (ha : Moderate a) (hb : Moderate b) : len (b - a) ≤ 12 * 10 ^ 4 := by
  have h0 := abs_le.1 (ha 0)
  have h1 := abs_le.1 (ha 1)
  have h2 := abs_le.1 (hb 0)
  have h3 := abs_le.1 (hb 1)
  unfold len
  rw [Real.sqrt_le_left (by norm_num)]
  unfold dot
  have k : ∀ x : ℝ, -(8 * 10 ^ 4) ≤ x → x ≤ 8 * 10 ^ 4 → x * x ≤ 64 * 10 ^ 8 := by
    intro x hx hy; nlinarith
  have k0 := k (b 0 - a 0) (by linarith) (by linarith)
  have k1 := k (b 1 - a 1) (by linarith) (by linarith)
  simp only [Pi.sub_apply]
  norm_num at *
  linarith

include hfl in
/-- **C113.** A line that is not too short is rasterised: the points begin with its start, the number of steps is nearest to
the quotient of length and width, and all points have equal distances, up to the rounding. -/
theorem C113_line_partial {a b : Geo.V} (ha : Moderate a) (hb : Moderate b) (hra : ReprP a) (hab : a ≠ b) {w : ℝ}
    (hw : 1 / 10 ^ 6 ≤ w) : ∃ n pts, lineRasterF L w a b = .ok pts ∧ pts.length = n + 1 ∧ StepsAt w a b n ∧
      pts[0]? = some a ∧ ∀ (i : ℕ) x, pts[i]? = some x → NearV (mixP (i / n) a b) x := by
  have hr := rounds_rounding hfl
  have hw0 : 0 < w := lt_of_lt_of_le (by norm_num) hw
  have hl := len_moderate ha hb
  have hl0 : 0 < len (b - a) := len_sub_pos.2 hab
  have hc := radiusF_close hr b a
  have hU := ulp_lt
  have hu := ulp_pos
  have hc1 : 6 * Geo.ulp * len (b - a) ≤ 72 / 10 ^ 17 * len (b - a) :=
    mul_le_mul_of_nonneg_right (by norm_num at hU ⊢; linarith) hl0.le
  have hc2 := abs_le.1 (hc.trans hc1)
  unfold lineRasterF
  generalize lenF L.fl (subF L.fl b a) = ℓ at *
  generalize hlen : len (b - a) = l at *
  have hℓ : 0 < ℓ := by norm_num at hc2; linarith [hc2.1]
  have hℓ2 : ℓ ≤ 10 ^ 12 * w := by norm_num at *; linarith [hc2.2]
  obtain ⟨n, locs, e1, e2, e3, e4, e5, -, -, e8⟩ := C50_float hr hℓ hw0 hℓ2
  have hn : (0 : ℝ) < n := by exact_mod_cast e2
  have hq : |ℓ / w - l / w| ≤ 1 / 10 ^ 3 := by
    rw [← sub_div, abs_div, abs_of_pos hw0, div_le_iff₀ hw0, abs_le]
    norm_num at *
    constructor <;> linarith [hc2.1, hc2.2]
  have hq2 := abs_le.1 hq
  have hq3 : ℓ / w ≤ 10 ^ 12 := by rw [div_le_iff₀ hw0]; exact hℓ2
  refine ⟨n, locs.map (linePointF L a b), by rw [e1], by simpa using e3, ⟨e2, ?_⟩, ?_, ?_⟩
  · rw [hlen]
    rcases e4 with ⟨h1, h2⟩ | h
    · left; refine ⟨h1, ?_⟩
      norm_num at hq2 ⊢; linarith [hq2.1]
    · right
      have h := abs_le.1 h
      rw [abs_le]
      norm_num at *
      constructor <;> linarith [hq2.1, hq2.2, h.1, h.2]
  · rw [List.getElem?_map, e5, Option.map_some, linePointF_zero hfl hra]
  · intro i x hx
    rw [List.getElem?_map] at hx
    cases hi : locs[i]? with
    | none => rw [hi] at hx; simp at hx
    | some s =>
      rw [hi] at hx
      simp only [Option.map_some, Option.some.injEq] at hx
      subst hx
      have hin : i ≤ n := by
        have := (List.getElem?_eq_some_iff.1 hi).1
        omega
      have hin' : (i : ℝ) ≤ n := by exact_mod_cast hin
      have t1 : (i : ℝ) / n ≤ 1 := (div_le_one hn).2 hin'
      have t0 : (0 : ℝ) ≤ i / n := by positivity
      refine linePointF_close hfl ha hb t0 t1 ((e8 i s hi).trans ?_)
      generalize (i : ℝ) / n = t at *
      norm_num; linarith

include hfl in
theorem linesRasterF_ok {w : ℝ} (hw : 1 / 10 ^ 6 ≤ w) : ∀ {ps : List Geo.V}, (∀ p ∈ ps, Moderate p ∧ ReprP p) →
    ps.IsChain (· ≠ ·) → ∃ pts, linesRasterF L w (pairsOf ps) = .ok pts ∧ GridAt w ps pts
  | [], _, _ => ⟨[], rfl, rfl⟩
  | [_], _, _ => ⟨[], rfl, rfl⟩
  | p :: q :: r, hm, hc => by
    obtain ⟨hpq, hc⟩ := List.isChain_cons_cons.1 hc
    obtain ⟨n, pts, e1, e2, e3, e4, e5⟩ := C113_line_partial hfl (hm p (by simp)).1 (hm q (by simp)).1 (hm p (by simp)).2 hpq hw
    obtain ⟨tl, f1, f2⟩ := linesRasterF_ok hw (ps := q :: r) (fun x hx => hm x (List.mem_cons_of_mem _ hx)) hc
    have hn : 0 < n := e3.1
    have hd : ∀ i : ℕ, i < n → pts.dropLast[i]? = pts[i]? := by
      intro i hi
      rw [List.getElem?_dropLast, if_pos (by omega)]
    refine ⟨pts.dropLast ++ tl, ?_, n, pts.dropLast, tl, rfl, by simp [e2], e3, by rw [hd 0 hn, e4], ?_, f2⟩
    · simp only [pairsOf, linesRasterF, e1, f1]
    · intro i x hx
      have hi : i < n := by
        have := (List.getElem?_eq_some_iff.1 hx).1
        simp [e2] at this
        exact this
      rw [hd i hi] at hx
      exact e5 i x hx

theorem pairsOf_last : ∀ {ps : List Geo.V} {p q : Geo.V}, (∃ r, ps = r ++ [p, q]) → (pairsOf ps).getLast? = some (p, q)
  | ps, p, q, ⟨r, h⟩ => by
    subst h
    induction r with
    | nil => rfl
    | cons a r ih => cases r with
      | nil => rfl
      | cons b r =>
        have : pairsOf (a :: b :: r ++ [p, q]) = (a, b) :: pairsOf (b :: r ++ [p, q]) := rfl
        rw [this, List.getLast?_cons, ih]; rfl

include hfl in
/-- **C113.** Every shape of lines through different successive points can be rasterised. The points on each line begin
exactly with its start and have equal distances up to 1e-9. The end of the last line is added if one of its coordinates
differs from one of the coordinates of the first point by more than the tolerance. It is not added if all four are equal. -/
theorem C113_shape_partial {w : ℝ} (hw : 1 / 10 ^ 6 ≤ w) {ps r : List Geo.V} {f p q : Geo.V} (hf : ps.head? = some f)
    (hl : ps = r ++ [p, q]) (hm : ∀ x ∈ ps, Moderate x ∧ ReprP x) (hc : ps.IsChain (· ≠ ·)) :
    ∃ pts, GridAt w ps pts ∧
      ((∃ i j, 1 / 10 ^ 8 + 2 / 10 ^ 5 * |f j| ≤ |q i - f j|) →
        ∃ e, shapeRasterF L (pairsOf ps) w = .ok (pts ++ [e]) ∧ NearV q e) ∧
      ((∀ i j, q i = f j) → shapeRasterF L (pairsOf ps) w = .ok pts) := by
  obtain ⟨pts, e1, e2⟩ := linesRasterF_ok hfl hw hm hc
  have hp := hm p (by rw [hl]; simp)
  have hq := hm q (by rw [hl]; simp)
  have hw0 : 0 < w := lt_of_lt_of_le (by norm_num) hw
  have hlast := pairsOf_last (ps := ps) ⟨r, hl⟩
  obtain ⟨y, t, hps⟩ : ∃ y t, pairsOf ps = (f, y) :: t := by
    cases ps with
    | nil => simp at hf
    | cons a ps =>
      simp only [List.head?_cons, Option.some.injEq] at hf
      subst hf
      cases ps with
      | nil => simp [pairsOf] at hlast
      | cons b ps => exact ⟨b, pairsOf (b :: ps), rfl⟩
  have hn : NearV q (linePointF L p q 1) := by
    have := linePointF_close hfl hp.1 hq.1 (s := 1) (t := 1) zero_le_one le_rfl (by norm_num)
    have e : mixP 1 p q = q := by funext i; show p i + 1 * (q i - p i) = q i; ring
    rwa [e] at this
  have hval : shapeRasterF L (pairsOf ps) w =
      open Classical in if columnIsCloseF L (linePointF L p q 1) f then .ok pts else .ok (pts ++ [linePointF L p q 1]) := by
    rw [hps] at hlast e1
    unfold shapeRasterF
    rw [hps, hlast]
    simp only
    rw [if_neg (not_not.2 hw0), e1]
  have he : ∀ i, |linePointF L p q 1 i - q i| ≤ 2 / 10 ^ 10 := by
    intro i
    have k : ∀ {x : Geo.V}, Moderate x → ∀ i, |x i| ≤ 10 ^ 5 := fun hx i => (hx i).trans (by norm_num)
    have h := lineF_end hfl (fun i => ⟨k hp.1 i, k hq.1 i⟩) i
    have e : linePointF L p q 1 i = L.pointEnd (.line p q) i := by
      show L.fl (L.fl (L.fl (q i - p i) * 1) + p i) = L.fl (L.fl (q i - p i) + p i)
      rw [mul_one, hfl.exact (hfl.repr _)]
    rwa [e]
  refine ⟨pts, e2, ?_, ?_⟩
  · rintro ⟨i, j, hij⟩
    refine ⟨_, ?_, hn⟩
    rw [hval, if_neg]
    intro hcl
    refine not_isclose_of hfl ?_ (hcl i j)
    have h3 := hn i
    have h2 : |q i - f j| ≤ |linePointF L p q 1 i - f j| + 1 / 10 ^ 9 := by
      have := abs_sub_le (q i) (linePointF L p q 1 i) (f j)
      have e := abs_sub_comm (q i) (linePointF L p q 1 i)
      linarith
    have h4 := abs_nonneg (f j)
    generalize |linePointF L p q 1 i - f j| = u at *
    generalize |f j| = v at *
    generalize |q i - f j| = z at *
    clear hn he
    norm_num at hij h2 ⊢
    linarith
  · intro hall
    rw [hval, if_pos]
    intro i j
    refine isclose_of hfl ?_
    rw [← hall i j]
    have h4 := abs_nonneg (q i)
    have h5 := he i
    generalize |linePointF L p q 1 i - q i| = u at *
    generalize |q i| = v at *
    norm_num at h5 ⊢
    linarith

/-- **C113.** All points of the shape but the last one are raster points, without any error. -/
theorem C113_corners {w : ℝ} : ∀ {ps pts : List Geo.V}, GridAt w ps pts → ∀ p ∈ ps.dropLast, p ∈ pts
  | [], _, _, p, hp => by simp at hp
  | [_], _, _, p, hp => by simp at hp
  | a :: b :: r, pts, h, p, hp => by
    obtain ⟨n, hd, tl, rfl, -, -, h0, -, ht⟩ := h
    rw [List.dropLast_cons_cons, List.mem_cons] at hp
    rcases hp with rfl | hp
    · exact List.mem_append_left _ (List.mem_of_getElem? h0)
    · exact List.mem_append_right _ (C113_corners ht p hp)

/-- **C113.** Widths that are not positive and shapes without lines are refused. -/
theorem C113_refused (w : ℝ) : shapeRasterF L [] w = .error .weldxException ∧
    ∀ l, l ≠ [] → w ≤ 0 → shapeRasterF L l w = .error .valueError := by
  refine ⟨rfl, fun l hl hw => ?_⟩
  cases l with
  | nil => exact absurd rfl hl
  | cons a l =>
    unfold shapeRasterF
    rw [List.getLast?_cons]
    simp only
    rw [if_pos (not_lt.2 hw)]

/-! ### wrong ends -/

include hfl in
/-- **C113.** Refuted: the last raster point is not always the end of the shape. The line from (1, 0) to (-3/2^54, 1) ends at
another point, since the rounded difference of the ends is added to the start. -/
theorem C113_end_counterexample : ∃ a b : Geo.V, ReprP a ∧ ReprP b ∧ Moderate a ∧ Moderate b ∧ a ≠ b ∧
    ∀ w, 1 / 10 ^ 6 ≤ w → ∃ pts e, shapeRasterF L [(a, b)] w = .ok (pts ++ [e]) ∧ e ≠ b := by
  have r0 : ReprP ![(1 : ℝ), 0] := by
    intro i; fin_cases i
    · have := repr_int (n := 1) (by norm_num); simpa using this
    · exact repr_zero
  have r1 : ReprP ![-(3 / 2 ^ 54 : ℝ), 1] := by
    intro i; fin_cases i
    · exact ⟨-3, -54, by norm_num, by norm_num⟩
    · have := repr_int (n := 1) (by norm_num); simpa using this
  have m0 : Moderate ![(1 : ℝ), 0] := by intro i; fin_cases i <;> norm_num [abs_le]
  have m1 : Moderate ![-(3 / 2 ^ 54 : ℝ), 1] := by intro i; fin_cases i <;> norm_num [abs_le]
  have hne : ![(1 : ℝ), 0] ≠ ![-(3 / 2 ^ 54 : ℝ), 1] := by
    intro h; have := congrFun h 1; norm_num at this
  refine ⟨![1, 0], ![-(3 / 2 ^ 54), 1], r0, r1, m0, m1, hne, fun w hw => ?_⟩
  obtain ⟨pts, e1, e2⟩ := linesRasterF_ok hfl hw (ps := [![1, 0], ![-(3 / 2 ^ 54), 1]]) (by
    intro x hx
    simp only [List.mem_cons, List.not_mem_nil, or_false] at hx
    rcases hx with rfl | rfl
    exacts [⟨m0, r0⟩, ⟨m1, r1⟩]) (by simp)
  have hv : linePointF L ![1, 0] ![-(3 / 2 ^ 54), 1] 1 0 = -(1 / 2 ^ 52) := by
    show L.fl (L.fl (L.fl (-(3 / 2 ^ 54) - 1) * 1) + 1) = _
    have h1 := eq_of_close_neg hfl (x := 1 + 3 / 2 ^ 54) (k := 4503599627370497) (e := -52) (by norm_num) (by norm_num)
      (by rw [abs_lt]; constructor <;> norm_num)
    rw [show (-(3 / 2 ^ 54) - 1 : ℝ) = -(1 + 3 / 2 ^ 54) by ring, h1, mul_one, ← h1, hfl.exact (hfl.repr _), h1]
    rw [show (-(((4503599627370497 : ℤ) : ℝ) * 2 ^ (-52 : ℤ)) + 1 : ℝ) = -(1 / 2 ^ 52) by norm_num]
    exact hfl.exact ⟨-1, -52, by norm_num, by norm_num⟩
  refine ⟨pts, linePointF L ![1, 0] ![-(3 / 2 ^ 54), 1] 1, ?_, fun h => ?_⟩
  · unfold shapeRasterF
    simp only [List.getLast?_singleton]
    rw [if_neg (not_not.2 (lt_of_lt_of_le (by norm_num) hw)), show linesRasterF L w [(![1, 0], ![-(3 / 2 ^ 54), 1])] = .ok pts from e1]
    simp only
    rw [if_neg]
    intro hc
    refine not_isclose_of hfl ?_ (hc 0 0)
    rw [hv]
    norm_num [abs_lt, lt_abs]
  · have := congrFun h 0
    rw [hv] at this
    norm_num at this

include hfl in
/-- **C113.** Refuted: closed shapes are not always recognised. A square with the first corner (1, 2) gets this corner twice,
since each coordinate of the end is compared with both coordinates of the start. -/
theorem C113_closed_counterexample {w : ℝ} (hw : 1 / 10 ^ 6 ≤ w) : ∃ pts e,
    shapeRasterF L (pairsOf [![1, 2], ![4, 2], ![4, 5], ![1, 5], ![1, 2]]) w = .ok (pts ++ [e]) ∧
      pts[0]? = some ![1, 2] ∧ NearV ![1, 2] e := by
  have k : ∀ a b : ℤ, |a| ≤ 100 → |b| ≤ 100 → Moderate ![(a : ℝ), (b : ℝ)] ∧ ReprP ![(a : ℝ), (b : ℝ)] := by
    intro a b ha hb
    have ha' : |(a : ℝ)| ≤ 100 := by exact_mod_cast ha
    have hb' : |(b : ℝ)| ≤ 100 := by exact_mod_cast hb
    refine ⟨?_, ?_⟩ <;> intro i <;> fin_cases i
    · show |(a : ℝ)| ≤ _; linarith
    · show |(b : ℝ)| ≤ _; linarith
    · exact repr_int (ha.trans (by norm_num))
    · exact repr_int (hb.trans (by norm_num))
  obtain ⟨pts, g, h1, -⟩ := C113_shape_partial hfl hw (ps := [![1, 2], ![4, 2], ![4, 5], ![1, 5], ![1, 2]])
    (r := [![1, 2], ![4, 2], ![4, 5]]) (f := ![1, 2]) (p := ![1, 5]) (q := ![1, 2]) rfl rfl (by
      intro x hx
      simp only [List.mem_cons, List.not_mem_nil, or_false] at hx
      rcases hx with rfl | rfl | rfl | rfl | rfl
      · simpa using k 1 2 (by norm_num) (by norm_num)
      · simpa using k 4 2 (by norm_num) (by norm_num)
      · simpa using k 4 5 (by norm_num) (by norm_num)
      · simpa using k 1 5 (by norm_num) (by norm_num)
      · simpa using k 1 2 (by norm_num) (by norm_num)) (by
      simp only [List.isChain_cons_cons, List.isChain_singleton, and_true]
      refine ⟨fun h => ?_, fun h => ?_, fun h => ?_, fun h => ?_⟩
      · have := congrFun h 0; norm_num at this
      · have := congrFun h 1; norm_num at this
      · have := congrFun h 0; norm_num at this
      · have := congrFun h 1; norm_num at this)
  obtain ⟨e, h2, h3⟩ := h1 ⟨0, 1, by norm_num⟩
  refine ⟨pts, e, h2, ?_, h3⟩
  obtain ⟨n, hd, tl, rfl, hl, hs, h0, -, -⟩ := g
  rw [List.getElem?_append_left (by have := hs.1; omega), h0]

end

/-! ### examples -/

/-- five steps on a line of length 5 with width 1 -/
example : StepsAt 1 ![0, 0] ![3, 4] 5 := by
  have : len (![3, 4] - ![0, 0] : Geo.V) = 5 := by
    unfold len dot
    rw [Real.sqrt_eq_iff_mul_self_eq (by norm_num) (by norm_num)]
    norm_num
  refine ⟨by norm_num, .inr ?_⟩
  rw [this]; norm_num

/-- the hypotheses are met by a triangle that begins and ends at the origin -/
example {L : Lib} (hfl : Rounds L.fl) : ∃ pts, GridAt 1 [![0, 0], ![3, 0], ![3, 4], ![0, 0]] pts ∧
    shapeRasterF L (pairsOf [![0, 0], ![3, 0], ![3, 4], ![0, 0]]) 1 = .ok pts := by
  have k : ∀ a b : ℤ, |a| ≤ 100 → |b| ≤ 100 → Moderate ![(a : ℝ), (b : ℝ)] ∧ ReprP ![(a : ℝ), (b : ℝ)] := by
    intro a b ha hb
    have ha' : |(a : ℝ)| ≤ 100 := by exact_mod_cast ha
    have hb' : |(b : ℝ)| ≤ 100 := by exact_mod_cast hb
    refine ⟨?_, ?_⟩ <;> intro i <;> fin_cases i
    · show |(a : ℝ)| ≤ _; linarith
    · show |(b : ℝ)| ≤ _; linarith
    · exact repr_int (ha.trans (by norm_num))
    · exact repr_int (hb.trans (by norm_num))
  obtain ⟨pts, g, -, h⟩ := C113_shape_partial hfl (w := 1) (by norm_num) (ps := [![0, 0], ![3, 0], ![3, 4], ![0, 0]])
    (r := [![0, 0], ![3, 0]]) (f := ![0, 0]) (p := ![3, 4]) (q := ![0, 0]) rfl rfl (by
      intro x hx
      simp only [List.mem_cons, List.not_mem_nil, or_false] at hx
      rcases hx with rfl | rfl | rfl | rfl
      · simpa using k 0 0 (by norm_num) (by norm_num)
      · simpa using k 3 0 (by norm_num) (by norm_num)
      · simpa using k 3 4 (by norm_num) (by norm_num)
      · simpa using k 0 0 (by norm_num) (by norm_num)) (by
      simp only [List.isChain_cons_cons, List.isChain_singleton, and_true]
      refine ⟨fun h => ?_, fun h => ?_, fun h => ?_⟩
      · have := congrFun h 0; norm_num at this
      · have := congrFun h 1; norm_num at this
      · have := congrFun h 0; norm_num at this)
  refine ⟨pts, g, h ?_⟩
  intro i j
  fin_cases i <;> fin_cases j <;> rfl

end Weldx.Groove
