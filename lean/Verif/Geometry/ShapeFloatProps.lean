import Verif.Geometry.ShapeFloatLemmas

/-!
# Segments that share points form a shape in spite of rounding (C110)
-/

namespace Weldx.Geo

open Matrix Weldx.Binary64Real

/-- the given start of a segment -/
def SegF.start : SegF → V
  | .line a _ => a
  | .arc x => x.pStart

/-- the given end of a segment -/
def SegF.stop : SegF → V
  | .line _ b => b
  | .arc x => x.pEnd

/-- every segment starts where the one before it ends -/
def JoinedF : List SegF → Prop
  | a :: b :: l => a.stop = b.start ∧ JoinedF (b :: l)
  | _ => True

/-- every segment starts close to the end of the one before it -/
def NearlyJoined : List SegF → Prop
  | a :: b :: l => (∀ i, |a.stop i - b.start i| ≤ 1 / 10 ^ 10 + 9 / 10 ^ 6 * |b.start i|) ∧ NearlyJoined (b :: l)
  | _ => True

theorem JoinedF.nearly : ∀ {l : List SegF}, JoinedF l → NearlyJoined l
  | [], _ => trivial
  | [_], _ => trivial
  | a :: b :: l, h => ⟨fun i => by rw [h.1, sub_self, abs_zero]; positivity, JoinedF.nearly h.2⟩

/-- The sines of the angle of the arc and of the angle between the first axis and the start are at least `σ`, where the
second one may also be zero. The radius is at most `10 ^ 4 * σ`, the center is not far away, and both radii agree up to
1e-10. -/
structure ArcF.Clear (x : ArcF) (σ : ℝ) : Prop where
  sign : x.sign = 1 ∨ x.sign = -1
  small : 1 / 10 ^ 8 ≤ σ
  positive : 0 < len (x.pStart - x.pCenter)
  radii : |len (x.pEnd - x.pCenter) - len (x.pStart - x.pCenter)| ≤ 1 / 10 ^ 10
  ends : 0 < len (x.pEnd - x.pCenter)
  angle : σ ≤ |x.sine|
  start : (x.pStart - x.pCenter) 1 = 0 ∨ σ ≤ |(x.pStart - x.pCenter) 1 / len (x.pStart - x.pCenter)|
  radius : len (x.pStart - x.pCenter) ≤ 10 ^ 4 * σ
  center : ∀ i, |x.pCenter i| ≤ 10 ^ 5

/-- segments with moderate coordinates -/
def SegF.Clear : SegF → Prop
  | .line a b => ∀ i, |a i| ≤ 10 ^ 5 ∧ |b i| ≤ 10 ^ 5
  | .arc x => ∃ σ, x.Clear σ

section
variable {L : Lib} (hfl : Rounds L.fl) (hacos : Arccosine L.acos) (htrig : Trigonometric L.cosine L.sine)

/-- differences of products of numbers up to one -/
theorem mul_close {a b a' b' δ κ : ℝ} (hb : |b| ≤ 1) (ha' : |a'| ≤ 1) (h1 : |a - a'| ≤ δ) (h2 : |b - b'| ≤ κ) :
    |a * b - a' * b'| ≤ δ + κ := by
  have e : a * b - a' * b' = (a - a') * b + a' * (b - b') := by ring
  rw [e]
  refine (abs_add_le _ _).trans ?_
  rw [abs_mul, abs_mul]
  have t1 := mul_le_mul h1 hb (abs_nonneg _) ((abs_nonneg _).trans h1)
  have t2 := mul_le_mul ha' h2 (abs_nonneg _) zero_le_one
  linarith

/-- the direction of the end from the one of the start and the angle -/
theorem end_direction {x : ArcF} (ha : 0 < len (x.pStart - x.pCenter)) (hb : 0 < len (x.pEnd - x.pCenter)) :
    (x.pEnd - x.pCenter) 0 / len (x.pEnd - x.pCenter) =
      (x.pStart - x.pCenter) 0 / len (x.pStart - x.pCenter) * x.cosine -
        (x.pStart - x.pCenter) 1 / len (x.pStart - x.pCenter) * x.sine ∧
    (x.pEnd - x.pCenter) 1 / len (x.pEnd - x.pCenter) =
      (x.pStart - x.pCenter) 1 / len (x.pStart - x.pCenter) * x.cosine +
        (x.pStart - x.pCenter) 0 / len (x.pStart - x.pCenter) * x.sine := by
  have h1 := len_mul_self (x.pStart - x.pCenter)
  unfold ArcF.cosine ArcF.sine
  set a := x.pStart - x.pCenter
  set b := x.pEnd - x.pCenter
  unfold dot at *
  constructor <;> field_simp
  · linear_combination (b 0) * h1
  · linear_combination (b 1) * h1

include hfl hacos htrig in
/-- both points of an arc, with the errors of the sines of both angles -/
theorem ends_close {x : ArcF} (hs : x.sign = 1 ∨ x.sign = -1) (ha : 0 < len (x.pStart - x.pCenter))
    (hb : 0 < len (x.pEnd - x.pCenter)) {κ κ' : ℝ} (hκ : 0 < κ) (hκ' : 0 < κ')
    (hk : 18 * ulp ≤ κ * |(x.pStart - x.pCenter) 1 / len (x.pStart - x.pCenter)| ∨ 18 * ulp ≤ κ ^ 2 ∨
      (x.pStart - x.pCenter) 1 = 0)
    (hk' : (1 / 10 ^ 11 ≤ |x.sine| ∧ 42 * ulp ≤ κ' * |x.sine|) ∨ 42 * ulp ≤ κ' ^ 2)
    (hε : κ + 2 * κ' ≤ 1 / 20) :
    ∃ w, calcAngleF L.fl L.acos x = .ok w ∧ ∀ i,
      |L.point x 0 i - x.pStart i| ≤ (κ + 114 * ulp) * (1 + 6 * ulp) * len (x.pStart - x.pCenter) +
        6 * ulp * len (x.pStart - x.pCenter) + ulp * |x.pCenter i| ∧
      |L.point x w i - x.pEnd i| ≤ (κ + 2 * κ' + 135 * ulp) * (len (x.pEnd - x.pCenter) +
        (6 * ulp * len (x.pStart - x.pCenter) + |len (x.pEnd - x.pCenter) - len (x.pStart - x.pCenter)|)) +
        (6 * ulp * len (x.pStart - x.pCenter) + |len (x.pEnd - x.pCenter) - len (x.pStart - x.pCenter)|) +
        ulp * |x.pCenter i| := by
  have hr := rounds_rounding hfl
  have hu := ulp_pos
  have hU := ulp_lt
  have hpi := Real.pi_pos
  have hpi2 := Real.pi_lt_d2
  obtain ⟨A, hA, hA', hAc, hAs⟩ := start_close hfl hacos ha hκ hk
  obtain ⟨w, W, hw, hwW, hW0, hW1, hWc, hWs⟩ := turn_close hfl hacos hs ha hb hκ' hk'
  obtain ⟨d0, d1⟩ := end_direction ha hb
  have hrad := radiusF_close hr x.pStart x.pCenter
  have hA1 := abs_le.1 hA'
  have hsg : |(x.sign : ℝ)| = 1 := by rcases hs with h | h <;> rw [h] <;> simp
  have hdir : ∀ (d : V), 0 < len d → ∀ i, |d i / len d| ≤ 1 := fun d hd i => by
    rw [abs_div, abs_of_pos hd, div_le_one hd]; exact abs_le_len d i
  have hC1 : |x.cosine| ≤ 1 := by
    have := ArcF.cos_sq ha hb
    exact abs_le.2 ⟨by nlinarith, by nlinarith⟩
  have hS1 : |x.sine| ≤ 1 := by
    have := ArcF.cos_sq ha hb
    exact abs_le.2 ⟨by nlinarith, by nlinarith⟩
  refine ⟨w, hw, fun i => ⟨?_, ?_⟩⟩
  · have h := point_close hfl htrig (x := x) (s := 0) (Φ := A) (ρ := len (x.pStart - x.pCenter)) (ε := κ + 9 * ulp)
      (τ := 6 * ulp * len (x.pStart - x.pCenter)) (v := fun i => (x.pStart - x.pCenter) i / len (x.pStart - x.pCenter))
      (by norm_num at hU; linarith) (hdir _ ha) hrad ha.le (by rw [zero_mul, add_zero]; linarith)
      (by norm_num at hpi2; linarith) (by linarith) (by linarith) i
    have e : x.pCenter i + len (x.pStart - x.pCenter) * ((x.pStart - x.pCenter) i / len (x.pStart - x.pCenter)) =
        x.pStart i := by
      rw [mul_div_cancel₀ _ ha.ne']; simp
    rw [e] at h
    refine h.trans (le_of_eq ?_)
    ring
  · have hτ : |lenF L.fl (subF L.fl x.pStart x.pCenter) - len (x.pEnd - x.pCenter)| ≤
        6 * ulp * len (x.pStart - x.pCenter) + |len (x.pEnd - x.pCenter) - len (x.pStart - x.pCenter)| := by
      have := abs_sub_le (lenF L.fl (subF L.fl x.pStart x.pCenter)) (len (x.pStart - x.pCenter)) (len (x.pEnd - x.pCenter))
      rw [abs_sub_comm (len (x.pStart - x.pCenter))] at this
      linarith
    have hc : |Real.cos (A + W * x.sign) - (x.pEnd - x.pCenter) 0 / len (x.pEnd - x.pCenter)| ≤ κ + 2 * κ' + 30 * ulp := by
      rw [Real.cos_add, d0]
      have t1 := mul_close (Real.abs_cos_le_one _) (hdir _ ha 0) hAc hWc
      have t2 := mul_close (Real.abs_sin_le_one _) (hdir _ ha 1) hAs hWs
      have t3 := abs_le.1 t1
      have t4 := abs_le.1 t2
      rw [abs_le]; constructor <;> linarith
    have hsn : |Real.sin (A + W * x.sign) - (x.pEnd - x.pCenter) 1 / len (x.pEnd - x.pCenter)| ≤ κ + 2 * κ' + 30 * ulp := by
      rw [Real.sin_add, d1]
      have t1 := mul_close (Real.abs_cos_le_one _) (hdir _ ha 1) hAs hWc
      have t2 := mul_close (Real.abs_sin_le_one _) (hdir _ ha 0) hAc hWs
      have t3 := abs_le.1 t1
      have t4 := abs_le.1 t2
      rw [abs_le]; constructor <;> linarith
    have hΦ : |L.startAngle x + w * x.sign - (A + W * x.sign)| ≤ 76 * ulp := by
      have e : L.startAngle x + w * x.sign - (A + W * x.sign) = (L.startAngle x - A) + (w - W) * x.sign := by ring
      rw [e]
      refine (abs_add_le _ _).trans ?_
      rw [abs_mul, hsg, mul_one]; linarith
    have hΦ' : |A + W * x.sign| ≤ 95 / 10 := by
      refine (abs_add_le _ _).trans ?_
      rw [abs_mul, hsg, mul_one, abs_of_nonneg hW0]
      norm_num at hpi2; linarith
    have h := point_close hfl htrig (x := x) (s := w) (Φ := A + W * x.sign) (ρ := len (x.pEnd - x.pCenter))
      (ε := κ + 2 * κ' + 30 * ulp)
      (τ := 6 * ulp * len (x.pStart - x.pCenter) + |len (x.pEnd - x.pCenter) - len (x.pStart - x.pCenter)|)
      (v := fun i => (x.pEnd - x.pCenter) i / len (x.pEnd - x.pCenter))
      (by norm_num at hU; linarith) (hdir _ hb) hτ hb.le hΦ hΦ' hc hsn i
    have e : x.pCenter i + len (x.pEnd - x.pCenter) * ((x.pEnd - x.pCenter) i / len (x.pEnd - x.pCenter)) =
        x.pEnd i := by
      rw [mul_div_cancel₀ _ hb.ne']; simp
    rw [e] at h
    refine h.trans (le_of_eq ?_)
    ring

include hfl hacos htrig in
/-- **C110 (all arcs).** The start and the end of every arc differ from the given points by at most a millionth of the
radius, twice the difference of both radii and an error that is small compared with the coordinates of the center. -/
theorem C110_always {x : ArcF} (hs : x.sign = 1 ∨ x.sign = -1) (ha : 0 < len (x.pStart - x.pCenter))
    (hb : 0 < len (x.pEnd - x.pCenter)) :
    ∃ w, calcAngleF L.fl L.acos x = .ok w ∧ ∀ i,
      |L.point x 0 i - x.pStart i| ≤ len (x.pStart - x.pCenter) / 10 ^ 6 + |x.pCenter i| / 10 ^ 15 ∧
      |L.point x w i - x.pEnd i| ≤ len (x.pStart - x.pCenter) / 10 ^ 6 +
        2 * |len (x.pEnd - x.pCenter) - len (x.pStart - x.pCenter)| + |x.pCenter i| / 10 ^ 15 := by
  have hu := ulp_pos
  have hU := ulp_lt
  obtain ⟨w, hw, h⟩ := ends_close hfl hacos htrig hs ha hb (κ := 5 / 10 ^ 8) (κ' := 8 / 10 ^ 8) (by norm_num)
    (by norm_num) (.inr (.inl (by norm_num at hU ⊢; linarith))) (.inr (by norm_num at hU ⊢; linarith)) (by norm_num)
  refine ⟨w, hw, fun i => ⟨(h i).1.trans ?_, (h i).2.trans ?_⟩⟩
  · set R := len (x.pStart - x.pCenter)
    have t1 : ulp * |x.pCenter i| ≤ 12 / 10 ^ 17 * |x.pCenter i| := mul_le_mul_of_nonneg_right hU (abs_nonneg _)
    have hz := abs_nonneg (x.pCenter i)
    have t2 : (5 / 10 ^ 8 + 114 * ulp) * (1 + 6 * ulp) + 6 * ulp ≤ 1 / 10 ^ 6 := by norm_num at hU ⊢; nlinarith
    have t3 := mul_le_mul_of_nonneg_right t2 ha.le
    norm_num at t1 t3 ⊢
    linarith
  · set R := len (x.pStart - x.pCenter)
    set R' := len (x.pEnd - x.pCenter)
    set D := |R' - R| with hD
    have hR : R' ≤ R + D := by linarith [le_abs_self (R' - R)]
    have t1 : ulp * |x.pCenter i| ≤ 12 / 10 ^ 17 * |x.pCenter i| := mul_le_mul_of_nonneg_right hU (abs_nonneg _)
    have hz := abs_nonneg (x.pCenter i)
    have hD0 : 0 ≤ D := abs_nonneg _
    have c0 : (0 : ℝ) ≤ 5 / 10 ^ 8 + 2 * (8 / 10 ^ 8) + 135 * ulp := by positivity
    have t2 := mul_le_mul_of_nonneg_left (show R' + (6 * ulp * R + D) ≤ (1 + 6 * ulp) * R + 2 * D by linarith) c0
    have t3 : (5 / 10 ^ 8 + 2 * (8 / 10 ^ 8) + 135 * ulp) * (1 + 6 * ulp) + 6 * ulp ≤ 1 / 10 ^ 6 := by
      norm_num at hU ⊢; nlinarith
    have t4 : (5 / 10 ^ 8 + 2 * (8 / 10 ^ 8) + 135 * ulp) * 2 ≤ 1 := by norm_num at hU ⊢; linarith
    have t5 := mul_le_mul_of_nonneg_right t3 ha.le
    have t6 := mul_le_mul_of_nonneg_right t4 hD0
    have e : (5 / 10 ^ 8 + 2 * (8 / 10 ^ 8) + 135 * ulp) * ((1 + 6 * ulp) * R + 2 * D) =
      (5 / 10 ^ 8 + 2 * (8 / 10 ^ 8) + 135 * ulp) * (1 + 6 * ulp) * R +
        (5 / 10 ^ 8 + 2 * (8 / 10 ^ 8) + 135 * ulp) * 2 * D := by ring
    rw [e] at t2
    norm_num at t1 t2 t5 t6 ⊢
    linarith

include hfl hacos htrig in
/-- **C110 (points).** The start and the end of an arc that is not close to a semicircle differ from the given points by
less than the tolerance that is used for the connection of segments. -/
theorem C110_points {x : ArcF} {σ : ℝ} (h : x.Clear σ) :
    ∃ w, calcAngleF L.fl L.acos x = .ok w ∧ ∀ i,
      |L.point x 0 i - x.pStart i| ≤ 3 / 10 ^ 10 ∧ |L.point x w i - x.pEnd i| ≤ 5 / 10 ^ 10 := by
  have hu := ulp_pos
  have hU := ulp_lt
  have ha := h.positive
  have hb := h.ends
  have hσ8 := h.small
  have hσ : 0 < σ := lt_of_lt_of_le (by norm_num) hσ8
  have hS1 : |x.sine| ≤ 1 := by
    have := ArcF.cos_sq ha hb
    exact abs_le.2 ⟨by nlinarith, by nlinarith⟩
  have hσ1 : σ ≤ 1 := h.angle.trans hS1
  have hdiv : ∀ c : ℝ, 0 ≤ c → ∀ y : ℝ, σ ≤ y → c * ulp ≤ c * ulp / σ * y := by
    intro c hc y hy
    rw [div_mul_eq_mul_div, le_div_iff₀ hσ]
    exact mul_le_mul_of_nonneg_left hy (by positivity)
  have hsmall : ulp / σ ≤ 12 / 10 ^ 9 := by
    rw [div_le_iff₀ hσ]; norm_num at hU hσ8 ⊢; linarith
  obtain ⟨w, hw, hh⟩ := ends_close hfl hacos htrig h.sign ha hb (κ := 18 * ulp / σ) (κ' := 42 * ulp / σ) (by positivity)
    (by positivity) (h.start.elim (fun h => .inr (.inr h)) (fun h => .inl (hdiv 18 (by norm_num) _ h)))
    (.inl ⟨le_trans (by norm_num at hσ8 ⊢; linarith) h.angle, hdiv 42 (by norm_num) _ h.angle⟩)
    (by rw [mul_div_assoc, mul_div_assoc]; norm_num at hsmall ⊢; linarith)
  have hR := h.radius
  have hD := h.radii
  set R := len (x.pStart - x.pCenter) with hRR
  set R' := len (x.pEnd - x.pCenter)
  set D := |R' - R| with hDD
  have hD0 : 0 ≤ D := abs_nonneg _
  have hR1 : R ≤ 10 ^ 4 := by norm_num at hR ⊢; linarith
  have hRR' : R' ≤ R + D := by linarith [le_abs_self (R' - R)]
  have hq : ulp / σ * R ≤ 12 / 10 ^ 13 := by
    have : ulp / σ * R ≤ ulp / σ * (10 ^ 4 * σ) := mul_le_mul_of_nonneg_left hR (by positivity)
    have e : ulp / σ * (10 ^ 4 * σ) = 10 ^ 4 * ulp := by field_simp
    rw [e] at this
    norm_num at this hU ⊢; linarith
  have hq0 : 0 < ulp / σ := by positivity
  set q := ulp / σ with hqq
  have huR : ulp * R ≤ 12 / 10 ^ 13 := by
    have := mul_le_mul hU hR1 ha.le (by norm_num)
    norm_num at this ⊢; linarith
  have huR0 : 0 ≤ ulp * R := by positivity
  refine ⟨w, hw, fun i => ⟨(hh i).1.trans ?_, (hh i).2.trans ?_⟩⟩
  · have hc : ulp * |x.pCenter i| ≤ 12 / 10 ^ 12 := by
      have := mul_le_mul hU (h.center i) (abs_nonneg _) (by norm_num)
      norm_num at this ⊢; linarith
    have e : (18 * ulp / σ + 114 * ulp) * (1 + 6 * ulp) * R = (18 * (q * R) + 114 * (ulp * R)) * (1 + 6 * ulp) := by
      rw [hqq]; ring
    rw [e]
    have t1 : (18 * (q * R) + 114 * (ulp * R)) * (1 + 6 * ulp) ≤ (132 * (12 / 10 ^ 13)) * (1 + 1 / 10 ^ 10) := by
      refine mul_le_mul (by linarith) (by norm_num at hU ⊢; linarith) (by positivity) (by norm_num)
    norm_num at t1 hc huR ⊢
    linarith
  · have hc : ulp * |x.pCenter i| ≤ 12 / 10 ^ 12 := by
      have := mul_le_mul hU (h.center i) (abs_nonneg _) (by norm_num)
      norm_num at this ⊢; linarith
    have c0 : (0 : ℝ) ≤ 18 * ulp / σ + 2 * (42 * ulp / σ) + 135 * ulp := by positivity
    have t2 := mul_le_mul_of_nonneg_left (show R' + (6 * ulp * R + D) ≤ (1 + 6 * ulp) * R + 2 * D by linarith) c0
    have e : (18 * ulp / σ + 2 * (42 * ulp / σ) + 135 * ulp) * ((1 + 6 * ulp) * R + 2 * D) =
        (102 * (q * R) + 135 * (ulp * R)) * (1 + 6 * ulp) + (102 * q + 135 * ulp) * (2 * D) := by
      rw [hqq]; ring
    rw [e] at t2
    have t1 : (102 * (q * R) + 135 * (ulp * R)) * (1 + 6 * ulp) ≤ (237 * (12 / 10 ^ 13)) * (1 + 1 / 10 ^ 10) := by
      refine mul_le_mul (by linarith) (by norm_num at hU ⊢; linarith) (by positivity) (by norm_num)
    have t3 : (102 * q + 135 * ulp) * (2 * D) ≤ (1 / 10 ^ 3) * (2 * (1 / 10 ^ 10)) := by
      refine mul_le_mul (by norm_num at hU hsmall ⊢; linarith) (by linarith) (by positivity) (by norm_num)
    norm_num at t1 t2 t3 hc huR hD ⊢
    linarith

include hfl in
/-- the rounded tolerance -/
theorem tolerance_close (b : ℝ) : |L.fl (L.fl (1 / 10 ^ 9) + L.fl (L.fl (1 / 10 ^ 5) * |b|)) -
    (1 / 10 ^ 9 + 1 / 10 ^ 5 * |b|)| ≤ 1 / 10 ^ 3 * (1 / 10 ^ 9 + 1 / 10 ^ 5 * |b|) := by
  have hr := rounds_rounding hfl
  have hu := ulp_pos
  have hU := ulp_lt
  have hb := abs_nonneg b
  set B := |b| with hB
  have h1 := Rounding.ulp hr (1 / 10 ^ 9)
  have h2 := Rounding.ulp hr (1 / 10 ^ 5)
  rw [abs_of_pos (show (0 : ℝ) < 1 / 10 ^ 9 by positivity)] at h1
  rw [abs_of_pos (show (0 : ℝ) < 1 / 10 ^ 5 by positivity)] at h2
  set t := L.fl (1 / 10 ^ 9) with ht
  set q := L.fl (1 / 10 ^ 5) with hq
  have hu6 : ulp ≤ 1 / 10 ^ 6 := by norm_num at hU ⊢; linarith
  have h3 : |q * B - 1 / 10 ^ 5 * B| ≤ 1 / 10 ^ 6 * |1 / 10 ^ 5 * B| := by
    rw [← sub_mul, abs_mul, abs_of_nonneg hb, abs_of_nonneg (show 0 ≤ 1 / 10 ^ 5 * B by positivity)]
    have := mul_le_mul_of_nonneg_right (h2.trans (mul_le_mul_of_nonneg_right hu6 (by positivity))) hb
    linarith
  have h4 := Rounding.of_close hr h3
  rw [abs_of_nonneg (show 0 ≤ 1 / 10 ^ 5 * B by positivity)] at h4
  set p := L.fl (q * B) with hp
  have c1 : 1 / 10 ^ 6 + ulp * (1 + 1 / 10 ^ 6) ≤ 3 / 10 ^ 6 := by norm_num at hu6 ⊢; linarith
  have h5 := h4.trans (mul_le_mul_of_nonneg_right c1 (by positivity))
  have h6 : |t - 1 / 10 ^ 9| ≤ 3 / 10 ^ 6 * (1 / 10 ^ 9) :=
    h1.trans (mul_le_mul_of_nonneg_right (hu6.trans (by norm_num)) (by positivity))
  have h7 : |t + p - (1 / 10 ^ 9 + 1 / 10 ^ 5 * B)| ≤ 3 / 10 ^ 6 * |1 / 10 ^ 9 + 1 / 10 ^ 5 * B| := by
    rw [abs_of_nonneg (show 0 ≤ 1 / 10 ^ 9 + 1 / 10 ^ 5 * B by positivity)]
    have a1 := abs_le.1 h5
    have a2 := abs_le.1 h6
    rw [abs_le]; constructor <;> linarith
  have h8 := Rounding.of_close hr h7
  rw [abs_of_nonneg (show 0 ≤ 1 / 10 ^ 9 + 1 / 10 ^ 5 * B by positivity)] at h8
  refine h8.trans (mul_le_mul_of_nonneg_right ?_ (by positivity))
  norm_num at hu6 ⊢; linarith

include hfl in
/-- numbers that differ by less than the tolerance are close -/
theorem isclose_of {a b : ℝ} (h : |a - b| ≤ 99 / 100 * (1 / 10 ^ 9 + 1 / 10 ^ 5 * |b|)) : L.isclose a b := by
  have hu := ulp_pos
  have hU := ulp_lt
  have h1 := Rounding.ulp (rounds_rounding hfl) (a - b)
  have h2 := abs_le.1 (tolerance_close hfl b)
  have h3 : |L.fl (a - b)| ≤ |L.fl (a - b) - (a - b)| + |a - b| := by simpa using abs_add_le (L.fl (a - b) - (a - b)) (a - b)
  have hu6 : ulp ≤ 1 / 10 ^ 6 := by norm_num at hU ⊢; linarith
  have h4 := mul_le_mul_of_nonneg_right hu6 (abs_nonneg (a - b))
  show |L.fl (a - b)| ≤ _
  have hb := abs_nonneg b
  norm_num at h h2 h4 ⊢
  linarith

include hfl in
/-- numbers that differ by more than the tolerance are not close -/
theorem not_isclose_of {a b : ℝ} (h : 101 / 100 * (1 / 10 ^ 9 + 1 / 10 ^ 5 * |b|) < |a - b|) : ¬ L.isclose a b := by
  intro hc
  have hu := ulp_pos
  have hU := ulp_lt
  have h1 := Rounding.ulp (rounds_rounding hfl) (a - b)
  have h2 := abs_le.1 (tolerance_close hfl b)
  have h3 : |a - b| ≤ |L.fl (a - b) - (a - b)| + |L.fl (a - b)| := by
    have := abs_add_le (L.fl (a - b)) (-(L.fl (a - b) - (a - b)))
    rw [abs_neg, neg_sub, add_sub_cancel] at this
    linarith
  have hu6 : ulp ≤ 1 / 10 ^ 6 := by norm_num at hU ⊢; linarith
  have h4 := mul_le_mul_of_nonneg_right hu6 (abs_nonneg (a - b))
  have hc' : |L.fl (a - b)| ≤ _ := hc
  have hb := abs_nonneg b
  norm_num at h h2 h4 hc'
  linarith

include hfl in
/-- the end of a line -/
theorem lineF_end {a b : V} (h : ∀ i, |a i| ≤ 10 ^ 5 ∧ |b i| ≤ 10 ^ 5) (i : Fin 2) :
    |L.pointEnd (.line a b) i - b i| ≤ 2 / 10 ^ 10 := by
  have hr := rounds_rounding hfl
  have hu := ulp_pos
  have hU := ulp_lt
  show |L.fl (L.fl (b i - a i) + a i) - b i| ≤ _
  have ha := abs_le.1 (h i).1
  have hb := abs_le.1 (h i).2
  have h1 : |b i - a i| ≤ 2 * 10 ^ 5 := by rw [abs_le]; constructor <;> linarith
  have h2 := abs_le.1 ((Rounding.ulp hr (b i - a i)).trans (mul_le_mul_of_nonneg_left h1 hu.le))
  have h3 : |L.fl (b i - a i) + a i| ≤ 2 * 10 ^ 5 := by
    norm_num at *
    rw [abs_le]; constructor <;> linarith
  have h4 := abs_le.1 ((Rounding.ulp hr (L.fl (b i - a i) + a i)).trans (mul_le_mul_of_nonneg_left h3 hu.le))
  norm_num at *
  rw [abs_le]; constructor <;> linarith

include hfl hacos htrig in
theorem pointStart_close {s : SegF} (h : s.Clear) (i : Fin 2) : |L.pointStart s i - s.start i| ≤ 3 / 10 ^ 10 := by
  cases s with
  | line a b => show |a i - a i| ≤ _; rw [sub_self, abs_zero]; norm_num
  | arc x =>
    obtain ⟨σ, h⟩ := h
    obtain ⟨w, -, hw⟩ := C110_points hfl hacos htrig h
    exact (hw i).1

include hfl hacos htrig in
theorem pointEnd_close {s : SegF} (h : s.Clear) (i : Fin 2) : |L.pointEnd s i - s.stop i| ≤ 5 / 10 ^ 10 := by
  cases s with
  | line a b => exact (lineF_end hfl h i).trans (by norm_num)
  | arc x =>
    obtain ⟨σ, h⟩ := h
    obtain ⟨w, hc, hw⟩ := C110_points hfl hacos htrig h
    have e : L.pointEnd (.arc x) = L.point x w := by
      show (match calcAngleF L.fl L.acos x with | .ok w => L.point x w | .error _ => 0) = _
      rw [hc]
    rw [e]
    exact (hw i).2

include hfl hacos htrig in
/-- **C110 (shapes).** Segments that start close to where the one before them ends are accepted as a shape, despite
rounding after every operation, unless one of the arcs is close to a semicircle or starts close to the first axis, or the
radii are large. -/
theorem C110_nearly_partial {l : List SegF} (h : ∀ s ∈ l, s.Clear) (hj : NearlyJoined l) : L.mkShape l = .ok l := by
  have key : L.checkConnected l = .ok ⟨⟩ := by
    induction l with
    | nil => rfl
    | cons a l ih =>
      cases l with
      | nil => rfl
      | cons b l =>
        have hc : L.vectorIsClose (L.pointEnd a) (L.pointStart b) := by
          have h1 := pointEnd_close hfl hacos htrig (h a (by simp))
          have h2 := pointStart_close hfl hacos htrig (h b (by simp))
          have h3 : ∀ i, L.isclose (L.pointEnd a i) (L.pointStart b i) := by
            intro i
            refine isclose_of hfl ?_
            have t1 := abs_le.1 (h1 i)
            have t2 := abs_le.1 (h2 i)
            have t3 := abs_le.1 (hj.1 i)
            have t4 : |b.start i| ≤ |L.pointStart b i| + 3 / 10 ^ 10 := by
              have := abs_sub_abs_le_abs_sub (b.start i) (L.pointStart b i)
              rw [abs_sub_comm] at this
              linarith [h2 i]
            norm_num at t1 t2 t3 t4 ⊢
            rw [abs_le]; constructor <;> linarith
          exact ⟨h3 0, h3 1⟩
        rw [Lib.checkConnected, if_pos hc]
        exact ih (fun s hs => h s (by simp [hs])) hj.2
  unfold Lib.mkShape
  rw [key]
  rfl

include hfl hacos htrig in
/-- **C110 (shapes).** The same for segments that share their points. -/
theorem C110_shape_partial {l : List SegF} (h : ∀ s ∈ l, s.Clear) (hj : JoinedF l) : L.mkShape l = .ok l :=
  C110_nearly_partial hfl hacos htrig h hj.nearly

include hfl hacos htrig in
/-- **C110 (gaps).** Segments with a gap that is larger than the tolerance are refused. -/
theorem C110_gap {pre post : List SegF} {a b : SegF} (ha : a.Clear) (hb : b.Clear) {i : Fin 2}
    (h : 2 / 10 ^ 9 + 11 / 10 ^ 6 * |b.start i| < |a.stop i - b.start i|) :
    L.mkShape (pre ++ a :: b :: post) = .error .valueError := by
  have key : L.checkConnected (pre ++ a :: b :: post) = .error .valueError := by
    have hn : ¬ L.vectorIsClose (L.pointEnd a) (L.pointStart b) := by
      have h1 := pointEnd_close hfl hacos htrig ha i
      have h2 := pointStart_close hfl hacos htrig hb i
      have h3 : ¬ L.isclose (L.pointEnd a i) (L.pointStart b i) := by
        refine not_isclose_of hfl ?_
        have t4 : |L.pointStart b i| ≤ |b.start i| + 3 / 10 ^ 10 := by
          have := abs_sub_abs_le_abs_sub (L.pointStart b i) (b.start i)
          linarith
        have t5 : |a.stop i - b.start i| ≤ |L.pointEnd a i - a.stop i| + |L.pointEnd a i - L.pointStart b i| +
            |L.pointStart b i - b.start i| := by
          have e : a.stop i - b.start i = -(L.pointEnd a i - a.stop i) + (L.pointEnd a i - L.pointStart b i) +
            (L.pointStart b i - b.start i) := by ring
          conv_lhs => rw [e]
          refine (abs_add_three _ _ _).trans ?_
          rw [abs_neg]
        have t6 := abs_nonneg (b.start i)
        norm_num at h h1 h2 t4 t5 ⊢
        linarith
      rintro ⟨c0, c1⟩
      fin_cases i
      exacts [h3 c0, h3 c1]
    induction pre with
    | nil =>
      show L.checkConnected (a :: b :: post) = _
      rw [Lib.checkConnected, if_neg hn]
    | cons c pre ih =>
      cases pre with
      | nil =>
        show L.checkConnected (c :: a :: b :: post) = _
        rw [Lib.checkConnected]
        split
        · exact ih
        · rfl
      | cons d pre =>
        show L.checkConnected (c :: d :: (pre ++ a :: b :: post)) = _
        rw [Lib.checkConnected]
        split
        · exact ih
        · rfl
  unfold Lib.mkShape
  rw [key]
  rfl

include hfl hacos htrig in
/-- a line, a quarter of a circle and another line -/
example : L.mkShape [.line ![0, 0] ![1, 0], .arc ⟨![1, 0], ![2, 1], ![1, 1], 1⟩, .line ![2, 1] ![2, 5]] =
    .ok [.line ![0, 0] ![1, 0], .arc ⟨![1, 0], ![2, 1], ![1, 1], 1⟩, .line ![2, 1] ![2, 5]] := by
  refine C110_shape_partial hfl hacos htrig ?_ ⟨rfl, rfl, trivial⟩
  intro s hs
  simp only [List.mem_cons, List.not_mem_nil, or_false] at hs
  rcases hs with rfl | rfl | rfl
  · intro i; fin_cases i <;> norm_num
  · have l1 : len (![1, 0] - ![1, 1] : V) = 1 := by unfold len dot; norm_num
    have l2 : len (![2, 1] - ![1, 1] : V) = 1 := by unfold len dot; norm_num
    refine ⟨1 / 2, .inl rfl, by norm_num, ?_, ?_, ?_, ?_, ?_, ?_, ?_⟩
    · show 0 < len (![1, 0] - ![1, 1] : V); rw [l1]; norm_num
    · show |len (![2, 1] - ![1, 1] : V) - len (![1, 0] - ![1, 1] : V)| ≤ _; rw [l1, l2]; norm_num
    · show 0 < len (![2, 1] - ![1, 1] : V); rw [l2]; norm_num
    · unfold ArcF.sine
      show _ ≤ |_ / (len (![1, 0] - ![1, 1] : V) * len (![2, 1] - ![1, 1] : V))|
      rw [l1, l2]; norm_num
    · right
      show _ ≤ |_ / len (![1, 0] - ![1, 1] : V)|
      rw [l1]; norm_num
    · show len (![1, 0] - ![1, 1] : V) ≤ _; rw [l1]; norm_num
    · intro i; fin_cases i <;> norm_num
  · intro i; fin_cases i <;> norm_num

include hfl hacos htrig in
/-- a gap of a micrometre between two lines -/
example : L.mkShape ([] ++ .line ![0, 0] ![1 / 100, 0] :: .line ![1 / 100, 1 / 10 ^ 6] ![5, 5] :: []) =
    .error .valueError := by
  refine C110_gap hfl hacos htrig (i := 1) ?_ ?_ ?_
  · intro i; fin_cases i <;> norm_num
  · intro i; fin_cases i <;> norm_num
  · norm_num [SegF.start, SegF.stop]

end

end Weldx.Geo
