import Verif.Geometry.ArcFloatLemmas

/-!
# The center of an arc that is constructed from a radius
-/

namespace Weldx.Geo

open Matrix

/-! ### specification -/

/-- the vector between two points turned by a right angle, to the left or to the right -/
def across (left : Bool) (v : V) : V := if left then ![-v 1, v 0] else ![v 1, -v 0]

/-- radius of the arc: a half circle if the requested radius is too small -/
noncomputable def wantedRadius (pStart pEnd : V) (radius : ℝ) : ℝ := max radius (len (pEnd - pStart) / 2)

/-! ### construction from a radius -/

theorem across_len (left : Bool) (v : V) : len (across left v) = len v := by
  unfold across len dot; cases left <;> simp <;> ring_nf

theorem across_dot (left : Bool) (v : V) : dot v (across left v) = 0 := by
  unfold across dot; cases left <;> simp <;> ring

theorem sqrt_close {x y c : ℝ} (hx : 0 ≤ x) (hy : 0 ≤ y) (h : |x ^ 2 - y ^ 2| ≤ c * y ^ 2) : |x - y| ≤ c * y := by
  rcases hy.eq_or_lt with h0 | hpos
  · rw [← h0] at h ⊢
    simp at h ⊢
    exact h
  · have e : |x - y| * (x + y) = |x ^ 2 - y ^ 2| := by
      rw [show x ^ 2 - y ^ 2 = (x - y) * (x + y) by ring, abs_mul, abs_of_nonneg (add_nonneg hx hy)]
    by_contra hcon
    push Not at hcon
    have h1 : c * y * y < |x - y| * y := mul_lt_mul_of_pos_right hcon hpos
    have h2 : 0 ≤ |x - y| * x := mul_nonneg (abs_nonneg _) hx
    nlinarith

section
variable {fl acos : ℝ → ℝ} (hfl : Rounding fl)
include hfl

set_option maxHeartbeats 1000000 in
/-- the factor of the normal vector -/
theorem scaling_close {v vF : V} (hv : ∀ i, |vF i - v i| ≤ ulp * |v i|) (hpos : 0 < len v) {r : ℝ} (hr : 0 < r) :
    let k := fl √(max (fl (fl (fl (r * r) / dotF fl vF vF) - 1 / 4)) 0)
    0 ≤ k ∧ |len v ^ 2 * (1 / 4 + k ^ 2) - max r (len v / 2) ^ 2| ≤ 18 * ulp * max r (len v / 2) ^ 2 := by
  intro k
  have hu := ulp_pos
  have hU := ulp_lt
  set L := len v with hL
  have hL2 : 0 < L ^ 2 := by positivity
  -- the square of the length
  have h1 : |dotF fl vF vF - L ^ 2| ≤ 5 * ulp * L ^ 2 := by
    have h := dotF_close hfl (a := v) (b := v) (a' := vF) (b' := vF) (c := 21 / 10 * ulp) (by positivity) (by
      intro i
      have hi := hv i
      rw [abs_mul_self]
      have e : vF i * vF i - v i * v i = (vF i - v i) * (vF i - v i) + 2 * ((vF i - v i) * v i) := by ring
      rw [e]
      have g1 : |(vF i - v i) * (vF i - v i)| ≤ ulp * |v i| * (ulp * |v i|) := by
        rw [abs_mul]; exact mul_le_mul hi hi (abs_nonneg _) (by positivity)
      have g2 : |2 * ((vF i - v i) * v i)| ≤ 2 * (ulp * |v i| * |v i|) := by
        rw [abs_mul, abs_mul, abs_two]
        exact mul_le_mul_of_nonneg_left (mul_le_mul_of_nonneg_right hi (abs_nonneg _)) (by norm_num)
      have g3 := abs_add_le ((vF i - v i) * (vF i - v i)) (2 * ((vF i - v i) * v i))
      have g4 := abs_mul_abs_self (v i)
      have g5 : ulp * ulp + 2 * ulp ≤ 21 / 10 * ulp := by nlinarith
      have g6 := mul_le_mul_of_nonneg_right g5 (mul_self_nonneg (v i))
      nlinarith)
    have e : |v 0 * v 0| + |v 1 * v 1| = L ^ 2 := by
      rw [abs_mul_self, abs_mul_self, pow_two, hL, len_mul_self]; rfl
    have e2 : dot v v = L ^ 2 := by rw [pow_two, hL, len_mul_self]
    rw [e, e2] at h
    refine h.trans (mul_le_mul_of_nonneg_right ?_ hL2.le)
    have g1 : ulp * (1 + 21 / 10 * ulp) ≤ 11 / 10 * ulp := by nlinarith
    have g2 : ulp * (1 + 21 / 10 * ulp + ulp * (1 + 21 / 10 * ulp)) ≤ ulp * (11 / 10) :=
      mul_le_mul_of_nonneg_left (by linarith) hu.le
    linarith
  set D := dotF fl vF vF with hD
  have h1' := abs_le.1 h1
  have hD0 : 0 < D := by nlinarith
  set Q := r ^ 2 / L ^ 2 with hQ
  have hQ0 : 0 < Q := by positivity
  -- the quotient
  have h2 : |fl (r * r) / D - Q| ≤ 7 * ulp * |Q| := by
    have g1 := Rounding.ulp hfl (r * r)
    rw [abs_of_pos (mul_pos hr hr)] at g1
    have e : fl (r * r) / D - Q = ((fl (r * r) - r * r) * L ^ 2 + r * r * (L ^ 2 - D)) / (D * L ^ 2) := by
      rw [hQ]; field_simp; ring
    rw [e, abs_div, abs_of_pos (mul_pos hD0 hL2), abs_of_pos hQ0, div_le_iff₀ (mul_pos hD0 hL2)]
    have e2 : 7 * ulp * Q * (D * L ^ 2) = 7 * ulp * (r * r) * D := by rw [hQ]; field_simp
    rw [e2]
    have g2 : |(fl (r * r) - r * r) * L ^ 2 + r * r * (L ^ 2 - D)| ≤
        ulp * (r * r) * L ^ 2 + r * r * (5 * ulp * L ^ 2) := by
      refine (abs_add_le _ _).trans ?_
      rw [abs_mul, abs_mul, abs_of_pos hL2, abs_of_pos (mul_pos hr hr), abs_sub_comm (L ^ 2) D]
      exact add_le_add (mul_le_mul_of_nonneg_right g1 hL2.le) (mul_le_mul_of_nonneg_left h1 (by positivity))
    refine g2.trans ?_
    have g3 : (1 - 5 * ulp) * L ^ 2 ≤ D := by linarith
    have g4 : 7 * ulp * (r * r) * ((1 - 5 * ulp) * L ^ 2) ≤ 7 * ulp * (r * r) * D :=
      mul_le_mul_of_nonneg_left g3 (by positivity)
    refine le_trans ?_ g4
    have g5 : 6 * ulp ≤ 7 * ulp * (1 - 5 * ulp) := by nlinarith
    have g6 := mul_le_mul_of_nonneg_right g5 (mul_nonneg (mul_pos hr hr).le hL2.le)
    linarith
  have h3 := Rounding.of_close hfl h2
  rw [abs_of_pos hQ0] at h3
  have h3' : |fl (fl (r * r) / D) - Q| ≤ 9 * ulp * Q := by
    refine h3.trans (mul_le_mul_of_nonneg_right ?_ hQ0.le)
    nlinarith
  set q := fl (fl (r * r) / D) with hq
  -- the difference
  have h4 := Rounding.ulp hfl (q - 1 / 4)
  have h5 : |q - 1 / 4| ≤ 2 * Q + 1 / 4 := by
    have := abs_le.1 h3'
    rw [abs_le]; constructor <;> nlinarith
  have h6 : |fl (q - 1 / 4) - (Q - 1 / 4)| ≤ 11 * ulp * Q + ulp / 4 := by
    have g1 := abs_sub_le (fl (q - 1 / 4)) (q - 1 / 4) (Q - 1 / 4)
    have e : q - 1 / 4 - (Q - 1 / 4) = q - Q := by ring
    rw [e] at g1
    have g2 := mul_le_mul_of_nonneg_left h5 hu.le
    nlinarith
  set d := fl (q - 1 / 4) with hd
  set K := max d 0 with hK
  set T := max (Q - 1 / 4) 0 with hT
  have hK0 : 0 ≤ K := le_max_right _ _
  have hT0 : 0 ≤ T := le_max_right _ _
  have h7 : |K - T| ≤ 11 * ulp * Q + ulp / 4 := (abs_max_sub_max_le_abs d (Q - 1 / 4) 0).trans h6
  have hTle : T ≤ Q := max_le (by linarith) hQ0.le
  -- the root
  have h8 := Rounding.ulp hfl √K
  rw [abs_of_nonneg (Real.sqrt_nonneg K)] at h8
  have hk : |k - √K| ≤ ulp * √K := h8
  have hk0 : 0 ≤ k := by
    have := (abs_le.1 hk).1
    have := Real.sqrt_nonneg K
    nlinarith
  refine ⟨hk0, ?_⟩
  have h9 : |k ^ 2 - K| ≤ 3 * ulp * K := by
    have e : K = √K ^ 2 := (Real.sq_sqrt hK0).symm
    have e2 : k ^ 2 - √K ^ 2 = (k - √K) * (k - √K) + 2 * ((k - √K) * √K) := by ring
    have hs := Real.sqrt_nonneg K
    have g1 : |(k - √K) * (k - √K)| ≤ ulp * √K * (ulp * √K) := by
      rw [abs_mul]; exact mul_le_mul hk hk (abs_nonneg _) (by positivity)
    have g2 : |2 * ((k - √K) * √K)| ≤ 2 * (ulp * √K * √K) := by
      rw [abs_mul, abs_mul, abs_two, abs_of_nonneg hs]
      exact mul_le_mul_of_nonneg_left (mul_le_mul_of_nonneg_right hk hs) (by norm_num)
    have g3 := abs_add_le ((k - √K) * (k - √K)) (2 * ((k - √K) * √K))
    have g5 : ulp * ulp + 2 * ulp ≤ 3 * ulp := by nlinarith
    have g6 := mul_le_mul_of_nonneg_right g5 (mul_self_nonneg √K)
    rw [← e2, ← e] at g3
    have g7 := Real.mul_self_sqrt hK0
    have g8 : ulp * √K * (ulp * √K) + 2 * (ulp * √K * √K) = (ulp * ulp + 2 * ulp) * (√K * √K) := by ring
    rw [← g8, g7] at g6
    linarith
  have h10 : |k ^ 2 - T| ≤ 15 * ulp * Q + ulp / 2 := by
    have g1 := abs_sub_le (k ^ 2) K T
    have g2 : K ≤ Q + (11 * ulp * Q + ulp / 4) := by linarith [(abs_le.1 h7).2]
    have g3 : 3 * ulp * K ≤ 3 * ulp * (Q + (11 * ulp * Q + ulp / 4)) := mul_le_mul_of_nonneg_left g2 (by positivity)
    have g4 : 33 * ulp * ulp * Q ≤ ulp * Q := by
      have := mul_le_mul_of_nonneg_right (show 33 * ulp * ulp ≤ ulp by nlinarith) hQ0.le
      linarith
    have g5 : 3 * ulp * (ulp / 4) ≤ ulp / 4 := by nlinarith
    linarith
  -- the radius
  set R := max r (L / 2) with hR
  have hR0 : 0 < R := lt_max_of_lt_left hr
  have hR2 : R ^ 2 = L ^ 2 * (1 / 4 + T) := by
    have e : r ^ 2 = L ^ 2 * Q := by rw [hQ]; field_simp
    rcases le_total (L / 2) r with hc | hc
    · rw [hR, max_eq_left hc, hT, max_eq_left, e]
      · ring
      · have : L ^ 2 / 4 ≤ L ^ 2 * Q := by rw [← e]; nlinarith
        by_contra hcon
        push Not at hcon
        nlinarith
    · rw [hR, max_eq_right hc, hT, max_eq_right]
      · ring
      · have : L ^ 2 * Q ≤ L ^ 2 / 4 := by rw [← e]; nlinarith
        by_contra hcon
        push Not at hcon
        nlinarith
  have hrR : L ^ 2 * Q ≤ R ^ 2 := by
    have e : r ^ 2 = L ^ 2 * Q := by rw [hQ]; field_simp
    rw [← e]; exact pow_le_pow_left₀ hr.le (le_max_left _ _) 2
  have hLR : L ^ 2 / 4 ≤ R ^ 2 := by
    have := pow_le_pow_left₀ (by positivity) (le_max_right r (L / 2)) 2
    rw [← hR] at this
    nlinarith
  have e : L ^ 2 * (1 / 4 + k ^ 2) - R ^ 2 = L ^ 2 * (k ^ 2 - T) := by rw [hR2]; ring
  rw [e, abs_mul, abs_of_pos hL2]
  have g1 := mul_le_mul_of_nonneg_left h10 hL2.le
  have g2 := mul_le_mul_of_nonneg_left hrR hu.le
  have g3 := mul_le_mul_of_nonneg_left hLR hu.le
  nlinarith

theorem addF_close (a b : V) : len (addF fl a b - (a + b)) ≤ ulp * len (a + b) :=
  len_le_of_entries ulp_pos.le fun i => Rounding.ulp hfl ((a + b) i)

set_option maxHeartbeats 1000000 in
/-- the center -/
theorem centerF_close {s e : V} {r B : ℝ} (left : Bool) (hs : len s ≤ B) (he : len e ≤ B) (hne : 0 < len (e - s))
    (hr : 0 < r) (hrB : r ≤ B) :
    ∃ k : ℝ, 0 ≤ k ∧
      |len ((1 / 2 : ℝ) • (e - s) + k • across left (e - s)) - wantedRadius s e r| ≤ 18 * ulp * wantedRadius s e r ∧
      len (centerF fl s e r left - (s + ((1 / 2 : ℝ) • (e - s) + k • across left (e - s)))) ≤ 9 * ulp * B := by
  have hu := ulp_pos
  have hU := ulp_lt
  have hv := fun i => subF_close hfl e s i
  obtain ⟨hk0, hk⟩ := scaling_close hfl hv hne hr
  set v := e - s with hvdef
  set vF := subF fl e s with hvF
  set k := fl √(max (fl (fl (fl (r * r) / dotF fl vF vF) - 1 / 4)) 0) with hkdef
  set n := across left v with hn
  set R := wantedRadius s e r with hR
  have hR' : R = max r (len v / 2) := rfl
  rw [← hR'] at hk
  have hB : 0 < B := hr.trans_le hrB
  have hLB : len v ≤ 2 * B := by
    have := len_add e (-s)
    rw [len_neg, ← sub_eq_add_neg] at this
    linarith
  have hRB : R ≤ B := max_le hrB (by linarith)
  have hR0 : 0 < R := lt_max_of_lt_left hr
  set w := (1 / 2 : ℝ) • v + k • n with hw
  have hwl : len w ^ 2 = len v ^ 2 * (1 / 4 + k ^ 2) := by
    rw [pow_two, len_mul_self, pow_two (len v), len_mul_self]
    have h1 := across_dot left v
    have h2 : dot n n = dot v v := by
      rw [← len_mul_self, ← len_mul_self, hn, across_len]
    have e1 : dot w w = 1 / 4 * dot v v + k * dot v n + k ^ 2 * dot n n := by
      rw [hw]; unfold dot; simp; ring
    have h3 : dot v n = 0 := h1
    rw [e1, h2, h3]; ring
  have hρ : |len w - R| ≤ 18 * ulp * R := by
    refine sqrt_close (len_nonneg w) hR0.le ?_
    rw [hwl]; exact hk
  refine ⟨k, hk0, hρ, ?_⟩
  have hρ2 : len w ≤ 101 / 100 * B := by
    have := (abs_le.1 hρ).2
    nlinarith
  -- the two parts
  set hF : V := fun i => fl (1 / 2 * vF i) with hhF
  set mF : V := fun i => fl ((![(if left then (-1 : ℝ) else 1) * vF 1, -(if left then (-1 : ℝ) else 1) * vF 0] : V) i * k)
    with hmF
  have hcen : centerF fl s e r left = addF fl s (addF fl hF mF) := rfl
  have h1 : len (hF - (1 / 2 : ℝ) • v) ≤ 21 / 10 * ulp * len ((1 / 2 : ℝ) • v) := by
    refine len_le_of_entries (by positivity) fun i => ?_
    have g := Rounding.of_close hfl (x := 1 / 2 * vF i) (y := 1 / 2 * v i) (c := ulp) (by
      rw [← mul_sub, abs_mul, abs_mul]
      have := hv i
      have h0 := abs_nonneg (1 / 2 : ℝ)
      nlinarith)
    refine g.trans (mul_le_mul_of_nonneg_right ?_ (abs_nonneg _))
    nlinarith
  have h2 : len (mF - k • n) ≤ 21 / 10 * ulp * len (k • n) := by
    refine len_le_of_entries (by positivity) fun i => ?_
    have hcl : ∀ j, |(![(if left then (-1 : ℝ) else 1) * vF 1, -(if left then (-1 : ℝ) else 1) * vF 0] : V) j - n j| ≤
        ulp * |n j| := by
      intro j
      have g0 := hv 0
      have g1 := hv 1
      rw [hn]; unfold across
      cases left <;> fin_cases j <;> simp
      · exact g1
      · rw [← neg_add_eq_sub] at g0
        rw [← abs_neg]; simpa [add_comm] using g0
      · rw [← neg_add_eq_sub] at g1
        rw [← abs_neg]; simpa [add_comm] using g1
      · exact g0
    have g := Rounding.of_close hfl (x := (![(if left then (-1 : ℝ) else 1) * vF 1, -(if left then (-1 : ℝ) else 1) * vF 0] : V) i * k)
      (y := k * n i) (c := ulp) (by
      rw [mul_comm k (n i), ← sub_mul, abs_mul, abs_mul]
      have := mul_le_mul_of_nonneg_right (hcl i) (abs_nonneg k)
      linarith)
    refine g.trans (mul_le_mul_of_nonneg_right ?_ (abs_nonneg _))
    nlinarith
  have hL2 : len ((1 / 2 : ℝ) • v) ≤ len w := by
    refine abs_le_of_sq_le_sq' ?_ (len_nonneg w) |>.2
    rw [hwl, len_smul, mul_pow]
    norm_num
    nlinarith [sq_nonneg (len v * k), sq_nonneg (len v)]
  have hkn : len (k • n) ≤ len w := by
    refine abs_le_of_sq_le_sq' ?_ (len_nonneg w) |>.2
    rw [hwl, len_smul, mul_pow, hn, across_len, sq_abs]
    nlinarith [sq_nonneg (len v)]
  have hw0 := len_nonneg w
  have h3 : len (hF + mF - w) ≤ 21 / 5 * ulp * len w := by
    have e1 : hF + mF - w = (hF - (1 / 2 : ℝ) • v) + (mF - k • n) := by rw [hw]; abel
    rw [e1]
    have := len_add (hF - (1 / 2 : ℝ) • v) (mF - k • n)
    have g1 := mul_le_mul_of_nonneg_left hL2 (show 0 ≤ 21 / 10 * ulp by positivity)
    have g2 := mul_le_mul_of_nonneg_left hkn (show 0 ≤ 21 / 10 * ulp by positivity)
    linarith
  have h4 : len (addF fl hF mF - w) ≤ 11 / 2 * ulp * len w := by
    have e1 : addF fl hF mF - w = (addF fl hF mF - (hF + mF)) + (hF + mF - w) := by abel
    have g1 := len_add (addF fl hF mF - (hF + mF)) (hF + mF - w)
    rw [← e1] at g1
    have g2 := addF_close hfl hF mF
    have g3 : len (hF + mF) ≤ len w + 21 / 5 * ulp * len w := by
      have := len_add w (hF + mF - w)
      rw [add_sub_cancel] at this
      linarith
    have g4 := mul_le_mul_of_nonneg_left g3 hu.le
    have g5 : ulp * (1 + 21 / 5 * ulp) + 21 / 5 * ulp ≤ 11 / 2 * ulp := by nlinarith
    have g6 := mul_le_mul_of_nonneg_right g5 hw0
    linarith
  have h5 : len (addF fl s (addF fl hF mF) - (s + w)) ≤ ulp * B + 7 * ulp * len w := by
    set W := addF fl hF mF with hW
    have e1 : addF fl s W - (s + w) = (addF fl s W - (s + W)) + (W - w) := by abel
    have g1 := len_add (addF fl s W - (s + W)) (W - w)
    rw [← e1] at g1
    have g2 := addF_close hfl s W
    have g3 : len (s + W) ≤ B + (len w + 11 / 2 * ulp * len w) := by
      have t1 := len_add s W
      have t2 := len_add w (W - w)
      rw [add_sub_cancel] at t2
      linarith
    have g4 := mul_le_mul_of_nonneg_left g3 hu.le
    have g5 : ulp * (1 + 11 / 2 * ulp) + 11 / 2 * ulp ≤ 7 * ulp := by nlinarith
    have g6 := mul_le_mul_of_nonneg_right g5 hw0
    linarith
  rw [hcen]
  refine h5.trans ?_
  have := mul_le_mul_of_nonneg_left hρ2 (show 0 ≤ 7 * ulp by positivity)
  have := mul_pos hu hB
  linarith

end

end Weldx.Geo
