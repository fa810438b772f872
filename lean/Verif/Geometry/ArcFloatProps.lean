import Verif.Geometry.ArcFloatCenter

/-!
# Arcs in the arithmetic of floating point numbers: theorems (C109)
-/

namespace Weldx.Geo

open Matrix

/-! ### specification -/

/-- an isometry whose entries are rounded -/
def RoundedIso (m : M) : Prop := ∃ q : M, IsIso q ∧ ∀ i j, |m i j - q i j| ≤ |q i j| / 2 ^ 53

/-- sum of the lengths of all translations -/
noncomputable def travel : List Change → ℝ
  | [] => 0
  | .transform _ :: cs => travel cs
  | .translate v :: cs => len v + travel cs

open Classical in
/-- `1` if the number of reflections is even, else `-1` -/
noncomputable def orientation : List Change → ℤ
  | [] => 1
  | .transform m :: cs => (if 0 < m.det then 1 else -1) * orientation cs
  | .translate _ :: cs => orientation cs

/-- the changes in exact arithmetic -/
noncomputable def moved : List Change → V → V
  | [], p => p
  | .transform m :: cs, p => moved cs (m *ᵥ p)
  | .translate v :: cs, p => moved cs (p + v)

/-! ### construction from a radius -/

section
variable {fl acos : ℝ → ℝ} (hfl : Rounding fl) (hacos : Arccosine acos)
include hfl hacos

/-- **C109 (construction).** With rounding after every operation, `construct_with_radius` accepts all points and radii
up to 10 ^ 6 (1 km in millimetres) unless the points are closer than 10 ^ (-6) or the arc is almost straight. The
center is next to the perpendicular bisector, on the requested side, and the radius is the requested one or half
the distance between the points. -/
theorem C109_construct {s e : V} {r B : ℝ} (left ccw : Bool) (hs : len s ≤ B) (he : len e ≤ B) (hr : 0 < r)
    (hrB : r ≤ B) (hB : B ≤ 10 ^ 6) (hL : 1 / 10 ^ 6 ≤ len (e - s)) (hflat : r ≤ 10 ^ 6 * len (e - s)) :
    ∃ c, arcWithRadiusF fl acos s e r left ccw = .ok ⟨s, e, c, if ccw then 1 else -1⟩ ∧
      (∃ k : ℝ, 0 ≤ k ∧ len (c - (s + ((1 / 2 : ℝ) • (e - s) + k • across left (e - s)))) ≤ 9 * B / 2 ^ 53) ∧
      |len (s - c) - wantedRadius s e r| ≤ 27 * B / 2 ^ 53 ∧ |len (e - c) - wantedRadius s e r| ≤ 27 * B / 2 ^ 53 := by
  have hu := ulp_pos
  have hU := ulp_lt
  have hue : ∀ x : ℝ, x / 2 ^ 53 = ulp * x := by intro x; unfold ulp; ring
  have hpos : 0 < len (e - s) := lt_of_lt_of_le (by norm_num) hL
  have hB0 : 0 < B := hr.trans_le hrB
  obtain ⟨k, hk0, hρ, hc⟩ := centerF_close hfl left hs he hpos hr hrB
  set c := centerF fl s e r left with hcdef
  set v := e - s with hv
  set n := across left v with hn
  set w := (1 / 2 : ℝ) • v + k • n with hw
  set R := wantedRadius s e r with hR
  have hR' : R = max r (len v / 2) := rfl
  have hLB : len v ≤ 2 * B := by
    have := len_add e (-s)
    rw [len_neg, ← sub_eq_add_neg] at this
    linarith
  have hRB : R ≤ B := max_le hrB (by linarith)
  have hR0 : 0 < R := lt_max_of_lt_left hr
  have hRL : R ≤ 10 ^ 6 * len v := max_le hflat (by linarith)
  have hLR : len v / 2 ≤ R := le_max_right _ _
  have huB : ulp * B ≤ 12 / 10 ^ 11 := by
    have := mul_le_mul hU hB hB0.le (by norm_num)
    norm_num at this ⊢
    linarith
  have huB0 := mul_pos hu hB0
  have huR : ulp * R ≤ ulp * B := mul_le_mul_of_nonneg_left hRB hu.le
  -- both radii
  have ha : |len (s - c) - len w| ≤ 9 * ulp * B := by
    have h1 := len_sub_le (s - c) (-w)
    rw [len_neg] at h1
    have e1 : s - c - -w = -(c - (s + w)) := by abel
    rw [e1, len_neg] at h1
    exact h1.trans hc
  have hw2 : len (v - w) = len w := by
    have h1 := across_dot left v
    have h2 : dot v n = 0 := h1
    have e1 : dot (v - w) (v - w) = dot w w := by
      have : dot (v - w) (v - w) = dot v v - 2 * dot v w + dot w w := by unfold dot; simp; ring
      rw [this]
      have : dot v w = 1 / 2 * dot v v + k * dot v n := by rw [hw]; unfold dot; simp; ring
      rw [this, h2]; ring
    unfold len; rw [e1]
  have hb : |len (e - c) - len w| ≤ 9 * ulp * B := by
    have h1 := len_sub_le (e - c) (v - w)
    rw [hw2] at h1
    have e1 : e - c - (v - w) = -(c - (s + w)) := by rw [hv]; abel
    rw [e1, len_neg] at h1
    exact h1.trans hc
  have ha' := abs_le.1 ha
  have hb' := abs_le.1 hb
  have hρ' := abs_le.1 hρ
  have hfin : ∀ x, |x - len w| ≤ 9 * ulp * B → |x - R| ≤ 27 * B / 2 ^ 53 := by
    intro x hx
    have := abs_sub_le x (len w) R
    rw [hue]; linarith
  refine ⟨c, ?_, ⟨k, hk0, by rw [hue]; linarith⟩, hfin _ ha, hfin _ hb⟩
  refine check_ok hfl hacos ?_ ?_ ?_ ?_
  · show 0 < len (s - c)
    norm_num at hL huB ⊢
    nlinarith
  · show 0 < len (e - c)
    norm_num at hL huB ⊢
    nlinarith
  · show |len (e - c) - len (s - c)| + 7 * ulp * (len (e - c) + len (s - c)) ≤ 99 / 10 ^ 10
    have h1 : |len (e - c) - len (s - c)| ≤ 18 * ulp * B := by
      rw [abs_le]; constructor <;> linarith
    have h2 : len (e - c) + len (s - c) ≤ 3 * B := by nlinarith
    have h3 := mul_le_mul_of_nonneg_left h2 (show 0 ≤ 7 * ulp by positivity)
    norm_num at huB ⊢
    linarith
  · show 43 * ulp * (len (s - c) * len (e - c)) ≤ len (s - e) ^ 2 - (len (s - c) - len (e - c)) ^ 2
    rw [len_sub_comm s e, ← hv]
    have hL0 := hpos
    have h0 : 9 * ulp * B ≤ 2 / 1000 * len v := by norm_num at hL huB ⊢; linarith
    have h1 : len (s - c) ≤ 101 / 100 * 10 ^ 6 * len v := by nlinarith
    have h2 : len (e - c) ≤ 101 / 100 * 10 ^ 6 * len v := by nlinarith
    have h3 : len (s - c) * len (e - c) ≤ (101 / 100 * 10 ^ 6 * len v) * (101 / 100 * 10 ^ 6 * len v) :=
      mul_le_mul h1 h2 (len_nonneg _) (by positivity)
    have h4 : |len (s - c) - len (e - c)| ≤ 4 / 1000 * len v := by
      rw [abs_le]; constructor <;> linarith
    have h5 : (len (s - c) - len (e - c)) ^ 2 ≤ (4 / 1000 * len v) ^ 2 := sq_le_sq' (by linarith [(abs_le.1 h4).1]) (abs_le.1 h4).2
    have h6 : 43 * ulp * (len (s - c) * len (e - c)) ≤
        43 * (12 / 10 ^ 17) * ((101 / 100 * 10 ^ 6 * len v) * (101 / 100 * 10 ^ 6 * len v)) :=
      mul_le_mul (by linarith) h3 (mul_nonneg (len_nonneg _) (len_nonneg _)) (by norm_num)
    have h7 : 0 < len v ^ 2 := by positivity
    norm_num at h5 h6 ⊢
    nlinarith

end

end Weldx.Geo
