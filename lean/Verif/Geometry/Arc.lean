import Verif.Geometry.Model

/-!
# Arc segments (C51)
-/

namespace Weldx.Geo
open Real

theorem dot_self_nonneg (a : V) : 0 ≤ dot a a := by
  unfold dot; nlinarith [mul_self_nonneg (a 0), mul_self_nonneg (a 1)]

theorem len_nonneg (a : V) : 0 ≤ len a := Real.sqrt_nonneg _

theorem len_mul_self (a : V) : len a * len a = dot a a := Real.mul_self_sqrt (dot_self_nonneg a)

theorem len_eq_zero {a : V} : len a = 0 ↔ a = 0 := by
  constructor
  · intro h
    have := len_mul_self a
    rw [h, mul_zero] at this
    by_contra hne
    exact absurd (sq_pos_of_ne hne) (by unfold dot at this; linarith)
  · rintro rfl; simp [len, dot]

/-- rotation by an angle -/
noncomputable def rot (t : ℝ) (v : V) : V := ![cos t * v 0 - sin t * v 1, sin t * v 0 + cos t * v 1]

theorem rot_eq (t : ℝ) (v : V) : rot t v = cos t • v + sin t • turn v := by
  funext i; fin_cases i <;> simp [rot, turn] <;> ring

theorem rot_smul (t c : ℝ) (v : V) : rot t (c • v) = c • rot t v := by
  funext i; fin_cases i <;> simp [rot] <;> ring

/-- a vector in terms of a unit vector -/
theorem decompose {u v : V} (h : dot u u = 1) : v = dot u v • u + (u 0 * v 1 - u 1 * v 0) • turn u := by
  unfold dot at *
  funext i; fin_cases i
  · simp [turn]; linear_combination (-(v 0)) * h
  · simp [turn]; linear_combination (-(v 1)) * h

/-- coefficients are unique -/
theorem decompose_unique {u : V} {a b a' b' : ℝ} (h : dot u u = 1) (he : a • u + b • turn u = a' • u + b' • turn u) :
    a = a' ∧ b = b' := by
  unfold dot at h
  have h0 := congrFun he 0
  have h1 := congrFun he 1
  simp [turn] at h0 h1
  constructor
  · linear_combination (-a + a') * h + u 0 * h0 + u 1 * h1
  · linear_combination (-b + b') * h - u 1 * h0 + u 0 * h1

theorem normalize_ok {a u : V} (h : normalize a = .ok u) : len a ≠ 0 ∧ u = (len a)⁻¹ • a ∧ dot u u = 1 := by
  unfold normalize at h
  split at h
  · cases h
  · rename_i hne
    cases h
    refine ⟨hne, rfl, ?_⟩
    have := len_mul_self a
    unfold dot at *
    simp only [Pi.smul_apply, smul_eq_mul]
    field_simp
    nlinarith

/-- cosine and sine of the angle of the arc -/
theorem calcAngle_spec {ps pe pc : V} {sg : ℤ} (hs : sg = 1 ∨ sg = -1) {t : ℝ} (h : calcAngle ps pe pc sg = .ok t) :
    ∃ u v, normalize (ps - pc) = .ok u ∧ normalize (pe - pc) = .ok v ∧ v = rot (sg * t) u ∧ 0 ≤ t ∧ t ≤ 2 * π ∧
      (t = 2 * π → u ≠ v) := by
  unfold calcAngle at h
  cases hu : normalize (ps - pc) with
  | error e => simp only [hu, bind, Except.bind] at h; cases h
  | ok u =>
    cases hv : normalize (pe - pc) with
    | error e => simp only [hu, hv, bind, Except.bind] at h; cases h
    | ok v =>
      simp only [hu, hv, bind, Except.bind] at h
      obtain ⟨-, -, hu1⟩ := normalize_ok hu
      obtain ⟨-, -, hv1⟩ := normalize_ok hv
      -- Lagrange identity
      have hl : dot u v * dot u v + (u 0 * v 1 - u 1 * v 0) * (u 0 * v 1 - u 1 * v 0) = 1 := by
        unfold dot at *
        linear_combination (v 0 * v 0 + v 1 * v 1) * hu1 + hv1
      have hle : dot u v ≤ 1 := by nlinarith [mul_self_nonneg (u 0 * v 1 - u 1 * v 0)]
      have hge : -1 ≤ dot u v := by nlinarith [mul_self_nonneg (u 0 * v 1 - u 1 * v 0)]
      have hclip : clip (dot u v) (-1) 1 = dot u v := by
        unfold clip; rw [max_eq_left hge, min_eq_left hle]
      rw [hclip] at h
      set d := arccos (dot u v) with hd
      have hcos : cos d = dot u v := cos_arccos hge hle
      have hsin : sin d = |u 0 * v 1 - u 1 * v 0| := by
        rw [hd, sin_arccos, ← sqrt_mul_self_eq_abs]; congr 1; linarith
      have hd0 : 0 ≤ d := arccos_nonneg _
      have hdpi : d ≤ π := arccos_le_pi _
      clear_value d
      refine ⟨u, v, rfl, rfl, ?_⟩
      have hside : SideOf (u 0 * v 1 - u 1 * v 0) (vectorPointsToLeft v u) := by
        rw [vectorPointsToLeft, det_rows]; exact sideOf_npSign _
      have hrot : ∀ x : ℝ, cos x = dot u v → sin x = u 0 * v 1 - u 1 * v 0 → v = rot x u := by
        intro x h1 h2
        rw [rot_eq, h1, h2]; exact decompose hu1
      have hne : (u 0 * v 1 - u 1 * v 0) ≠ 0 → u ≠ v := by
        rintro h rfl; exact h (by ring)
      have hpi := pi_pos
      rcases hs with rfl | rfl
      · -- counter-clockwise
        rcases hside with ⟨hx, hr⟩ | ⟨hx, hr⟩ | ⟨hx, hr⟩
        · rw [hr] at h; norm_num at h; cases h
          refine ⟨hrot _ ?_ ?_, hd0, by linarith, fun h => by linarith⟩
          · simpa using hcos
          · simp [hsin, abs_of_pos hx]
        · rw [hr] at h; norm_num at h; cases h
          refine ⟨hrot _ ?_ ?_, hd0, by linarith, fun h => by linarith⟩
          · simpa using hcos
          · simp [hsin, hx]
        · rw [hr] at h; norm_num at h; cases h
          refine ⟨hrot _ ?_ ?_, by linarith, by linarith, fun _ => hne hx.ne⟩
          · simp [hcos]
          · simp [hsin, abs_of_neg hx]
      · rcases hside with ⟨hx, hr⟩ | ⟨hx, hr⟩ | ⟨hx, hr⟩
        · rw [hr] at h; norm_num at h; cases h
          have e : ((-1 : ℤ) : ℝ) * (2 * π - d) = d - 2 * π := by push_cast; ring
          refine ⟨hrot _ ?_ ?_, by linarith, by linarith, fun _ => hne hx.ne'⟩
          · rw [e, cos_sub_two_pi, hcos]
          · rw [e, sin_sub_two_pi, hsin, abs_of_pos hx]
        · rw [hr] at h; norm_num at h; cases h
          have e : ((-1 : ℤ) : ℝ) * t = -t := by push_cast; ring
          refine ⟨hrot _ ?_ ?_, hd0, by linarith, fun h => by linarith⟩
          · rw [e, cos_neg, hcos]
          · rw [e, sin_neg, hsin, hx]; simp
        · rw [hr] at h; norm_num at h; cases h
          have e : ((-1 : ℤ) : ℝ) * t = -t := by push_cast; ring
          refine ⟨hrot _ ?_ ?_, hd0, by linarith, fun h => by linarith⟩
          · rw [e, cos_neg, hcos]
          · rw [e, sin_neg, hsin, abs_of_neg hx]; simp

/-- start angle of the series -/
theorem start_angle {diff : V} (h : len diff ≠ 0) {sg : ℝ} (hsg : sg = if diff 1 < 0 then -1 else 1) :
    len diff * cos (arccos (diff 0 / len diff) * sg) = diff 0 ∧
    len diff * sin (arccos (diff 0 / len diff) * sg) = diff 1 := by
  have hp : 0 < len diff := lt_of_le_of_ne (len_nonneg _) h.symm
  have hm := len_mul_self diff
  unfold dot at hm
  have h1 : diff 0 / len diff ≤ 1 := by rw [div_le_one hp]; nlinarith [mul_self_nonneg (diff 1)]
  have h2 : -1 ≤ diff 0 / len diff := by rw [le_div_iff₀ hp]; nlinarith [mul_self_nonneg (diff 1)]
  have hs : len diff * sin (arccos (diff 0 / len diff)) = |diff 1| := by
    rw [sin_arccos]
    have : 1 - (diff 0 / len diff) ^ 2 = (diff 1 / len diff) * (diff 1 / len diff) := by
      field_simp; nlinarith
    rw [this, sqrt_mul_self_eq_abs, abs_div, abs_of_pos hp, mul_div_cancel₀ _ h]
  subst hsg
  split
  · rename_i hneg
    rw [mul_neg_one, cos_neg, sin_neg, cos_arccos h2 h1, mul_div_cancel₀ _ h, mul_neg, hs, abs_of_neg hneg]
    simp
  · rename_i hneg
    rw [mul_one, cos_arccos h2 h1, mul_div_cancel₀ _ h, hs, abs_of_nonneg (not_lt.1 hneg)]
    simp

/-- What `update` guarantees. -/
structure Arc.Valid (x : Arc) : Prop where
  sign : x.sign = 1 ∨ x.sign = -1
  angle : calcAngle x.pStart x.pEnd x.pCenter x.sign = .ok x.maxCoord
  radius : x.radius = len (x.pStart - x.pCenter)
  o : x.o = x.pCenter
  r : x.r = x.radius
  w : x.w = x.sign
  a : ![x.r * cos x.a, x.r * sin x.a] = x.pStart - x.pCenter
  length : x.length = x.radius * x.maxCoord
  pos : 0 < x.length
  close : |len (x.pEnd - x.pCenter) - len (x.pStart - x.pCenter)| ≤ 1 / 100000000

theorem isclose_zero {t x : ℝ} : isclose t x 0 ↔ |x| ≤ t := by simp [isclose]

/-- the result of `update` -/
theorem Arc.update_eq (x : Arc) {t : ℝ} (h : calcAngle x.pStart x.pEnd x.pCenter x.sign = .ok t) :
    ∃ y : Arc, y.pStart = x.pStart ∧ y.pEnd = x.pEnd ∧ y.pCenter = x.pCenter ∧ y.sign = x.sign ∧
      y.maxCoord = t ∧ y.radius = len (x.pStart - x.pCenter) ∧ y.o = x.pCenter ∧ y.r = y.radius ∧ y.w = x.sign ∧
      y.a = arccos ((x.pStart - x.pCenter) 0 / y.radius) * (if (x.pStart - x.pCenter) 1 < 0 then -1 else 1) ∧
      Arc.update x = if y.radius * t ≤ 0 then .err .valueError y
        else if |len (x.pEnd - x.pCenter) - len (x.pStart - x.pCenter)| ≤ 1 / 100000000
          then .ok () { y with length := y.radius * t } else .err .valueError { y with length := y.radius * t } := by
  refine ⟨{ x with
    maxCoord := t
    radius := len (x.pStart - x.pCenter)
    o := x.pCenter
    r := len (x.pStart - x.pCenter)
    a := arccos ((x.pStart - x.pCenter) 0 / len (x.pStart - x.pCenter)) * (if (x.pStart - x.pCenter) 1 < 0 then -1 else 1)
    w := x.sign }, rfl, rfl, rfl, rfl, rfl, rfl, rfl, rfl, rfl, rfl, ?_⟩
  unfold Arc.update
  simp only [Py.get_bind, h, Py.lift_ok_bind, Py.modify_bind, isclose_zero]
  rw [Py.ite_apply]
  split
  · rfl
  · rw [Py.modify_bind, Py.ite_apply]
    split <;> rfl

theorem Arc.update_ok {x y : Arc} (hs : x.sign = 1 ∨ x.sign = -1) (h : x.update = .ok () y) :
    y.Valid ∧ y.pStart = x.pStart ∧ y.pEnd = x.pEnd ∧ y.pCenter = x.pCenter ∧ y.sign = x.sign := by
  cases hc : calcAngle x.pStart x.pEnd x.pCenter x.sign with
  | error e =>
    unfold Arc.update at h
    simp only [Py.get_bind, hc, Py.lift_error_bind] at h
    cases h
  | ok t =>
    obtain ⟨z, h1, h2, h3, h4, h5, h6, h7, h8, h9, h10, h11⟩ := x.update_eq hc
    rw [h11] at h
    split at h
    · cases h
    · rename_i hpos
      split at h
      · rename_i hclose
        cases h
        refine ⟨?_, h1, h2, h3, h4⟩
        obtain ⟨u, v, hu, -, -⟩ := calcAngle_spec hs hc
        have hne := (normalize_ok hu).1
        refine ⟨by rwa [h4], by simp only [h1, h2, h3, h4, h5]; exact hc, by simp only [h6, h1, h3], by simp only [h7, h3],
          h8, by simp only [h9, h4], ?_, by simp only [h5], by simp only []; linarith, by simp only [h1, h2, h3]; exact hclose⟩
        simp only [h8, h10, h6, h1, h3]
        obtain ⟨a1, a2⟩ := start_angle hne rfl
        rw [a1, a2]
        funext i; fin_cases i <;> rfl
      · cases h

/-- an arc without `__init__` having raised -/
theorem mkArc_ok {ps pe pc : V} {ccw : Bool} {x : Arc} (h : mkArc ps pe pc ccw = .ok x) :
    x.Valid ∧ x.pStart = ps ∧ x.pEnd = pe ∧ x.pCenter = pc ∧ x.sign = if ccw then 1 else -1 := by
  unfold mkArc at h
  split at h
  · rename_i u y hu
    cases h
    exact Arc.update_ok (by cases ccw <;> simp) hu
  · cases h

/-- points of a valid arc: the start rotated about the center -/
theorem Arc.Valid.point {x : Arc} (h : x.Valid) (s : ℝ) :
    x.point s = x.pCenter + rot (x.sign * s) (x.pStart - x.pCenter) := by
  have h0 := congrFun h.a 0
  have h1 := congrFun h.a 1
  simp only [Matrix.cons_val_zero, Matrix.cons_val_one] at h0 h1
  unfold Arc.point
  rw [h.o, add_comm]
  congr 1
  rw [h.w]
  funext i; fin_cases i
  · simp only [rot, Fin.zero_eta, Pi.smul_apply, Matrix.cons_val_zero, smul_eq_mul, ← h0, ← h1]
    rw [cos_add, mul_comm s]; ring
  · simp only [rot, Fin.mk_one, Pi.smul_apply, Matrix.cons_val_one, Matrix.cons_val_zero, smul_eq_mul, ← h0, ← h1]
    rw [sin_add, mul_comm s]; ring

theorem rot_zero (v : V) : rot 0 v = v := by funext i; fin_cases i <;> simp [rot]

theorem len_rot (t : ℝ) (v : V) : len (rot t v) = len v := by
  unfold len; congr 1
  simp only [dot, rot, Matrix.cons_val_zero, Matrix.cons_val_one]
  linear_combination (v 0 * v 0 + v 1 * v 1) * sin_sq_add_cos_sq t

theorem len_smul (c : ℝ) (v : V) : len (c • v) = |c| * len v := by
  unfold len
  rw [← sqrt_mul_self_eq_abs, ← sqrt_mul (mul_self_nonneg c)]
  congr 1; simp only [dot, Pi.smul_apply, smul_eq_mul]; ring

/-! ### C51 -/

/-- **C51.** All points of an accepted arc have the distance of the start point from the center, and the arc begins
at the start point. -/
theorem C51_radius {ps pe pc : V} {ccw : Bool} {x : Arc} (h : mkArc ps pe pc ccw = .ok x) :
    x.point 0 = ps ∧ ∀ s, len (x.point s - pc) = len (ps - pc) := by
  obtain ⟨hv, h1, h2, h3, h4⟩ := mkArc_ok h
  refine ⟨?_, fun s => ?_⟩
  · rw [hv.point, mul_zero, rot_zero, h1, h3]; abel
  · rw [hv.point, h3, add_sub_cancel_left, len_rot, h1]

/-- The end of the arc is the end point, up to the accepted difference of the distances from the center. -/
theorem Arc.Valid.point_end {x : Arc} (h : x.Valid) :
    x.point x.maxCoord - x.pCenter = (len (x.pStart - x.pCenter) / len (x.pEnd - x.pCenter)) • (x.pEnd - x.pCenter) := by
  obtain ⟨u, v, hu, hv, hr, -⟩ := calcAngle_spec h.sign h.angle
  obtain ⟨nu, eu, -⟩ := normalize_ok hu
  obtain ⟨nv, ev, -⟩ := normalize_ok hv
  have : x.pStart - x.pCenter = len (x.pStart - x.pCenter) • u := by rw [eu, smul_smul, mul_inv_cancel₀ nu, one_smul]
  rw [h.point, add_sub_cancel_left, this, rot_smul, ← hr, ev, ← this, smul_smul, div_eq_mul_inv]

/-- **C51.** The distances of the start and end point of an accepted arc from the center differ by at most 1e-8. The
arc ends at the end point up to the same difference, and exactly there if both distances are equal. -/
theorem C51_end {ps pe pc : V} {ccw : Bool} {x : Arc} (h : mkArc ps pe pc ccw = .ok x) :
    |len (pe - pc) - len (ps - pc)| ≤ 1 / 100000000 ∧ len (x.point x.maxCoord - pe) ≤ 1 / 100000000 ∧
      (len (pe - pc) = len (ps - pc) → x.point x.maxCoord = pe) := by
  obtain ⟨hv, h1, h2, h3, h4⟩ := mkArc_ok h
  have hc := hv.close
  have he := hv.point_end
  obtain ⟨u, v, -, hn, -⟩ := calcAngle_spec hv.sign hv.angle
  have hne := (normalize_ok hn).1
  rw [h1, h2, h3] at hc
  rw [h1, h2, h3] at he
  rw [h2, h3] at hne
  have key : x.point x.maxCoord - pe = ((len (ps - pc) - len (pe - pc)) / len (pe - pc)) • (pe - pc) := by
    have : x.point x.maxCoord - pe = (x.point x.maxCoord - pc) - (pe - pc) := by abel
    rw [this, he, sub_div, sub_smul, div_self hne, one_smul]
  refine ⟨hc, ?_, fun heq => ?_⟩
  · rw [key, len_smul, abs_div, abs_of_nonneg (len_nonneg (pe - pc)), div_mul_cancel₀ _ hne, abs_sub_comm]
    exact hc
  · have := key
    rw [heq, sub_self, zero_div, zero_smul] at this
    exact sub_eq_zero.1 this

/-- equal directions -/
theorem rot_inj {u : V} (h : dot u u = 1) {s t : ℝ} (he : rot s u = rot t u) : cos s = cos t ∧ sin s = sin t := by
  rw [rot_eq, rot_eq] at he
  exact decompose_unique h he

/-- **C51.** Winding order: walking along the arc means to rotate the start point about the center, counter-clockwise
or clockwise as requested, and the angle of the arc is the only one in `(0, 2π)` at which the direction of the end
point is reached. -/
theorem C51_winding {ps pe pc : V} {ccw : Bool} {x : Arc} (h : mkArc ps pe pc ccw = .ok x) :
    (∀ s, x.point s = pc + rot (if ccw then s else -s) (ps - pc)) ∧ 0 < x.maxCoord ∧ x.maxCoord < 2 * π ∧
      ∀ s, 0 < s → s < 2 * π → (∃ c : ℝ, 0 < c ∧ x.point s - pc = c • (pe - pc)) → s = x.maxCoord := by
  obtain ⟨hv, h1, h2, h3, h4⟩ := mkArc_ok h
  obtain ⟨u, v, hu, hn, hr, t0, t1, t2⟩ := calcAngle_spec hv.sign hv.angle
  obtain ⟨nu, eu, du⟩ := normalize_ok hu
  obtain ⟨nv, ev, dv⟩ := normalize_ok hn
  have hsg : ∀ s : ℝ, (x.sign : ℝ) * s = if ccw then s else -s := by intro s; rw [h4]; cases ccw <;> simp
  have hpoint : ∀ s, x.point s = pc + rot (if ccw then s else -s) (ps - pc) := by
    intro s; rw [hv.point, hsg, h1, h3]
  have hpos : 0 < x.maxCoord := by
    have hp := hv.pos
    rw [hv.length] at hp
    have hr0 : 0 ≤ x.radius := by rw [hv.radius]; exact len_nonneg _
    by_contra hn
    have : x.maxCoord = 0 := le_antisymm (not_lt.1 hn) t0
    rw [this, mul_zero] at hp; linarith
  have hlt : x.maxCoord < 2 * π := by
    refine lt_of_le_of_ne t1 fun he => t2 he ?_
    rw [hr, he]
    have : cos (x.sign * (2 * π)) = 1 ∧ sin (x.sign * (2 * π)) = 0 := by
      rcases hv.sign with h | h <;> rw [h] <;> simp
    rw [rot_eq, this.1, this.2]; simp
  refine ⟨hpoint, hpos, hlt, ?_⟩
  rintro s s0 s1 ⟨c, c0, hc⟩
  have hps : ps - pc = len (ps - pc) • u := by rw [eu, h1, h3, smul_smul, mul_inv_cancel₀ (by rw [← h1, ← h3]; exact nu), one_smul]
  have hpe : pe - pc = len (pe - pc) • v := by rw [ev, h2, h3, smul_smul, mul_inv_cancel₀ (by rw [← h2, ← h3]; exact nv), one_smul]
  rw [hv.point, h3, add_sub_cancel_left, h1, hps, rot_smul, hpe, smul_smul] at hc
  have hl : len (ps - pc) = c * len (pe - pc) := by
    have := congrArg len hc
    rw [len_smul, len_smul, len_rot] at this
    have lu : len u = 1 := by unfold len; rw [du, sqrt_one]
    have lv : len v = 1 := by unfold len; rw [dv, sqrt_one]
    rwa [lu, lv, mul_one, mul_one, abs_of_nonneg (len_nonneg _), abs_of_nonneg (mul_nonneg c0.le (len_nonneg _))] at this
  have hne : len (ps - pc) ≠ 0 := by rw [← h1, ← h3]; exact nu
  rw [← hl] at hc
  have : rot (x.sign * s) u = rot (x.sign * x.maxCoord) u := by
    rw [← hr]; exact smul_right_injective _ hne hc
  obtain ⟨e1, e2⟩ := rot_inj du this
  have e1' : cos s = cos x.maxCoord := by
    rcases hv.sign with h | h <;> rw [h] at e1 <;> simpa using e1
  have e2' : sin s = sin x.maxCoord := by
    rcases hv.sign with h | h <;> rw [h] at e2 <;> simpa using e2
  have : cos (s - x.maxCoord) = 1 := by rw [cos_sub, e1', e2']; nlinarith [sin_sq_add_cos_sq x.maxCoord]
  rw [cos_eq_one_iff] at this
  obtain ⟨k, hk⟩ := this
  have hk0 : k = 0 := by
    have hpi := pi_pos
    have l1 : (k : ℝ) < 1 := by by_contra hh; have : (1 : ℝ) ≤ k := not_lt.1 hh; nlinarith
    have l2 : (-1 : ℝ) < k := by by_contra hh; have : (k : ℝ) ≤ -1 := not_lt.1 hh; nlinarith
    have l1' : k < 1 := by exact_mod_cast l1
    have l2' : -1 < k := by exact_mod_cast l2
    omega
  rw [hk0] at hk
  simp at hk
  linarith

theorem normalize_of_ne {a : V} (h : a ≠ 0) : normalize a = .ok ((len a)⁻¹ • a) := by
  unfold normalize; rw [if_neg (mt len_eq_zero.1 h)]

theorem calcAngle_total {ps pe pc : V} (h1 : ps ≠ pc) (h2 : pe ≠ pc) (sg : ℤ) : ∃ t, calcAngle ps pe pc sg = .ok t := by
  unfold calcAngle
  rw [normalize_of_ne (sub_ne_zero.2 h1), normalize_of_ne (sub_ne_zero.2 h2)]
  simp only [bind, Except.bind]
  split
  exacts [⟨_, rfl⟩, ⟨_, rfl⟩]

/-- **C51.** Exactly the following arcs are accepted: the center differs from both points, the points are in different
directions, and their distances from the center differ by at most 1e-8. -/
theorem C51_accepted {ps pe pc : V} {ccw : Bool} : (∃ x, mkArc ps pe pc ccw = .ok x) ↔
    ps ≠ pc ∧ pe ≠ pc ∧ (¬ ∃ c : ℝ, 0 < c ∧ pe - pc = c • (ps - pc)) ∧
      |len (pe - pc) - len (ps - pc)| ≤ 1 / 100000000 := by
  constructor
  · rintro ⟨x, h⟩
    obtain ⟨hv, h1, h2, h3, h4⟩ := mkArc_ok h
    obtain ⟨u, v, hu, hn, hr, -⟩ := calcAngle_spec hv.sign hv.angle
    rw [h1, h3] at hu
    rw [h2, h3] at hn
    have e1 : ps ≠ pc := by rintro rfl; exact (normalize_ok hu).1 (by rw [sub_self]; exact len_eq_zero.2 rfl)
    have e2 : pe ≠ pc := by rintro rfl; exact (normalize_ok hn).1 (by rw [sub_self]; exact len_eq_zero.2 rfl)
    refine ⟨e1, e2, ?_, (C51_end h).1⟩
    rintro ⟨c, c0, hc⟩
    obtain ⟨w1, w2, w3, w4⟩ := C51_winding h
    have hvu : v = u := by
      obtain ⟨nu, eu, -⟩ := normalize_ok hu
      obtain ⟨nv, ev, -⟩ := normalize_ok hn
      rw [ev, eu, hc, len_smul, abs_of_pos c0, smul_smul, mul_inv, mul_assoc, mul_comm (len (ps - pc))⁻¹, ← mul_assoc,
        inv_mul_cancel₀ c0.ne', one_mul]
    rw [hvu] at hr
    have hu1 := (normalize_ok hu).2.2
    rw [rot_eq] at hr
    have : (1 : ℝ) • u + (0 : ℝ) • turn u = cos (x.sign * x.maxCoord) • u + sin (x.sign * x.maxCoord) • turn u := by
      rw [← hr]; simp
    have hcos := (decompose_unique hu1 this).1
    have hcos' : cos x.maxCoord = 1 := by
      rcases hv.sign with h | h <;> rw [h] at hcos <;> simpa using hcos.symm
    rw [cos_eq_one_iff_of_lt_of_lt (by linarith [pi_pos]) w3] at hcos'
    linarith
  · rintro ⟨h1, h2, h3, h4⟩
    obtain ⟨t, ht⟩ := calcAngle_total h1 h2 (if ccw then 1 else -1)
    have hsg : (if ccw then (1 : ℤ) else -1) = 1 ∨ (if ccw then (1 : ℤ) else -1) = -1 := by cases ccw <;> simp
    obtain ⟨u, v, hu, hn, hr, t0, -, -⟩ := calcAngle_spec hsg ht
    obtain ⟨nu, eu, -⟩ := normalize_ok hu
    obtain ⟨nv, ev, -⟩ := normalize_ok hn
    have pu : 0 < len (ps - pc) := lt_of_le_of_ne (len_nonneg _) nu.symm
    have pv : 0 < len (pe - pc) := lt_of_le_of_ne (len_nonneg _) nv.symm
    have tpos : 0 < t := by
      refine lt_of_le_of_ne t0 fun he => h3 ?_
      subst he
      rw [mul_zero, rot_zero] at hr
      refine ⟨len (pe - pc) / len (ps - pc), div_pos pv pu, ?_⟩
      have : pe - pc = len (pe - pc) • v := by rw [ev, smul_smul, mul_inv_cancel₀ nv, one_smul]
      rw [div_eq_mul_inv, ← smul_smul, ← eu, ← hr, ← this]
    obtain ⟨y, -, -, -, -, -, y6, -, -, -, -, y11⟩ := Arc.update_eq
      ⟨ps, pe, pc, if ccw then 1 else -1, 0, 0, 0, 0, 0, 0, 0⟩ ht
    refine ⟨{ y with length := y.radius * t }, ?_⟩
    unfold mkArc
    rw [y11, if_neg (by rw [y6]; exact not_le.2 (mul_pos pu tpos)), if_pos h4]

/-- a quarter of a circle is accepted -/
example : ∃ x, mkArc ![1, 0] ![0, 1] 0 true = .ok x := by
  refine C51_accepted.2 ⟨?_, ?_, ?_, ?_⟩
  · intro h; simpa using congrFun h 0
  · intro h; simpa using congrFun h 1
  · rintro ⟨c, -, h⟩; simpa using congrFun h 1
  · simp [len, dot]

/-- **C51.** An arc constructed with a radius passes through both points; its radius is the requested one, or half
the distance of the points if the requested one is too small, and the center is on the requested side. -/
theorem C51_with_radius {ps pe : V} {radius : ℝ} {left ccw : Bool} {x : Arc} (hr : 0 ≤ radius)
    (h : arcWithRadius ps pe radius left ccw = .ok x) :
    x.pStart = ps ∧ x.pEnd = pe ∧ x.point 0 = ps ∧ x.point x.maxCoord = pe ∧
      x.radius = max radius (len (pe - ps) / 2) ∧
      (len (pe - ps) / 2 < radius → pointLeftOfLine x.pCenter ps pe = if left then 1 else -1) ∧
      (radius ≤ len (pe - ps) / 2 → x.pCenter = (1 / 2 : ℝ) • (ps + pe)) := by
  unfold arcWithRadius at h
  simp only at h
  split at h
  · cases h
  · rename_i hl
    set vec := pe - ps with hvec
    set sc := √(max (radius * radius / dot vec vec - 1 / 4) 0) with hsc
    set s : ℝ := if left then -1 else 1 with hs
    have hs2 : s * s = 1 := by rw [hs]; cases left <;> norm_num
    have hsc2 : sc * sc = max (radius * radius / dot vec vec - 1 / 4) 0 := Real.mul_self_sqrt (le_max_right _ _)
    have hlp : 0 < dot vec vec := lt_of_le_of_ne (dot_self_nonneg _) (Ne.symm hl)
    obtain ⟨hv, h1, h2, h3, h4⟩ := mkArc_ok h
    have hpe : pe = ps + vec := by rw [hvec]; abel
    have c0 : x.pCenter 0 = ps 0 + (1 / 2 * vec 0 + sc * (s * vec 1)) := by
      rw [h3]; simp only [Pi.add_apply, Pi.smul_apply, smul_eq_mul, Matrix.cons_val_zero]
    have c1 : x.pCenter 1 = ps 1 + (1 / 2 * vec 1 + sc * (-s * vec 0)) := by
      rw [h3]; simp only [Pi.add_apply, Pi.smul_apply, smul_eq_mul, Matrix.cons_val_one, Matrix.cons_val_zero]
    have e0 : pe 0 = ps 0 + vec 0 := congrFun hpe 0
    have e1 : pe 1 = ps 1 + vec 1 := congrFun hpe 1
    have d1 : dot (ps - x.pCenter) (ps - x.pCenter) = dot vec vec * (1 / 4 + sc * sc) := by
      simp only [dot, Pi.sub_apply, c0, c1]
      linear_combination (sc * sc * (vec 0 * vec 0 + vec 1 * vec 1)) * hs2
    have d2 : dot (pe - x.pCenter) (pe - x.pCenter) = dot vec vec * (1 / 4 + sc * sc) := by
      simp only [dot, Pi.sub_apply, c0, c1, e0, e1]
      linear_combination (sc * sc * (vec 0 * vec 0 + vec 1 * vec 1)) * hs2
    have hlen : len (pe - x.pCenter) = len (ps - x.pCenter) := by unfold len; rw [d1, d2]
    have hl2 : len vec * len vec = dot vec vec := len_mul_self _
    have hl0 : 0 ≤ len vec := len_nonneg _
    refine ⟨h1, h2, (C51_radius h).1, (C51_end h).2.2 (by rw [← h3]; exact hlen), ?_, ?_, ?_⟩
    · rw [hv.radius, h1]
      unfold len
      rw [d1, hsc2]
      rcases le_total radius (len vec / 2) with hle | hle
      · have : radius * radius / dot vec vec - 1 / 4 ≤ 0 := by
          rw [sub_nonpos, div_le_iff₀ hlp, ← hl2]; nlinarith
        rw [max_eq_right this]
        have e : (max radius (√(dot vec vec) / 2)) = len vec / 2 := max_eq_right hle
        rw [e, add_zero, ← hl2, show len vec * len vec * (1 / 4) = (len vec / 2) * (len vec / 2) by ring,
          sqrt_mul_self (by linarith)]
      · have : 0 ≤ radius * radius / dot vec vec - 1 / 4 := by
          rw [sub_nonneg, le_div_iff₀ hlp, ← hl2]; nlinarith
        rw [max_eq_left this]
        have e : (max radius (√(dot vec vec) / 2)) = radius := max_eq_left hle
        rw [e, show dot vec vec * (1 / 4 + (radius * radius / dot vec vec - 1 / 4)) = radius * radius by field_simp; ring,
          sqrt_mul_self hr]
    · intro hlt
      have hsp : 0 < sc := by
        rw [hsc, sqrt_pos, lt_max_iff]; left
        rw [sub_pos, lt_div_iff₀ hlp, ← hl2]; nlinarith
      have hdet : (pe - ps) 0 * (x.pCenter - ps) 1 - (pe - ps) 1 * (x.pCenter - ps) 0 = (sc * dot vec vec) * (-s) := by
        rw [← hvec]
        simp only [Pi.sub_apply, c0, c1, dot]; ring
      unfold pointLeftOfLine vectorPointsToLeft
      simp only
      rw [det_rows, hdet, npSign_mul_pos (mul_pos hsp hlp), hs]
      cases left
      · simp [npSign]
      · simp [npSign]
    · intro hle
      have : radius * radius / dot vec vec - 1 / 4 ≤ 0 := by
        rw [sub_nonpos, div_le_iff₀ hlp, ← hl2]; nlinarith
      have hs0 : sc = 0 := by rw [hsc, max_eq_right this, sqrt_zero]
      funext i; fin_cases i
      · simp [c0, hs0, e0]; ring
      · simp [c1, hs0, e1]; ring

/-- **C51.** An arc with given radius can be constructed for any two different points. -/
theorem C51_with_radius_accepted {ps pe : V} (hne : ps ≠ pe) (radius : ℝ) (left ccw : Bool) :
    ∃ x, arcWithRadius ps pe radius left ccw = .ok x := by
  unfold arcWithRadius
  simp only
  have hl : dot (pe - ps) (pe - ps) ≠ 0 := (sq_pos_of_ne (sub_ne_zero.2 hne.symm)).ne'
  rw [if_neg hl]
  set vec := pe - ps with hvec
  set sc := √(max (radius * radius / dot vec vec - 1 / 4) 0)
  set s : ℝ := if left then -1 else 1 with hs
  have hs2 : s * s = 1 := by rw [hs]; cases left <;> norm_num
  have hlp : 0 < dot vec vec := lt_of_le_of_ne (dot_self_nonneg _) (Ne.symm hl)
  set c := ps + ((1 / 2 : ℝ) • vec + sc • (![s * vec 1, -s * vec 0] : V)) with hc
  have hpe : pe = ps + vec := by rw [hvec]; abel
  have c0 : c 0 = ps 0 + (1 / 2 * vec 0 + sc * (s * vec 1)) := by
    rw [hc]; simp only [Pi.add_apply, Pi.smul_apply, smul_eq_mul, Matrix.cons_val_zero]
  have c1 : c 1 = ps 1 + (1 / 2 * vec 1 + sc * (-s * vec 0)) := by
    rw [hc]; simp only [Pi.add_apply, Pi.smul_apply, smul_eq_mul, Matrix.cons_val_one, Matrix.cons_val_zero]
  have e0 : pe 0 = ps 0 + vec 0 := congrFun hpe 0
  have e1 : pe 1 = ps 1 + vec 1 := congrFun hpe 1
  have d1 : dot (ps - c) (ps - c) = dot vec vec * (1 / 4 + sc * sc) := by
    simp only [dot, Pi.sub_apply, c0, c1]
    linear_combination (sc * sc * (vec 0 * vec 0 + vec 1 * vec 1)) * hs2
  have d2 : dot (pe - c) (pe - c) = dot vec vec * (1 / 4 + sc * sc) := by
    simp only [dot, Pi.sub_apply, c0, c1, e0, e1]
    linear_combination (sc * sc * (vec 0 * vec 0 + vec 1 * vec 1)) * hs2
  have hlen : len (pe - c) = len (ps - c) := by unfold len; rw [d1, d2]
  have hq : 0 < dot vec vec * (1 / 4 + sc * sc) := mul_pos hlp (by nlinarith [mul_self_nonneg sc])
  refine C51_accepted.2 ⟨?_, ?_, ?_, ?_⟩
  · intro h; rw [sub_eq_zero.2 h, show dot (0 : V) 0 = 0 by simp [dot]] at d1; linarith
  · intro h; rw [sub_eq_zero.2 h, show dot (0 : V) 0 = 0 by simp [dot]] at d2; linarith
  · rintro ⟨k, k0, hk⟩
    have := congrArg len hk
    rw [len_smul, hlen, abs_of_pos k0] at this
    have hpos : 0 < len (ps - c) := Real.sqrt_pos.2 (by rw [d1]; exact hq)
    have k1 : k = 1 := by
      have : (k - 1) * len (ps - c) = 0 := by linarith
      rcases mul_eq_zero.1 this with h | h
      · linarith
      · exact absurd h hpos.ne'
    rw [k1, one_smul] at hk
    exact hne (sub_left_injective hk).symm
  · rw [hlen, sub_self, abs_zero]; norm_num

end Weldx.Geo
