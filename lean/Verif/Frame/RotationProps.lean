import Verif.Frame.Rotation
import Mathlib.Tactic.Linarith
import Mathlib.Tactic.FinCases
import Mathlib.LinearAlgebra.Matrix.NonsingularInverse

/-!
# C73: rotations in files
-/

namespace Weldx.Rot

open Matrix Real

/-! ### specification -/

/-- what is assumed of scipy's `as_euler` for three axes: the angles give the rotation again; for three different axes the
second angle is in `[-π/2, π/2]`, and if it is on the border (gimbal lock) the third angle is zero. It is assumed for rotations
that such angles exist for. -/
structure EulerOk (D : AsEuler) : Prop where
  compose : ∀ i a b c R, a ≠ b → b ≠ c → (∃ u v w, compose i [(a, u), (b, v), (c, w)] = R) →
    ∃ u v w, D i [a, b, c] R = [u, v, w] ∧ Rot.compose i [(a, u), (b, v), (c, w)] = R ∧
      (a ≠ c → 0 ≤ cos v ∧ (cos v = 0 → w = 0))

/-- the unit vector of an axis -/
def unit : Axis → Fin 3 → ℝ
  | .x => ![1, 0, 0] | .y => ![0, 1, 0] | .z => ![0, 0, 1]

/-- the following axis of a right handed system -/
def next : Axis → Axis
  | .x => .y | .y => .z | .z => .x

/-! ### lemmas on rotation matrices -/

theorem elem_zero (a : Axis) : elem a 0 = 1 := by
  cases a <;> simp only [elem, cos_zero, sin_zero, neg_zero] <;> ext i j <;> fin_cases i <;> fin_cases j <;> rfl

theorem elem_neg_mul (a : Axis) (t : ℝ) : elem a (-t) * elem a t = 1 := by
  have h := sin_sq_add_cos_sq t
  cases a <;> ext i j <;> fin_cases i <;> fin_cases j <;> simp [elem, Matrix.mul_apply, Fin.sum_univ_three] <;> nlinarith

theorem elem_mul_neg (a : Axis) (t : ℝ) : elem a t * elem a (-t) = 1 := by
  have := elem_neg_mul a (-t)
  rwa [neg_neg] at this

theorem compose3 (i : Bool) (a b c : Axis) (u v w : ℝ) : compose i [(a, u), (b, v), (c, w)] =
    if i then elem a u * elem b v * elem c w else elem c w * (elem b v * elem a u) := by
  cases i <;> simp [compose, composeFrom]

theorem compose2 (i : Bool) (a b : Axis) (u v : ℝ) : compose i [(a, u), (b, v)] =
    if i then elem a u * elem b v else elem b v * elem a u := by
  cases i <;> simp [compose, composeFrom]

theorem compose1 (i : Bool) (a : Axis) (u : ℝ) : compose i [(a, u)] = elem a u := by
  cases i <;> simp [compose, composeFrom]

/-- the entries of three rotations that depend on two angles only -/
theorem entries {a b c : Axis} (hab : a ≠ b) (hbc : b ≠ c) (hac : a ≠ c) {u v w u' v' : ℝ}
    (h : elem c w * (elem b v * elem a u) = elem b v' * elem a u') :
    sin v = sin v' ∧ cos w * cos v = cos v' ∧ sin w * cos v = 0 := by
  cases a <;> cases b <;> cases c <;> first | contradiction | skip
  all_goals
    have e := fun i j => congrFun (congrFun h i) j
    have e00 := e 0 0
    have e01 := e 0 1
    have e02 := e 0 2
    have e10 := e 1 0
    have e11 := e 1 1
    have e12 := e 1 2
    have e20 := e 2 0
    have e21 := e 2 1
    have e22 := e 2 2
    simp [elem, Matrix.mul_apply, Fin.sum_univ_three] at e00 e01 e02 e10 e11 e12 e20 e21 e22
    refine ⟨?_, ?_, ?_⟩ <;> first | assumption | linarith | exact mul_eq_zero.2 (by assumption)

theorem elem_eq_one {a : Axis} {t : ℝ} (hc : cos t = 1) (hs : sin t = 0) : elem a t = 1 := by
  cases a <;> simp only [elem, hc, hs, neg_zero] <;> ext i j <;> fin_cases i <;> fin_cases j <;> rfl

theorem cos_of_elem {a : Axis} {t : ℝ} (h : elem a t = 1) : cos t = 1 := by
  have e := fun i => congrFun (congrFun h i) i
  have e0 := e 0
  have e1 := e 1
  cases a <;> simp [elem] at e0 e1 <;> assumption

/-- the product of the inverse rotations in reverse order -/
theorem inverse_of {a b c : Axis} {u v w u' v' : ℝ} (h : elem a u * elem b v * elem c w = elem a u' * elem b v') :
    elem c (-w) * (elem b (-v) * elem a (-u)) = elem b (-v') * elem a (-u') := by
  have h1 : elem c (-w) * (elem b (-v) * elem a (-u)) * (elem a u * elem b v * elem c w) = 1 := by
    have : elem c (-w) * (elem b (-v) * elem a (-u)) * (elem a u * elem b v * elem c w) =
        elem c (-w) * (elem b (-v) * (elem a (-u) * elem a u) * elem b v) * elem c w := by simp only [Matrix.mul_assoc]
    rw [this, elem_neg_mul, Matrix.mul_one, elem_neg_mul, Matrix.mul_one, elem_neg_mul]
  have h2 : elem a u' * elem b v' * (elem b (-v') * elem a (-u')) = 1 := by
    have : elem a u' * elem b v' * (elem b (-v') * elem a (-u')) = elem a u' * (elem b v' * elem b (-v')) * elem a (-u') := by
      simp only [Matrix.mul_assoc]
    rw [this, elem_mul_neg, Matrix.mul_one, elem_mul_neg]
  calc elem c (-w) * (elem b (-v) * elem a (-u))
      = elem c (-w) * (elem b (-v) * elem a (-u)) * (elem a u' * elem b v' * (elem b (-v') * elem a (-u'))) := by
        rw [h2, Matrix.mul_one]
    _ = elem c (-w) * (elem b (-v) * elem a (-u)) * (elem a u * elem b v * elem c w) * (elem b (-v') * elem a (-u')) := by
        rw [h]; simp only [Matrix.mul_assoc]
    _ = _ := by rw [h1, Matrix.one_mul]

/-- the same for both kinds of sequences -/
theorem entries' {i : Bool} {a b c : Axis} (hab : a ≠ b) (hbc : b ≠ c) (hac : a ≠ c) {u v w u' v' : ℝ}
    (h : compose i [(a, u), (b, v), (c, w)] = compose i [(a, u'), (b, v')]) :
    sin v = sin v' ∧ cos w * cos v = cos v' ∧ sin w * cos v = 0 := by
  rw [compose3, compose2] at h
  cases i with
  | false => exact entries hab hbc hac h
  | true =>
    obtain ⟨h1, h2, h3⟩ := entries hab hbc hac (inverse_of h)
    simp only [sin_neg, cos_neg] at h1 h2 h3
    exact ⟨by linarith, h2, by linarith⟩

theorem third_one {i : Bool} {a b c : Axis} {u v w : ℝ} (h : elem c w = 1) :
    compose i [(a, u), (b, v), (c, w)] = compose i [(a, u), (b, v)] := by
  rw [compose3, compose2, h]
  cases i <;> simp

/-- the third angle vanishes exactly if the second of two angles is in the range of the second of three -/
theorem third_iff {i : Bool} {a b c : Axis} (hab : a ≠ b) (hbc : b ≠ c) (hac : a ≠ c) {u v w u' v' : ℝ}
    (h : compose i [(a, u), (b, v), (c, w)] = compose i [(a, u'), (b, v')]) (hv : 0 ≤ cos v) (hg : cos v = 0 → w = 0) :
    elem c w = 1 ↔ 0 ≤ cos v' := by
  obtain ⟨_, h2, h3⟩ := entries' hab hbc hac h
  constructor
  · intro e
    rw [cos_of_elem e, one_mul] at h2
    rw [← h2]; exact hv
  · intro hp
    by_cases h0 : cos v = 0
    · rw [hg h0]; exact elem_zero c
    · have hpos : 0 < cos v := lt_of_le_of_ne hv (Ne.symm h0)
      have hs : sin w = 0 := (mul_eq_zero.1 h3).resolve_right h0
      have hsq := sin_sq_add_cos_sq w
      rw [hs] at hsq
      have hw : 0 ≤ cos w := by
        by_contra hn
        have : cos w * cos v < 0 := mul_neg_of_neg_of_pos (not_le.1 hn) hpos
        rw [h2] at this
        exact absurd hp (not_le.2 this)
      refine elem_eq_one ?_ hs
      nlinarith

/-! ### the angles of scipy exist -/

theorem flip_angles (a b c : Axis) (hab : a ≠ b) (hbc : b ≠ c) (hac : a ≠ c) (u v w : ℝ) :
    elem c (w + π) * (elem b (π - v) * elem a (u + π)) = elem c w * (elem b v * elem a u) := by
  cases a <;> cases b <;> cases c <;> first | contradiction | skip
  all_goals
    ext i j
    fin_cases i <;> fin_cases j <;>
      simp [elem, Matrix.mul_apply, Fin.sum_univ_three, cos_add_pi, sin_add_pi, cos_pi_sub, sin_pi_sub] <;> ring

theorem lock_angles (a b c : Axis) (hab : a ≠ b) (hbc : b ≠ c) (hac : a ≠ c) (u v w : ℝ) (hv : cos v = 0) :
    ∃ u', elem c w * (elem b v * elem a u) = elem b v * elem a u' := by
  have hs : sin v = 1 ∨ sin v = -1 := by
    have := sin_sq_add_cos_sq v
    rw [hv] at this
    have : (sin v - 1) * (sin v + 1) = 0 := by nlinarith
    rcases mul_eq_zero.1 this with h | h
    · exact .inl (by linarith)
    · exact .inr (by linarith)
  cases a <;> cases b <;> cases c <;> first | contradiction | skip
  all_goals
    rcases hs with hs | hs
    all_goals first
      | (refine ⟨u + w, ?_⟩
         ext i j
         fin_cases i <;> fin_cases j <;>
           simp [elem, Matrix.mul_apply, Fin.sum_univ_three, cos_add, sin_add, hv, hs] <;> ring
         done)
      | (refine ⟨u - w, ?_⟩
         ext i j
         fin_cases i <;> fin_cases j <;>
           simp [elem, Matrix.mul_apply, Fin.sum_univ_three, cos_sub, sin_sub, hv, hs] <;> ring
         done)

/-- angles as scipy chooses them exist for every rotation that is composed of three -/
theorem good_angles (i : Bool) {a b c : Axis} (hab : a ≠ b) (hbc : b ≠ c) (u v w : ℝ) :
    ∃ u' v' w', compose i [(a, u'), (b, v'), (c, w')] = compose i [(a, u), (b, v), (c, w)] ∧
      (a ≠ c → 0 ≤ cos v' ∧ (cos v' = 0 → w' = 0)) := by
  by_cases hac : a = c
  · exact ⟨u, v, w, rfl, fun h => absurd hac h⟩
  -- for rotations about fixed axes
  have key : ∀ u v w : ℝ, ∃ u' v' w', elem c w' * (elem b v' * elem a u') = elem c w * (elem b v * elem a u) ∧
      (0 ≤ cos v' ∧ (cos v' = 0 → w' = 0)) := by
    intro u v w
    rcases lt_trichotomy (cos v) 0 with h | h | h
    · refine ⟨u + π, π - v, w + π, flip_angles a b c hab hbc hac u v w, ?_, fun h0 => ?_⟩
      · rw [cos_pi_sub]; linarith
      · rw [cos_pi_sub] at h0; linarith
    · obtain ⟨u', hu⟩ := lock_angles a b c hab hbc hac u v w h
      refine ⟨u', v, 0, ?_, h.ge, fun _ => rfl⟩
      rw [elem_zero, Matrix.one_mul, hu]
    · exact ⟨u, v, w, rfl, h.le, fun h0 => absurd h0 h.ne'⟩
  cases i with
  | false =>
    obtain ⟨u', v', w', h1, h2⟩ := key u v w
    refine ⟨u', v', w', ?_, fun _ => h2⟩
    rw [compose3, compose3]; exact h1
  | true =>
    obtain ⟨u', v', w', h1, h2⟩ := key (-u) (-v) (-w)
    refine ⟨-u', -v', -w', ?_, fun _ => ⟨by rw [cos_neg]; exact h2.1, fun h0 => ?_⟩⟩
    · rw [compose3, compose3]
      simp only [if_true]
      have e1 : ∀ u v w : ℝ, elem a (-u) * elem b (-v) * elem c (-w) * (elem c w * (elem b v * elem a u)) = 1 := by
        intro u v w
        have : elem a (-u) * elem b (-v) * elem c (-w) * (elem c w * (elem b v * elem a u)) =
            elem a (-u) * (elem b (-v) * (elem c (-w) * elem c w) * elem b v) * elem a u := by simp only [Matrix.mul_assoc]
        rw [this, elem_neg_mul, Matrix.mul_one, elem_neg_mul, Matrix.mul_one, elem_neg_mul]
      have e2 := e1 (-u) (-v) (-w)
      have e3 := e1 u' v' w'
      rw [← h1] at e2
      rw [neg_neg, neg_neg, neg_neg] at e2
      have e4 := mul_eq_one_comm.1 e2
      calc elem a (-u') * elem b (-v') * elem c (-w')
          = elem a (-u') * elem b (-v') * elem c (-w') *
              (elem c w' * (elem b v' * elem a u') * (elem a u * elem b v * elem c w)) := by rw [e4, Matrix.mul_one]
        _ = (elem a (-u') * elem b (-v') * elem c (-w') * (elem c w' * (elem b v' * elem a u'))) *
              (elem a u * elem b v * elem c w) := by simp only [Matrix.mul_assoc]
        _ = _ := by rw [e3, Matrix.one_mul]
    · rw [cos_neg] at h0
      rw [h2.2 h0, neg_zero]

/-- such an `as_euler` exists -/
theorem eulerOk_exists : ∃ D, EulerOk D := by
  classical
  have H : ∀ (i : Bool) (l : List Axis) (R : Mat3 ℝ), ∃ o : List ℝ, ∀ a b c, l = [a, b, c] → a ≠ b → b ≠ c →
      (∃ u v w, compose i [(a, u), (b, v), (c, w)] = R) →
      ∃ u v w, o = [u, v, w] ∧ compose i [(a, u), (b, v), (c, w)] = R ∧ (a ≠ c → 0 ≤ cos v ∧ (cos v = 0 → w = 0)) := by
    intro i l R
    by_cases h : ∃ a b c, l = [a, b, c] ∧ a ≠ b ∧ b ≠ c ∧ ∃ u v w, compose i [(a, u), (b, v), (c, w)] = R
    · obtain ⟨a, b, c, hl, hab, hbc, u, v, w, hR⟩ := h
      obtain ⟨u', v', w', h1, h2⟩ := good_angles i hab hbc u v w
      refine ⟨[u', v', w'], fun a1 b1 c1 hl1 _ _ _ => ?_⟩
      rw [hl] at hl1
      simp only [List.cons.injEq, and_true] at hl1
      obtain ⟨rfl, rfl, rfl⟩ := hl1
      exact ⟨u', v', w', rfl, h1.trans hR, h2⟩
    · exact ⟨[], fun a b c hl hab hbc he => absurd ⟨a, b, c, hl, hab, hbc, he⟩ h⟩
  choose D hD using H
  exact ⟨D, ⟨fun i a b c R hab hbc he => hD i [a, b, c] R a b c rfl hab hbc he⟩⟩

/-! ### the stored angles of one rotation -/

/-- the third axis -/
def third : Axis → Axis → Axis
  | .x, .y => .z | .x, .z => .y | .y, .x => .z | .y, .z => .x | .z, .x => .y | .z, .y => .x
  | .x, .x => .y | .y, .y => .x | .z, .z => .x

theorem complete2 {a b : Axis} (hab : a ≠ b) : complete [a, b] = [a, b, third a b] ∧ b ≠ third a b ∧ a ≠ third a b := by
  cases a <;> cases b <;> first | contradiction | (exact ⟨rfl, by decide, by decide⟩)

theorem complete1 (a : Axis) : ∃ b c, complete [a] = [a, b, c] ∧ a ≠ b ∧ b ≠ c ∧ a ≠ c := by
  cases a
  · exact ⟨.y, .z, rfl, by decide, by decide, by decide⟩
  · exact ⟨.x, .z, rfl, by decide, by decide, by decide⟩
  · exact ⟨.x, .y, rfl, by decide, by decide, by decide⟩

theorem rad_unrad (d : Bool) (v : ℝ) : rad d (unrad d v) = v := by
  cases d
  · rfl
  · simp only [rad, unrad, if_true]
    field_simp

theorem map_rad_unrad (d : Bool) (l : List ℝ) : (l.map (unrad d)).map (rad d) = l := by
  rw [List.map_map]
  have : (rad d ∘ unrad d) = id := funext (rad_unrad d)
  rw [this, List.map_id]

/-- the rotation of a set of angles in radians -/
noncomputable def turn (s : Seq) (a : List ℝ) : Mat3 ℝ := compose s.intrinsic (s.axes.zip a)

/-- the rotation that is read for a stored rotation -/
noncomputable def again (D : AsEuler) (s : Seq) (d : Bool) (R : Mat3 ℝ) : Mat3 ℝ := turn s ((storedAngles D s d R).map (rad d))

theorem stored_rad (D : AsEuler) (s : Seq) (d : Bool) (R : Mat3 ℝ) :
    (storedAngles D s d R).map (rad d) = (D s.intrinsic (complete s.axes) R).take s.axes.length := by
  rw [storedAngles, List.map_take, map_rad_unrad]

/-- three axes: the same rotation -/
theorem again3 {D : AsEuler} (hD : EulerOk D) {s : Seq} (hs : s.Valid) (h3 : s.axes.length = 3) (d : Bool) (al : List ℝ)
    (hl : al.length = 3) : again D s d (turn s al) = turn s al ∧ (storedAngles D s d (turn s al)).length = 3 := by
  obtain ⟨i, axes⟩ := s
  match axes, h3 with
  | [a, b, c], _ =>
    match al, hl with
    | [u, v, w], _ =>
      have hc := hs.2.2
      simp only [List.isChain_cons_cons] at hc
      obtain ⟨u', v', w', h1, h2, _⟩ := hD.compose i a b c (turn ⟨i, [a, b, c]⟩ [u, v, w]) hc.1 hc.2.1 ⟨u, v, w, rfl⟩
      have hcm : complete [a, b, c] = [a, b, c] := rfl
      refine ⟨?_, ?_⟩
      · rw [again, stored_rad, hcm, h1]; exact h2
      · simp [storedAngles, hcm, h1]

/-- two axes: the same rotation exactly if the second angle is not beyond a right angle -/
theorem again2 {D : AsEuler} (hD : EulerOk D) {i : Bool} {a b : Axis} (hab : a ≠ b) (d : Bool) (u v : ℝ) :
    (again D ⟨i, [a, b]⟩ d (turn ⟨i, [a, b]⟩ [u, v]) = turn ⟨i, [a, b]⟩ [u, v] ↔ 0 ≤ cos v) ∧
    ∃ u' v', (storedAngles D ⟨i, [a, b]⟩ d (turn ⟨i, [a, b]⟩ [u, v])).map (rad d) = [u', v'] ∧ 0 ≤ cos v' := by
  obtain ⟨hc, hbc, hac⟩ := complete2 hab
  have hR : compose i [(a, u), (b, v), (third a b, 0)] = turn ⟨i, [a, b]⟩ [u, v] := third_one (elem_zero _)
  obtain ⟨u', v', w', h1, h2, h3⟩ := hD.compose i a b (third a b) _ hab hbc ⟨u, v, 0, hR⟩
  obtain ⟨hp, hg⟩ := h3 hac
  have hst := stored_rad D ⟨i, [a, b]⟩ d (turn ⟨i, [a, b]⟩ [u, v])
  simp only [hc, h1] at hst
  refine ⟨?_, ?_⟩
  · rw [← third_iff hab hbc hac (h2.trans rfl : _ = compose i [(a, u), (b, v)]) hp hg, again, hst]
    have e : turn ⟨i, [a, b]⟩ (List.take 2 [u', v', w']) = compose i [(a, u'), (b, v')] := rfl
    change turn ⟨i, [a, b]⟩ (List.take 2 [u', v', w']) = _ ↔ _
    rw [e, ← h2, compose2, compose3]
    constructor
    · intro h
      cases i with
      | false =>
        simp only [Bool.false_eq_true, if_false] at h
        have h4 : elem b v' * elem a u' * (elem a (-u') * elem b (-v')) = 1 := by
          have : elem b v' * elem a u' * (elem a (-u') * elem b (-v')) = elem b v' * (elem a u' * elem a (-u')) * elem b (-v') := by
            simp only [Matrix.mul_assoc]
          rw [this, elem_mul_neg, Matrix.mul_one, elem_mul_neg]
        have h5 := congrArg (· * (elem a (-u') * elem b (-v'))) h
        rw [Matrix.mul_assoc (elem _ w'), h4, Matrix.mul_one] at h5
        exact h5.symm
      | true =>
        simp only [if_true] at h
        have h4 : elem b (-v') * elem a (-u') * (elem a u' * elem b v') = 1 := by
          have : elem b (-v') * elem a (-u') * (elem a u' * elem b v') = elem b (-v') * (elem a (-u') * elem a u') * elem b v' := by
            simp only [Matrix.mul_assoc]
          rw [this, elem_neg_mul, Matrix.mul_one, elem_neg_mul]
        have h5 := congrArg ((elem b (-v') * elem a (-u')) * ·) h
        rw [← Matrix.mul_assoc (elem b (-v') * elem a (-u')) (elem a u' * elem b v'), h4, Matrix.one_mul] at h5
        exact h5.symm
    · intro h
      rw [h]
      cases i <;> simp
  · exact ⟨u', v', hst, hp⟩

/-- one axis: the same rotation -/
theorem again1 {D : AsEuler} (hD : EulerOk D) {i : Bool} (a : Axis) (d : Bool) (u : ℝ) :
    again D ⟨i, [a]⟩ d (turn ⟨i, [a]⟩ [u]) = turn ⟨i, [a]⟩ [u] ∧
    (storedAngles D ⟨i, [a]⟩ d (turn ⟨i, [a]⟩ [u])).length = 1 := by
  obtain ⟨b, c, hcm, hab, hbc, hac⟩ := complete1 a
  have h0 : compose i [(a, u), (b, 0)] = turn ⟨i, [a]⟩ [u] := by
    rw [compose2, elem_zero]
    change _ = compose i [(a, u)]
    rw [compose1]
    cases i <;> simp
  have hR : compose i [(a, u), (b, 0), (c, 0)] = turn ⟨i, [a]⟩ [u] := (third_one (elem_zero _)).trans h0
  obtain ⟨u', v', w', h1, h2, h3⟩ := hD.compose i a b c _ hab hbc ⟨u, 0, 0, hR⟩
  obtain ⟨hp, hg⟩ := h3 hac
  have hst := stored_rad D ⟨i, [a]⟩ d (turn ⟨i, [a]⟩ [u])
  simp only [hcm, h1] at hst
  have hw : elem c w' = 1 := (third_iff hab hbc hac (h2.trans h0.symm) hp hg).2 (by rw [cos_zero]; exact zero_le_one)
  obtain ⟨e1, e2, _⟩ := entries' hab hbc hac (h2.trans h0.symm)
  rw [cos_of_elem hw, one_mul, cos_zero] at e2
  rw [sin_zero] at e1
  refine ⟨?_, ?_⟩
  · rw [again, hst]
    have e : turn ⟨i, [a]⟩ (List.take 1 [u', v', w']) = compose i [(a, u')] := rfl
    change turn ⟨i, [a]⟩ (List.take 1 [u', v', w']) = _
    rw [e, ← h2, third_one hw, compose2, compose1, elem_eq_one e2 e1]
    cases i <;> simp
  · have := congrArg List.length hst
    simpa using this

/-- two axes and an angle beyond a right angle: the read rotation differs by a half turn about the third axis -/
theorem again2_wrong {D : AsEuler} (hD : EulerOk D) {i : Bool} {a b : Axis} (hab : a ≠ b) (d : Bool) (u v : ℝ) (hv : cos v < 0) :
    turn ⟨i, [a, b]⟩ [u, v] =
      if i then again D ⟨i, [a, b]⟩ d (turn ⟨i, [a, b]⟩ [u, v]) * elem (third a b) π
      else elem (third a b) π * again D ⟨i, [a, b]⟩ d (turn ⟨i, [a, b]⟩ [u, v]) := by
  obtain ⟨hc, hbc, hac⟩ := complete2 hab
  have hR : compose i [(a, u), (b, v), (third a b, 0)] = turn ⟨i, [a, b]⟩ [u, v] := third_one (elem_zero _)
  obtain ⟨u', v', w', h1, h2, h3⟩ := hD.compose i a b (third a b) _ hab hbc ⟨u, v, 0, hR⟩
  obtain ⟨hp, _⟩ := h3 hac
  have hst := stored_rad D ⟨i, [a, b]⟩ d (turn ⟨i, [a, b]⟩ [u, v])
  simp only [hc, h1] at hst
  obtain ⟨_, e2, e3⟩ := entries' hab hbc hac (h2.trans rfl : _ = compose i [(a, u), (b, v)])
  have hv0 : cos v' ≠ 0 := fun h => by rw [h, mul_zero] at e2; linarith
  have hs : sin w' = 0 := (mul_eq_zero.1 e3).resolve_right hv0
  have hpos : 0 < cos v' := lt_of_le_of_ne hp (Ne.symm hv0)
  have hw : cos w' < 0 := by
    by_contra hn
    have : 0 ≤ cos w' * cos v' := mul_nonneg (not_lt.1 hn) hp
    linarith
  have hsq := sin_sq_add_cos_sq w'
  rw [hs] at hsq
  have hcw : cos w' = -1 := by nlinarith
  have hel : elem (third a b) w' = elem (third a b) π := by
    generalize third a b = c
    cases c <;> simp [elem, hs, hcw]
  have e : again D ⟨i, [a, b]⟩ d (turn ⟨i, [a, b]⟩ [u, v]) = compose i [(a, u'), (b, v')] := by
    rw [again, hst]; rfl
  rw [e, ← h2, compose2, compose3, hel]
  cases i <;> simp

/-- the condition on the angles in radians: of two angles the second is not beyond a right angle -/
def Kept (s : Seq) (a : List ℝ) : Prop := s.axes.length = 2 → ∀ v ∈ a[1]?, 0 ≤ cos v

theorem again_iff {D : AsEuler} (hD : EulerOk D) {s : Seq} (hs : s.Valid) (d : Bool) {a : List ℝ} (ha : a.length = s.axes.length) :
    (again D s d (turn s a) = turn s a ↔ Kept s a) ∧ (storedAngles D s d (turn s a)).length = s.axes.length ∧
    Kept s ((storedAngles D s d (turn s a)).map (rad d)) := by
  obtain ⟨i, axes⟩ := s
  match axes, hs, ha with
  | [], hs, _ => exact absurd rfl hs.1
  | [p], hs, ha =>
    match a, ha with
    | [u], _ =>
      obtain ⟨h1, h2⟩ := again1 hD (i := i) p d u
      exact ⟨⟨fun _ h => absurd h (by simp), fun _ => h1⟩, h2, fun h => absurd h (by simp)⟩
  | [p, q], hs, ha =>
    match a, ha with
    | [u, v], _ =>
      have hpq : p ≠ q := by
        have := hs.2.2
        simp only [List.isChain_cons_cons] at this
        exact this.1
      obtain ⟨h1, u', v', h2, h3⟩ := again2 hD (i := i) hpq d u v
      refine ⟨h1.trans ⟨fun h _ w hw => ?_, fun h => h rfl v rfl⟩, ?_, fun _ w hw => ?_⟩
      · cases hw; exact h
      · have := congrArg List.length h2
        simpa using this
      · rw [h2] at hw; cases hw; exact h3
  | [p, q, t], hs, ha =>
    obtain ⟨h1, h2⟩ := again3 hD hs rfl d a ha
    exact ⟨⟨fun _ h => absurd h (by simp), fun _ => h1⟩, h2, fun h => absurd h (by simp)⟩
  | _ :: _ :: _ :: _ :: _, hs, _ => exact absurd hs.2.1 (by simp)

/-! ### one or several values -/

/-- the values in a list -/
def Shaped.toList {A : Type} : Shaped A → List A
  | one a => [a]
  | many l => l

theorem Shaped.map_squeeze {A B : Type} (f : A → B) (x : Shaped A) : (x.map f).squeeze = x.squeeze.map f := by
  match x with
  | .one a => rfl
  | .many [] => rfl
  | .many [a] => rfl
  | .many (a :: b :: l) => rfl

theorem Shaped.toList_squeeze {A : Type} (x : Shaped A) : x.squeeze.toList = x.toList := by
  match x with
  | .one a => rfl
  | .many [] => rfl
  | .many [a] => rfl
  | .many (a :: b :: l) => rfl

theorem Shaped.squeeze_squeeze {A : Type} (x : Shaped A) : x.squeeze.squeeze = x.squeeze := by
  match x with
  | .one a => rfl
  | .many [] => rfl
  | .many [a] => rfl
  | .many (a :: b :: l) => rfl

theorem Shaped.toList_map {A B : Type} (f : A → B) (x : Shaped A) : (x.map f).toList = x.toList.map f := by cases x <;> rfl

theorem Shaped.map_map {A B C : Type} (f : A → B) (g : B → C) (x : Shaped A) : (x.map f).map g = x.map (g ∘ f) := by
  cases x <;> simp [Shaped.map]

theorem Shaped.map_eq_map {A B : Type} (f g : A → B) (x : Shaped A) : x.map f = x.map g ↔ ∀ a ∈ x.toList, f a = g a := by
  cases x <;> simp [Shaped.map, Shaped.toList]

theorem fromEuler_eq {s : Seq} {angles : Shaped (List ℝ)} {d : Bool} (hs : s.Valid)
    (hl : ∀ a ∈ angles.toList, a.length = s.axes.length) :
    fromEuler s angles d = some ⟨angles.map fun a => turn s (a.map (rad d)), some (.euler s d)⟩ := by
  unfold fromEuler
  rw [if_pos]
  · rfl
  · refine ⟨hs, ?_⟩
    cases angles with
    | one a => exact hl a (by simp [Shaped.toList])
    | many l => exact hl

theorem fromEuler_some {s : Seq} {angles : Shaped (List ℝ)} {d : Bool} {r : Obj} (h : fromEuler s angles d = some r) :
    s.Valid ∧ (∀ a ∈ angles.toList, a.length = s.axes.length) ∧
      r = ⟨angles.map fun a => turn s (a.map (rad d)), some (.euler s d)⟩ := by
  unfold fromEuler at h
  cases angles with
  | one a =>
    by_cases hc : s.Valid ∧ a.length = s.axes.length
    · simp only [hc, and_self, if_true] at h
      refine ⟨hc.1, fun b hb => ?_, (Option.some.inj h).symm⟩
      simp only [Shaped.toList, List.mem_singleton] at hb
      subst hb
      exact hc.2
    · simp only [hc, if_false] at h
      cases h
  | many l =>
    by_cases hc : s.Valid ∧ ∀ a ∈ l, a.length = s.axes.length
    · rw [if_pos hc] at h
      exact ⟨hc.1, hc.2, (Option.some.inj h).symm⟩
    · rw [if_neg hc] at h
      cases h

/-! ### the properties -/

/-- **C73.** A positive angle turns counterclockwise about its axis. -/
theorem C73_axes (a : Axis) (t : ℝ) :
    elem a t *ᵥ unit a = unit a ∧ elem a t *ᵥ unit (next a) = cos t • unit (next a) + sin t • unit (next (next a)) ∧
    elem a t *ᵥ unit (next (next a)) = cos t • unit (next (next a)) - sin t • unit (next a) := by
  cases a <;> refine ⟨?_, ?_, ?_⟩ <;> funext i <;> fin_cases i <;> simp [elem, unit, next, Matrix.mulVec, dotProduct, Fin.sum_univ_three]

/-- **C73.** Extrinsic angles are applied one after the other, intrinsic ones in reverse order. -/
theorem C73_order (a b : Axis) (u v : ℝ) (x : Fin 3 → ℝ) :
    compose false [(a, u), (b, v)] *ᵥ x = elem b v *ᵥ (elem a u *ᵥ x) ∧
    compose true [(a, u), (b, v)] *ᵥ x = elem a u *ᵥ (elem b v *ᵥ x) := by
  rw [compose2, compose2]
  exact ⟨by simp, by simp⟩

/-- **C73.** Quaternions, matrices and rotation vectors are read as they were written; a rotation without information on its
creation is read as one of quaternions. -/
theorem C73_exact (D : AsEuler) (x : Shaped (Mat3 ℝ)) :
    read (write D (fromQuat x)) = some (fromQuat x) ∧ read (write D (fromMatrix x)) = some (fromMatrix x) ∧
    read (write D (fromRotvec x)) = some (fromRotvec x) ∧ read (write D ⟨x, none⟩) = some (fromQuat x) :=
  ⟨rfl, rfl, rfl, rfl⟩

/-- **C73.** Each way of construction has its own entry in the tree; a rotation without information is written as quaternions. -/
theorem C73_stored (D : AsEuler) (x : Shaped (Mat3 ℝ)) :
    write D (fromQuat x) = .quaternions x ∧ write D (fromMatrix x) = .matrix x ∧ write D (fromRotvec x) = .rotvec x ∧
      write D ⟨x, none⟩ = .quaternions x ∧ (fromQuat x).info = some .quat ∧ (fromMatrix x).info = some .matrix ∧
      (fromRotvec x).info = some .rotvec := ⟨rfl, rfl, rfl, rfl, rfl, rfl, rfl⟩

theorem read_euler {D : AsEuler} {s : Seq} (hs : s.Valid) {d : Bool} {x : Shaped (Mat3 ℝ)}
    (hl : ∀ R ∈ x.toList, (storedAngles D s d R).length = s.axes.length) :
    read (write D ⟨x, some (.euler s d)⟩) = some ⟨(x.map (again D s d)).squeeze, some (.euler s d)⟩ := by
  have hd : (!(false || !d)) = d := by cases d <;> rfl
  have hu : ∀ v : ℝ, unrad d (v * (if d then π / 180 else 1)) = v := by
    intro v
    cases d
    · simp [unrad]
    · simp only [unrad, if_true]
      field_simp
  have hm : ∀ a : List ℝ, (a.map fun v => unrad d (v * (if d then π / 180 else 1))) = a := by
    intro a
    have : (fun v : ℝ => unrad d (v * (if d then π / 180 else 1))) = id := funext hu
    rw [this, List.map_id]
  have hid : ∀ y : Shaped (List ℝ), (y.map fun a => a) = y := by intro y; cases y <;> simp [Shaped.map]
  simp only [write, read, fromEulerQ, hd, Bool.false_eq_true, if_false, hm, hid]
  rw [fromEuler_eq hs]
  · rw [← Shaped.map_squeeze, Shaped.map_map]
    rfl
  · intro a ha
    rw [Shaped.toList_squeeze, Shaped.toList_map, List.mem_map] at ha
    obtain ⟨R, hR, rfl⟩ := ha
    exact hl R hR

/-- **C73.** A rotation of Euler angles is read with its sequence and unit; a stack of one rotation becomes a single rotation.
The rotations are the same exactly if of two angles the second is never beyond a right angle. -/
theorem C73_euler {D : AsEuler} (hD : EulerOk D) {s : Seq} {angles : Shaped (List ℝ)} {d : Bool} {r : Obj}
    (h : fromEuler s angles d = some r) :
    ∃ r', read (write D r) = some r' ∧ r'.info = some (.euler s d) ∧ r'.vals.toList.length = r.vals.toList.length ∧
      (r'.vals = r.vals.squeeze ↔ ∀ a ∈ angles.toList, Kept s (a.map (rad d))) := by
  obtain ⟨hs, hl, rfl⟩ := fromEuler_some h
  have hlen : ∀ a ∈ angles.toList, (a.map (rad d)).length = s.axes.length := fun a ha => by rw [List.length_map, hl a ha]
  refine ⟨_, read_euler hs ?_, rfl, ?_, ?_⟩
  · intro R hR
    rw [Shaped.toList_map, List.mem_map] at hR
    obtain ⟨a, ha, rfl⟩ := hR
    exact (again_iff hD hs d (hlen a ha)).2.1
  · simp only [Shaped.toList_squeeze, Shaped.toList_map, List.length_map]
  · change (Shaped.map (again D s d) (Shaped.map _ angles)).squeeze = (Shaped.map _ angles).squeeze ↔ _
    rw [Shaped.map_map, Shaped.map_squeeze, Shaped.map_squeeze, Shaped.map_eq_map, Shaped.toList_squeeze]
    exact forall₂_congr fun a ha => (again_iff hD hs d (hlen a ha)).1

/-- **C73.** One angle, or three: the rotations are always the same. -/
theorem C73_one_three {D : AsEuler} (hD : EulerOk D) {s : Seq} {angles : Shaped (List ℝ)} {d : Bool} {r : Obj}
    (h : fromEuler s angles d = some r) (hn : s.axes.length ≠ 2) :
    read (write D r) = some ⟨r.vals.squeeze, some (.euler s d)⟩ := by
  obtain ⟨r', h1, h2, _, h3⟩ := C73_euler hD h
  have := h3.2 fun a _ h2 => absurd h2 hn
  rw [h1, ← this, ← h2]

/-- **C73.** What is read is read again as it is after writing it again. -/
theorem C73_stable {D : AsEuler} (hD : EulerOk D) {s : Seq} {angles : Shaped (List ℝ)} {d : Bool} {r r' : Obj}
    (h : fromEuler s angles d = some r) (hr : read (write D r) = some r') : read (write D r') = some r' := by
  obtain ⟨hs, hl, rfl⟩ := fromEuler_some h
  have hlen : ∀ a ∈ angles.toList, (a.map (rad d)).length = s.axes.length := fun a ha => by rw [List.length_map, hl a ha]
  have hst : ∀ R ∈ (angles.map fun a => turn s (a.map (rad d))).toList,
      ∃ a : List ℝ, a.length = s.axes.length ∧ Kept s a ∧ again D s d R = turn s a ∧
        (storedAngles D s d R).length = s.axes.length := by
    intro R hR
    rw [Shaped.toList_map, List.mem_map] at hR
    obtain ⟨a, ha, rfl⟩ := hR
    obtain ⟨_, h2, h3⟩ := again_iff hD hs d (hlen a ha)
    exact ⟨_, by rw [List.length_map, h2], h3, rfl, h2⟩
  rw [read_euler hs fun R hR => by obtain ⟨_, _, _, _, h⟩ := hst R hR; exact h] at hr
  rw [← Option.some.inj hr]
  have hk : ∀ R ∈ (angles.map fun a => turn s (a.map (rad d))).toList,
      again D s d (again D s d R) = again D s d R ∧ (storedAngles D s d (again D s d R)).length = s.axes.length := by
    intro R hR
    obtain ⟨a, h1, h2, h3, _⟩ := hst R hR
    rw [h3]
    obtain ⟨h4, h5, _⟩ := again_iff hD hs d h1
    exact ⟨h4.2 h2, h5⟩
  rw [read_euler hs]
  · congr 2
    rw [← Shaped.map_squeeze, Shaped.squeeze_squeeze, Shaped.map_map]
    congr 1
    exact (Shaped.map_eq_map _ _ _).2 fun R hR => (hk R hR).1
  · intro R hR
    rw [Shaped.toList_squeeze, Shaped.toList_map, List.mem_map] at hR
    obtain ⟨R0, h0, rfl⟩ := hR
    exact (hk R0 h0).2

/-- **C73.** Two angles, the second beyond a right angle: the rotation that is read differs by a half turn about the third
axis. -/
theorem C73_half_turn {D : AsEuler} (hD : EulerOk D) {i : Bool} {a b : Axis} (hab : a ≠ b) (d : Bool) (u v : ℝ)
    (hv : cos (rad d v) < 0) {r : Obj} (hr : fromEuler ⟨i, [a, b]⟩ (.one [u, v]) d = some r) :
    ∃ R R' c, r.vals = .one R ∧ read (write D r) = some ⟨.one R', some (.euler ⟨i, [a, b]⟩ d)⟩ ∧ c ≠ a ∧ c ≠ b ∧
      R = (if i then R' * elem c π else elem c π * R') ∧ R ≠ R' := by
  obtain ⟨hs, _, rfl⟩ := fromEuler_some hr
  obtain ⟨_, h2, h3⟩ := complete2 hab
  have hlen : ([u, v].map (rad d)).length = 2 := rfl
  have hok := again_iff hD hs d (a := [u, v].map (rad d)) hlen
  refine ⟨turn ⟨i, [a, b]⟩ ([u, v].map (rad d)), again D ⟨i, [a, b]⟩ d (turn ⟨i, [a, b]⟩ ([u, v].map (rad d))), third a b, rfl,
    ?_, h3.symm, h2.symm, again2_wrong hD hab d _ _ hv, fun h => ?_⟩
  · refine (read_euler hs ?_).trans rfl
    intro R hR
    simp only [Shaped.map, Shaped.toList, List.mem_singleton] at hR
    subst hR
    exact hok.2.1
  · exact absurd (hok.1.1 h.symm rfl _ rfl) (not_le.2 hv)

/-- **C73.** Angles with a unit: the rotations are those of the angles in radians, whatever the unit is. -/
theorem C73_units {s : Seq} {angles : Shaped (List ℝ)} {u : AngleUnit} {r : Obj} (h : fromEulerQ s angles u = some r) :
    r.vals = angles.map (fun a => compose s.intrinsic (s.axes.zip (a.map fun v => v * if u.dimensionless then 1 else u.factor))) ∧
    r.info = some (.euler s (!(u.dimensionless || u.named))) := by
  obtain ⟨_, _, rfl⟩ := fromEuler_some h
  refine ⟨?_, rfl⟩
  change Shaped.map _ (Shaped.map _ angles) = _
  rw [Shaped.map_map]
  refine (Shaped.map_eq_map _ _ _).2 fun a _ => ?_
  simp only [Function.comp, turn, List.map_map]
  congr 2
  refine List.map_congr_left fun v _ => ?_
  exact rad_unrad _ _

namespace RotationDemo

/-- `WXRotation.from_euler("xy", [0, 120], degrees=True)` -/
noncomputable def tilt : Obj := ⟨.one (turn ⟨false, [.x, .y]⟩ ([0, 120].map (rad true))), some (.euler ⟨false, [.x, .y]⟩ true)⟩

theorem tilt_valid : Seq.Valid ⟨false, [.x, .y]⟩ := ⟨by simp, by simp, by simp⟩

theorem tilt_made : fromEuler ⟨false, [.x, .y]⟩ (.one [0, 120]) true = some tilt :=
  fromEuler_eq tilt_valid (by simp [Shaped.toList])

theorem cos_120 : cos (rad true 120) < 0 := by
  have : rad true 120 = π - π / 3 := by simp only [rad, if_true]; ring
  rw [this, cos_pi_sub, cos_pi_div_three]
  norm_num

/-- the stated property does not hold: the rotation is not the one that was written -/
theorem C73_counterexample {D : AsEuler} (hD : EulerOk D) : ∃ r', read (write D tilt) = some r' ∧ r'.vals ≠ tilt.vals := by
  obtain ⟨R, R', c, h1, h2, _, _, _, h3⟩ := C73_half_turn hD (by decide) true 0 120 cos_120 tilt_made
  refine ⟨_, h2, fun h => h3 ?_⟩
  rw [h1] at h
  exact (Shaped.one.inj h).symm

/-- hypotheses of the theorems can be met -/
example : ∃ D, EulerOk D := eulerOk_exists

/-- three intrinsic angles -/
example : ∃ D r, EulerOk D ∧ fromEuler ⟨true, [.z, .x, .z]⟩ (.many [[30, 40, 50], [0, 90, 10]]) true = some r ∧
    read (write D r) = some r := by
  obtain ⟨D, hD⟩ := eulerOk_exists
  have hv : Seq.Valid ⟨true, [.z, .x, .z]⟩ := ⟨by simp, by simp, by simp⟩
  have hm := fromEuler_eq (angles := .many [[30, 40, 50], [0, 90, 10]]) (d := true) hv (by simp [Shaped.toList])
  exact ⟨D, _, hD, hm, C73_one_three hD hm (by simp)⟩

/-- a stack of one rotation is read as a single rotation -/
example {D : AsEuler} (hD : EulerOk D) : ∃ r R, fromEuler ⟨false, [.z]⟩ (.many [[1]]) false = some r ∧ r.vals = .many [R] ∧
    read (write D r) = some ⟨.one R, r.info⟩ := by
  have hv : Seq.Valid ⟨false, [.z]⟩ := ⟨by simp, by simp, by simp⟩
  have hm := fromEuler_eq (angles := .many [[1]]) (d := false) hv (by simp [Shaped.toList])
  exact ⟨_, _, hm, rfl, C73_one_three hD hm (by simp)⟩

/-- two angles that are kept -/
example {D : AsEuler} (hD : EulerOk D) : ∃ r r', fromEuler ⟨true, [.x, .z]⟩ (.one [3, π / 4]) false = some r ∧
    read (write D r) = some r' ∧ r'.vals = r.vals := by
  have hv : Seq.Valid ⟨true, [.x, .z]⟩ := ⟨by simp, by simp, by simp⟩
  have hm := fromEuler_eq (angles := .one [3, π / 4]) (d := false) hv (by simp [Shaped.toList])
  obtain ⟨r', h1, _, _, h3⟩ := C73_euler hD hm
  refine ⟨_, r', hm, h1, h3.2 ?_⟩
  intro a ha _ v hv
  simp only [Shaped.toList, List.mem_singleton] at ha
  subst ha
  cases hv
  change 0 ≤ cos (π / 4)
  rw [cos_pi_div_four]
  positivity

end RotationDemo

end Weldx.Rot
