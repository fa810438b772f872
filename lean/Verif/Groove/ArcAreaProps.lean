import Verif.Groove.ArcArea
import Mathlib.Analysis.Real.Pi.Bounds

/-!
# C52: areas of U, HU, UV, double U and double HU grooves
-/

namespace Weldx.Groove

open Weldx.Geo Real

/-- the part of a disk that lies beside an arc is smaller than the rectangle around it -/
theorem arc_rectangle {φ ψ : ℝ} (h0 : 0 ≤ φ) (h1 : φ ≤ ψ) (h2 : ψ ≤ π / 2) :
    ψ - φ + sin φ * cos φ - sin ψ * cos ψ ≤ 2 * (sin ψ * (cos φ - cos ψ)) := by
  let f : ℝ → ℝ := fun x => 2 * (sin x * (cos φ - cos x)) - (x - φ + sin φ * cos φ - sin x * cos x)
  have hd : ∀ x, HasDerivAt f (2 * (cos x * (cos φ - cos x) + sin x * -(-sin x)) - (1 - (cos x * cos x + sin x * -sin x))) x := by
    intro x
    have hs := hasDerivAt_sin x
    have hc := hasDerivAt_cos x
    refine ((hs.mul (hc.const_sub (cos φ))).const_mul 2).sub ?_
    exact (((hasDerivAt_id x).sub_const φ).add_const (sin φ * cos φ)).sub (hs.mul hc)
  have hmono : MonotoneOn f (Set.Icc φ ψ) := by
    refine monotoneOn_of_deriv_nonneg (convex_Icc φ ψ) (fun x _ => (hd x).continuousAt.continuousWithinAt)
      (fun x _ => (hd x).differentiableAt.differentiableWithinAt) ?_
    intro x hx
    rw [interior_Icc] at hx
    rw [(hd x).deriv]
    have hcx : 0 ≤ cos x := cos_nonneg_of_mem_Icc ⟨by linarith [hx.1, pi_pos], by linarith [hx.2]⟩
    have hle : cos x ≤ cos φ := cos_le_cos_of_nonneg_of_le_pi h0 (by linarith [hx.2, pi_pos]) hx.1.le
    have hsq := sin_sq_add_cos_sq x
    nlinarith [mul_nonneg hcx (sub_nonneg.2 hle)]
  have := hmono ⟨le_rfl, h1⟩ ⟨h1, le_rfl⟩ h1
  simp only [f] at this
  nlinarith

theorem chords_le {w R θ : ℝ} (hθ : 0 < θ) : chords w R θ ≤ R ^ 2 * θ := by
  unfold chords
  have hn : (0 : ℝ) < steps (R * θ) w := by exact_mod_cast steps_pos _ _
  apply mul_le_mul_of_nonneg_left _ (sq_nonneg R)
  calc (steps (R * θ) w : ℝ) * sin (θ / steps (R * θ) w) ≤ steps (R * θ) w * (θ / steps (R * θ) w) :=
        mul_le_mul_of_nonneg_left (sin_le (by positivity)) hn.le
    _ = θ := by field_simp

/-- the triangles miss less than a fixed part of the disk -/
theorem le_chords {R θ : ℝ} (hR : 0 < R) (hθ : 0 < θ) : R ^ 2 * θ - 3 / 800 * θ ≤ chords (1 / 10) R θ := by
  unfold chords
  have hl : 0 < R * θ := mul_pos hR hθ
  have hstep := (C50_step_size hl (by norm_num : (0 : ℝ) < 1 / 10)).2.1
  set n := steps (R * θ) (1 / 10) with hn
  have hn : (0 : ℝ) < n := by exact_mod_cast steps_pos _ _
  have hs := sin_ge_sub_cube (x := θ / n) (by positivity)
  have hd : 0 ≤ R * θ / n := by positivity
  have hsq : (R * θ / n) ^ 2 ≤ 9 / 400 := by
    have : R * θ / n ≤ 3 / 20 := by linarith
    nlinarith
  have h1 : R ^ 2 * (n * (θ / n - (θ / n) ^ 3 / 6)) ≤ R ^ 2 * (n * sin (θ / n)) :=
    mul_le_mul_of_nonneg_left (mul_le_mul_of_nonneg_left hs hn.le) (sq_nonneg R)
  have h2 : R ^ 2 * (n * (θ / n - (θ / n) ^ 3 / 6)) = R ^ 2 * θ - (R * θ / n) ^ 2 * θ / 6 := by
    field_simp
  have h3 : (R * θ / n) ^ 2 * θ ≤ 9 / 400 * θ := mul_le_mul_of_nonneg_right hsq hθ.le
  linarith

theorem widen_ge {w e : ℝ} (he : 0 ≤ e) : w ≤ widen w e := by
  unfold widen
  split <;> linarith

/-- the outline of an arc that goes up from the root face -/
theorem rot_up (R s c : ℝ) : (![0, c + R] : Geo.V) + rot (-s) (![0, c] - ![0, c + R]) = ![-(R * sin s), c + R - R * cos s] := by
  funext i; fin_cases i
  · simp [rot]; ring
  · simp [rot]; ring

/-- **specification**: twice the area beside an arc of radius `R` that spans 90 degrees minus `β` and is continued by a tangent face of
height `k` -/
noncomputable def sideArea (sector R β k : ℝ) : ℝ := sector - R ^ 2 * (sin β * cos β) + (2 * (R * cos β) + tan β * k) * k

/-- `sideArea` lies in the rectangle around it -/
theorem sideArea_le {R β k : ℝ} (hR : 0 < R) (h0 : 0 ≤ β) (h1 : β < π / 2) (hk : 0 < k) :
    sideArea (chords (1 / 10) R (π / 2 - β)) R β k ≤ 2 * ((R * cos β + tan β * k) * (R - R * sin β + k)) := by
  have hch := chords_le (w := 1 / 10) (R := R) (θ := π / 2 - β) (by linarith)
  have har := arc_rectangle (φ := 0) (ψ := π / 2 - β) le_rfl (by linarith) (by linarith)
  rw [sin_zero, cos_zero, sin_pi_div_two_sub, cos_pi_div_two_sub] at har
  have har' := mul_le_mul_of_nonneg_left har (sq_nonneg R)
  have ht : 0 ≤ tan β := tan_nonneg_of_nonneg_of_le_pi_div_two h0 h1.le
  have h2 : 0 ≤ tan β * k * (R * (1 - sin β)) :=
    mul_nonneg (mul_nonneg ht hk.le) (mul_nonneg hR.le (by linarith [sin_le_one β]))
  have h3 : 0 ≤ tan β * k * k := mul_nonneg (mul_nonneg ht hk.le) hk.le
  unfold sideArea
  nlinarith

theorem Outline.congr {P : Geo.V → Prop} {w : ℝ} {ks : List Kind} {ps : List Geo.V} {A B : ℝ} (h : Outline P w ks ps A) (e : A = B) :
    Outline P w ks ps B := e ▸ h

/-- an arc, a face and the top of the workpiece -/
theorem outline_up {W t c R β k : ℝ} {q e : Geo.V} (hR : 0 < R) (h0 : 0 ≤ β) (h1 : β < π / 2) (hc : 0 ≤ c) (hk : 0 < k)
    (ht : t = c + R - R * sin β + k) (hW : R * cos β + tan β * k < W)
    (hq : q = ![-(R * cos β), c + R - R * sin β]) (he : e = ![-(R * cos β) - tan β * k, t]) :
    Outline (Left W t) (1 / 10) [.arc, .line, .line] [![0, c], ![0, c + R], q, e, ![-W, t]]
      (W * t - sideArea (chords (1 / 10) R (π / 2 - β)) R β k) := by
  subst hq he
  have hcos : 0 < cos β := cos_pos_of_mem_Ioo ⟨by linarith, h1⟩
  have hx : 0 < R * cos β := mul_pos hR hcos
  have hs : 0 ≤ tan β * k := mul_nonneg (tan_nonneg_of_nonneg_of_le_pi_div_two h0 h1.le) hk.le
  have hy : 0 ≤ R * (1 - sin β) := mul_nonneg hR.le (by linarith [sin_le_one β])
  have hlen : len ((![0, c] : Geo.V) - ![0, c + R]) = R := by
    have : (![0, c] : Geo.V) - ![0, c + R] = ![0, -R] := by
      funext i; fin_cases i <;> simp
    rw [this, len_pair hR.le (by ring)]
  refine Outline.congr (Outline.arc (θ := π / 2 - β) (ne_of_1 (by simpa using hR.ne')) (by linarith) (by linarith [pi_pos]) ?_ ?_
    (.line (ne_of_1 ?_) ?_ (.line (ne_of_0 ?_) ?_ (.nil ?_)))) ?_
  · have h := rot_up R (π / 2 - β) c
    rw [sin_pi_div_two_sub, cos_pi_div_two_sub] at h
    rw [← h, add_sub_cancel_left]
  · intro s hs0 hs1
    rw [rot_up]
    have ss0 : 0 ≤ sin s := sin_nonneg_of_nonneg_of_le_pi hs0 (by linarith [pi_pos])
    have ss1 : sin s ≤ cos β := by
      rw [← sin_pi_div_two_sub]
      exact sin_le_sin_of_le_of_le_pi_div_two (by linarith [pi_pos]) (by linarith) hs1
    have sc1 : sin β ≤ cos s := by
      rw [← cos_pi_div_two_sub]
      exact cos_le_cos_of_nonneg_of_le_pi hs0 (by linarith [pi_pos]) hs1
    have := mul_le_mul_of_nonneg_left ss1 hR.le
    have := mul_nonneg hR.le ss0
    have := mul_le_mul_of_nonneg_left sc1 hR.le
    have := mul_le_mul_of_nonneg_left (cos_le_one s) hR.le
    refine ⟨?_, ?_, ?_, ?_⟩ <;> simp <;> linarith
  · simp; linarith
  · refine ⟨?_, ?_, ?_, ?_⟩ <;> simp <;> linarith
  · simp; linarith
  · refine ⟨?_, ?_, ?_, ?_⟩ <;> simp <;> linarith
  · refine ⟨?_, ?_, ?_, ?_⟩ <;> simp <;> linarith
  · rw [hlen]
    simp [cross, sideArea]
    rw [ht]
    ring

/-- the mirror image of the lower half of a double groove -/
theorem outline_low {W t h R β k A : ℝ} {ks : List Kind} {r : List Geo.V} {e p : Geo.V} (hR : 0 < R) (h0 : 0 ≤ β) (h1 : β < π / 2) (hk : 0 < k)
    (hh : h = R - R * sin β + k) (hW : R * cos β + tan β * k < W) (hht : h ≤ t)
    (he : e = ![-(tan β * k + R * cos β), 0]) (hp : p = ![-(R * cos β), h - (R - R * sin β)])
    (hr : Outline (Left W t) (1 / 10) ks (![0, h] :: r) A) :
    Outline (Left W t) (1 / 10) (.line :: .line :: .arc :: ks) (![-W, 0] :: e :: p :: ![0, h - R] :: ![0, h] :: r)
      (A - sideArea (chords (1 / 10) R (π / 2 - β)) R β k) := by
  subst he hp
  have hcos : 0 < cos β := cos_pos_of_mem_Ioo ⟨by linarith, h1⟩
  have hx : 0 < R * cos β := mul_pos hR hcos
  have hs : 0 ≤ tan β * k := mul_nonneg (tan_nonneg_of_nonneg_of_le_pi_div_two h0 h1.le) hk.le
  have hy : 0 ≤ R * (1 - sin β) := mul_nonneg hR.le (by linarith [sin_le_one β])
  have hd : (![-(R * cos β), h - (R - R * sin β)] : Geo.V) - ![0, h - R] = ![-(R * cos β), R * sin β] := by
    funext i; fin_cases i <;> simp
  have hlen : len ((![-(R * cos β), h - (R - R * sin β)] : Geo.V) - ![0, h - R]) = R := by
    rw [hd, len_pair hR.le (by have := sq_radius R β; linarith)]
  have hrot : ∀ s, (![0, h - R] : Geo.V) + rot (-s) (![-(R * cos β), h - (R - R * sin β)] - ![0, h - R]) =
      ![-(R * cos (s + β)), h - R + R * sin (s + β)] := by
    intro s
    rw [hd]
    funext i; fin_cases i
    · simp [rot, cos_add]; ring
    · simp [rot, sin_add]; ring
  refine Outline.congr (Outline.line (ne_of_0 ?_) ?_ (.line (ne_of_1 ?_) ?_ (Outline.arc (θ := π / 2 - β) (ne_of_0 ?_) (by linarith)
    (by linarith [pi_pos]) ?_ ?_ hr))) ?_
  · simp; intro e; linarith
  · refine ⟨?_, ?_, ?_, ?_⟩ <;> simp <;> linarith
  · simp; intro e; linarith
  · refine ⟨?_, ?_, ?_, ?_⟩ <;> simp <;> linarith
  · simp; exact ⟨hR.ne', hcos.ne'⟩
  · have h := hrot (π / 2 - β)
    rw [sub_add_cancel, sin_pi_div_two, cos_pi_div_two] at h
    rw [← add_right_inj (![0, _ - R] : Geo.V), h]
    funext i; fin_cases i <;> simp
  · intro s hs0 hs1
    rw [hrot]
    have a0 : 0 ≤ cos (s + β) := cos_nonneg_of_mem_Icc ⟨by linarith [pi_pos], by linarith⟩
    have a1 : cos (s + β) ≤ cos β := cos_le_cos_of_nonneg_of_le_pi h0 (by linarith [pi_pos]) (by linarith)
    have a2 : sin β ≤ sin (s + β) := sin_le_sin_of_le_of_le_pi_div_two (by linarith [pi_pos]) (by linarith) (by linarith)
    have := mul_nonneg hR.le a0
    have := mul_le_mul_of_nonneg_left a1 hR.le
    have := mul_le_mul_of_nonneg_left a2 hR.le
    have := mul_le_mul_of_nonneg_left (sin_le_one (s + β)) hR.le
    refine ⟨?_, ?_, ?_, ?_⟩ <;> simp <;> linarith
  · rw [hlen]
    simp [cross, sideArea]
    rw [hh]
    ring

/-- the outline of a U groove -/
theorem outlineU {w t β R c : ℝ} (hw : 0 < w) (hR : 0 < R) (h0 : 0 ≤ β) (h1 : β < π / 2) (hc : 0 ≤ c) (ht : c + R - R * sin β < t) :
    ∃ W ps, w ≤ W ∧ R * cos β + tan β * (t - (c + R - R * sin β)) < W ∧
      W = widen w (max (R * cos β + tan β * (t - (c + R - R * sin β))) 0) ∧
      pointsU w t β R c = ![-W, 0] :: ps ∧ (![-W, 0] :: ps).getLast? = some ![-W, t] ∧
      Outline (Left W t) (1 / 10) (kindsU c) (![-W, 0] :: ps)
        (W * t - sideArea (chords (1 / 10) R (π / 2 - β)) R β (t - (c + R - R * sin β))) := by
  have hedge : 0 ≤ max (R * cos β + tan β * (t - (c + R - R * sin β))) 0 := le_max_right _ _
  have hwid := widen_gt hw hedge
  have hgt : R * cos β + tan β * (t - (c + R - R * sin β)) <
      widen w (max (R * cos β + tan β * (t - (c + R - R * sin β))) 0) := (le_max_left _ _).trans_lt hwid
  have hpos := hedge.trans_lt hwid
  have hge := widen_ge (w := w) hedge
  unfold kindsU pointsU
  simp only
  set W := widen w (max (R * cos β + tan β * (t - (c + R - R * sin β))) 0)
  have hy : 0 ≤ R * (1 - sin β) := mul_nonneg hR.le (by linarith [sin_le_one β])
  have up := outline_up (W := W) (t := t) (c := c) (k := t - (c + R - R * sin β)) hR h0 h1 hc (by linarith) (by ring) hgt rfl rfl
  refine ⟨W, _, hge, hgt, rfl, rfl, ?_, ?_⟩
  · unfold rootFace
    split <;> simp
  · unfold rootKind rootFace
    split
    · rename_i hc'
      refine Outline.congr (.line (ne_of_0 (by simpa using hpos.ne')) ?_ (.line (ne_of_1 (by simpa using Ne.symm hc')) ?_ up)) ?_
      · refine ⟨?_, ?_, ?_, ?_⟩ <;> simp <;> linarith
      · refine ⟨?_, ?_, ?_, ?_⟩ <;> simp <;> linarith
      · simp [cross]
    · rename_i hc'
      have hc0 : c = 0 := by simpa using hc'
      rw [hc0] at up ⊢
      refine Outline.congr (.line (ne_of_0 (by simpa using hpos.ne')) ?_ up) ?_
      · refine ⟨?_, ?_, ?_, ?_⟩ <;> simp <;> linarith
      · simp [cross]

theorem side_bound {W t c R β : ℝ} (hR : 0 < R) (h0 : 0 ≤ β) (h1 : β < π / 2) (hc : 0 ≤ c) (ht : c + R - R * sin β < t)
    (hW : R * cos β + tan β * (t - (c + R - R * sin β)) < W) :
    sideArea (chords (1 / 10) R (π / 2 - β)) R β (t - (c + R - R * sin β)) ≤ 2 * (W * t) := by
  have hcos : 0 < cos β := cos_pos_of_mem_Ioo ⟨by linarith, h1⟩
  have hx : 0 < R * cos β := mul_pos hR hcos
  have hs : 0 ≤ tan β * (t - (c + R - R * sin β)) :=
    mul_nonneg (tan_nonneg_of_nonneg_of_le_pi_div_two h0 h1.le) (by linarith)
  have hy : 0 ≤ R * (1 - sin β) := mul_nonneg hR.le (by linarith [sin_le_one β])
  have := sideArea_le (k := t - (c + R - R * sin β)) hR h0 h1 (by linarith)
  have h2 : (R * cos β + tan β * (t - (c + R - R * sin β))) * (R - R * sin β + (t - (c + R - R * sin β))) ≤ W * t :=
    mul_le_mul hW.le (by linarith) (by linarith) (by linarith)
  linarith

/-- **C52** (area of the U groove): the gap and, on each side, a circular arc continued by its tangent; the sector of the arc is replaced by
the triangles below its raster chords. -/
theorem C52_area_U {t β R c b : ℝ} (hR : 0 < R) (h0 : 0 ≤ β) (h1 : β < π / 2) (hc : 0 ≤ c) (hb : 0 ≤ b) (ht : c + R - R * sin β < t) :
    crossSectArea (.U t β R c b) =
      .ok (b * t + sideArea (chords (1 / 10) R (π / 2 - β)) R β (t - (c + R - R * sin β))) := by
  obtain ⟨W, ps, hw, hW, -, e, hl, ho⟩ := outlineU (w := 3) (by norm_num) hR h0 h1 hc ht
  simp only [crossSectArea, profileU]
  rw [e, ho.symmetric (by simp [kindsU]) hl (by linarith) hb]
  have := side_bound hR h0 h1 hc ht hW
  rw [abs_of_nonneg (by linarith)]
  congr 1
  ring

theorem straight_ok {w b t : ℝ} (hw : 0 < w) (ht : 0 < t) : ∃ h, straight w b t = .ok h := by
  have hd : Distinct [![-w - b / 2, 0], ![-b / 2, 0], ![-b / 2, t], ![-w - b / 2, t]] :=
    ⟨ne_of_0 (by simp; linarith), ne_of_1 (by simpa using ht.ne), ne_of_0 (by simp; linarith), trivial⟩
  unfold straight
  exact ⟨_, polyline_lines hd⟩

/-- **C52** (area of the HU groove): half of it. -/
theorem C52_area_HU {t β R c b : ℝ} (hR : 0 < R) (h0 : 0 ≤ β) (h1 : β < π / 2) (hc : 0 ≤ c) (hb : 0 ≤ b) (ht : c + R - R * sin β < t) :
    crossSectArea (.HU t β R c b) =
      .ok (b * t + sideArea (chords (1 / 10) R (π / 2 - β)) R β (t - (c + R - R * sin β)) / 2) := by
  obtain ⟨W, ps, hw, hW, eW, e, hl, ho⟩ := outlineU (w := 5) (by norm_num) hR h0 h1 hc ht
  have hy : 0 ≤ R * (1 - sin β) := mul_nonneg hR.le (by linarith [sin_le_one β])
  have ht0 : 0 < t := by linarith
  obtain ⟨l, e1, -, T⟩ := ho.shape (left_convex W t)
  obtain ⟨r, e2, -⟩ := reflectY_ok (moveBy_valid T.valid ![-b / 2, 0])
  obtain ⟨h, e3⟩ := straight_ok (w := W) (b := b) (t := t) (by linarith) ht0
  have := side_bound hR h0 h1 hc ht hW
  have key := ho.halfArea e1 e2 e3 (by simp [kindsU]) hl (by linarith) (by linarith) hb ht0
  simp only [crossSectArea, profileHU, ← eW, e, halfProfile, e1, e2, e3]
  rw [key, abs_of_nonneg (by linarith)]
  congr 1
  ring

/-- the outline of a double U groove -/
theorem outlineDU {t β1 β2 R R2 c h1 h2 : ℝ} (hR : 0 < R) (hR2 : 0 < R2) (ha0 : 0 ≤ β1) (ha1 : β1 < π / 2) (hb0 : 0 ≤ β2)
    (hb1 : β2 < π / 2) (hc : 0 ≤ c) (ht : h1 + c + h2 = t) (hh : c = 0 ∨ h1 = h2) (hr1 : R - R * sin β1 < h1) (hr2 : R2 - R2 * sin β2 < h2) :
    ∃ W ps, 5 ≤ W ∧ R * cos β1 + tan β1 * (h1 - (R - R * sin β1)) < W ∧ R2 * cos β2 + tan β2 * (h2 - (R2 - R2 * sin β2)) < W ∧
      pointsDU 5 t β1 β2 R R2 c h1 h2 = ![-W, 0] :: ps ∧ (![-W, 0] :: ps).getLast? = some ![-W, t] ∧
      Outline (Left W t) (1 / 10) (kindsDU c) (![-W, 0] :: ps)
        (W * t - sideArea (chords (1 / 10) R (π / 2 - β1)) R β1 (h1 - (R - R * sin β1)) -
          sideArea (chords (1 / 10) R2 (π / 2 - β2)) R2 β2 (h2 - (R2 - R2 * sin β2))) := by
  have hedge : 0 ≤ max (max (R * cos β1 + tan β1 * (h1 - (R - R * sin β1))) (R2 * cos β2 + tan β2 * (h2 - (R2 - R2 * sin β2)))) 0 :=
    le_max_right _ _
  have hwid := widen_gt (w := 5) (by norm_num) hedge
  have hge := widen_ge (w := 5) hedge
  have hw1 : R * cos β1 + tan β1 * (h1 - (R - R * sin β1)) < widen 5 (max (max (R * cos β1 + tan β1 * (h1 - (R - R * sin β1)))
      (R2 * cos β2 + tan β2 * (h2 - (R2 - R2 * sin β2)))) 0) := ((le_max_left _ _).trans (le_max_left _ _)).trans_lt hwid
  have hw2 : R2 * cos β2 + tan β2 * (h2 - (R2 - R2 * sin β2)) < widen 5 (max (max (R * cos β1 + tan β1 * (h1 - (R - R * sin β1)))
      (R2 * cos β2 + tan β2 * (h2 - (R2 - R2 * sin β2)))) 0) := ((le_max_right _ _).trans (le_max_left _ _)).trans_lt hwid
  unfold kindsDU pointsDU
  simp only
  set W := widen 5 (max (max (R * cos β1 + tan β1 * (h1 - (R - R * sin β1))) (R2 * cos β2 + tan β2 * (h2 - (R2 - R2 * sin β2)))) 0)
  have hy1 : 0 ≤ R * (1 - sin β1) := mul_nonneg hR.le (by linarith [sin_le_one β1])
  have hy2 : 0 ≤ R2 * (1 - sin β2) := mul_nonneg hR2.le (by linarith [sin_le_one β2])
  have up := outline_up (W := W) (t := t) (c := h2 + c) (k := h1 - (R - R * sin β1)) (q := ![-(R * cos β1), t - (h1 - (R - R * sin β1))])
    (e := ![-(tan β1 * (h1 - (R - R * sin β1)) + R * cos β1), t]) hR ha0 ha1 (by linarith) (by linarith) (by rw [← ht]; ring) hw1
    (by rw [← ht]; funext i; fin_cases i <;> simp; ring) (by funext i; fin_cases i <;> simp; ring)
  refine ⟨W, _, hge, hw1, hw2, rfl, ?_, ?_⟩
  · unfold rootFace
    split <;> simp
  · unfold rootKind rootFace
    split
    · rename_i hc'
      have he : h1 = h2 := hh.resolve_left hc'
      refine outline_low (k := h2 - (R2 - R2 * sin β2)) hR2 hb0 hb1 (by linarith) (by ring) hw2 (by linarith) rfl rfl ?_
      have hcc : h1 + c = h2 + c := by rw [he]
      simp only [hcc]
      refine Outline.congr (.line (ne_of_1 (by simpa using hc')) ?_ up) ?_
      · refine ⟨?_, ?_, ?_, ?_⟩ <;> simp <;> linarith
      · simp [cross]
    · rename_i hc'
      have hc0 : c = 0 := by simpa using hc'
      refine outline_low (k := h2 - (R2 - R2 * sin β2)) hR2 hb0 hb1 (by linarith) (by ring) hw2 (by linarith) rfl rfl ?_
      rw [hc0] at up ⊢
      simpa using up

theorem sides_bound {W t c R R2 β1 β2 h1 h2 : ℝ} (hR : 0 < R) (hR2 : 0 < R2) (ha0 : 0 ≤ β1) (ha1 : β1 < π / 2) (hb0 : 0 ≤ β2)
    (hb1 : β2 < π / 2) (hc : 0 ≤ c) (ht : h1 + c + h2 = t) (hr1 : R - R * sin β1 < h1) (hr2 : R2 - R2 * sin β2 < h2)
    (hw1 : R * cos β1 + tan β1 * (h1 - (R - R * sin β1)) < W) (hw2 : R2 * cos β2 + tan β2 * (h2 - (R2 - R2 * sin β2)) < W) :
    sideArea (chords (1 / 10) R (π / 2 - β1)) R β1 (h1 - (R - R * sin β1)) +
      sideArea (chords (1 / 10) R2 (π / 2 - β2)) R2 β2 (h2 - (R2 - R2 * sin β2)) ≤ 2 * (W * t) := by
  have s1 := sideArea_le (k := h1 - (R - R * sin β1)) hR ha0 ha1 (by linarith)
  have s2 := sideArea_le (k := h2 - (R2 - R2 * sin β2)) hR2 hb0 hb1 (by linarith)
  rw [add_sub_cancel] at s1 s2
  have hcos1 : 0 < cos β1 := cos_pos_of_mem_Ioo ⟨by linarith, ha1⟩
  have hcos2 : 0 < cos β2 := cos_pos_of_mem_Ioo ⟨by linarith, hb1⟩
  have hy1 : 0 ≤ R * (1 - sin β1) := mul_nonneg hR.le (by linarith [sin_le_one β1])
  have hy2 : 0 ≤ R2 * (1 - sin β2) := mul_nonneg hR2.le (by linarith [sin_le_one β2])
  have hx1 : 0 < R * cos β1 := mul_pos hR hcos1
  have hsu : 0 ≤ tan β1 * (h1 - (R - R * sin β1)) := mul_nonneg (tan_nonneg_of_nonneg_of_le_pi_div_two ha0 ha1.le) (by linarith)
  have m1 := mul_le_mul_of_nonneg_right hw1.le (by linarith : (0 : ℝ) ≤ h1)
  have m2 := mul_le_mul_of_nonneg_right hw2.le (by linarith : (0 : ℝ) ≤ h2)
  have m3 : 0 ≤ W * c := mul_nonneg (by linarith) hc
  rw [← ht]
  nlinarith

/-- **C52** (area of the double U groove): the gap and both sides, where the profile can be made. -/
theorem C52_area_DU {t β1 β2 R R2 c h1 h2 b : ℝ} (hR : 0 < R) (hR2 : 0 < R2) (ha0 : 0 ≤ β1) (ha1 : β1 < π / 2) (hb0 : 0 ≤ β2)
    (hb1 : β2 < π / 2) (hc : 0 ≤ c) (hb : 0 ≤ b) (ht : h1 + c + h2 = t) (hh : c = 0 ∨ h1 = h2) (hr1 : R - R * sin β1 < h1)
    (hr2 : R2 - R2 * sin β2 < h2) :
    crossSectArea (.DU t β1 β2 R R2 c (some h1) (some h2) b) =
      .ok (b * t + (sideArea (chords (1 / 10) R (π / 2 - β1)) R β1 (h1 - (R - R * sin β1)) +
        sideArea (chords (1 / 10) R2 (π / 2 - β2)) R2 β2 (h2 - (R2 - R2 * sin β2)))) := by
  obtain ⟨W, ps, hw, hw1, hw2, e, hl, ho⟩ := outlineDU hR hR2 ha0 ha1 hb0 hb1 hc ht hh hr1 hr2
  have := sides_bound hR hR2 ha0 ha1 hb0 hb1 hc ht hr1 hr2 hw1 hw2
  simp only [crossSectArea, profileDU]
  rw [e, ho.symmetric (by simp [kindsDU]) hl (by linarith) hb, abs_of_nonneg (by linarith)]
  congr 1
  ring

/-- **C52** (area of the double HU groove): half of it. The straight workpiece is not made wider, but its width does not change the area. -/
theorem C52_area_DHU {t β1 β2 R R2 c h1 h2 b : ℝ} (hR : 0 < R) (hR2 : 0 < R2) (ha0 : 0 ≤ β1) (ha1 : β1 < π / 2) (hb0 : 0 ≤ β2)
    (hb1 : β2 < π / 2) (hc : 0 ≤ c) (hb : 0 ≤ b) (ht : h1 + c + h2 = t) (hh : c = 0 ∨ h1 = h2) (hr1 : R - R * sin β1 < h1)
    (hr2 : R2 - R2 * sin β2 < h2) :
    crossSectArea (.DHU t β1 β2 R R2 c (some h1) (some h2) b) =
      .ok (b * t + (sideArea (chords (1 / 10) R (π / 2 - β1)) R β1 (h1 - (R - R * sin β1)) +
        sideArea (chords (1 / 10) R2 (π / 2 - β2)) R2 β2 (h2 - (R2 - R2 * sin β2))) / 2) := by
  obtain ⟨W, ps, hw, hw1, hw2, e, hl, ho⟩ := outlineDU hR hR2 ha0 ha1 hb0 hb1 hc ht hh hr1 hr2
  have := sides_bound hR hR2 ha0 ha1 hb0 hb1 hc ht hr1 hr2 hw1 hw2
  have hy1 : 0 ≤ R * (1 - sin β1) := mul_nonneg hR.le (by linarith [sin_le_one β1])
  have hy2 : 0 ≤ R2 * (1 - sin β2) := mul_nonneg hR2.le (by linarith [sin_le_one β2])
  have ht0 : 0 < t := by linarith
  obtain ⟨l, e1, -, T⟩ := ho.shape (left_convex W t)
  obtain ⟨r, e2, -⟩ := reflectY_ok (moveBy_valid T.valid ![-b / 2, 0])
  obtain ⟨h, e3⟩ := straight_ok (w := 5) (b := b) (t := t) (by norm_num) ht0
  have key := ho.halfArea e1 e2 e3 (by simp [kindsDU]) hl (by linarith) (by norm_num) hb ht0
  simp only [crossSectArea, profileDHU, profileDU, e, translateReflect, e1, e2, e3]
  simp only [List.getD_cons_succ, List.getD_cons_zero]
  rw [key, abs_of_nonneg (by linarith)]
  congr 1
  ring

/-- **C52** (area of the UV groove): the gap, the V below, and on each side an arc from the lower face to the upper face. The arc spans 90
degrees minus the bevel angle and the angle at which it starts. -/
theorem C52_area_UV {t α β R h b : ℝ} (hh : 0 < h) (hR : 0 < R) (ha0 : 0 ≤ α) (hap : α < π) (h0 : 0 ≤ β) (h1 : β < π / 2) (hb : 0 ≤ b)
    (hx : tan (α / 2) * h < R * cos β) (ht : h + √(R ^ 2 - (tan (α / 2) * h) ^ 2) - R * sin β < t) :
    crossSectArea (.UV t α β R h b) =
      .ok (b * t + tan (α / 2) * h * (h + √(R ^ 2 - (tan (α / 2) * h) ^ 2)) +
        sideArea (chords (1 / 10) R (π / 2 - β - arcsin (tan (α / 2) * h / R))) R β
          (t - (h + √(R ^ 2 - (tan (α / 2) * h) ^ 2) - R * sin β))) := by
  have hx0 : 0 ≤ tan (α / 2) * h := mul_nonneg (tan_half_nonneg ha0 hap) hh.le
  have hcos : 0 < cos β := cos_pos_of_mem_Ioo ⟨by linarith, h1⟩
  have hxp : 0 < R * cos β := mul_pos hR hcos
  have hxR : R * cos β ≤ R := by nlinarith [cos_le_one β]
  simp only [crossSectArea, profileUV]
  set x1 := tan (α / 2) * h with hx1
  have hq0 : 0 ≤ x1 / R := div_nonneg hx0 hR.le
  have hq1 : x1 / R < cos β := by rw [div_lt_iff₀ hR]; linarith
  set φ := arcsin (x1 / R) with hφ
  have sφ : R * sin φ = x1 := by
    rw [hφ, sin_arcsin (by linarith) (by linarith [cos_le_one β])]
    field_simp
  have hφ0 : 0 ≤ φ := arcsin_nonneg.2 hq0
  have hφ1 : φ < π / 2 - β := by
    rw [hφ, ← arcsin_sin (x := π / 2 - β) (by linarith [pi_pos]) (by linarith), sin_pi_div_two_sub]
    exact strictMonoOn_arcsin ⟨by linarith, by linarith [cos_le_one β]⟩ ⟨by linarith, cos_le_one β⟩ hq1
  have cφ0 : 0 ≤ cos φ := cos_nonneg_of_mem_Icc ⟨by linarith [pi_pos], by linarith⟩
  have cφ : √(R ^ 2 - x1 ^ 2) = R * cos φ := by
    rw [← sφ, show R ^ 2 - (R * sin φ) ^ 2 = (R * cos φ) ^ 2 by
      have := sin_sq_add_cos_sq φ
      linear_combination -R ^ 2 * this, sqrt_sq (mul_nonneg hR.le cφ0)]
  rw [cφ] at ht ⊢
  have hsb : sin β ≤ cos φ := by
    rw [← cos_pi_div_two_sub]
    exact cos_le_cos_of_nonneg_of_le_pi hφ0 (by linarith [pi_pos]) hφ1.le
  have hsb' := mul_le_mul_of_nonneg_left hsb hR.le
  have htan : 0 ≤ tan β := tan_nonneg_of_nonneg_of_le_pi_div_two h0 h1.le
  have hk : 0 < t - (h + R * cos φ - R * sin β) := by linarith
  have hs : 0 ≤ (t - (h + R * cos φ - R * sin β)) * tan β := mul_nonneg hk.le htan
  have hedge : 0 ≤ max (-(-(R * cos β) - (t - (h + R * cos φ - R * sin β)) * tan β)) 0 := le_max_right _ _
  have hwid := widen_gt (w := 2) (by norm_num) hedge
  have hge := widen_ge (w := 2) hedge
  have hgt : -(-(R * cos β) - (t - (h + R * cos φ - R * sin β)) * tan β) <
      widen 2 (max (-(-(R * cos β) - (t - (h + R * cos φ - R * sin β)) * tan β)) 0) := (le_max_left _ _).trans_lt hwid
  set W := widen 2 (max (-(-(R * cos β) - (t - (h + R * cos φ - R * sin β)) * tan β)) 0)
  have hd : (![-x1, h] : Geo.V) - ![0, h + R * cos φ] = ![-(R * sin φ), -(R * cos φ)] := by
    rw [sφ]
    funext i; fin_cases i <;> simp
  have hlen : len ((![-x1, h] : Geo.V) - ![0, h + R * cos φ]) = R := by
    rw [hd, len_pair hR.le (by have := sin_sq_add_cos_sq φ; linear_combination R ^ 2 * this)]
  have hrot : ∀ s, (![0, h + R * cos φ] : Geo.V) + rot (-s) (![-x1, h] - ![0, h + R * cos φ]) =
      ![-(R * sin (φ + s)), h + R * cos φ - R * cos (φ + s)] := by
    intro s
    rw [hd]
    funext i; fin_cases i
    · simp [rot, sin_add]; ring
    · simp [rot, cos_add]; ring
  have outline : Outline (Left W t) (1 / 10) [.line, .line, .arc, .line, .line]
      [![-W, 0], ![0, 0], ![-x1, h], ![0, h + R * cos φ], ![-(R * cos β), h + R * cos φ - R * sin β],
        ![-(R * cos β) - (t - (h + R * cos φ - R * sin β)) * tan β, t], ![-W, t]]
      (W * t - x1 * (h + R * cos φ) - sideArea (chords (1 / 10) R (π / 2 - β - φ)) R β (t - (h + R * cos φ - R * sin β))) := by
    refine Outline.congr (.line (ne_of_0 ?_) ?_ (.line (ne_of_1 ?_) ?_ (Outline.arc (θ := π / 2 - β - φ) ?_ (by linarith)
      (by linarith [pi_pos]) ?_ ?_ (.line (ne_of_1 ?_) ?_ (.line (ne_of_0 ?_) ?_ (.nil ?_)))))) ?_
    · simp; linarith
    · refine ⟨?_, ?_, ?_, ?_⟩ <;> simp <;> linarith
    · simp; exact hh.ne
    · refine ⟨?_, ?_, ?_, ?_⟩ <;> simp <;> linarith
    · intro e
      rw [e, sub_self, len_eq_zero.2 rfl] at hlen
      exact hR.ne hlen
    · have h := hrot (π / 2 - β - φ)
      rw [show φ + (π / 2 - β - φ) = π / 2 - β by ring, sin_pi_div_two_sub, cos_pi_div_two_sub] at h
      rw [← h, add_sub_cancel_left]
    · intro s hs0 hs1
      rw [hrot]
      have ss0 : 0 ≤ sin (φ + s) := sin_nonneg_of_nonneg_of_le_pi (by linarith) (by linarith [pi_pos])
      have ss1 : sin (φ + s) ≤ cos β := by
        rw [← sin_pi_div_two_sub]
        exact sin_le_sin_of_le_of_le_pi_div_two (by linarith [pi_pos]) (by linarith) (by linarith)
      have sc1 : sin β ≤ cos (φ + s) := by
        rw [← cos_pi_div_two_sub]
        exact cos_le_cos_of_nonneg_of_le_pi (by linarith) (by linarith [pi_pos]) (by linarith)
      have sc2 : cos (φ + s) ≤ cos φ := cos_le_cos_of_nonneg_of_le_pi hφ0 (by linarith [pi_pos]) (by linarith)
      have := mul_le_mul_of_nonneg_left ss1 hR.le
      have := mul_nonneg hR.le ss0
      have := mul_le_mul_of_nonneg_left sc1 hR.le
      have := mul_le_mul_of_nonneg_left sc2 hR.le
      refine ⟨?_, ?_, ?_, ?_⟩ <;> simp <;> linarith
    · simp; linarith
    · refine ⟨?_, ?_, ?_, ?_⟩ <;> simp <;> linarith
    · simp; intro e; linarith
    · refine ⟨?_, ?_, ?_, ?_⟩ <;> simp <;> linarith
    · refine ⟨?_, ?_, ?_, ?_⟩ <;> simp <;> linarith
    · rw [hlen]
      simp [cross, sideArea]
      ring
  have hch := chords_le (w := 1 / 10) (R := R) (θ := π / 2 - β - φ) (by linarith)
  have har := arc_rectangle (φ := φ) (ψ := π / 2 - β) hφ0 hφ1.le (by linarith)
  rw [sin_pi_div_two_sub, cos_pi_div_two_sub] at har
  have har' := mul_le_mul_of_nonneg_left har (sq_nonneg R)
  have bound : x1 * (h + R * cos φ) + sideArea (chords (1 / 10) R (π / 2 - β - φ)) R β (t - (h + R * cos φ - R * sin β)) ≤ 2 * (W * t) := by
    set k := t - (h + R * cos φ - R * sin β) with hkd
    have et : t = h + (R * cos φ - R * sin β) + k := by rw [hkd]; ring
    have m1 : (R * cos β + k * tan β) * t ≤ W * t := mul_le_mul_of_nonneg_right (by linarith) (by linarith)
    have m2 : x1 * h ≤ R * cos β * h := mul_le_mul_of_nonneg_right hx.le hh.le
    have m3 : 0 ≤ R * cos β * h := mul_nonneg hxp.le hh.le
    have m4 : 0 ≤ k * tan β * h := mul_nonneg hs hh.le
    have m5 : 0 ≤ k * tan β * (R * cos φ - R * sin β) := mul_nonneg hs (by linarith)
    have m6 : 0 ≤ k * tan β * k := mul_nonneg hs hk.le
    have e1 : (R * cos β + k * tan β) * t = R * cos β * h + R * cos β * (R * cos φ - R * sin β) + R * cos β * k + k * tan β * h +
        k * tan β * (R * cos φ - R * sin β) + k * tan β * k := by rw [et]; ring
    have e2 : R ^ 2 * (π / 2 - β - φ + sin φ * cos φ - cos β * sin β) =
        R ^ 2 * (π / 2 - β - φ) + x1 * (R * cos φ) - R ^ 2 * (sin β * cos β) := by rw [← sφ]; ring
    have e3 : R ^ 2 * (2 * (cos β * (cos φ - sin β))) = 2 * (R * cos β * (R * cos φ - R * sin β)) := by ring
    rw [e2, e3] at har'
    unfold sideArea
    linarith
  rw [outline.symmetric (by simp) (by simp) (by linarith) hb, abs_of_nonneg (by linarith)]
  congr 1
  ring

/-! ### the exact areas -/

/-- the sector of the circle in place of the triangles -/
theorem sideArea_exact {R θ β k : ℝ} (hR : 0 < R) (hθ : 0 < θ) :
    sideArea (R ^ 2 * θ) R β k - 3 / 800 * θ ≤ sideArea (chords (1 / 10) R θ) R β k ∧
      sideArea (chords (1 / 10) R θ) R β k ≤ sideArea (R ^ 2 * θ) R β k := by
  have h1 := le_chords hR hθ
  have h2 := chords_le (w := 1 / 10) (R := R) hθ
  unfold sideArea
  constructor <;> linarith

/-- **C52** (accuracy, U groove): the computed area is not larger than the area of the groove, and differs from it by less than
0.006 square millimetres, whatever the size of the groove. -/
theorem C52_U_accuracy {t β R c b : ℝ} (hR : 0 < R) (h0 : 0 ≤ β) (h1 : β < π / 2) (hc : 0 ≤ c) (hb : 0 ≤ b) (ht : c + R - R * sin β < t) :
    ∃ a, crossSectArea (.U t β R c b) = .ok a ∧
      a ≤ b * t + sideArea (R ^ 2 * (π / 2 - β)) R β (t - (c + R - R * sin β)) ∧
      b * t + sideArea (R ^ 2 * (π / 2 - β)) R β (t - (c + R - R * sin β)) - a < 6 / 1000 := by
  have h := sideArea_exact (R := R) (θ := π / 2 - β) (β := β) (k := t - (c + R - R * sin β)) hR (by linarith)
  refine ⟨_, C52_area_U hR h0 h1 hc hb ht, by linarith, ?_⟩
  have := pi_lt_d2
  linarith

/-- **C52** (accuracy, HU groove). -/
theorem C52_HU_accuracy {t β R c b : ℝ} (hR : 0 < R) (h0 : 0 ≤ β) (h1 : β < π / 2) (hc : 0 ≤ c) (hb : 0 ≤ b) (ht : c + R - R * sin β < t) :
    ∃ a, crossSectArea (.HU t β R c b) = .ok a ∧
      a ≤ b * t + sideArea (R ^ 2 * (π / 2 - β)) R β (t - (c + R - R * sin β)) / 2 ∧
      b * t + sideArea (R ^ 2 * (π / 2 - β)) R β (t - (c + R - R * sin β)) / 2 - a < 3 / 1000 := by
  have h := sideArea_exact (R := R) (θ := π / 2 - β) (β := β) (k := t - (c + R - R * sin β)) hR (by linarith)
  refine ⟨_, C52_area_HU hR h0 h1 hc hb ht, by linarith, ?_⟩
  have := pi_lt_d2
  linarith

/-- **C52** (accuracy, UV groove). -/
theorem C52_UV_accuracy {t α β R h b : ℝ} (hh : 0 < h) (hR : 0 < R) (ha0 : 0 ≤ α) (hap : α < π) (h0 : 0 ≤ β) (h1 : β < π / 2) (hb : 0 ≤ b)
    (hx : tan (α / 2) * h < R * cos β) (ht : h + √(R ^ 2 - (tan (α / 2) * h) ^ 2) - R * sin β < t) :
    ∃ a e, crossSectArea (.UV t α β R h b) = .ok a ∧
      e = b * t + tan (α / 2) * h * (h + √(R ^ 2 - (tan (α / 2) * h) ^ 2)) +
        sideArea (R ^ 2 * (π / 2 - β - arcsin (tan (α / 2) * h / R))) R β (t - (h + √(R ^ 2 - (tan (α / 2) * h) ^ 2) - R * sin β)) ∧
      a ≤ e ∧ e - a < 6 / 1000 := by
  have hx0 : 0 ≤ tan (α / 2) * h := mul_nonneg (tan_half_nonneg ha0 hap) hh.le
  have hq0 : 0 ≤ tan (α / 2) * h / R := div_nonneg hx0 hR.le
  have hq1 : tan (α / 2) * h / R < cos β := by rw [div_lt_iff₀ hR]; linarith
  have hφ0 := arcsin_nonneg.2 hq0
  have hφ1 : arcsin (tan (α / 2) * h / R) < π / 2 - β := by
    rw [← arcsin_sin (x := π / 2 - β) (by linarith [pi_pos]) (by linarith), sin_pi_div_two_sub]
    exact strictMonoOn_arcsin ⟨by linarith, by linarith [cos_le_one β]⟩ ⟨by linarith, cos_le_one β⟩ hq1
  have h' := sideArea_exact (R := R) (θ := π / 2 - β - arcsin (tan (α / 2) * h / R)) (β := β)
    (k := t - (h + √(R ^ 2 - (tan (α / 2) * h) ^ 2) - R * sin β)) hR (by linarith)
  refine ⟨_, _, C52_area_UV hh hR ha0 hap h0 h1 hb hx ht, rfl, by linarith, ?_⟩
  have := pi_lt_d2
  linarith

/-- **C52** (accuracy, double U groove). -/
theorem C52_DU_accuracy {t β1 β2 R R2 c h1 h2 b : ℝ} (hR : 0 < R) (hR2 : 0 < R2) (ha0 : 0 ≤ β1) (ha1 : β1 < π / 2) (hb0 : 0 ≤ β2)
    (hb1 : β2 < π / 2) (hc : 0 ≤ c) (hb : 0 ≤ b) (ht : h1 + c + h2 = t) (hh : c = 0 ∨ h1 = h2) (hr1 : R - R * sin β1 < h1)
    (hr2 : R2 - R2 * sin β2 < h2) :
    ∃ a e, crossSectArea (.DU t β1 β2 R R2 c (some h1) (some h2) b) = .ok a ∧
      crossSectArea (.DHU t β1 β2 R R2 c (some h1) (some h2) b) = .ok ((a + b * t) / 2) ∧
      e = b * t + (sideArea (R ^ 2 * (π / 2 - β1)) R β1 (h1 - (R - R * sin β1)) +
        sideArea (R2 ^ 2 * (π / 2 - β2)) R2 β2 (h2 - (R2 - R2 * sin β2))) ∧ a ≤ e ∧ e - a < 12 / 1000 := by
  have s1 := sideArea_exact (R := R) (θ := π / 2 - β1) (β := β1) (k := h1 - (R - R * sin β1)) hR (by linarith)
  have s2 := sideArea_exact (R := R2) (θ := π / 2 - β2) (β := β2) (k := h2 - (R2 - R2 * sin β2)) hR2 (by linarith)
  refine ⟨_, _, C52_area_DU hR hR2 ha0 ha1 hb0 hb1 hc hb ht hh hr1 hr2, ?_, rfl, by linarith, ?_⟩
  · rw [C52_area_DHU hR hR2 ha0 ha1 hb0 hb1 hc hb ht hh hr1 hr2]
    congr 1
    ring
  · have := pi_lt_d2
    linarith

/-- a U groove with vertical faces: the area is that of a half disk, two rectangles and the gap -/
example : ∃ a, crossSectArea (.U 15 0 6 3 1) = .ok a ∧ a ≤ 15 + (18 * π + 72) ∧ 15 + (18 * π + 72) - a < 6 / 1000 := by
  have h := C52_U_accuracy (t := 15) (β := 0) (R := 6) (c := 3) (b := 1) (by norm_num) le_rfl (by positivity) (by norm_num) (by norm_num)
    (by rw [sin_zero]; norm_num)
  obtain ⟨a, h1, h2, h3⟩ := h
  refine ⟨a, h1, ?_, ?_⟩
  · simp [sideArea] at h2
    linarith
  · simp [sideArea] at h3
    linarith

example : ∃ a, crossSectArea (.HU 15 (π / 6) 6 3 1) = .ok a :=
  ⟨_, C52_area_HU (by norm_num) (by positivity) (by linarith [pi_pos]) (by norm_num) (by norm_num) (by rw [sin_pi_div_six]; norm_num)⟩

example : ∃ a, crossSectArea (.DHU 33 (π / 6) (π / 6) 6 6 3 (some 15) (some 15) 2) = .ok a :=
  ⟨_, C52_area_DHU (by norm_num) (by norm_num) (by positivity) (by linarith [pi_pos]) (by positivity) (by linarith [pi_pos]) (by norm_num)
    (by norm_num) (by norm_num) (.inr rfl) (by rw [sin_pi_div_six]; norm_num) (by rw [sin_pi_div_six]; norm_num)⟩

/-- a lower groove of 90 degrees and 3 mm below an arc of 5 mm -/
example : ∃ a, crossSectArea (.UV 15 (π / 2) 0 5 3 1) = .ok a :=
  ⟨_, C52_area_UV (by norm_num) (by norm_num) (by positivity) (by linarith [pi_pos]) le_rfl (by positivity) (by norm_num)
    (by rw [show π / 2 / 2 = π / 4 by ring, tan_pi_div_four, cos_zero]; norm_num) (by
      rw [show π / 2 / 2 = π / 4 by ring, tan_pi_div_four, sin_zero, show ((5 : ℝ) ^ 2 - (1 * 3) ^ 2) = 4 ^ 2 by norm_num,
        sqrt_sq (by norm_num)]
      norm_num)⟩

end Weldx.Groove
