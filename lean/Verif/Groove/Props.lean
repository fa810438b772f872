import Verif.Groove.Lemmas
import Mathlib.Analysis.SpecialFunctions.Trigonometric.Deriv

/-!
# C52 and C53: parameters and areas of grooves, welding speed
-/

namespace Weldx.Groove

open Weldx.Geo

/-- the grooves whose class defines its own `__post_init__` -/
def Groove.Double : Groove → Prop
  | .DV .. => True
  | .DU .. => True
  | .DHV .. => True
  | .DHU .. => True
  | _ => False

/-- **C52** (parameters): grooves that are not double sided are accepted exactly if no parameter is negative, and are not changed. -/
theorem C52_parameters {g : Groove} (hg : ¬ g.Double) :
    ((∃ g', postInit g = .ok g') ↔ ∀ x ∈ g.parameters, 0 ≤ x) ∧ ∀ g', postInit g = .ok g' → g' = g := by
  have hpost : postInit g = checkParameters g := by
    cases g <;> first | rfl | exact absurd trivial hg
  rw [hpost]
  unfold checkParameters
  constructor
  · constructor
    · rintro ⟨g', h⟩ x hx
      split at h
      · rename_i hall; exact not_lt.1 (hall x hx)
      · cases h
    · intro h
      exact ⟨g, if_pos fun x hx => not_lt.2 (h x hx)⟩
  · intro g' h
    split at h
    · exact (Except.ok.inj h).symm
    · cases h

/-- **C52** (checked parameters): for each of the classes, the values that must not be negative, spelled out. For the frontal face
groove these are those of the optional values that are given. -/
theorem C52_parameters_checked (t alpha beta h c b R t1 : ℝ) (o2 oa ob oe : Option ℝ) :
    ((∃ g, postInit (.I t b) = .ok g) ↔ 0 ≤ t ∧ 0 ≤ b) ∧
    ((∃ g, postInit (.V t alpha c b) = .ok g) ↔ 0 ≤ t ∧ 0 ≤ alpha ∧ 0 ≤ c ∧ 0 ≤ b) ∧
    ((∃ g, postInit (.VV t alpha beta h c b) = .ok g) ↔ 0 ≤ t ∧ 0 ≤ alpha ∧ 0 ≤ beta ∧ 0 ≤ h ∧ 0 ≤ c ∧ 0 ≤ b) ∧
    ((∃ g, postInit (.UV t alpha beta R h b) = .ok g) ↔ 0 ≤ t ∧ 0 ≤ alpha ∧ 0 ≤ beta ∧ 0 ≤ R ∧ 0 ≤ h ∧ 0 ≤ b) ∧
    ((∃ g, postInit (.U t beta R c b) = .ok g) ↔ 0 ≤ t ∧ 0 ≤ beta ∧ 0 ≤ R ∧ 0 ≤ c ∧ 0 ≤ b) ∧
    ((∃ g, postInit (.HV t beta c b) = .ok g) ↔ 0 ≤ t ∧ 0 ≤ beta ∧ 0 ≤ c ∧ 0 ≤ b) ∧
    ((∃ g, postInit (.HU t beta R c b) = .ok g) ↔ 0 ≤ t ∧ 0 ≤ beta ∧ 0 ≤ R ∧ 0 ≤ c ∧ 0 ≤ b) ∧
    ((∃ g, postInit (.FF t1 o2 oa ob oe) = .ok g) ↔
      0 ≤ t1 ∧ (∀ x, o2 = some x → 0 ≤ x) ∧ (∀ x, oa = some x → 0 ≤ x) ∧ (∀ x, ob = some x → 0 ≤ x) ∧
        ∀ x, oe = some x → 0 ≤ x) := by
  refine ⟨?_, ?_, ?_, ?_, ?_, ?_, ?_, ?_⟩ <;>
    rw [(C52_parameters (by exact fun h => h)).1] <;> simp [Groove.parameters, or_imp, forall_and, Option.mem_toList]

/-- a gap of -1 is rejected -/
example : ¬ ∃ g, postInit (.I 10 (-1)) = .ok g := by
  rw [(C52_parameters_checked 10 0 0 0 0 (-1) 0 0 none none none none).1]; norm_num

/-- **C52** (double sided grooves): the parameters of double sided grooves are never checked. -/
theorem C52_parameters_counterexample {g : Groove} (hg : g.Double) : ∃ g', postInit g = .ok g' := by
  cases g <;> first | exact ⟨_, rfl⟩ | exact absurd hg id

/-- so a double V groove of negative thickness is accepted -/
example : ∃ g', postInit (.DV (-10) (-1) 1 0 none none 0) = .ok g' := C52_parameters_counterexample trivial

example : ∀ x ∈ (Groove.V 10 1 2 1).parameters, 0 ≤ x := by
  simp [Groove.parameters]

/-- **C52** (default heights): if no height is given, the heights and the root face partition the thickness. -/
theorem C52_heights (t c : ℝ) :
    ∃ h1 h2, defaultHeights t c none none = (some h1, some h2) ∧ h1 + c + h2 = t ∧ h1 = h2 :=
  ⟨_, _, rfl, by ring, rfl⟩

/-- **C52** (heights of new grooves): each of the four double sided classes keeps the other values as given and has the heights that
belong to its thickness and root face; without heights both of them are half of what the root face leaves of the thickness. -/
theorem C52_heights_created (t x y R R2 c b : ℝ) (h1 h2 : Option ℝ) : ∃ k1 k2 : ℝ,
    (postInit (.DV t x y c h1 h2 b) = .ok (.DV t x y c (some k1) (some k2) b)) ∧
    (postInit (.DU t x y R R2 c h1 h2 b) = .ok (.DU t x y R R2 c (some k1) (some k2) b)) ∧
    (postInit (.DHV t x y c h1 h2 b) = .ok (.DHV t x y c (some k1) (some k2) b)) ∧
    (postInit (.DHU t x y R R2 c h1 h2 b) = .ok (.DHU t x y R R2 c (some k1) (some k2) b)) ∧
    (h1 = none → h2 = none → k1 = k2 ∧ k1 + c + k2 = t) ∧ (∀ k, h1 = some k → k1 = k) ∧ (∀ k, h2 = some k → k2 = k) ∧
    (h1 = none → k1 = k2) ∧ (h2 = none → k2 = k1) := by
  rcases h1 with _ | h1 <;> rcases h2 with _ | h2
  · exact ⟨(t - c) / 2, (t - c) / 2, rfl, rfl, rfl, rfl, fun _ _ => ⟨rfl, by ring⟩, (fun _ h => by cases h), (fun _ h => by cases h),
      fun _ => rfl, fun _ => rfl⟩
  · exact ⟨h2, h2, rfl, rfl, rfl, rfl, (fun _ h => by cases h), (fun _ h => by cases h), (fun _ h => Option.some.inj h),
      fun _ => rfl, fun _ => rfl⟩
  · exact ⟨h1, h1, rfl, rfl, rfl, rfl, (fun h => by cases h), (fun _ h => Option.some.inj h), (fun _ h => by cases h),
      fun _ => rfl, fun _ => rfl⟩
  · exact ⟨h1, h2, rfl, rfl, rfl, rfl, (fun h => by cases h), (fun _ h => Option.some.inj h), (fun _ h => Option.some.inj h),
      (fun h => by cases h), (fun h => by cases h)⟩

/-- a double U groove of thickness 10 with a root face of 2 has heights of 4 -/
example : ∃ g, postInit (.DU 10 1 1 2 2 2 none none 1) = .ok g ∧ g = .DU 10 1 1 2 2 2 (some 4) (some 4) 1 := by
  obtain ⟨k1, k2, -, h, -, -, he, -⟩ := C52_heights_created 10 1 1 2 2 2 1 none none
  obtain ⟨e1, e2⟩ := he rfl rfl
  have hk : k1 = 4 := by linarith
  have hk' : k2 = 4 := by linarith
  exact ⟨_, h, by rw [hk, hk']⟩

/-- **C52** (one height): if one of the heights is given, the other one is the same, which is a partition of the thickness only by
chance. -/
theorem C52_heights_one (t c h : ℝ) :
    defaultHeights t c (some h) none = (some h, some h) ∧ defaultHeights t c none (some h) = (some h, some h) ∧
      (h + c + h = t ↔ h = (t - c) / 2) :=
  ⟨rfl, rfl, ⟨fun e => by linarith, fun e => by rw [e]; ring⟩⟩

/-- thickness 10, no root face, upper height 2: the lower height becomes 2 -/
example : defaultHeights 10 0 (some 2) none = (some 2, some 2) ∧ (2 : ℝ) + 0 + 2 ≠ 10 := ⟨rfl, by norm_num⟩

/-- **C52** (given heights): they are used as they are, also if they do not fit. -/
theorem C52_heights_given (t c h1 h2 : ℝ) : defaultHeights t c (some h1) (some h2) = (some h1, some h2) := rfl

/-- **C52** (area): for any pieces, the area is the area of the smallest axis parallel rectangle around all points minus the areas of
the pieces. -/
theorem C52_area {pieces : List (List Geo.V)} (hne : ∀ ps ∈ pieces, ps ≠ []) {x1 y1 x2 y2 : ℝ}
    (hin : ∀ ps ∈ pieces, ∀ p ∈ ps, x1 ≤ p 0 ∧ p 0 ≤ x2 ∧ y1 ≤ p 1 ∧ p 1 ≤ y2)
    (hl : ∃ ps ∈ pieces, ∃ p ∈ ps, p 0 = x1) (hb : ∃ ps ∈ pieces, ∃ p ∈ ps, p 1 = y1)
    (hr : ∃ ps ∈ pieces, ∃ p ∈ ps, p 0 = x2) (ht : ∃ ps ∈ pieces, ∃ p ∈ ps, p 1 = y2) :
    crossArea pieces = (x2 - x1) * (y2 - y1) - (pieces.map fun ps => |polygonArea ps|).sum := by
  refine crossArea_eq hne ⟨?_, ?_, ?_, ?_, ?_⟩
  · intro p hp
    obtain ⟨ps, hps, hp⟩ := List.mem_flatten.1 hp
    exact hin ps hps p hp
  · obtain ⟨ps, h1, p, h2, h3⟩ := hl; exact ⟨p, List.mem_flatten.2 ⟨ps, h1, h2⟩, h3⟩
  · obtain ⟨ps, h1, p, h2, h3⟩ := hb; exact ⟨p, List.mem_flatten.2 ⟨ps, h1, h2⟩, h3⟩
  · obtain ⟨ps, h1, p, h2, h3⟩ := hr; exact ⟨p, List.mem_flatten.2 ⟨ps, h1, h2⟩, h3⟩
  · obtain ⟨ps, h1, p, h2, h3⟩ := ht; exact ⟨p, List.mem_flatten.2 ⟨ps, h1, h2⟩, h3⟩

/-! ### areas of the classes -/

theorem ne_of_0 {p q : Geo.V} (h : p 0 ≠ q 0) : p ≠ q := fun e => h (by rw [e])
theorem ne_of_1 {p q : Geo.V} (h : p 1 ≠ q 1) : p ≠ q := fun e => h (by rw [e])

theorem widen_gt {w e : ℝ} (hw : 0 < w) (he : 0 ≤ e) : e < widen w e := by
  unfold widen
  split
  · linarith
  · rename_i h; linarith

/-- **C52** (I groove): gap times thickness. -/
theorem C52_area_I {t b : ℝ} (ht : 0 < t) (hb : 0 ≤ b) : crossSectArea (.I t b) = .ok (b * t) := by
  have hd : Distinct [![-5, 0], ![0, 0], ![0, t], ![-5, t]] :=
    ⟨ne_of_0 (by simp), ne_of_1 (by simpa using ht.ne), ne_of_0 (by simp), trivial⟩
  have := area_symmetric (w := 5) (t := t) (b := b) (by norm_num) hb hd (by simp) (by
    intro p hp
    simp only [List.mem_cons, List.not_mem_nil, or_false] at hp
    rcases hp with rfl | rfl | rfl | rfl <;> simp <;> linarith) (by simp) (by simp)
  refine this.trans ?_
  congr 1
  have : polygonArea [![-5, 0], ![0, 0], ![0, t], ![-5, t]] = 5 * t := by
    rw [area_box]; ring
  rw [this, abs_of_pos (by linarith)]; ring

/-- the area under a V shaped face -/
theorem areaV_polygon {w t s c : ℝ} (hs : 0 ≤ s) (hw : s < w) (hc : 0 ≤ c) (ht : c < t) :
    |polygonArea ([![-w, 0], ![0, 0]] ++ rootFace c ![0, c] ++ [![-s, t], ![-w, t]])| = w * t - s * (t - c) / 2 := by
  have : polygonArea ([![-w, 0], ![0, 0]] ++ rootFace c ![0, c] ++ [![-s, t], ![-w, t]]) = w * t - s * (t - c) / 2 := by
    unfold rootFace
    split
    · simp [polygonArea, closed, cross]; ring
    · rename_i h
      have hc0 : c = 0 := by simpa using h
      subst hc0
      simp [polygonArea, closed, cross]; ring
  rw [this, abs_of_nonneg]
  have h1 : s * (t - c) ≤ w * t := mul_le_mul hw.le (by linarith) (by linarith) (by linarith)
  have h2 : 0 ≤ s * (t - c) := mul_nonneg hs (by linarith)
  linarith

/-- the outline of a V shaped workpiece is made of lines -/
theorem V_outline {w t s c : ℝ} (hw : s < w) (hs : 0 ≤ s) (hc : 0 ≤ c) (ht : c < t) :
    [Kind.line] ++ rootKind c ++ [.line, .line] =
      List.replicate (([![-w, 0], ![0, 0]] ++ rootFace c ![0, c] ++ [![-s, t], ![-w, t]] : List Geo.V).length - 1) .line ∧
    Distinct ([![-w, 0], ![0, 0]] ++ rootFace c ![0, c] ++ [![-s, t], ![-w, t]]) ∧
    (∀ p ∈ ([![-w, 0], ![0, 0]] ++ rootFace c ![0, c] ++ [![-s, t], ![-w, t]] : List Geo.V),
      -w ≤ p 0 ∧ p 0 ≤ 0 ∧ 0 ≤ p 1 ∧ p 1 ≤ t) ∧
    ![-w, 0] ∈ ([![-w, 0], ![0, 0]] ++ rootFace c ![0, c] ++ [![-s, t], ![-w, t]] : List Geo.V) ∧
    ![-w, t] ∈ ([![-w, 0], ![0, 0]] ++ rootFace c ![0, c] ++ [![-s, t], ![-w, t]] : List Geo.V) := by
  unfold rootFace rootKind
  have hw' : -w ≠ 0 := by linarith [hs.trans_lt hw] |> fun h : w > 0 => by linarith
  split
  · rename_i h
    refine ⟨rfl, ⟨ne_of_0 (by simpa using hw'), ne_of_1 (by simpa using Ne.symm h), ne_of_1 (by simpa using ht.ne),
      ne_of_0 (by simpa using hw.ne), trivial⟩, ?_, by simp, by simp⟩
    intro p hp
    simp only [List.cons_append, List.nil_append, List.mem_cons, List.not_mem_nil, or_false] at hp
    rcases hp with rfl | rfl | rfl | rfl | rfl <;> simp
    · exact ⟨by linarith, by linarith⟩
    · exact ⟨by linarith, by linarith⟩
    · exact ⟨by linarith, hc, ht.le⟩
    · exact ⟨hw.le, hs, by linarith⟩
    · exact ⟨by linarith, by linarith⟩
  · rename_i h
    have hc0 : c = 0 := by simpa using h
    subst hc0
    refine ⟨rfl, ⟨ne_of_0 (by simpa using hw'), ne_of_1 (by simpa using ht.ne),
      ne_of_0 (by simpa using hw.ne), trivial⟩, ?_, by simp, by simp⟩
    intro p hp
    simp only [List.cons_append, List.nil_append, List.append_nil, List.mem_cons, List.not_mem_nil, or_false] at hp
    rcases hp with rfl | rfl | rfl | rfl <;> simp
    · exact ⟨by linarith, by linarith⟩
    · exact ⟨by linarith, by linarith⟩
    · exact ⟨hw.le, hs, by linarith⟩
    · exact ⟨by linarith, by linarith⟩

theorem tan_half_nonneg {a : ℝ} (h0 : 0 ≤ a) (h1 : a < Real.pi) : 0 ≤ Real.tan (a / 2) :=
  Real.tan_nonneg_of_nonneg_of_le_pi_div_two (by linarith) (by linarith)

/-- **C52** (V groove): gap times thickness and two triangles. -/
theorem C52_area_V {t alpha c b : ℝ} (hc : 0 ≤ c) (ht : c < t) (hb : 0 ≤ b) (ha : 0 ≤ alpha) (hp : alpha < Real.pi) :
    crossSectArea (.V t alpha c b) = .ok (b * t + Real.tan (alpha / 2) * (t - c) ^ 2) := by
  have hs : 0 ≤ Real.tan (alpha / 2) * (t - c) := mul_nonneg (tan_half_nonneg ha hp) (by linarith)
  unfold crossSectArea profileV
  simp only [max_eq_left hs]
  set s := Real.tan (alpha / 2) * (t - c) with hsdef
  have hw : s < widen 2 s := widen_gt (by norm_num) hs
  set w := widen 2 s with hwdef
  obtain ⟨o1, o2, o3, o4, o5⟩ := V_outline hw hs hc ht
  rw [o1, area_symmetric (w := w) (t := t) (hs.trans hw.le) hb o2 (by simp) o3 o4 o5, areaV_polygon hs hw hc ht]
  congr 1
  rw [hsdef]; ring

/-- **C52** (outline of the V groove): the two workpieces, of which the second one is the mirror image of the first one. The width is
changed only if it does not exceed the extent of the groove face by more than one; then the upper surface is as long as the width that was
asked for. So the upper surface is never shorter than this width or one. -/
theorem C52_width {w t alpha c b : ℝ} (hw : 0 < w) (hc : 0 ≤ c) (ht : c < t) (ha : 0 ≤ alpha) (hp : alpha < Real.pi) :
    ∃ v s : ℝ, s = Real.tan (alpha / 2) * (t - c) ∧ (s + 1 < w → v = w) ∧ (w ≤ s + 1 → v - s = w) ∧ min w 1 ≤ v - s ∧
      ∃ left : List Geo.V, left = ([![-v, 0], ![0, 0]] ++ (if c ≠ 0 then [![0, c]] else []) ++ [![-s, t], ![-v, t]]).map (· + ![-b / 2, 0]) ∧
        profileV w t alpha c b = .ok [lines left, lines (left.map flip)] := by
  have hs : 0 ≤ Real.tan (alpha / 2) * (t - c) := mul_nonneg (tan_half_nonneg ha hp) (by linarith)
  refine ⟨widen w (Real.tan (alpha / 2) * (t - c)), _, rfl, ?_, ?_, ?_, _, rfl, ?_⟩
  · intro h
    unfold widen
    rw [if_neg (by linarith)]
  · intro h
    unfold widen
    rw [if_pos h]; ring
  · unfold widen
    split
    · exact (min_le_left _ _).trans (by linarith)
    · exact (min_le_right _ _).trans (by linarith)
  · obtain ⟨o1, o2, o3, o4, o5⟩ := V_outline (widen_gt hw hs) hs hc ht
    unfold profileV
    simp only [max_eq_left hs]
    rw [o1, translateReflect_lines o2]
    rfl

/-- an angle of 90 degrees and a thickness of 10: the default width of 2 becomes 12 -/
example : ∃ v : ℝ, v = 12 ∧ ∃ left : List Geo.V, left = ([![-v, 0], ![0, 0]] ++ [] ++ [![-10, 10], ![-v, 10]]).map (· + ![-0 / 2, 0]) ∧
    profileV 2 10 (Real.pi / 2) 0 0 = .ok [lines left, lines (left.map flip)] := by
  obtain ⟨v, s, hs, -, h, -, left, hl, hp⟩ := C52_width (w := 2) (t := 10) (alpha := Real.pi / 2) (c := 0) (b := 0) (by norm_num) le_rfl
    (by norm_num) (by positivity) (by linarith [Real.pi_pos])
  have e : Real.pi / 2 / 2 = Real.pi / 4 := by ring
  rw [e, Real.tan_pi_div_four] at hs
  norm_num at hs
  subst hs
  refine ⟨v, by linarith [h (by norm_num)], left, ?_, hp⟩
  rw [hl]; simp

/-- **C52** (HV groove): gap times thickness and one triangle. -/
theorem C52_area_HV {t beta c b : ℝ} (hc : 0 ≤ c) (ht : c < t) (hb : 0 ≤ b) (ha : 0 ≤ beta) (hp : beta < Real.pi / 2) :
    crossSectArea (.HV t beta c b) = .ok (b * t + Real.tan beta * (t - c) ^ 2 / 2) := by
  have hs : 0 ≤ Real.tan beta * (t - c) :=
    mul_nonneg (Real.tan_nonneg_of_nonneg_of_le_pi_div_two ha hp.le) (by linarith)
  unfold crossSectArea profileHV
  simp only [max_eq_left hs]
  set s := Real.tan beta * (t - c) with hsdef
  have hw : s < widen 5 s := widen_gt (by norm_num) hs
  set w := widen 5 s with hwdef
  have hw0 : 0 < w := hs.trans_lt hw
  have ht0 : 0 < t := hc.trans_lt ht
  obtain ⟨o1, o2, o3, o4, o5⟩ := V_outline hw hs hc ht
  rw [o1, halfProfile_lines o2
    ⟨ne_of_0 (by simp; linarith), ne_of_1 (by simpa using ht0.ne), ne_of_0 (by simp; linarith), trivial⟩,
    area_half hw0 hw0.le hb ht0 (by simp) o3 o4, areaV_polygon hs hw hc ht]
  congr 1
  rw [hsdef]; ring

/-- **C52** (no groove face): a root face as high as the workpiece raises. -/
theorem C52_area_V_degenerate {t alpha b : ℝ} (ht : 0 < t) : crossSectArea (.V t alpha t b) = .error .valueError := by
  have : Real.tan (alpha / 2) * (t - t) = 0 := by ring
  unfold crossSectArea profileV
  simp only [this, max_self]
  have hw : (0 : ℝ) < widen 2 0 := widen_gt (by norm_num) le_rfl
  unfold translateReflect shapeOf rootKind rootFace
  simp only [if_pos ht.ne']
  have h1 : mkLine ![-widen 2 0, 0] ![0, 0] = .ok _ := mkLine_of_ne (ne_of_0 (by simpa using hw.ne'))
  have h2 : mkLine ![0, 0] ![0, t] = .ok _ := mkLine_of_ne (ne_of_1 (by simpa using ht.ne))
  simp only [List.cons_append, List.nil_append, helper, h1, h2, neg_zero, mkLine_self, areaFromProfile]

/-- **C52** (no area): front face grooves have none, double sided grooves need both heights. No welding speed is computed then. -/
theorem C52_no_area (t t1 a1 a2 R R2 c b : ℝ) (t2 alpha g e h1 h2 : Option ℝ) (hh : h1 = none ∨ h2 = none) (feed d : ℝ) :
    crossSectArea (.FF t1 t2 alpha g e) = .error .notImplemented ∧
    weldingSpeed (.FF t1 t2 alpha g e) feed d = .error .notImplemented ∧
    ∀ k ∈ [Groove.DV t a1 a2 c h1 h2 b, .DU t a1 a2 R R2 c h1 h2 b, .DHV t a1 a2 c h1 h2 b, .DHU t a1 a2 R R2 c h1 h2 b],
      crossSectArea k = .error .typeError ∧ weldingSpeed k feed d = .error .typeError := by
  refine ⟨rfl, rfl, fun k hk => ?_⟩
  have : crossSectArea k = .error .typeError := by
    simp only [List.mem_cons, List.not_mem_nil, or_false] at hk
    rcases hk with rfl | rfl | rfl | rfl <;> cases h1 <;> cases h2 <;> first | rfl | simp at hh
  exact ⟨this, by rw [weldingSpeed, this]⟩

/-- the workpiece of a double V groove -/
theorem DV_outline {w t su sl c h1 h2 : ℝ} (hu : su < w) (hl : sl < w) (hsu : 0 ≤ su) (hsl : 0 ≤ sl) (hc : 0 ≤ c)
    (hh1 : 0 < h1) (hh2 : 0 < h2) (ht : h1 + c + h2 = t) :
    kindsDV c = List.replicate (([![-w, 0], ![-sl, 0], ![0, h2]] ++ rootFace c ![0, h2 + c] ++ [![-su, t], ![-w, t]] :
        List Geo.V).length - 1) .line ∧
    Distinct ([![-w, 0], ![-sl, 0], ![0, h2]] ++ rootFace c ![0, h2 + c] ++ [![-su, t], ![-w, t]]) ∧
    (∀ p ∈ ([![-w, 0], ![-sl, 0], ![0, h2]] ++ rootFace c ![0, h2 + c] ++ [![-su, t], ![-w, t]] : List Geo.V),
      -w ≤ p 0 ∧ p 0 ≤ 0 ∧ 0 ≤ p 1 ∧ p 1 ≤ t) ∧
    ![-w, 0] ∈ ([![-w, 0], ![-sl, 0], ![0, h2]] ++ rootFace c ![0, h2 + c] ++ [![-su, t], ![-w, t]] : List Geo.V) ∧
    ![-w, t] ∈ ([![-w, 0], ![-sl, 0], ![0, h2]] ++ rootFace c ![0, h2 + c] ++ [![-su, t], ![-w, t]] : List Geo.V) ∧
    |polygonArea ([![-w, 0], ![-sl, 0], ![0, h2]] ++ rootFace c ![0, h2 + c] ++ [![-su, t], ![-w, t]])| =
      w * t - sl * h2 / 2 - su * h1 / 2 := by
  have harea : polygonArea ([![-w, 0], ![-sl, 0], ![0, h2]] ++ rootFace c ![0, h2 + c] ++ [![-su, t], ![-w, t]]) =
      w * t - sl * h2 / 2 - su * h1 / 2 := by
    unfold rootFace
    split
    · simp [polygonArea, closed, cross]; rw [← ht]; ring
    · rename_i h
      have hc0 : c = 0 := by simpa using h
      subst hc0
      simp [polygonArea, closed, cross]; rw [← ht]; ring
  have hpos : 0 ≤ w * t - sl * h2 / 2 - su * h1 / 2 := by
    have e1 : sl * h2 ≤ w * h2 := mul_le_mul_of_nonneg_right hl.le hh2.le
    have e2 : su * h1 ≤ w * h1 := mul_le_mul_of_nonneg_right hu.le hh1.le
    have e3 : 0 ≤ w * c := mul_nonneg (hsu.trans hu.le) hc
    have e4 : 0 ≤ sl * h2 := mul_nonneg hsl hh2.le
    have e5 : 0 ≤ su * h1 := mul_nonneg hsu hh1.le
    rw [← ht]; nlinarith
  rw [harea, abs_of_nonneg hpos]
  unfold kindsDV rootFace rootKind
  split
  · rename_i h
    refine ⟨rfl, ⟨ne_of_0 (by simpa using hl.ne'), ne_of_1 (by simpa using hh2.ne), ne_of_1 (by simpa using h),
      ne_of_1 (by simp; linarith), ne_of_0 (by simpa using hu.ne), trivial⟩, ?_, by simp, by simp, rfl⟩
    intro p hp
    simp only [List.cons_append, List.nil_append, List.mem_cons, List.not_mem_nil, or_false] at hp
    rcases hp with rfl | rfl | rfl | rfl | rfl | rfl <;> simp <;> refine ⟨?_, ?_⟩ <;>
      first | linarith | (refine ⟨?_, ?_⟩ <;> linarith)
  · rename_i h
    have hc0 : c = 0 := by simpa using h
    subst hc0
    refine ⟨rfl, ⟨ne_of_0 (by simpa using hl.ne'), ne_of_1 (by simpa using hh2.ne),
      ne_of_1 (by simp; linarith), ne_of_0 (by simpa using hu.ne), trivial⟩, ?_, by simp, by simp, rfl⟩
    intro p hp
    simp only [List.cons_append, List.nil_append, List.append_nil, List.mem_cons, List.not_mem_nil, or_false] at hp
    rcases hp with rfl | rfl | rfl | rfl | rfl <;> simp <;> refine ⟨?_, ?_⟩ <;>
      first | linarith | (refine ⟨?_, ?_⟩ <;> linarith)

/-- **C52** (double V groove): gap times thickness and four triangles, if the heights are a partition of the thickness. -/
theorem C52_area_DV {t alpha1 alpha2 c h1 h2 b : ℝ} (hc : 0 ≤ c) (hh1 : 0 < h1) (hh2 : 0 < h2) (ht : h1 + c + h2 = t) (hb : 0 ≤ b)
    (ha1 : 0 ≤ alpha1) (hp1 : alpha1 < Real.pi) (ha2 : 0 ≤ alpha2) (hp2 : alpha2 < Real.pi) :
    crossSectArea (.DV t alpha1 alpha2 c (some h1) (some h2) b) =
      .ok (b * t + Real.tan (alpha1 / 2) * h1 ^ 2 + Real.tan (alpha2 / 2) * h2 ^ 2) := by
  have hsu : 0 ≤ Real.tan (alpha1 / 2) * h1 := mul_nonneg (tan_half_nonneg ha1 hp1) hh1.le
  have hsl : 0 ≤ Real.tan (alpha2 / 2) * h2 := mul_nonneg (tan_half_nonneg ha2 hp2) hh2.le
  simp only [crossSectArea, profileDV, pointsDV]
  set su := Real.tan (alpha1 / 2) * h1 with hsud
  set sl := Real.tan (alpha2 / 2) * h2 with hsld
  have he : 0 ≤ max su sl := hsu.trans (le_max_left _ _)
  rw [max_eq_left he]
  have hw : max su sl < widen 5 (max su sl) := widen_gt (by norm_num) he
  set w := widen 5 (max su sl)
  have hu : su < w := (le_max_left _ _).trans_lt hw
  have hl : sl < w := (le_max_right _ _).trans_lt hw
  obtain ⟨o1, o2, o3, o4, o5, o6⟩ := DV_outline hu hl hsu hsl hc hh1 hh2 ht
  rw [o1, area_symmetric (w := w) (t := t) (hsu.trans hu.le) hb o2 (by simp) o3 o4 o5, o6]
  congr 1
  rw [hsud, hsld]; ring

/-- **C52** (double HV groove): gap times thickness and two triangles. The straight workpiece may be narrower than the other one, this
does not matter. -/
theorem C52_area_DHV {t beta1 beta2 c h1 h2 b : ℝ} (hc : 0 ≤ c) (hh1 : 0 < h1) (hh2 : 0 < h2) (ht : h1 + c + h2 = t) (hb : 0 ≤ b)
    (ha1 : 0 ≤ beta1) (hp1 : beta1 < Real.pi / 2) (ha2 : 0 ≤ beta2) (hp2 : beta2 < Real.pi / 2) :
    crossSectArea (.DHV t beta1 beta2 c (some h1) (some h2) b) =
      .ok (b * t + Real.tan beta1 * h1 ^ 2 / 2 + Real.tan beta2 * h2 ^ 2 / 2) := by
  have e1 : beta1 * 2 / 2 = beta1 := by ring
  have e2 : beta2 * 2 / 2 = beta2 := by ring
  have hsu : 0 ≤ Real.tan beta1 * h1 := mul_nonneg (Real.tan_nonneg_of_nonneg_of_le_pi_div_two ha1 hp1.le) hh1.le
  have hsl : 0 ≤ Real.tan beta2 * h2 := mul_nonneg (Real.tan_nonneg_of_nonneg_of_le_pi_div_two ha2 hp2.le) hh2.le
  simp only [crossSectArea, profileDHV, profileDV, pointsDV, e1, e2]
  set su := Real.tan beta1 * h1 with hsud
  set sl := Real.tan beta2 * h2 with hsld
  have he : 0 ≤ max su sl := hsu.trans (le_max_left _ _)
  rw [max_eq_left he]
  have hw : max su sl < widen 5 (max su sl) := widen_gt (by norm_num) he
  set w := widen 5 (max su sl)
  have hu : su < w := (le_max_left _ _).trans_lt hw
  have hl : sl < w := (le_max_right _ _).trans_lt hw
  have ht0 : 0 < t := by linarith
  obtain ⟨o1, o2, o3, o4, o5, o6⟩ := DV_outline hu hl hsu hsl hc hh1 hh2 ht
  rw [o1, translateReflect_lines o2]
  simp only
  unfold straight
  rw [polyline_lines (ps := [![-5 - b / 2, 0], ![-b / 2, 0], ![-b / 2, t], ![-5 - b / 2, t]])
    ⟨ne_of_0 (by simp; linarith), ne_of_1 (by simpa using ht0.ne), ne_of_0 (by simp; linarith), trivial⟩]
  simp only [List.getD_cons_succ, List.getD_cons_zero]
  rw [area_half (by norm_num) (hsu.trans hu.le) hb ht0 (by simp) o3 o4, o6]
  congr 1
  rw [hsud, hsld]; ring

/-- **C52** (VV groove): the area of the profile that is made. The lower groove face ends at the height `h + c`. -/
theorem C52_area_VV {t alpha beta h c b : ℝ} (hc : 0 ≤ c) (hh : c ≤ h) (hh0 : 0 < h) (ht : h + c < t) (hb : 0 ≤ b)
    (ha : 0 ≤ alpha) (hp : alpha < Real.pi) (hb0 : 0 ≤ beta) (hbp : beta < Real.pi / 2) :
    crossSectArea (.VV t alpha beta h c b) =
      .ok (b * t + h * (Real.tan (alpha / 2) * (h - c)) +
        (t - h - c) * (2 * (Real.tan (alpha / 2) * (h - c)) + Real.tan beta * (t - h))) := by
  have hs1 : 0 ≤ Real.tan (alpha / 2) * (h - c) := mul_nonneg (tan_half_nonneg ha hp) (by linarith)
  have hs2 : 0 ≤ Real.tan beta * (t - h) :=
    mul_nonneg (Real.tan_nonneg_of_nonneg_of_le_pi_div_two hb0 hbp.le) (by linarith)
  unfold crossSectArea profileVV
  simp only
  set s1 := Real.tan (alpha / 2) * (h - c) with hs1d
  set s2 := Real.tan beta * (t - h) with hs2d
  rw [max_eq_left (by linarith : (0 : ℝ) ≤ s1 + s2)]
  have hw : s1 + s2 < widen 5 (s1 + s2) := widen_gt (by norm_num) (by linarith)
  set w := widen 5 (s1 + s2)
  have harea : polygonArea ([![-w, 0], ![0, 0]] ++ rootFace c ![0, c] ++ [![-s1, h + c], ![-s1 - s2, t], ![-w, t]]) =
      w * t - (h * s1 + (t - h - c) * (2 * s1 + s2)) / 2 := by
    unfold rootFace
    split
    · simp [polygonArea, closed, cross]; ring
    · rename_i hcc
      have hc0 : c = 0 := by simpa using hcc
      rw [hc0]
      simp [polygonArea, closed, cross]; ring
  have hpos : 0 ≤ w * t - (h * s1 + (t - h - c) * (2 * s1 + s2)) / 2 := by
    have e1 : h * s1 ≤ h * w := mul_le_mul_of_nonneg_left (by linarith) hh0.le
    have e2 : (t - h - c) * (2 * s1 + s2) ≤ (t - h - c) * (2 * w) := mul_le_mul_of_nonneg_left (by linarith) (by linarith)
    have e3 : 0 ≤ w * c := mul_nonneg (by linarith) hc
    have e4 : 0 ≤ h * w := mul_nonneg hh0.le (by linarith)
    nlinarith
  have hkinds : [Kind.line] ++ rootKind c ++ [.line, .line, .line] = List.replicate (([![-w, 0], ![0, 0]] ++ rootFace c ![0, c] ++
      [![-s1, h + c], ![-s1 - s2, t], ![-w, t]] : List Geo.V).length - 1) .line := by
    unfold rootKind rootFace
    split <;> rfl
  have hd : Distinct ([![-w, 0], ![0, 0]] ++ rootFace c ![0, c] ++ [![-s1, h + c], ![-s1 - s2, t], ![-w, t]]) := by
    unfold rootFace
    split
    · rename_i hcc
      exact ⟨ne_of_0 (by simp; linarith), ne_of_1 (by simpa using Ne.symm hcc), ne_of_1 (by simp; linarith),
        ne_of_1 (by simp; linarith), ne_of_0 (by simp; linarith), trivial⟩
    · exact ⟨ne_of_0 (by simp; linarith), ne_of_1 (by simp; linarith),
        ne_of_1 (by simp; linarith), ne_of_0 (by simp; linarith), trivial⟩
  have hin : ∀ p ∈ ([![-w, 0], ![0, 0]] ++ rootFace c ![0, c] ++ [![-s1, h + c], ![-s1 - s2, t], ![-w, t]] : List Geo.V),
      -w ≤ p 0 ∧ p 0 ≤ 0 ∧ 0 ≤ p 1 ∧ p 1 ≤ t := by
    intro p hp
    unfold rootFace at hp
    split at hp
    · simp only [List.cons_append, List.nil_append, List.mem_cons, List.not_mem_nil, or_false] at hp
      rcases hp with rfl | rfl | rfl | rfl | rfl | rfl <;> simp only [Matrix.cons_val_zero, Matrix.cons_val_one] <;>
        refine ⟨?_, ?_, ?_, ?_⟩ <;> linarith
    · simp only [List.cons_append, List.nil_append, List.append_nil, List.mem_cons, List.not_mem_nil, or_false] at hp
      rcases hp with rfl | rfl | rfl | rfl | rfl <;> simp only [Matrix.cons_val_zero, Matrix.cons_val_one] <;>
        refine ⟨?_, ?_, ?_, ?_⟩ <;> linarith
  rw [hkinds, area_symmetric (w := w) (t := t) (by linarith) hb hd (by simp) hin (by simp) (by simp), harea, abs_of_nonneg hpos]
  congr 1
  ring

/-- **C52** (angle of the VV groove): the lower face of the profile leads from `(0, c)` to `(-s, h + c)`, so that its inclination is the
groove angle only without root face. -/
theorem C52_VV_angle {alpha h c : ℝ} (hh : 0 < h) (ha : 0 < alpha) (hp : alpha < Real.pi) :
    (Real.tan (alpha / 2) * (h - c)) / ((h + c) - c) = Real.tan (alpha / 2) ↔ c = 0 := by
  have ht : 0 < Real.tan (alpha / 2) := Real.tan_pos_of_pos_of_lt_pi_div_two (by linarith) (by linarith)
  have e : (h + c) - c = h := by ring
  rw [e, div_eq_iff hh.ne', mul_right_inj' ht.ne']
  constructor
  · intro h'; linarith
  · rintro rfl; ring

/-! ### C53 -/

/-- **C53** (volume): the speed times the area of the groove is the wire feed times the area of the wire. -/
theorem C53_volume {g : Groove} {f d v a : ℝ} (h : weldingSpeed g f d = .ok v) (ha : crossSectArea g = .ok a) :
    v * a = f * (Real.pi * (d / 2) ^ 2) := by
  unfold weldingSpeed at h
  rw [ha] at h
  simp only at h
  split at h
  · cases h
  · rename_i hne
    rw [← Except.ok.inj h, div_mul_cancel₀ _ hne]; ring

/-- **C53** (units): the relation holds in every system of units: with `l` units of length per millimetre and `s` units of time per
second. -/
theorem C53_units {g : Groove} {f d v a l s : ℝ} (h : weldingSpeed g f d = .ok v) (ha : crossSectArea g = .ok a) :
    (v * (l / s)) * (a * l ^ 2) = (f * (l / s)) * (Real.pi * ((d * l) / 2) ^ 2) := by
  have := C53_volume h ha
  linear_combination (l / s * l ^ 2) * this

/-- **C53** (sign): the speed exists and is positive if the groove has a positive area and feed and diameter are positive. -/
theorem C53_positive {g : Groove} {f d a : ℝ} (ha : crossSectArea g = .ok a) (hp : 0 < a) (hf : 0 < f) (hd : 0 < d) :
    ∃ v, weldingSpeed g f d = .ok v ∧ 0 < v := by
  unfold weldingSpeed
  rw [ha]
  simp only [if_neg hp.ne']
  exact ⟨_, rfl, by have := Real.pi_pos; positivity⟩

/-- **C53** (no gap): a groove without area raises. -/
theorem C53_zero {g : Groove} {f d : ℝ} (ha : crossSectArea g = .ok 0) : weldingSpeed g f d = .error .valueError := by
  unfold weldingSpeed
  rw [ha]
  simp

/-- an I groove without gap -/
example (f d : ℝ) : weldingSpeed (.I 10 0) f d = .error .valueError :=
  C53_zero (by rw [C52_area_I (by norm_num) le_rfl]; norm_num)

/-- a V groove of 90 degrees, 10 mm thick, with 2 mm root face and 1 mm gap has an area of 74 mm² -/
theorem areaV_example : crossSectArea (.V 10 (Real.pi / 2) 2 1) = .ok 74 := by
  rw [C52_area_V (by norm_num) (by norm_num) (by norm_num) (by have := Real.pi_pos; linarith) (by have := Real.pi_pos; linarith)]
  have : Real.pi / 2 / 2 = Real.pi / 4 := by ring
  rw [this, Real.tan_pi_div_four]; norm_num

example : ∃ v, weldingSpeed (.V 10 (Real.pi / 2) 2 1) 100 1 = .ok v ∧ 0 < v ∧ v * 74 = 100 * (Real.pi * (1 / 2) ^ 2) := by
  obtain ⟨v, h1, h2⟩ := C53_positive areaV_example (by norm_num) (f := 100) (d := 1) (by norm_num) (by norm_num)
  exact ⟨v, h1, h2, C53_volume h1 areaV_example⟩

/-- **C53** (positive areas of the grooves): the area of V, HV, I, double V and double HV grooves with valid parameters is positive if there
is a gap or a positive angle. Here for the V groove. -/
theorem C53_V {t alpha c b f d : ℝ} (hc : 0 ≤ c) (ht : c < t) (hb : 0 ≤ b) (ha : 0 ≤ alpha) (hp : alpha < Real.pi)
    (hgap : 0 < b ∨ 0 < alpha) (hf : 0 < f) (hd : 0 < d) :
    ∃ v, weldingSpeed (.V t alpha c b) f d = .ok v ∧ 0 < v ∧
      v * (b * t + Real.tan (alpha / 2) * (t - c) ^ 2) = f * (Real.pi * (d / 2) ^ 2) := by
  have harea := C52_area_V hc ht hb ha hp
  have hpos : 0 < b * t + Real.tan (alpha / 2) * (t - c) ^ 2 := by
    have h1 : 0 ≤ Real.tan (alpha / 2) * (t - c) ^ 2 := mul_nonneg (tan_half_nonneg ha hp) (sq_nonneg _)
    have h2 : 0 ≤ b * t := mul_nonneg hb (by linarith)
    rcases hgap with h | h
    · have : 0 < b * t := mul_pos h (by linarith)
      linarith
    · have : 0 < Real.tan (alpha / 2) * (t - c) ^ 2 :=
        mul_pos (Real.tan_pos_of_pos_of_lt_pi_div_two (by linarith) (by linarith)) (pow_pos (by linarith) 2)
      linarith
  obtain ⟨v, h1, h2⟩ := C53_positive harea hpos hf hd
  exact ⟨v, h1, h2, C53_volume h1 harea⟩

end Weldx.Groove
