import Verif.Geometry.UnitsProps
import Verif.Geometry.Shape

/-!
# Units of length in translations, transformations and reflections of shapes (C98)

Modelled: the units in `apply_translation`, `apply_transformation` of segments and in `Shape.apply_translation`,
`apply_transformation`, `apply_reflection` and `apply_reflection_across_line` of weldx/geometry.py 301-380, 850-884, 1090-1179.

Simplifications, in addition to the ones of `Verif.Geometry.Units`:
* a shape is the list of its segments, which are different objects; shared segments and the state after an exception are
  part of the model without units (`Verif.Geometry.Model`),
* the expression of a translated arc is a sum of quantities in different units; its values have the unit of the center, the
  first term of the sum. Only the unit of the result depends on this, not the point.
-/

namespace Weldx.Geo
open Real Matrix

/-- `apply_translation`, `geometry.py` 301-332 and 869-884: sums have the unit of the left operand -/
noncomputable def USeg.translate (v : Qty V) (s : USeg) : USeg := ⟨s.unit, s.mag.translate (v.conv s.unit).mag⟩

/-- `apply_transformation`, `geometry.py` 352-380 (lines) and 850-866 (arcs); products with a matrix keep the unit -/
noncomputable def USeg.transform (m : M) (s : USeg) : Except GErr USeg :=
  match s.mag.transform m with
  | .ok _ x => .ok ⟨s.unit, x⟩
  | .err e _ => .error e

/-- `Shape.apply_translation`, `geometry.py` 1168-1179 -/
noncomputable def applyTranslationU (v : Qty V) (segs : List USeg) : List USeg := segs.map (USeg.translate v)

/-- `Shape.apply_transformation`, `geometry.py` 1090-1100 -/
noncomputable def applyTransformationU (m : M) : List USeg → Except GErr (List USeg)
  | [] => .ok []
  | s :: l => do
    let x ← s.transform m
    let r ← applyTransformationU m l
    .ok (x :: r)

open Classical in
/-- `apply_reflection`, `geometry.py` 1102-1132; `UREG.wraps` hands over the normal and the distance in millimetres -/
noncomputable def applyReflectionU (normal : Qty V) (distance : Qty ℝ) (segs : List USeg) : Except GErr (List USeg) :=
  let n := normal.mm
  if vectorIsClose n 0 then .error .valueError
  else
    let offset : Qty V := ⟨1, distance.mm • ((√(dot n n))⁻¹ • n)⟩
    let moved := applyTranslationU ⟨offset.unit, -offset.mag⟩ segs
    (applyTransformationU (householder n) moved).map (applyTranslationU offset)

open Classical in
/-- `apply_reflection_across_line`, `geometry.py` 1134-1166; `UREG.wraps` hands over the points in millimetres -/
noncomputable def acrossLineU (pStart pEnd : Qty V) (segs : List USeg) : Except GErr (List USeg) :=
  let a := pStart.mm
  let b := pEnd.mm
  if vectorIsClose a b then .error .valueError
  else
    let vec := b - a
    let distance := |a 1 * b 0 - a 0 * b 1| / len vec
    let normal : V := if pointLeftOfLine 0 a b > 0 then ![vec 1, -vec 0] else ![-vec 1, vec 0]
    applyReflectionU ⟨1, normal⟩ ⟨1, distance⟩ segs

/-! ### Specification -/

/-- a segment as the constructors make it, with a positive unit -/
def USeg.Ok (s : USeg) : Prop := 0 < s.unit ∧ s.mag.Valid

/-- `s'` is the image of `s`: points are mapped by `f` (in millimetres), the length is the same -/
def USeg.Image (f : V → V) (s s' : USeg) : Prop :=
  s'.Ok ∧ (∀ t, (s'.point t).mm = f (s.point t).mm) ∧ s'.length.mm = s.length.mm

/-- two descriptions of the same segment by the same defining points (in millimetres) and the same winding -/
def USeg.Twin (s s' : USeg) : Prop :=
  match s.mag, s'.mag with
  | .line a b _, .line a' b' _ => s.unit • a = s'.unit • a' ∧ s.unit • b = s'.unit • b'
  | .arc x, .arc x' => s.unit • x.pStart = s'.unit • x'.pStart ∧ s.unit • x.pEnd = s'.unit • x'.pEnd ∧
      s.unit • x.pCenter = s'.unit • x'.pCenter ∧ x.sign = x'.sign
  | _, _ => False

/-! ### segments -/

/-- **C98.** Translating a segment by a vector in whatever unit translates its points, keeps the length and the unit. -/
theorem C98_translate (v : Qty V) {s : USeg} (h : s.Ok) :
    (s.translate v).unit = s.unit ∧ USeg.Image (· + v.mm) s (s.translate v) := by
  refine ⟨rfl, ⟨h.1, Seg.translate_valid _ h.2⟩, fun t => ?_, ?_⟩
  · show s.unit • (s.mag.translate (v.conv s.unit).mag).point t = s.unit • s.mag.point t + v.mm
    rw [Seg.translate_point, smul_add, conv_mm h.1.ne']
  · show s.unit • (s.mag.translate _).length = s.unit • s.mag.length
    rw [Seg.translate_length]

/-- **C98.** Applying an isometry to a segment in whatever unit is never refused, maps the points, keeps the length and the
unit. -/
theorem C98_isometry {m : M} (hm : IsIso m) {s : USeg} (h : s.Ok) :
    ∃ s', s.transform m = .ok s' ∧ s'.unit = s.unit ∧ USeg.Image (m *ᵥ ·) s s' := by
  obtain ⟨x, h1, h2, h3, h4⟩ := Seg.transform_iso hm h.2
  refine ⟨⟨s.unit, x⟩, by unfold USeg.transform; rw [h1], rfl, ⟨h.1, h2⟩, fun t => ?_, ?_⟩
  · show s.unit • x.point t = m *ᵥ (s.unit • s.mag.point t)
    rw [h4, Matrix.mulVec_smul]
  · show s.unit • x.length = s.unit • s.mag.length
    rw [h3]

theorem Seg.transform_ok {m : M} {s x : Seg} (h : s.transform m = .ok () x) (hs : s.Valid) : x.Valid ∧
    match s, x with
    | .line a b _, .line a' b' _ => a' = m *ᵥ a ∧ b' = m *ᵥ b
    | .arc y, .arc y' => y'.pStart = m *ᵥ y.pStart ∧ y'.pEnd = m *ᵥ y.pEnd ∧ y'.pCenter = m *ᵥ y.pCenter ∧
        ∃ d, reflectionSign m = some d ∧ y'.sign = y.sign * d
    | _, _ => False := by
  cases s with
  | line a b l =>
    unfold Seg.transform at h
    simp only at h
    split at h
    · cases h
    · rename_i hl; cases h; exact ⟨⟨rfl, not_le.1 hl⟩, rfl, rfl⟩
  | arc y =>
    unfold Seg.transform at h
    simp only at h
    cases hd : reflectionSign m with
    | none => rw [hd] at h; cases h
    | some d =>
      rw [hd] at h
      simp only at h
      have hs' : y.Valid := hs
      have hd' : d = 1 ∨ d = -1 := by
        unfold reflectionSign at hd
        simp only at hd
        split at hd
        · cases hd
        · rename_i h0
          cases hd
          rcases sideOf_npSign m.det with ⟨_, e⟩ | ⟨_, e⟩ | ⟨_, e⟩
          · exact .inl e
          · exact absurd e h0
          · exact .inr e
      split at h
      · rename_i q z hz
        cases h
        have hsg : y.sign * d = 1 ∨ y.sign * d = -1 := by
          rcases hs'.sign with e | e <;> rcases hd' with e' | e' <;> simp [e, e']
        obtain ⟨v1, v2, v3, v4, v5⟩ := Arc.update_ok (by exact hsg) hz
        exact ⟨v1, v2, v3, v4, d, rfl, v5⟩
      · cases h

theorem valid_twin {s s' : USeg} (h : s.Ok) (h' : s'.Ok) (ht : s.Twin s') : s.Same s' := by
  obtain ⟨u, x⟩ := s
  obtain ⟨u', x'⟩ := s'
  obtain ⟨hu, hv⟩ := h
  obtain ⟨hu', hv'⟩ := h'
  dsimp only at hu hu' hv hv'
  unfold USeg.Twin at ht
  cases x with
  | line a b l =>
    cases x' with
    | arc y => exact absurd ht (by simp)
    | line a' b' l' =>
      dsimp only at ht
      obtain ⟨e1, e2⟩ := ht
      have hl : l = len (b - a) := hv.1
      have hl' : l' = len (b' - a') := hv'.1
      refine ⟨fun t => ?_, ?_⟩
      · show u • (a + clip t 0 1 • (b - a)) = u' • (a' + clip t 0 1 • (b' - a'))
        rw [smul_add, smul_add, smul_comm u, smul_comm u', smul_sub u, smul_sub u', e1, e2]
      · show u * l = u' * l'
        have hd : u • (b - a) = u' • (b' - a') := by rw [smul_sub, smul_sub, e1, e2]
        have := congrArg len hd
        rw [hl, hl']
        rwa [len_smul, len_smul, abs_of_pos hu, abs_of_pos hu'] at this
  | arc y =>
    cases x' with
    | line a b l => exact absurd ht (by simp)
    | arc y' =>
      dsimp only at ht
      obtain ⟨e1, e2, e3, e4⟩ := ht
      have hy : y.Valid := hv
      have hy' : y'.Valid := hv'
      have ha := hy.angle
      have ha' := hy'.angle
      rw [← calcAngle_smul hu] at ha
      rw [← calcAngle_smul hu', ← e1, ← e2, ← e3, ← e4, ha] at ha'
      have hc : y.maxCoord = y'.maxCoord := by injection ha'
      have hr : u • (y.pStart - y.pCenter) = u' • (y'.pStart - y'.pCenter) := by rw [smul_sub, smul_sub, e1, e3]
      refine ⟨fun t => ?_, ?_⟩
      · show u • y.point (t * y.maxCoord) = u' • y'.point (t * y'.maxCoord)
        rw [hy.pos_point, hy'.pos_point, smul_add, smul_add, ← rot_smul, ← rot_smul, hr, e3, e4, hc]
      · show u * y.length = u' * y'.length
        rw [hy.length, hy'.length, hy.radius, hy'.radius, ← mul_assoc, ← mul_assoc, hc]
        congr 1
        have := congrArg len hr
        rwa [len_smul, len_smul, abs_of_pos hu, abs_of_pos hu'] at this

/-- **C98.** Two descriptions of the same segment in different units stay descriptions of the same segment under every
translation and, as far as both are accepted, under every matrix. -/
theorem C98_twin {s s' : USeg} (h : s.Ok) (h' : s'.Ok) (ht : s.Twin s') :
    s.Same s' ∧
    (∀ v v' : Qty V, v.mm = v'.mm → (s.translate v).Twin (s'.translate v')) ∧
    ∀ (m : M) (x x' : USeg), s.transform m = .ok x → s'.transform m = .ok x' → x.Twin x' ∧ x.Same x' := by
  refine ⟨valid_twin h h' ht, fun v v' hv => ?_, fun m x x' hx hx' => ?_⟩
  · obtain ⟨u, x⟩ := s
    obtain ⟨u', x'⟩ := s'
    have hu : u ≠ 0 := h.1.ne'
    have hu' : u' ≠ 0 := h'.1.ne'
    unfold USeg.Twin at ht ⊢
    cases x <;> cases x' <;> dsimp only [USeg.translate, Seg.translate] at ht ⊢
    · simp only [smul_add, conv_mm hu, conv_mm hu', ht.1, ht.2, hv, and_self]
    · simp only [smul_add, conv_mm hu, conv_mm hu', ht.1, ht.2.1, ht.2.2.1, ht.2.2.2, hv, and_self]
  · unfold USeg.transform at hx hx'
    cases hy : s.mag.transform m with
    | err e y => rw [hy] at hx; cases hx
    | ok q y =>
      cases hy' : s'.mag.transform m with
      | err e y' => rw [hy'] at hx'; cases hx'
      | ok q' y' =>
        rw [hy] at hx
        rw [hy'] at hx'
        cases hx
        cases hx'
        obtain ⟨v1, w1⟩ := Seg.transform_ok hy h.2
        obtain ⟨v2, w2⟩ := Seg.transform_ok hy' h'.2
        have key : USeg.Twin ⟨s.unit, y⟩ ⟨s'.unit, y'⟩ := by
          obtain ⟨u, x⟩ := s
          obtain ⟨u', x'⟩ := s'
          unfold USeg.Twin at ht ⊢
          cases x <;> cases x' <;> cases y <;> cases y' <;> dsimp only at ht w1 w2 ⊢
          all_goals first
            | exact ht.elim
            | exact w1.elim
            | exact w2.elim
            | skip
          · rw [w1.1, w1.2, w2.1, w2.2, ← Matrix.mulVec_smul, ← Matrix.mulVec_smul, ← Matrix.mulVec_smul, ← Matrix.mulVec_smul,
              ht.1, ht.2]
            exact ⟨rfl, rfl⟩
          · obtain ⟨a1, a2, a3, d, hd, a4⟩ := w1
            obtain ⟨b1, b2, b3, d', hd', b4⟩ := w2
            rw [hd] at hd'
            cases hd'
            rw [a1, a2, a3, a4, b1, b2, b3, b4]
            simp only [← Matrix.mulVec_smul]
            rw [ht.1, ht.2.1, ht.2.2.1, ht.2.2.2]
            exact ⟨rfl, rfl, rfl, rfl⟩
        exact ⟨key, valid_twin ⟨h.1, v1⟩ ⟨h'.1, v2⟩ key⟩

/-- **C98.** Which lines a matrix can be applied to does not depend on the unit: those whose direction is not mapped to zero. -/
theorem C98_transform_line {u : ℝ} (hu : 0 < u) (a b : V) (l : ℝ) (m : M) :
    (∃ x, USeg.transform m ⟨u, .line a b l⟩ = .ok x) ↔ m *ᵥ (u • b - u • a) ≠ 0 := by
  have e : m *ᵥ (u • b - u • a) = 0 ↔ len (m *ᵥ b - m *ᵥ a) ≤ 0 := by
    rw [← smul_sub, Matrix.mulVec_smul, smul_eq_zero, Matrix.mulVec_sub]
    constructor
    · rintro (h | h)
      · exact absurd h hu.ne'
      · rw [h]; exact (len_eq_zero.2 rfl).le
    · intro h; exact .inr (len_eq_zero.1 (le_antisymm h (len_nonneg _)))
  rw [Ne, e]
  unfold USeg.transform Seg.transform
  dsimp only
  by_cases h : len (m *ᵥ b - m *ᵥ a) ≤ 0
  · rw [if_pos h]
    exact ⟨fun ⟨x, hx⟩ => (by cases hx), fun hn => absurd h hn⟩
  · rw [if_neg h]
    exact ⟨fun _ => h, fun _ => ⟨_, rfl⟩⟩

/-! ### shapes -/

theorem image_comp {f g : V → V} {s s' s'' : USeg} (h : USeg.Image f s s') (h' : USeg.Image g s' s'') :
    USeg.Image (g ∘ f) s s'' :=
  ⟨h'.1, fun t => by rw [h'.2.1, h.2.1]; rfl, by rw [h'.2.2, h.2.2]⟩

theorem images_comp {f g : V → V} : ∀ {l l' l'' : List USeg}, List.Forall₂ (USeg.Image f) l l' →
    List.Forall₂ (USeg.Image g) l' l'' → List.Forall₂ (USeg.Image (g ∘ f)) l l''
  | _, _, _, .nil, .nil => .nil
  | _, _, _, .cons h t, .cons h' t' => .cons (image_comp h h') (images_comp t t')

theorem images_ok {f : V → V} : ∀ {l l' : List USeg}, List.Forall₂ (USeg.Image f) l l' → ∀ s ∈ l', s.Ok
  | _, _, .nil, s, h => by cases h
  | _, _, .cons h t, s, hs => by
    rcases List.mem_cons.1 hs with rfl | hs
    · exact h.1
    · exact images_ok t s hs

/-- **C98.** Translating a shape by a vector in whatever unit translates every segment. -/
theorem C98_shape_translate (v : Qty V) : ∀ {l : List USeg}, (∀ s ∈ l, s.Ok) →
    List.Forall₂ (USeg.Image (· + v.mm)) l (applyTranslationU v l)
  | [], _ => .nil
  | s :: l, h => .cons (C98_translate v (h s (by simp))).2 (C98_shape_translate v fun x hx => h x (by simp [hx]))

/-- **C98.** Applying an isometry to a shape whose segments have whatever units maps every segment. -/
theorem C98_shape_isometry {m : M} (hm : IsIso m) : ∀ {l : List USeg}, (∀ s ∈ l, s.Ok) →
    ∃ l', applyTransformationU m l = .ok l' ∧ List.Forall₂ (USeg.Image (m *ᵥ ·)) l l'
  | [], _ => ⟨[], rfl, .nil⟩
  | s :: l, h => by
    obtain ⟨s', h1, -, h2⟩ := C98_isometry hm (h s (by simp))
    obtain ⟨l', h3, h4⟩ := C98_shape_isometry hm (l := l) fun x hx => h x (by simp [hx])
    exact ⟨s' :: l', by unfold applyTransformationU; rw [h1, h3]; rfl, .cons h2 h4⟩

theorem reflectU_moves {normal : Qty V} (hn : ¬ vectorIsClose normal.mm 0) (d : Qty ℝ) {l : List USeg} (h : ∀ s ∈ l, s.Ok) :
    ∃ l', applyReflectionU normal d l = .ok l' ∧ List.Forall₂ (USeg.Image (reflect normal.mm d.mm)) l l' := by
  unfold applyReflectionU
  dsimp only
  rw [if_neg hn]
  set o : V := d.mm • ((√(dot normal.mm normal.mm))⁻¹ • normal.mm) with ho
  have h1 := C98_shape_translate ⟨1, -o⟩ h
  obtain ⟨l2, e2, h2⟩ := C98_shape_isometry (householder_iso (not_close_ne hn)) (images_ok h1)
  have h3 := C98_shape_translate ⟨1, o⟩ (images_ok h2)
  refine ⟨applyTranslationU ⟨1, o⟩ l2, by rw [e2]; rfl, ?_⟩
  have := images_comp (images_comp h1 h2) h3
  convert this using 2
  funext p
  simp [reflect, Qty.mm, ho]

/-- **C98.** Reflecting a shape with a normal and a distance in whatever units, whatever the units of its segments are: every
point is mapped to its mirror image with respect to the line (all in millimetres), lengths are kept. A normal that is shorter
than 1e-9 mm in both components is refused. -/
theorem C98_reflection {normal : Qty V} {d : Qty ℝ} {l : List USeg} (h : ∀ s ∈ l, s.Ok) :
    (vectorIsClose normal.mm 0 → applyReflectionU normal d l = .error .valueError) ∧
    (¬ vectorIsClose normal.mm 0 → ∃ l', applyReflectionU normal d l = .ok l' ∧
      List.Forall₂ (fun s s' => s'.Ok ∧ s'.length.mm = s.length.mm ∧
        ∀ t, Mirror ((d.mm / len normal.mm) • normal.mm) normal.mm (s.point t).mm (s'.point t).mm) l l') := by
  refine ⟨fun hc => by unfold applyReflectionU; dsimp only; rw [if_pos hc], fun hn => ?_⟩
  obtain ⟨l', h1, h2⟩ := reflectU_moves hn d h
  refine ⟨l', h1, h2.imp fun s s' hi => ⟨hi.1, hi.2.2, fun t => ?_⟩⟩
  rw [hi.2.1]
  have := reflect_mirror (not_close_ne hn) d.mm (s.point t).mm
  rwa [smul_smul, ← div_eq_mul_inv] at this

/-- the reflection that the code performs for a line is the one at this line -/
theorem across_mirror {a b : V} (hab : ¬ vectorIsClose a b) (p : V) :
    let n : V := if pointLeftOfLine 0 a b > 0 then ![(b - a) 1, -(b - a) 0] else ![-(b - a) 1, (b - a) 0]
    ¬ vectorIsClose n 0 ∧ Mirror a (turn (b - a)) p (reflect n (|a 1 * b 0 - a 0 * b 1| / len (b - a)) p) := by
  intro n
  set st : ShState := ⟨fun _ => .line p (p + ![1, 0]) 1, [0]⟩ with hst
  have hg : st.Good 0 := by
    refine ⟨by simp [hst], fun i _ => ⟨?_, one_pos⟩, ?_⟩
    · rw [add_sub_cancel_left, len_x 1 (by norm_num)]
    · exact linked_one _
  obtain ⟨s', h1, -, -, h2⟩ := C48_across_line hab hg
  unfold applyReflectionAcrossLine at h1
  rw [if_neg hab] at h1
  have hc : ¬ vectorIsClose n 0 := by
    intro hc
    unfold applyReflection at h1
    rw [if_pos hc] at h1
    cases h1
  refine ⟨hc, ?_⟩
  obtain ⟨s'', e1, e2, -⟩ := reflect_moves hc (|a 1 * b 0 - a 0 * b 1| / len (b - a)) hg
  have : s' = s'' := by
    have := h1.symm.trans e1
    injection this
  subst this
  have hm := h2 0 (by simp [hst]) 0
  rw [e2.2 0 (by simp [hst]) 0] at hm
  simpa [hst, Seg.point, clip_zero] using hm

/-- **C98.** Reflecting a shape across the line through two points in whatever units, whatever the units of its segments are:
every point is mapped to its mirror image with respect to this line (all in millimetres), lengths are kept. -/
theorem C98_across_line {a b : Qty V} {l : List USeg} (h : ∀ s ∈ l, s.Ok) :
    (vectorIsClose a.mm b.mm → acrossLineU a b l = .error .valueError) ∧
    (¬ vectorIsClose a.mm b.mm → ∃ l', acrossLineU a b l = .ok l' ∧
      List.Forall₂ (fun s s' => s'.Ok ∧ s'.length.mm = s.length.mm ∧
        ∀ t, Mirror a.mm (turn (b.mm - a.mm)) (s.point t).mm (s'.point t).mm) l l') := by
  refine ⟨fun hc => by unfold acrossLineU; dsimp only; rw [if_pos hc], fun hn => ?_⟩
  unfold acrossLineU
  dsimp only
  rw [if_neg hn]
  have hc := (across_mirror hn 0).1
  have one : ∀ v : V, (Qty.mk 1 v).mm = v := fun v => by simp [Qty.mm]
  have one' : ∀ v : ℝ, (Qty.mk 1 v).mm = v := fun v => by simp [Qty.mm]
  obtain ⟨l', h1, h2⟩ := reflectU_moves (normal := ⟨1, _⟩) (by rw [one]; exact hc) ⟨1, _⟩ h
  refine ⟨l', h1, h2.imp fun s s' hi => ⟨hi.1, hi.2.2, fun t => ?_⟩⟩
  rw [hi.2.1, one, one']
  exact (across_mirror hn _).2

/-- **C98 (counterexample).** Whether a matrix can be applied to an arc depends on the unit in which the arc was described:
the quarter of the unit circle in millimetres can be stretched by 1 + 5e-9 in one direction, the same arc in micrometres
cannot. -/
theorem C98_transform_counterexample : ∃ (m : M) (s s' : USeg), s.Ok ∧ s'.Ok ∧ s.Twin s' ∧
    (∃ x, s.transform m = .ok x) ∧ ¬ ∃ x, s'.transform m = .ok x := by
  have hy : ∀ y : ℝ, 0 ≤ y → len ![0, y] = y := by
    intro y h
    rw [len]
    have : dot ![0, y] ![0, y] = y * y := by simp [dot]
    rw [this, Real.sqrt_mul_self h]
  -- arcs with the radius `r`
  have mk : ∀ r : ℝ, 0 < r → ∃ x : Arc, mkArc ![r, 0] ![0, r] 0 true = .ok x := by
    intro r hr
    refine C51_accepted.2 ⟨?_, ?_, ?_, ?_⟩
    · intro h; have := congrFun h 0; simp at this; exact hr.ne' this
    · intro h; have := congrFun h 1; simp at this; exact hr.ne' this
    · rintro ⟨c, c0, h⟩
      have := congrFun h 0
      simp at this
      rcases this with h | h
      · exact c0.ne' h
      · exact hr.ne' h
    · rw [sub_zero, sub_zero, hy r hr.le, len_x r hr.le, sub_self, abs_zero]; norm_num
  set m : M := !![1, 0; 0, 1 + 5 / 1000000000] with hm
  have hdet : m.det = 1 + 5 / 1000000000 := by rw [hm, Matrix.det_fin_two]; simp
  have hsign : reflectionSign m = some 1 := by
    unfold reflectionSign
    have : npSign m.det = 1 := npSign_eq_one.2 (by rw [hdet]; norm_num)
    simp [this]
  have e1 : ∀ r : ℝ, m *ᵥ ![r, 0] = ![r, 0] := by
    intro r; rw [mulVec_two]; simp [hm]
  have e2 : ∀ r : ℝ, m *ᵥ ![0, r] = ![0, (1 + 5 / 1000000000) * r] := by
    intro r; rw [mulVec_two]; simp [hm]
  -- the transformation is the constructor for the new points
  have tr : ∀ (r : ℝ) (x : Arc), mkArc ![r, 0] ![0, r] 0 true = .ok x →
      ((∃ y, Seg.transform m (.arc x) = .ok () y) ↔ ∃ y, mkArc ![r, 0] ![0, (1 + 5 / 1000000000) * r] 0 true = .ok y) := by
    intro r x hx
    obtain ⟨hv, h1, h2, h3, h4⟩ := mkArc_ok hx
    unfold Seg.transform mkArc
    dsimp only
    rw [hsign]
    dsimp only
    have hs : x.sign = 1 := by rw [h4]; rfl
    set p : Arc := { x with
      pStart := m *ᵥ x.pStart
      pEnd := m *ᵥ x.pEnd
      pCenter := m *ᵥ x.pCenter
      sign := x.sign * 1 } with hp
    set q : Arc := ⟨![r, 0], ![0, (1 + 5 / 1000000000) * r], 0, if true = true then 1 else -1, 0, 0, 0, 0, 0, 0, 0⟩ with hq
    have a1 : p.pStart = q.pStart := by simp only [hp, hq, h1, e1]
    have a2 : p.pEnd = q.pEnd := by simp only [hp, hq, h2, e2]
    have a3 : p.pCenter = q.pCenter := by simp only [hp, hq, h3, Matrix.mulVec_zero]
    have a4 : p.sign = q.sign := by simp [hp, hq, hs]
    cases hc : calcAngle q.pStart q.pEnd q.pCenter q.sign with
    | error e =>
      have u1 : ∀ z : Arc, calcAngle z.pStart z.pEnd z.pCenter z.sign = .error e → ∃ w, Arc.update z = .err e w := by
        intro z hz
        unfold Arc.update
        simp only [Py.get_bind, hz, Py.lift_error_bind]
        exact ⟨_, rfl⟩
      obtain ⟨w, hw⟩ := u1 q hc
      obtain ⟨w', hw'⟩ := u1 p (by rw [a1, a2, a3, a4]; exact hc)
      rw [hw, hw']
      exact ⟨fun ⟨y, hy⟩ => (by cases hy), fun ⟨y, hy⟩ => (by cases hy)⟩
    | ok t =>
      obtain ⟨z, -, -, -, -, -, z6, -, -, -, -, z11⟩ := q.update_eq hc
      obtain ⟨z', -, -, -, -, -, z6', -, -, -, -, z11'⟩ := p.update_eq (t := t) (by rw [a1, a2, a3, a4]; exact hc)
      rw [z11, z11', z6, z6', a1, a2, a3]
      by_cases c1 : len (q.pStart - q.pCenter) * t ≤ 0
      · simp only [if_pos c1]
        exact ⟨fun ⟨y, hy⟩ => (by cases hy), fun ⟨y, hy⟩ => (by cases hy)⟩
      · simp only [if_neg c1]
        by_cases c2 : |len (q.pEnd - q.pCenter) - len (q.pStart - q.pCenter)| ≤ 1 / 100000000
        · simp only [if_pos c2]
          exact ⟨fun _ => ⟨_, rfl⟩, fun _ => ⟨_, rfl⟩⟩
        · simp only [if_neg c2]
          exact ⟨fun ⟨y, hy⟩ => (by cases hy), fun ⟨y, hy⟩ => (by cases hy)⟩
  obtain ⟨x, hx⟩ := mk 1 one_pos
  obtain ⟨x', hx'⟩ := mk 1000 (by norm_num)
  obtain ⟨hv, h1, h2, h3, h4⟩ := mkArc_ok hx
  obtain ⟨hv', h1', h2', h3', h4'⟩ := mkArc_ok hx'
  have back : ∀ (u : ℝ) (z : Seg), (∃ y, USeg.transform m ⟨u, z⟩ = .ok y) ↔ ∃ y, Seg.transform m z = .ok () y := by
    intro u z
    unfold USeg.transform
    dsimp only
    cases hz : z.transform m with
    | ok q y => exact ⟨fun _ => ⟨_, rfl⟩, fun _ => ⟨_, rfl⟩⟩
    | err e y => exact ⟨fun ⟨y, hy⟩ => (by cases hy), fun ⟨y, hy⟩ => (by cases hy)⟩
  refine ⟨m, ⟨1, .arc x⟩, ⟨1 / 1000, .arc x'⟩, ⟨one_pos, hv⟩, ⟨by norm_num, hv'⟩, ?_, ?_, ?_⟩
  · unfold USeg.Twin
    dsimp only
    rw [h1, h2, h3, h4, h1', h2', h3', h4']
    refine ⟨?_, ?_, ?_, rfl⟩
    · funext i; fin_cases i <;> norm_num
    · funext i; fin_cases i <;> norm_num
    · simp
  · rw [back, tr 1 x hx]
    refine C51_accepted.2 ⟨?_, ?_, ?_, ?_⟩
    · intro h; have := congrFun h 0; norm_num at this
    · intro h; have := congrFun h 1; norm_num at this
    · rintro ⟨c, c0, h⟩
      have := congrFun h 0
      simp at this
      exact c0.ne this
    · rw [sub_zero, sub_zero, hy _ (by norm_num), len_x 1 (by norm_num), abs_of_nonneg (by norm_num)]; norm_num
  · rw [back, tr 1000 x' hx']
    intro hex
    have := (C51_accepted.1 hex).2.2.2
    rw [sub_zero, sub_zero, hy _ (by norm_num), len_x 1000 (by norm_num), abs_of_nonneg (by norm_num)] at this
    norm_num at this

/-! ### the hypotheses can be met -/

theorem lineCm_ok : lineCm.Ok := by
  refine ⟨by norm_num [lineCm], ?_, by norm_num⟩
  have : (![2, 0] - ![1, 0] : V) = ![1, 0] := by funext i; fin_cases i <;> norm_num
  rw [this, len_x 1 (by norm_num)]

/-- the line from 10 mm to 20 mm, given in centimetres, reflected at the y-axis with a normal in metres -/
example : ∃ l', applyReflectionU ⟨1000, ![1, 0]⟩ ⟨1000, 0⟩ [lineCm] = .ok l' ∧ l'.length = 1 := by
  have hn : ¬ vectorIsClose (Qty.mm (α := V) ⟨1000, ![1, 0]⟩) 0 := by
    rintro ⟨h, -⟩
    norm_num [Qty.mm, isclose] at h
  obtain ⟨l', h1, h2⟩ := (C98_reflection (normal := ⟨1000, ![1, 0]⟩) (d := ⟨1000, 0⟩) (l := [lineCm])
    (by intro s hs; rw [List.mem_singleton.1 hs]; exact lineCm_ok)).2 hn
  exact ⟨l', h1, by rw [← h2.length_eq]; rfl⟩

end Weldx.Geo
