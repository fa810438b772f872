import Verif.Groove.Model

/-!
# Polygons made of line segments: bounds and areas
-/

namespace Weldx.Groove

open Weldx.Geo

/-! ### bounds -/

theorem minOf_eq {l : List ℝ} {m : ℝ} (hm : m ∈ l) (hl : ∀ x ∈ l, m ≤ x) : minOf l = m := by
  induction l generalizing m with
  | nil => simp at hm
  | cons a r ih =>
    cases r with
    | nil => simp only [List.mem_singleton] at hm; rw [hm]; rfl
    | cons b r =>
      rw [minOf]
      rcases List.mem_cons.1 hm with rfl | hm
      · apply min_eq_left
        -- the minimum of the rest is one of its members
        have : ∀ l : List ℝ, l ≠ [] → minOf l ∈ l := by
          intro l
          induction l with
          | nil => simp
          | cons a r ih =>
            intro _
            cases r with
            | nil => simp [minOf]
            | cons b r =>
              rw [minOf]
              rcases min_choice a (minOf (b :: r)) with h | h
              · rw [h]; exact List.mem_cons_self
              · rw [h]; exact List.mem_cons_of_mem _ (ih (by simp))
        exact hl _ (List.mem_cons_of_mem _ (this _ (by simp)))
      · rw [ih hm fun x hx => hl x (List.mem_cons_of_mem _ hx)]
        exact min_eq_right (hl a List.mem_cons_self)

theorem minOf_mem {l : List ℝ} (h : l ≠ []) : minOf l ∈ l := by
  induction l with
  | nil => exact absurd rfl h
  | cons a r ih =>
    cases r with
    | nil => simp [minOf]
    | cons b r =>
      rw [minOf]
      rcases min_choice a (minOf (b :: r)) with h | h
      · rw [h]; exact List.mem_cons_self
      · rw [h]; exact List.mem_cons_of_mem _ (ih (by simp))

theorem maxOf_mem {l : List ℝ} (h : l ≠ []) : maxOf l ∈ l := by
  induction l with
  | nil => exact absurd rfl h
  | cons a r ih =>
    cases r with
    | nil => simp [maxOf]
    | cons b r =>
      rw [maxOf]
      rcases max_choice a (maxOf (b :: r)) with h | h
      · rw [h]; exact List.mem_cons_self
      · rw [h]; exact List.mem_cons_of_mem _ (ih (by simp))

theorem minOf_le {l : List ℝ} {x : ℝ} (h : x ∈ l) : minOf l ≤ x := by
  induction l with
  | nil => simp at h
  | cons a r ih =>
    cases r with
    | nil => simp only [List.mem_singleton] at h; rw [h]; exact le_rfl
    | cons b r =>
      rw [minOf]
      rcases List.mem_cons.1 h with rfl | h
      · exact min_le_left _ _
      · exact (min_le_right _ _).trans (ih h)

theorem le_maxOf {l : List ℝ} {x : ℝ} (h : x ∈ l) : x ≤ maxOf l := by
  induction l with
  | nil => simp at h
  | cons a r ih =>
    cases r with
    | nil => simp only [List.mem_singleton] at h; rw [h]; exact le_rfl
    | cons b r =>
      rw [maxOf]
      rcases List.mem_cons.1 h with rfl | h
      · exact le_max_left _ _
      · exact (ih h).trans (le_max_right _ _)

theorem maxOf_eq {l : List ℝ} {m : ℝ} (hm : m ∈ l) (hl : ∀ x ∈ l, x ≤ m) : maxOf l = m :=
  le_antisymm (hl _ (maxOf_mem (List.ne_nil_of_mem hm))) (le_maxOf hm)

/-- the box of a set of points -/
structure Box (ps : List Geo.V) (x1 y1 x2 y2 : ℝ) : Prop where
  inside : ∀ p ∈ ps, x1 ≤ p 0 ∧ p 0 ≤ x2 ∧ y1 ≤ p 1 ∧ p 1 ≤ y2
  left : ∃ p ∈ ps, p 0 = x1
  bottom : ∃ p ∈ ps, p 1 = y1
  right : ∃ p ∈ ps, p 0 = x2
  top : ∃ p ∈ ps, p 1 = y2

theorem Box.bounds {ps : List Geo.V} {x1 y1 x2 y2 : ℝ} (h : Box ps x1 y1 x2 y2) :
    bounds ps = (![x1, y1], ![x2, y2]) := by
  obtain ⟨a, ha, rfl⟩ := h.left
  obtain ⟨b, hb, rfl⟩ := h.bottom
  obtain ⟨c, hc, rfl⟩ := h.right
  obtain ⟨d, hd, rfl⟩ := h.top
  unfold Groove.bounds
  rw [minOf_eq (List.mem_map_of_mem ha) (by
      intro x hx; obtain ⟨p, hp, rfl⟩ := List.mem_map.1 hx; exact (h.inside p hp).1),
    minOf_eq (List.mem_map_of_mem hb) (by
      intro x hx; obtain ⟨p, hp, rfl⟩ := List.mem_map.1 hx; exact (h.inside p hp).2.2.1),
    maxOf_eq (List.mem_map_of_mem hc) (by
      intro x hx; obtain ⟨p, hp, rfl⟩ := List.mem_map.1 hx; exact (h.inside p hp).2.1),
    maxOf_eq (List.mem_map_of_mem hd) (by
      intro x hx; obtain ⟨p, hp, rfl⟩ := List.mem_map.1 hx; exact (h.inside p hp).2.2.2)]

/-- every point set has a box -/
theorem exists_box {ps : List Geo.V} (h : ps ≠ []) :
    Box ps ((bounds ps).1 0) ((bounds ps).1 1) ((bounds ps).2 0) ((bounds ps).2 1) := by
  have hm : ∀ i : Fin 2, ps.map (fun p => p i) ≠ [] := by simp [h]
  have key : ∀ (i : Fin 2), (∃ p ∈ ps, p i = minOf (ps.map fun p => p i)) ∧ ∃ p ∈ ps, p i = maxOf (ps.map fun p => p i) := by
    intro i
    obtain ⟨p, hp, e⟩ := List.mem_map.1 (minOf_mem (hm i))
    obtain ⟨q, hq, e'⟩ := List.mem_map.1 (maxOf_mem (hm i))
    exact ⟨⟨p, hp, e⟩, ⟨q, hq, e'⟩⟩
  exact {
    inside := fun p hp => ⟨minOf_le (List.mem_map_of_mem hp), le_maxOf (List.mem_map_of_mem hp),
      minOf_le (List.mem_map_of_mem (f := fun p : Geo.V => p 1) hp), le_maxOf (List.mem_map_of_mem (f := fun p : Geo.V => p 1) hp)⟩
    left := (key 0).1
    bottom := (key 1).1
    right := (key 0).2
    top := (key 1).2 }

/-! ### areas -/

/-- the area of a rectangle -/
theorem area_box (x1 y1 x2 y2 : ℝ) :
    polygonArea [![x1, y1], ![x2, y1], ![x2, y2], ![x1, y2]] = (x2 - x1) * (y2 - y1) := by
  simp [polygonArea, closed, cross]; ring

/-- the box of all pieces is the box of the boxes of the pieces -/
theorem box_pieces {pieces : List (List Geo.V)} (hne : ∀ ps ∈ pieces, ps ≠ []) {x1 y1 x2 y2 : ℝ}
    (h : Box pieces.flatten x1 y1 x2 y2) :
    Box (pieces.flatMap fun ps => [(bounds ps).1, (bounds ps).2]) x1 y1 x2 y2 := by
  have hb : ∀ ps ∈ pieces, Box ps ((bounds ps).1 0) ((bounds ps).1 1) ((bounds ps).2 0) ((bounds ps).2 1) :=
    fun ps hps => exists_box (hne ps hps)
  have hin : ∀ ps ∈ pieces, ∀ p ∈ ps, x1 ≤ p 0 ∧ p 0 ≤ x2 ∧ y1 ≤ p 1 ∧ p 1 ≤ y2 :=
    fun ps hps p hp => h.inside p (List.mem_flatten.2 ⟨ps, hps, hp⟩)
  have hmem : ∀ ps ∈ pieces, (bounds ps).1 ∈ pieces.flatMap (fun ps => [(bounds ps).1, (bounds ps).2]) ∧
      (bounds ps).2 ∈ pieces.flatMap (fun ps => [(bounds ps).1, (bounds ps).2]) := by
    intro ps hps
    exact ⟨List.mem_flatMap.2 ⟨ps, hps, by simp⟩, List.mem_flatMap.2 ⟨ps, hps, by simp⟩⟩
  refine ⟨?_, ?_, ?_, ?_, ?_⟩
  · intro q hq
    obtain ⟨ps, hps, hq⟩ := List.mem_flatMap.1 hq
    have B := hb ps hps
    obtain ⟨a, ha, ea⟩ := B.left
    obtain ⟨b, hb', eb⟩ := B.bottom
    obtain ⟨c, hc, ec⟩ := B.right
    obtain ⟨d, hd, ed⟩ := B.top
    have Ia := hin ps hps a ha
    have Ib := hin ps hps b hb'
    have Ic := hin ps hps c hc
    have Id := hin ps hps d hd
    simp only [List.mem_cons, List.not_mem_nil, or_false] at hq
    rcases hq with rfl | rfl
    · rw [← ea, ← eb]; exact ⟨Ia.1, Ia.2.1, Ib.2.2.1, Ib.2.2.2⟩
    · rw [← ec, ← ed]; exact ⟨Ic.1, Ic.2.1, Id.2.2.1, Id.2.2.2⟩
  · obtain ⟨p, hp, e⟩ := h.left
    obtain ⟨ps, hps, hp⟩ := List.mem_flatten.1 hp
    refine ⟨_, (hmem ps hps).1, le_antisymm ?_ ?_⟩
    · rw [← e]; exact ((hb ps hps).inside p hp).1
    · obtain ⟨q, hq, eq⟩ := (hb ps hps).left
      rw [← eq]; exact (hin ps hps q hq).1
  · obtain ⟨p, hp, e⟩ := h.bottom
    obtain ⟨ps, hps, hp⟩ := List.mem_flatten.1 hp
    refine ⟨_, (hmem ps hps).1, le_antisymm ?_ ?_⟩
    · rw [← e]; exact ((hb ps hps).inside p hp).2.2.1
    · obtain ⟨q, hq, eq⟩ := (hb ps hps).bottom
      rw [← eq]; exact (hin ps hps q hq).2.2.1
  · obtain ⟨p, hp, e⟩ := h.right
    obtain ⟨ps, hps, hp⟩ := List.mem_flatten.1 hp
    refine ⟨_, (hmem ps hps).2, le_antisymm ?_ ?_⟩
    · obtain ⟨q, hq, eq⟩ := (hb ps hps).right
      rw [← eq]; exact (hin ps hps q hq).2.1
    · rw [← e]; exact ((hb ps hps).inside p hp).2.1
  · obtain ⟨p, hp, e⟩ := h.top
    obtain ⟨ps, hps, hp⟩ := List.mem_flatten.1 hp
    refine ⟨_, (hmem ps hps).2, le_antisymm ?_ ?_⟩
    · obtain ⟨q, hq, eq⟩ := (hb ps hps).top
      rw [← eq]; exact (hin ps hps q hq).2.2.2
    · rw [← e]; exact ((hb ps hps).inside p hp).2.2.2

/-- the area of the gap -/
theorem crossArea_eq {pieces : List (List Geo.V)} (hne : ∀ ps ∈ pieces, ps ≠ []) {x1 y1 x2 y2 : ℝ}
    (h : Box pieces.flatten x1 y1 x2 y2) :
    crossArea pieces = (x2 - x1) * (y2 - y1) - (pieces.map fun ps => |polygonArea ps|).sum := by
  unfold crossArea
  simp only
  rw [(box_pieces hne h).bounds]
  simp only [Matrix.cons_val_zero, Matrix.cons_val_one]
  rw [area_box]

/-- all corners, as the code lists them: the inner ones twice -/
def doubled : List Geo.V → List Geo.V
  | p :: q :: r => p :: q :: doubled (q :: r)
  | _ => []

theorem cross_self (p : Geo.V) : cross p p = 0 := by unfold cross; ring

theorem closed_doubled (f p q : Geo.V) (r : List Geo.V) : closed f (doubled (p :: q :: r)) = closed f (p :: q :: r) := by
  induction r generalizing p q with
  | nil => simp [doubled, closed]
  | cons a r ih =>
    rw [doubled, closed]
    have := ih q a
    rw [closed.eq_def f (p :: q :: a :: r)]
    simp only
    rw [← this]
    cases h : doubled (q :: a :: r) with
    | nil => simp [doubled] at h
    | cons x y =>
      have hx : x = q := by
        rw [doubled] at h; exact (List.cons.inj h).1.symm
      subst hx
      rw [closed, cross_self, zero_add]

theorem area_doubled (p q : Geo.V) (r : List Geo.V) : polygonArea (doubled (p :: q :: r)) = polygonArea (p :: q :: r) := by
  have := closed_doubled p p q r
  rw [doubled] at this ⊢
  unfold polygonArea
  simp only
  rw [this]

theorem closed_translate (v f p : Geo.V) (r : List Geo.V) :
    closed (f + v) ((p :: r).map (· + v)) = closed f (p :: r) + cross v f - cross v p := by
  induction r generalizing p with
  | nil => simp [closed, cross]; ring
  | cons q r ih =>
    have := ih q
    simp only [List.map_cons] at this ⊢
    rw [closed, closed, this]
    simp [cross]; ring

/-- moving a polygon does not change its area -/
theorem area_translate (v : Geo.V) (ps : List Geo.V) : polygonArea (ps.map (· + v)) = polygonArea ps := by
  cases ps with
  | nil => rfl
  | cons p r =>
    have := closed_translate v p p r
    simp only [List.map_cons] at this ⊢
    unfold polygonArea
    simp only
    rw [this]; ring

/-- mirror image -/
def flip (p : Geo.V) : Geo.V := ![-p 0, p 1]

theorem closed_flip (f : Geo.V) (ps : List Geo.V) : closed (flip f) (ps.map flip) = -closed f ps := by
  induction ps with
  | nil => simp [closed]
  | cons p r ih =>
    cases r with
    | nil => simp [closed, cross, flip]; ring
    | cons q r =>
      simp only [List.map_cons] at ih ⊢
      rw [closed, closed, ih]
      simp [cross, flip]; ring

/-- reflecting a polygon changes the sign of its area -/
theorem area_flip (ps : List Geo.V) : polygonArea (ps.map flip) = -polygonArea ps := by
  cases ps with
  | nil => simp [polygonArea]
  | cons p r =>
    have := closed_flip p (p :: r)
    simp only [List.map_cons] at this ⊢
    unfold polygonArea
    simp only
    rw [this]; ring

/-! ### segments -/

/-- consecutive points differ -/
def Distinct : List Geo.V → Prop
  | p :: q :: r => p ≠ q ∧ Distinct (q :: r)
  | _ => True

/-- the segments between consecutive points -/
noncomputable def lines : List Geo.V → List Seg
  | p :: q :: r => .line p q (len (q - p)) :: lines (q :: r)
  | _ => []

theorem mkLine_of_ne {p q : Geo.V} (h : p ≠ q) : mkLine p q = .ok (.line p q (len (q - p))) := by
  unfold mkLine
  rw [if_neg]
  intro hl
  have := le_antisymm hl (len_nonneg _)
  rw [len_eq_zero, sub_eq_zero] at this
  exact h this.symm

theorem mkLine_self (p : Geo.V) : mkLine p p = .error .valueError := by
  unfold mkLine
  rw [if_pos]
  rw [sub_self, len_eq_zero.2 rfl]

theorem helper_lines {ps : List Geo.V} (h : Distinct ps) : helper (List.replicate (ps.length - 1) .line) ps = .ok (lines ps) := by
  induction ps with
  | nil => rfl
  | cons p r ih =>
    cases r with
    | nil => rfl
    | cons q r =>
      have := ih h.2
      simp only [List.length_cons, Nat.add_sub_cancel] at this ⊢
      rw [List.replicate_succ, helper, mkLine_of_ne h.1]
      simp only
      rw [this]
      rfl

theorem polyline_lines {ps : List Geo.V} (h : Distinct ps) : polyline ps = .ok (lines ps) := by
  induction ps with
  | nil => rfl
  | cons p r ih =>
    cases r with
    | nil => rfl
    | cons q r =>
      have := ih h.2
      rw [polyline, mkLine_of_ne h.1]
      simp only
      rw [this]
      rfl

theorem line_start (a b : Geo.V) (l : ℝ) : (Seg.line a b l).pointStart = a := by
  simp [Seg.pointStart, Seg.point, clip]

theorem line_end (a b : Geo.V) (l : ℝ) : (Seg.line a b l).pointEnd = b := by
  simp [Seg.pointEnd, Seg.point, clip]

theorem vectorIsClose_self (a : Geo.V) : vectorIsClose a a := by
  unfold vectorIsClose isclose
  constructor <;> (rw [sub_self, abs_zero]; positivity)

theorem checkConnected_lines (ps : List Geo.V) : checkConnected (lines ps) = .ok () := by
  induction ps with
  | nil => rfl
  | cons p r ih =>
    cases r with
    | nil => rfl
    | cons q r =>
      cases r with
      | nil => rfl
      | cons a r =>
        rw [lines] at ih ⊢
        rw [lines]
        rw [checkConnected, line_end, line_start, if_pos (vectorIsClose_self _)]
        exact ih

theorem lines_translate (v : Geo.V) (ps : List Geo.V) : moveBy v (lines ps) = lines (ps.map (· + v)) := by
  induction ps with
  | nil => rfl
  | cons p r ih =>
    cases r with
    | nil => rfl
    | cons q r =>
      simp only [moveBy, List.map_cons, lines] at ih ⊢
      rw [ih]
      simp [Seg.translate]

theorem householder_flip (p : Geo.V) : (householder ![-1, 0]).mulVec p = flip p := by
  rw [householder_apply]
  funext i; fin_cases i
  · simp [dot, flip]; ring
  · simp [dot, flip]

theorem len_flip (p q : Geo.V) : len (flip q - flip p) = len (q - p) := by
  unfold len dot flip
  congr 1
  simp; ring

theorem flip_inj {p q : Geo.V} (h : flip p = flip q) : p = q := by
  have h0 := congrFun h 0
  have h1 := congrFun h 1
  simp only [flip, Matrix.cons_val_zero, Matrix.cons_val_one] at h0 h1
  funext i; fin_cases i
  · simpa using h0
  · simpa using h1

theorem reflectY_lines {ps : List Geo.V} (h : Distinct ps) : reflectY (lines ps) = .ok (lines (ps.map flip)) := by
  induction ps with
  | nil => rfl
  | cons p r ih =>
    cases r with
    | nil => rfl
    | cons q r =>
      have := ih h.2
      rw [lines, reflectY]
      have ht : (Seg.line p q (len (q - p))).transform (householder ![-1, 0]) =
          .ok () (.line (flip p) (flip q) (len (flip q - flip p))) := by
        simp only [Seg.transform, householder_flip]
        rw [if_neg]
        intro hl
        have hz := le_antisymm hl (len_nonneg _)
        rw [len_eq_zero, sub_eq_zero] at hz
        exact h.1 (flip_inj hz).symm
      rw [ht]
      simp only
      rw [this]
      rfl

theorem lineEnds_lines (ps : List Geo.V) : lineEnds (lines ps) = .ok (doubled ps) := by
  induction ps with
  | nil => rfl
  | cons p r ih =>
    cases r with
    | nil => rfl
    | cons q r =>
      rw [lines, lineEnds, ih]
      simp only [line_start, line_end]
      rfl

theorem Distinct.translate {ps : List Geo.V} (h : Distinct ps) (v : Geo.V) : Distinct (ps.map (· + v)) := by
  induction ps with
  | nil => trivial
  | cons p r ih =>
    cases r with
    | nil => trivial
    | cons q r => exact ⟨fun e => h.1 (add_right_cancel e), ih h.2⟩

theorem mem_doubled {p q : Geo.V} {r : List Geo.V} {x : Geo.V} : x ∈ doubled (p :: q :: r) ↔ x ∈ p :: q :: r := by
  induction r generalizing p q with
  | nil => simp [doubled]
  | cons a r ih =>
    rw [doubled, List.mem_cons, List.mem_cons, ih]
    simp only [List.mem_cons]
    tauto

/-- the profile of a groove that consists of lines -/
theorem translateReflect_lines {b : ℝ} {ps : List Geo.V} (h : Distinct ps) :
    translateReflect b (List.replicate (ps.length - 1) .line) ps =
      .ok [lines (ps.map (· + ![-b / 2, 0])), lines ((ps.map (· + ![-b / 2, 0])).map flip)] := by
  unfold translateReflect shapeOf
  rw [helper_lines h]
  simp only
  rw [checkConnected_lines]
  simp only
  rw [lines_translate, reflectY_lines (h.translate _)]

theorem halfProfile_lines {w b t : ℝ} {ps : List Geo.V} (h : Distinct ps)
    (hr : Distinct [![-w - b / 2, 0], ![-b / 2, 0], ![-b / 2, t], ![-w - b / 2, t]]) :
    halfProfile w b t (List.replicate (ps.length - 1) .line) ps =
      .ok [lines [![-w - b / 2, 0], ![-b / 2, 0], ![-b / 2, t], ![-w - b / 2, t]],
        lines ((ps.map (· + ![-b / 2, 0])).map flip)] := by
  unfold halfProfile shapeOf
  rw [helper_lines h]
  simp only
  rw [checkConnected_lines]
  simp only
  rw [lines_translate, reflectY_lines (h.translate _)]
  simp only
  unfold straight
  rw [polyline_lines hr]

/-- the area of a profile of two polygons -/
theorem area_two {A B : List Geo.V} (hA : 2 ≤ A.length) (hB : 2 ≤ B.length) {x1 y1 x2 y2 : ℝ} (h : Box (A ++ B) x1 y1 x2 y2) :
    areaFromProfile (.ok [lines A, lines B]) =
      .ok ((x2 - x1) * (y2 - y1) - |polygonArea A| - |polygonArea B|) := by
  obtain ⟨a, a', A, rfl⟩ : ∃ a a' r, A = a :: a' :: r := by
    match A, hA with
    | a :: a' :: r, _ => exact ⟨_, _, _, rfl⟩
  obtain ⟨c, c', C, rfl⟩ : ∃ a a' r, B = a :: a' :: r := by
    match B, hB with
    | a :: a' :: r, _ => exact ⟨_, _, _, rfl⟩
  simp only [areaFromProfile, profilePoints, lineEnds_lines]
  congr 1
  rw [crossArea_eq (x1 := x1) (y1 := y1) (x2 := x2) (y2 := y2)]
  · simp only [List.map_cons, List.map_nil, List.sum_cons, List.sum_nil, area_doubled]
    ring
  · intro ps hps
    simp only [List.mem_cons, List.not_mem_nil, or_false] at hps
    rcases hps with rfl | rfl <;> simp [doubled]
  · have hm : ∀ x, x ∈ [doubled (a :: a' :: A), doubled (c :: c' :: C)].flatten ↔ x ∈ (a :: a' :: A) ++ (c :: c' :: C) := by
      intro x
      simp only [List.flatten_cons, List.flatten_nil, List.append_nil, List.mem_append, mem_doubled]
    exact ⟨fun p hp => h.inside p ((hm p).1 hp),
      let ⟨p, hp, e⟩ := h.left; ⟨p, (hm p).2 hp, e⟩, let ⟨p, hp, e⟩ := h.bottom; ⟨p, (hm p).2 hp, e⟩,
      let ⟨p, hp, e⟩ := h.right; ⟨p, (hm p).2 hp, e⟩, let ⟨p, hp, e⟩ := h.top; ⟨p, (hm p).2 hp, e⟩⟩

/-- the area of a symmetric groove whose left workpiece starts at `(-w, 0)`, ends at `(-w, t)` and lies in between -/
theorem area_symmetric {w t b : ℝ} {ps : List Geo.V} (hw : 0 ≤ w) (hb : 0 ≤ b) (h : Distinct ps) (hl : 2 ≤ ps.length)
    (hin : ∀ p ∈ ps, -w ≤ p 0 ∧ p 0 ≤ 0 ∧ 0 ≤ p 1 ∧ p 1 ≤ t) (h0 : ![-w, 0] ∈ ps) (h1 : ![-w, t] ∈ ps) :
    areaFromProfile (translateReflect b (List.replicate (ps.length - 1) .line) ps) =
      .ok ((2 * w + b) * t - 2 * |polygonArea ps|) := by
  rw [translateReflect_lines h, area_two (x1 := -w - b / 2) (y1 := 0) (x2 := w + b / 2) (y2 := t) (by simpa using hl) (by simpa using hl)]
  · rw [area_flip, abs_neg, area_translate]
    congr 1; ring
  · have m1 : ∀ p ∈ ps, p + ![-b / 2, 0] ∈ ps.map (· + ![-b / 2, 0]) ++ (ps.map (· + ![-b / 2, 0])).map flip :=
      fun p hp => List.mem_append_left _ (List.mem_map_of_mem hp)
    have m2 : ∀ p ∈ ps, flip (p + ![-b / 2, 0]) ∈ ps.map (· + ![-b / 2, 0]) ++ (ps.map (· + ![-b / 2, 0])).map flip :=
      fun p hp => List.mem_append_right _ (List.mem_map_of_mem (List.mem_map_of_mem hp))
    refine ⟨?_, ⟨_, m1 _ h0, ?_⟩, ⟨_, m1 _ h0, ?_⟩, ⟨_, m2 _ h0, ?_⟩, ⟨_, m1 _ h1, ?_⟩⟩
    · intro q hq
      rcases List.mem_append.1 hq with hq | hq
      · obtain ⟨p, hp, rfl⟩ := List.mem_map.1 hq
        obtain ⟨a, b, c, d⟩ := hin p hp
        simp
        exact ⟨by linarith, by linarith, c, d⟩
      · obtain ⟨q', hq', rfl⟩ := List.mem_map.1 hq
        obtain ⟨p, hp, rfl⟩ := List.mem_map.1 hq'
        obtain ⟨a, b, c, d⟩ := hin p hp
        simp [flip]
        exact ⟨by linarith, by linarith, c, d⟩
    · simp; ring
    · simp
    · simp [flip]; ring
    · simp

/-- the area of a groove with a straight left workpiece of width `v` -/
theorem area_half {v w t b : ℝ} {ps : List Geo.V} (hv : 0 < v) (hw : 0 ≤ w) (hb : 0 ≤ b) (ht : 0 < t) (hl : 2 ≤ ps.length)
    (hin : ∀ p ∈ ps, -w ≤ p 0 ∧ p 0 ≤ 0 ∧ 0 ≤ p 1 ∧ p 1 ≤ t) (h0 : ![-w, 0] ∈ ps) :
    areaFromProfile (.ok [lines [![-v - b / 2, 0], ![-b / 2, 0], ![-b / 2, t], ![-v - b / 2, t]],
        lines ((ps.map (· + ![-b / 2, 0])).map flip)]) =
      .ok ((w + b) * t - |polygonArea ps|) := by
  rw [area_two (x1 := -v - b / 2) (y1 := 0) (x2 := w + b / 2) (y2 := t) (by simp) (by simpa using hl)]
  · rw [area_flip, abs_neg, area_translate, area_box, abs_of_pos (by
      have : -b / 2 - (-v - b / 2) = v := by ring
      rw [this, sub_zero]; positivity)]
    congr 1; ring
  · refine ⟨?_, ⟨![-v - b / 2, 0], by simp, by simp⟩, ⟨![-v - b / 2, 0], by simp, by simp⟩,
      ⟨flip (![-w, 0] + ![-b / 2, 0]), ?_, ?_⟩, ⟨![-b / 2, t], by simp, by simp⟩⟩
    · intro q hq
      rcases List.mem_append.1 hq with hq | hq
      · simp only [List.mem_cons, List.not_mem_nil, or_false] at hq
        rcases hq with rfl | rfl | rfl | rfl <;> simp <;> refine ⟨?_, ?_⟩ <;> first | linarith | skip
        all_goals first | exact ⟨by linarith, by linarith⟩ | linarith | exact ht.le
      · obtain ⟨q', hq', rfl⟩ := List.mem_map.1 hq
        obtain ⟨p, hp, rfl⟩ := List.mem_map.1 hq'
        obtain ⟨a, b, c, d⟩ := hin p hp
        simp [flip]
        exact ⟨by linarith, by linarith, c, d⟩
    · exact List.mem_append_right _ (List.mem_map_of_mem (List.mem_map_of_mem h0))
    · simp [flip]; ring

end Weldx.Groove
