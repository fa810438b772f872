import Verif.Geometry.History

/-!
# Interpolation of segments and shapes (C49)
-/

namespace Weldx.Geo
open Real Matrix

/-- `c` is the point with the given weight on the way from `a` to `b`; weights outside of [0, 1] are clamped -/
def Between (w : ℝ) (a b c : V) : Prop :=
  (w ≤ 0 → c = a) ∧ (1 ≤ w → c = b) ∧ (0 ≤ w → w ≤ 1 → c = a + w • (b - a))

theorem Between.unique {w : ℝ} {a b c d : V} (h : Between w a b c) (h' : Between w a b d) : c = d := by
  rcases le_total w 0 with h0 | h0
  · rw [h.1 h0, h'.1 h0]
  · rcases le_total w 1 with h1 | h1
    · rw [h.2.2 h0 h1, h'.2.2 h0 h1]
    · rw [h.2.1 h1, h'.2.1 h1]

theorem clip_of_le {w : ℝ} (h : w ≤ 0) : clip w 0 1 = 0 := by unfold clip; rw [max_eq_right h]; simp
theorem clip_of_ge {w : ℝ} (h : 1 ≤ w) : clip w 0 1 = 1 := by
  unfold clip; rw [max_eq_left (by linarith)]; exact min_eq_right h
theorem clip_of_mem {w : ℝ} (h0 : 0 ≤ w) (h1 : w ≤ 1) : clip w 0 1 = w := by
  unfold clip; rw [max_eq_left h0]; exact min_eq_left h1
theorem clip_nonneg (w : ℝ) : 0 ≤ clip w 0 1 := by unfold clip; exact le_min (le_max_right _ _) zero_le_one
theorem clip_le_one (w : ℝ) : clip w 0 1 ≤ 1 := by unfold clip; exact min_le_right _ _
theorem clip_clip (w : ℝ) : clip (clip w 0 1) 0 1 = clip w 0 1 := clip_of_mem (clip_nonneg w) (clip_le_one w)

theorem between_clip (w : ℝ) (a b : V) : Between w a b ((1 - clip w 0 1) • a + clip w 0 1 • b) := by
  refine ⟨fun h => ?_, fun h => ?_, fun h0 h1 => ?_⟩
  · rw [clip_of_le h]; simp
  · rw [clip_of_ge h]; simp
  · rw [clip_of_mem h0 h1, sub_smul, one_smul, smul_sub]; abel

theorem between_of_clip {w : ℝ} {a b c : V} (h : Between (clip w 0 1) a b c) : Between w a b c := by
  have := h.2.2 (clip_nonneg w) (clip_le_one w)
  have h2 := between_clip w a b
  rw [this]
  have e : a + clip w 0 1 • (b - a) = (1 - clip w 0 1) • a + clip w 0 1 • b := by
    rw [sub_smul, one_smul, smul_sub]; abel
  rw [e]; exact h2

/-- **C49.** The linear interpolation of two line segments is the line between the interpolated start points and the
interpolated end points; it is only refused if both are the same. -/
theorem C49_lines (w : ℝ) (a b a' b' : V) (l l' : ℝ) :
    match (Seg.line a b l).interpolate (.line a' b' l') w with
    | .ok c => ∃ p q, c = .line p q (len (q - p)) ∧ Between w a a' p ∧ Between w b b' q ∧ p ≠ q
    | .error e => e = .valueError ∧ ∃ p, Between w a a' p ∧ Between w b b' p := by
  simp only [Seg.interpolate]
  by_cases h : (1 - clip w 0 1) • a + clip w 0 1 • a' = (1 - clip w 0 1) • b + clip w 0 1 • b'
  · rw [h, mkLine_self]
    exact ⟨rfl, _, by rw [← h]; exact between_clip w a a', between_clip w b b'⟩
  · rw [mkLine_eq h]
    exact ⟨_, _, rfl, between_clip w a a', between_clip w b b', h⟩

/-- **C49.** The result for weight 0 (or less) is the first segment, for weight 1 (or more) the second one. -/
theorem C49_line_ends {x y : Seg} (hx : x.Valid) (hy : y.Valid) (lx : ∃ a b l, x = .line a b l)
    (ly : ∃ a b l, y = .line a b l) (w : ℝ) :
    (w ≤ 0 → x.interpolate y w = .ok x) ∧ (1 ≤ w → x.interpolate y w = .ok y) := by
  obtain ⟨a, b, l, rfl⟩ := lx
  obtain ⟨a', b', l', rfl⟩ := ly
  obtain ⟨e, p⟩ : l = len (b - a) ∧ 0 < l := hx
  obtain ⟨e', p'⟩ : l' = len (b' - a') ∧ 0 < l' := hy
  subst e; subst e'
  constructor
  · intro h
    simp only [Seg.interpolate, clip_of_le h]
    simp only [sub_zero, one_smul, zero_smul, add_zero]
    exact mkLine_eq (len_sub_pos.1 p)
  · intro h
    simp only [Seg.interpolate, clip_of_ge h]
    simp only [sub_self, one_smul, zero_smul, zero_add]
    exact mkLine_eq (len_sub_pos.1 p')

/-- every point of the interpolated line is interpolated -/
theorem C49_points {w : ℝ} {x y z : Seg} (h : x.interpolate y w = .ok z) (t : ℝ) :
    Between w (x.point t) (y.point t) (z.point t) := by
  cases x with
  | arc x => cases h
  | line a b l =>
    cases y with
    | arc y => cases h
    | line a' b' l' =>
      obtain ⟨rfl, -⟩ := mkLine_ok h
      have := between_clip w ((Seg.line a b l).point t) ((Seg.line a' b' l').point t)
      simp only [Seg.point] at this ⊢
      convert this using 1
      module

/-- **C49.** Arcs can not be interpolated linearly, and lines can not be interpolated with arcs. -/
theorem C49_arcs (w : ℝ) (x : Arc) (y : Seg) (a b : V) (l : ℝ) :
    (Seg.arc x).interpolate y w = .error .notImplemented ∧ (Seg.line a b l).interpolate (.arc x) w = .error .typeError :=
  ⟨rfl, rfl⟩

/-! ### shapes -/

theorem interpolateAll_lines (w : ℝ) : ∀ (as bs : List Seg), as.length = bs.length →
    (∀ x ∈ as, ∃ a b l, x = .line a b l) → (∀ x ∈ bs, ∃ a b l, x = .line a b l) →
    match interpolateAll w (as.map fun _ => Seg.interpolate) as bs with
    | .ok cs => cs.length = as.length ∧ ∀ k (ha : k < as.length) (hb : k < bs.length) (hc : k < cs.length),
        as[k].interpolate bs[k] w = .ok cs[k]
    | .error e => e = .valueError ∧ ∃ k, ∃ ha : k < as.length, ∃ hb : k < bs.length, as[k].interpolate bs[k] w = .error .valueError
  | [], [], _, _, _ => ⟨rfl, by simp⟩
  | a :: as, b :: bs, hl, h1, h2 => by
    simp only [List.map_cons, interpolateAll]
    have ih := interpolateAll_lines w as bs (by simpa using hl) (fun x hx => h1 x (by simp [hx])) (fun x hx => h2 x (by simp [hx]))
    obtain ⟨p, q, l, rfl⟩ := h1 a (by simp)
    obtain ⟨p', q', l', rfl⟩ := h2 b (by simp)
    have hab := C49_lines w p q p' q' l l'
    cases hr : (Seg.line p q l).interpolate (.line p' q' l') w with
    | error e =>
      rw [hr] at hab
      obtain ⟨rfl, -⟩ := hab
      exact ⟨rfl, 0, by simp, by simp, hr⟩
    | ok c =>
      simp only [bind, Except.bind]
      cases hc : interpolateAll w (as.map fun _ => Seg.interpolate) as bs with
      | error e =>
        rw [hc] at ih
        obtain ⟨rfl, k, ha, hb, hk⟩ := ih
        exact ⟨rfl, k + 1, by simpa using ha, by simpa using hb, by simpa using hk⟩
      | ok cs =>
        rw [hc] at ih
        obtain ⟨i1, i2⟩ := ih
        refine ⟨by simp [i1], fun k ha hb hk => ?_⟩
        cases k with
        | zero => simpa using hr
        | succ k => simpa using i2 k (by simpa using ha) (by simpa using hb) (by simpa using hk)

theorem linked_getElem {α : Type*} {R : α → α → Prop} {l : List α} :
    Linked R l ↔ ∀ k (h : k + 1 < l.length), R l[k] l[k + 1] := by
  constructor
  · intro h k hk
    refine h (l.take k) _ _ (l.drop (k + 2)) ?_
    conv_lhs => rw [← List.take_append_drop k l]
    rw [List.drop_eq_getElem_cons (show k < l.length by omega),
      List.drop_eq_getElem_cons (show k + 1 < l.length by omega)]
  · intro h l₁ a b l₂ he
    subst he
    have := h l₁.length (by simp)
    simpa using this

/-- **C49.** The linear interpolation of two connected shapes of the same number of line segments: it is only refused if
the points of some segment become the same. The result is connected, and each segment is the interpolation of the
corresponding segments. -/
theorem C49_shapes {as bs : List Seg} (w : ℝ) (hl : as.length = bs.length)
    (h1 : ∀ x ∈ as, ∃ a b l, x = .line a b l) (h2 : ∀ x ∈ bs, ∃ a b l, x = .line a b l)
    (ja : Linked Joined as) (jb : Linked Joined bs) :
    match linearInterpolation as bs w with
    | .ok cs => cs.length = as.length ∧ Linked Joined cs ∧ (∀ x ∈ cs, x.Valid ∧ ∃ a b l, x = .line a b l) ∧
        ∀ k (ha : k < as.length) (hb : k < bs.length) (hc : k < cs.length) t,
          Between w (as[k].point t) (bs[k].point t) (cs[k].point t)
    | .error e => e = .valueError ∧ ∃ k, ∃ ha : k < as.length, ∃ hb : k < bs.length, ∃ p,
        Between w as[k].pointStart bs[k].pointStart p ∧ Between w as[k].pointEnd bs[k].pointEnd p := by
  unfold linearInterpolation interpolateShapes
  rw [if_neg (not_not.2 hl)]
  have key := interpolateAll_lines (clip w 0 1) as bs hl h1 h2
  cases hc : interpolateAll (clip w 0 1) (as.map fun _ => Seg.interpolate) as bs with
  | error e =>
    rw [hc] at key
    obtain ⟨rfl, k, ha, hb, hk⟩ := key
    refine ⟨rfl, k, ha, hb, ?_⟩
    obtain ⟨p, q, l, e1⟩ := h1 as[k] (List.getElem_mem ha)
    obtain ⟨p', q', l', e2⟩ := h2 bs[k] (List.getElem_mem hb)
    rw [e1, e2] at hk ⊢
    have := C49_lines (clip w 0 1) p q p' q' l l'
    rw [hk] at this
    obtain ⟨-, x, hx1, hx2⟩ := this
    exact ⟨x, by simpa using between_of_clip hx1, by simpa using between_of_clip hx2⟩
  | ok cs =>
    rw [hc] at key
    obtain ⟨k1, k2⟩ := key
    have hpt : ∀ k (ha : k < as.length) (hb : k < bs.length) (hc : k < cs.length) t,
        Between w (as[k].point t) (bs[k].point t) (cs[k].point t) :=
      fun k ha hb hc t => between_of_clip (C49_points (k2 k ha hb hc) t)
    have hj : Linked Joined cs := by
      rw [linked_getElem]
      intro k hk
      rw [linked_getElem] at ja jb
      have a1 := hpt k (by omega) (by omega) (by omega) 1
      have a2 := hpt (k + 1) (by omega) (by omega) (by omega) 0
      have e1 := ja k (by omega)
      have e2 := jb k (by omega)
      unfold Joined Seg.pointEnd Seg.pointStart at *
      rw [e1, e2] at a1
      exact a1.unique a2
    have hcc : checkConnected cs = .ok () := (checkConnected_iff cs).2 fun l₁ a b l₂ he => (hj l₁ a b l₂ he).close
    simp only [bind, Except.bind, hcc]
    refine ⟨k1, hj, ?_, hpt⟩
    intro x hx
    obtain ⟨k, hk, rfl⟩ := List.getElem_of_mem hx
    have := k2 k (by omega) (by omega) hk
    obtain ⟨p, q, l, e1⟩ := h1 (as[k]'(by omega)) (List.getElem_mem _)
    obtain ⟨p', q', l', e2⟩ := h2 (bs[k]'(by omega)) (List.getElem_mem _)
    rw [e1, e2] at this
    obtain ⟨e, v⟩ := mkLine_ok this
    exact ⟨v, _, _, _, e⟩

/-- **C49.** For weight 0 (or less) the result is the first shape, for weight 1 (or more) the second one; this does not
need exact connections. -/
theorem C49_shape_ends {as bs : List Seg} (w : ℝ) (hl : as.length = bs.length)
    (h1 : ∀ x ∈ as, x.Valid ∧ ∃ a b l, x = .line a b l) (h2 : ∀ x ∈ bs, x.Valid ∧ ∃ a b l, x = .line a b l) :
    (w ≤ 0 → Linked Close as → linearInterpolation as bs w = .ok as) ∧
      (1 ≤ w → Linked Close bs → linearInterpolation as bs w = .ok bs) := by
  have all : ∀ (as bs : List Seg), as.length = bs.length → (∀ x ∈ as, x.Valid ∧ ∃ a b l, x = .line a b l) →
      (∀ x ∈ bs, x.Valid ∧ ∃ a b l, x = .line a b l) → ∀ w,
      (w ≤ 0 → interpolateAll w (as.map fun _ => Seg.interpolate) as bs = .ok as) ∧
      (1 ≤ w → interpolateAll w (as.map fun _ => Seg.interpolate) as bs = .ok bs) := by
    intro as
    induction as with
    | nil => intro bs hl _ _ w; cases bs with
      | nil => exact ⟨fun _ => rfl, fun _ => rfl⟩
      | cons b bs => simp at hl
    | cons a as ih => intro bs hl h1 h2 w; cases bs with
      | nil => simp at hl
      | cons b bs =>
        have i := ih bs (by simpa using hl) (fun x hx => h1 x (by simp [hx])) (fun x hx => h2 x (by simp [hx])) w
        have e := C49_line_ends (h1 a (by simp)).1 (h2 b (by simp)).1 (h1 a (by simp)).2 (h2 b (by simp)).2 w
        constructor
        · intro h
          simp only [List.map_cons, interpolateAll, e.1 h, i.1 h, bind, Except.bind]
        · intro h
          simp only [List.map_cons, interpolateAll, e.2 h, i.2 h, bind, Except.bind]
  constructor
  · intro h hc
    unfold linearInterpolation interpolateShapes
    rw [if_neg (not_not.2 hl), clip_of_le h, (all as bs hl h1 h2 0).1 le_rfl]
    simp only [bind, Except.bind, (checkConnected_iff as).2 hc]
  · intro h hc
    unfold linearInterpolation interpolateShapes
    rw [if_neg (not_not.2 hl), clip_of_ge h, (all as bs hl h1 h2 1).2 le_rfl]
    simp only [bind, Except.bind, (checkConnected_iff bs).2 hc]

/-- **C49.** Whatever schemes are used for the segments: shapes with different numbers of segments are refused, weights
are clamped, and only connected shapes are returned, where each segment is the result of its scheme. -/
theorem C49_schemes (as bs : List Seg) (w : ℝ) (schemes : List (Seg → Seg → ℝ → Except GErr Seg)) :
    (as.length ≠ bs.length → interpolateShapes as bs w schemes = .error .valueError) ∧
    (w ≤ 0 → interpolateShapes as bs w schemes = interpolateShapes as bs 0 schemes) ∧
    (1 ≤ w → interpolateShapes as bs w schemes = interpolateShapes as bs 1 schemes) ∧
    ∀ cs, interpolateShapes as bs w schemes = .ok cs → Linked Close cs ∧ cs.length = as.length ∧
      ∀ k (ha : k < as.length) (hb : k < bs.length) (hc : k < cs.length), ∃ f, schemes[k]? = some f ∧
        ∃ w', f as[k] bs[k] w' = .ok cs[k] ∧ 0 ≤ w' ∧ w' ≤ 1 ∧ (0 ≤ w → w ≤ 1 → w' = w) := by
  refine ⟨fun h => ?_, fun h => ?_, fun h => ?_, fun cs h => ?_⟩
  · unfold interpolateShapes; rw [if_pos h]
  · unfold interpolateShapes; rw [clip_of_le h, clip_zero]
  · unfold interpolateShapes; rw [clip_of_ge h, clip_one]
  · unfold interpolateShapes at h
    split at h
    · cases h
    rename_i hl
    rw [not_not] at hl
    cases hr : interpolateAll (clip w 0 1) schemes as bs with
    | error e => simp only [hr, bind, Except.bind] at h; cases h
    | ok ds =>
      simp only [hr, bind, Except.bind] at h
      rcases checkConnected_cases ds with ⟨c1, c2⟩ | ⟨⟨e, c1⟩, -⟩
      swap
      · rw [c1] at h; cases h
      rw [c1] at h
      cases h
      have all : ∀ (fs : List (Seg → Seg → ℝ → Except GErr Seg)) (as bs cs : List Seg) (v : ℝ), as.length = bs.length →
          interpolateAll v fs as bs = .ok cs → cs.length = as.length ∧
          ∀ k (ha : k < as.length) (hb : k < bs.length) (hc : k < cs.length), ∃ f, fs[k]? = some f ∧ f as[k] bs[k] v = .ok cs[k] := by
        intro fs as
        induction as generalizing fs with
        | nil => intro bs cs v hl h; cases bs with
          | nil =>
            cases fs <;> (simp only [interpolateAll] at h; cases h; exact ⟨rfl, by simp⟩)
          | cons b bs => simp at hl
        | cons a as ih => intro bs cs v hl h; cases bs with
          | nil => simp at hl
          | cons b bs =>
            cases fs with
            | nil => simp only [interpolateAll] at h; cases h
            | cons f fs =>
              simp only [interpolateAll] at h
              cases h1 : f a b v with
              | error e => simp only [h1, bind, Except.bind] at h; cases h
              | ok c =>
                cases h2 : interpolateAll v fs as bs with
                | error e => simp only [h1, h2, bind, Except.bind] at h; cases h
                | ok cs' =>
                  simp only [h1, h2, bind, Except.bind] at h
                  cases h
                  obtain ⟨i1, i2⟩ := ih fs bs cs' v (by simpa using hl) h2
                  refine ⟨by simp [i1], fun k ha hb hc => ?_⟩
                  cases k with
                  | zero => exact ⟨f, rfl, h1⟩
                  | succ k =>
                    obtain ⟨g, g1, g2⟩ := i2 k (by simpa using ha) (by simpa using hb) (by simpa using hc)
                    exact ⟨g, by simpa using g1, by simpa using g2⟩
      obtain ⟨a1, a2⟩ := all schemes as bs _ (clip w 0 1) hl hr
      refine ⟨c2, a1, fun k ha hb hc => ?_⟩
      obtain ⟨f, f1, f2⟩ := a2 k ha hb hc
      exact ⟨f, f1, clip w 0 1, f2, clip_nonneg w, clip_le_one w, fun h0 h1 => clip_of_mem h0 h1⟩

/-- **C49 (counterexample).** Two shapes that are accepted by the constructor, as their segments are connected up to the
(relative) tolerance, can not always be interpolated. -/
theorem C49_tolerance_counterexample :
    ∃ as bs : List Seg, as.length = bs.length ∧ Linked Close as ∧ Linked Close bs ∧
      (∀ x ∈ as ++ bs, x.Valid ∧ ∃ a b l, x = .line a b l) ∧
      (∀ k (ha : k < as.length) (hb : k < bs.length), ∃ c, as[k].interpolate bs[k] (1 / 2) = .ok c) ∧
      linearInterpolation as bs (1 / 2) = .error .valueError := by
  have c1 : isclose (1 / 1000000000) 1000 1000.005 := by
    unfold isclose; rw [abs_of_neg (by norm_num), abs_of_pos (by norm_num)]; norm_num
  have c2 : isclose (1 / 1000000000) (-1000) (-999.995) := by
    unfold isclose; rw [abs_of_neg (by norm_num), abs_of_neg (by norm_num)]; norm_num
  have c3 : isclose (1 / 1000000000) 0 0 := by simp [isclose]
  have i1 : (ln ![0, 0] ![1000, 0]).interpolate (ln ![0, 1] ![-1000, 0]) (1 / 2) = .ok (ln ![0, 1 / 2] ![0, 0]) := by
    simp only [Seg.interpolate, ln]
    rw [clip_of_mem (by norm_num) (by norm_num)]
    have e1 : (1 - 1 / 2 : ℝ) • (![0, 0] : V) + (1 / 2 : ℝ) • ![0, 1] = ![0, 1 / 2] := by
      funext i; fin_cases i <;> simp
    have e2 : (1 - 1 / 2 : ℝ) • (![1000, 0] : V) + (1 / 2 : ℝ) • ![-1000, 0] = ![0, 0] := by
      funext i; fin_cases i <;> norm_num
    rw [e1, e2]
    exact mkLine_eq (ne_of_coord 1 (by norm_num))
  have i2 : (ln ![1000.005, 0] ![1000, 1]).interpolate (ln ![-999.995, 0] ![-1000, 1]) (1 / 2) =
      .ok (ln ![0.005, 0] ![0, 1]) := by
    simp only [Seg.interpolate, ln]
    rw [clip_of_mem (by norm_num) (by norm_num)]
    have e1 : (1 - 1 / 2 : ℝ) • (![1000.005, 0] : V) + (1 / 2 : ℝ) • ![-999.995, 0] = ![0.005, 0] := by
      funext i; fin_cases i <;> norm_num
    have e2 : (1 - 1 / 2 : ℝ) • (![1000, 1] : V) + (1 / 2 : ℝ) • ![-1000, 1] = ![0, 1] := by
      funext i; fin_cases i <;> norm_num
    rw [e1, e2]
    exact mkLine_eq (ne_of_coord 1 (by norm_num))
  refine ⟨[ln ![0, 0] ![1000, 0], ln ![1000.005, 0] ![1000, 1]], [ln ![0, 1] ![-1000, 0], ln ![-999.995, 0] ![-1000, 1]],
    rfl, linked_cons.2 ⟨close_ln.2 ⟨c1, c3⟩, linked_one _⟩, linked_cons.2 ⟨close_ln.2 ⟨c2, c3⟩, linked_one _⟩, ?_, ?_, ?_⟩
  · intro x hx
    simp only [List.cons_append, List.nil_append, List.mem_cons, List.not_mem_nil, or_false] at hx
    rcases hx with rfl | rfl | rfl | rfl
    · exact ⟨ln_valid (ne_of_coord 0 (by norm_num)), _, _, _, rfl⟩
    · exact ⟨ln_valid (ne_of_coord 1 (by norm_num)), _, _, _, rfl⟩
    · exact ⟨ln_valid (ne_of_coord 0 (by norm_num)), _, _, _, rfl⟩
    · exact ⟨ln_valid (ne_of_coord 1 (by norm_num)), _, _, _, rfl⟩
  · intro k ha hb
    match k, ha, hb with
    | 0, _, _ => exact ⟨_, i1⟩
    | 1, _, _ => exact ⟨_, i2⟩
  · unfold linearInterpolation interpolateShapes
    rw [if_neg (by simp), clip_of_mem (by norm_num) (by norm_num)]
    simp only [List.map_cons, List.map_nil, interpolateAll, i1, i2, bind, Except.bind]
    have : ¬ vectorIsClose (ln ![0, 1 / 2] ![0, 0]).pointEnd (ln ![0.005, 0] ![0, 1]).pointStart := by
      unfold ln
      rw [line_end, line_start]
      rintro ⟨h, -⟩
      simp only [isclose, Matrix.cons_val_zero] at h
      rw [abs_of_neg (by norm_num), abs_of_pos (by norm_num)] at h
      norm_num at h
    simp only [checkConnected, if_neg this]

/-- the interpolation of two strokes -/
example : linearInterpolation [ln ![0, 0] ![2, 0]] [ln ![0, 2] ![2, 4]] (1 / 2) = .ok [ln ![0, 1] ![2, 2]] := by
  unfold linearInterpolation interpolateShapes
  rw [if_neg (by simp), clip_of_mem (by norm_num) (by norm_num)]
  have : (ln ![0, 0] ![2, 0]).interpolate (ln ![0, 2] ![2, 4]) (1 / 2) = .ok (ln ![0, 1] ![2, 2]) := by
    simp only [Seg.interpolate, ln]
    rw [clip_of_mem (by norm_num) (by norm_num)]
    have e1 : (1 - 1 / 2 : ℝ) • (![0, 0] : V) + (1 / 2 : ℝ) • ![0, 2] = ![0, 1] := by
      funext i; fin_cases i <;> norm_num
    have e2 : (1 - 1 / 2 : ℝ) • (![2, 0] : V) + (1 / 2 : ℝ) • ![2, 4] = ![2, 2] := by
      funext i; fin_cases i <;> norm_num
    rw [e1, e2]
    exact mkLine_eq (ne_of_coord 0 (by norm_num))
  simp only [List.map_cons, List.map_nil, interpolateAll, this, bind, Except.bind, checkConnected]

end Weldx.Geo
