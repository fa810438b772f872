import Verif.Trace.Props

/-!
# Traces: speed and direction of the motion, positions outside (C44)
-/

namespace Weldx.Tr

open Matrix
open Weldx.Geo (clip npRound)

theorem dist3_eq (p q : Vec3 ℝ) : dist3 p q = √(distSq p q) := by
  unfold dist3 norm2 distSq
  rfl

theorem add_coordinates (g f : Lcs ℝ) : (g.add f).coordinates = f.toParent g.coordinates := by
  rw [Lcs.toParent_eq]
  simp only [Lcs.add]

theorem planar_orthonormal {g : Lcs ℝ} (h : Planar g) : g.Orthonormal := by
  obtain ⟨⟨c, s, h1, h2⟩, -⟩ := h
  rw [Lcs.orthonormal_iff', h2]
  exact rotZ_orth h1

theorem joint_orthonormal {segs : List TSeg} {start : Lcs ℝ} (hs : ∀ s ∈ segs, IsHorizontal s) (ho : start.Orthonormal)
    {k : ℕ} {f : Lcs ℝ} (hf : Joint segs start k f) : f.Orthonormal := by
  induction hf with
  | zero => exact ho
  | succ hf hs' he ih =>
    obtain ⟨e', he', hp⟩ := (hs _ (List.mem_of_getElem? hs')).lcs_ok 1
    rw [he] at he'
    cases he'
    exact (C03_orthonormal_closed _ _ (planar_orthonormal hp) ih).1

/-- functions that are pieced together -/
theorem piecewise (t : ℕ → ℝ) (ht : ∀ k, t k ≤ t (k + 1)) (x : ℝ → Vec3 ℝ) (n : ℕ)
    (h : ∀ k, k < n → ∀ p q, t k ≤ p → p ≤ q → q ≤ t (k + 1) → dist3 (x p) (x q) ≤ q - p) :
    ∀ k, k ≤ n → ∀ p q, t 0 ≤ p → p ≤ q → q ≤ t k → dist3 (x p) (x q) ≤ q - p
  | 0, _, p, q, h0, h1, h2 => by
    have e : p = q := by linarith
    subst e
    rw [sub_self]
    unfold dist3 norm2
    simp
  | k + 1, hk, p, q, h0, h1, h2 => by
    have ih := piecewise t ht x n h k (by omega)
    by_cases hq : q ≤ t k
    · exact ih p q h0 h1 hq
    · by_cases hp : t k ≤ p
      · exact h k (by omega) p q hp h1 h2
      · have a := ih p (t k) h0 (not_le.1 hp).le le_rfl
        have b := h k (by omega) (t k) q le_rfl (not_le.1 hq).le h2
        have := dist3_triangle (x p) (x (t k)) (x q)
        linarith

/-- **C44.** The distance of two points of a trace is at most the distance of their positions; in particular there are no
jumps. -/
theorem C44_no_jump {segs : List TSeg} {start : Lcs ℝ} {t : Trace} (ht : mkTrace segs start = .ok t)
    (hs : ∀ s ∈ segs, IsHorizontal s) (ho : start.Orthonormal) {p q : ℝ} (h0 : 0 ≤ p) (h1 : p ≤ q) (h2 : q ≤ t.length)
    {f g : Lcs ℝ} (hf : t.localCs p = .ok f) (hg : t.localCs q = .ok g) : dist3 f.coordinates g.coordinates ≤ q - p := by
  have h := mkTrace_spec ht
  set x : ℝ → Vec3 ℝ := fun p => match t.localCs p with
    | .ok f => f.coordinates
    | .error _ => 0 with hx
  have ex : ∀ {p f}, t.localCs p = .ok f → x p = f.coordinates := by
    intro p f hf; simp only [hx, hf]
  rw [← ex hf, ← ex hg]
  refine piecewise (before segs) (fun k => before_mono hs (by omega)) x segs.length ?_ segs.length le_rfl p q
    (by rw [before_zero]; exact h0) h1 (by rw [← h.length_eq]; exact h2)
  clear hf hg h0 h1 h2
  clear p q f g
  intro k hk p q h0 h1 h2
  have hks := List.getElem?_eq_getElem hk
  have hh := hs _ (List.mem_of_getElem? hks)
  have hpos := hh.length_pos
  obtain ⟨f, hf⟩ := joint_exists h (k := k) (by omega)
  obtain ⟨g, hg, -⟩ := hh.lcs_ok ((p - before segs k) / segs[k].length)
  obtain ⟨g', hg', -⟩ := hh.lcs_ok ((q - before segs k) / segs[k].length)
  rw [ex (C44_position ht hs hks h0 (by linarith) hf hg), ex (C44_position ht hs hks (by linarith) h2 hf hg'),
    add_coordinates, add_coordinates, dist3_eq, (C03_isometry f (joint_orthonormal hs ho hf) _ _ 0).2, ← dist3_eq]
  refine le_trans (hh.lipschitz (div_nonneg (by linarith) hpos.le) (div_nonneg (by linarith) hpos.le) hg hg') ?_
  rw [← sub_div, abs_div, abs_of_pos hpos, div_mul_cancel₀ _ hpos.ne', abs_of_nonpos (by linarith)]
  linarith

/-- **C44.** Within a segment the first axis of the local system is the derivative of its origin: it points in the direction
of the motion and the position is the distance covered. -/
theorem C44_direction {segs : List TSeg} {start : Lcs ℝ} {t : Trace} (ht : mkTrace segs start = .ok t)
    (hs : ∀ s ∈ segs, IsHorizontal s) {k : ℕ} (hk : k < segs.length) {p : ℝ} (h0 : before segs k < p)
    (h1 : p < before segs (k + 1)) (F : ℝ → Lcs ℝ) (hF : ∀ q, 0 ≤ q → q ≤ t.length → t.localCs q = .ok (F q)) (i : Fin 3) :
    HasDerivAt (fun q => (F q).coordinates i) ((F p).axis 0 i) p := by
  have h := mkTrace_spec ht
  have hks := List.getElem?_eq_getElem hk
  have hh := hs _ (List.mem_of_getElem? hks)
  have hpos := hh.length_pos
  set s := segs[k] with hsk
  obtain ⟨f, hf⟩ := joint_exists h (k := k) (by omega)
  choose G hG using fun w => (hh.lcs_ok w)
  have hb := before_succ hks
  have hin : ∀ q, before segs k ≤ q → q ≤ before segs (k + 1) → F q = (G ((q - before segs k) / s.length)).add f := by
    intro q h0 h1
    have a := hF q (le_trans (by rw [← before_zero segs]; exact before_mono hs (Nat.zero_le k)) h0)
      (le_trans h1 (by rw [h.length_eq]; exact before_mono hs hk))
    rw [C44_position ht hs hks h0 h1 hf (hG _).1] at a
    exact (Except.ok.inj a).symm
  set w := (p - before segs k) / s.length with hw
  have hw0 : 0 < w := div_pos (by linarith) hpos
  have hw1 : w < 1 := by rw [hw, div_lt_one hpos]; linarith
  have hGd : ∀ j, HasDerivAt (fun q => (G ((q - before segs k) / s.length)).coordinates j) ((G w).axis 0 j) p := by
    intro j
    have a := hh.tangent hw0 hw1 (hG w).1 (fun q => (hG q).1) j
    have b : HasDerivAt (fun q => (q - before segs k) / s.length) (1 / s.length) p :=
      ((hasDerivAt_id p).sub_const (before segs k)).div_const s.length
    refine (a.comp p b).congr_deriv ?_
    field_simp
  have hev : ∀ᶠ q in nhds p, (F q).coordinates i =
      f.coordinates i + ((G ((q - before segs k) / s.length)).coordinates 0 * f.orientation i 0 +
        (G ((q - before segs k) / s.length)).coordinates 1 * f.orientation i 1 +
        (G ((q - before segs k) / s.length)).coordinates 2 * f.orientation i 2) := by
    filter_upwards [Ioo_mem_nhds h0 h1] with q hq
    rw [hin q hq.1.le hq.2.le, add_coordinates]
    rfl
  refine HasDerivAt.congr_of_eventuallyEq ?_ hev
  have hd := ((((hGd 0).mul_const (f.orientation i 0)).add ((hGd 1).mul_const (f.orientation i 1))).add
    ((hGd 2).mul_const (f.orientation i 2))).const_add (f.coordinates i)
  refine hd.congr_deriv ?_
  rw [hin p h0.le h1.le, ← hw]
  simp only [Lcs.axis, Lcs.add, Matrix.mul_apply, Fin.sum_univ_three]
  ring

/-! ### outside -/

/-- **C44.** Positions behind the end of a trace give the system at the end if the last segment is linear.

Partial: the full statement is that all positions outside give the system at the nearest end, for all kinds of segments. It
is false: see the following counterexamples. -/
theorem C44_outside_partial {segs : List TSeg} {start : Lcs ℝ} {t : Trace} {len : ℝ}
    (ht : mkTrace (segs ++ [lin len]) start = .ok t) (hs : ∀ s ∈ segs, IsHorizontal s) (hl : 0 < len) {p : ℝ}
    (hp : t.length ≤ p) : t.localCs p = t.localCs t.length := by
  have h := mkTrace_spec ht
  have hs' : ∀ s ∈ segs ++ [lin len], IsHorizontal s := by
    intro s hm
    rcases List.mem_append.1 hm with hm | hm
    · exact hs s hm
    · rw [List.mem_singleton.1 hm]; exact .line hl
  have hk : (segs ++ [lin len])[segs.length]? = some (lin len) := by simp
  have hb := before_succ hk
  have hlen : t.length = before (segs ++ [lin len]) (segs.length + 1) := by rw [h.length_eq]; simp
  rw [lin_length hl] at hb
  obtain ⟨f, hf⟩ := joint_exists h (k := segs.length) (by simp)
  have key : ∀ q, t.length ≤ q → t.localCs q = .ok (Lcs.add ⟨1, ![len, 0, 0]⟩ f) := by
    intro q hq
    unfold Trace.localCs
    rw [index_eq h hs' (k := segs.length) (by simp) (.inr (by linarith)) (.inr (by simp))]
    refine segmentCs_eq h hk hf ?_
    rw [lin_length hl, lin_lcs hl (div_nonneg (by linarith) hl.le), Geo.clip_of_ge, one_mul]
    rw [le_div_iff₀ hl]
    linarith
  rw [key p hp, key _ le_rfl]

/-- **C44.** A position before the start of a linear segment gives a system that is turned around by 180 degrees about the
`z`-axis: the index of the code becomes `-1` and the tangent is computed from the last to the first point. -/
theorem C44_before_start {segs : List TSeg} {start : Lcs ℝ} {t : Trace} {len : ℝ}
    (ht : mkTrace (lin len :: segs) start = .ok t) (hs : ∀ s ∈ segs, IsHorizontal s) (hl : 0 < len) {p : ℝ} (hp : p < 0) :
    t.localCs p = .ok (Lcs.add ⟨rotZ (-1) 0, 0⟩ start) := by
  have h := mkTrace_spec ht
  have hs' : ∀ s ∈ lin len :: segs, IsHorizontal s := by
    intro s hm
    rcases List.mem_cons.1 hm with hm | hm
    · rw [hm]; exact .line hl
    · exact hs s hm
  unfold Trace.localCs
  rw [index_eq h hs' (k := 0) (by simp) (.inl rfl) (.inl (by
    rw [← before_zero (lin len :: segs)] at hp; exact le_trans hp.le (before_mono hs' (by omega))))]
  refine segmentCs_eq h (s := lin len) rfl .zero ?_
  rw [lin_length hl, before_zero, sub_zero, lin_lcs_neg hl (div_neg_of_neg_of_pos hp hl)]

/-- a straight trace of length one -/
theorem straight_trace : ∃ t, mkTrace [lin 1] Lcs.default = .ok t :=
  (C44_accepted [lin 1] Lcs.default (by intro s h; rw [List.mem_singleton.1 h]; exact .line one_pos)).2 (by simp)

/-- **C44.** Counterexample to the full statement about positions outside: before the start of a straight trace. -/
theorem C44_before_start_counterexample : ∃ t, mkTrace [lin 1] Lcs.default = .ok t ∧ t.localCs (-1) ≠ t.localCs 0 := by
  obtain ⟨t, ht⟩ := straight_trace
  refine ⟨t, ht, ?_⟩
  rw [C44_before_start ht (by simp) one_pos (by norm_num),
    C44_start ht (by intro s h; rw [List.mem_singleton.1 h]; exact .line one_pos)]
  intro h
  have := congrFun (congrFun (congrArg Lcs.orientation (Except.ok.inj h)) 0) 0
  simp [Lcs.add, Lcs.default, rotZ] at this
  norm_num at this

/-- **C44.** Counterexample to the full statement about positions outside: behind the end of an arc the arc is continued. -/
theorem C44_behind_arc_counterexample : ∃ t, mkTrace [rad 1 Real.pi (-1)] Lcs.default = .ok t ∧ t.length = Real.pi ∧
    t.localCs (2 * Real.pi) ≠ t.localCs Real.pi := by
  have hs : ∀ s ∈ [rad 1 Real.pi (-1)], IsHorizontal s := by
    intro s h; rw [List.mem_singleton.1 h]; exact .arc one_pos Real.pi_pos (by norm_num)
  obtain ⟨t, ht⟩ := (C44_accepted [rad 1 Real.pi (-1)] Lcs.default hs).2 (by simp)
  have h := mkTrace_spec ht
  have hlen : (rad 1 Real.pi (-1)).length = Real.pi := by simp [rad, TSeg.length]
  have hpi := Real.pi_pos
  refine ⟨t, ht, by rw [C44_length ht]; simp [hlen], ?_⟩
  have key : ∀ q, t.localCs q = .ok (Lcs.add ⟨rotZ (Real.cos (q / Real.pi * Real.pi)) (-(-1 * Real.sin (q / Real.pi * Real.pi))),
      radialCurve 1 (-1) (q / Real.pi * Real.pi)⟩ Lcs.default) := by
    intro q
    unfold Trace.localCs
    rw [index_eq h hs (k := 0) (by simp) (.inl rfl) (.inr rfl)]
    refine segmentCs_eq h (s := rad 1 Real.pi (-1)) rfl .zero ?_
    rw [before_zero, sub_zero, hlen, rad_lcs one_pos (by norm_num)]
  rw [key, key]
  intro he
  have := congrFun (congrFun (congrArg Lcs.orientation (Except.ok.inj he)) 0) 0
  rw [div_mul_cancel₀ _ hpi.ne', div_mul_cancel₀ _ hpi.ne'] at this
  simp [Lcs.add, Lcs.default, rotZ] at this
  norm_num at this

/-- non-trivial example: half circle counter-clockwise, then two units straight on; the end is two units to the left and
points back -/
example : ∃ t, mkTrace [rad 1 Real.pi (-1), lin 2] Lcs.default = .ok t ∧ t.length = Real.pi + 2 ∧
    t.localCs t.length = .ok ⟨rotZ (-1) 0, ![-2, 2, 0]⟩ := by
  have hs : ∀ s ∈ [rad 1 Real.pi (-1), lin 2], IsHorizontal s := by
    intro s h
    simp only [List.mem_cons, List.not_mem_nil, or_false] at h
    rcases h with rfl | rfl
    · exact .arc one_pos Real.pi_pos (by norm_num)
    · exact .line two_pos
  obtain ⟨t, ht⟩ := (C44_accepted _ Lcs.default hs).2 (by simp)
  have hlen : t.length = Real.pi + 2 := by
    have e : (rad 1 Real.pi (-1)).length = Real.pi := by simp [rad, TSeg.length]
    rw [C44_length ht]; simp [lin_length two_pos, e]
  refine ⟨t, ht, hlen, ?_⟩
  have j1 := Joint.succ (segs := [rad 1 Real.pi (-1), lin 2]) (start := Lcs.default) .zero rfl
    (rad_lcs (angle := Real.pi) one_pos (w := -1) (by norm_num) 1)
  have j2 := Joint.succ j1 (s := lin 2) rfl (lin_lcs two_pos zero_le_one)
  have := C44_joint ht hs (k := 2) le_rfl j2
  rw [(mkTrace_spec ht).length_eq]
  refine Eq.trans this ?_
  congr 1
  ext i j
  · fin_cases i <;> fin_cases j <;> simp [Lcs.add, Lcs.default, rotZ]
  · simp only [add_coordinates]
    fin_cases i <;> simp [Lcs.toParent, Lcs.add, Lcs.default, rotZ, radialCurve_eq, Geo.clip_of_ge le_rfl] <;> norm_num

end Weldx.Tr
