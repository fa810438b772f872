import Verif.Trace.Motion
import Verif.Geometry.Raster

/-!
# Rasterisation of traces (C45)
-/

namespace Weldx.Tr

open Matrix
open Weldx.Geo (clip npRound npRound_near)

/-- every position lies on a segment and behind its start, or on the first one -/
theorem find_segment' {segs : List TSeg} {start : Lcs ℝ} {t : Trace} (h : IsTrace segs start t) {p : ℝ}
    (h1 : p ≤ t.length) : ∃ k, k < segs.length ∧ (k = 0 ∨ before segs k < p) ∧ p ≤ before segs (k + 1) := by
  have hn : segs.length ≠ 0 := by
    intro hn
    have := h.length_pos
    rw [h.length_eq, hn, before_zero] at this
    exact lt_irrefl _ this
  rw [h.length_eq] at h1
  have key : ∀ n, n ≤ segs.length → n ≠ 0 → p ≤ before segs n →
      ∃ k, k < segs.length ∧ (k = 0 ∨ before segs k < p) ∧ p ≤ before segs (k + 1) := by
    intro n
    induction n with
    | zero => intro _ h; exact absurd rfl h
    | succ n ih =>
      intro hle _ hp
      by_cases hb : before segs n < p
      · exact ⟨n, by omega, .inr hb, hp⟩
      · by_cases hz : n = 0
        · subst hz; exact ⟨0, by omega, .inl rfl, hp⟩
        · exact ih (by omega) hz (not_lt.1 hb)
  exact key segs.length le_rfl hn h1

theorem rasterLoop_eq {segs : List TSeg} {start : Lcs ℝ} {t : Trace} (h : IsTrace segs start t)
    (hs : ∀ s ∈ segs, IsHorizontal s) {F : ℝ → Lcs ℝ} (hF : ∀ q, 0 ≤ q → q ≤ t.length → t.localCs q = .ok (F q))
    {w : ℝ} (hw : 0 ≤ w) : ∀ (l : List ℕ) (idx : ℕ), l.Pairwise (· < ·) → (∀ i ∈ l, (i : ℝ) * w ≤ t.length) →
      (∀ i ∈ l, idx = 0 ∨ before segs idx < i * w) →
      t.rasterLoop w l idx = .ok (l.map fun i : ℕ => (F (i * w)).coordinates)
  | [], _, _, _, _ => rfl
  | i :: l, idx, hp, hl, hi => by
    have hloc0 : (0 : ℝ) ≤ i * w := mul_nonneg (Nat.cast_nonneg i) hw
    obtain ⟨k, hk, hk0, hk1⟩ := find_segment' h (hl i (by simp))
    have hle : idx ≤ k := by
      rcases hi i (by simp) with h0 | h0
      · omega
      · by_contra hcon
        have := before_mono hs (show k + 1 ≤ idx by omega)
        linarith
    have hget : ∀ m, m + 1 + idx ≤ segs.length → (t.total.drop (idx + 1))[m]? = some (before segs (m + 1 + idx)) := by
      intro m hm
      rw [List.getElem?_drop, show idx + 1 + m = m + 1 + idx by omega, h.tables.total _ hm, zero_add]
    have hfirst : firstIdx (i * w) (t.total.drop (idx + 1)) idx = some k := by
      rw [firstIdx_eq (m := k - idx) (hget _ (by omega))]
      · congr 1; omega
      · rw [show k - idx + 1 + idx = k + 1 by omega]; exact hk1
      · intro m' t' hm' ht
        rw [hget m' (by omega)] at ht
        cases ht
        rcases hk0 with hk0 | hk0
        · omega
        · exact lt_of_le_of_lt (before_mono hs (by omega)) hk0
    have hcs : t.segmentCs k (i * w) = .ok (F (i * w)) := by
      have := hF (i * w) hloc0 (hl i (by simp))
      unfold Trace.localCs at this
      rwa [index_eq h hs hk hk0 (.inl hk1)] at this
    have hp' := List.pairwise_cons.1 hp
    have ih := rasterLoop_eq h hs hF hw l k hp'.2 (fun i hi => hl i (by simp [hi])) (by
      intro j hj
      rcases hk0 with hk0 | hk0
      · exact .inl hk0
      · refine .inr (lt_of_lt_of_le hk0 ?_)
        exact mul_le_mul_of_nonneg_right (by exact_mod_cast (hp'.1 j hj).le) hw)
    simp only [Trace.rasterLoop, hfirst, hcs, ih, bind, Except.bind, List.map_cons]

/-- number of steps: the rounded quotient of the length and the width, which is at most the length -/
theorem steps_spec {L width : ℝ} (hL : 0 < L) (hw : 0 < width) :
    ∃ n : ℕ, (npRound (L / clip width 0 L)).toNat = n ∧ 0 < n ∧ (L ≤ width → n = 1) ∧
      (width ≤ L → |(n : ℝ) - L / width| ≤ 1 / 2) := by
  have hc : clip width 0 L = min width L := by unfold clip; rw [max_eq_left hw.le]
  have hm : 0 < min width L := lt_min hw hL
  have hx : 1 ≤ L / min width L := by rw [le_div_iff₀ hm, one_mul]; exact min_le_right _ _
  have hr := npRound_near (L / min width L)
  have h1 : 1 ≤ npRound (L / min width L) := by
    by_contra hcon
    have : npRound (L / min width L) ≤ 0 := by omega
    have : ((npRound (L / min width L) : ℤ) : ℝ) ≤ 0 := by exact_mod_cast this
    have := (abs_le.1 hr).1
    linarith
  rw [hc]
  have hcast : (((npRound (L / min width L)).toNat : ℕ) : ℝ) = npRound (L / min width L) := by
    have : ((npRound (L / min width L)).toNat : ℤ) = npRound (L / min width L) := Int.toNat_of_nonneg (by omega)
    exact_mod_cast this
  refine ⟨_, rfl, by omega, ?_, ?_⟩
  · intro h
    rw [min_eq_right h, div_self hL.ne'] at h1 hr ⊢
    have := (abs_le.1 hr).2
    have : ((npRound 1 : ℤ) : ℝ) < 2 := by linarith
    have : npRound 1 < 2 := by exact_mod_cast this
    omega
  · intro h
    rw [hcast]
    rw [min_eq_left h] at hr ⊢
    exact hr

/-- **C45.** Rasterising a trace gives the points at the equidistant positions `0, L / n, 2 L / n, ..., L`: it starts at the
start, ends at the end, and no position is repeated or left out. `n` is the number nearest to `L / width`, or one if the width
exceeds the length. -/
theorem C45_positions {segs : List TSeg} {start : Lcs ℝ} {t : Trace} (ht : mkTrace segs start = .ok t)
    (hs : ∀ s ∈ segs, IsHorizontal s) {F : ℝ → Lcs ℝ} (hF : ∀ q, 0 ≤ q → q ≤ t.length → t.localCs q = .ok (F q))
    {width : ℝ} (hw : 0 < width) :
    ∃ n : ℕ, 0 < n ∧ (t.length ≤ width → n = 1) ∧ (width ≤ t.length → |(n : ℝ) - t.length / width| ≤ 1 / 2) ∧
      t.rasterize width = .ok ((List.range (n + 1)).map fun i : ℕ => (F (i * t.length / n)).coordinates) := by
  have h := mkTrace_spec ht
  have hL := h.length_pos
  obtain ⟨n, hn, hn0, h1, h2⟩ := steps_spec hL hw
  refine ⟨n, hn0, h1, h2, ?_⟩
  have hn' : (0 : ℝ) < n := by exact_mod_cast hn0
  have hloop := rasterLoop_eq h hs hF (w := t.length / n) (div_nonneg hL.le hn'.le) (List.range n) 0 List.pairwise_lt_range
    (by
      intro i hi
      rw [List.mem_range] at hi
      have : (i : ℝ) ≤ n := by exact_mod_cast hi.le
      rw [← mul_div_assoc, div_le_iff₀ hn']
      nlinarith)
    (fun i _ => .inl rfl)
  obtain ⟨f, hf⟩ := joint_exists h (k := segs.length) le_rfl
  have hlast : t.lookup.getLast? = some f := by
    rw [List.getLast?_eq_getElem?, h.tables.lenA, Nat.add_sub_cancel]
    exact (joint_iff h).1 hf
  have hend : F t.length = f := by
    have a := hF t.length hL.le le_rfl
    have b := C44_joint ht hs le_rfl hf
    rw [← h.length_eq, a] at b
    exact Except.ok.inj b
  unfold Trace.rasterize
  rw [if_neg (not_not.2 hw)]
  simp only [hn, hloop, hlast, bind, Except.bind]
  rw [List.range_succ, List.map_append, List.map_cons, List.map_nil]
  congr 2
  · apply List.map_congr_left
    intro i _
    rw [mul_div_assoc]
  · rw [mul_div_cancel_left₀ _ hn'.ne', hend]

/-- **C45.** A width that is not positive is refused. -/
theorem C45_refused (t : Trace) {width : ℝ} (h : width ≤ 0) : t.rasterize width = .error .valueError := by
  unfold Trace.rasterize
  rw [if_pos (not_lt.2 h)]

/-- **C45.** The distance of two positions is between 3/4 and 3/2 of the requested width if the width does not exceed the
length of the trace. -/
theorem C45_step {L width : ℝ} {n : ℕ} (hw : 0 < width) (hwL : width ≤ L) (hn : 0 < n)
    (h : |(n : ℝ) - L / width| ≤ 1 / 2) : 3 / 4 * width ≤ L / n ∧ L / n ≤ 3 / 2 * width := by
  have hn' : (1 : ℝ) ≤ n := by exact_mod_cast hn
  obtain ⟨h1, h2⟩ := abs_le.1 h
  set x := L / width with hx
  have hL : L = x * width := by rw [hx, div_mul_cancel₀ _ hw.ne']
  have hx1 : 1 ≤ x := by rw [hx, le_div_iff₀ hw, one_mul]; exact hwL
  have hnp : (0 : ℝ) < n := by linarith
  rw [le_div_iff₀ hnp, div_le_iff₀ hnp]
  have lo : 3 / 4 * (n : ℝ) ≤ x := by
    rcases Nat.lt_or_ge n 2 with h | h
    · have : n = 1 := by omega
      subst this
      norm_num; linarith
    · have : (2 : ℝ) ≤ n := by exact_mod_cast h
      linarith
  have hi : x ≤ 3 / 2 * (n : ℝ) := by linarith
  rw [hL]
  constructor <;> nlinarith

/-- **C45.** Consecutive raster points are at most one step apart. -/
theorem C45_dense {segs : List TSeg} {start : Lcs ℝ} {t : Trace} (ht : mkTrace segs start = .ok t)
    (hs : ∀ s ∈ segs, IsHorizontal s) (ho : start.Orthonormal) {width : ℝ} (hw : 0 < width) (hwL : width ≤ t.length)
    {r : List (Vec3 ℝ)} (hr : t.rasterize width = .ok r) {i : ℕ} {p q : Vec3 ℝ} (hp : r[i]? = some p)
    (hq : r[i + 1]? = some q) : dist3 p q ≤ 3 / 2 * width := by
  have hL := (mkTrace_spec ht).length_pos
  have hex : ∀ q, ∃ f, 0 ≤ q → q ≤ t.length → t.localCs q = .ok f := by
    intro q
    by_cases hq : 0 ≤ q ∧ q ≤ t.length
    · obtain ⟨g, -, hg⟩ := C44_plane ht hs hq.1 hq.2
      exact ⟨_, fun _ _ => hg⟩
    · exact ⟨Lcs.default, fun a b => absurd ⟨a, b⟩ hq⟩
  choose F hF using hex
  obtain ⟨n, hn, -, h2, h3⟩ := C45_positions ht hs hF hw
  rw [hr] at h3
  cases h3
  have hn' : (0 : ℝ) < n := by exact_mod_cast hn
  rw [List.getElem?_map] at hp hq
  have hlt : i + 1 < n + 1 := by
    by_contra hcon
    rw [List.getElem?_eq_none (by simp; omega)] at hq
    cases hq
  rw [List.getElem?_range (by omega)] at hp hq
  simp only [Option.map_some, Option.some.injEq] at hp hq
  subst hp
  subst hq
  have hi : ((i + 1 : ℕ) : ℝ) ≤ n := by exact_mod_cast (show i + 1 ≤ n by omega)
  have e : ((i + 1 : ℕ) : ℝ) * t.length / n = i * t.length / n + t.length / n := by push_cast; ring
  have hstep : 0 < t.length / n := div_pos hL hn'
  have h0 : 0 ≤ (i : ℝ) * t.length / n := by positivity
  have hb : ((i + 1 : ℕ) : ℝ) * t.length / n ≤ t.length := by
    rw [div_le_iff₀ hn']; nlinarith
  refine le_trans (C44_no_jump ht hs ho h0 (by linarith) hb (hF _ h0 (by linarith)) (hF _ (by linarith) hb)) ?_
  rw [e, add_sub_cancel_left]
  exact (C45_step hw hwL hn (h2 hwL)).2

/-! ### positions of the profiles of a geometry -/

/-- `np.arange(0, stop, step)` -/
noncomputable def arange (stop step : ℝ) : List ℝ := (List.range ⌈stop / step⌉.toNat).map fun i : ℕ => i * step

/-- `Geometry._rasterize_trace`, `geometry.py` 2299-2325 -/
noncomputable def geometryLocations (traceLength width : ℝ) : Except TErr (List ℝ) :=
  if ¬ width > 0 then .error .valueError
  else
    let width := min width traceLength
    let num := (npRound (traceLength / width)).toNat
    let widthEff := traceLength / num
    .ok (arange (traceLength - widthEff / 2) widthEff ++ [traceLength])

/-- **C45.** The positions at which a geometry is rasterised are the ones at which its trace is rasterised: `np.arange` stops
before the end, which is added. -/
theorem C45_geometry {L width : ℝ} (hL : 0 < L) (hw : 0 < width) :
    ∃ n : ℕ, 0 < n ∧ (L ≤ width → n = 1) ∧ (width ≤ L → |(n : ℝ) - L / width| ≤ 1 / 2) ∧
      geometryLocations L width = .ok ((List.range (n + 1)).map fun i : ℕ => (i : ℝ) * L / n) := by
  obtain ⟨n, hn, hn0, h1, h2⟩ := steps_spec hL hw
  refine ⟨n, hn0, h1, h2, ?_⟩
  have hn' : (0 : ℝ) < n := by exact_mod_cast hn0
  have hc : clip width 0 L = min width L := by unfold clip; rw [max_eq_left hw.le]
  rw [hc] at hn
  unfold geometryLocations arange
  rw [if_neg (not_not.2 hw)]
  simp only [hn]
  have hce : ⌈(L - L / n / 2) / (L / n)⌉ = n := by
    have e : (L - L / n / 2) / (L / n) = n - 1 / 2 := by
      field_simp
    rw [e, Int.ceil_eq_iff]
    push_cast
    constructor <;> linarith
  rw [hce, Int.toNat_natCast, List.range_succ, List.map_append, List.map_cons, List.map_nil]
  congr 2
  · apply List.map_congr_left
    intro i _
    rw [mul_div_assoc]
  · rw [mul_div_cancel_left₀ _ hn'.ne']

/-- non-trivial example: a straight trace of length one, rasterised with width 0.4, has `n = 2`, since 2 is nearest to 2.5 (a
tie goes to the even number) -/
example : ((npRound (1 / clip (2 / 5) 0 1)).toNat = 2) := by
  have hc : clip (2 / 5) 0 1 = 2 / 5 := Geo.clip_of_mem (by norm_num) (by norm_num)
  have hf : ⌊(1 : ℝ) / (2 / 5)⌋ = 2 := by rw [Int.floor_eq_iff]; norm_num
  rw [hc]
  unfold npRound
  rw [Int.fract, hf]
  norm_num
  rfl

end Weldx.Tr
