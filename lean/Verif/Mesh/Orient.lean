import Verif.Mesh.Props
import Mathlib.Data.Real.Basic
import Mathlib.Algebra.BigOperators.Intervals
import Mathlib.Algebra.BigOperators.Ring.Finset
import Mathlib.Tactic.Linarith
import Mathlib.Tactic.Ring
import Mathlib.Tactic.LinearCombination
import Mathlib.Tactic.Positivity

/-!
# Orientation of the triangulated surface (C59)

`has_cw_ordering` decides which side of the triangles is the outer one. The specification is the signed volume enclosed by
the triangles: it is positive if and only if the triangles are oriented towards the outside.
-/

namespace Weldx.Mesh

open Finset

/-- `has_cw_ordering`, `geometry.py` 38-49; the `n` points of a profile have the coordinates `y i` and `z i` -/
noncomputable def hasCw (n : ℕ) (y z : ℕ → ℝ) : Bool :=
  if ∑ i ∈ range (n - 1), (y (i + 1) - y i) * (z (i + 1) + z i) < 0 then false else true

/-! ### specification -/

/-- points in space -/
abbrev V3 := ℝ × ℝ × ℝ

/-- determinant -/
def det3 (p q r : V3) : ℝ :=
  p.1 * (q.2.1 * r.2.2 - q.2.2 * r.2.1) - p.2.1 * (q.1 * r.2.2 - q.2.2 * r.1) + p.2.2 * (q.1 * r.2.1 - q.2.1 * r.1)

/-- six times the volume enclosed by triangles -/
def volume6 (pts : ℕ → V3) (l : List Tri) : ℝ := (l.map fun t => det3 (pts t.a) (pts t.b) (pts t.c)).sum

/-- points of a straight sweep: point `i` of profile `j` has the number `j * n + i`; the profiles have `x j` as
`x`-coordinate -/
def sweep (n : ℕ) (x y z : ℕ → ℝ) (k : ℕ) : V3 := (x (k / n), y (k % n), z (k % n))

/-- twice the signed area of a polygon (positive if the corners are ordered counter-clockwise) -/
def area2 (n : ℕ) (y z : ℕ → ℝ) : ℝ := ∑ i ∈ range n, (y i * z (next n i) - z i * y (next n i))

/-! ### proofs -/

theorem mul_list_sum (c : ℝ) (f : ℕ → ℝ) : ∀ l : List ℕ, c * (l.map f).sum = (l.map fun i => c * f i).sum
  | [] => by simp
  | a :: l => by simp only [List.map_cons, List.sum_cons, mul_add, mul_list_sum c f l]

theorem volume6_append (pts : ℕ → V3) (l l' : List Tri) : volume6 pts (l ++ l') = volume6 pts l + volume6 pts l' := by
  simp [volume6]

theorem volume6_flatMap {α : Type} (pts : ℕ → V3) (f : α → List Tri) : ∀ l : List α,
    volume6 pts (l.flatMap f) = (l.map fun a => volume6 pts (f a)).sum
  | [] => by simp [volume6]
  | a :: l => by rw [List.flatMap_cons, volume6_append, volume6_flatMap pts f l]; simp

theorem sum_list_range (f : ℕ → ℝ) : ∀ n, ((List.range n).map f).sum = ∑ i ∈ range n, f i
  | 0 => by simp
  | n + 1 => by rw [List.range_succ, List.map_append, List.sum_append, sum_list_range f n, sum_range_succ]; simp

theorem volume6_flip (pts : ℕ → V3) : ∀ l : List Tri, volume6 pts (l.map Tri.flip) = - volume6 pts l
  | [] => by simp [volume6]
  | t :: l => by
    have ih := volume6_flip pts l
    simp only [volume6, List.map_cons, List.sum_cons] at ih ⊢
    rw [ih]
    simp only [Tri.flip, det3]
    ring

theorem sweep_at {n : ℕ} (x y z : ℕ → ℝ) {j i : ℕ} (hi : i < n) : sweep n x y z (j * n + i) = (x j, y i, z i) := by
  unfold sweep
  have h1 : (j * n + i) / n = j := by
    rw [Nat.add_comm, Nat.add_mul_div_right _ _ (by omega), Nat.div_eq_of_lt hi]; omega
  have h2 : (j * n + i) % n = i := by
    rw [Nat.add_comm, Nat.add_mul_mod_self_right, Nat.mod_eq_of_lt hi]
  rw [h1, h2]

theorem volume_side {m n : ℕ} (x y z : ℕ → ℝ) :
    volume6 (sweep n x y z) (profileTriangles m n 0 false) = 2 * (x (m - 1) - x 0) * area2 n y z := by
  unfold profileTriangles
  rw [volume6_flatMap, sum_list_range]
  have hj : ∀ j, volume6 (sweep n x y z) (((List.range n).flatMap (baseTriangles n false)).map fun t => t.shift (j * n + 0)) =
      (x (j + 1) - x j) * (2 * area2 n y z) := by
    intro j
    rw [List.map_flatMap, volume6_flatMap, sum_list_range]
    unfold area2
    rw [mul_sum, mul_sum]
    apply sum_congr rfl
    intro i hi
    rw [mem_range] at hi
    have hn := next_lt (by omega) hi
    simp only [baseTriangles, mod_next hi, Bool.false_eq_true, if_false, List.map_cons, List.map_nil, volume6, Tri.shift,
      List.sum_cons, List.sum_nil]
    have e1 : i + (j * n + 0) = j * n + i := by omega
    have e2 : next n i + (j * n + 0) = j * n + next n i := by omega
    have e3 : i + n + (j * n + 0) = (j + 1) * n + i := by rw [Nat.add_mul]; omega
    have e4 : next n i + n + (j * n + 0) = (j + 1) * n + next n i := by rw [Nat.add_mul]; omega
    rw [e1, e2, e3, e4, sweep_at x y z hi, sweep_at x y z hn, sweep_at x y z hi, sweep_at x y z hn]
    simp only [det3]
    ring
  rw [sum_congr rfl (fun j _ => hj j), ← sum_mul, sum_range_sub]
  ring

/-- the area of the triangles of a front -/
theorem front_area {n : ℕ} (hn : 2 ≤ n) (f : ℕ → ℕ → ℝ) (hf : ∀ a b, f a b = - f b a) : ∀ d t, t + d = n - 2 →
    ((List.range' t d).map fun t => f (frontTri n t).1 (frontTri n t).2.1 + f (frontTri n t).2.1 (frontTri n t).2.2 +
      f (frontTri n t).2.2 (frontTri n t).1).sum =
      ∑ i ∈ Ico ((t + 1) / 2) (n - 1 - t / 2), f i (i + 1) + f (n - 1 - t / 2) ((t + 1) / 2)
  | 0, t, h => by
    have e : n - 1 - t / 2 = (t + 1) / 2 + 1 := by omega
    rw [e]
    simp [hf ((t + 1) / 2 + 1)]
  | d + 1, t, h => by
    rw [List.range'_succ, List.map_cons, List.sum_cons, front_area hn f hf d (t + 1) (by omega)]
    unfold frontTri
    by_cases ht : t % 2 = 0
    · have e1 : (t + 1) / 2 = t / 2 := by omega
      have e2 : (t + 1 + 1) / 2 = t / 2 + 1 := by omega
      simp only [e1, e2, if_pos ht]
      rw [sum_eq_sum_Ico_succ_bot (show t / 2 < n - 1 - t / 2 by omega)]
      rw [hf (t / 2 + 1) (n - 1 - t / 2)]
      ring
    · have e1 : (t + 1) / 2 = t / 2 + 1 := by omega
      have e2 : (t + 1 + 1) / 2 = t / 2 + 1 := by omega
      have e3 : n - 1 - t / 2 = n - 1 - (t / 2 + 1) + 1 := by omega
      have e4 : n - (t / 2 + 1) = n - 1 - (t / 2 + 1) + 1 := by omega
      simp only [e1, e2, if_neg ht]
      rw [e3, e4, sum_Ico_succ_top (show t / 2 + 1 ≤ n - 1 - (t / 2 + 1) by omega)]
      rw [hf (t / 2 + 1) (n - 1 - (t / 2 + 1))]
      ring

theorem area2_eq {n : ℕ} (hn : 1 ≤ n) (y z : ℕ → ℝ) : area2 n y z =
    ∑ i ∈ range (n - 1), (y i * z (i + 1) - z i * y (i + 1)) + (y (n - 1) * z 0 - z (n - 1) * y 0) := by
  obtain ⟨k, rfl⟩ : ∃ k, n = k + 1 := ⟨n - 1, by omega⟩
  unfold area2
  rw [sum_range_succ]
  have h1 : ∀ i ∈ range k, y i * z (next (k + 1) i) - z i * y (next (k + 1) i) = y i * z (i + 1) - z i * y (i + 1) := by
    intro i hi
    rw [mem_range] at hi
    have : next (k + 1) i = i + 1 := by unfold next; split <;> omega
    rw [this]
  have h2 : next (k + 1) k = 0 := by unfold next; split <;> omega
  rw [sum_congr rfl h1, h2]
  rfl

theorem frontTri_lt {n t : ℕ} (h : t + 2 < n) : (frontTri n t).1 < n ∧ (frontTri n t).2.1 < n ∧ (frontTri n t).2.2 < n := by
  unfold frontTri; split <;> simp only <;> omega

theorem volume_front {n : ℕ} (hn : 2 ≤ n) (j : ℕ) (x y z : ℕ → ℝ) :
    volume6 (sweep n x y z) ((frontLoop n 0 0 0).map fun t => t.shift (j * n)) = x j * area2 n y z := by
  have h := frontLoop_eq hn 0 (n - 2) 0 (by omega)
  simp only [Nat.zero_add, Nat.reduceDiv] at h
  have ha := front_area hn (fun a b => y a * z b - z a * y b) (by intro a b; ring) (n - 2) 0 (by omega)
  simp only [Nat.zero_add, Nat.reduceDiv, Nat.sub_zero] at ha
  rw [area2_eq (by omega), range_eq_Ico, ← ha, h, mul_list_sum]
  unfold volume6
  rw [List.map_map, List.map_map]
  congr 1
  apply List.map_congr_left
  intro t ht
  rw [List.mem_range'_1] at ht
  obtain ⟨l1, l2, l3⟩ := frontTri_lt (n := n) (t := t) (by omega)
  simp only [Function.comp, Tri.shift, Nat.add_zero]
  rw [Nat.add_comm _ (j * n), Nat.add_comm _ (j * n), Nat.add_comm _ (j * n), sweep_at x y z l1, sweep_at x y z l2,
    sweep_at x y z l3]
  simp only [det3]
  ring

theorem volume_ccw {m n : ℕ} (hn : 2 ≤ n) (x y z : ℕ → ℝ) :
    volume6 (sweep n x y z) (shapeTriangles ⟨m, n, false⟩ 0 true) = 3 * (x (m - 1) - x 0) * area2 n y z := by
  simp only [shapeTriangles, if_true, frontBackTriangles, Bool.false_eq_true, if_false]
  rw [volume6_append, volume6_append, volume_side, volume6_flip, volume_front hn]
  have : volume6 (sweep n x y z) (frontLoop n 0 0 0) = x 0 * area2 n y z := by
    rw [← volume_front hn 0 x y z]
    congr 1
    conv_lhs => rw [← List.map_id (frontLoop n 0 0 0)]
    apply List.map_congr_left
    intro t _
    simp [Tri.shift]
  rw [this]
  ring

/-- **C59.** The triangles of a straight sweep enclose the volume `length * area`, with positive sign if the reported
direction is the one of the points and with negative sign otherwise. -/
theorem C59_volume {m n : ℕ} (hn : 2 ≤ n) (x y z : ℕ → ℝ) (cw : Bool) :
    volume6 (sweep n x y z) (shapeTriangles ⟨m, n, cw⟩ 0 true) =
      (if cw then -1 else 1) * (6 * ((x (m - 1) - x 0) * (area2 n y z / 2))) := by
  cases cw with
  | false => rw [volume_ccw hn]; simp; ring
  | true => rw [shape_cw_flip, volume6_flip, volume_ccw hn]; simp; ring

/-- the sum of the code and the area -/
theorem cw_sum {n : ℕ} (hn : 1 ≤ n) (y z : ℕ → ℝ) :
    ∑ i ∈ range (n - 1), (y (i + 1) - y i) * (z (i + 1) + z i) =
      - area2 n y z - (y 0 - y (n - 1)) * (z 0 + z (n - 1)) := by
  rw [area2_eq hn]
  have h : ∀ i ∈ range (n - 1), (y (i + 1) - y i) * (z (i + 1) + z i) =
      (y (i + 1) * z (i + 1) - y i * z i) - (y i * z (i + 1) - z i * y (i + 1)) := by intro i _; ring
  rw [sum_congr rfl h, sum_sub_distrib, sum_range_sub (fun i => y i * z i)]
  ring

/-- **C59.** The direction is reported correctly if the first point is repeated at the end, or if for another reason the
edge from the last to the first point does not contribute to the sum.

Partial: in general the edge contributes, see `C59_counterexample`; the full statement is the one without `h`. -/
theorem C59_direction_partial {n : ℕ} (hn : 1 ≤ n) (y z : ℕ → ℝ)
    (h : y (n - 1) = y 0 ∨ z (n - 1) = - z 0) (ha : area2 n y z ≠ 0) :
    hasCw n y z = true ↔ area2 n y z < 0 := by
  have hs := cw_sum hn y z
  have h0 : (y 0 - y (n - 1)) * (z 0 + z (n - 1)) = 0 := by
    rcases h with h | h <;> rw [h] <;> ring
  rw [h0, sub_zero] at hs
  unfold hasCw
  rw [hs]
  constructor
  · intro hc
    by_contra hge
    have : 0 < area2 n y z := lt_of_le_of_ne (not_lt.1 hge) (Ne.symm ha)
    rw [if_pos (by linarith)] at hc
    exact absurd hc (by simp)
  · intro hlt
    rw [if_neg (by linarith)]

/-- **C59.** Under the same condition the triangles of a straight sweep are oriented towards the outside: the enclosed
volume is positive. -/
theorem C59_outward_partial {m n : ℕ} (hn : 2 ≤ n) (x y z : ℕ → ℝ) (hx : x 0 < x (m - 1))
    (h : y (n - 1) = y 0 ∨ z (n - 1) = - z 0) (ha : area2 n y z ≠ 0) :
    0 < volume6 (sweep n x y z) (shapeTriangles ⟨m, n, hasCw n y z⟩ 0 true) := by
  rw [C59_volume hn]
  have hd := C59_direction_partial (by omega) y z h ha
  have hl : 0 < x (m - 1) - x 0 := by linarith
  cases hc : hasCw n y z with
  | true =>
    have := hd.1 hc
    simp only [if_true]
    nlinarith
  | false =>
    have : 0 < area2 n y z := by
      rcases lt_or_gt_of_ne ha with h' | h'
      · rw [hd.2 h'] at hc; exact absurd hc (by simp)
      · exact h'
    simp only [Bool.false_eq_true, if_false]
    nlinarith

/-- the triangle (0, 0), (1, 0), (2, 1) -/
def obtuse : (ℕ → ℝ) × (ℕ → ℝ) := (fun i => i, fun i => if i = 2 then 1 else 0)

/-- **C59.** The full statement is false: the corners of this triangle are ordered counter-clockwise, but
`has_cw_ordering` reports the other direction, since it leaves out the edge from the last point to the first. The surface of
its straight sweep is turned inside out: the enclosed volume is negative. -/
theorem C59_counterexample : 0 < area2 3 obtuse.1 obtuse.2 ∧ hasCw 3 obtuse.1 obtuse.2 = true ∧
    volume6 (sweep 3 (fun j => j) obtuse.1 obtuse.2) (shapeTriangles ⟨2, 3, hasCw 3 obtuse.1 obtuse.2⟩ 0 true) < 0 := by
  have ha : area2 3 obtuse.1 obtuse.2 = 1 := by
    rw [area2_eq (by norm_num)]
    simp [sum_range_succ, obtuse]
  have hc : hasCw 3 obtuse.1 obtuse.2 = true := by
    unfold hasCw
    rw [if_neg]
    simp [sum_range_succ, obtuse]
  refine ⟨by rw [ha]; norm_num, hc, ?_⟩
  rw [C59_volume (by norm_num), hc, ha]
  norm_num

/-- non-trivial example: the unit square with the first point repeated -/
example : area2 5 (fun i => if i = 1 ∨ i = 2 then 1 else 0) (fun i => if i = 2 ∨ i = 3 then 1 else 0) = 2 := by
  rw [area2_eq (by norm_num)]
  simp [sum_range_succ]
  norm_num

end Weldx.Mesh
