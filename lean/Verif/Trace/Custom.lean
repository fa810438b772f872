import Verif.Trace.Segments

/-!
# Custom trace segments (C60)

Tangents of discrete series and the system that is made from a tangent.
-/

namespace Weldx.Tr

open Matrix

/-! ### systems from tangents -/

theorem lcsFromTangent_false (T x : Vec3 ℝ) : lcsFromTangent false T x =
    (fromAxisVectors (some x) (some (crossProduct ![0, 0, 1] x)) none T).mapError .lcs := rfl

theorem lcsFromTangent_true (T x : Vec3 ℝ) : lcsFromTangent true T x =
    (fromAxisVectors none (some (crossProduct ![0, 0, 1] x)) (some ![0, 0, 1]) T).mapError .lcs := rfl

theorem cross_z (x : Vec3 ℝ) : crossProduct ![0, 0, 1] x = ![-x 1, x 0, 0] := by
  ext i; fin_cases i <;> simp [cross_apply]

/-- **C60.** If the tangent is not vertical the system of a trace segment is orthonormal and right-handed with the given
origin. Its first axis points along the tangent and its second axis is horizontal, to the left. -/
theorem C60_free (T x : Vec3 ℝ) (h : x 0 ≠ 0 ∨ x 1 ≠ 0) : ∃ f, lcsFromTangent false T x = .ok f ∧ f.Orthonormal ∧
    f.handedness = 1 ∧ f.coordinates = T ∧ (∃ s : ℝ, 0 < s ∧ x = s • f.axis 0) ∧
      ∃ s : ℝ, 0 < s ∧ ![-x 1, x 0, 0] = s • f.axis 1 := by
  have hx : x ≠ 0 := by rintro rfl; simp at h
  have hy : (![-x 1, x 0, 0] : Vec3 ℝ) ≠ 0 := by
    intro hc
    have h0 := congrFun hc 0
    have h1 := congrFun hc 1
    simp at h0 h1
    rcases h with h | h
    · exact h h1
    · exact h h0
  obtain ⟨f, h1, h2⟩ := (C04_from_two_axes x _ T hx hy (by simp [dot3]; ring)).1
  rw [lcsFromTangent_false, cross_z, h1]
  exact ⟨f, rfl, h2⟩

/-- **C60.** With the orientation limited to the x-y-plane the third axis is vertical, and the first axis points along the
horizontal part of the tangent. -/
theorem C60_limited (T x : Vec3 ℝ) (h : x 0 ≠ 0 ∨ x 1 ≠ 0) : ∃ f, lcsFromTangent true T x = .ok f ∧ f.Orthonormal ∧
    f.handedness = 1 ∧ f.coordinates = T ∧ f.axis 2 = ![0, 0, 1] ∧ ∃ s : ℝ, 0 < s ∧ ![x 0, x 1, 0] = s • f.axis 0 := by
  have hy : (![-x 1, x 0, 0] : Vec3 ℝ) ≠ 0 := by
    intro hc
    have h0 := congrFun hc 0
    have h1 := congrFun hc 1
    simp at h0 h1
    rcases h with h | h
    · exact h h1
    · exact h h0
  have hz : (![0, 0, 1] : Vec3 ℝ) ≠ 0 := by
    intro hc
    have := congrFun hc 2
    simp at this
  obtain ⟨f, h1, h2, h3, h4, -, h6⟩ := (C04_from_two_axes _ _ T hy hz (by simp [dot3])).2.2
  have hc : construct (Matrix.of fun i j => (![crossProduct ![-x 1, x 0, 0] ![0, 0, 1], ![-x 1, x 0, 0], ![0, 0, 1]] :
      Fin 3 → Vec3 ℝ) j i) T = .ok f := h1
  have h7 := (C03_construct_result _ _ _ hc).2.2 0
  rw [lcsFromTangent_true, cross_z, h1]
  refine ⟨f, rfl, h2, h3, h4, ?_, ?_⟩
  · obtain ⟨s, hs, he⟩ := h6
    have hn := h2 2 2
    rw [if_pos rfl] at hn
    have e0 := congrFun he 0
    have e1 := congrFun he 1
    have e2 := congrFun he 2
    simp only [Pi.smul_apply, smul_eq_mul, Matrix.cons_val_zero, Matrix.cons_val_one, Matrix.cons_val] at e0 e1 e2
    have a0 : f.axis 2 0 = 0 := by rcases mul_eq_zero.1 e0.symm with h | h; exacts [absurd h hs.ne', h]
    have a1 : f.axis 2 1 = 0 := by rcases mul_eq_zero.1 e1.symm with h | h; exacts [absurd h hs.ne', h]
    have a2 : 0 < f.axis 2 2 := by
      by_contra hcon
      nlinarith
    rw [dot3, a0, a1] at hn
    have : f.axis 2 2 = 1 := by nlinarith
    ext i; fin_cases i
    · exact a0
    · exact a1
    · exact this
  · obtain ⟨s, hs, he⟩ := h7
    refine ⟨s, hs, ?_⟩
    rw [← he]
    ext i; fin_cases i <;> simp [cross_apply]

/-- **C60.** A vertical tangent, or none, is refused. -/
theorem C60_vertical (limit : Bool) (T x : Vec3 ℝ) (h0 : x 0 = 0) (h1 : x 1 = 0) :
    lcsFromTangent limit T x = .error (.lcs .zeroLength) := by
  have key : ∀ a b : Vec3 ℝ, construct (Matrix.of fun i j => (![a, crossProduct ![0, 0, 1] x, b] : Fin 3 → Vec3 ℝ) j i) T =
      .error .zeroLength := by
    intro a b
    unfold construct checkAndNormalize normalizeColumns
    rw [if_neg]
    · rfl
    · intro h
      apply h 1
      rw [norm2_eq_zero_iff, cross_z, h0, h1]
      ext i; fin_cases i <;> simp
  unfold lcsFromTangent
  cases limit
  · simp only [Bool.false_eq_true, if_false]
    rw [key]; rfl
  · simp only [if_true]
    rw [key]; rfl

/-! ### tangents of discrete series -/

theorem argmin_spec : ∀ l : List ℝ, l ≠ [] → argmin l < l.length ∧
    (∀ j, (hj : j < l.length) → l.getD (argmin l) 0 ≤ l[j]) ∧ ∀ j, (hj : j < l.length) → j < argmin l → l.getD (argmin l) 0 < l[j]
  | [], h => absurd rfl h
  | [a], _ => by simp [argmin]
  | a :: b :: l, _ => by
    obtain ⟨h1, h2, h3⟩ := argmin_spec (b :: l) (by simp)
    unfold argmin
    split
    · rename_i h
      refine ⟨by simp, ?_, by simp⟩
      intro j hj
      rw [List.getD_cons_zero]
      cases j with
      | zero => simp
      | succ j =>
        rw [List.getElem_cons_succ]
        exact le_trans h (h2 j (by simpa using hj))
    · rename_i h
      refine ⟨by simpa using h1, ?_, ?_⟩
      · intro j hj
        rw [List.getD_cons_succ]
        cases j with
        | zero => exact (not_le.1 h).le
        | succ j => exact h2 j (by simpa using hj)
      · intro j hj hlt
        rw [List.getD_cons_succ]
        cases j with
        | zero => exact not_le.1 h
        | succ j => exact h3 j (by simpa using hj) (by omega)

/-- positions in ascending order -/
def Ascending (data : Data) : Prop := (data.map Prod.fst).Pairwise (· < ·)

/-- interpolation returns the given points -/
theorem interp_at : ∀ (data : Data), Ascending data → ∀ k, (hk : k < data.length) → interpDisc data data[k].1 = data[k].2
  | [], _, k, hk => by simp at hk
  | [p], _, k, hk => by
    have : k = 0 := by simpa using hk
    subst this; rfl
  | p :: q :: l, h, 0, _ => by simp [interpDisc]
  | p :: q :: l, h, k + 1, hk => by
    have h' := List.pairwise_cons.1 h
    have ih := interp_at (q :: l) h'.2 k (by simpa using hk)
    have hlt : p.1 < (p :: q :: l)[k + 1].1 := by
      apply h'.1
      rw [List.getElem_cons_succ]
      exact List.mem_map.2 ⟨_, List.getElem_mem _, rfl⟩
    simp only [interpDisc]
    rw [if_neg (not_le.2 hlt)]
    cases k with
    | zero =>
      have hpq : p.1 < q.1 := hlt
      have hd : (q.1 - p.1) / (q.1 - p.1) = 1 := div_self (by linarith)
      simp only [List.getElem_cons_succ, List.getElem_cons_zero, le_refl, if_true]
      rw [hd, one_smul]
      abel
    | succ k =>
      have hlt2 : q.1 < (p :: q :: l)[k + 1 + 1].1 := by
        have h2 := List.pairwise_cons.1 h'.2
        apply h2.1
        rw [List.getElem_cons_succ, List.getElem_cons_succ]
        exact List.mem_map.2 ⟨_, List.getElem_mem _, rfl⟩
      rw [if_neg (not_le.2 hlt2)]
      exact ih

theorem asc_lt {data : Data} (h : Ascending data) {i j : ℕ} (hij : i < j) (hj : j < data.length) :
    (data[i]'(by omega)).1 < data[j].1 := by
  have := List.pairwise_iff_getElem.1 h i j (by simp; omega) (by simpa using hj) hij
  simpa using this

theorem getD_fst {data : Data} {k : ℕ} (hk : k < data.length) : (data.map Prod.fst).getD k 0 = data[k].1 := by
  rw [List.getD_eq_getElem?_getD, List.getElem?_map, List.getElem?_eq_getElem hk]; rfl

/-- the index of the nearest position -/
theorem nearest {data : Data} (hne : data ≠ []) (s : ℝ) : ∃ k, (data.map fun p => |p.1 - s|) ≠ [] ∧
    argmin ((data.map Prod.fst).map fun p => |p - s|) = k ∧ ∃ hk : k < data.length,
      ∀ j, (hj : j < data.length) → |data[k].1 - s| ≤ |data[j].1 - s| := by
  have h := argmin_spec ((data.map Prod.fst).map fun p => |p - s|) (by simpa using hne)
  have hk : argmin ((data.map Prod.fst).map fun p => |p - s|) < data.length := by simpa using h.1
  refine ⟨_, by simpa using hne, rfl, hk, ?_⟩
  intro j hj
  have := h.2.1 j (by simpa using hj)
  rw [List.getD_eq_getElem?_getD, List.getElem?_eq_getElem h.1, Option.getD_some] at this
  simpa using this

/-- **C60.** The tangent at a position between two points of a discrete series is the difference of these points; at a point
it belongs to the following piece, at the last point and behind it to the last piece. -/
theorem C60_discrete_tangent {data : Data} (h : Ascending data) {k : ℕ} (hk : k + 1 < data.length) {s : ℝ}
    (h0 : data[k].1 ≤ s) (h1 : s < data[k + 1].1 ∨ k + 2 = data.length) :
    tangentDisc data s = data[k + 1].2 - data[k].2 := by
  have hne : data ≠ [] := by rintro rfl; simp at hk
  obtain ⟨i, -, hi, hil, hmin⟩ := nearest hne s
  unfold tangentDisc
  simp only [hi]
  rw [getD_fst hil]
  have hlen : (data.map Prod.fst).length = data.length := by simp
  rw [hlen]
  -- the nearest position is one of the two
  have hik : i = k ∨ i = k + 1 := by
    by_contra hcon
    rw [not_or] at hcon
    rcases Nat.lt_or_ge i k with hlt | hge
    · have a := asc_lt h hlt (by omega)
      have b := hmin k (by omega)
      rw [abs_of_nonpos (by linarith), abs_of_nonpos (by linarith)] at b
      linarith
    · have hlt : k + 1 < i := by omega
      have a := asc_lt h hlt hil
      rcases h1 with h1 | h1
      · have b := hmin (k + 1) hk
        rw [abs_of_nonneg (by linarith), abs_of_nonneg (by linarith)] at b
        linarith
      · omega
  rcases hik with rfl | rfl
  · rw [if_neg (by rw [not_or]; exact ⟨not_lt.2 h0, by omega⟩)]
    simp only
    rw [getD_fst hk, getD_fst (by omega), interp_at data h _ hk, interp_at data h _ (by omega)]
  · have hc : data[k + 1].1 > s ∨ k + 1 + 1 = data.length := by
      rcases h1 with h1 | h1
      · exact .inl h1
      · exact .inr (by omega)
    rw [if_pos hc]
    simp only [Nat.add_eq_zero_iff, one_ne_zero, and_false, if_false, Nat.add_sub_cancel]
    rw [getD_fst hk, getD_fst (by omega), interp_at data h _ hk, interp_at data h _ (by omega)]

/-- **C60.** Before the first point the tangent is the vector from the last to the first point, since the index of the code
becomes `-1`; the direction of the first piece would be expected. -/
theorem C60_before_first {data : Data} (h : Ascending data) (hl : 2 ≤ data.length) {s : ℝ} (h0 : s < data[0].1) :
    tangentDisc data s = data[0].2 - data[data.length - 1].2 := by
  have hne : data ≠ [] := by rintro rfl; simp at hl
  obtain ⟨i, -, hi, hil, hmin⟩ := nearest hne s
  have hi0 : i = 0 := by
    by_contra hcon
    have a := asc_lt h (show 0 < i by omega) hil
    have b := hmin 0 (by omega)
    rw [abs_of_nonneg (by linarith), abs_of_nonneg (by linarith)] at b
    linarith
  subst hi0
  unfold tangentDisc
  simp only [hi]
  rw [getD_fst hil, if_pos (.inl h0)]
  simp only [if_true, List.length_map]
  rw [getD_fst hil, getD_fst (by omega), interp_at data h _ hil, interp_at data h _ (by omega)]

/-- **C60.** The length of a series of points is the sum of the distances of neighbours. -/
theorem C60_data_length (data : Data) :
    (TSeg.disc data false).length = ∑ i ∈ Finset.range (data.length - 1), norm2 ((data.map Prod.snd).getD (i + 1) 0 - (data.map Prod.snd).getD i 0) := by
  simp only [TSeg.length]
  induction data with
  | nil => simp [dataLength]
  | cons p l ih =>
    cases l with
    | nil => simp [dataLength]
    | cons q l =>
      simp only [dataLength, ih, List.length_cons, Nat.add_sub_cancel]
      rw [Finset.sum_range_succ', add_comm]
      simp

/-- non-trivial example: an L-shaped series -/
example : tangentDisc [(0, ![0, 0, 0]), (1, ![2, 0, 0]), (3, ![2, 5, 0])] 1 = ![0, 5, 0] := by
  have h : Ascending [(0, ![0, 0, 0]), (1, ![2, 0, 0]), (3, ![2, 5, 0])] := by
    unfold Ascending; norm_num
  have := C60_discrete_tangent h (k := 1) (by simp) (s := 1) (by simp) (.inl (by simp))
  rw [this]
  ext i; fin_cases i <;> simp

end Weldx.Tr
