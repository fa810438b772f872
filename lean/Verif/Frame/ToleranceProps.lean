import Verif.Frame.Tolerance
import Verif.Frame.Props
import Mathlib.Analysis.Matrix.Normed
import Mathlib.Tactic.NormNum
import Mathlib.Tactic.Linarith

/-!
# What the tolerance of the orthogonality check means (C94)
-/

namespace Weldx

open Matrix

/-! ## Specification -/

/-- Euclidean length of all elements of a matrix -/
noncomputable def frob (A : Mat3 ℝ) : ℝ := √(∑ i, ∑ j, A i j ^ 2)

/-- how far a matrix is from being orthogonal -/
noncomputable def defect (R : Mat3 ℝ) : ℝ := frob (Rᵀ * R - 1)

/-- the systems of a calculation -/
def Calc.systems : Calc → List (Lcs ℝ)
  | .system f => [f]
  | .sum a b => a.systems ++ b.systems
  | .inverse a => a.systems

/-- the number of operations of a calculation -/
def Calc.steps : Calc → ℕ
  | .system _ => 0
  | .sum a b => a.steps + b.steps + 1
  | .inverse a => a.steps + 1

/-- the result without rounding and checks -/
def Calc.exact : Calc → Lcs ℝ
  | .system f => f
  | .sum a b => a.exact.add b.exact
  | .inverse a => a.exact.invert

/-! ## Norms -/

section norms

open scoped Matrix.Norms.Frobenius

theorem frob_eq (A : Mat3 ℝ) : frob A = ‖A‖ := by
  rw [frob, frobenius_norm_def, Real.sqrt_eq_rpow]
  congr 1
  refine Finset.sum_congr rfl fun i _ => Finset.sum_congr rfl fun j _ => ?_
  rw [Real.norm_eq_abs, Real.rpow_two, sq_abs]

theorem frob_nonneg (A : Mat3 ℝ) : 0 ≤ frob A := Real.sqrt_nonneg _

theorem frob_add (A B : Mat3 ℝ) : frob (A + B) ≤ frob A + frob B := by
  simp only [frob_eq]; exact norm_add_le A B

theorem frob_mul (A B : Mat3 ℝ) : frob (A * B) ≤ frob A * frob B := by
  simp only [frob_eq]; exact frobenius_norm_mul A B

end norms

theorem frob_sq (A : Mat3 ℝ) : frob A ^ 2 = ∑ i, ∑ j, A i j ^ 2 :=
  Real.sq_sqrt (Finset.sum_nonneg fun _ _ => Finset.sum_nonneg fun _ _ => sq_nonneg _)

theorem entry_le_frob (A : Mat3 ℝ) (i j : Fin 3) : |A i j| ≤ frob A := by
  apply abs_le_of_sq_le_sq _ (frob_nonneg A)
  rw [frob_sq]
  have h1 : A i j ^ 2 ≤ ∑ j, A i j ^ 2 :=
    Finset.single_le_sum (f := fun j => A i j ^ 2) (fun _ _ => sq_nonneg _) (Finset.mem_univ j)
  have h2 : ∑ j, A i j ^ 2 ≤ ∑ i, ∑ j, A i j ^ 2 :=
    Finset.single_le_sum (f := fun i => ∑ j, A i j ^ 2) (fun _ _ => Finset.sum_nonneg fun _ _ => sq_nonneg _) (Finset.mem_univ i)
  exact h1.trans h2

theorem frob_le_of_entries {A B : Mat3 ℝ} {c : ℝ} (hc : 0 ≤ c) (h : ∀ i j, |A i j| ≤ c * |B i j|) : frob A ≤ c * frob B := by
  apply abs_le_of_sq_le_sq' _ (mul_nonneg hc (frob_nonneg B)) |>.2
  rw [mul_pow, frob_sq, frob_sq, Finset.mul_sum]
  refine Finset.sum_le_sum fun i _ => ?_
  rw [Finset.mul_sum]
  refine Finset.sum_le_sum fun j _ => ?_
  rw [← sq_abs (A i j), ← sq_abs (B i j), ← mul_pow]
  exact pow_le_pow_left₀ (abs_nonneg _) (h i j) 2

/-- rows and columns have the same defect -/
theorem defect_transpose (R : Mat3 ℝ) : defect Rᵀ = defect R := by
  unfold defect frob
  congr 1
  simp only [Fin.sum_univ_three, Matrix.sub_apply, Matrix.mul_apply, Matrix.transpose_apply, Matrix.one_apply]
  simp
  ring

theorem defect_nonneg (R : Mat3 ℝ) : 0 ≤ defect R := frob_nonneg _

theorem inner_le (A B : Mat3 ℝ) : ∑ i, ∑ j, A i j * B i j ≤ frob A * frob B := by
  have h := Finset.sum_mul_sq_le_sq_mul_sq (Finset.univ : Finset (Fin 3 × Fin 3)) (fun x => A x.1 x.2) (fun x => B x.1 x.2)
  simp only [Fintype.sum_prod_type] at h
  rw [← frob_sq, ← frob_sq, ← mul_pow] at h
  exact (abs_le_of_sq_le_sq' h (mul_nonneg (frob_nonneg A) (frob_nonneg B))).2

theorem frob_conj (b X : Mat3 ℝ) : frob (b * X * bᵀ) ≤ (1 + defect b) * frob X := by
  set E := bᵀ * b - 1 with hE
  have hP : bᵀ * b = 1 + E := by rw [hE]; abel
  have h1 : frob (b * X * bᵀ) ^ 2 = ∑ i, ∑ j, X i j * ((bᵀ * b) * X * (bᵀ * b)) i j := by
    rw [frob_sq]
    have e1 : ∑ i, ∑ j, (b * X * bᵀ) i j ^ 2 = ((b * X * bᵀ)ᵀ * (b * X * bᵀ)).trace := by
      simp only [Matrix.trace, Matrix.diag, Matrix.mul_apply (M := (b * X * bᵀ)ᵀ), Matrix.transpose_apply]
      rw [Finset.sum_comm]
      exact Finset.sum_congr rfl fun i _ => Finset.sum_congr rfl fun j _ => by ring
    have e2 : ∑ i, ∑ j, X i j * ((bᵀ * b) * X * (bᵀ * b)) i j = (Xᵀ * ((bᵀ * b) * X * (bᵀ * b))).trace := by
      simp only [Matrix.trace, Matrix.diag, Matrix.mul_apply (M := Xᵀ), Matrix.transpose_apply]
      rw [Finset.sum_comm]
    rw [e1, e2]
    have e3 : (b * X * bᵀ)ᵀ * (b * X * bᵀ) = b * (Xᵀ * (bᵀ * b) * X * bᵀ) := by
      simp only [Matrix.transpose_mul, Matrix.transpose_transpose, Matrix.mul_assoc]
    rw [e3, Matrix.trace_mul_comm]
    congr 1
    simp only [Matrix.mul_assoc]
  have h2 : frob ((bᵀ * b) * X * (bᵀ * b)) ≤ (1 + defect b) ^ 2 * frob X := by
    have e : (bᵀ * b) * X * (bᵀ * b) = X + (E * X + X * E + E * X * E) := by rw [hP]; noncomm_ring
    rw [e]
    have a1 := frob_add X (E * X + X * E + E * X * E)
    have a2 := frob_add (E * X + X * E) (E * X * E)
    have a3 := frob_add (E * X) (X * E)
    have a4 := frob_mul E X
    have a5 := frob_mul X E
    have a6 := frob_mul (E * X) E
    have a7 : frob (E * X) * frob E ≤ frob E * frob X * frob E := mul_le_mul_of_nonneg_right a4 (frob_nonneg _)
    have hd : defect b = frob E := rfl
    rw [hd]
    nlinarith
  have h3 := inner_le X ((bᵀ * b) * X * (bᵀ * b))
  have hd := defect_nonneg b
  have hX := frob_nonneg X
  apply (abs_le_of_sq_le_sq' _ (mul_nonneg (by linarith) hX)).2
  rw [h1, mul_pow]
  refine h3.trans ?_
  have := mul_le_mul_of_nonneg_left h2 hX
  nlinarith

/-- the defects of a product: `1 + defect` is submultiplicative -/
theorem defect_mul (a b : Mat3 ℝ) : defect (b * a) ≤ (1 + defect a) * (1 + defect b) - 1 := by
  have e : (b * a)ᵀ * (b * a) - 1 = aᵀ * (bᵀ * b - 1) * aᵀᵀ + (aᵀ * a - 1) := by
    rw [Matrix.transpose_mul, Matrix.transpose_transpose]; noncomm_ring
  have h1 := frob_add (aᵀ * (bᵀ * b - 1) * aᵀᵀ) (aᵀ * a - 1)
  have h2 := frob_conj aᵀ (bᵀ * b - 1)
  rw [defect_transpose] at h2
  have : defect (b * a) = frob ((b * a)ᵀ * (b * a) - 1) := rfl
  rw [this, e]
  have hb : frob (bᵀ * b - 1) = defect b := rfl
  have ha : frob (aᵀ * a - 1) = defect a := rfl
  rw [hb] at h2
  rw [ha] at h1
  linarith

/-! ## Normalisation -/

theorem normalize_cases (M : Mat3 ℝ) :
    ((∃ j, (fun i => M i j) = 0) ∧ normalizeColumns M = .error .zeroLength) ∨
      ((∀ j, (fun i => M i j) ≠ 0) ∧ normalizeColumns M = .ok (Matrix.of fun i j => M i j / norm2 fun i => M i j)) := by
  unfold normalizeColumns
  by_cases h : ∀ j, norm2 (fun i => M i j) ≠ 0
  · right
    rw [if_pos h]
    exact ⟨fun j => mt (norm2_eq_zero_iff _).2 (h j), rfl⟩
  · left
    rw [if_neg h]
    push Not at h
    obtain ⟨j, hj⟩ := h
    exact ⟨⟨j, (norm2_eq_zero_iff _).1 hj⟩, rfl⟩

theorem gram_col (M : Mat3 ℝ) (j k : Fin 3) : (Mᵀ * M) j k = dot3 (fun i => M i j) (fun i => M i k) := by
  simp [Matrix.mul_apply, Fin.sum_univ_three, dot3]

theorem norm2_pos {v : Vec3 ℝ} (h : v ≠ 0) : 0 < norm2 v :=
  lt_of_le_of_ne (norm2_nonneg v) fun hc => h ((norm2_eq_zero_iff v).1 hc.symm)

theorem gram_normalized {M N : Mat3 ℝ} (h : normalizeColumns M = .ok N) (j k : Fin 3) :
    (Nᵀ * N) j k = (Mᵀ * M) j k / (norm2 (fun i => M i j) * norm2 fun i => M i k) := by
  rcases normalize_cases M with ⟨-, h'⟩ | ⟨h0, h'⟩
  · rw [h'] at h; cases h
  · rw [h'] at h
    cases h
    have hj := (norm2_pos (h0 j)).ne'
    have hk := (norm2_pos (h0 k)).ne'
    rw [gram_col, gram_col]
    simp only [dot3, Matrix.of_apply]
    field_simp

theorem gram_unit {M N : Mat3 ℝ} (h : normalizeColumns M = .ok N) (j : Fin 3) : (Nᵀ * N) j j = 1 := by
  rw [gram_normalized h, gram_col, ← norm2_sq, sq]
  rcases normalize_cases M with ⟨-, h'⟩ | ⟨h0, -⟩
  · rw [h'] at h; cases h
  · have hj := (norm2_pos (h0 j)).ne'
    rw [div_self (mul_ne_zero hj hj)]

theorem normalize_unit {N : Mat3 ℝ} (h : ∀ j, (Nᵀ * N) j j = 1) : normalizeColumns N = .ok N := by
  have hn : ∀ j, norm2 (fun i => N i j) = 1 := fun j => by
    have := h j
    rw [gram_col, ← norm2_sq] at this
    have h0 := norm2_nonneg fun i => N i j
    nlinarith
  rcases normalize_cases N with ⟨⟨j, hj⟩, -⟩ | ⟨-, h'⟩
  · have := hn j
    rw [hj, (norm2_eq_zero_iff 0).2 rfl] at this
    norm_num at this
  · rw [h']
    congr 1
    ext i j
    simp [hn]

theorem defect_normalized {M N : Mat3 ℝ} (h : normalizeColumns M = .ok N) (hd : defect M < 1) :
    defect N ≤ defect M / (1 - defect M) := by
  have hpos : 0 < 1 - defect M := by linarith
  have hnorm : ∀ j, 1 - defect M ≤ norm2 (fun i => M i j) ^ 2 := fun j => by
    have h1 := entry_le_frob (Mᵀ * M - 1) j j
    rw [Matrix.sub_apply, Matrix.one_apply_eq, gram_col, ← norm2_sq] at h1
    have h2 : |norm2 (fun i => M i j) ^ 2 - 1| ≤ defect M := h1
    have := (abs_le.1 h2).1
    linarith
  have key := frob_le_of_entries (A := Nᵀ * N - 1) (B := Mᵀ * M - 1) (c := 1 / (1 - defect M)) (by positivity) (by
    intro j k
    by_cases hjk : j = k
    · subst hjk
      rw [Matrix.sub_apply, gram_unit h, Matrix.one_apply_eq, sub_self, abs_zero]
      positivity
    · rw [Matrix.sub_apply, Matrix.sub_apply, Matrix.one_apply_ne hjk, sub_zero, sub_zero, gram_normalized h, abs_div]
      have hp : 1 - defect M ≤ |norm2 (fun i => M i j) * norm2 fun i => M i k| := by
        rw [abs_of_nonneg (mul_nonneg (norm2_nonneg _) (norm2_nonneg _))]
        have hj := hnorm j
        have hk := hnorm k
        have := mul_le_mul hj hk hpos.le (sq_nonneg _)
        rw [← mul_pow, ← sq] at this
        exact (abs_le_of_sq_le_sq' this (mul_nonneg (norm2_nonneg _) (norm2_nonneg _))).2
      rw [div_mul_eq_mul_div, one_mul]
      exact div_le_div_of_nonneg_left (abs_nonneg _) hpos hp)
  have e : frob (Nᵀ * N - 1) = defect N := rfl
  have e' : frob (Mᵀ * M - 1) = defect M := rfl
  rw [e, e', one_div_mul_eq_div] at key
  exact key

/-! ## Acceptance -/

theorem constructTol_ok {M : Mat3 ℝ} {T : Vec3 ℝ} {f : Lcs ℝ} :
    constructTol M T = .ok f ↔ normalizeColumns M = .ok f.orientation ∧ nearlyOrthogonal f.orientation ∧ f.coordinates = T := by
  unfold constructTol checkTol
  cases h : normalizeColumns M with
  | error e => simp
  | ok N =>
    by_cases hN : nearlyOrthogonal N
    · simp only [hN, if_true, Except.ok.injEq]
      constructor
      · rintro rfl; exact ⟨rfl, hN, rfl⟩
      · rintro ⟨rfl, -, rfl⟩; rfl
    · simp only [hN, if_false, Except.ok.injEq, reduceCtorEq, false_iff]
      rintro ⟨rfl, h', -⟩
      exact hN h'

theorem nearly_of_defect {R : Mat3 ℝ} (h : defect R ≤ 1 / 10 ^ 8) : nearlyOrthogonal R := by
  intro i j
  have h1 := entry_le_frob (R * Rᵀ - 1) i j
  have h2 : frob (R * Rᵀ - 1) = defect Rᵀ := by simp [defect]
  rw [h2, defect_transpose, Matrix.sub_apply] at h1
  unfold nearly
  have : (0 : ℝ) ≤ 1 / 10 ^ 5 * |(1 : Mat3 ℝ) i j| := by positivity
  linarith

/-- **C94, orthogonal axes.** What the check with equality accepts is accepted with tolerance, with the same result. -/
theorem C94_exact {M : Mat3 ℝ} {T : Vec3 ℝ} {f : Lcs ℝ} (h : construct M T = .ok f) : constructTol M T = .ok f := by
  have ho := (C03_construct_result M T f h).1
  unfold construct checkAndNormalize at h
  cases hN : normalizeColumns M with
  | error e => rw [hN] at h; cases h
  | ok N =>
    rw [hN] at h
    simp only [bind, Except.bind] at h
    split at h
    · cases h
    · rename_i N' hN'
      split at hN'
      · cases hN'
        cases h
        refine constructTol_ok.2 ⟨hN, nearly_of_defect ?_, rfl⟩
        have := (Lcs.orthonormal_iff _).1 ho
        change defect N ≤ _
        have e : defect N = 0 := by
          unfold defect
          rw [this, sub_self]
          simp [frob]
        rw [e]
        positivity
      · cases hN'

theorem orthonormal_defect {f : Lcs ℝ} : f.Orthonormal ↔ defect f.orientation = 0 := by
  rw [Lcs.orthonormal_iff]
  constructor
  · intro h
    unfold defect
    rw [h, sub_self]
    simp [frob]
  · intro h
    ext i j
    have := entry_le_frob (f.orientationᵀ * f.orientation - 1) i j
    have h' : frob (f.orientationᵀ * f.orientation - 1) = 0 := h
    rw [h'] at this
    have := abs_eq_zero.1 (le_antisymm this (abs_nonneg _))
    rw [Matrix.sub_apply] at this
    linarith

theorem accepted_defect_sq {M : Mat3 ℝ} {T : Vec3 ℝ} {f : Lcs ℝ} (h : constructTol M T = .ok f) :
    defect f.orientation ^ 2 ≤ 2 * (1001 / 10 ^ 8) ^ 2 + 6 * (1 / 10 ^ 8) ^ 2 := by
  obtain ⟨hN, hO, hT⟩ := constructTol_ok.1 h
  have hsum : defect f.orientationᵀ ^ 2 = defect f.orientation ^ 2 := by rw [defect_transpose]
  set R := f.orientation with hR
  have hd : ∀ j, |(R * Rᵀ) j j - 1| ≤ 1001 / 10 ^ 8 := fun j => by
    have := hO j j
    rw [nearly, Matrix.one_apply_eq, abs_one] at this
    norm_num at this ⊢
    linarith
  have ho : ∀ j k, j ≠ k → |(R * Rᵀ) j k| ≤ 1 / 10 ^ 8 := fun j k hjk => by
    have := hO j k
    rw [nearly, Matrix.one_apply_ne hjk, abs_zero, sub_zero, mul_zero, add_zero] at this
    exact this
  have htr : (R * Rᵀ) 0 0 + (R * Rᵀ) 1 1 + (R * Rᵀ) 2 2 = 3 := by
    have h0 := gram_unit hN 0
    have h1 := gram_unit hN 1
    have h2 := gram_unit hN 2
    have := Matrix.trace_mul_comm R Rᵀ
    simp only [Matrix.trace, Matrix.diag, Fin.sum_univ_three] at this
    rw [this, h0, h1, h2]
    norm_num
  have hsq : ∀ {x c : ℝ}, |x| ≤ c → x ^ 2 ≤ c ^ 2 := fun {x c} h => by
    rw [← sq_abs]; exact pow_le_pow_left₀ (abs_nonneg _) h 2
  have hE : defect Rᵀ ^ 2 ≤ 2 * (1001 / 10 ^ 8) ^ 2 + 6 * (1 / 10 ^ 8) ^ 2 := by
    unfold defect
    rw [frob_sq, Matrix.transpose_transpose]
    simp only [Fin.sum_univ_three, Matrix.sub_apply]
    rw [Matrix.one_apply_eq, Matrix.one_apply_eq, Matrix.one_apply_eq, Matrix.one_apply_ne (show (0 : Fin 3) ≠ 1 by decide),
      Matrix.one_apply_ne (show (0 : Fin 3) ≠ 2 by decide), Matrix.one_apply_ne (show (1 : Fin 3) ≠ 0 by decide),
      Matrix.one_apply_ne (show (1 : Fin 3) ≠ 2 by decide), Matrix.one_apply_ne (show (2 : Fin 3) ≠ 0 by decide),
      Matrix.one_apply_ne (show (2 : Fin 3) ≠ 1 by decide)]
    simp only [sub_zero]
    have s01 := hsq (ho 0 1 (by decide))
    have s02 := hsq (ho 0 2 (by decide))
    have s10 := hsq (ho 1 0 (by decide))
    have s12 := hsq (ho 1 2 (by decide))
    have s20 := hsq (ho 2 0 (by decide))
    have s21 := hsq (ho 2 1 (by decide))
    have d0 := hsq (hd 0)
    have d1 := hsq (hd 1)
    have d2 := hsq (hd 2)
    have hthree : ∀ {x y z c : ℝ}, x + y + z = 0 → x ^ 2 ≤ c → y ^ 2 ≤ c → z ^ 2 ≤ c → x ^ 2 + y ^ 2 + z ^ 2 ≤ 2 * c := by
      intro x y z c hxyz hx hy hz
      have hzz : z = -(x + y) := by linarith
      have hyy : y = -(x + z) := by linarith
      have hxx : x = -(y + z) := by linarith
      rcases le_or_gt 0 (x * y) with hp | hp
      · have : x ^ 2 + y ^ 2 ≤ z ^ 2 := by rw [hzz]; nlinarith
        linarith
      · rcases le_or_gt 0 (x * z) with hq | hq
        · have : x ^ 2 + z ^ 2 ≤ y ^ 2 := by rw [hyy]; nlinarith
          linarith
        · have hyz : 0 ≤ y * z := by
            by_contra hc
            push Not at hc
            have h3 : (x * y) * (x * z) * (y * z) = (x * y * z) ^ 2 := by ring
            have h5 : (x * y) * (x * z) * (y * z) < 0 := mul_neg_of_pos_of_neg (mul_pos_of_neg_of_neg hp hq) hc
            have := sq_nonneg (x * y * z)
            linarith
          have : y ^ 2 + z ^ 2 ≤ x ^ 2 := by rw [hxx]; nlinarith
          linarith
    have hthree' := hthree (x := (R * Rᵀ) 0 0 - 1) (y := (R * Rᵀ) 1 1 - 1) (z := (R * Rᵀ) 2 2 - 1) (by linarith) d0 d1 d2
    linarith
  rwa [hsum] at hE

/-- **C94, accepted systems.** The axes of an accepted system have length one, point along the given vectors and are perpendicular up to
`1.002e-5`. The origin is the given one. -/
theorem C94_accepted {M : Mat3 ℝ} {T : Vec3 ℝ} {f : Lcs ℝ} (h : constructTol M T = .ok f) :
    f.coordinates = T ∧ (∀ j, ∃ s : ℝ, 0 < s ∧ (fun i => M i j) = s • f.axis j) ∧ (∀ j, dot3 (f.axis j) (f.axis j) = 1) ∧
      ∀ j k, j ≠ k → |dot3 (f.axis j) (f.axis k)| ≤ 1002 / 10 ^ 8 := by
  obtain ⟨hN, hO, hT⟩ := constructTol_ok.1 h
  have hu : ∀ j, dot3 (f.axis j) (f.axis j) = 1 := fun j => by
    have := gram_unit hN j
    rwa [gram_col] at this
  refine ⟨hT, ?_, hu, ?_⟩
  · intro j
    rcases normalize_cases M with ⟨-, h'⟩ | ⟨h0, h'⟩
    · rw [h'] at hN; cases hN
    · rw [h'] at hN
      refine ⟨_, norm2_pos (h0 j), ?_⟩
      have hR := Except.ok.inj hN
      funext i
      have := (norm2_pos (h0 j)).ne'
      simp only [Lcs.axis, ← hR, Matrix.of_apply, Pi.smul_apply, smul_eq_mul]
      field_simp
  · have hE := accepted_defect_sq h
    set R := f.orientation with hR
    intro j k hjk
    have hdot : dot3 (f.axis j) (f.axis k) = (Rᵀ * R) j k := (gram_col R j k).symm
    rw [hdot]
    have hG : (Rᵀ * R) j k ^ 2 + (Rᵀ * R) k j ^ 2 ≤ defect R ^ 2 := by
      unfold defect
      rw [frob_sq]
      have hne : ∀ a b, a ≠ b → (Rᵀ * R - 1) a b = (Rᵀ * R) a b := fun a b hab => by
        rw [Matrix.sub_apply, Matrix.one_apply_ne hab, sub_zero]
      rw [← hne j k hjk, ← hne k j hjk.symm]
      have hnn : ∀ a b, 0 ≤ (Rᵀ * R - 1) a b ^ 2 := fun a b => sq_nonneg _
      simp only [Fin.sum_univ_three]
      have n00 := hnn 0 0; have n01 := hnn 0 1; have n02 := hnn 0 2
      have n10 := hnn 1 0; have n11 := hnn 1 1; have n12 := hnn 1 2
      have n20 := hnn 2 0; have n21 := hnn 2 1; have n22 := hnn 2 2
      fin_cases j <;> fin_cases k <;> first | (exact absurd rfl hjk) | (simp only [Fin.mk_zero, Fin.mk_one, Fin.reduceFinMk, Fin.zero_eta, Fin.isValue] at *; linarith)
    have hsym : (Rᵀ * R) k j = (Rᵀ * R) j k := by
      rw [gram_col, gram_col]; simp only [dot3]; ring
    rw [hsym] at hG
    apply abs_le_of_sq_le_sq _ (by norm_num)
    norm_num at hE ⊢
    linarith

end Weldx
