import Verif.Frame.RoundedLemmas
import Mathlib.Analysis.SpecialFunctions.Exp
import Mathlib.Data.Int.Log
import Mathlib.Algebra.Order.Round
import Mathlib.Algebra.Order.Field.Power

/-!
# Calculations with rounded numbers are close to the exact result (C107)
-/

namespace Weldx

open Matrix

/-! ## Specification -/

/-- number of systems and operations of a calculation -/
def Calc.size (t : Calc) : ℕ := t.systems.length + t.steps

/-- how many inverses are nested -/
def Calc.depth : Calc → ℕ
  | .system _ => 0
  | .sum a b => max a.depth b.depth
  | .inverse a => a.depth + 1

/-- sum of the distances between each system and its parent -/
noncomputable def Calc.reach : Calc → ℝ
  | .system f => norm2 f.coordinates
  | .sum a b => a.reach + b.reach
  | .inverse a => a.reach

/-! ## Bounds -/

theorem Calc.reach_nonneg : ∀ t : Calc, 0 ≤ t.reach
  | .system _ => norm2_nonneg _
  | .sum a b => add_nonneg a.reach_nonneg b.reach_nonneg
  | .inverse a => a.reach_nonneg

theorem Calc.reach_systems : ∀ t : Calc, t.reach = (t.systems.map fun f => norm2 f.coordinates).sum
  | .system f => by simp [Calc.reach, Calc.systems]
  | .sum a b => by simp [Calc.reach, Calc.systems, a.reach_systems, b.reach_systems]
  | .inverse a => by simp [Calc.reach, Calc.systems, a.reach_systems]

theorem orth_mul {f : Lcs ℝ} (h : f.Orthonormal) : f.orientationᵀ * f.orientation = 1 := (Lcs.orthonormal_iff f).1 h

theorem orth_mul' {f : Lcs ℝ} (h : f.Orthonormal) : f.orientationᵀᵀ * f.orientationᵀ = 1 := by
  rw [Matrix.transpose_transpose]; exact (Lcs.orthonormal_iff' f).1 h

theorem Calc.exact_reach : ∀ (t : Calc), (∀ f ∈ t.systems, f.Orthonormal) → norm2 t.exact.coordinates ≤ t.reach
  | .system f, _ => le_rfl
  | .sum a b, h => by
    have ha := a.exact_reach fun f hf => h f (by simp [Calc.systems, hf])
    have hb := b.exact_reach fun f hf => h f (by simp [Calc.systems, hf])
    have ho := b.exact_orthonormal fun f hf => h f (by simp [Calc.systems, hf])
    have h1 := norm2_add (b.exact.orientation *ᵥ a.exact.coordinates) b.exact.coordinates
    have h2 := norm2_orth (orth_mul ho) a.exact.coordinates
    show norm2 (b.exact.orientation *ᵥ a.exact.coordinates + b.exact.coordinates) ≤ a.reach + b.reach
    linarith
  | .inverse a, h => by
    have ha := a.exact_reach h
    have ho := a.exact_orthonormal h
    have h2 := norm2_orth (orth_mul' ho) (-a.exact.coordinates)
    rw [norm2_neg] at h2
    exact h2.trans ha

/-- bound for the error of the orientation -/
noncomputable def Calc.boundR (t : Calc) : ℝ := t.size / 2 ^ 48 * (1 + 1 / 10 ^ 8) ^ t.steps

/-- bound for the error of the coordinates, relative to the reach -/
noncomputable def Calc.boundT (t : Calc) : ℝ := t.boundR * (1 + t.depth)

theorem Calc.boundR_nonneg (t : Calc) : 0 ≤ t.boundR := by unfold Calc.boundR; positivity

theorem Calc.boundR_le_boundT (t : Calc) : t.boundR ≤ t.boundT := by
  have h := t.boundR_nonneg
  have : (0 : ℝ) ≤ t.depth := Nat.cast_nonneg _
  unfold Calc.boundT
  nlinarith

theorem Calc.boundR_inverse (a : Calc) :
    a.boundR * (1 + 1 / 10 ^ 8) + 1 / 2 ^ 48 ≤ (Calc.inverse a).boundR := by
  have h1 : (1 : ℝ) ≤ (1 + 1 / 10 ^ 8) ^ (a.steps + 1) := one_le_pow₀ (by norm_num)
  have e : (Calc.inverse a).boundR = a.boundR * (1 + 1 / 10 ^ 8) + 1 / 2 ^ 48 * (1 + 1 / 10 ^ 8) ^ (a.steps + 1) := by
    simp only [Calc.boundR, Calc.size, Calc.steps, Calc.systems, pow_succ]
    push_cast; ring
  rw [e]
  have := mul_le_mul_of_nonneg_left h1 (show (0 : ℝ) ≤ 1 / 2 ^ 48 by positivity)
  linarith

theorem Calc.boundR_sum (a b : Calc) :
    (a.boundR + b.boundR) * (1 + 1 / 10 ^ 8) + 1 / 2 ^ 48 ≤ (Calc.sum a b).boundR := by
  set r : ℝ := 1 + 1 / 10 ^ 8 with hr
  have hr1 : (1 : ℝ) ≤ r := by rw [hr]; norm_num
  have h1 : (1 : ℝ) ≤ r ^ (a.steps + b.steps + 1) := one_le_pow₀ hr1
  have p1 : r ^ a.steps ≤ r ^ (a.steps + b.steps) := pow_le_pow_right₀ hr1 (by omega)
  have p2 : r ^ b.steps ≤ r ^ (a.steps + b.steps) := pow_le_pow_right₀ hr1 (by omega)
  have e : (Calc.sum a b).boundR = ((a.size : ℝ) / 2 ^ 48 * r ^ (a.steps + b.steps) +
      (b.size : ℝ) / 2 ^ 48 * r ^ (a.steps + b.steps)) * r + 1 / 2 ^ 48 * r ^ (a.steps + b.steps + 1) := by
    simp only [Calc.boundR, Calc.size, Calc.steps, Calc.systems, pow_succ, List.length_append]
    push_cast; ring
  rw [e]
  have q1 : a.boundR ≤ (a.size : ℝ) / 2 ^ 48 * r ^ (a.steps + b.steps) := mul_le_mul_of_nonneg_left p1 (by positivity)
  have q2 : b.boundR ≤ (b.size : ℝ) / 2 ^ 48 * r ^ (a.steps + b.steps) := mul_le_mul_of_nonneg_left p2 (by positivity)
  have q3 := mul_le_mul_of_nonneg_right (add_le_add q1 q2) (show 0 ≤ r by linarith)
  have q4 := mul_le_mul_of_nonneg_left h1 (show (0 : ℝ) ≤ 1 / 2 ^ 48 by positivity)
  linarith

theorem Calc.boundT_inverse (a : Calc) :
    a.boundT + a.boundR * (1 + 1 / 10 ^ 8) + 1 / 2 ^ 48 ≤ (Calc.inverse a).boundT := by
  have h := a.boundR_inverse
  have h0 := a.boundR_nonneg
  have hd : (0 : ℝ) ≤ a.depth := Nat.cast_nonneg _
  have e : (Calc.inverse a).boundT = (Calc.inverse a).boundR * (2 + a.depth) := by
    simp only [Calc.boundT, Calc.depth]; push_cast; ring
  rw [e, Calc.boundT]
  have h1 := mul_le_mul_of_nonneg_right h (show (0 : ℝ) ≤ 2 + a.depth by linarith)
  refine le_trans ?_ h1
  norm_num
  nlinarith

theorem Calc.boundT_sum (a b : Calc) :
    a.boundT + b.boundR * (1 + 1 / 10 ^ 8) + 1 / 2 ^ 48 ≤ (Calc.sum a b).boundT ∧
    b.boundT + 1 / 2 ^ 48 ≤ (Calc.sum a b).boundT := by
  have h := Calc.boundR_sum a b
  have ha := a.boundR_nonneg
  have hb := b.boundR_nonneg
  have hda : (0 : ℝ) ≤ a.depth := Nat.cast_nonneg _
  have hdb : (0 : ℝ) ≤ b.depth := Nat.cast_nonneg _
  have hm1 : (a.depth : ℝ) ≤ (max a.depth b.depth : ℕ) := by exact_mod_cast le_max_left _ _
  have hm2 : (b.depth : ℝ) ≤ (max a.depth b.depth : ℕ) := by exact_mod_cast le_max_right _ _
  have e : (Calc.sum a b).boundT = (Calc.sum a b).boundR * (1 + (max a.depth b.depth : ℕ)) := rfl
  rw [e, Calc.boundT, Calc.boundT]
  generalize ((max a.depth b.depth : ℕ) : ℝ) = m at *
  have h1 := mul_le_mul_of_nonneg_right h (show (0 : ℝ) ≤ 1 + m by linarith)
  generalize (Calc.sum a b).boundR = X at *
  generalize a.boundR = A at *
  generalize b.boundR = B at *
  have k1 : A * (1 + a.depth) ≤ A * (1 + m) := mul_le_mul_of_nonneg_left (by linarith) ha
  have k2 : B * (1 + b.depth) ≤ B * (1 + m) := mul_le_mul_of_nonneg_left (by linarith) hb
  have k3 : 0 ≤ A * m := mul_nonneg ha (by linarith)
  have k4 : 0 ≤ B * m := mul_nonneg hb (by linarith)
  norm_num at h1 ⊢
  constructor <;> nlinarith

theorem arith_sum {W V U Z dx dy nx ny ra rb A B T E : ℝ}
    (hT1 : A + E * (1 + 1 / 10 ^ 8) + 1 / 2 ^ 48 ≤ T) (hT2 : B + 1 / 2 ^ 48 ≤ T) (hra : 0 ≤ ra) (hrb : 0 ≤ rb)
    (k1 : Z ≤ dx + (E + 7 / 2 ^ 53) * nx) (k4 : (E + 7 / 2 ^ 53) * nx ≤ (E + 7 / 2 ^ 53) * ((1 + 1 / 10 ^ 8) * ra))
    (hx : dx ≤ A * ra) (hy : dy ≤ B * rb) (k7 : W ≤ 1 / 2 ^ 53 * V) (k8 : V ≤ U + ny) (k13 : U ≤ 2 * ra)
    (k3 : ny ≤ (1 + 1 / 10 ^ 8) * rb) {X : ℝ} (hX : X ≤ W + (Z + dy)) : X ≤ T * (ra + rb) := by
  have k5 := mul_le_mul_of_nonneg_right hT1 hra
  have k6 := mul_le_mul_of_nonneg_right hT2 hrb
  have h1 : X ≤ A * ra + E * ((1 + 1 / 10 ^ 8) * ra) + 7 / 2 ^ 53 * ((1 + 1 / 10 ^ 8) * ra) + B * rb +
      1 / 2 ^ 53 * (2 * ra + (1 + 1 / 10 ^ 8) * rb) := by linarith
  refine h1.trans ?_
  rw [mul_add T]
  refine le_trans ?_ (add_le_add k5 k6)
  norm_num
  linarith

/-! ## The error of a calculation -/

section
variable {fl : ℝ → ℝ} (hfl : Rounding fl)

include hfl

theorem store_close {f : Lcs ℝ} (h : f.Orthonormal) :
    ∃ g, storeF fl f = .ok g ∧ frob (g.orientation - f.orientation) ≤ 1 / 2 ^ 48 ∧
      norm2 (g.coordinates - f.coordinates) ≤ 1 / 2 ^ 53 * norm2 f.coordinates := by
  have hF : frob f.orientation ≤ 1733 / 1000 := frob_unit_cols (col_unit (orth_mul h))
  have h1 : frob (Matrix.of (fun i j => fl (f.orientation i j)) - f.orientation) ≤ 2 / 2 ^ 53 := by
    have := frob_le_of_entries (A := Matrix.of (fun i j => fl (f.orientation i j)) - f.orientation)
      (B := f.orientation) (c := 1 / 2 ^ 53) (by positivity) fun i j => (hfl.bounds (f.orientation i j)).2
    refine this.trans ?_
    norm_num
    linarith
  obtain ⟨R, hR, hd⟩ := constructF_near hfl (orth_mul h) (fun i => fl (f.coordinates i)) h1 (by norm_num)
  refine ⟨_, hR, hd.trans (by norm_num), ?_⟩
  exact norm2_le_of_entries (by positivity) fun i => (hfl.bounds (f.coordinates i)).2

/-- a product of a rounded matrix and a rounded vector -/
theorem mulVec_close {R Q : Mat3 ℝ} (hQ : Qᵀ * Q = 1) {e : ℝ} (he : frob (R - Q) ≤ e) (he1 : e ≤ 4 / 10 ^ 9)
    (v w : Vec3 ℝ) :
    norm2 (mulVecF fl R v - Q *ᵥ w) ≤ norm2 (v - w) + (e + 7 / 2 ^ 53) * norm2 v := by
  have hFQ : frob Q ≤ 1733 / 1000 := frob_unit_cols (col_unit hQ)
  have hFR : frob R ≤ 1734 / 1000 := by
    have := frob_sub_le R Q
    norm_num at he1 ⊢
    linarith
  have h1 := mulVecF_error hfl R v
  have h2 := norm2_mulVec_frob (R - Q) v
  have h3 := norm2_orth hQ (v - w)
  have h4 := norm2_add (mulVecF fl R v - R *ᵥ v) ((R - Q) *ᵥ v + Q *ᵥ (v - w))
  have h5 := norm2_add ((R - Q) *ᵥ v) (Q *ᵥ (v - w))
  have e1 : mulVecF fl R v - R *ᵥ v + ((R - Q) *ᵥ v + Q *ᵥ (v - w)) = mulVecF fl R v - Q *ᵥ w := by
    rw [Matrix.sub_mulVec, Matrix.mulVec_sub]; abel
  rw [e1] at h4
  have hv := norm2_nonneg v
  have h6 := mul_le_mul_of_nonneg_right he hv
  have h7 := mul_le_mul_of_nonneg_right hFR hv
  norm_num at h1 h7 ⊢
  linarith

/-- The result of a calculation with rounded numbers exists and is close to the exact one. -/
theorem evalF_close : ∀ (t : Calc), (∀ f ∈ t.systems, f.Orthonormal) → t.boundT ≤ 38 / 10 ^ 10 →
    ∃ g, t.evalF fl = .ok g ∧ frob (g.orientation - t.exact.orientation) ≤ t.boundR ∧
      norm2 (g.coordinates - t.exact.coordinates) ≤ t.boundT * t.reach
  | .system f, h, _ => by
    obtain ⟨g, h1, h2, h3⟩ := store_close hfl (h f (by simp [Calc.systems]))
    refine ⟨g, h1, h2.trans ?_, h3.trans ?_⟩
    · simp [Calc.boundR, Calc.size, Calc.steps, Calc.systems]
    · refine mul_le_mul_of_nonneg_right ?_ (norm2_nonneg _)
      simp [Calc.boundT, Calc.boundR, Calc.size, Calc.steps, Calc.systems, Calc.depth]
      norm_num
  | .inverse a, h, hb => by
    have hT := a.boundT_inverse
    have hR := a.boundR_inverse
    have hR0 := a.boundR_nonneg
    have hRT := a.boundR_le_boundT
    have hRT' := (Calc.inverse a).boundR_le_boundT
    have hba : a.boundT ≤ 38 / 10 ^ 10 := by
      norm_num at hT hb ⊢; linarith
    obtain ⟨x, hx, h1, h2⟩ := evalF_close a h hba
    have ho := a.exact_orthonormal h
    have hr := a.exact_reach h
    have h1' : frob (x.orientationᵀ - a.exact.orientationᵀ) ≤ a.boundR := by
      rw [← Matrix.transpose_sub, frob_transpose]; exact h1
    have hsmall : a.boundR ≤ 4 / 10 ^ 9 := by norm_num at hba ⊢; linarith
    obtain ⟨R, hc, hd⟩ := constructF_near hfl (orth_mul' ho) (mulVecF fl x.orientationᵀ (-x.coordinates)) h1' hsmall
    have hev : (Calc.inverse a).evalF fl = .ok ⟨R, mulVecF fl x.orientationᵀ (-x.coordinates)⟩ := by
      simp only [Calc.evalF, hx]; exact hc
    refine ⟨_, hev, ?_, ?_⟩
    · show frob (R - a.exact.orientationᵀ) ≤ _
      refine hd.trans (le_trans ?_ hR)
      norm_num at hsmall ⊢
      nlinarith
    · show norm2 (mulVecF fl x.orientationᵀ (-x.coordinates) - a.exact.orientationᵀ *ᵥ (-a.exact.coordinates)) ≤
        (Calc.inverse a).boundT * a.reach
      have k1 := mulVec_close hfl (orth_mul' ho) h1' hsmall (-x.coordinates) (-a.exact.coordinates)
      rw [show -x.coordinates - -a.exact.coordinates = -(x.coordinates - a.exact.coordinates) by abel, norm2_neg,
        norm2_neg] at k1
      have k2 := norm2_sub_le x.coordinates a.exact.coordinates
      have k3 : norm2 x.coordinates ≤ (1 + 1 / 10 ^ 8) * a.reach := by
        have := mul_le_mul_of_nonneg_right hba a.reach_nonneg
        norm_num at this ⊢
        linarith [a.reach_nonneg]
      have k4 := mul_le_mul_of_nonneg_left k3 (show 0 ≤ a.boundR + 7 / 2 ^ 53 by positivity)
      have k5 := mul_le_mul_of_nonneg_right hT a.reach_nonneg
      have k6 := a.reach_nonneg
      refine k1.trans (le_trans ?_ k5)
      norm_num at k4 ⊢
      nlinarith
  | .sum a b, h, hb => by
    obtain ⟨hT1, hT2⟩ := Calc.boundT_sum a b
    have hR := Calc.boundR_sum a b
    have ha0 := a.boundR_nonneg
    have hb0 := b.boundR_nonneg
    have haT := a.boundR_le_boundT
    have hbT := b.boundR_le_boundT
    have hab := (Calc.sum a b).boundR_le_boundT
    have hba : a.boundT ≤ 38 / 10 ^ 10 := by norm_num at hT1 hb ⊢; linarith
    have hbb : b.boundT ≤ 38 / 10 ^ 10 := by norm_num at hT2 hb ⊢; linarith
    have hoa : ∀ f ∈ a.systems, f.Orthonormal := fun f hf => h f (by simp [Calc.systems, hf])
    have hob : ∀ f ∈ b.systems, f.Orthonormal := fun f hf => h f (by simp [Calc.systems, hf])
    obtain ⟨x, hx, hx1, hx2⟩ := evalF_close a hoa hba
    obtain ⟨y, hy, hy1, hy2⟩ := evalF_close b hob hbb
    have hOa := a.exact_orthonormal hoa
    have hOb := b.exact_orthonormal hob
    have hra := a.exact_reach hoa
    have hrb := b.exact_reach hob
    have hsum : a.boundR + b.boundR ≤ 38 / 10 ^ 10 := by
      norm_num at hR hb ⊢; nlinarith
    -- orientation
    have p1 : frob (mulF fl y.orientation x.orientation - b.exact.orientation * a.exact.orientation) ≤
        (a.boundR + b.boundR) * (1 + 4 / 10 ^ 9) + 13 / 2 ^ 53 := by
      have hFa : frob a.exact.orientation ≤ 1733 / 1000 := frob_unit_cols (col_unit (orth_mul hOa))
      have hFb : frob b.exact.orientation ≤ 1733 / 1000 := frob_unit_cols (col_unit (orth_mul hOb))
      have hFx : frob x.orientation ≤ 1734 / 1000 := by
        have := frob_sub_le x.orientation a.exact.orientation
        norm_num at hsum ⊢
        linarith
      have hFy : frob y.orientation ≤ 1734 / 1000 := by
        have := frob_sub_le y.orientation b.exact.orientation
        norm_num at hsum ⊢
        linarith
      have m1 := mulF_error hfl y.orientation x.orientation
      have m2 : frob y.orientation * frob x.orientation ≤ 1734 / 1000 * (1734 / 1000) :=
        mul_le_mul hFy hFx (frob_nonneg _) (by norm_num)
      have e1 : y.orientation * x.orientation - b.exact.orientation * a.exact.orientation =
          (y.orientation - b.exact.orientation) * a.exact.orientation +
            b.exact.orientation * (x.orientation - a.exact.orientation) +
            (y.orientation - b.exact.orientation) * (x.orientation - a.exact.orientation) := by
        rw [Matrix.sub_mul, Matrix.mul_sub, Matrix.mul_sub, Matrix.sub_mul, Matrix.sub_mul]; abel
      have m3 := frob_add ((y.orientation - b.exact.orientation) * a.exact.orientation +
            b.exact.orientation * (x.orientation - a.exact.orientation))
            ((y.orientation - b.exact.orientation) * (x.orientation - a.exact.orientation))
      have m4 := frob_add ((y.orientation - b.exact.orientation) * a.exact.orientation)
            (b.exact.orientation * (x.orientation - a.exact.orientation))
      rw [frob_orth_right (orth_mul hOa), frob_orth_left (orth_mul hOb)] at m4
      have m5 := frob_mul (y.orientation - b.exact.orientation) (x.orientation - a.exact.orientation)
      have m6 : frob (y.orientation - b.exact.orientation) * frob (x.orientation - a.exact.orientation) ≤
        b.boundR * a.boundR := mul_le_mul hy1 hx1 (frob_nonneg _) hb0
      rw [← e1] at m3
      have m7 := frob_add (mulF fl y.orientation x.orientation - y.orientation * x.orientation)
        (y.orientation * x.orientation - b.exact.orientation * a.exact.orientation)
      rw [sub_add_sub_cancel] at m7
      have m8 : b.boundR * a.boundR ≤ (a.boundR + b.boundR) * (4 / 10 ^ 9) := by
        norm_num at hsum ⊢; nlinarith
      norm_num at m1 m2 m8 ⊢
      linarith
    have p2 : (a.boundR + b.boundR) * (1 + 4 / 10 ^ 9) + 13 / 2 ^ 53 ≤ 4 / 10 ^ 9 := by
      norm_num at hsum ⊢; linarith
    have hO : (b.exact.orientation * a.exact.orientation)ᵀ * (b.exact.orientation * a.exact.orientation) = 1 := by
      rw [Matrix.transpose_mul, Matrix.mul_assoc, ← Matrix.mul_assoc b.exact.orientationᵀ, orth_mul hOb,
        Matrix.one_mul, orth_mul hOa]
    obtain ⟨R, hc, hd⟩ := constructF_near hfl hO
      (addVecF fl (mulVecF fl y.orientation x.coordinates) y.coordinates) p1 p2
    have hev : (Calc.sum a b).evalF fl =
        .ok ⟨R, addVecF fl (mulVecF fl y.orientation x.coordinates) y.coordinates⟩ := by
      simp only [Calc.evalF, hx, hy]; exact hc
    refine ⟨_, hev, ?_, ?_⟩
    · show frob (R - b.exact.orientation * a.exact.orientation) ≤ _
      refine hd.trans (le_trans ?_ hR)
      have hs0 : 0 ≤ a.boundR + b.boundR := by linarith
      generalize a.boundR + b.boundR = s at *
      norm_num at hsum ⊢
      nlinarith
    · show norm2 (addVecF fl (mulVecF fl y.orientation x.coordinates) y.coordinates -
        (b.exact.orientation *ᵥ a.exact.coordinates + b.exact.coordinates)) ≤ (Calc.sum a b).boundT * (a.reach + b.reach)
      have hsb : b.boundR ≤ 4 / 10 ^ 9 := by norm_num at hbb ⊢; linarith
      have k1 := mulVec_close hfl (orth_mul hOb) hy1 hsb x.coordinates a.exact.coordinates
      have k2 := norm2_sub_le x.coordinates a.exact.coordinates
      have k2' := norm2_sub_le y.coordinates b.exact.coordinates
      have hra0 := a.reach_nonneg
      have hrb0 := b.reach_nonneg
      have k3 : norm2 x.coordinates ≤ (1 + 1 / 10 ^ 8) * a.reach := by
        have := mul_le_mul_of_nonneg_right hba hra0
        norm_num at this ⊢
        linarith
      have k3' : norm2 y.coordinates ≤ (1 + 1 / 10 ^ 8) * b.reach := by
        have := mul_le_mul_of_nonneg_right hbb hrb0
        norm_num at this ⊢
        linarith
      have k4 := mul_le_mul_of_nonneg_left k3 (show 0 ≤ b.boundR + 7 / 2 ^ 53 by positivity)
      have k5 := mul_le_mul_of_nonneg_right hT1 hra0
      have k6 := mul_le_mul_of_nonneg_right hT2 hrb0
      have k7 := addVecF_error hfl (mulVecF fl y.orientation x.coordinates) y.coordinates
      have k8 := norm2_add (mulVecF fl y.orientation x.coordinates) y.coordinates
      have k9 := norm2_sub_le (mulVecF fl y.orientation x.coordinates) (b.exact.orientation *ᵥ a.exact.coordinates)
      have k10 := norm2_orth (orth_mul hOb) a.exact.coordinates
      have k11 := norm2_add (addVecF fl (mulVecF fl y.orientation x.coordinates) y.coordinates -
          (mulVecF fl y.orientation x.coordinates + y.coordinates))
        (mulVecF fl y.orientation x.coordinates - b.exact.orientation *ᵥ a.exact.coordinates +
          (y.coordinates - b.exact.coordinates))
      have k12 := norm2_add (mulVecF fl y.orientation x.coordinates - b.exact.orientation *ᵥ a.exact.coordinates)
          (y.coordinates - b.exact.coordinates)
      have e1 : addVecF fl (mulVecF fl y.orientation x.coordinates) y.coordinates -
          (mulVecF fl y.orientation x.coordinates + y.coordinates) +
        (mulVecF fl y.orientation x.coordinates - b.exact.orientation *ᵥ a.exact.coordinates +
          (y.coordinates - b.exact.coordinates)) = addVecF fl (mulVecF fl y.orientation x.coordinates) y.coordinates -
        (b.exact.orientation *ᵥ a.exact.coordinates + b.exact.coordinates) := by abel
      rw [e1] at k11
      have k13 : norm2 (mulVecF fl y.orientation x.coordinates) ≤ 2 * a.reach := by
        have n1 : (b.boundR + 7 / 2 ^ 53) * ((1 + 1 / 10 ^ 8) * a.reach) ≤ 1 / 100 * a.reach := by
          rw [← mul_assoc]
          refine mul_le_mul_of_nonneg_right ?_ hra0
          norm_num at hsb ⊢
          nlinarith
        have n2 := mul_le_mul_of_nonneg_right hba hra0
        norm_num at n2
        linarith
      exact arith_sum hT1 hT2 hra0 hrb0 k1 k4 hx2 hy2 k7 k8 k13 k3' (k11.trans (add_le_add_right k12 _))

/-- **C107.** A calculation with systems whose axes are orthonormal (sums and inverses in any order, with
rounding after each operation, including the normalisation and the check of the constructor) does not raise
an exception if the number of systems and operations times the depth of nested inverses plus one is at most a
million. The orientation of the result differs from the exact one by at most `4e-15` per system and operation,
the coordinates by this number times the depth plus one, relative to the sum of the distances of the systems
from their parents. -/
theorem C107_calculation (t : Calc) (h : ∀ f ∈ t.systems, f.Orthonormal)
    (hs : t.size * (1 + t.depth) ≤ 10 ^ 6) :
    ∃ g, t.evalF fl = .ok g ∧ frob (g.orientation - t.exact.orientation) ≤ 4 / 10 ^ 15 * t.size ∧
      norm2 (g.coordinates - t.exact.coordinates) ≤
        4 / 10 ^ 15 * (t.size * (1 + t.depth)) * (t.systems.map fun f => norm2 f.coordinates).sum := by
  have hsr : (t.size : ℝ) * (1 + t.depth) ≤ 10 ^ 6 := by exact_mod_cast hs
  have hsz : t.size ≤ 10 ^ 6 := le_trans (Nat.le_mul_of_pos_right _ (by omega)) hs
  have hst : (t.steps : ℝ) ≤ 10 ^ 6 := by
    have : t.steps ≤ 10 ^ 6 := by unfold Calc.size at hsz; omega
    exact_mod_cast this
  have hd0 : (0 : ℝ) ≤ t.depth := Nat.cast_nonneg _
  have hz0 : (0 : ℝ) ≤ t.size := Nat.cast_nonneg _
  -- the growth factor
  have hg : (1 + 1 / 10 ^ 8 : ℝ) ^ t.steps ≤ 102 / 100 := by
    have h1 : (1 + 1 / 10 ^ 8 : ℝ) ≤ Real.exp (1 / 10 ^ 8) := by
      have := Real.add_one_le_exp (1 / 10 ^ 8 : ℝ); linarith
    have h2 := pow_le_pow_left₀ (by norm_num) h1 t.steps
    rw [← Real.exp_nat_mul] at h2
    have h3 : (t.steps : ℝ) * (1 / 10 ^ 8) ≤ 1 / 100 := by
      have := mul_le_mul_of_nonneg_right hst (show (0 : ℝ) ≤ 1 / 10 ^ 8 by positivity)
      refine this.trans ?_; norm_num
    have h4 := Real.exp_le_exp.2 h3
    have h5 : Real.exp (1 / 100) ≤ 102 / 100 := by
      have h6 := Real.add_one_le_exp (-(1 / 100) : ℝ)
      have h7 : Real.exp (1 / 100) * Real.exp (-(1 / 100)) = 1 := by rw [← Real.exp_add]; norm_num
      have h8 := Real.exp_pos (1 / 100 : ℝ)
      nlinarith
    linarith
  have hR : t.boundR ≤ 4 / 10 ^ 15 * t.size := by
    unfold Calc.boundR
    have := mul_le_mul_of_nonneg_left hg (show (0 : ℝ) ≤ t.size / 2 ^ 48 by positivity)
    refine this.trans ?_
    norm_num
    linarith
  have hT : t.boundT ≤ 4 / 10 ^ 15 * (t.size * (1 + t.depth)) := by
    unfold Calc.boundT
    have := mul_le_mul_of_nonneg_right hR (show (0 : ℝ) ≤ 1 + t.depth by linarith)
    linarith
  have hT2 : t.boundT ≤ 38 / 10 ^ 10 := by
    have e : t.boundT = (t.size * (1 + t.depth)) / 2 ^ 48 * (1 + 1 / 10 ^ 8) ^ t.steps := by
      unfold Calc.boundT Calc.boundR; ring
    rw [e]
    have h1 : ((t.size : ℝ) * (1 + t.depth)) / 2 ^ 48 ≤ 10 ^ 6 / 2 ^ 48 :=
      div_le_div_of_nonneg_right hsr (by positivity)
    have h2 := mul_le_mul h1 hg (by positivity) (by positivity)
    refine h2.trans ?_
    norm_num
  obtain ⟨g, h1, h2, h3⟩ := evalF_close hfl t h hT2
  refine ⟨g, h1, h2.trans hR, h3.trans ?_⟩
  rw [← Calc.reach_systems]
  exact mul_le_mul_of_nonneg_right hT t.reach_nonneg

/-- **C107, points.** The place to which the result maps a point. -/
theorem C107_points (t : Calc) (h : ∀ f ∈ t.systems, f.Orthonormal) (hs : t.size * (1 + t.depth) ≤ 10 ^ 6)
    (p : Vec3 ℝ) : ∃ g, t.evalF fl = .ok g ∧ norm2 (g.toParent p - t.exact.toParent p) ≤
      4 / 10 ^ 15 * (t.size * (1 + t.depth)) * (norm2 p + (t.systems.map fun f => norm2 f.coordinates).sum) := by
  obtain ⟨g, h1, h2, h3⟩ := C107_calculation hfl t h hs
  refine ⟨g, h1, ?_⟩
  have e : g.toParent p - t.exact.toParent p =
      (g.orientation - t.exact.orientation) *ᵥ p + (g.coordinates - t.exact.coordinates) := by
    rw [Lcs.toParent_eq, Lcs.toParent_eq, Matrix.sub_mulVec]; abel
  rw [e]
  have h4 := norm2_add ((g.orientation - t.exact.orientation) *ᵥ p) (g.coordinates - t.exact.coordinates)
  have h5 := norm2_mulVec_frob (g.orientation - t.exact.orientation) p
  have hp := norm2_nonneg p
  have h6 := mul_le_mul_of_nonneg_right h2 hp
  have hz0 : (0 : ℝ) ≤ t.size := Nat.cast_nonneg _
  have hd0 : (0 : ℝ) ≤ t.depth := Nat.cast_nonneg _
  have h7 : 4 / 10 ^ 15 * (t.size : ℝ) * norm2 p ≤ 4 / 10 ^ 15 * (t.size * (1 + t.depth)) * norm2 p := by
    refine mul_le_mul_of_nonneg_right ?_ hp
    have : 0 ≤ (t.size : ℝ) * t.depth := mul_nonneg hz0 hd0
    norm_num
    nlinarith
  rw [mul_add (4 / 10 ^ 15 * ((t.size : ℝ) * (1 + t.depth)))]
  linarith

/-- **C107, round trip.** `a + b - b` is `a` up to rounding. -/
theorem C107_round_trip {a b : Lcs ℝ} (ha : a.Orthonormal) (hb : b.Orthonormal) :
    ∃ g, (Calc.sum (.sum (.system a) (.system b)) (.inverse (.system b))).evalF fl = .ok g ∧
      frob (g.orientation - a.orientation) ≤ 24 / 10 ^ 15 ∧
      norm2 (g.coordinates - a.coordinates) ≤ 48 / 10 ^ 15 * (norm2 a.coordinates + 2 * norm2 b.coordinates) := by
  obtain ⟨g, h1, h2, h3⟩ := C107_calculation hfl (.sum (.sum (.system a) (.system b)) (.inverse (.system b)))
    (by simp [Calc.systems, ha, hb]) (by simp [Calc.size, Calc.systems, Calc.steps, Calc.depth])
  have e : (Calc.sum (.sum (.system a) (.system b)) (.inverse (.system b))).exact = a := C02_add_sub_cancel a b hb
  rw [e] at h2 h3
  refine ⟨g, h1, h2.trans ?_, h3.trans ?_⟩
  · simp [Calc.size, Calc.systems, Calc.steps]; norm_num
  · simp [Calc.size, Calc.systems, Calc.steps, Calc.depth]
    have := norm2_nonneg a.coordinates
    have := norm2_nonneg b.coordinates
    norm_num
    linarith

/-- **C107, order of sums.** `(a + b) + c` and `a + (b + c)` agree up to rounding. -/
theorem C107_associative {a b c : Lcs ℝ} (ha : a.Orthonormal) (hb : b.Orthonormal) (hc : c.Orthonormal) :
    ∃ f g, (Calc.sum (.sum (.system a) (.system b)) (.system c)).evalF fl = .ok f ∧
      (Calc.sum (.system a) (.sum (.system b) (.system c))).evalF fl = .ok g ∧
      frob (f.orientation - g.orientation) ≤ 40 / 10 ^ 15 ∧
      norm2 (f.coordinates - g.coordinates) ≤
        40 / 10 ^ 15 * (norm2 a.coordinates + norm2 b.coordinates + norm2 c.coordinates) := by
  obtain ⟨f, h1, h2, h3⟩ := C107_calculation hfl (.sum (.sum (.system a) (.system b)) (.system c))
    (by simp [Calc.systems, ha, hb, hc]) (by simp [Calc.size, Calc.systems, Calc.steps, Calc.depth])
  obtain ⟨g, h4, h5, h6⟩ := C107_calculation hfl (.sum (.system a) (.sum (.system b) (.system c)))
    (by simp [Calc.systems, ha, hb, hc]) (by simp [Calc.size, Calc.systems, Calc.steps, Calc.depth])
  have e : (Calc.sum (.sum (.system a) (.system b)) (.system c)).exact =
    (Calc.sum (.system a) (.sum (.system b) (.system c))).exact := C01_add_assoc a b c
  rw [e] at h2 h3
  refine ⟨f, g, h1, h4, ?_, ?_⟩
  · have h7 := frob_add (f.orientation - (Calc.sum (.system a) (.sum (.system b) (.system c))).exact.orientation)
      ((Calc.sum (.system a) (.sum (.system b) (.system c))).exact.orientation - g.orientation)
    rw [sub_add_sub_cancel, ← frob_neg ((Calc.sum (.system a) (.sum (.system b) (.system c))).exact.orientation - g.orientation),
      neg_sub] at h7
    simp [Calc.size, Calc.systems, Calc.steps] at h2 h5
    norm_num at h2 h5 ⊢
    linarith
  · have h7 := norm2_add (f.coordinates - (Calc.sum (.system a) (.sum (.system b) (.system c))).exact.coordinates)
      ((Calc.sum (.system a) (.sum (.system b) (.system c))).exact.coordinates - g.coordinates)
    rw [sub_add_sub_cancel, ← norm2_neg ((Calc.sum (.system a) (.sum (.system b) (.system c))).exact.coordinates - g.coordinates),
      neg_sub] at h7
    simp [Calc.size, Calc.systems, Calc.steps, Calc.depth] at h3 h6
    norm_num at h3 h6 ⊢
    linarith

end

/-- the sum of systems along a path; `true` marks the systems which are passed against their direction
(`cs_manager.py` 253-274 stores the inverse when a system is added, 1238-1245 adds the systems of a path) -/
def pathCalc (p : Calc) : List (Lcs ℝ × Bool) → Calc
  | [] => p
  | (f, false) :: l => pathCalc (.sum p (.system f)) l
  | (f, true) :: l => pathCalc (.sum p (.inverse (.system f))) l

/-- the first system of a path -/
def startCalc : Lcs ℝ × Bool → Calc
  | (f, false) => .system f
  | (f, true) => .inverse (.system f)

theorem pathCalc_systems : ∀ (l : List (Lcs ℝ × Bool)) (p : Calc),
    (pathCalc p l).systems = p.systems ++ l.map (·.1)
  | [], p => by simp [pathCalc]
  | (f, false) :: l, p => by simp [pathCalc, pathCalc_systems l, Calc.systems]
  | (f, true) :: l, p => by simp [pathCalc, pathCalc_systems l, Calc.systems]

theorem pathCalc_steps : ∀ (l : List (Lcs ℝ × Bool)) (p : Calc),
    (pathCalc p l).steps ≤ p.steps + 2 * l.length
  | [], p => by simp [pathCalc]
  | (f, false) :: l, p => by
    have := pathCalc_steps l (.sum p (.system f))
    simp only [pathCalc, Calc.steps, List.length_cons] at this ⊢; omega
  | (f, true) :: l, p => by
    have := pathCalc_steps l (.sum p (.inverse (.system f)))
    simp only [pathCalc, Calc.steps, List.length_cons] at this ⊢; omega

theorem pathCalc_depth : ∀ (l : List (Lcs ℝ × Bool)) (p : Calc), p.depth ≤ 1 → (pathCalc p l).depth ≤ 1
  | [], _, h => h
  | (f, false) :: l, p, h => pathCalc_depth l _ (by simp [Calc.depth, h])
  | (f, true) :: l, p, h => pathCalc_depth l _ (by simp [Calc.depth, h])

/-- **C107, paths.** The system that is found along a path of up to 160 000 systems maps each point to a place
whose distance from the exact place is at most `24e-15` times the number of systems times the length of the
path (including the distance of the point). -/
theorem C107_path {fl : ℝ → ℝ} (hfl : Rounding fl) (f : Lcs ℝ × Bool) (l : List (Lcs ℝ × Bool)) (hf : f.1.Orthonormal)
    (hl : ∀ x ∈ l, x.1.Orthonormal) (hn : l.length < 160000) (p : Vec3 ℝ) :
    ∃ g, (pathCalc (startCalc f) l).evalF fl = .ok g ∧
      norm2 (g.toParent p - (pathCalc (startCalc f) l).exact.toParent p) ≤ 24 / 10 ^ 15 * (l.length + 1) *
        (norm2 p + norm2 f.1.coordinates + (l.map fun x => norm2 x.1.coordinates).sum) := by
  have hst : (startCalc f).systems = [f.1] ∧ (startCalc f).steps ≤ 1 ∧ (startCalc f).depth ≤ 1 := by
    rcases f with ⟨f, _ | _⟩ <;> simp [startCalc, Calc.systems, Calc.steps, Calc.depth]
  have h1 := pathCalc_systems l (startCalc f)
  have h2 := pathCalc_steps l (startCalc f)
  have h3 := pathCalc_depth l (startCalc f) hst.2.2
  have hsz : (pathCalc (startCalc f) l).size ≤ 3 * l.length + 2 := by
    unfold Calc.size
    rw [h1, hst.1]
    simp only [List.length_append, List.length_map, List.length_cons, List.length_nil]
    have := hst.2.1
    omega
  have hs : (pathCalc (startCalc f) l).size * (1 + (pathCalc (startCalc f) l).depth) ≤ (3 * l.length + 2) * 2 :=
    Nat.mul_le_mul hsz (by omega)
  obtain ⟨g, h4, h5⟩ := C107_points hfl (pathCalc (startCalc f) l) (by
    rw [h1, hst.1]; intro g hg
    simp only [List.mem_append, List.mem_singleton, List.mem_map] at hg
    rcases hg with rfl | ⟨x, hx, rfl⟩
    · exact hf
    · exact hl x hx) (by omega) p
  refine ⟨g, h4, h5.trans ?_⟩
  rw [h1, hst.1]
  simp only [List.map_append, List.map_cons, List.map_nil, List.map_map, List.sum_append,
    List.sum_cons, List.sum_nil, add_zero]
  have e : ((fun f : Lcs ℝ => norm2 f.coordinates) ∘ fun x : Lcs ℝ × Bool => x.1) =
    fun x => norm2 x.1.coordinates := rfl
  rw [e, ← add_assoc]
  refine mul_le_mul_of_nonneg_right ?_ ?_
  · have : (((pathCalc (startCalc f) l).size * (1 + (pathCalc (startCalc f) l).depth) : ℕ) : ℝ) ≤
        (((3 * l.length + 2) * 2 : ℕ) : ℝ) := Nat.cast_le.2 hs
    push_cast at this
    norm_num
    linarith
  · have : 0 ≤ (l.map fun x => norm2 x.1.coordinates).sum := by
      apply List.sum_nonneg
      intro x hx
      obtain ⟨y, _, rfl⟩ := List.mem_map.1 hx
      exact norm2_nonneg _
    have h6 := norm2_nonneg p
    have h7 := norm2_nonneg f.1.coordinates
    linarith

/-! ## Rounding to the nearest number with 53 bits -/

/-- Rounding to a nearest number with 53 bits is a rounding in the sense of the theorems. -/
theorem exists_rounding : ∃ fl : ℝ → ℝ, Rounding fl ∧
    ∀ x, ∃ m e : ℤ, |m| ≤ 2 ^ 53 ∧ fl x = m * (2 : ℝ) ^ e := by
  refine ⟨fun x => round (x / (2 : ℝ) ^ (Int.log 2 |x| - 52)) * (2 : ℝ) ^ (Int.log 2 |x| - 52), ⟨?_⟩, ?_⟩
  · intro x
    by_cases hx : x = 0
    · subst hx; simp
    have hp : (0 : ℝ) < (2 : ℝ) ^ (Int.log 2 |x| - 52) := by positivity
    have h1 : ((2 : ℕ) : ℝ) ^ Int.log 2 |x| ≤ |x| := Int.zpow_log_le_self (by norm_num) (abs_pos.2 hx)
    have h2 := abs_sub_round (x / (2 : ℝ) ^ (Int.log 2 |x| - 52))
    have e : (round (x / (2 : ℝ) ^ (Int.log 2 |x| - 52)) : ℝ) * (2 : ℝ) ^ (Int.log 2 |x| - 52) - x =
        -((x / (2 : ℝ) ^ (Int.log 2 |x| - 52) - round (x / (2 : ℝ) ^ (Int.log 2 |x| - 52))) *
          (2 : ℝ) ^ (Int.log 2 |x| - 52)) := by
      rw [sub_mul, div_mul_cancel₀ _ hp.ne']; ring
    show |(round (x / (2 : ℝ) ^ (Int.log 2 |x| - 52)) : ℝ) * (2 : ℝ) ^ (Int.log 2 |x| - 52) - x| ≤ _
    rw [e, abs_neg, abs_mul, abs_of_pos hp]
    have h3 := mul_le_mul_of_nonneg_right h2 hp.le
    refine h3.trans ?_
    have h4 : (2 : ℝ) ^ (Int.log 2 |x| - 52) = ((2 : ℕ) : ℝ) ^ Int.log 2 |x| / 2 ^ 52 := by
      rw [zpow_sub₀ (by norm_num)]; norm_num
    rw [h4]
    norm_num at h1 ⊢
    linarith
  · intro x
    refine ⟨_, _, ?_, rfl⟩
    have hp : (0 : ℝ) < (2 : ℝ) ^ (Int.log 2 |x| - 52) := by positivity
    have h1 : |x| < ((2 : ℕ) : ℝ) ^ (Int.log 2 |x| + 1) := Int.lt_zpow_succ_log_self (by norm_num) _
    have h4 : ((2 : ℕ) : ℝ) ^ (Int.log 2 |x| + 1) = 2 ^ 53 * (2 : ℝ) ^ (Int.log 2 |x| - 52) := by
      rw [zpow_add₀ (by norm_num), zpow_sub₀ (by norm_num)]; norm_num; ring
    rw [h4] at h1
    have h2 : |x / (2 : ℝ) ^ (Int.log 2 |x| - 52)| < 2 ^ 53 := by
      rw [abs_div, abs_of_pos hp, div_lt_iff₀ hp]; exact h1
    have h3 := abs_sub_round (x / (2 : ℝ) ^ (Int.log 2 |x| - 52))
    generalize x / (2 : ℝ) ^ (Int.log 2 |x| - 52) = y at h2 h3
    rw [abs_lt] at h2
    rw [abs_le] at h3 ⊢
    have h5 : ((round y : ℤ) : ℝ) < ((2 ^ 53 + 1 : ℤ) : ℝ) := by push_cast; linarith
    have h6 : ((-2 ^ 53 - 1 : ℤ) : ℝ) < ((round y : ℤ) : ℝ) := by push_cast; linarith
    have h7 := Int.cast_lt.1 h5
    have h8 := Int.cast_lt.1 h6
    constructor <;> omega

/-- The hypotheses are met by rotations and by rounding to 53 bits. -/
example : ∃ fl : ℝ → ℝ, Rounding fl ∧ ∃ g,
    (Calc.sum (.system rotated) (.inverse (.sum (.system rotated) (.system rotated)))).evalF fl = .ok g :=
  let ⟨fl, hfl, _⟩ := exists_rounding
  let ⟨g, h, _⟩ := C107_calculation hfl
    (.sum (.system rotated) (.inverse (.sum (.system rotated) (.system rotated))))
    (by simp [Calc.systems, rotated_orthonormal]) (by simp [Calc.size, Calc.systems, Calc.steps, Calc.depth])
  ⟨fl, hfl, g, h⟩

end Weldx
