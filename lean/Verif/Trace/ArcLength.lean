import Verif.Trace.ExpressionProps

/-!
# Lengths and translations of segments that are described by expressions (C92)
-/

namespace Weldx.Tr

open Weldx.Me MeasureTheory intervalIntegral

/-! ## The integral of the speed is the length of the curve -/

theorem norm2_eq (v : Vec3 ℝ) : norm2 v = ‖(WithLp.toLp 2 v : EuclideanSpace ℝ (Fin 3))‖ := by
  rw [EuclideanSpace.norm_eq, Fin.sum_univ_three]
  simp [norm2]

section
variable {E : Type} [NormedAddCommGroup E] [NormedSpace ℝ E] [CompleteSpace E] {F F' : ℝ → E}

theorem chord_le (hF : ∀ t, HasDerivAt F (F' t) t) (hc : Continuous F') {a b : ℝ} (hab : a ≤ b) :
    ‖F b - F a‖ ≤ ∫ t in a..b, ‖F' t‖ := by
  rw [← integral_eq_sub_of_hasDerivAt (fun t _ => hF t) (hc.intervalIntegrable a b)]
  exact norm_integral_le_integral_norm hab

theorem chord_ge (hF : ∀ t, HasDerivAt F (F' t) t) (hc : Continuous F') {a b ε : ℝ} (hab : a ≤ b)
    (h : ∀ t ∈ Set.Icc a b, ‖F' t - F' a‖ ≤ ε) : (∫ t in a..b, ‖F' t‖) ≤ ‖F b - F a‖ + 2 * ε * (b - a) := by
  have h1 : (∫ t in a..b, ‖F' t‖) ≤ ∫ _ in a..b, (‖F' a‖ + ε) := by
    refine integral_mono_on hab (hc.norm.intervalIntegrable a b) (continuous_const.intervalIntegrable a b) fun t ht => ?_
    have := norm_le_norm_add_norm_sub' (F' t) (F' a)
    linarith [h t ht]
  rw [intervalIntegral.integral_const, smul_eq_mul] at h1
  have h2 : ‖(F b - F a) - (b - a) • F' a‖ ≤ ε * (b - a) := by
    have : (F b - F a) - (b - a) • F' a = ∫ t in a..b, (F' t - F' a) := by
      rw [integral_sub (hc.intervalIntegrable a b) (continuous_const.intervalIntegrable a b),
        integral_eq_sub_of_hasDerivAt (fun t _ => hF t) (hc.intervalIntegrable a b), intervalIntegral.integral_const]
    rw [this]
    have := norm_integral_le_of_norm_le_const (a := a) (b := b) (C := ε) (f := fun t => F' t - F' a) fun t ht =>
      h t (Set.Ioc_subset_Icc_self (Set.uIoc_of_le hab ▸ ht))
    rwa [abs_of_nonneg (sub_nonneg.2 hab)] at this
  have h3 : ‖(b - a) • F' a‖ = (b - a) * ‖F' a‖ := by rw [norm_smul, Real.norm_of_nonneg (sub_nonneg.2 hab)]
  have h4 := norm_le_norm_add_norm_sub (F b - F a) ((b - a) • F' a)
  rw [h3] at h4
  nlinarith

theorem integral_parts (hc : Continuous F') (ts : ℕ → ℝ) (n : ℕ) :
    ∑ k ∈ Finset.range n, (∫ t in (ts k)..(ts (k + 1)), ‖F' t‖) = ∫ t in (ts 0)..(ts n), ‖F' t‖ :=
  sum_integral_adjacent_intervals fun k _ => hc.norm.intervalIntegrable _ _

theorem fine_partition (hF : ∀ t, HasDerivAt F (F' t) t) (hc : Continuous F') {a b ε : ℝ} (hab : a ≤ b) (hε : 0 < ε) :
    ∃ ts : ℕ → ℝ, ∃ n, Monotone ts ∧ ts 0 = a ∧ ts n = b ∧
      (∫ t in a..b, ‖F' t‖) ≤ (∑ k ∈ Finset.range n, ‖F (ts (k + 1)) - F (ts k)‖) + ε := by
  have hu : UniformContinuousOn F' (Set.Icc a b) := isCompact_Icc.uniformContinuousOn_of_continuous hc.continuousOn
  have hη : 0 < ε / (2 * (b - a) + 1) := by
    apply div_pos hε
    linarith
  obtain ⟨δ, hδ, hu⟩ := Metric.uniformContinuousOn_iff.1 hu _ hη
  obtain ⟨n, hn⟩ := exists_nat_gt ((b - a) / δ)
  have hn0 : (0 : ℝ) < n := lt_of_le_of_lt (div_nonneg (sub_nonneg.2 hab) hδ.le) hn
  have hw : 0 ≤ (b - a) / n := div_nonneg (sub_nonneg.2 hab) hn0.le
  have hwδ : (b - a) / n < δ := by
    rw [div_lt_iff₀ hn0, mul_comm]
    exact (div_lt_iff₀ hδ).1 hn
  let ts : ℕ → ℝ := fun k => a + k * ((b - a) / n)
  have hmono : Monotone ts := by
    intro i j hij
    have : (i : ℝ) ≤ j := by exact_mod_cast hij
    have := mul_le_mul_of_nonneg_right this hw
    simp only [ts]
    linarith
  have h0 : ts 0 = a := by simp [ts]
  have hb : ts n = b := by simp only [ts]; field_simp; ring
  refine ⟨ts, n, hmono, h0, hb, ?_⟩
  have hstep : ∀ k, ts (k + 1) - ts k = (b - a) / n := by intro k; simp only [ts]; push_cast; ring
  have hk : ∀ k ∈ Finset.range n, (∫ t in (ts k)..(ts (k + 1)), ‖F' t‖) ≤
      ‖F (ts (k + 1)) - F (ts k)‖ + 2 * (ε / (2 * (b - a) + 1)) * (ts (k + 1) - ts k) := by
    intro k hk
    have hkn : k + 1 ≤ n := Finset.mem_range.1 hk
    refine chord_ge hF hc (hmono (Nat.le_succ k)) fun t ht => ?_
    have l1 : a ≤ ts k := h0 ▸ hmono (Nat.zero_le k)
    have l2 : ts (k + 1) ≤ b := hb ▸ hmono hkn
    have := hu t ⟨l1.trans ht.1, ht.2.trans l2⟩ (ts k) ⟨l1, (hmono (Nat.le_succ k)).trans l2⟩ (by
      rw [Real.dist_eq, abs_of_nonneg (sub_nonneg.2 ht.1)]
      have := hstep k
      linarith [ht.2])
    rw [dist_eq_norm] at this
    exact this.le
  have hsum := Finset.sum_le_sum hk
  rw [integral_parts hc, h0, hb, Finset.sum_add_distrib, ← Finset.mul_sum, Finset.sum_range_sub, h0, hb] at hsum
  refine hsum.trans ?_
  gcongr
  have : 0 < 2 * (b - a) + 1 := by linarith
  rw [mul_div_assoc', div_mul_eq_mul_div, div_le_iff₀ this]
  nlinarith
end

/-- the curve in Euclidean space -/
noncomputable def SpatialExpr.euclid (q : SpatialExpr) (t : ℝ) : EuclideanSpace ℝ (Fin 3) := WithLp.toLp 2 (q.curve t)

theorem euclid_deriv {q : SpatialExpr} {d : Expr ℝ} (hd : IsDeriv q.expr d) (t : ℝ) :
    HasDerivAt q.euclid (WithLp.toLp 2 (q.velocity d t)) t := by
  have h : HasDerivAt q.curve (q.velocity d t) t := hasDerivAt_pi.2 fun i => velocity_deriv hd t i
  exact (PiLp.continuousLinearEquiv 2 ℝ (fun _ : Fin 3 => ℝ)).symm.toContinuousLinearMap.hasFDerivAt.comp_hasDerivAt t h

theorem euclid_cont {q : SpatialExpr} {d : Expr ℝ} (hd : IsDeriv q.expr d) :
    Continuous fun t => (WithLp.toLp 2 (q.velocity d t) : EuclideanSpace ℝ (Fin 3)) :=
  (PiLp.continuous_toLp 2 _).comp (continuous_pi fun i => velocity_cont hd i)

theorem polygon_eq (q : SpatialExpr) (ts : ℕ → ℝ) (n : ℕ) :
    polygon q.curve ts n = ∑ k ∈ Finset.range n, ‖q.euclid (ts (k + 1)) - q.euclid (ts k)‖ := by
  unfold polygon
  refine Finset.sum_congr rfl fun k _ => ?_
  rw [norm2_eq]
  rfl

theorem lengthTo_eq (q : SpatialExpr) (d : Expr ℝ) (T : ℝ) :
    q.lengthTo d T = ∫ t in (0 : ℝ)..T, ‖(WithLp.toLp 2 (q.velocity d t) : EuclideanSpace ℝ (Fin 3))‖ := by
  unfold SpatialExpr.lengthTo
  refine integral_congr fun t _ => ?_
  rw [← norm2_eq]
  rfl

/-- **C92, lengths.** The length up to a position is the length of the curve: no inscribed polygon is longer, and polygons come
arbitrarily close. -/
theorem C92_length {q : SpatialExpr} {d : Expr ℝ} (hd : IsDeriv q.expr d) {T : ℝ} (hT : 0 ≤ T) :
    IsArcLength q.curve 0 T (q.lengthTo d T) := by
  rw [lengthTo_eq]
  constructor
  · rintro l ⟨ts, n, hm, h0, hn, rfl⟩
    rw [polygon_eq, ← h0, ← hn, ← integral_parts (euclid_cont hd)]
    exact Finset.sum_le_sum fun k _ => chord_le (euclid_deriv hd) (euclid_cont hd) (hm (Nat.le_succ k))
  · intro u hu
    refine le_of_forall_pos_le_add fun ε hε => ?_
    obtain ⟨ts, n, hm, h0, hn, h⟩ := fine_partition (euclid_deriv hd) (euclid_cont hd) hT hε
    have := hu ⟨ts, n, hm, h0, hn, rfl⟩
    rw [polygon_eq] at this
    linarith

/-- **C92, lengths of sections.** What `get_section_length` returns is the length of the curve, and positive. -/
theorem C92_section {q : SpatialExpr} {d : Expr ℝ} (hd : IsDeriv q.expr d) {T L : ℝ} (hT : 0 ≤ T) (h : q.sectionLength d T = .ok L) :
    IsArcLength q.curve 0 T L ∧ 0 < L := by
  unfold SpatialExpr.sectionLength at h
  split at h
  · cases h
  · rename_i hL
    cases h
    exact ⟨C92_length hd hT, not_le.1 hL⟩

/-- **C92, refuted.** The start of a segment has no length: `get_section_length(0)` raises for every segment. -/
theorem C92_section_start (q : SpatialExpr) (d : Expr ℝ) : q.sectionLength d 0 = .error .valueError := by
  unfold SpatialExpr.sectionLength SpatialExpr.lengthTo
  simp

/-- sections can be put together -/
theorem C92_additive {q : SpatialExpr} {d : Expr ℝ} (hd : IsDeriv q.expr d) (a b : ℝ) :
    q.lengthTo d b = q.lengthTo d a + ∫ t in a..b, norm2 (q.velocity d t) := by
  simp only [lengthTo_eq, norm2_eq]
  exact (integral_add_adjacent_intervals ((euclid_cont hd).norm.intervalIntegrable _ _)
    ((euclid_cont hd).norm.intervalIntegrable _ _)).symm

/-- the length does not decrease along the segment, and is at least the distance of the points -/
theorem C92_monotone {q : SpatialExpr} {d : Expr ℝ} (hd : IsDeriv q.expr d) {a b : ℝ} (hab : a ≤ b) :
    q.lengthTo d a + norm2 (q.curve b - q.curve a) ≤ q.lengthTo d b := by
  rw [C92_additive hd a b, norm2_eq]
  simp only [norm2_eq]
  have := chord_le (euclid_deriv hd) (euclid_cont hd) hab
  have e : (WithLp.toLp 2 (q.curve b - q.curve a) : EuclideanSpace ℝ (Fin 3)) = q.euclid b - q.euclid a := rfl
  rw [e]
  linarith

/-! ## Derivatives -/

theorem plus_value (ρ : String → ℝ) (a b : Sym) : value ρ (a.plus b).expr = value ρ a.expr + value ρ b.expr := by
  unfold Sym.plus
  split
  · rename_i h; simp [h, Sym.expr, value]
  · split
    · rename_i h; simp [h, Sym.expr, value]
    · rfl

theorem times_value (ρ : String → ℝ) (a b : Sym) : value ρ (a.times b).expr = value ρ a.expr * value ρ b.expr := by
  unfold Sym.times
  split
  · rename_i h; rcases h with h | h <;> simp [h, Sym.expr, value]
  · split
    · rename_i h; simp [h, Sym.expr, value]
    · split
      · rename_i h; simp [h, Sym.expr, value]
      · rfl

theorem power_value (ρ : String → ℝ) (a : Sym) (n : ℕ) : value ρ (a.power n).expr = value ρ a.expr ^ n := by
  unfold Sym.power
  split
  · simp [Sym.expr, value]
  · simp
  · rfl

theorem plus_syms {a b : Sym} {s : String} (h : s ∈ (a.plus b).expr.syms) : s ∈ a.expr.syms ∨ s ∈ b.expr.syms := by
  unfold Sym.plus at h
  split at h
  · exact Or.inr h
  · split at h
    · exact Or.inl h
    · exact List.mem_append.1 h

theorem times_syms {a b : Sym} {s : String} (h : s ∈ (a.times b).expr.syms) : s ∈ a.expr.syms ∨ s ∈ b.expr.syms := by
  unfold Sym.times at h
  split at h
  · simp [Sym.expr, Expr.syms] at h
  · split at h
    · exact Or.inr h
    · split at h
      · exact Or.inl h
      · exact List.mem_append.1 h

theorem power_syms {a : Sym} {n : ℕ} {s : String} (h : s ∈ (a.power n).expr.syms) : s ∈ a.expr.syms := by
  unfold Sym.power at h
  split at h
  · simp [Sym.expr, Expr.syms] at h
  · exact h
  · exact h

theorem diff_syms {x s : String} (a : Sym) (h : s ∈ (a.diff x).expr.syms) : s ∈ a.expr.syms := by
  induction a with
  | num k => simp [Sym.diff, Sym.expr, Expr.syms] at h
  | sym y => unfold Sym.diff at h; split at h <;> simp [Sym.expr, Expr.syms] at h
  | add a b iha ihb => exact List.mem_append.2 ((plus_syms h).imp iha ihb)
  | mul a b iha ihb =>
    refine List.mem_append.2 ?_
    rcases plus_syms h with h | h
    · exact (times_syms h).imp iha id
    · exact (times_syms h).imp id ihb
  | pow a n ih =>
    rcases times_syms h with h | h
    · rcases times_syms h with h | h
      · simp [Sym.expr, Expr.syms] at h
      · exact power_syms (a := a) h
    · exact ih h
  | sin a ih => exact (times_syms h).elim id ih
  | cos a ih =>
    rcases times_syms h with h | h
    · rcases times_syms h with h | h
      · simp [Sym.expr, Expr.syms] at h
      · exact h
    · exact ih h
  | exp a ih => exact (times_syms h).elim id ih

theorem value_cont (ρ : String → ℝ) (a : Sym) : Continuous fun t => value (Function.update ρ "s" t) a.expr := by
  induction a with
  | num k => exact continuous_const
  | sym y =>
    by_cases h : y = "s"
    · subst h; simpa [Sym.expr, value] using continuous_id'
    · simpa [Sym.expr, value, h] using continuous_const
  | add a b iha ihb => exact iha.add ihb
  | mul a b iha ihb => exact iha.mul ihb
  | pow a n ih => exact ih.pow n
  | sin a ih => exact Real.continuous_sin.comp ih
  | cos a ih => exact Real.continuous_cos.comp ih
  | exp a ih => exact Real.continuous_exp.comp ih

theorem diff_value (ρ : String → ℝ) (t : ℝ) (a : Sym) :
    HasDerivAt (fun t => value (Function.update ρ "s" t) a.expr) (value (Function.update ρ "s" t) (a.diff "s").expr) t := by
  induction a with
  | num k => exact hasDerivAt_const t k
  | sym y =>
    by_cases h : y = "s"
    · subst h; simpa [Sym.diff, Sym.expr, value] using hasDerivAt_id' t
    · simpa [Sym.diff, Sym.expr, value, h] using hasDerivAt_const t (ρ y)
  | add a b iha ihb =>
    simp only [Sym.diff, plus_value]
    exact iha.add ihb
  | mul a b iha ihb =>
    simp only [Sym.diff, plus_value, times_value]
    exact iha.mul ihb
  | pow a n ih =>
    simp only [Sym.diff, times_value, power_value]
    exact ih.pow n
  | sin a ih =>
    simp only [Sym.diff, times_value]
    exact ih.sin
  | cos a ih =>
    simp only [Sym.diff, times_value, Sym.expr, value, neg_one_mul]
    exact ih.cos
  | exp a ih =>
    simp only [Sym.diff, times_value]
    exact ih.exp

/-- **C92, derivatives.** The rules of differentiation give derivatives: the assumption about sympy holds for sums, products, powers,
sine, cosine and exponential function. -/
theorem C92_diff (a : Sym) : IsDeriv a.expr (a.diff "s").expr :=
  ⟨fun _ hs => mem_free.2 (diff_syms a (mem_free.1 hs)), fun ρ t => diff_value ρ t a, fun ρ => value_cont ρ (a.diff "s")⟩

end Weldx.Tr
