import Verif.Geometry.ArcFloatProps

/-!
# Moving arcs in the arithmetic of floating point numbers (C109)
-/

namespace Weldx.Geo

open Matrix

/-! ### one change -/

section
variable {fl acos : ℝ → ℝ} (hfl : Rounding fl) (hacos : Arccosine acos)
include hfl

omit hfl in
theorem row_len {q : M} (h : IsIso q) (i : Fin 2) : len (q i) = 1 := by
  have h' : q * qᵀ = 1 := mul_eq_one_comm.1 h
  have := congrFun (congrFun h' i) i
  have e : dot (q i) (q i) = 1 := by
    simpa [Matrix.mul_apply, Fin.sum_univ_two, dot] using this
  unfold len; rw [e, Real.sqrt_one]

omit hfl in
theorem abs_dot_le (a b : V) : |a 0 * b 0| + |a 1 * b 1| ≤ len a * len b := by
  have h := (abs_le.1 (dot_le_len ![|a 0|, |a 1|] ![|b 0|, |b 1|])).2
  have e1 : len ![|a 0|, |a 1|] = len a := by unfold len dot; simp
  have e2 : len ![|b 0|, |b 1|] = len b := by unfold len dot; simp
  rw [e1, e2] at h
  simpa [dot, abs_mul] using h

/-- a transformed point -/
theorem mulF_close {m q : M} (hq : IsIso q) (hm : ∀ i j, |m i j - q i j| ≤ |q i j| / 2 ^ 53) (p : V) :
    len (mulF fl m p - q *ᵥ p) ≤ 7 * ulp * len p := by
  have hu := ulp_pos
  have hU := ulp_lt
  have h : ∀ i, |(mulF fl m p - q *ᵥ p) i| ≤ 16 / 5 * ulp * len p := by
    intro i
    have h1 := dotF_close hfl (a := q i) (b := p) (a' := m i) (b' := p) (c := ulp) hu.le (by
      intro j
      rw [← sub_mul, abs_mul, abs_mul]
      have := mul_le_mul_of_nonneg_right (hm i j) (abs_nonneg (p j))
      unfold ulp
      linarith)
    have h2 := abs_dot_le (q i) p
    rw [row_len hq i, one_mul] at h2
    have e : (mulF fl m p - q *ᵥ p) i = dotF fl (m i) p - dot (q i) p := by
      rw [Pi.sub_apply, mulVec_two]
      unfold mulF dot
      fin_cases i <;> simp
    rw [e]
    have g1 : ulp * (1 + ulp) ≤ 21 / 20 * ulp := by nlinarith
    have g2 : ulp * (1 + ulp + ulp * (1 + ulp)) ≤ ulp * (21 / 20) := mul_le_mul_of_nonneg_left (by linarith) hu.le
    refine h1.trans (mul_le_mul (by linarith) h2 (by positivity) (by positivity))
  have h3 := len_le_abs (mulF fl m p - q *ᵥ p)
  have h4 := h 0
  have h5 := h 1
  have := mul_nonneg hu.le (len_nonneg p)
  linarith

/-- the sign of the determinant -/
theorem detF_sign {m q : M} (hq : IsIso q) (hm : ∀ i j, |m i j - q i j| ≤ |q i j| / 2 ^ 53) :
    npSign (detF fl (m 0) (m 1)) = if 0 < m.det then 1 else -1 := by
  have hu := ulp_pos
  have hU := ulp_lt
  have hq1 : ∀ i j, |q i j| ≤ 1 := fun i j => by
    have := abs_le_len (q i) j
    rwa [row_len hq i] at this
  have hprod : ∀ i j i' j', |m i j * m i' j' - q i j * q i' j'| ≤ 3 * ulp := by
    intro i j i' j'
    have h1 := hm i j
    have h2 := hm i' j'
    have h3 := hq1 i j
    have h4 := hq1 i' j'
    have e : m i j * m i' j' - q i j * q i' j' =
        (m i j - q i j) * (m i' j' - q i' j') + (m i j - q i j) * q i' j' + q i j * (m i' j' - q i' j') := by ring
    have g1 : |m i j - q i j| ≤ ulp := by unfold ulp; refine h1.trans (div_le_div_of_nonneg_right h3 (by norm_num))
    have g2 : |m i' j' - q i' j'| ≤ ulp := by unfold ulp; refine h2.trans (div_le_div_of_nonneg_right h4 (by norm_num))
    rw [e]
    refine (abs_add_three _ _ _).trans ?_
    rw [abs_mul, abs_mul, abs_mul]
    have t1 := mul_le_mul g1 g2 (abs_nonneg _) hu.le
    have t2 := mul_le_mul g1 h4 (abs_nonneg _) hu.le
    have t3 := mul_le_mul h3 g2 (abs_nonneg _) zero_le_one
    have t4 : ulp * ulp ≤ ulp := by nlinarith
    linarith
  have hround : ∀ i j i' j', |fl (m i j * m i' j') - q i j * q i' j'| ≤ 1 / 100 := by
    intro i j i' j'
    have h1 := hprod i j i' j'
    have h2 := Rounding.ulp hfl (m i j * m i' j')
    have h3 : |m i j * m i' j'| ≤ 2 := by
      have t : |m i j * m i' j'| ≤ |m i j * m i' j' - q i j * q i' j'| + |q i j * q i' j'| := by
        simpa using abs_add_le (m i j * m i' j' - q i j * q i' j') (q i j * q i' j')
      have t2 : |q i j * q i' j'| ≤ 1 := by
        rw [abs_mul]; exact mul_le_one₀ (hq1 i j) (abs_nonneg _) (hq1 i' j')
      linarith
    have h4 := mul_le_mul_of_nonneg_left h3 hu.le
    have h5 := abs_sub_le (fl (m i j * m i' j')) (m i j * m i' j') (q i j * q i' j')
    linarith
  have a1 := abs_le.1 (hround 0 0 1 1)
  have a2 := abs_le.1 (hround 0 1 1 0)
  have b1 := abs_le.1 (hprod 0 0 1 1)
  have b2 := abs_le.1 (hprod 0 1 1 0)
  have hdm : m.det = m 0 0 * m 1 1 - m 0 1 * m 1 0 := Matrix.det_fin_two m
  have hdq : q.det = q 0 0 * q 1 1 - q 0 1 * q 1 0 := Matrix.det_fin_two q
  have hfl2 := Rounding.ulp hfl (fl (m 0 0 * m 1 1) - fl (m 0 1 * m 1 0))
  rcases hq.det with hd | hd
  · have h1 : 0 < detF fl (m 0) (m 1) := Rounding.pos hfl (by linarith)
    have h2 : 0 < m.det := by rw [hdm]; linarith
    rw [npSign, if_pos h1, if_pos h2]
  · have h0 : fl (m 0 0 * m 1 1) - fl (m 0 1 * m 1 0) < 0 := by linarith
    have h1 : detF fl (m 0) (m 1) < 0 := by
      have := (abs_le.1 hfl2).2
      rw [abs_of_neg h0] at this
      show fl (fl (m 0 0 * m 1 1) - fl (m 0 1 * m 1 0)) < 0
      nlinarith
    have h2 : ¬ 0 < m.det := by rw [hdm]; linarith
    rw [npSign, if_neg (by linarith), if_pos h1, if_neg h2]

omit hfl in
/-- two points that are moved by an isometry up to an error keep their distance up to twice the error -/
theorem moved_dist {p p' g t t' h : V} {ε : ℝ} (h1 : len (p' - g) ≤ ε) (h2 : len (t' - h) ≤ ε)
    (hiso : len (g - h) = len (p - t)) : |len (p' - t') - len (p - t)| ≤ 2 * ε := by
  have h3 := len_sub_le (p' - t') (g - h)
  rw [hiso] at h3
  have e : p' - t' - (g - h) = (p' - g) + -(t' - h) := by abel
  rw [e] at h3
  have h4 := len_add (p' - g) (-(t' - h))
  rw [len_neg] at h4
  linarith

/-- what the changes keep: bounds for the points, the three distances -/
structure Fits (x : ArcF) (G : ℝ) (a b l δ : ℝ) : Prop where
  start : len x.pStart ≤ G
  stop : len x.pEnd ≤ G
  center : len x.pCenter ≤ G
  rStart : |len (x.pStart - x.pCenter) - a| ≤ δ
  rEnd : |len (x.pEnd - x.pCenter) - b| ≤ δ
  chord : |len (x.pStart - x.pEnd) - l| ≤ δ

omit hfl in
theorem Fits.moved {x y : ArcF} {G G' a b l δ ε : ℝ} (h : Fits x G a b l δ) (f : V → V)
    (hf : ∀ p t, len (f p - f t) = len (p - t))
    (h1 : len (y.pStart - f x.pStart) ≤ ε) (h2 : len (y.pEnd - f x.pEnd) ≤ ε) (h3 : len (y.pCenter - f x.pCenter) ≤ ε)
    (g1 : len y.pStart ≤ G') (g2 : len y.pEnd ≤ G') (g3 : len y.pCenter ≤ G') : Fits y G' a b l (δ + 2 * ε) := by
  have m1 := moved_dist h1 h3 (hf _ _)
  have m2 := moved_dist h2 h3 (hf _ _)
  have m3 := moved_dist h1 h2 (hf _ _)
  refine ⟨g1, g2, g3, ?_, ?_, ?_⟩
  · have := abs_sub_le (len (y.pStart - y.pCenter)) (len (x.pStart - x.pCenter)) a
    linarith [h.rStart]
  · have := abs_sub_le (len (y.pEnd - y.pCenter)) (len (x.pEnd - x.pCenter)) b
    linarith [h.rEnd]
  · have := abs_sub_le (len (y.pStart - y.pEnd)) (len (x.pStart - x.pEnd)) l
    linarith [h.chord]

omit hfl in
theorem len_of_close {p g : V} {ε : ℝ} (h : len (p - g) ≤ ε) : len p ≤ len g + ε := by
  have := len_add g (p - g)
  rw [add_sub_cancel] at this
  linarith

include hacos in
/-- all changes -/
theorem run_ok {a b l W : ℝ} (hW0 : 0 < W) (hl : 1 / 10 ^ 6 ≤ l) (ha : l / 100 ≤ a) (hb : l / 100 ≤ b)
    (hflat : a ≤ 2 * 10 ^ 6 * l) (hab : |b - a| ≤ 5 / 10 ^ 9) (hW : W ≤ 51 * 10 ^ 4) :
    ∀ (cs : List Change) (x : ArcF) (G δ : ℝ), Fits x G a b l δ → 0 ≤ δ →
      (∀ m, .transform m ∈ cs → RoundedIso m) →
      G + travel cs + cs.length * (7 * ulp * W) ≤ W → δ + cs.length * (14 * ulp * W) ≤ 1 / 10 ^ 9 →
      ∃ y, ArcF.run fl acos cs x = .ok y ∧ y.sign = x.sign * orientation cs ∧
        Fits y W a b l (δ + cs.length * (14 * ulp * W))
  | [], x, G, δ, hx, hδ, _, hG, _ => by
    simp only [travel, List.length_nil, Nat.cast_zero, zero_mul, add_zero] at hG
    refine ⟨x, rfl, by simp [orientation], hx.start.trans hG, hx.stop.trans hG, hx.center.trans hG, ?_, ?_, ?_⟩
    · simpa using hx.rStart
    · simpa using hx.rEnd
    · simpa using hx.chord
  | .translate v :: cs, x, G, δ, hx, hδ, hm, hG, hd => by
    have hu := ulp_pos
    have hε : 0 < ulp * W := mul_pos hu hW0
    have htr : 0 ≤ travel cs := by
      clear hm hG hd
      induction cs with
      | nil => exact le_rfl
      | cons c cs ih => cases c with
        | transform m => exact ih
        | translate v => exact add_nonneg (len_nonneg v) ih
    simp only [travel, List.length_cons, Nat.cast_add, Nat.cast_one] at hG hd
    have hn : (0 : ℝ) ≤ cs.length * (7 * ulp * W) := by positivity
    have hcl : ∀ p : V, len p ≤ G → len (addF fl p v - (p + v)) ≤ 7 * ulp * W := by
      intro p hp
      have h1 := addF_close hfl p v
      have h2 := len_add p v
      have h3 : ulp * len (p + v) ≤ ulp * W := mul_le_mul_of_nonneg_left (by linarith) hu.le
      linarith
    have hbd : ∀ p : V, len p ≤ G → len (addF fl p v) ≤ G + len v + 7 * ulp * W := by
      intro p hp
      have h1 := len_of_close (hcl p hp)
      have h2 := len_add p v
      linarith
    have hfit : Fits (x.translate fl v) (G + len v + 7 * ulp * W) a b l (δ + 2 * (7 * ulp * W)) :=
      hx.moved (fun p => p + v) (fun p t => by congr 1; abel) (hcl _ hx.start) (hcl _ hx.stop) (hcl _ hx.center)
        (hbd _ hx.start) (hbd _ hx.stop) (hbd _ hx.center)
    obtain ⟨y, hy, hys, hyf⟩ := run_ok hW0 hl ha hb hflat hab hW cs (x.translate fl v) _ _ hfit (by linarith)
      (fun m h => hm m (List.mem_cons_of_mem _ h)) (by linarith) (by linarith)
    refine ⟨y, hy, hys, ?_⟩
    have e : δ + ((.translate v :: cs : List Change).length : ℝ) * (14 * ulp * W) =
        δ + 2 * (7 * ulp * W) + cs.length * (14 * ulp * W) := by
      simp only [List.length_cons, Nat.cast_add, Nat.cast_one]; ring
    rw [e]; exact hyf
  | .transform m :: cs, x, G, δ, hx, hδ, hm, hG, hd => by
    have hu := ulp_pos
    have hU := ulp_lt
    have hε : 0 < ulp * W := mul_pos hu hW0
    have htr : 0 ≤ travel cs := by
      clear hm hG hd
      induction cs with
      | nil => exact le_rfl
      | cons c cs ih => cases c with
        | transform m => exact ih
        | translate v => exact add_nonneg (len_nonneg v) ih
    simp only [travel, List.length_cons, Nat.cast_add, Nat.cast_one] at hG hd
    have hn : (0 : ℝ) ≤ cs.length * (7 * ulp * W) := by positivity
    obtain ⟨q, hq, hmq⟩ := hm m List.mem_cons_self
    have hcl : ∀ p : V, len p ≤ G → len (mulF fl m p - q *ᵥ p) ≤ 7 * ulp * W := by
      intro p hp
      have h1 := mulF_close hfl hq hmq p
      have h3 : 7 * ulp * len p ≤ 7 * ulp * W := mul_le_mul_of_nonneg_left (by linarith) (by positivity)
      linarith
    have hbd : ∀ p : V, len p ≤ G → len (mulF fl m p) ≤ G + 7 * ulp * W := by
      intro p hp
      have h1 := len_of_close (hcl p hp)
      rw [hq.len] at h1
      linarith
    have hsign := detF_sign hfl hq hmq
    set z : ArcF := ⟨mulF fl m x.pStart, mulF fl m x.pEnd, mulF fl m x.pCenter,
      x.sign * npSign (detF fl (m 0) (m 1))⟩ with hz
    have hfit : Fits z (G + 7 * ulp * W) a b l (δ + 2 * (7 * ulp * W)) :=
      hx.moved (fun p => q *ᵥ p) (fun p t => by rw [← Matrix.mulVec_sub, hq.len]) (hcl _ hx.start) (hcl _ hx.stop)
        (hcl _ hx.center) (hbd _ hx.start) (hbd _ hx.stop) (hbd _ hx.center)
    have hδ' : δ + 2 * (7 * ulp * W) ≤ 1 / 10 ^ 9 := by
      have : (0 : ℝ) ≤ cs.length * (14 * ulp * W) := by positivity
      linarith
    have hchk : ArcF.check fl acos z = .ok z := by
      set D := δ + 2 * (7 * ulp * W) with hD
      have f1 := abs_le.1 hfit.rStart
      have f2 := abs_le.1 hfit.rEnd
      have f3 := abs_le.1 hfit.chord
      have f4 := abs_le.1 hab
      have hGW : G + 7 * ulp * W ≤ W := by linarith
      have s1 : len (z.pStart - z.pCenter) ≤ 2 * W := by
        have := len_add z.pStart (-z.pCenter)
        rw [len_neg, ← sub_eq_add_neg] at this
        linarith [hfit.start, hfit.center]
      have s2 : len (z.pEnd - z.pCenter) ≤ 2 * W := by
        have := len_add z.pEnd (-z.pCenter)
        rw [len_neg, ← sub_eq_add_neg] at this
        linarith [hfit.stop, hfit.center]
      have huW : ulp * W ≤ 612 / 10 ^ 13 := by
        have := mul_le_mul hU hW hW0.le (by norm_num)
        norm_num at this ⊢
        linarith
      have hDl : D ≤ l / 1000 := by norm_num at hl hδ' ⊢; linarith
      have h5 : (5 / 10 ^ 9 : ℝ) ≤ 5 / 1000 * l := by norm_num at hl ⊢; linarith
      have hl0 : 0 < l := lt_of_lt_of_le (by norm_num) hl
      have n1 := len_nonneg (z.pStart - z.pCenter)
      have n2 := len_nonneg (z.pEnd - z.pCenter)
      have d1 : |len (z.pEnd - z.pCenter) - len (z.pStart - z.pCenter)| ≤ 7 / 10 ^ 9 := by
        norm_num at f4 hδ' ⊢
        rw [abs_le]; constructor <;> linarith
      refine check_ok hfl hacos (by linarith) (by linarith) ?_ ?_
      · have h6 : 7 * ulp * (len (z.pEnd - z.pCenter) + len (z.pStart - z.pCenter)) ≤ 7 * ulp * (4 * W) :=
          mul_le_mul_of_nonneg_left (by linarith) (by positivity)
        norm_num at huW d1 ⊢
        linarith
      · have h1 : len (z.pStart - z.pCenter) ≤ 21 / 10 * 10 ^ 6 * l := by linarith
        have h2 : len (z.pEnd - z.pCenter) ≤ 21 / 10 * 10 ^ 6 * l := by linarith
        have h3 : len (z.pStart - z.pCenter) * len (z.pEnd - z.pCenter) ≤
            (21 / 10 * 10 ^ 6 * l) * (21 / 10 * 10 ^ 6 * l) := mul_le_mul h1 h2 n2 (by positivity)
        have h4 : |len (z.pStart - z.pCenter) - len (z.pEnd - z.pCenter)| ≤ 7 / 1000 * l := by
          rw [abs_sub_comm]
          refine d1.trans ?_
          norm_num at hl ⊢
          linarith
        have h5 : (len (z.pStart - z.pCenter) - len (z.pEnd - z.pCenter)) ^ 2 ≤ (7 / 1000 * l) ^ 2 :=
          sq_le_sq' (by linarith [(abs_le.1 h4).1]) (abs_le.1 h4).2
        have h6 : 43 * ulp * (len (z.pStart - z.pCenter) * len (z.pEnd - z.pCenter)) ≤
            43 * (12 / 10 ^ 17) * ((21 / 10 * 10 ^ 6 * l) * (21 / 10 * 10 ^ 6 * l)) :=
          mul_le_mul (by linarith) h3 (mul_nonneg n1 n2) (by norm_num)
        have h7 : (999 / 1000 * l) ^ 2 ≤ len (z.pStart - z.pEnd) ^ 2 :=
          pow_le_pow_left₀ (by positivity) (by linarith) 2
        have h8 : 0 < l ^ 2 := by positivity
        norm_num at h5 h6 h7 ⊢
        nlinarith
    have hne : npSign (detF fl (m 0) (m 1)) ≠ 0 := by rw [hsign]; split <;> decide
    obtain ⟨y, hy, hys, hyf⟩ := run_ok hW0 hl ha hb hflat hab hW cs z _ _ hfit (by linarith)
      (fun m h => hm m (List.mem_cons_of_mem _ h)) (by linarith) (by linarith)
    refine ⟨y, ?_, ?_, ?_⟩
    · have ht : ArcF.transform fl acos m x = .ok z := by
        unfold ArcF.transform
        dsimp only
        rw [if_neg hne]; exact hchk
      rw [ArcF.run, ht]; exact hy
    · rw [hys]
      show x.sign * npSign (detF fl (m 0) (m 1)) * orientation cs = x.sign * ((if 0 < m.det then 1 else -1) * orientation cs)
      rw [hsign, mul_assoc]
    · have e : δ + ((.transform m :: cs : List Change).length : ℝ) * (14 * ulp * W) =
          δ + 2 * (7 * ulp * W) + cs.length * (14 * ulp * W) := by
        simp only [List.length_cons, Nat.cast_add, Nat.cast_one]; ring
      rw [e]; exact hyf

/-! ### positions -/

/-- one of the points of an arc during a sequence of changes -/
def pointF (fl : ℝ → ℝ) : List Change → V → V
  | [], p => p
  | .transform m :: cs, p => pointF fl cs (mulF fl m p)
  | .translate v :: cs, p => pointF fl cs (addF fl p v)

omit hfl in
theorem check_same {x y : ArcF} (h : ArcF.check fl acos x = .ok y) : y = x := by
  unfold ArcF.check at h
  cases hc : calcAngleF fl acos x with
  | error e => rw [hc] at h; cases h
  | ok w =>
    rw [hc] at h
    simp only [bind, Except.bind] at h
    split at h
    · cases h
    · split at h
      · cases h; rfl
      · cases h

omit hfl in
theorem run_points : ∀ (cs : List Change) (x y : ArcF), ArcF.run fl acos cs x = .ok y →
    y.pStart = pointF fl cs x.pStart ∧ y.pEnd = pointF fl cs x.pEnd ∧ y.pCenter = pointF fl cs x.pCenter
  | [], x, y, h => by cases h; exact ⟨rfl, rfl, rfl⟩
  | .translate v :: cs, x, y, h => run_points cs _ y h
  | .transform m :: cs, x, y, h => by
    rw [ArcF.run] at h
    cases ht : ArcF.transform fl acos m x with
    | error e => rw [ht] at h; cases h
    | ok z =>
      rw [ht] at h
      have := run_points cs z y h
      unfold ArcF.transform at ht
      dsimp only at ht
      split at ht
      · cases ht
      · rw [check_same ht] at this
        exact this

/-- a transformed point and the exact product -/
theorem mulF_near {m q : M} (hq : IsIso q) (hm : ∀ i j, |m i j - q i j| ≤ |q i j| / 2 ^ 53) (p g : V) :
    len (mulF fl m p - m *ᵥ g) ≤ len (p - g) + 5 * ulp * len p + 2 * ulp * len (p - g) := by
  have hu := ulp_pos
  have hU := ulp_lt
  have hmq : ∀ (i : Fin 2) (v : V), |m i 0 * v 0| + |m i 1 * v 1| ≤ (1 + ulp) * len v := by
    intro i v
    have h1 := abs_dot_le (q i) v
    rw [row_len hq i, one_mul] at h1
    have h2 : ∀ j, |m i j * v j| ≤ (1 + ulp) * |q i j * v j| := by
      intro j
      rw [abs_mul, abs_mul, ← mul_assoc]
      refine mul_le_mul_of_nonneg_right ?_ (abs_nonneg _)
      have h3 := hm i j
      have h4 : |m i j| ≤ |m i j - q i j| + |q i j| := by simpa using abs_add_le (m i j - q i j) (q i j)
      unfold ulp
      linarith
    have h5 := h2 0
    have h6 := h2 1
    have h7 := mul_le_mul_of_nonneg_left h1 (show 0 ≤ 1 + ulp by linarith)
    linarith
  have h : ∀ i, |(mulF fl m p - m *ᵥ p) i| ≤ 5 / 2 * ulp * len p := by
    intro i
    have h1 := dotF_close hfl (a := m i) (b := p) (a' := m i) (b' := p) (c := 0) le_rfl (by intro j; simp)
    have e : (mulF fl m p - m *ᵥ p) i = dotF fl (m i) p - dot (m i) p := by
      rw [Pi.sub_apply, mulVec_two]
      unfold mulF dot
      fin_cases i <;> simp
    rw [e]
    refine h1.trans ?_
    have h2 := hmq i p
    have h3 : 0 + ulp * (1 + 0) + ulp * (1 + 0 + ulp * (1 + 0)) ≤ 21 / 10 * ulp := by nlinarith
    have h4 := mul_le_mul h3 h2 (by positivity) (by positivity)
    have h5 : 21 / 10 * ulp * (1 + ulp) ≤ 5 / 2 * ulp := by nlinarith
    have h6 := mul_le_mul_of_nonneg_right h5 (len_nonneg p)
    linarith
  have h1 : len (mulF fl m p - m *ᵥ p) ≤ 5 * ulp * len p := by
    have := len_le_abs (mulF fl m p - m *ᵥ p)
    linarith [h 0, h 1]
  have h2 : len (m *ᵥ (p - g)) ≤ len (p - g) + 2 * ulp * len (p - g) := by
    have h3 : len (m *ᵥ (p - g) - q *ᵥ (p - g)) ≤ 2 * ulp * len (p - g) := by
      have h4 : ∀ i, |(m *ᵥ (p - g) - q *ᵥ (p - g)) i| ≤ ulp * len (p - g) := by
        intro i
        have h5 := abs_dot_le (q i) (p - g)
        rw [row_len hq i, one_mul] at h5
        have e : (m *ᵥ (p - g) - q *ᵥ (p - g)) i =
            (m i 0 - q i 0) * (p - g) 0 + (m i 1 - q i 1) * (p - g) 1 := by
          rw [Pi.sub_apply, mulVec_two, mulVec_two]
          fin_cases i <;> simp <;> ring
        rw [e]
        refine (abs_add_le _ _).trans ?_
        have h6 : ∀ j, |(m i j - q i j) * (p - g) j| ≤ ulp * |q i j * (p - g) j| := by
          intro j
          rw [abs_mul, abs_mul, ← mul_assoc]
          refine mul_le_mul_of_nonneg_right ?_ (abs_nonneg _)
          have := hm i j
          unfold ulp
          linarith
        have h7 := h6 0
        have h8 := h6 1
        have h9 := mul_le_mul_of_nonneg_left h5 hu.le
        linarith
      have := len_le_abs (m *ᵥ (p - g) - q *ᵥ (p - g))
      linarith [h4 0, h4 1]
    have := len_of_close h3
    rw [hq.len] at this
    exact this
  have e : mulF fl m p - m *ᵥ g = (mulF fl m p - m *ᵥ p) + m *ᵥ (p - g) := by rw [Matrix.mulVec_sub]; abel
  rw [e]
  have := len_add (mulF fl m p - m *ᵥ p) (m *ᵥ (p - g))
  linarith

omit hfl in
theorem travel_nonneg : ∀ cs, 0 ≤ travel cs
  | [] => le_rfl
  | .transform _ :: cs => travel_nonneg cs
  | .translate v :: cs => add_nonneg (len_nonneg v) (travel_nonneg cs)

theorem pointF_close {W : ℝ} (hW0 : 0 < W) : ∀ (cs : List Change) (p g : V) (G ε : ℝ),
    (∀ m, .transform m ∈ cs → RoundedIso m) → len p ≤ G → G + travel cs + cs.length * (7 * ulp * W) ≤ W →
    len (p - g) ≤ ε → ε + cs.length * (8 * ulp * W) ≤ W →
    len (pointF fl cs p - moved cs g) ≤ ε + cs.length * (8 * ulp * W)
  | [], p, g, G, ε, _, _, _, hpg, _ => by simpa [pointF, moved] using hpg
  | .translate v :: cs, p, g, G, ε, hm, hp, hG, hpg, hε => by
    have hu := ulp_pos
    have hW := mul_pos hu hW0
    have htr := travel_nonneg cs
    have hn : (0 : ℝ) ≤ cs.length * (7 * ulp * W) := by positivity
    simp only [travel, List.length_cons, Nat.cast_add, Nat.cast_one] at hG hε ⊢
    have h1 := addF_close hfl p v
    have h2 := len_add p v
    have h3 : ulp * len (p + v) ≤ ulp * W := mul_le_mul_of_nonneg_left (by linarith) hu.le
    have h4 := len_of_close h1
    have h5 : len (addF fl p v - (g + v)) ≤ ε + 8 * ulp * W := by
      have e : addF fl p v - (g + v) = (addF fl p v - (p + v)) + (p - g) := by abel
      rw [e]
      have := len_add (addF fl p v - (p + v)) (p - g)
      linarith
    have h6 := pointF_close hW0 cs (addF fl p v) (g + v) (G + len v + 7 * ulp * W) (ε + 8 * ulp * W)
      (fun m h => hm m (List.mem_cons_of_mem _ h)) (by linarith) (by linarith) h5 (by linarith)
    rw [pointF, moved]
    linarith
  | .transform m :: cs, p, g, G, ε, hm, hp, hG, hpg, hε => by
    have hu := ulp_pos
    have hW := mul_pos hu hW0
    have htr := travel_nonneg cs
    have hn : (0 : ℝ) ≤ cs.length * (7 * ulp * W) := by positivity
    have hn' : (0 : ℝ) ≤ cs.length * (8 * ulp * W) := by positivity
    simp only [travel, List.length_cons, Nat.cast_add, Nat.cast_one] at hG hε ⊢
    obtain ⟨q, hq, hmq⟩ := hm m List.mem_cons_self
    have h1 := mulF_close hfl hq hmq p
    have h2 := mulF_near hfl hq hmq p g
    have h3 : ulp * len p ≤ ulp * W := mul_le_mul_of_nonneg_left (by linarith) hu.le
    have h4 := len_of_close h1
    rw [hq.len] at h4
    have h5 : ulp * len (p - g) ≤ ulp * W := mul_le_mul_of_nonneg_left (by linarith) hu.le
    have h6 := pointF_close hW0 cs (mulF fl m p) (m *ᵥ g) (G + 7 * ulp * W) (ε + 8 * ulp * W)
      (fun m h => hm m (List.mem_cons_of_mem _ h)) (by linarith) (by linarith) (by linarith) (by linarith)
    rw [pointF, moved]
    linarith

include hacos

/-- **C109 (changes).** With rounding after every operation, an arc whose points stay within 500 m (in millimetres) can
be rotated, reflected and translated: no check fails, the sense of rotation changes with each reflection, the points
move like in exact arithmetic and all distances between them are kept up to an error that grows with the number of
changes. -/
theorem C109_moves {x : ArcF} {cs : List Change} {B : ℝ} (hm : ∀ m, .transform m ∈ cs → RoundedIso m)
    (hs : len x.pStart + travel cs ≤ B) (he : len x.pEnd + travel cs ≤ B) (hc : len x.pCenter + travel cs ≤ B)
    (hB : B ≤ 5 * 10 ^ 5) (hn : cs.length * B ≤ 5 * 10 ^ 5) (hl : 1 / 10 ^ 6 ≤ len (x.pStart - x.pEnd))
    (hflat : len (x.pStart - x.pCenter) ≤ 2 * 10 ^ 6 * len (x.pStart - x.pEnd))
    (hr : |len (x.pEnd - x.pCenter) - len (x.pStart - x.pCenter)| ≤ 5 / 10 ^ 9) :
    ∃ y, ArcF.run fl acos cs x = .ok y ∧ y.sign = x.sign * orientation cs ∧
      len (y.pStart - moved cs x.pStart) ≤ cs.length * (9 * B / 2 ^ 53) ∧
      len (y.pEnd - moved cs x.pEnd) ≤ cs.length * (9 * B / 2 ^ 53) ∧
      len (y.pCenter - moved cs x.pCenter) ≤ cs.length * (9 * B / 2 ^ 53) ∧
      |len (y.pStart - y.pCenter) - len (x.pStart - x.pCenter)| ≤ cs.length * (15 * B / 2 ^ 53) ∧
      |len (y.pEnd - y.pCenter) - len (x.pEnd - x.pCenter)| ≤ cs.length * (15 * B / 2 ^ 53) ∧
      |len (y.pStart - y.pEnd) - len (x.pStart - x.pEnd)| ≤ cs.length * (15 * B / 2 ^ 53) := by
  have hu := ulp_pos
  have hU := ulp_lt
  have htr : 0 ≤ travel cs := by
    clear hm hs he hc hn
    induction cs with
    | nil => exact le_rfl
    | cons c cs ih => cases c with
      | transform m => exact ih
      | translate v => exact add_nonneg (len_nonneg v) ih
  set a := len (x.pStart - x.pCenter) with ha
  set b := len (x.pEnd - x.pCenter) with hb
  set l := len (x.pStart - x.pEnd) with hldef
  have hr' := abs_le.1 hr
  have htri : l ≤ a + b := by
    have := len_add (x.pStart - x.pCenter) (-(x.pEnd - x.pCenter))
    rw [len_neg, ← sub_eq_add_neg, sub_sub_sub_cancel_right] at this
    exact this
  have hlB : l ≤ 2 * B := by
    have := len_add x.pStart (-x.pEnd)
    rw [len_neg, ← sub_eq_add_neg] at this
    linarith
  have hl5 : (5 / 10 ^ 9 : ℝ) ≤ 5 / 1000 * l := by norm_num at hl ⊢; linarith
  have hl0 : 0 < l := lt_of_lt_of_le (by norm_num) hl
  have hB0 : 0 < B := by linarith
  have hB1 : 5 / 10 ^ 7 ≤ B := by norm_num at hl ⊢; linarith
  have hlen : (0 : ℝ) ≤ cs.length := Nat.cast_nonneg _
  have hn12 : (cs.length : ℝ) ≤ 10 ^ 12 := by
    have h1 := mul_le_mul_of_nonneg_left hB1 hlen
    have h2 : (cs.length : ℝ) * (5 / 10 ^ 7) ≤ 5 * 10 ^ 5 := h1.trans hn
    norm_num at h2
    rw [show (10 : ℝ) ^ 12 = 1000000000000 by norm_num]
    linarith
  have hnu : cs.length * ulp ≤ 12 / 10 ^ 5 := by
    have := mul_le_mul hn12 hU hu.le (by norm_num)
    norm_num at this ⊢
    linarith
  have hnuB : cs.length * (14 * ulp * (102 / 100 * B)) ≤ 1 / 10 ^ 9 := by
    have h1 := mul_le_mul hn hU hu.le (by norm_num)
    have e : cs.length * (14 * ulp * (102 / 100 * B)) = 14 * (102 / 100) * (cs.length * B * ulp) := by ring
    rw [e]
    norm_num at h1 ⊢
    linarith
  have hfit : Fits x (B - travel cs) a b l 0 :=
    ⟨by linarith, by linarith, by linarith, by simp [ha], by simp [hb], by simp [hldef]⟩
  obtain ⟨y, hy, hsgn, hf⟩ := run_ok hfl hacos (W := 102 / 100 * B) (by positivity) hl (by linarith) (by linarith)
    hflat hr (by norm_num at hB ⊢; linarith) cs x (B - travel cs) 0 hfit le_rfl hm
    (by
      have e : cs.length * (7 * ulp * (102 / 100 * B)) = 7 * (102 / 100) * (cs.length * ulp) * B := by ring
      rw [e]
      have := mul_le_mul_of_nonneg_right hnu hB0.le
      norm_num at this ⊢
      linarith)
    (by rw [zero_add]; exact hnuB)
  have hε : 0 + cs.length * (14 * ulp * (102 / 100 * B)) ≤ cs.length * (15 * B / 2 ^ 53) := by
    rw [zero_add]
    refine mul_le_mul_of_nonneg_left ?_ hlen
    have e : 15 * B / 2 ^ 53 = 15 * (ulp * B) := by unfold ulp; ring
    rw [e]
    have := mul_pos hu hB0
    linarith
  have hpos : ∀ p : V, len p + travel cs ≤ B →
      len (pointF fl cs p - moved cs p) ≤ cs.length * (9 * B / 2 ^ 53) := by
    intro p hp
    have huB := mul_pos hu hB0
    have hW : cs.length * (8 * ulp * (102 / 100 * B)) ≤ cs.length * (9 * B / 2 ^ 53) := by
      refine mul_le_mul_of_nonneg_left ?_ hlen
      have e : 9 * B / 2 ^ 53 = 9 * (ulp * B) := by unfold ulp; ring
      rw [e]; linarith
    have h1 : cs.length * (8 * ulp * (102 / 100 * B)) ≤ 1 / 100 * B := by
      have e : cs.length * (8 * ulp * (102 / 100 * B)) = 8 * (102 / 100) * (cs.length * ulp) * B := by ring
      rw [e]
      have := mul_le_mul_of_nonneg_right hnu hB0.le
      norm_num at this ⊢
      linarith
    have h2 := pointF_close hfl (W := 102 / 100 * B) (by positivity) cs p p (B - travel cs) 0 hm (by linarith)
      (by
        have : (0 : ℝ) ≤ cs.length * (ulp * B) := by positivity
        linarith) (by simp [len, dot]) (by linarith)
    linarith
  obtain ⟨p1, p2, p3⟩ := run_points cs x y hy
  refine ⟨y, hy, hsgn, ?_, ?_, ?_, hf.rStart.trans hε, hf.rEnd.trans hε, hf.chord.trans hε⟩
  · rw [p1]; exact hpos _ hs
  · rw [p2]; exact hpos _ he
  · rw [p3]; exact hpos _ hc

/-- **C109 (construction and changes).** The same for an arc that is constructed from a radius. Points, radius and the
sum of all translations are at most 100 m. -/
theorem C109_history {s e : V} {r B : ℝ} {cs : List Change} (left ccw : Bool)
    (hm : ∀ m, .transform m ∈ cs → RoundedIso m) (hs : len s ≤ B) (he : len e ≤ B) (hr : 0 < r) (hrB : r ≤ B)
    (ht : travel cs ≤ B) (hB : B ≤ 10 ^ 5) (hn : cs.length * B ≤ 10 ^ 5) (hL : 1 / 10 ^ 6 ≤ len (e - s))
    (hflat : r ≤ 10 ^ 6 * len (e - s)) :
    ∃ x y, arcWithRadiusF fl acos s e r left ccw = .ok x ∧ ArcF.run fl acos cs x = .ok y ∧
      y.sign = (if ccw then 1 else -1) * orientation cs ∧
      |len (y.pStart - y.pCenter) - wantedRadius s e r| ≤ (cs.length + 1) * (60 * B / 2 ^ 53) ∧
      |len (y.pEnd - y.pCenter) - wantedRadius s e r| ≤ (cs.length + 1) * (60 * B / 2 ^ 53) := by
  have hu := ulp_pos
  have hU := ulp_lt
  have hB0 : 0 < B := hr.trans_le hrB
  have hue : ∀ x : ℝ, x / 2 ^ 53 = ulp * x := by intro x; unfold ulp; ring
  obtain ⟨c, hc, -, h1, h2⟩ := C109_construct hfl hacos left ccw hs he hr hrB (by norm_num at hB ⊢; linarith) hL hflat
  rw [hue] at h1 h2
  have h1' := abs_le.1 h1
  have h2' := abs_le.1 h2
  have huB : ulp * B ≤ 12 / 10 ^ 12 := by
    have := mul_le_mul hU hB hB0.le (by norm_num)
    norm_num at this ⊢
    linarith
  have huB0 := mul_pos hu hB0
  have hLB : len (e - s) ≤ 2 * B := by
    have := len_add e (-s)
    rw [len_neg, ← sub_eq_add_neg] at this
    linarith
  have hRB : wantedRadius s e r ≤ B := max_le hrB (by linarith)
  have hRL : wantedRadius s e r ≤ 10 ^ 6 * len (e - s) := max_le hflat (by linarith [len_nonneg (e - s)])
  have hcB : len c ≤ 3 * B := by
    have := len_add s (-(s - c))
    rw [len_neg, ← sub_eq_add_neg, sub_sub_cancel] at this
    nlinarith
  obtain ⟨y, hy, hsg, -, -, -, ha, hb, -⟩ := C109_moves hfl hacos (x := ⟨s, e, c, if ccw then 1 else -1⟩) (B := 4 * B) hm
    (by show len s + travel cs ≤ 4 * B; linarith) (by show len e + travel cs ≤ 4 * B; linarith)
    (by show len c + travel cs ≤ 4 * B; linarith)
    (by norm_num at hB ⊢; linarith) (by norm_num at hn ⊢; linarith)
    (by show 1 / 10 ^ 6 ≤ len (s - e); rw [len_sub_comm]; exact hL)
    (by
      show len (s - c) ≤ 2 * 10 ^ 6 * len (s - e)
      rw [len_sub_comm s e]
      norm_num at hL huB hRL ⊢
      linarith)
    (by
      show |len (e - c) - len (s - c)| ≤ 5 / 10 ^ 9
      norm_num at huB ⊢
      rw [abs_le]; constructor <;> linarith)
  refine ⟨_, y, hc, hy, hsg, ?_, ?_⟩
  · have h3 := abs_sub_le (len (y.pStart - y.pCenter)) (len (s - c)) (wantedRadius s e r)
    have h4 : |len (y.pStart - y.pCenter) - len (s - c)| ≤ cs.length * (15 * (4 * B) / 2 ^ 53) := ha
    rw [hue] at h4 ⊢
    have : (0 : ℝ) ≤ cs.length * (ulp * B) := by positivity
    linarith
  · have h3 := abs_sub_le (len (y.pEnd - y.pCenter)) (len (e - c)) (wantedRadius s e r)
    have h4 : |len (y.pEnd - y.pCenter) - len (e - c)| ≤ cs.length * (15 * (4 * B) / 2 ^ 53) := hb
    rw [hue] at h4 ⊢
    have : (0 : ℝ) ≤ cs.length * (ulp * B) := by positivity
    linarith

/-- an arc with a radius of 5 mm whose points are 6 mm apart, moved and turned 1000 times -/
example : ∃ x y, arcWithRadiusF fl acos ![0, 0] ![6, 0] 5 true true = .ok x ∧
    ArcF.run fl acos ((List.replicate 500 [.translate ![0, 1 / 100], .transform !![0, -1; 1, 0]]).flatten) x = .ok y := by
  have h6 : len ![6, 0] = 6 := by unfold len dot; simp [show (6 : ℝ) * 6 = 6 ^ 2 by norm_num]
  have h0 : len ![0, 0] = 0 := by unfold len dot; simp
  have htr : ∀ n, travel ((List.replicate n [.translate ![0, 1 / 100], .transform !![0, -1; 1, 0]]).flatten) = n / 100 := by
    intro n
    have h1 : len ![0, 1 / 100] = 1 / 100 := by
      unfold len dot; simp only [Matrix.cons_val_zero, Matrix.cons_val_one]
      rw [show (0 : ℝ) * 0 + 1 / 100 * (1 / 100) = (1 / 100) ^ 2 by norm_num, Real.sqrt_sq (by norm_num)]
    induction n with
    | zero => simp [travel]
    | succ n ih => rw [List.replicate_succ, List.flatten_cons, List.cons_append, List.cons_append, List.nil_append, travel,
        travel, ih, h1]; push_cast; ring
  have hlen : ((List.replicate 500 [Change.translate ![0, 1 / 100], .transform !![0, -1; 1, 0]]).flatten).length = 1000 := by
    rw [List.length_flatten, List.map_replicate, List.sum_replicate]
    rfl
  have e0 : (![6, 0] - ![0, 0] : V) = ![6, 0] := by funext i; fin_cases i <;> simp
  obtain ⟨x, y, h1, h2, -⟩ := C109_history hfl hacos (s := ![0, 0]) (e := ![6, 0]) (r := 5) (B := 10)
    (cs := (List.replicate 500 [.translate ![0, 1 / 100], .transform !![0, -1; 1, 0]]).flatten) true true
    (by
      intro m hm
      simp only [List.mem_flatten, List.mem_replicate] at hm
      obtain ⟨l, ⟨-, rfl⟩, hl⟩ := hm
      simp only [List.mem_cons, List.not_mem_nil, or_false, reduceCtorEq, false_or, Change.transform.injEq] at hl
      subst hl
      refine ⟨!![0, -1; 1, 0], ?_, by intro i j; simp; positivity⟩
      unfold IsIso
      ext i j; fin_cases i <;> fin_cases j <;> simp [Matrix.mul_apply, Fin.sum_univ_two])
    (by rw [h0]; norm_num) (by rw [h6]; norm_num) (by norm_num) (by norm_num) (by rw [htr]; norm_num) (by norm_num)
    (by rw [hlen]; norm_num) (by rw [e0, h6]; norm_num) (by rw [e0, h6]; norm_num)
  exact ⟨x, y, h1, h2⟩

end

end Weldx.Geo
