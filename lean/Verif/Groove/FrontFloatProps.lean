import Verif.Groove.FrontFloat
import Verif.Groove.GrooveFloatMore

/-!
# Front face grooves with rounding (C111)
-/

namespace Weldx.Groove

open Weldx.Geo Matrix Weldx.Binary64Real

/-- two points that differ by at most 1e-9 in each coordinate -/
def NearV (p p' : Geo.V) : Prop := ∀ i, |p' i - p i| ≤ 1 / 10 ^ 9

/-- lines between the given points, up to 1e-9 -/
def LinesAt : List Geo.V → List SegF → Prop
  | [_], [] => True
  | p :: q :: r, .line p' q' :: l => NearV p p' ∧ NearV q q' ∧ LinesAt (q :: r) l
  | _, _ => False

/-- two successive points are not too close to each other -/
def Spaced : List Geo.V → Prop
  | p :: q :: r => (∃ i, 2 / 10 ^ 6 ≤ |q i - p i|) ∧ Spaced (q :: r)
  | _ => True

theorem nearV {x y x' y' : ℝ} (h1 : |x' - x| ≤ 1 / 10 ^ 9) (h2 : |y' - y| ≤ 1 / 10 ^ 9) : NearV ![x, y] ![x', y'] := by
  intro i
  fin_cases i
  · exact h1
  · exact h2

/-- one of the coordinates of a vector is not small -/
theorem polar_spaced {θ r : ℝ} (hr : 1 / 10 ^ 5 ≤ r) : 2 / 10 ^ 6 ≤ |Real.sin θ * r| ∨ 2 / 10 ^ 6 ≤ |Real.cos θ * r| := by
  have hr0 : 0 < r := lt_of_lt_of_le (by norm_num) hr
  by_contra h
  push Not at h
  obtain ⟨h1, h2⟩ := h
  rw [abs_mul, abs_of_pos hr0] at h1 h2
  have a1 : |Real.sin θ| * (1 / 10 ^ 5) ≤ |Real.sin θ| * r := mul_le_mul_of_nonneg_left hr (abs_nonneg _)
  have a2 : |Real.cos θ| * (1 / 10 ^ 5) ≤ |Real.cos θ| * r := mul_le_mul_of_nonneg_left hr (abs_nonneg _)
  norm_num at a1 a2 h1 h2
  have b1 : |Real.sin θ| ≤ 1 / 2 := by linarith
  have b2 : |Real.cos θ| ≤ 1 / 2 := by linarith
  have c1 := sq_abs (Real.sin θ)
  have c2 := sq_abs (Real.cos θ)
  have c3 := Real.sin_sq_add_cos_sq θ
  nlinarith [abs_nonneg (Real.sin θ), abs_nonneg (Real.cos θ)]

section
variable {L : Lib} (hfl : Rounds L.fl) (hacos : Arccosine L.acos) (htrig : Trigonometric L.cosine L.sine)

include hfl in
theorem lines_made : ∀ {ps ps' : List Geo.V}, List.Forall₂ NearV ps ps' → Spaced ps → (∀ p ∈ ps, Moderate p) → ps ≠ [] →
    ∃ l, helperF L (List.replicate (ps'.length - 1) .line) ps' = .ok l ∧ (∀ s ∈ l, s.Clear) ∧ JoinedF l ∧
      (∀ s p r, l.head? = some s → ps' = p :: r → s.start = p) ∧ LinesAt ps l
  | [], _, _, _, _, h => absurd rfl h
  | [p], [p'], _, _, _, _ => ⟨[], rfl, by simp, trivial, by simp, trivial⟩
  | p :: q :: r, p' :: q' :: r', h, hs, hm, _ => by
    obtain ⟨hp, h⟩ := List.forall₂_cons.1 h
    have hq := (List.forall₂_cons.1 h).1
    obtain ⟨⟨i, hi⟩, hs⟩ := hs
    obtain ⟨l, e1, e2, e3, e4, e5⟩ := lines_made h hs (fun x hx => hm x (List.mem_cons_of_mem _ hx)) (by simp)
    have hne : p' i ≠ q' i := by
      intro e
      have h1 := abs_le.1 (hp i)
      have h2 := abs_le.1 (hq i)
      have h3 : |q i - p i| ≤ 2 / 10 ^ 9 := by
        rw [abs_le]; norm_num at h1 h2 ⊢; constructor <;> linarith
      exact absurd (hi.trans h3) (by norm_num)
    have hline := mkLineF_ok hfl hne
    have hb : ∀ {a a' : Geo.V}, Moderate a → NearV a a' → ∀ i, |a' i| ≤ 10 ^ 5 := by
      intro a a' h1 h2 i
      have h1 := abs_le.1 (h1 i)
      have h2 := abs_le.1 (h2 i)
      rw [abs_le]; norm_num at h1 h2 ⊢; constructor <;> linarith
    refine ⟨.line p' q' :: l, ?_, ?_, ?_, ?_, ?_⟩
    · show helperF L (.line :: List.replicate ((q' :: r').length - 1) .line) (p' :: q' :: r') = _
      rw [helperF, hline]; simp only [e1]
    · intro s hs
      rcases List.mem_cons.1 hs with rfl | hs
      · exact fun i => ⟨hb (hm p (by simp)) hp i, hb (hm q (by simp)) hq i⟩
      · exact e2 s hs
    · cases l with
      | nil => trivial
      | cons s l => exact ⟨(e4 s q' r' rfl rfl).symm, e3⟩
    · intro s p'' r'' hs hps
      simp only [List.head?_cons, Option.some.injEq] at hs
      simp only [List.cons.injEq] at hps
      rw [← hs, ← hps.1]; rfl
    · exact ⟨hp, hq, e5⟩

include hfl hacos htrig in
/-- points that are close to moderate ones with distances become lines -/
theorem polylineF_ok {ps ps' : List Geo.V} (h : List.Forall₂ NearV ps ps') (hs : Spaced ps) (hm : ∀ p ∈ ps, Moderate p)
    (hl : 2 ≤ ps.length) : ∃ l, polylineF L ps' = .ok l ∧ LinesAt ps l := by
  obtain ⟨l, e1, e2, e3, -, e5⟩ := lines_made hfl h hs hm (by rintro rfl; simp at hl)
  refine ⟨l, ?_, e5⟩
  have e := h.length_eq
  unfold polylineF shapeF
  rw [if_neg (by omega), e1]
  exact C110_shape_partial hfl hacos htrig e2 e3

include hfl hacos htrig in
theorem polylinesF_ok : ∀ {pts pts' : List (List Geo.V)}, List.Forall₂ (List.Forall₂ NearV) pts pts' →
    (∀ ps ∈ pts, Spaced ps ∧ (∀ p ∈ ps, Moderate p) ∧ 2 ≤ ps.length) →
    ∃ ls, polylinesF L pts' = .ok ls ∧ List.Forall₂ LinesAt pts ls
  | [], [], _, _ => ⟨[], rfl, .nil⟩
  | ps :: r, ps' :: r', h, hm => by
    obtain ⟨h1, h2⟩ := List.forall₂_cons.1 h
    obtain ⟨a, b, c⟩ := hm ps (by simp)
    obtain ⟨l, e1, e2⟩ := polylineF_ok hfl hacos htrig h1 a b c
    obtain ⟨ls, f1, f2⟩ := polylinesF_ok h2 (fun x hx => hm x (List.mem_cons_of_mem _ hx))
    refine ⟨l :: ls, ?_, .cons e2 f2⟩
    rw [polylinesF, e1]
    simp only [f1]

/-! ### calculated numbers -/

/-- `x` is `e` up to `n * 10⁻¹¹`, and `e` is at most `B` -/
structure Calc (x e : ℝ) (B n : ℝ) : Prop where
  error : |x - e| ≤ n / 10 ^ 11
  bound : |e| ≤ B

theorem Calc.given {x B : ℝ} (h0 : 0 ≤ x) (h1 : x ≤ B) : Calc x x B 0 :=
  ⟨by simp, by rwa [abs_of_nonneg h0]⟩

include hfl in
theorem Calc.round {x e B n : ℝ} (h : Calc x e B n) (hB : B ≤ 20000) (hn : n ≤ 50) : Calc (L.fl x) e B (n + 1) := by
  refine ⟨?_, h.bound⟩
  have h1 := abs_le.1 h.error
  have h2 := abs_le.1 h.bound
  have h3 := abs_le.1 (fl_abs (rounds_rounding hfl) (x := x) (B := 20001)
    (by rw [abs_le]; norm_num at h1; constructor <;> linarith))
  rw [abs_le]
  norm_num at h1 h3 ⊢
  constructor <;> linarith

theorem Calc.add {x e B n y f C m : ℝ} (h : Calc x e B n) (g : Calc y f C m) : Calc (x + y) (e + f) (B + C) (n + m) := by
  refine ⟨?_, (abs_add_le _ _).trans (add_le_add h.bound g.bound)⟩
  have h1 := abs_le.1 h.error
  have h2 := abs_le.1 g.error
  rw [abs_le]
  norm_num at h1 h2 ⊢
  constructor <;> linarith

theorem Calc.neg {x e B n : ℝ} (h : Calc x e B n) : Calc (-x) (-e) B n :=
  ⟨by rw [← neg_add', abs_neg, ← sub_eq_add_neg]; exact h.error, by rw [abs_neg]; exact h.bound⟩

theorem Calc.sub {x e B n y f C m : ℝ} (h : Calc x e B n) (g : Calc y f C m) : Calc (x - y) (e - f) (B + C) (n + m) := by
  rw [sub_eq_add_neg, sub_eq_add_neg]; exact h.add g.neg

/-- products with a sine or cosine -/
theorem Calc.trig {s S z e B n : ℝ} (hs : |s - S| ≤ 1 / 10 ^ 14 / 2) (hS : |S| ≤ 1) (h : Calc z e B n) (hB : B ≤ 2000) (hn : n ≤ 50) :
    Calc (s * z) (S * e) B (n + 2) := by
  refine ⟨?_, ?_⟩
  · have e1 : s * z - S * e = (s - S) * z + S * (z - e) := by ring
    have h1 := abs_le.1 h.error
    have h2 := abs_le.1 h.bound
    have hz : |z| ≤ 2001 := by rw [abs_le]; norm_num at h1; constructor <;> linarith
    have a1 : |(s - S) * z| ≤ 1 / 10 ^ 14 / 2 * 2001 := by
      rw [abs_mul]; exact mul_le_mul hs hz (abs_nonneg _) (by norm_num)
    have a2 : |S * (z - e)| ≤ 1 * (n / 10 ^ 11) := by
      rw [abs_mul]; exact mul_le_mul hS h.error (abs_nonneg _) (by norm_num)
    rw [e1]
    refine (abs_add_le _ _).trans ?_
    norm_num at a1 a2 ⊢
    linarith
  · rw [abs_mul]
    have := mul_le_mul hS h.bound (abs_nonneg _) (by norm_num)
    linarith

theorem Calc.near {x e B n : ℝ} (h : Calc x e B n) (hn : n ≤ 100) : |x - e| ≤ 1 / 10 ^ 9 := by
  refine h.error.trans ?_
  norm_num; linarith

/-- calculated angles -/
def Angle (θ' θ : ℝ) : Prop := |θ' - θ| ≤ 1 / 10 ^ 14 / 4 ∧ |θ'| ≤ 10

include htrig in
theorem Angle.sin {θ' θ : ℝ} (h : Angle θ' θ) : |L.sine θ' - Real.sin θ| ≤ 1 / 10 ^ 14 / 2 := by
  have h1 := abs_le.1 (htrig.sin_error θ' h.2)
  have h2 := abs_le.1 ((Real.abs_sin_sub_sin_le θ' θ).trans h.1)
  rw [abs_le]; norm_num at h1 h2 ⊢; constructor <;> linarith

include htrig in
theorem Angle.cos {θ' θ : ℝ} (h : Angle θ' θ) : |L.cosine θ' - Real.cos θ| ≤ 1 / 10 ^ 14 / 2 := by
  have h1 := abs_le.1 (htrig.cos_error θ' h.2)
  have h2 := abs_le.1 ((Real.abs_cos_sub_cos_le θ' θ).trans h.1)
  rw [abs_le]; norm_num at h1 h2 ⊢; constructor <;> linarith

include hfl in
theorem angles {α : ℝ} (h : 0 ≤ α ∧ α ≤ 63 / 10) :
    Angle α α ∧ Angle (quarterF L α) (α + Real.pi / 2) ∧ Angle (halfF L α) (α + Real.pi) := by
  have hr := rounds_rounding hfl
  have p0 := Real.pi_gt_three
  have p1 := Real.pi_lt_d2
  norm_num at p1
  have k1 := abs_le.1 (fl_abs hr (x := Real.pi) (B := 4) (by rw [abs_le]; constructor <;> linarith))
  unfold quarterF halfF Angle
  set p := L.fl Real.pi with hp
  norm_num at k1
  have k2 := abs_le.1 (fl_abs hr (x := p / 2) (B := 2) (by rw [abs_le]; constructor <;> linarith))
  have k3 := abs_le.1 (fl_abs hr (x := α + p) (B := 10) (by rw [abs_le]; constructor <;> linarith))
  set q := L.fl (p / 2) with hq
  norm_num at k2 k3
  have k4 := abs_le.1 (fl_abs hr (x := α + q) (B := 8) (by rw [abs_le]; constructor <;> linarith))
  norm_num at k4
  refine ⟨⟨by rw [sub_self, abs_zero]; norm_num, ?_⟩, ⟨?_, ?_⟩, ⟨?_, ?_⟩⟩ <;>
    (rw [abs_le]; norm_num; constructor <;> linarith)

/-- a length that is neither very small nor very large -/
def Len (x : ℝ) : Prop := 1 / 10 ^ 5 ≤ x ∧ x ≤ 1000

theorem Len.nonneg {x : ℝ} (h : Len x) : 0 ≤ x := le_trans (by norm_num) h.1

theorem Len.calc {x : ℝ} (h : Len x) : Calc x x 1000 0 := Calc.given h.nonneg h.2

theorem Calc.zero : Calc 0 0 0 0 := ⟨by simp, by simp⟩

/-- near and moderate points from calculated coordinates -/
theorem Calc.point {x e B n y f C m : ℝ} (h : Calc x e B n) (g : Calc y f C m) (hn : n ≤ 100) (hm : m ≤ 100) (hB : B ≤ 40000)
    (hC : C ≤ 40000) : NearV ![e, f] ![x, y] ∧ Moderate ![e, f] := by
  refine ⟨nearV (h.near hn) (g.near hm), ?_⟩
  have h1 := abs_le.1 h.bound
  have h2 := abs_le.1 g.bound
  exact moderate_of (by linarith) (by linarith) (by linarith) (by linarith)

theorem spaced_of {p q : Geo.V} {d : ℝ} (i : Fin 2) (h : 1 / 10 ^ 5 ≤ d) (e : |q i - p i| = d) : ∃ i, 2 / 10 ^ 6 ≤ |q i - p i| :=
  ⟨i, e ▸ le_trans (by norm_num) h⟩

theorem spaced_polar {p q : Geo.V} {θ r a c : ℝ} (hr : 1 / 10 ^ 5 ≤ r) (e : q 0 - p 0 = a) (f : q 1 - p 1 = c)
    (h : (|a| = |Real.sin θ * r| ∧ |c| = |Real.cos θ * r|) ∨ (|a| = |Real.cos θ * r| ∧ |c| = |Real.sin θ * r|)) :
    ∃ i, 2 / 10 ^ 6 ≤ |q i - p i| := by
  rcases polar_spaced (θ := θ) hr with k | k <;> rcases h with ⟨h1, h2⟩ | ⟨h1, h2⟩
  · exact ⟨0, by rw [e, h1]; exact k⟩
  · exact ⟨1, by rw [f, h2]; exact k⟩
  · exact ⟨1, by rw [f, h2]; exact k⟩
  · exact ⟨0, by rw [e, h1]; exact k⟩

/-- the shapes that follow from points: near points, moderate and spaced -/
structure Made (pts pts' : List (List Geo.V)) : Prop where
  near : List.Forall₂ (List.Forall₂ fun p p' => NearV p p' ∧ Moderate p) pts pts'
  spaced : ∀ ps ∈ pts, Spaced ps ∧ 2 ≤ ps.length

include hfl hacos htrig in
theorem Made.ok {pts pts' : List (List Geo.V)} (h : Made pts pts') :
    ∃ ls, polylinesF L pts' = .ok ls ∧ List.Forall₂ LinesAt pts ls := by
  refine polylinesF_ok hfl hacos htrig (h.near.imp fun _ _ h => h.imp fun _ _ h => h.1) ?_
  intro ps hps
  obtain ⟨h1, h2⟩ := h.spaced ps hps
  refine ⟨h1, ?_, h2⟩
  have key : ∀ {a b : List Geo.V}, List.Forall₂ (fun p p' => NearV p p' ∧ Moderate p) a b → ∀ p ∈ a, Moderate p := by
    intro a b h
    induction h with
    | nil => simp
    | cons h _ ih =>
      intro p hp
      rcases List.mem_cons.1 hp with rfl | hp
      · exact h.2
      · exact ih p hp
  have key2 : ∀ {a b : List (List Geo.V)}, List.Forall₂ (List.Forall₂ fun p p' => NearV p p' ∧ Moderate p) a b →
      ∀ ps ∈ a, ∀ p ∈ ps, Moderate p := by
    intro a b h
    induction h with
    | nil => simp
    | cons h _ ih =>
      intro ps hps
      rcases List.mem_cons.1 hps with rfl | hps
      · exact key h
      · exact ih ps hps
  exact key2 h.near ps hps

/-- the quadrilateral of a straight workpiece -/
theorem made_left {w t : ℝ} (hw : Len w) (ht : Len t) :
    List.Forall₂ (fun p p' => NearV p p' ∧ Moderate p) [![-w, 0], ![0, 0], ![0, t], ![-w, t]] [![-w, 0], ![0, 0], ![0, t], ![-w, t]] ∧
      Spaced [![-w, 0], ![0, 0], ![0, t], ![-w, t]] := by
  have cw := hw.calc
  have ct := ht.calc
  refine ⟨.cons (cw.neg.point .zero ?_ ?_ ?_ ?_) (.cons (Calc.zero.point .zero ?_ ?_ ?_ ?_) (.cons (Calc.zero.point ct ?_ ?_ ?_ ?_)
    (.cons (cw.neg.point ct ?_ ?_ ?_ ?_) .nil))), ⟨spaced_of 0 hw.1 ?_, spaced_of 1 ht.1 ?_, spaced_of 0 hw.1 ?_, trivial⟩⟩
  case refine_17 => show |0 - -w| = w; rw [zero_sub, neg_neg, abs_of_nonneg hw.nonneg]
  case refine_18 => show |t - 0| = t; rw [sub_zero, abs_of_nonneg ht.nonneg]
  case refine_19 => show |-w - 0| = w; rw [sub_zero, abs_neg, abs_of_nonneg hw.nonneg]
  all_goals norm_num

include hfl in
theorem made112 {w t1 : ℝ} (hw : Len w) (ht : Len t1) : Made (ff112 w t1) (ff112F L w t1) := by
  have cw := hw.calc
  have ct := ht.calc
  have w0 := hw.nonneg
  have t0 := ht.nonneg
  have c2 : Calc (L.fl (2 * w + t1)) (2 * w + t1) 3000 1 := by
    have := ((Calc.given (x := 2 * w) (B := 2000) (by linarith) (by linarith [hw.2])).add ct).round hfl (by norm_num) (by norm_num)
    norm_num at this; exact this
  have c1 : Calc (L.fl (w + t1)) (w + t1) 2000 1 := by
    have := (cw.add ct).round hfl (by norm_num) (by norm_num)
    norm_num at this; exact this
  refine ⟨.cons (.cons (Calc.zero.point .zero ?_ ?_ ?_ ?_) (.cons (c2.point .zero ?_ ?_ ?_ ?_) (.cons (c2.point ct ?_ ?_ ?_ ?_)
    (.cons (Calc.zero.point ct ?_ ?_ ?_ ?_) (.cons (Calc.zero.point .zero ?_ ?_ ?_ ?_) .nil)))))
    (.cons (.cons (cw.point .zero ?_ ?_ ?_ ?_) (.cons (c1.point .zero ?_ ?_ ?_ ?_) (.cons (c1.point cw.neg ?_ ?_ ?_ ?_)
    (.cons (cw.point cw.neg ?_ ?_ ?_ ?_) (.cons (cw.point .zero ?_ ?_ ?_ ?_) .nil))))) .nil), ?_⟩
  case refine_41 =>
    intro ps hps
    simp only [ff112, List.mem_cons, List.not_mem_nil, or_false] at hps
    rcases hps with rfl | rfl
    · refine ⟨⟨spaced_of (d := 2 * w + t1) 0 ?_ ?_, spaced_of 1 ht.1 ?_, spaced_of (d := 2 * w + t1) 0 ?_ ?_, spaced_of 1 ht.1 ?_, trivial⟩, by simp⟩
      · linarith [ht.1]
      · show |2 * w + t1 - 0| = _; rw [sub_zero, abs_of_nonneg (by linarith)]
      · show |t1 - 0| = _; rw [sub_zero, abs_of_nonneg t0]
      · linarith [ht.1]
      · show |0 - (2 * w + t1)| = _; rw [zero_sub, abs_neg, abs_of_nonneg (by linarith)]
      · show |0 - t1| = _; rw [zero_sub, abs_neg, abs_of_nonneg t0]
    · refine ⟨⟨spaced_of 0 ht.1 ?_, spaced_of 1 hw.1 ?_, spaced_of 0 ht.1 ?_, spaced_of 1 hw.1 ?_, trivial⟩, by simp⟩
      · show |w + t1 - w| = _; rw [add_sub_cancel_left, abs_of_nonneg t0]
      · show |-w - 0| = _; rw [sub_zero, abs_neg, abs_of_nonneg w0]
      · show |w - (w + t1)| = _; rw [sub_add_cancel_left, abs_neg, abs_of_nonneg t0]
      · show |0 - -w| = _; rw [zero_sub, neg_neg, abs_of_nonneg w0]
  all_goals norm_num

include hfl in
theorem made312 {w t1 t2 b : ℝ} (hw : Len w) (ht : Len t1) (ht2 : Len t2) (hb : 0 ≤ b ∧ b ≤ 1000) :
    Made (ff312 w t1 t2 b) (ff312F L w t1 t2 b) := by
  have cw := hw.calc
  have ct := ht.calc
  have cb := (Calc.given hb.1 hb.2).neg
  have w0 := hw.nonneg
  have t0 := ht.nonneg
  have c2 : Calc (L.fl (2 * w)) (2 * w) 2000 1 := by
    have := (Calc.given (x := 2 * w) (B := 2000) (by linarith) (by linarith [hw.2])).round hfl (by norm_num) (by norm_num)
    norm_num at this; exact this
  have c1 : Calc (L.fl (-t2 - b)) (-t2 - b) 2000 1 := by
    have := (ht2.calc.neg.sub (Calc.given hb.1 hb.2)).round hfl (by norm_num) (by norm_num)
    norm_num at this; exact this
  refine ⟨.cons (.cons (Calc.zero.point .zero ?_ ?_ ?_ ?_) (.cons (cw.point .zero ?_ ?_ ?_ ?_) (.cons (cw.point ct ?_ ?_ ?_ ?_)
    (.cons (Calc.zero.point ct ?_ ?_ ?_ ?_) .nil))))
    (.cons (.cons (Calc.zero.point cb ?_ ?_ ?_ ?_) (.cons (c2.point cb ?_ ?_ ?_ ?_) (.cons (c2.point c1 ?_ ?_ ?_ ?_)
    (.cons (Calc.zero.point c1 ?_ ?_ ?_ ?_) .nil)))) .nil), ?_⟩
  case refine_33 =>
    intro ps hps
    simp only [ff312, List.mem_cons, List.not_mem_nil, or_false] at hps
    rcases hps with rfl | rfl
    · refine ⟨⟨spaced_of 0 hw.1 ?_, spaced_of 1 ht.1 ?_, spaced_of 0 hw.1 ?_, trivial⟩, by simp⟩
      · show |w - 0| = _; rw [sub_zero, abs_of_nonneg w0]
      · show |t1 - 0| = _; rw [sub_zero, abs_of_nonneg t0]
      · show |0 - w| = _; rw [zero_sub, abs_neg, abs_of_nonneg w0]
    · refine ⟨⟨spaced_of (d := 2 * w) 0 ?_ ?_, spaced_of 1 ht2.1 ?_, spaced_of (d := 2 * w) 0 ?_ ?_, trivial⟩, by simp⟩
      · linarith [hw.1]
      · show |2 * w - 0| = _; rw [sub_zero, abs_of_nonneg (by linarith)]
      · show |-t2 - b - -b| = _; rw [show -t2 - b - -b = -t2 by ring, abs_neg, abs_of_nonneg ht2.nonneg]
      · linarith [hw.1]
      · show |0 - 2 * w| = _; rw [zero_sub, abs_neg, abs_of_nonneg (by linarith)]
  all_goals norm_num

include hfl in
theorem made413 {w t1 t2 b : ℝ} (hw : Len w) (ht : Len t1) (ht2 : Len t2) (hb : 0 ≤ b ∧ b ≤ 1000) :
    Made (ff413 w t1 t2 b) (ff413F L w t1 t2 b) := by
  have cw := hw.calc
  have ct := ht.calc
  have cb := (Calc.given hb.1 hb.2).neg
  have w0 := hw.nonneg
  have t0 := ht.nonneg
  have cx : Calc (L.fl (t1 + w)) (t1 + w) 2000 1 := by
    have := (ct.add cw).round hfl (by norm_num) (by norm_num)
    norm_num at this; exact this
  have cy : Calc (L.fl (-t2 - b)) (-t2 - b) 2000 1 := by
    have := (ht2.calc.neg.sub (Calc.given hb.1 hb.2)).round hfl (by norm_num) (by norm_num)
    norm_num at this; exact this
  refine ⟨.cons (.cons (Calc.zero.point cw ?_ ?_ ?_ ?_) (.cons (Calc.zero.point .zero ?_ ?_ ?_ ?_) (.cons (ct.point .zero ?_ ?_ ?_ ?_)
    (.cons (ct.point cw ?_ ?_ ?_ ?_) .nil))))
    (.cons (.cons (cw.neg.point cb ?_ ?_ ?_ ?_) (.cons (cx.point cb ?_ ?_ ?_ ?_) (.cons (cx.point cy ?_ ?_ ?_ ?_)
    (.cons (cw.neg.point cy ?_ ?_ ?_ ?_) (.cons (cw.neg.point cb ?_ ?_ ?_ ?_) .nil))))) .nil), ?_⟩
  case refine_37 =>
    intro ps hps
    simp only [ff413, List.mem_cons, List.not_mem_nil, or_false] at hps
    rcases hps with rfl | rfl
    · refine ⟨⟨spaced_of 1 hw.1 ?_, spaced_of 0 ht.1 ?_, spaced_of 1 hw.1 ?_, trivial⟩, by simp⟩
      · show |0 - w| = _; rw [zero_sub, abs_neg, abs_of_nonneg w0]
      · show |t1 - 0| = _; rw [sub_zero, abs_of_nonneg t0]
      · show |w - 0| = _; rw [sub_zero, abs_of_nonneg w0]
    · refine ⟨⟨spaced_of (d := t1 + w + w) 0 ?_ ?_, spaced_of 1 ht2.1 ?_, spaced_of (d := t1 + w + w) 0 ?_ ?_, spaced_of 1 ht2.1 ?_, trivial⟩,
        by simp⟩
      · linarith [hw.1]
      · show |t1 + w - -w| = _; rw [sub_neg_eq_add, abs_of_nonneg (by linarith)]
      · show |-t2 - b - -b| = _; rw [show -t2 - b - -b = -t2 by ring, abs_neg, abs_of_nonneg ht2.nonneg]
      · linarith [hw.1]
      · show |-w - (t1 + w)| = _; rw [show -w - (t1 + w) = -(t1 + w + w) by ring, abs_neg, abs_of_nonneg (by linarith)]
      · show |-b - (-t2 - b)| = _; rw [show -b - (-t2 - b) = t2 by ring, abs_of_nonneg ht2.nonneg]
  all_goals norm_num

include hfl htrig in
/-- rounded products with sines and cosines -/
theorem Calc.polar {θ' θ z e B n : ℝ} (h : Angle θ' θ) (hz : Calc z e B n) (hB : B ≤ 2000) (hn : n ≤ 40) :
    Calc (L.fl (L.sine θ' * z)) (Real.sin θ * e) B (n + 2 + 1) ∧ Calc (L.fl (L.cosine θ' * z)) (Real.cos θ * e) B (n + 2 + 1) :=
  ⟨(Calc.trig (h.sin htrig) (Real.abs_sin_le_one _) hz hB (by linarith)).round hfl (by linarith) (by linarith),
    (Calc.trig (h.cos htrig) (Real.abs_cos_le_one _) hz hB (by linarith)).round hfl (by linarith) (by linarith)⟩

include hfl htrig in
theorem made313 {w t1 t2 α b : ℝ} (hw : Len w) (ht : Len t1) (ht2 : Len t2) (hα : 0 ≤ α ∧ α ≤ 63 / 10) (hb : 0 ≤ b ∧ b ≤ 1000) :
    Made (ff313 w t1 t2 α b) (ff313F L w t1 t2 α b) := by
  obtain ⟨a0, a1, -⟩ := angles hfl hα
  have cb := Calc.given hb.1 hb.2
  obtain ⟨hleft, hsp⟩ := made_left hw ht
  obtain ⟨p1, p2⟩ := Calc.polar hfl htrig a1 cb (by norm_num) (by norm_num)
  have cx := (p1.add cb).round hfl (by norm_num) (by norm_num)
  obtain ⟨q1, q2⟩ := Calc.polar hfl htrig a0 ht2.calc (by norm_num) (by norm_num)
  have cx1 := (q1.add cx).round hfl (by norm_num) (by norm_num)
  have cy1 := (q2.add p2).round hfl (by norm_num) (by norm_num)
  have cbw := (cb.add hw.calc).round hfl (by norm_num) (by norm_num)
  obtain ⟨r1, r2⟩ := Calc.polar hfl htrig a1 cbw (by norm_num) (by norm_num)
  have cx2 := (r1.add cb).round hfl (by norm_num) (by norm_num)
  have cx3 := (((cx1.add cx2).round hfl (by norm_num) (by norm_num)).sub cx).round hfl (by norm_num) (by norm_num)
  have cy3 := (((cy1.add r2).round hfl (by norm_num) (by norm_num)).sub p2).round hfl (by norm_num) (by norm_num)
  refine ⟨.cons hleft (.cons (.cons (cx3.point cy3 ?_ ?_ ?_ ?_) (.cons (cx1.point cy1 ?_ ?_ ?_ ?_) (.cons (cx.point p2 ?_ ?_ ?_ ?_)
    (.cons (cx2.point r2 ?_ ?_ ?_ ?_) .nil)))) .nil), ?_⟩
  case refine_17 =>
    intro ps hps
    simp only [ff313, List.mem_cons, List.not_mem_nil, or_false] at hps
    rcases hps with rfl | rfl
    · exact ⟨hsp, by simp⟩
    · refine ⟨⟨spaced_polar (θ := α + Real.pi / 2) (a := -(Real.sin (α + Real.pi / 2) * w)) (c := -(Real.cos (α + Real.pi / 2) * w)) hw.1 ?_ ?_
          (Or.inl ⟨abs_neg _, abs_neg _⟩),
        spaced_polar (θ := α) (a := -(Real.sin α * t2)) (c := -(Real.cos α * t2)) ht2.1 ?_ ?_ (Or.inl ⟨abs_neg _, abs_neg _⟩),
        spaced_polar (θ := α + Real.pi / 2) (a := Real.sin (α + Real.pi / 2) * w) (c := Real.cos (α + Real.pi / 2) * w) hw.1 ?_ ?_
          (Or.inl ⟨rfl, rfl⟩), trivial⟩, by simp⟩ <;>
      (simp only [Matrix.cons_val_zero, Matrix.cons_val_one]; ring)
  all_goals norm_num

include hfl htrig in
theorem made412 {w t1 t2 α e : ℝ} (hw : Len w) (ht : Len t1) (ht2 : Len t2) (hα : 0 ≤ α ∧ α ≤ 63 / 10) (he : 0 ≤ e ∧ e ≤ 1000) :
    Made (ff412 w t1 t2 α e) (ff412F L w t1 t2 α e) := by
  obtain ⟨a0, a1, a2⟩ := angles hfl hα
  have ce := Calc.given he.1 he.2
  obtain ⟨hleft, hsp⟩ := made_left hw ht
  obtain ⟨p1, p2⟩ := Calc.polar hfl htrig a0 ce (by norm_num) (by norm_num)
  have cd := (ht2.calc.sub ce).round hfl (by norm_num) (by norm_num)
  obtain ⟨q1, q2⟩ := Calc.polar hfl htrig a2 cd (by norm_num) (by norm_num)
  obtain ⟨r1, r2⟩ := Calc.polar hfl htrig a1 hw.calc (by norm_num) (by norm_num)
  have cx3 := (q1.add r1).round hfl (by norm_num) (by norm_num)
  have cy3 := (q2.add r2).round hfl (by norm_num) (by norm_num)
  have cx4 := (p1.add r1).round hfl (by norm_num) (by norm_num)
  have cy4 := (p2.add r2).round hfl (by norm_num) (by norm_num)
  refine ⟨.cons hleft (.cons (.cons (cx4.point cy4 ?_ ?_ ?_ ?_) (.cons (p1.point p2 ?_ ?_ ?_ ?_) (.cons (q1.point q2 ?_ ?_ ?_ ?_)
    (.cons (cx3.point cy3 ?_ ?_ ?_ ?_) .nil)))) .nil), ?_⟩
  case refine_17 =>
    intro ps hps
    simp only [ff412, List.mem_cons, List.not_mem_nil, or_false] at hps
    rcases hps with rfl | rfl
    · exact ⟨hsp, by simp⟩
    · refine ⟨⟨spaced_polar (θ := α + Real.pi / 2) (a := -(Real.sin (α + Real.pi / 2) * w)) (c := -(Real.cos (α + Real.pi / 2) * w)) hw.1 ?_ ?_
          (Or.inl ⟨abs_neg _, abs_neg _⟩),
        spaced_polar (θ := α) (a := -(Real.sin α * t2)) (c := -(Real.cos α * t2)) ht2.1 ?_ ?_ (Or.inl ⟨abs_neg _, abs_neg _⟩),
        spaced_polar (θ := α + Real.pi / 2) (a := Real.sin (α + Real.pi / 2) * w) (c := Real.cos (α + Real.pi / 2) * w) hw.1 ?_ ?_
          (Or.inl ⟨rfl, rfl⟩), trivial⟩, by simp⟩ <;>
      (simp only [Matrix.cons_val_zero, Matrix.cons_val_one, Real.sin_add_pi, Real.cos_add_pi]; ring)
  all_goals norm_num

include hfl htrig in
theorem made311 {w t1 t2 α b : ℝ} (hw : Len w) (ht : Len t1) (ht2 : Len t2) (hα : 0 ≤ α ∧ α ≤ 63 / 10) (hb : 0 ≤ b ∧ b ≤ 1000)
    (hd : 1 / 10 ^ 9 ≤ |w - (t1 + 1)|) : Made (ff311 w t1 t2 α b) (ff311F L w t1 t2 α b) := by
  have hr := rounds_rounding hfl
  obtain ⟨a0, a1, -⟩ := angles hfl hα
  have t0 := ht.nonneg
  have w0 := hw.nonneg
  have cb := (Calc.given hb.1 hb.2).neg
  have cy : Calc (L.fl (-t2 - b)) (-t2 - b) 2000 1 := by
    have := (ht2.calc.neg.sub (Calc.given hb.1 hb.2)).round hfl (by norm_num) (by norm_num)
    norm_num at this; exact this
  -- the width
  have cW : Calc (if w < L.fl (t1 + 1) then L.fl (t1 + w) else w) (if w < t1 + 1 then t1 + w else w) 2000 1 ∧
      1 / 10 ^ 5 ≤ (if w < t1 + 1 then t1 + w else w) := by
    have k := abs_le.1 (fl_abs hr (x := t1 + 1) (B := 1001) (by rw [abs_le]; constructor <;> linarith [ht.2]))
    norm_num at k
    have h1 := hw.1
    have hsum : Calc (L.fl (t1 + w)) (t1 + w) 2000 1 := by
      have := (ht.calc.add hw.calc).round hfl (by norm_num) (by norm_num)
      norm_num at this; exact this
    rcases le_abs.1 hd with h | h <;> norm_num at h
    · rw [if_neg (by linarith), if_neg (by linarith)]
      exact ⟨⟨by rw [sub_self, abs_zero]; norm_num, by rw [abs_of_nonneg w0]; linarith [hw.2]⟩, h1⟩
    · rw [if_pos (by linarith), if_pos (by linarith)]
      exact ⟨hsum, by linarith⟩
  unfold ff311 ff311F
  simp only
  obtain ⟨cW, hW⟩ := cW
  generalize (if w < L.fl (t1 + 1) then L.fl (t1 + w) else w) = W' at *
  generalize (if w < t1 + 1 then t1 + w else w) = W at *
  have W0 : 0 ≤ W := le_trans (by norm_num) hW
  obtain ⟨p1, p2⟩ := Calc.polar hfl htrig a0 cW (by norm_num) (by norm_num)
  obtain ⟨q1, q2⟩ := Calc.polar hfl htrig a1 ht.calc (by norm_num) (by norm_num)
  have cx3 := (p2.add q2).round hfl (by norm_num) (by norm_num)
  have cy3 := (p1.add q1).round hfl (by norm_num) (by norm_num)
  have d0 := (ht.calc.add p2).round hfl (by norm_num) (by norm_num)
  have d2 := (ht.calc.add q2).round hfl (by norm_num) (by norm_num)
  have d3 := (ht.calc.add cx3).round hfl (by norm_num) (by norm_num)
  refine ⟨.cons (.cons (d0.point p1 ?_ ?_ ?_ ?_) (.cons (ht.calc.point .zero ?_ ?_ ?_ ?_) (.cons (d2.point q1 ?_ ?_ ?_ ?_)
    (.cons (d3.point cy3 ?_ ?_ ?_ ?_) .nil))))
    (.cons (.cons (cW.point cb ?_ ?_ ?_ ?_) (.cons (Calc.zero.point cb ?_ ?_ ?_ ?_) (.cons (Calc.zero.point cy ?_ ?_ ?_ ?_)
    (.cons (cW.point cy ?_ ?_ ?_ ?_) .nil)))) .nil), ?_⟩
  case refine_33 =>
    intro ps hps
    simp only [List.mem_cons, List.not_mem_nil, or_false] at hps
    rcases hps with rfl | rfl
    · refine ⟨⟨spaced_polar (θ := α) (a := -(Real.cos α * W)) (c := -(Real.sin α * W)) hW ?_ ?_ (Or.inr ⟨abs_neg _, abs_neg _⟩),
        spaced_polar (θ := α + Real.pi / 2) (a := Real.cos (α + Real.pi / 2) * t1) (c := Real.sin (α + Real.pi / 2) * t1) ht.1 ?_ ?_
          (Or.inr ⟨rfl, rfl⟩),
        spaced_polar (θ := α) (a := Real.cos α * W) (c := Real.sin α * W) hW ?_ ?_ (Or.inr ⟨rfl, rfl⟩), trivial⟩, by simp⟩ <;>
      (simp only [Matrix.cons_val_zero, Matrix.cons_val_one]; ring)
    · refine ⟨⟨spaced_of 0 hW ?_, spaced_of 1 ht2.1 ?_, spaced_of 0 hW ?_, trivial⟩, by simp⟩
      · show |0 - W| = _; rw [zero_sub, abs_neg, abs_of_nonneg W0]
      · show |-t2 - b - -b| = _; rw [show -t2 - b - -b = -t2 by ring, abs_neg, abs_of_nonneg ht2.nonneg]
      · show |W - 0| = _; rw [sub_zero, abs_of_nonneg W0]
  all_goals norm_num

/-- Dimensions of a front face groove: lengths are between 1e-5 and 1000, the angle is at most a full turn. For the code number 3.1.1
the width is not too close to the width at which the workpiece is widened. -/
structure DimFF (code : FFCode) (w t1 : ℝ) (t2 alpha b e : Option ℝ) : Prop where
  width : Len w
  thickness : Len t1
  thickness2 : ∀ x ∈ t2, Len x
  angle : ∀ x ∈ alpha, 0 ≤ x ∧ x ≤ 63 / 10
  gap : ∀ x ∈ b, 0 ≤ x ∧ x ≤ 1000
  depth : ∀ x ∈ e, 0 ≤ x ∧ x ≤ 1000
  widen : code = .c311 → 1 / 10 ^ 9 ≤ |w - (t1 + 1)|

include hfl hacos htrig in
/-- **C111 (front face groove).** A front face groove with moderate dimensions can be made in spite of rounding whenever the parameters
that it needs are given, and its lines connect the points without rounding up to 1e-9. Otherwise the error is the same as without
rounding. -/
theorem C111_FF_partial {code : FFCode} {w t1 : ℝ} {t2 alpha b e : Option ℝ} (h : DimFF code w t1 t2 alpha b e) :
    (∃ pts ls, ffPoints (some code) w t1 t2 alpha b e = .ok pts ∧ profileFFF L (some code) w t1 t2 alpha b e = .ok ls ∧
      List.Forall₂ LinesAt pts ls) ∨
    (ffPoints (some code) w t1 t2 alpha b e = .error .typeError ∧ profileFFF L (some code) w t1 t2 alpha b e = .error .typeError) := by
  obtain ⟨hw, ht, h2, ha, hb, he, hc⟩ := h
  have key : ∀ {pts pts'}, Made pts pts' → ffPoints (some code) w t1 t2 alpha b e = .ok pts →
      ffPointsF L (some code) w t1 t2 alpha b e = .ok pts' → ∃ pts ls, ffPoints (some code) w t1 t2 alpha b e = .ok pts ∧
      profileFFF L (some code) w t1 t2 alpha b e = .ok ls ∧ List.Forall₂ LinesAt pts ls := by
    intro pts pts' hm h1 h3
    obtain ⟨ls, e1, e2⟩ := hm.ok hfl hacos htrig
    refine ⟨pts, ls, h1, ?_, e2⟩
    unfold profileFFF
    rw [h3]
    exact e1
  have bad : ∀ {x}, ffPointsF L (some code) w t1 t2 alpha b e = .error x → profileFFF L (some code) w t1 t2 alpha b e = .error x := by
    intro x h
    unfold profileFFF
    rw [h]
  cases code
  case c112 => exact Or.inl (key (made112 hfl hw ht) rfl rfl)
  case c113 => exact Or.inl (key (made112 hfl hw ht) rfl rfl)
  case c212 => exact Or.inl (key (made112 hfl hw ht) rfl rfl)
  case c311 =>
    rcases t2 with _ | t2 <;> rcases alpha with _ | alpha <;> rcases b with _ | b
    case some.some.some =>
      exact Or.inl (key (made311 hfl htrig hw ht (h2 _ rfl) (ha _ rfl) (hb _ rfl) (hc rfl)) rfl rfl)
    all_goals exact Or.inr ⟨rfl, bad rfl⟩
  case c312 =>
    rcases t2 with _ | t2 <;> rcases b with _ | b
    case some.some => exact Or.inl (key (made312 hfl hw ht (h2 _ rfl) (hb _ rfl)) rfl rfl)
    all_goals exact Or.inr ⟨rfl, bad rfl⟩
  case c313 =>
    rcases t2 with _ | t2 <;> rcases alpha with _ | alpha <;> rcases b with _ | b
    case some.some.some =>
      exact Or.inl (key (made313 hfl htrig hw ht (h2 _ rfl) (ha _ rfl) (hb _ rfl)) rfl rfl)
    all_goals exact Or.inr ⟨rfl, bad rfl⟩
  case c411 =>
    rcases t2 with _ | t2 <;> rcases alpha with _ | alpha <;> rcases b with _ | b
    case some.some.some =>
      exact Or.inl (key (made313 hfl htrig hw ht (h2 _ rfl) (ha _ rfl) (hb _ rfl)) rfl rfl)
    all_goals exact Or.inr ⟨rfl, bad rfl⟩
  case c412 =>
    rcases t2 with _ | t2 <;> rcases alpha with _ | alpha <;> rcases e with _ | e
    case some.some.some =>
      exact Or.inl (key (made412 hfl htrig hw ht (h2 _ rfl) (ha _ rfl) (he _ rfl)) rfl rfl)
    all_goals exact Or.inr ⟨rfl, bad rfl⟩
  case c413 =>
    rcases t2 with _ | t2 <;> rcases b with _ | b
    case some.some => exact Or.inl (key (made413 hfl hw ht (h2 _ rfl) (hb _ rfl)) rfl rfl)
    all_goals exact Or.inr ⟨rfl, bad rfl⟩

omit hfl in
/-- **C111 (front face groove, other code numbers).** -/
theorem C111_FF_code {w t1 : ℝ} {t2 alpha b e : Option ℝ} : profileFFF L none w t1 t2 alpha b e = .error .valueError := rfl

end

/-- a front face groove with two thicknesses, an angle of 90 degrees and a gap -/
example : DimFF .c311 5 10 (some 8) (some (Real.pi / 2)) (some 1) none := by
  have h1 := Real.pi_gt_three
  have h2 := Real.pi_lt_four
  refine ⟨⟨by norm_num, by norm_num⟩, ⟨by norm_num, by norm_num⟩, ?_, ?_, ?_, by simp, fun _ => by norm_num [abs_of_neg]⟩
  · rintro x ⟨⟩; exact ⟨by norm_num, by norm_num⟩
  · rintro x ⟨⟩; constructor <;> linarith
  · rintro x ⟨⟩; norm_num

end Weldx.Groove
