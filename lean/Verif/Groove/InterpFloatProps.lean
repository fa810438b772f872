import Verif.Groove.InterpFloat
import Verif.Groove.FrontFloatProps

/-!
# Interpolation of profiles with rounding (C112)
-/

namespace Weldx.Groove

open Weldx.Geo Matrix Weldx.Binary64Real Weldx.Tr

/-! ### specification -/

/-- the point with the given weight on the way from the first to the second point -/
def mixP (w : ℝ) (p q : Geo.V) : Geo.V := fun i => p i + w * (q i - p i)

/-- the lines between successive points -/
def linesOf : List Geo.V → List SegF
  | p :: q :: r => .line p q :: linesOf (q :: r)
  | _ => []

/-- a shape of lines whose coordinates are floating point numbers and whose lines have two different ends -/
def ReprLines (l : List SegF) : Prop := ∀ s ∈ l, ∃ a b, s = .line a b ∧ ReprP a ∧ ReprP b ∧ a ≠ b

theorem linesOf_length : ∀ ps : List Geo.V, (linesOf ps).length = ps.length - 1
  | [] => rfl
  | [_] => rfl
  | p :: q :: r => by
    have := linesOf_length (q :: r)
    simp only [linesOf, List.length_cons] at this ⊢
    omega

theorem moderate_mixP {w : ℝ} (h0 : 0 ≤ w) (h1 : w ≤ 1) {p q : Geo.V} (hp : Moderate p) (hq : Moderate q) :
    Moderate (mixP w p q) := by
  intro i
  have a := abs_le.1 (hp i)
  have b := abs_le.1 (hq i)
  unfold mixP
  rw [abs_le]
  constructor <;> nlinarith

section
variable {L : Lib} (hfl : Rounds L.fl) (hacos : Arccosine L.acos) (htrig : Trigonometric L.cosine L.sine)

include hfl in
/-- the interpolated number is close to the exact one, also if the weight has a small error -/
theorem lerpF_close {w w' x y : ℝ} (h0 : 0 ≤ w') (h1 : w' ≤ 1) (hw : |w' - w| ≤ 1 / 10 ^ 15) (hx : |x| ≤ 4 * 10 ^ 4)
    (hy : |y| ≤ 4 * 10 ^ 4) : |lerpF L w' x y - (x + w * (y - x))| ≤ 1 / 10 ^ 9 := by
  have hr := rounds_rounding hfl
  have e1 := fl_abs hr (x := 1 - w') (B := 1) (by rw [abs_le]; constructor <;> linarith)
  have c0 : 0 ≤ L.fl (1 - w') := by
    have := hfl.mono (show (0 : ℝ) ≤ 1 - w' by linarith); rwa [hfl.zero] at this
  have c1 : L.fl (1 - w') ≤ 1 := by
    have := hfl.mono (show 1 - w' ≤ 1 by linarith); rwa [fl_one hfl] at this
  unfold lerpF
  generalize hc : L.fl (1 - w') = c at *
  have b1 : |c * x| ≤ 4 * 10 ^ 4 := by
    rw [abs_mul, abs_of_nonneg c0]; nlinarith [abs_nonneg x]
  have b2 : |w' * y| ≤ 4 * 10 ^ 4 := by
    rw [abs_mul, abs_of_nonneg h0]; nlinarith [abs_nonneg y]
  have e2 := fl_abs hr b1
  have e3 := fl_abs hr b2
  have e5 : |(c - (1 - w')) * x| ≤ 1 / 2 ^ 53 * (4 * 10 ^ 4) := by
    rw [abs_mul]; exact mul_le_mul e1 hx (abs_nonneg _) (by norm_num)
  have e6 : |(w' - w) * (y - x)| ≤ 1 / 10 ^ 15 * (8 * 10 ^ 4) := by
    rw [abs_mul]
    refine mul_le_mul hw ?_ (abs_nonneg _) (by norm_num)
    have := abs_sub y x
    linarith
  generalize L.fl (c * x) = s at *
  generalize L.fl (w' * y) = t at *
  have b3 : |s + t| ≤ 9 * 10 ^ 4 := by
    rw [abs_le] at *; norm_num at *; constructor <;> linarith
  have e4 := fl_abs hr b3
  generalize L.fl (s + t) = u at *
  have k : u - (x + w * (y - x)) =
      (u - (s + t)) + (s - c * x) + (t - w' * y) + (c - (1 - w')) * x + (w' - w) * (y - x) := by ring
  rw [k]
  generalize (c - (1 - w')) * x = m1 at *
  generalize (w' - w) * (y - x) = m2 at *
  clear k hx hy b1 b2 b3
  rw [abs_le] at *; norm_num at *; constructor <;> linarith

include hfl in
theorem lerpV_near {w w' : ℝ} (h0 : 0 ≤ w') (h1 : w' ≤ 1) (hw : |w' - w| ≤ 1 / 10 ^ 15) {p q : Geo.V} (hp : Moderate p)
    (hq : Moderate q) : NearV (mixP w p q) (lerpV L w' p q) :=
  fun i => lerpF_close hfl h0 h1 hw (hp i) (hq i)

/-- interpolated lines are the lines between interpolated points -/
theorem segsLerpF_lines {w : ℝ} (h0 : 0 ≤ w) (h1 : w ≤ 1) : ∀ {ps qs : List Geo.V}, ps.length = qs.length → ps ≠ [] →
    segsLerpF L w (linesOf ps) (linesOf qs) =
      helperF L (List.replicate ((List.zipWith (lerpV L w) ps qs).length - 1) .line) (List.zipWith (lerpV L w) ps qs)
  | [], _, _, h => absurd rfl h
  | [p], [q], _, _ => rfl
  | p :: p2 :: r, q :: q2 :: s, h, _ => by
    have ih := segsLerpF_lines h0 h1 (ps := p2 :: r) (qs := q2 :: s) (by simpa using h) (by simp)
    have e : List.replicate ((List.zipWith (lerpV L w) (p :: p2 :: r) (q :: q2 :: s)).length - 1) Kind.line =
        .line :: List.replicate ((List.zipWith (lerpV L w) (p2 :: r) (q2 :: s)).length - 1) .line := by
      simp [List.zipWith, List.replicate_succ]
    rw [e]
    simp only [linesOf, segsLerpF, segLerpF, clip_of_mem h0 h1]
    show _ = helperF L (.line :: _) (lerpV L w p q :: lerpV L w p2 q2 :: List.zipWith (lerpV L w) r s)
    rw [helperF, ih]
    rfl
  | [_], [], h, _ => by simp at h
  | _ :: _ :: _, [], h, _ => by simp at h
  | [_], _ :: _ :: _, h, _ => by simp at h
  | _ :: _ :: _, [_], h, _ => by simp at h

include hfl in
theorem zip_near {w w' : ℝ} (h0 : 0 ≤ w') (h1 : w' ≤ 1) (hw : |w' - w| ≤ 1 / 10 ^ 15) : ∀ {ps qs : List Geo.V},
    (∀ p ∈ ps, Moderate p) → (∀ q ∈ qs, Moderate q) →
    List.Forall₂ NearV (List.zipWith (mixP w) ps qs) (List.zipWith (lerpV L w') ps qs)
  | [], _, _, _ => by simp
  | _ :: _, [], _, _ => by simp
  | p :: r, q :: s, hp, hq => by
    refine List.Forall₂.cons (lerpV_near hfl h0 h1 hw (hp p (by simp)) (hq q (by simp))) ?_
    exact zip_near h0 h1 hw (fun x hx => hp x (List.mem_cons_of_mem _ hx)) (fun x hx => hq x (List.mem_cons_of_mem _ hx))

theorem zip_moderate {w : ℝ} (h0 : 0 ≤ w) (h1 : w ≤ 1) : ∀ {ps qs : List Geo.V},
    (∀ p ∈ ps, Moderate p) → (∀ q ∈ qs, Moderate q) → ∀ x ∈ List.zipWith (mixP w) ps qs, Moderate x
  | [], _, _, _ => by simp
  | _ :: _, [], _, _ => by simp
  | p :: r, q :: s, hp, hq => by
    intro x hx
    rcases List.mem_cons.1 hx with rfl | hx
    · exact moderate_mixP h0 h1 (hp p (by simp)) (hq q (by simp))
    · exact zip_moderate h0 h1 (fun x hx => hp x (List.mem_cons_of_mem _ hx))
        (fun x hx => hq x (List.mem_cons_of_mem _ hx)) x hx

/-- two polylines with moderate points whose interpolated points are not too close to each other -/
def Mixable (w : ℝ) (ps qs : List Geo.V) : Prop :=
  ps.length = qs.length ∧ 2 ≤ ps.length ∧ (∀ p ∈ ps, Moderate p) ∧ (∀ q ∈ qs, Moderate q) ∧
    Spaced (List.zipWith (mixP w) ps qs)

include hfl hacos htrig in
/-- **C112.** Two shapes of lines can be interpolated: no line is refused and all lines are connected. The points of the
result are the exact ones up to 1e-9, also if the weight has a small error. -/
theorem C112_shape_partial {w w' : ℝ} (h0 : 0 ≤ w) (h1 : w ≤ 1) (h0' : 0 ≤ w') (h1' : w' ≤ 1) (hw : |w' - w| ≤ 1 / 10 ^ 15)
    {ps qs : List Geo.V} (h : Mixable w ps qs) :
    ∃ l, shapeLerpF L (linesOf ps) (linesOf qs) w' = .ok l ∧ LinesAt (List.zipWith (mixP w) ps qs) l := by
  obtain ⟨hl, h2, hp, hq, hs⟩ := h
  have hne : ps ≠ [] := by rintro rfl; simp at h2
  have hlen : (List.zipWith (mixP w) ps qs).length = ps.length := by simp [hl]
  have hlen' : (List.zipWith (lerpV L w') ps qs).length = ps.length := by simp [hl]
  obtain ⟨l, e1, e2⟩ := polylineF_ok hfl hacos htrig (zip_near hfl h0' h1' hw hp hq) hs (zip_moderate h0 h1 hp hq) (by omega)
  refine ⟨l, ?_, e2⟩
  unfold polylineF shapeF at e1
  rw [if_neg (by omega)] at e1
  unfold shapeLerpF
  rw [if_neg (by simp [linesOf_length, hl]), clip_of_mem h0' h1', segsLerpF_lines h0' h1' hl hne]
  exact e1

include hfl hacos htrig in
theorem shapesLerpF_ok {w w' : ℝ} (h0 : 0 ≤ w) (h1 : w ≤ 1) (h0' : 0 ≤ w') (h1' : w' ≤ 1) (hw : |w' - w| ≤ 1 / 10 ^ 15) :
    ∀ {pp qq : List (List Geo.V)}, List.Forall₂ (Mixable w) pp qq →
    ∃ ls, shapesLerpF L w' (pp.map linesOf) (qq.map linesOf) = .ok ls ∧
      List.Forall₂ LinesAt (List.zipWith (List.zipWith (mixP w)) pp qq) ls
  | [], [], _ => ⟨[], rfl, .nil⟩
  | ps :: pp, qs :: qq, h => by
    obtain ⟨ha, hb⟩ := List.forall₂_cons.1 h
    obtain ⟨l, e1, e2⟩ := C112_shape_partial hfl hacos htrig h0 h1 h0' h1' hw ha
    obtain ⟨ls, e3, e4⟩ := shapesLerpF_ok h0 h1 h0' h1' hw hb
    refine ⟨l :: ls, ?_, .cons e2 e4⟩
    simp only [List.map_cons, shapesLerpF, e1, e3]

include hfl hacos htrig in
/-- **C112.** Two profiles of lines can be interpolated. -/
theorem C112_profile_partial {w w' : ℝ} (h0 : 0 ≤ w) (h1 : w ≤ 1) (h0' : 0 ≤ w') (h1' : w' ≤ 1)
    (hw : |w' - w| ≤ 1 / 10 ^ 15) {pp qq : List (List Geo.V)} (h : List.Forall₂ (Mixable w) pp qq) :
    ∃ ls, profileLerpF L (pp.map linesOf) (qq.map linesOf) w' = .ok ls ∧
      List.Forall₂ LinesAt (List.zipWith (List.zipWith (mixP w)) pp qq) ls := by
  obtain ⟨ls, e1, e2⟩ := shapesLerpF_ok hfl hacos htrig h0 h1 h0' h1' hw h
  refine ⟨ls, ?_, e2⟩
  unfold profileLerpF
  rw [if_neg (by simp [h.length_eq]), clip_of_mem h0' h1', e1]

/-! ### weights -/

include hfl in
theorem fl_pos {x : ℝ} (h : 0 < x) : 0 < L.fl x := by
  have h1 := abs_le.1 (hfl.error x)
  rw [abs_of_pos h] at h1
  norm_num at h1
  linarith [h1.1]

include hfl in
/-- **C112.** The weight of a location between two others is a number from 0 to 1 and close to the exact one. It is exact at
both ends. -/
theorem C112_weight {a b x : ℝ} (hab : a < b) (h0 : a ≤ x) (h1 : x ≤ b) :
    0 ≤ weightF L a b x ∧ weightF L a b x ≤ 1 ∧ |weightF L a b x - (x - a) / (b - a)| ≤ 1 / 10 ^ 15 ∧
      weightF L a b a = 0 ∧ weightF L a b b = 1 := by
  have hd := fl_pos hfl (sub_pos.2 hab)
  have hn : 0 ≤ L.fl (x - a) := by have := hfl.mono (sub_nonneg.2 h0); rwa [hfl.zero] at this
  have hm : L.fl (x - a) ≤ L.fl (b - a) := hfl.mono (by linarith)
  have q0 : 0 ≤ L.fl (x - a) / L.fl (b - a) := div_nonneg hn hd.le
  have q1 : L.fl (x - a) / L.fl (b - a) ≤ 1 := (div_le_one hd).2 hm
  refine ⟨?_, ?_, ?_, ?_, ?_⟩
  · have := hfl.mono q0; rwa [hfl.zero] at this
  · have := hfl.mono q1; rwa [fl_one hfl] at this
  · have hr := rounds_rounding hfl
    have e1 := abs_le.1 (fl_abs hr (x := L.fl (x - a) / L.fl (b - a)) (B := 1) (by rw [abs_of_nonneg q0]; exact q1))
    have e2 := abs_le.1 (hfl.error (x - a))
    have e3 := abs_le.1 (hfl.error (b - a))
    have hD : 0 < b - a := sub_pos.2 hab
    have hN : 0 ≤ x - a := sub_nonneg.2 h0
    have hND : x - a ≤ b - a := by linarith
    rw [abs_of_nonneg hN] at e2
    rw [abs_of_pos hD] at e3
    unfold weightF
    generalize L.fl (x - a) = n at *
    generalize L.fl (b - a) = d at *
    have k : |n / d - (x - a) / (b - a)| ≤ 3 / 2 ^ 53 := by
      rw [div_sub_div _ _ hd.ne' hD.ne', abs_div, abs_of_pos (mul_pos hd hD), div_le_iff₀ (mul_pos hd hD)]
      generalize b - a = D at *
      generalize x - a = N at *
      have k1 : |n * D - d * N| ≤ 2 / 2 ^ 53 * (N * D) := by
        have s1 : |(n - N) * D| ≤ N / 2 ^ 53 * D := by
          rw [abs_mul, abs_of_pos hD]; exact mul_le_mul_of_nonneg_right (abs_le.2 e2) hD.le
        have s2 : |(d - D) * N| ≤ D / 2 ^ 53 * N := by
          rw [abs_mul, abs_of_nonneg hN]; exact mul_le_mul_of_nonneg_right (abs_le.2 e3) hN
        have s3 : n * D - d * N = (n - N) * D - (d - D) * N := by ring
        rw [s3]
        have := abs_sub ((n - N) * D) ((d - D) * N)
        calc _ ≤ _ := this
          _ ≤ N / 2 ^ 53 * D + D / 2 ^ 53 * N := add_le_add s1 s2
          _ = _ := by ring
      have k2 : 2 / 3 * D ≤ d := by norm_num at e3 ⊢; linarith [e3.1]
      have k3 : N * D ≤ D * D := mul_le_mul_of_nonneg_right hND hD.le
      have k4 : 2 / 3 * D * D ≤ d * D := mul_le_mul_of_nonneg_right k2 hD.le
      refine k1.trans ?_
      have k5 : 2 * (N * D) ≤ 3 * (d * D) := by linarith
      rw [div_mul_eq_mul_div, div_mul_eq_mul_div]
      exact div_le_div_of_nonneg_right k5 (by positivity)
    have k := abs_le.1 k
    generalize n / d = u at *
    rw [abs_le]; norm_num at *; constructor <;> linarith
  · unfold weightF; rw [sub_self, hfl.zero, zero_div, hfl.zero]
  · unfold weightF; rw [div_self hd.ne', fl_one hfl]

/-- **C112.** The local profile is the interpolation of exactly the two profiles beside the location. -/
theorem C112_between {P E : Type} {v : VarProfile P E} (h : v.Good) {k : ℕ} {a b x : ℝ} {p q : P} {f : P → P → ℝ → Except E P}
    (ha : v.locations[k]? = some a) (hb : v.locations[k + 1]? = some b) (hp : v.profiles[k]? = some p)
    (hq : v.profiles[k + 1]? = some q) (hf : v.schemes[k]? = some f) (h0 : a < x ∨ k = 0 ∧ a ≤ x) (h1 : x ≤ b) :
    localProfileF L v x = (f p q (weightF L a b x)).mapError .scheme := by
  have hax : a ≤ x := by rcases h0 with h0 | h0; exacts [h0.le, h0.2]
  have hx0 : 0 ≤ x := le_trans (loc_nonneg h ha) hax
  have hxm : x ≤ v.maxLocation := le_trans h1 (loc_le_max h hb)
  have hc : clip x 0 v.maxLocation = x := by unfold clip; rw [max_eq_left hx0, min_eq_left hxm]
  unfold localProfileF
  simp only [hc]
  rw [firstIdx_eq (m := k) (t := b) (by rw [List.getElem?_drop, Nat.add_comm]; exact hb) h1]
  · simp only [Nat.zero_add, ha, hb, hf, hp, hq]
  · intro m' t' hm ht
    rw [List.getElem?_drop, Nat.add_comm] at ht
    rcases h0 with h0 | h0
    · by_cases he : m' + 1 = k
      · rw [he, ha] at ht
        cases ht; exact h0
      · exact lt_trans (loc_mono h ht ha (by omega)) h0
    · omega

include hfl hacos htrig in
/-- **C112.** A variable profile of lines has a local profile at every location between two given ones. Its points are the
exactly interpolated ones up to 1e-9. -/
theorem C112_local_partial {v : VarProfile (List (List SegF)) GErr} (h : v.Good) {k : ℕ} {a b x : ℝ}
    {pp qq : List (List Geo.V)} (ha : v.locations[k]? = some a) (hb : v.locations[k + 1]? = some b)
    (hp : v.profiles[k]? = some (pp.map linesOf)) (hq : v.profiles[k + 1]? = some (qq.map linesOf))
    (hf : v.schemes[k]? = some (profileLerpF L)) (h0 : a < x ∨ k = 0 ∧ a ≤ x) (h1 : x ≤ b)
    (hm : List.Forall₂ (Mixable ((x - a) / (b - a))) pp qq) :
    ∃ ls, localProfileF L v x = .ok ls ∧
      List.Forall₂ LinesAt (List.zipWith (List.zipWith (mixP ((x - a) / (b - a)))) pp qq) ls := by
  have hab := loc_mono h ha hb (by omega)
  have hax : a ≤ x := by rcases h0 with h0 | h0; exacts [h0.le, h0.2]
  obtain ⟨w0, w1, w2, -, -⟩ := C112_weight hfl hab hax h1
  obtain ⟨ls, e1, e2⟩ := C112_profile_partial hfl hacos htrig (div_nonneg (by linarith) (by linarith))
    ((div_le_one (by linarith)).2 (by linarith)) w0 w1 w2 hm
  refine ⟨ls, ?_, e2⟩
  rw [C112_between h ha hb hp hq hf h0 h1, e1]
  rfl

/-! ### the ends -/

include hfl in
theorem lerpV_ends {p q : Geo.V} (hp : ReprP p) (hq : ReprP q) : lerpV L 0 p q = p ∧ lerpV L 1 p q = q := by
  have h1 := fl_one hfl
  constructor <;> funext i
  · show L.fl (L.fl (L.fl (1 - 0) * p i) + L.fl (0 * q i)) = p i
    rw [sub_zero, h1, one_mul, zero_mul, hfl.zero, hfl.exact (hp i), add_zero, hfl.exact (hp i)]
  · show L.fl (L.fl (L.fl (1 - 1) * p i) + L.fl (1 * q i)) = q i
    rw [sub_self, hfl.zero, zero_mul, one_mul, hfl.zero, hfl.exact (hq i), zero_add, hfl.exact (hq i)]

include hfl in
theorem mkLineF_ne {a b : Geo.V} (h : a ≠ b) : mkLineF L a b = .ok (.line a b) := by
  have : ∃ i, a i ≠ b i := by
    by_contra hc
    push Not at hc
    exact h (funext hc)
  obtain ⟨i, hi⟩ := this
  exact mkLineF_ok hfl hi

include hfl in
theorem segsLerpF_ends : ∀ {as bs : List SegF}, ReprLines as → ReprLines bs → as.length = bs.length →
    segsLerpF L 0 as bs = .ok as ∧ segsLerpF L 1 as bs = .ok bs
  | [], [], _, _, _ => ⟨rfl, rfl⟩
  | [], _ :: _, _, _, h => by simp at h
  | _ :: _, [], _, _, h => by simp at h
  | x :: as, y :: bs, hx, hy, h => by
    obtain ⟨a, b, rfl, ra, rb, hab⟩ := hx x (by simp)
    obtain ⟨a', b', rfl, ra', rb', hab'⟩ := hy y (by simp)
    obtain ⟨i0, i1⟩ := segsLerpF_ends (as := as) (bs := bs) (fun s hs => hx s (List.mem_cons_of_mem _ hs))
      (fun s hs => hy s (List.mem_cons_of_mem _ hs)) (by simpa using h)
    have c0 : clip (0 : ℝ) 0 1 = 0 := clip_of_le le_rfl
    have c1 : clip (1 : ℝ) 0 1 = 1 := clip_of_ge le_rfl
    constructor
    · simp only [segsLerpF, segLerpF, c0, (lerpV_ends hfl ra ra').1, (lerpV_ends hfl rb rb').1, mkLineF_ne hfl hab, i0]
    · simp only [segsLerpF, segLerpF, c1, (lerpV_ends hfl ra ra').2, (lerpV_ends hfl rb rb').2, mkLineF_ne hfl hab', i1]

include hfl in
/-- **C112.** Weights up to 0 give exactly the first shape, weights from 1 on exactly the second one. -/
theorem C112_ends {as bs : List SegF} (ha : ReprLines as) (hb : ReprLines bs) (hl : as.length = bs.length) (w : ℝ) :
    (w ≤ 0 → L.mkShape as = .ok as → shapeLerpF L as bs w = .ok as) ∧
      (1 ≤ w → L.mkShape bs = .ok bs → shapeLerpF L as bs w = .ok bs) := by
  obtain ⟨i0, i1⟩ := segsLerpF_ends hfl ha hb hl
  unfold shapeLerpF
  constructor
  · intro h hs
    rw [if_neg (not_not.2 hl), clip_of_le h, i0]; exact hs
  · intro h hs
    rw [if_neg (not_not.2 hl), clip_of_ge h, i1]; exact hs

/-- both profiles have the same numbers of segments and consist of lines that are accepted as shapes -/
def SameForm (L : Lib) (p q : List (List SegF)) : Prop :=
  List.Forall₂ (fun a b => ReprLines a ∧ ReprLines b ∧ a.length = b.length ∧ L.mkShape a = .ok a ∧ L.mkShape b = .ok b) p q

include hfl in
theorem shapesLerpF_ends : ∀ {p q : List (List SegF)}, SameForm L p q →
    shapesLerpF L 0 p q = .ok p ∧ shapesLerpF L 1 p q = .ok q
  | [], [], _ => ⟨rfl, rfl⟩
  | a :: p, b :: q, h => by
    obtain ⟨⟨ha, hb, hl, sa, sb⟩, ht⟩ := List.forall₂_cons.1 h
    obtain ⟨i0, i1⟩ := shapesLerpF_ends ht
    constructor
    · simp only [shapesLerpF, (C112_ends hfl ha hb hl 0).1 le_rfl sa, i0]
    · simp only [shapesLerpF, (C112_ends hfl ha hb hl 1).2 le_rfl sb, i1]

include hfl in
/-- **C112.** The linear interpolation of profiles of the same form is exact at both ends. -/
theorem C112_linear {p q : List (List SegF)} (h : SameForm L p q) : Interpolating (profileLerpF L) p q := by
  obtain ⟨i0, i1⟩ := shapesLerpF_ends hfl h
  unfold Interpolating profileLerpF
  rw [if_neg (not_not.2 h.length_eq), if_neg (not_not.2 h.length_eq), clip_of_le le_rfl, clip_of_ge le_rfl]
  exact ⟨i0, i1⟩

include hfl in
/-- **C112.** At the given locations the local profile is exactly the given one. -/
theorem C112_given {P E : Type} {v : VarProfile P E} (h : v.Good) (h2 : 2 ≤ v.profiles.length)
    (hi : ∀ k f p q, v.schemes[k]? = some f → v.profiles[k]? = some p → v.profiles[k + 1]? = some q → Interpolating f p q)
    {k : ℕ} {x : ℝ} {p : P} (hx : v.locations[k]? = some x) (hp : v.profiles[k]? = some p) : localProfileF L v x = .ok p := by
  have hk := (List.getElem?_eq_some_iff.1 hp).1
  have hl := h.lenP
  have hf := h.lenF
  cases k with
  | zero =>
    have hb := List.getElem?_eq_getElem (l := v.locations) (i := 1) (by omega)
    have hq := List.getElem?_eq_getElem (l := v.profiles) (i := 1) (by omega)
    have hs := List.getElem?_eq_getElem (l := v.schemes) (i := 0) (by omega)
    have hlt := loc_mono h hx hb (by omega)
    rw [C112_between h hx hb hp hq hs (.inr ⟨rfl, le_rfl⟩) hlt.le, (C112_weight hfl hlt le_rfl hlt.le).2.2.2.1,
      (hi 0 _ _ _ hs hp hq).1]
    rfl
  | succ k =>
    have ha := List.getElem?_eq_getElem (l := v.locations) (i := k) (by omega)
    have hq := List.getElem?_eq_getElem (l := v.profiles) (i := k) (by omega)
    have hs := List.getElem?_eq_getElem (l := v.schemes) (i := k) (by omega)
    have hlt := loc_mono h ha hx (by omega)
    rw [C112_between h ha hx hq hp hs (.inl hlt) le_rfl, (C112_weight hfl hlt le_rfl hlt.le).2.2.2.2,
      (hi k _ _ _ hs hq hp).2]
    rfl

/-- **C112.** Locations outside are replaced by the nearest one inside. -/
theorem C112_outside {P E : Type} {v : VarProfile P E} (h : v.Good) (x : ℝ) :
    (x ≤ 0 → localProfileF L v x = localProfileF L v 0) ∧
    (v.maxLocation ≤ x → localProfileF L v x = localProfileF L v v.maxLocation) := by
  have hm : 0 ≤ v.maxLocation := loc_nonneg h (max_eq h)
  unfold localProfileF
  constructor
  · intro hx
    have : clip x 0 v.maxLocation = clip 0 0 v.maxLocation := by
      unfold clip; rw [max_eq_right hx, max_self]
    rw [this]
  · intro hx
    have : clip x 0 v.maxLocation = clip v.maxLocation 0 v.maxLocation := by
      unfold clip
      rw [max_eq_left (le_trans hm hx), max_eq_left hm, min_eq_right hx, min_self]
    rw [this]

/-- **C112.** Shapes with different numbers of segments are refused, also shapes if one of them begins with an arc. -/
theorem C112_refused {as bs : List SegF} (w : ℝ) :
    (as.length ≠ bs.length → shapeLerpF L as bs w = .error .valueError) ∧
      (∀ x, as.length = bs.length → as.head? = some (.arc x) → shapeLerpF L as bs w = .error .notImplemented) ∧
      ∀ a b x, as.length = bs.length → as.head? = some (.line a b) → bs.head? = some (.arc x) →
        shapeLerpF L as bs w = .error .typeError := by
  unfold shapeLerpF
  refine ⟨fun h => by rw [if_pos h], fun x hl hx => ?_, fun a b x hl hx hy => ?_⟩
  · rw [if_neg (not_not.2 hl)]
    cases as with
    | nil => simp at hx
    | cons s as => cases bs with
      | nil => simp at hl
      | cons t bs =>
        simp only [List.head?_cons, Option.some.injEq] at hx
        subst hx
        simp only [segsLerpF, segLerpF]
  · rw [if_neg (not_not.2 hl)]
    cases as with
    | nil => simp at hx
    | cons s as => cases bs with
      | nil => simp at hl
      | cons t bs =>
        simp only [List.head?_cons, Option.some.injEq] at hx hy
        subst hx; subst hy
        simp only [segsLerpF, segLerpF]

/-! ### equal shapes -/

include hfl in
/-- the interpolation of 3 with itself and the number next to 0.053 as weight -/
theorem lerp_three : lerpF L (7638104968020361 / 2 ^ 57) 3 3 = 3 - 1 / 2 ^ 51 := by
  have h1 := hfl.eq_of_close (x := 1 - 7638104968020361 / 2 ^ 57) (k := 8529817694239719) (e := -53) (by norm_num)
    (by norm_num) (by rw [abs_lt]; constructor <;> norm_num)
  have h2 := hfl.eq_of_close (x := 8529817694239719 / 2 ^ 53 * 3) (k := 6397363270679789) (e := -51) (by norm_num)
    (by norm_num) (by rw [abs_lt]; constructor <;> norm_num)
  have h3 := hfl.eq_of_close (x := 7638104968020361 / 2 ^ 57 * 3) (k := 5728578726015271) (e := -55) (by norm_num)
    (by norm_num) (by rw [abs_lt]; constructor <;> norm_num)
  have h4 := hfl.eq_of_close (x := 6397363270679789 / 2 ^ 51 + 5728578726015271 / 2 ^ 55) (k := 6755399441055743) (e := -51)
    (by norm_num) (by norm_num) (by rw [abs_lt]; constructor <;> norm_num)
  unfold lerpF
  rw [h1, show ((8529817694239719 : ℤ) : ℝ) * 2 ^ (-53 : ℤ) = 8529817694239719 / 2 ^ 53 by norm_num, h2, h3,
    show ((6397363270679789 : ℤ) : ℝ) * 2 ^ (-51 : ℤ) = 6397363270679789 / 2 ^ 51 by norm_num,
    show ((5728578726015271 : ℤ) : ℝ) * 2 ^ (-55 : ℤ) = 5728578726015271 / 2 ^ 55 by norm_num, h4]
  norm_num

include hfl in
/-- **C112.** Refuted: the interpolation of a shape with itself is not always the shape. The weight is the number next to
0.053. -/
theorem C112_same_counterexample : ∃ (w : ℝ) (s : List SegF), 0 < w ∧ w < 1 ∧ Repr w ∧ ReprLines s ∧
    ∃ t, shapeLerpF L s s w = .ok t ∧ t ≠ s := by
  have e0 : lerpF L (7638104968020361 / 2 ^ 57) 0 0 = 0 := by
    unfold lerpF; rw [mul_zero, mul_zero, hfl.zero, add_zero, hfl.zero]
  have ec : clip (clip (7638104968020361 / 2 ^ 57 : ℝ) 0 1) 0 1 = 7638104968020361 / 2 ^ 57 := by
    rw [clip_clip, clip_of_mem (by norm_num) (by norm_num)]
  have ea : lerpV L (7638104968020361 / 2 ^ 57) ![0, 0] ![0, 0] = ![0, 0] := by
    funext i; fin_cases i <;> exact e0
  have eb : lerpV L (7638104968020361 / 2 ^ 57) ![3, 0] ![3, 0] = ![3 - 1 / 2 ^ 51, 0] := by
    funext i; fin_cases i
    · exact lerp_three hfl
    · exact e0
  refine ⟨7638104968020361 / 2 ^ 57, [.line ![0, 0] ![3, 0]], by norm_num, by norm_num,
    ⟨7638104968020361, -57, by norm_num, by norm_num⟩, ?_, [.line ![0, 0] ![3 - 1 / 2 ^ 51, 0]], ?_, ?_⟩
  · intro s hs
    rw [List.mem_singleton] at hs
    refine ⟨_, _, hs, ?_, ?_, fun h => ?_⟩
    · intro i; fin_cases i <;> exact repr_zero
    · intro i; fin_cases i
      · have := repr_int (n := 3) (by norm_num); simpa using this
      · exact repr_zero
    · have := congrFun h 0; norm_num at this
  · unfold shapeLerpF
    rw [if_neg (by simp)]
    simp only [segsLerpF, segLerpF, ec, ea, eb]
    rw [mkLineF_ok hfl (i := 0) (by norm_num)]
    rfl
  · intro h
    simp only [List.cons.injEq, SegF.line.injEq, and_true, true_and] at h
    have := congrFun h 0
    norm_num at this

include hfl in
theorem lerpF_half {x y : ℝ} (h1 : Binary64Real.Repr (x / 2)) (h2 : Binary64Real.Repr (y / 2))
    (h3 : Binary64Real.Repr ((x + y) / 2)) :
    lerpF L (1 / 2) x y = (x + y) / 2 := by
  have h : L.fl (1 - 1 / 2) = 1 / 2 := by
    rw [show (1 - 1 / 2 : ℝ) = 1 / 2 by norm_num]
    exact hfl.exact ⟨1, -1, by norm_num, by norm_num⟩
  unfold lerpF
  rw [h, show 1 / 2 * x = x / 2 by ring, show 1 / 2 * y = y / 2 by ring, hfl.exact h1, hfl.exact h2, ← add_div, hfl.exact h3]

include hfl hacos htrig in
/-- **C112.** Refuted: two accepted shapes with the same number of lines cannot always be interpolated. The tolerance for gaps
between lines is relative to the coordinates, and the gaps at x = 100 and x = -100 are too large at x = 0. -/
theorem C112_gap_counterexample : ∃ s t : List SegF, ReprLines s ∧ ReprLines t ∧ s.length = t.length ∧
    L.mkShape s = .ok s ∧ L.mkShape t = .ok t ∧ shapeLerpF L s t (1 / 2) = .error .valueError := by
  have hr : ∀ x y : ℤ, |x| ≤ 2 ^ 53 → |y| ≤ 2 ^ 53 → ReprP ![x / 2 ^ 11, (y : ℝ)] := by
    intro x y hx hy i; fin_cases i
    · exact ⟨x, -11, hx, by norm_num; ring⟩
    · exact repr_int hy
  have hrl : ∀ x : ℤ, |x| ≤ 2 ^ 53 → ∀ c : ℝ, c = x / 2 ^ 11 → ∀ y z : ℤ, |y| ≤ 2 ^ 53 → |z| ≤ 2 ^ 53 → y ≠ z →
      ∃ a b, (SegF.line ![c, (y : ℝ)] ![c, (z : ℝ)]) = .line a b ∧ ReprP a ∧ ReprP b ∧ a ≠ b := by
    intro x hx c hc y z hy hz hne
    refine ⟨_, _, rfl, ?_, ?_, fun h => hne ?_⟩
    · rw [hc]; exact hr x y hx hy
    · rw [hc]; exact hr x z hx hz
    · have := congrFun h 1; simpa using this
  have hrep : ∀ c : ℝ, (c = 100 + 1 / 2 ^ 11 ∨ c = -100 + 1 / 2 ^ 11) →  ∀ d : ℝ, (d = 100 ∨ d = -100) →
      ReprLines [.line ![c, 1] ![c, 0], .line ![d, 0] ![d, -1]] := by
    intro c hc d hd s hs
    simp only [List.mem_cons, List.not_mem_nil, or_false] at hs
    rcases hs with rfl | rfl
    · rcases hc with rfl | rfl
      · simpa using hrl 204801 (by norm_num) _ (by norm_num) 1 0 (by norm_num) (by norm_num) (by norm_num)
      · simpa using hrl (-204799) (by norm_num) _ (by norm_num) 1 0 (by norm_num) (by norm_num) (by norm_num)
    · rcases hd with rfl | rfl
      · simpa using hrl 204800 (by norm_num) _ (by norm_num) 0 (-1) (by norm_num) (by norm_num) (by norm_num)
      · simpa using hrl (-204800) (by norm_num) _ (by norm_num) 0 (-1) (by norm_num) (by norm_num) (by norm_num)
  have hok : ∀ d : ℝ, (d = 100 ∨ d = -100) →
      L.mkShape [.line ![d + 1 / 2 ^ 11, 1] ![d + 1 / 2 ^ 11, 0], .line ![d, 0] ![d, -1]] =
        .ok [.line ![d + 1 / 2 ^ 11, 1] ![d + 1 / 2 ^ 11, 0], .line ![d, 0] ![d, -1]] := by
    intro d hd
    refine C110_nearly_partial hfl hacos htrig ?_ ⟨?_, trivial⟩
    · intro s hs
      simp only [List.mem_cons, List.not_mem_nil, or_false] at hs
      rcases hs with rfl | rfl <;> rcases hd with rfl | rfl <;> intro i <;> fin_cases i <;> constructor <;>
        norm_num [abs_le]
    · intro i
      rcases hd with rfl | rfl <;> fin_cases i <;> norm_num [SegF.stop, SegF.start, abs_le]
  refine ⟨[.line ![100 + 1 / 2 ^ 11, 1] ![100 + 1 / 2 ^ 11, 0], .line ![100, 0] ![100, -1]],
    [.line ![-100 + 1 / 2 ^ 11, 1] ![-100 + 1 / 2 ^ 11, 0], .line ![-100, 0] ![-100, -1]],
    hrep _ (.inl rfl) _ (.inl rfl), hrep _ (.inr rfl) _ (.inr rfl), rfl, hok 100 (.inl rfl), hok (-100) (.inr rfl), ?_⟩
  have ec : clip (clip (1 / 2 : ℝ) 0 1) 0 1 = 1 / 2 := by rw [clip_clip, clip_of_mem (by norm_num) (by norm_num)]
  have r1 : lerpF L (1 / 2) (100 + 1 / 2 ^ 11) (-100 + 1 / 2 ^ 11) = 1 / 2 ^ 11 := by
    rw [lerpF_half hfl ⟨204801, -12, by norm_num, by norm_num⟩ ⟨-204799, -12, by norm_num, by norm_num⟩
      ⟨1, -11, by norm_num, by norm_num⟩]
    norm_num
  have r2 : lerpF L (1 / 2) 100 (-100) = 0 := by
    rw [lerpF_half hfl ⟨50, 0, by norm_num, by norm_num⟩ ⟨-50, 0, by norm_num, by norm_num⟩ ⟨0, 0, by norm_num, by norm_num⟩]
    norm_num
  have r3 : lerpF L (1 / 2) 1 1 = 1 := by
    rw [lerpF_half hfl ⟨1, -1, by norm_num, by norm_num⟩ ⟨1, -1, by norm_num, by norm_num⟩ ⟨1, 0, by norm_num, by norm_num⟩]
    norm_num
  have r4 : lerpF L (1 / 2) (-1) (-1) = -1 := by
    rw [lerpF_half hfl ⟨-1, -1, by norm_num, by norm_num⟩ ⟨-1, -1, by norm_num, by norm_num⟩
      ⟨-1, 0, by norm_num, by norm_num⟩]
    norm_num
  have r5 : lerpF L (1 / 2) 0 0 = 0 := by unfold lerpF; rw [mul_zero, mul_zero, hfl.zero, add_zero, hfl.zero]
  have p1 : lerpV L (1 / 2) ![100 + 1 / 2 ^ 11, 1] ![-100 + 1 / 2 ^ 11, 1] = ![1 / 2 ^ 11, 1] := by
    funext i; fin_cases i; exacts [r1, r3]
  have p2 : lerpV L (1 / 2) ![100 + 1 / 2 ^ 11, 0] ![-100 + 1 / 2 ^ 11, 0] = ![1 / 2 ^ 11, 0] := by
    funext i; fin_cases i; exacts [r1, r5]
  have p3 : lerpV L (1 / 2) ![100, 0] ![-100, 0] = ![0, 0] := by funext i; fin_cases i; exacts [r2, r5]
  have p4 : lerpV L (1 / 2) ![100, -1] ![-100, -1] = ![0, -1] := by funext i; fin_cases i; exacts [r2, r4]
  unfold shapeLerpF
  rw [if_neg (by simp)]
  simp only [segsLerpF, segLerpF, ec, p1, p2, p3, p4]
  rw [mkLineF_ok hfl (i := 1) (by norm_num), mkLineF_ok hfl (i := 1) (by norm_num)]
  refine C110_gap hfl hacos htrig (pre := []) (post := []) (i := 0) ?_ ?_ ?_
  · intro i; fin_cases i <;> constructor <;> norm_num [abs_le]
  · intro i; fin_cases i <;> constructor <;> norm_num [abs_le]
  · norm_num [SegF.stop, SegF.start]

end

/-! ### examples -/

/-- a workpiece that becomes wider and higher -/
example : Mixable (1 / 3) [![0, 0], ![3, 0], ![3, 1]] [![0, 0], ![6, 0], ![6, 5]] := by
  refine ⟨rfl, by simp, ?_, ?_, ?_⟩
  · intro p hp
    simp only [List.mem_cons, List.not_mem_nil, or_false] at hp
    rcases hp with rfl | rfl | rfl <;> intro i <;> fin_cases i <;> norm_num [abs_le]
  · intro p hp
    simp only [List.mem_cons, List.not_mem_nil, or_false] at hp
    rcases hp with rfl | rfl | rfl <;> intro i <;> fin_cases i <;> norm_num [abs_le]
  · refine ⟨⟨0, ?_⟩, ⟨1, ?_⟩, trivial⟩ <;> norm_num [mixP]

/-- a variable profile with two profiles at 0 and 3: the local profile at 1 -/
example {L : Lib} (hfl : Rounds L.fl) (hacos : Arccosine L.acos) (htrig : Trigonometric L.cosine L.sine) :
    ∃ ls, localProfileF L ⟨[[linesOf [![0, 0], ![3, 0]]], [linesOf [![0, 0], ![6, 0]]]], [0, 3], [profileLerpF L]⟩ 1 =
      .ok ls ∧ List.Forall₂ LinesAt [[mixP ((1 - 0) / (3 - 0)) ![0, 0] ![0, 0], mixP ((1 - 0) / (3 - 0)) ![3, 0] ![6, 0]]] ls := by
  refine C112_local_partial hfl hacos htrig (k := 0) (a := 0) (b := 3) (pp := [[![0, 0], ![3, 0]]])
    (qq := [[![0, 0], ![6, 0]]]) ⟨rfl, by simp, rfl, rfl⟩ rfl rfl rfl rfl rfl (.inl (by norm_num)) (by norm_num) ?_
  refine .cons ⟨rfl, by simp, ?_, ?_, ⟨0, ?_⟩, trivial⟩ .nil
  · intro p hp
    simp only [List.mem_cons, List.not_mem_nil, or_false] at hp
    rcases hp with rfl | rfl <;> intro i <;> fin_cases i <;> norm_num [abs_le]
  · intro p hp
    simp only [List.mem_cons, List.not_mem_nil, or_false] at hp
    rcases hp with rfl | rfl <;> intro i <;> fin_cases i <;> norm_num [abs_le]
  · norm_num [mixP]

/-- two profiles of the same form -/
example (L : Lib) : SameForm L [[.line ![0, 0] ![3, 0]]] [[.line ![1, 0] ![7, 0]]] := by
  have r : ∀ a b : ℤ, |a| ≤ 2 ^ 53 → |b| ≤ 2 ^ 53 → ReprP ![(a : ℝ), (b : ℝ)] := by
    intro a b ha hb i; fin_cases i
    · exact repr_int ha
    · exact repr_int hb
  have k : ∀ a b c d : ℤ, |a| ≤ 2 ^ 53 → |b| ≤ 2 ^ 53 → |c| ≤ 2 ^ 53 → |d| ≤ 2 ^ 53 → a ≠ c →
      ReprLines [.line ![(a : ℝ), (b : ℝ)] ![(c : ℝ), (d : ℝ)]] := by
    intro a b c d ha hb hc hd hne s hs
    rw [List.mem_singleton] at hs
    refine ⟨_, _, hs, r a b ha hb, r c d hc hd, fun h => hne ?_⟩
    have := congrFun h 0
    simpa using this
  refine .cons ⟨?_, ?_, rfl, rfl, rfl⟩ .nil
  · have := k 0 0 3 0 (by norm_num) (by norm_num) (by norm_num) (by norm_num) (by norm_num)
    simpa using this
  · have := k 1 0 7 0 (by norm_num) (by norm_num) (by norm_num) (by norm_num) (by norm_num)
    simpa using this

/-- the point in the middle of (3, 0) and (6, 2) -/
example : mixP (1 / 2) ![3, 0] ![6, 2] = ![9 / 2, 1] := by
  funext i; fin_cases i <;> norm_num [mixP]

end Weldx.Groove
