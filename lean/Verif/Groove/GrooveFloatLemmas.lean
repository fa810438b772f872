import Verif.Groove.GrooveFloat
import Verif.Geometry.ShapeFloatLimits

/-!
# Lines and arcs become two shapes in spite of rounding (C111)
-/

namespace Weldx.Groove

open Weldx.Geo Matrix Weldx.Binary64Real

/-! ### specification -/

/-- the mirror image of a point -/
def mirrorP (p : Geo.V) : Geo.V := ![-p 0, p 1]

/-- the mirror image of a segment; arcs change their orientation -/
def mirrorS : SegF → SegF
  | .line a b => .line (mirrorP a) (mirrorP b)
  | .arc x => .arc ⟨mirrorP x.pStart, mirrorP x.pEnd, mirrorP x.pCenter, -x.sign⟩

/-- a point has been moved by half of the gap to the left -/
def At (b : ℝ) (p p' : Geo.V) : Prop := |p' 0 - (p 0 - b / 2)| ≤ 1 / 10 ^ 10 ∧ |p' 1 - p 1| ≤ 1 / 10 ^ 10

/-- the segments are the ones that have been asked for, moved to the left; arcs are clockwise -/
def Drawn (b : ℝ) : List Kind → List Geo.V → List SegF → Prop
  | [], _, [] => True
  | .line :: ks, p :: q :: r, .line p' q' :: l => At b p p' ∧ At b q q' ∧ Drawn b ks (q :: r) l
  | .arc :: ks, p :: c :: q :: r, .arc x :: l =>
    (At b p x.pStart ∧ At b q x.pEnd ∧ At b c x.pCenter ∧ x.sign = -1) ∧ Drawn b ks (q :: r) l
  | _, _, _ => False

/-- moderate coordinates -/
def Moderate (p : Geo.V) : Prop := ∀ i, |p i| ≤ 4 * 10 ^ 4

/-- Coordinates are moderate, the ends of lines are not too close to each other, arcs are clear and their ends are not
too close to each other. -/
def ClearChain : List Kind → List Geo.V → Prop
  | [], _ => True
  | .line :: ks, p :: q :: r =>
    (Moderate p ∧ Moderate q ∧ ∃ i, 1 / 10 ^ 6 ≤ |q i - p i|) ∧ ClearChain ks (q :: r)
  | .arc :: ks, p :: c :: q :: r =>
    (Moderate p ∧ Moderate q ∧ Moderate c ∧ (∃ σ, ArcF.Clear ⟨p, q, c, -1⟩ σ) ∧
      ∃ i, 1 / 10 ^ 5 ≤ |q i - p i| ∧ len (p - c) / 10 ^ 3 ≤ |q i - p i|) ∧ ClearChain ks (q :: r)
  | _, _ => False

section
variable {L : Lib} (hfl : Rounds L.fl) (hacos : Arccosine L.acos) (htrig : Trigonometric L.cosine L.sine)

theorem repr_int {n : ℤ} (h : |n| ≤ 2 ^ 53) : Repr (n : ℝ) := ⟨n, 0, h, by simp⟩

include hfl in
theorem fl_one : L.fl 1 = 1 := by
  have := hfl.exact (repr_int (n := 1) (by norm_num)); simpa using this

include hfl in
theorem fl_two : L.fl 2 = 2 := by
  have := hfl.exact (repr_int (n := 2) (by norm_num)); simpa using this

include hfl in
theorem fl_neg_one : L.fl (-1) = -1 := by
  have := hfl.exact (repr_int (n := -1) (by norm_num)); simpa using this

include hfl in
theorem householderF_axis : householderF L ![-1, 0] = !![-1, 0; 0, 1] := by
  have h1 := fl_one hfl
  have h2 := fl_two hfl
  have h3 := fl_neg_one hfl
  have h0 := hfl.zero
  have h4 : (1 : ℝ) - 2 = -1 := by norm_num
  ext i j
  fin_cases i <;> fin_cases j <;>
    simp [householderF, Geo.dotF, h0, h1, h2, h4, h3]

/-- both coordinates are floating point numbers -/
def ReprP (p : Geo.V) : Prop := ∀ i, Repr (p i)

include hfl in
theorem addF_repr (p v : Geo.V) : ReprP (Geo.addF L.fl p v) := fun _ => hfl.repr _

include hfl in
theorem addF_zero {p : Geo.V} (h : ReprP p) : Geo.addF L.fl p 0 = p := by
  funext i
  show L.fl (p i + 0) = p i
  rw [add_zero, hfl.exact (h i)]

theorem mirrorP_repr {p : Geo.V} (h : ReprP p) : ReprP (mirrorP p) := by
  intro i
  fin_cases i
  · exact repr_neg (h 0)
  · exact h 1

include hfl in
theorem mulF_mirror {p : Geo.V} (h : ReprP p) : Geo.mulF L.fl !![-1, 0; 0, 1] p = mirrorP p := by
  have h0 := hfl.zero
  have e0 := hfl.exact (repr_neg (h 0))
  have e1 := hfl.exact (h 1)
  funext i
  fin_cases i <;> simp [Geo.mulF, Geo.dotF, mirrorP, h0, e0, e1]

theorem len_mirror (p q : Geo.V) : len (mirrorP p - mirrorP q) = len (p - q) := by
  unfold len dot mirrorP
  simp
  congr 1
  ring

include hfl in
theorem mkLineF_ok {a b : Geo.V} {i : Fin 2} (h : a i ≠ b i) : mkLineF L a b = .ok (.line a b) := by
  unfold mkLineF
  rw [if_neg]
  have hr := rounds_rounding hfl
  have h1 := abs_le.1 (radiusF_close hr b a)
  have h2 := abs_le_len (b - a) i
  have h3 : 0 < |(b - a) i| := abs_pos.2 (by simpa [sub_eq_zero] using fun e => h e.symm)
  have hU := ulp_lt
  have hu := ulp_pos
  norm_num at hU
  nlinarith [h1.1]

/-- translation of a point -/
theorem addF_moderate (hr : Rounding L.fl) {p : Geo.V} (hp : Moderate p) {b : ℝ} (hb0 : 0 ≤ b) (hb : b ≤ 10 ^ 4) :
    At b p (Geo.addF L.fl p ![L.fl (-b / 2), 0]) := by
  have hU := ulp_lt
  have hu := ulp_pos
  norm_num at hU
  have hv := Rounding.ulp hr (-b / 2)
  have eb : |-b / 2| = b / 2 := by rw [neg_div, abs_neg, abs_of_nonneg (by linarith)]
  rw [eb] at hv
  set v := L.fl (-b / 2) with hvd
  have hv1 : ulp * (b / 2) ≤ ulp * 5000 := mul_le_mul_of_nonneg_left (by linarith) hu.le
  have hv' := abs_le.1 (hv.trans hv1)
  have p0 := abs_le.1 (hp 0)
  have p1 := abs_le.1 (hp 1)
  refine ⟨?_, ?_⟩
  · show |L.fl (p 0 + v) - (p 0 - b / 2)| ≤ _
    have h1 := Rounding.ulp hr (p 0 + v)
    have h2 : |p 0 + v| ≤ 5 * 10 ^ 4 := by rw [abs_le]; constructor <;> linarith
    have h3 := abs_le.1 (h1.trans (mul_le_mul_of_nonneg_left h2 hu.le))
    rw [abs_le]
    constructor <;> norm_num <;> linarith [h3.1, h3.2]
  · show |L.fl (p 1 + 0) - p 1| ≤ _
    have h1 := Rounding.ulp hr (p 1)
    have h3 := abs_le.1 (h1.trans (mul_le_mul_of_nonneg_left (hp 1) hu.le))
    rw [add_zero, abs_le]
    constructor <;> norm_num <;> linarith [h3.1, h3.2]

/-- differences of translated points -/
theorem at_diff {b : ℝ} {p p' q q' : Geo.V} (hp : At b p p') (hq : At b q q') (i : Fin 2) :
    |(p' - q') i - (p - q) i| ≤ 2 / 10 ^ 10 := by
  have h1 := abs_le.1 hp.1
  have h2 := abs_le.1 hp.2
  have h3 := abs_le.1 hq.1
  have h4 := abs_le.1 hq.2
  rw [abs_le]
  fin_cases i <;> constructor <;> simp <;> linarith

theorem at_len {b : ℝ} {p p' q q' : Geo.V} (hp : At b p p') (hq : At b q q') :
    |len (p' - q') - len (p - q)| ≤ 4 / 10 ^ 10 := by
  have h0 := at_diff hp hq 0
  have h1 := at_diff hp hq 1
  have h2 := len_sub_le (p' - q') (p - q)
  have h3 := len_le_abs (p' - q' - (p - q))
  simp only [Pi.sub_apply] at h0 h1 h3
  linarith

include hfl in
theorem line_placed {p q : Geo.V} (hp : Moderate p) (hq : Moderate q) {i : Fin 2} (hi : 1 / 10 ^ 6 ≤ |q i - p i|) {b : ℝ}
    (hb0 : 0 ≤ b) (hb : b ≤ 10 ^ 4) :
    mkLineF L p q = .ok (.line p q) ∧
      reflectF L ![-1, 0] (translateF L ![L.fl (-b / 2), 0] (.line p q)) =
        .ok (mirrorS (translateF L ![L.fl (-b / 2), 0] (.line p q))) := by
  have hr := rounds_rounding hfl
  have ap := addF_moderate hr hp hb0 hb
  have aq := addF_moderate hr hq hb0 hb
  have rp := addF_repr hfl p ![L.fl (-b / 2), 0]
  have rq := addF_repr hfl q ![L.fl (-b / 2), 0]
  have hne : p i ≠ q i := by
    intro e; rw [e, sub_self, abs_zero] at hi; norm_num at hi
  refine ⟨mkLineF_ok hfl hne, ?_⟩
  have hd := abs_le.1 (at_diff aq ap i)
  set p' := Geo.addF L.fl p ![L.fl (-b / 2), 0] with hp'
  set q' := Geo.addF L.fl q ![L.fl (-b / 2), 0] with hq'
  have hne' : mirrorP p' i ≠ mirrorP q' i := by
    intro e
    have e' : p' i = q' i := by
      revert e
      fin_cases i
      · intro e; simpa [mirrorP] using e
      · intro e; simpa [mirrorP] using e
    simp only [Pi.sub_apply] at hd
    have : |q i - p i| ≤ 2 / 10 ^ 10 := by rw [abs_le]; constructor <;> linarith
    have h6 := hi.trans this
    norm_num at h6
  show (match transformF L (householderF L ![-1, 0]) (.line (Geo.addF L.fl p' 0) (Geo.addF L.fl q' 0)) with
    | .error e => .error e
    | .ok s => .ok (translateF L 0 s)) = Except.ok (SegF.line (mirrorP p') (mirrorP q'))
  rw [householderF_axis hfl, addF_zero hfl rp, addF_zero hfl rq]
  show (match mkLineF L (Geo.mulF L.fl !![-1, 0; 0, 1] p') (Geo.mulF L.fl !![-1, 0; 0, 1] q') with
    | .error e => .error e
    | .ok s => .ok (translateF L 0 s)) = Except.ok (SegF.line (mirrorP p') (mirrorP q'))
  rw [mulF_mirror hfl rp, mulF_mirror hfl rq, mkLineF_ok hfl hne']
  show Except.ok (SegF.line (Geo.addF L.fl _ 0) (Geo.addF L.fl _ 0)) = _
  rw [addF_zero hfl (mirrorP_repr rp), addF_zero hfl (mirrorP_repr rq)]

/-- Arcs whose radii are almost equal and whose ends are not too close are accepted. -/
theorem arc_ok (hr : Rounding L.fl) (hacos : Arccosine L.acos) {x : ArcF} (ha : 0 < len (x.pStart - x.pCenter))
    (hb : 0 < len (x.pEnd - x.pCenter))
    (hrad : |len (x.pEnd - x.pCenter) - len (x.pStart - x.pCenter)| ≤ 1 / 10 ^ 9)
    (hbig : len (x.pStart - x.pCenter) ≤ 2 * 10 ^ 5)
    (hc : 9 / 10 ^ 6 ≤ len (x.pStart - x.pEnd)) (hc' : len (x.pStart - x.pCenter) / 10 ^ 4 ≤ len (x.pStart - x.pEnd)) :
    ArcF.check L.fl L.acos x = .ok x := by
  have hU := ulp_lt
  have hu := ulp_pos
  norm_num at hU
  set a := len (x.pStart - x.pCenter) with had
  set d := len (x.pEnd - x.pCenter) with hdd
  set l := len (x.pStart - x.pEnd) with hld
  have hrd := abs_le.1 hrad
  refine check_ok hr hacos ha hb ?_ ?_
  · have h1 : 7 * ulp * (d + a) ≤ 7 * ulp * (5 * 10 ^ 5) := mul_le_mul_of_nonneg_left (by linarith) (by linarith)
    norm_num at h1 hrad ⊢
    linarith
  · have h1 : (a - d) ^ 2 ≤ 1 / 10 ^ 18 := by
      have : |a - d| ≤ 1 / 10 ^ 9 := by rwa [abs_sub_comm]
      have h2 := sq_le_sq' (by linarith [(abs_le.1 this).1]) (abs_le.1 this).2
      norm_num at h2 ⊢
      exact h2
    have h2 : a ^ 2 / 10 ^ 8 ≤ l ^ 2 := by
      have : (a / 10 ^ 4) ^ 2 ≤ l ^ 2 := pow_le_pow_left₀ (by positivity) hc' 2
      norm_num at this ⊢
      linarith
    have h3 : (9 / 10 ^ 6) ^ 2 ≤ l ^ 2 := pow_le_pow_left₀ (by positivity) hc 2
    have h4 : a * d ≤ a ^ 2 + 2 * 10 ^ 5 * (1 / 10 ^ 9) := by nlinarith
    have h5 : 43 * ulp * (a * d) ≤ 43 * ulp * (a ^ 2 + 2 * 10 ^ 5 * (1 / 10 ^ 9)) :=
      mul_le_mul_of_nonneg_left h4 (by linarith)
    have h6 : ulp * a ^ 2 ≤ 2 / 10 ^ 16 * a ^ 2 := mul_le_mul_of_nonneg_right (by norm_num; linarith) (sq_nonneg a)
    norm_num at h1 h2 h3 h5 h6 ⊢
    nlinarith

include hfl hacos in
theorem arc_placed {p q c : Geo.V} (hp : Moderate p) (hq : Moderate q) (hc : Moderate c) {σ : ℝ}
    (hx : ArcF.Clear ⟨p, q, c, -1⟩ σ) {i : Fin 2} (hi : 1 / 10 ^ 5 ≤ |q i - p i|) (hi' : len (p - c) / 10 ^ 3 ≤ |q i - p i|)
    {b : ℝ} (hb0 : 0 ≤ b) (hb : b ≤ 10 ^ 4) :
    mkArcF L.fl L.acos p q c false = .ok ⟨p, q, c, -1⟩ ∧
      reflectF L ![-1, 0] (translateF L ![L.fl (-b / 2), 0] (.arc ⟨p, q, c, -1⟩)) =
        .ok (mirrorS (translateF L ![L.fl (-b / 2), 0] (.arc ⟨p, q, c, -1⟩))) := by
  have hr := rounds_rounding hfl
  have ha0 : 0 < len (p - c) := hx.positive
  have hb0' : 0 < len (q - c) := hx.ends
  have hrad : |len (q - c) - len (p - c)| ≤ 1 / 10 ^ 10 := hx.radii
  have hbig : len (p - c) ≤ 1.6 * 10 ^ 5 := by
    have h1 := len_le_abs (p - c)
    have p0 := abs_le.1 (hp 0)
    have p1 := abs_le.1 (hp 1)
    have c0 := abs_le.1 (hc 0)
    have c1 := abs_le.1 (hc 1)
    have h2 : |(p - c) 0| ≤ 8 * 10 ^ 4 := by rw [abs_le]; constructor <;> simp <;> linarith
    have h3 : |(p - c) 1| ≤ 8 * 10 ^ 4 := by rw [abs_le]; constructor <;> simp <;> linarith
    refine (h1.trans (add_le_add h2 h3)).trans (by norm_num)
  have hchord : |q i - p i| ≤ len (p - q) := by
    have := abs_le_len (p - q) i
    rwa [Pi.sub_apply, abs_sub_comm] at this
  have hrd := abs_le.1 hrad
  -- the radius is not tiny, because the ends are not too close
  have htri : len (p - q) ≤ len (p - c) + len (q - c) := by
    have := len_add (p - c) (c - q)
    rw [sub_add_sub_cancel, len_sub_comm c q] at this
    exact this
  refine ⟨?_, ?_⟩
  · refine arc_ok hr hacos (x := ⟨p, q, c, -1⟩) ha0 hb0' ?_ ?_ ?_ ?_
    · exact hrad.trans (by norm_num)
    · show len (p - c) ≤ _
      norm_num at hbig ⊢; linarith
    · show _ ≤ len (p - q)
      norm_num at hi ⊢; linarith
    · show len (p - c) / _ ≤ len (p - q)
      norm_num at hi' ⊢; linarith
  have ap := addF_moderate hr hp hb0 hb
  have aq := addF_moderate hr hq hb0 hb
  have ac := addF_moderate hr hc hb0 hb
  have rp := addF_repr hfl p ![L.fl (-b / 2), 0]
  have rq := addF_repr hfl q ![L.fl (-b / 2), 0]
  have rc := addF_repr hfl c ![L.fl (-b / 2), 0]
  have l1 := abs_le.1 (at_len ap ac)
  have l2 := abs_le.1 (at_len aq ac)
  have l3 := abs_le.1 (at_len ap aq)
  set p' := Geo.addF L.fl p ![L.fl (-b / 2), 0] with hp'
  set q' := Geo.addF L.fl q ![L.fl (-b / 2), 0] with hq'
  set c' := Geo.addF L.fl c ![L.fl (-b / 2), 0] with hc'
  have hch : ArcF.check L.fl L.acos ⟨mirrorP p', mirrorP q', mirrorP c', 1⟩ =
      .ok ⟨mirrorP p', mirrorP q', mirrorP c', 1⟩ := by
    refine arc_ok hr hacos ?_ ?_ ?_ ?_ ?_ ?_ <;> simp only [len_mirror]
    · norm_num at *; linarith
    · norm_num at *; linarith
    · rw [abs_le]; norm_num at *; constructor <;> linarith
    · norm_num at *; linarith
    · norm_num at *; linarith
    · norm_num at *; linarith
  have hdet : Geo.npSign (Geo.detF L.fl ((!![-1, 0; 0, 1] : M) 0) ((!![-1, 0; 0, 1] : M) 1)) = -1 := by
    have h1 := fl_neg_one hfl
    have h0 := hfl.zero
    simp [Geo.detF, h1, h0, Geo.npSign]
  have htr : ArcF.transform L.fl L.acos !![-1, 0; 0, 1] ⟨p', q', c', -1⟩ = .ok ⟨mirrorP p', mirrorP q', mirrorP c', 1⟩ := by
    unfold ArcF.transform
    rw [hdet]
    simp only
    rw [if_neg (by norm_num), mulF_mirror hfl rp, mulF_mirror hfl rq, mulF_mirror hfl rc]
    exact hch
  show (match transformF L (householderF L ![-1, 0]) (.arc ⟨Geo.addF L.fl p' 0, Geo.addF L.fl q' 0, Geo.addF L.fl c' 0, -1⟩) with
    | .error e => .error e
    | .ok s => .ok (translateF L 0 s)) = Except.ok (SegF.arc ⟨mirrorP p', mirrorP q', mirrorP c', 1⟩)
  rw [householderF_axis hfl, addF_zero hfl rp, addF_zero hfl rq, addF_zero hfl rc, transformF, htr]
  show Except.ok (SegF.arc ⟨Geo.addF L.fl _ 0, Geo.addF L.fl _ 0, Geo.addF L.fl _ 0, 1⟩) = _
  rw [addF_zero hfl (mirrorP_repr rp), addF_zero hfl (mirrorP_repr rq), addF_zero hfl (mirrorP_repr rc)]

include hfl hacos in
/-- the segments of a chain, before and after moving them -/
theorem chain_placed {b : ℝ} (hb0 : 0 ≤ b) (hb : b ≤ 10 ^ 4) : ∀ {ks : List Kind} {ps : List Geo.V}, ClearChain ks ps →
    ∃ l, helperF L ks ps = .ok l ∧ (∀ s ∈ l, s.Clear) ∧ JoinedF l ∧ (∀ s p r, l.head? = some s → ps = p :: r → s.start = p) ∧
      reflectYF L (l.map (translateF L ![L.fl (-b / 2), 0])) =
        .ok ((l.map (translateF L ![L.fl (-b / 2), 0])).map mirrorS) ∧
      Drawn b ks ps (l.map (translateF L ![L.fl (-b / 2), 0]))
  | [], ps, _ => ⟨[], by cases ps <;> rfl, by simp, trivial, by simp, rfl, by cases ps <;> trivial⟩
  | .line :: ks, p :: q :: r, h => by
    obtain ⟨⟨hp, hq, i, hi⟩, h2⟩ := h
    obtain ⟨l, e1, e2, e3, e4, e5, e6⟩ := chain_placed hb0 hb h2
    obtain ⟨g1, g2⟩ := line_placed hfl hp hq hi hb0 hb
    have hr := rounds_rounding hfl
    refine ⟨.line p q :: l, ?_, ?_, ?_, ?_, ?_, ?_⟩
    · rw [helperF, g1]; simp only [e1]
    · intro s hs
      rcases List.mem_cons.1 hs with rfl | hs
      · exact fun i => ⟨(hp i).trans (by norm_num), (hq i).trans (by norm_num)⟩
      · exact e2 s hs
    · cases l with
      | nil => trivial
      | cons s l => exact ⟨(e4 s q r rfl rfl).symm, e3⟩
    · intro s p' r' hs hps
      simp only [List.head?_cons, Option.some.injEq] at hs
      simp only [List.cons.injEq] at hps
      rw [← hs, ← hps.1]; rfl
    · rw [List.map_cons, reflectYF, g2]; simp only [e5]; rfl
    · exact ⟨addF_moderate hr hp hb0 hb, addF_moderate hr hq hb0 hb, e6⟩
  | .arc :: ks, p :: c :: q :: r, h => by
    obtain ⟨⟨hp, hq, hc, ⟨σ, hx⟩, i, hi, hi'⟩, h2⟩ := h
    obtain ⟨l, e1, e2, e3, e4, e5, e6⟩ := chain_placed hb0 hb h2
    obtain ⟨g1, g2⟩ := arc_placed hfl hacos hp hq hc hx hi hi' hb0 hb
    have hr := rounds_rounding hfl
    refine ⟨.arc ⟨p, q, c, -1⟩ :: l, ?_, ?_, ?_, ?_, ?_, ?_⟩
    · rw [helperF, g1]; simp only [e1]
    · intro s hs
      rcases List.mem_cons.1 hs with rfl | hs
      · exact ⟨σ, hx⟩
      · exact e2 s hs
    · cases l with
      | nil => trivial
      | cons s l => exact ⟨(e4 s q r rfl rfl).symm, e3⟩
    · intro s p' r' hs hps
      simp only [List.head?_cons, Option.some.injEq] at hs
      simp only [List.cons.injEq] at hps
      rw [← hs, ← hps.1]; rfl
    · rw [List.map_cons, reflectYF, g2]; simp only [e5]; rfl
    · exact ⟨⟨addF_moderate hr hp hb0 hb, addF_moderate hr hq hb0 hb, addF_moderate hr hc hb0 hb, rfl⟩, e6⟩

include hfl hacos htrig in
/-- **C111 (chains).** Lines and arcs that are not too small become a profile of two shapes. The left one has the
points that have been asked for, moved by half of the gap up to 1e-10. The right one is its mirror image without any
error. -/
theorem C111_chain_partial {ks : List Kind} {ps : List Geo.V} {b : ℝ} (h : ClearChain ks ps) (hb0 : 0 ≤ b) (hb : b ≤ 10 ^ 4) :
    ∃ l, translateReflectF L b ks ps = .ok [l, l.map mirrorS] ∧ Drawn b ks ps l := by
  obtain ⟨l, e1, e2, e3, -, e5, e6⟩ := chain_placed hfl hacos hb0 hb h
  refine ⟨l.map (translateF L ![L.fl (-b / 2), 0]), ?_, e6⟩
  unfold translateReflectF shapeF
  rw [e1]
  simp only [C110_shape_partial hfl hacos htrig e2 e3, e5]

end

end Weldx.Groove
