import Verif.Trace.ArcLength
import Verif.Trace.Custom

/-!
# Lengths of segments that are described by points (C93)

Source: `/repo/weldx/geometry.py` 183-200 (`_len_section_disc`), 202-230 (`get_section_length`), 261-271 (end points of a
`DynamicShapeSegment`) and 1586-1595 (`_lcs_disc`).

Simplifications: as in `Verif.Trace.Model`; positions are single numbers.
-/

namespace Weldx.Tr

/-! ## Model -/

/-- sum of the distances of consecutive points, `geometry.py` 197-199 -/
noncomputable def pathLength : List (Vec3 ℝ) → ℝ
  | p :: q :: l => norm2 (q - p) + pathLength (q :: l)
  | _ => 0

/-- `_len_section_disc`, `geometry.py` 183-200 -/
noncomputable def lenSectionDisc (data : Data) (maxCoord position : ℝ) : ℝ :=
  if position ≥ maxCoord then dataLength data
  else
    let coords := data.map Prod.fst
    let idx := argmin (coords.map fun p => |p - position|)
    let upper := if coords.getD idx 0 < position then idx + 1 else idx
    pathLength ((coords.take upper ++ [position]).map (interpDisc data))

/-- `get_section_length` for points, `geometry.py` 202-230 -/
noncomputable def sectionLengthDisc (data : Data) (maxCoord position : ℝ) : Except TErr ℝ :=
  if lenSectionDisc data maxCoord position ≤ 0 then .error .valueError else .ok (lenSectionDisc data maxCoord position)

/-- `[:2]` of a point -/
def planar (v : Vec3 ℝ) : Fin 2 → ℝ := ![v 0, v 1]

/-- `point_start`, `geometry.py` 261-265 -/
noncomputable def pointStart (data : Data) : Fin 2 → ℝ := planar (interpDisc data 0)

/-- `point_end`, `geometry.py` 267-271 -/
noncomputable def pointEnd (data : Data) (maxCoord : ℝ) : Fin 2 → ℝ := planar (interpDisc data maxCoord)

/-! ## The length along the polygon -/

theorem norm2_add_le (a b : Vec3 ℝ) : norm2 (a + b) ≤ norm2 a + norm2 b := by
  simp only [norm2_eq]
  exact norm_add_le (WithLp.toLp 2 a : EuclideanSpace ℝ (Fin 3)) (WithLp.toLp 2 b)

theorem norm2_smul_nonneg {c : ℝ} (hc : 0 ≤ c) (a : Vec3 ℝ) : norm2 (c • a) = c * norm2 a := by
  simp only [norm2_eq]
  have : (WithLp.toLp 2 (c • a) : EuclideanSpace ℝ (Fin 3)) = c • WithLp.toLp 2 a := rfl
  rw [this, norm_smul, Real.norm_of_nonneg hc]

theorem norm2_zero' : norm2 (0 : Vec3 ℝ) = 0 := by simp [norm2]

theorem norm2_nonneg' (a : Vec3 ℝ) : 0 ≤ norm2 a := Real.sqrt_nonneg _

/-- length from the first point up to a position -/
noncomputable def cum : Data → ℝ → ℝ
  | p :: q :: l, s =>
    if s ≤ p.1 then 0
    else if s ≤ q.1 then (s - p.1) / (q.1 - p.1) * norm2 (q.2 - p.2)
    else norm2 (q.2 - p.2) + cum (q :: l) s
  | _, _ => 0

theorem cum_head : ∀ (p : ℝ × Vec3 ℝ) (l : Data) (s : ℝ), s ≤ p.1 → cum (p :: l) s = 0
  | _, [], _, _ => rfl
  | p, q :: l, s, h => by simp [cum, h]

theorem interp_head : ∀ (p : ℝ × Vec3 ℝ) (l : Data) (s : ℝ), s ≤ p.1 → interpDisc (p :: l) s = p.2
  | _, [], _, _ => rfl
  | p, q :: l, s, h => by simp [interpDisc, h]

theorem interp_skip {p q : ℝ × Vec3 ℝ} {l : Data} (hpq : p.1 < q.1) {s : ℝ} (h : q.1 ≤ s) :
    interpDisc (p :: q :: l) s = interpDisc (q :: l) s := by
  rcases h.lt_or_eq with h | h
  · simp [interpDisc, not_le.2 (hpq.trans h), not_le.2 h]
  · subst h
    have hd : (q.1 - p.1) / (q.1 - p.1) = 1 := div_self (by linarith)
    rw [interp_head q l q.1 le_rfl]
    simp only [interpDisc, not_le.2 hpq, if_false, le_refl, if_true, hd, one_smul]
    abel

theorem asc_cons {p q : ℝ × Vec3 ℝ} {l : Data} (h : Ascending (p :: q :: l)) : p.1 < q.1 ∧ Ascending (q :: l) := by
  have h := List.pairwise_cons.1 h
  exact ⟨h.1 _ (by simp), h.2⟩

/-- the distance of two points is at most the length between them -/
theorem chord_cum : ∀ (data : Data), Ascending data → ∀ {a b : ℝ}, a ≤ b →
    norm2 (interpDisc data b - interpDisc data a) ≤ cum data b - cum data a
  | [], _, a, b, _ => by simp [interpDisc, cum, norm2_zero']
  | [p], _, a, b, _ => by simp [interpDisc, cum, norm2_zero']
  | p :: q :: l, h, a, b, hab => by
    obtain ⟨hpq, hl⟩ := asc_cons h
    have hpos : 0 < q.1 - p.1 := by linarith
    have hin : ∀ s, p.1 < s → s ≤ q.1 → interpDisc (p :: q :: l) s = p.2 + ((s - p.1) / (q.1 - p.1)) • (q.2 - p.2) ∧
        cum (p :: q :: l) s = (s - p.1) / (q.1 - p.1) * norm2 (q.2 - p.2) := fun s h1 h2 => by
      simp [interpDisc, cum, not_le.2 h1, h2]
    have hout : ∀ s, q.1 < s → interpDisc (p :: q :: l) s = interpDisc (q :: l) s ∧
        cum (p :: q :: l) s = norm2 (q.2 - p.2) + cum (q :: l) s := fun s h1 => by
      simp [interpDisc, cum, not_le.2 h1, not_le.2 (hpq.trans h1)]
    have hq1 : ∀ {s}, q.1 < s → norm2 (interpDisc (q :: l) s - q.2) ≤ cum (q :: l) s := fun {s} h1 => by
      have := chord_cum (q :: l) hl h1.le
      rwa [interp_head q l q.1 le_rfl, cum_head q l q.1 le_rfl, sub_zero] at this
    by_cases hap : a ≤ p.1
    · rw [interp_head p _ a hap, cum_head p _ a hap, sub_zero]
      by_cases hbp : b ≤ p.1
      · rw [interp_head p _ b hbp, cum_head p _ b hbp, sub_self, norm2_zero']
      · push Not at hbp
        by_cases hbq : b ≤ q.1
        · obtain ⟨e1, e2⟩ := hin b hbp hbq
          rw [e1, e2, add_sub_cancel_left, norm2_smul_nonneg (div_nonneg (by linarith) hpos.le)]
        · push Not at hbq
          obtain ⟨e1, e2⟩ := hout b hbq
          rw [e1, e2, show interpDisc (q :: l) b - p.2 = (q.2 - p.2) + (interpDisc (q :: l) b - q.2) by abel]
          exact (norm2_add_le _ _).trans (by linarith [hq1 hbq])
    · push Not at hap
      by_cases haq : a ≤ q.1
      · obtain ⟨a1, a2⟩ := hin a hap haq
        by_cases hbq : b ≤ q.1
        · obtain ⟨e1, e2⟩ := hin b (hap.trans_le hab) hbq
          have e3 : (p.2 + ((b - p.1) / (q.1 - p.1)) • (q.2 - p.2)) - (p.2 + ((a - p.1) / (q.1 - p.1)) • (q.2 - p.2)) =
              ((b - a) / (q.1 - p.1)) • (q.2 - p.2) := by
            rw [add_sub_add_left_eq_sub, ← sub_smul]
            congr 1
            ring
          rw [e1, e2, a1, a2, e3, norm2_smul_nonneg (div_nonneg (by linarith) hpos.le)]
          apply le_of_eq
          ring
        · push Not at hbq
          obtain ⟨e1, e2⟩ := hout b hbq
          have e3 : interpDisc (q :: l) b - (p.2 + ((a - p.1) / (q.1 - p.1)) • (q.2 - p.2)) =
              ((q.1 - a) / (q.1 - p.1)) • (q.2 - p.2) + (interpDisc (q :: l) b - q.2) := by
            have : (q.1 - a) / (q.1 - p.1) = 1 - (a - p.1) / (q.1 - p.1) := by field_simp; ring
            rw [this, sub_smul, one_smul]
            abel
          have e4 : (q.1 - a) / (q.1 - p.1) * norm2 (q.2 - p.2) =
              norm2 (q.2 - p.2) - (a - p.1) / (q.1 - p.1) * norm2 (q.2 - p.2) := by field_simp; ring
          rw [e1, e2, a1, a2, e3]
          refine (norm2_add_le _ _).trans ?_
          rw [norm2_smul_nonneg (div_nonneg (by linarith) hpos.le), e4]
          linarith [hq1 hbq]
      · push Not at haq
        obtain ⟨a1, a2⟩ := hout a haq
        obtain ⟨e1, e2⟩ := hout b (haq.trans_le hab)
        rw [a1, a2, e1, e2]
        linarith [chord_cum (q :: l) hl hab]

theorem polygon_le_cum {data : Data} (h : Ascending data) {ts : ℕ → ℝ} (hm : Monotone ts) (n : ℕ) :
    polygon (interpDisc data) ts n ≤ cum data (ts n) - cum data (ts 0) := by
  unfold polygon
  rw [← Finset.sum_range_sub (fun k => cum data (ts k))]
  exact Finset.sum_le_sum fun k _ => chord_cum data h (hm (Nat.le_succ k))

/-- the polygon through the given points has this length -/
theorem cum_attained : ∀ (p : ℝ × Vec3 ℝ) (l : Data), Ascending (p :: l) → ∀ {s : ℝ}, p.1 ≤ s →
    ∃ ts : ℕ → ℝ, ∃ n, Monotone ts ∧ ts 0 = p.1 ∧ ts n = s ∧ polygon (interpDisc (p :: l)) ts n = cum (p :: l) s := by
  have two : ∀ a b : ℝ, a ≤ b → Monotone fun k : ℕ => if k = 0 then a else b := by
    intro a b hab i j hij
    by_cases hi : i = 0
    · by_cases hj : j = 0 <;> simp [hi, hj, hab]
    · have hj : j ≠ 0 := by omega
      simp [hi, hj]
  intro p l
  induction l generalizing p with
  | nil =>
    intro _ s hs
    refine ⟨fun k => if k = 0 then p.1 else s, 1, two _ _ hs, by simp, by simp, ?_⟩
    simp [polygon, interpDisc, cum, norm2_zero']
  | cons q l ih =>
    intro h s hs
    obtain ⟨hpq, hl⟩ := asc_cons h
    by_cases hsq : s ≤ q.1
    · refine ⟨fun k => if k = 0 then p.1 else s, 1, two _ _ hs, by simp, by simp, ?_⟩
      simp only [polygon, Finset.range_one, Finset.sum_singleton, zero_add, one_ne_zero, if_false, if_true]
      rw [interp_head p _ p.1 le_rfl]
      rcases hs.lt_or_eq with h1 | h1
      · simp only [interpDisc, cum, not_le.2 h1, hsq, if_false, if_true, add_sub_cancel_left]
        exact norm2_smul_nonneg (div_nonneg (by linarith) (by linarith)) _
      · rw [← h1, interp_head p _ p.1 le_rfl, cum_head p _ p.1 le_rfl, sub_self, norm2_zero']
    · push Not at hsq
      obtain ⟨ts, n, hm, h0, hn, hp⟩ := ih q hl hsq.le
      refine ⟨fun k => match k with | 0 => p.1 | k + 1 => ts k, n + 1, ?_, rfl, hn, ?_⟩
      · refine monotone_nat_of_le_succ fun k => ?_
        cases k with
        | zero => change p.1 ≤ ts 0; rw [h0]; exact hpq.le
        | succ k => exact hm (Nat.le_succ k)
      · have hge : ∀ k, q.1 ≤ ts k := fun k => h0 ▸ hm (Nat.zero_le k)
        have e : ∀ k, interpDisc (p :: q :: l) (ts k) = interpDisc (q :: l) (ts k) := fun k => interp_skip hpq (hge k)
        unfold polygon at hp ⊢
        rw [Finset.sum_range_succ']
        simp only [e, interp_head p _ p.1 le_rfl, hp, h0, interp_skip hpq le_rfl, interp_head q l q.1 le_rfl]
        have hps : p.1 < s := hpq.trans hsq
        simp only [cum, not_le.2 hps, not_le.2 hsq, if_false]
        ring

/-- the same between two positions -/
theorem between_attained : ∀ (p : ℝ × Vec3 ℝ) (l : Data), Ascending (p :: l) → ∀ {a b : ℝ}, p.1 ≤ a → a ≤ b →
    ∃ ts : ℕ → ℝ, ∃ n, Monotone ts ∧ ts 0 = a ∧ ts n = b ∧ polygon (interpDisc (p :: l)) ts n = cum (p :: l) b - cum (p :: l) a := by
  have two : ∀ a b : ℝ, a ≤ b → Monotone fun k : ℕ => if k = 0 then a else b := by
    intro a b hab i j hij
    by_cases hi : i = 0
    · by_cases hj : j = 0 <;> simp [hi, hj, hab]
    · have hj : j ≠ 0 := by omega
      simp [hi, hj]
  intro p l
  induction l generalizing p with
  | nil =>
    intro _ a b _ hab
    refine ⟨fun k => if k = 0 then a else b, 1, two _ _ hab, by simp, by simp, ?_⟩
    simp [polygon, interpDisc, cum, norm2_zero']
  | cons q l ih =>
    intro h a b ha hab
    obtain ⟨hpq, hl⟩ := asc_cons h
    have hpos : 0 < q.1 - p.1 := by linarith
    have hin : ∀ s, p.1 ≤ s → s ≤ q.1 → interpDisc (p :: q :: l) s = p.2 + ((s - p.1) / (q.1 - p.1)) • (q.2 - p.2) ∧
        cum (p :: q :: l) s = (s - p.1) / (q.1 - p.1) * norm2 (q.2 - p.2) := fun s h1 h2 => by
      rcases h1.lt_or_eq with h1 | h1
      · simp [interpDisc, cum, not_le.2 h1, h2]
      · subst h1
        simp [interpDisc, cum]
    by_cases hbq : b ≤ q.1
    · refine ⟨fun k => if k = 0 then a else b, 1, two _ _ hab, by simp, by simp, ?_⟩
      simp only [polygon, Finset.range_one, Finset.sum_singleton, zero_add, one_ne_zero, if_false, if_true]
      obtain ⟨a1, a2⟩ := hin a ha (hab.trans hbq)
      obtain ⟨b1, b2⟩ := hin b (ha.trans hab) hbq
      have e3 : (p.2 + ((b - p.1) / (q.1 - p.1)) • (q.2 - p.2)) - (p.2 + ((a - p.1) / (q.1 - p.1)) • (q.2 - p.2)) =
          ((b - a) / (q.1 - p.1)) • (q.2 - p.2) := by
        rw [add_sub_add_left_eq_sub, ← sub_smul]
        congr 1
        ring
      rw [a1, a2, b1, b2, e3, norm2_smul_nonneg (div_nonneg (by linarith) hpos.le)]
      ring
    · push Not at hbq
      have hcb : cum (p :: q :: l) b = norm2 (q.2 - p.2) + cum (q :: l) b := by
        simp [cum, not_le.2 hbq, not_le.2 (hpq.trans hbq)]
      by_cases haq : a ≤ q.1
      · obtain ⟨ts, n, hm, h0, hn, hp⟩ := cum_attained q l hl hbq.le
        refine ⟨fun k => match k with | 0 => a | k + 1 => ts k, n + 1, ?_, rfl, hn, ?_⟩
        · refine monotone_nat_of_le_succ fun k => ?_
          cases k with
          | zero => change a ≤ ts 0; rw [h0]; exact haq
          | succ k => exact hm (Nat.le_succ k)
        · have hge : ∀ k, q.1 ≤ ts k := fun k => h0 ▸ hm (Nat.zero_le k)
          have e : ∀ k, interpDisc (p :: q :: l) (ts k) = interpDisc (q :: l) (ts k) := fun k => interp_skip hpq (hge k)
          obtain ⟨a1, a2⟩ := hin a ha haq
          unfold polygon at hp ⊢
          rw [Finset.sum_range_succ']
          simp only [e, hp, h0, interp_skip hpq le_rfl, interp_head q l q.1 le_rfl, a1, a2, hcb]
          have e3 : q.2 - (p.2 + ((a - p.1) / (q.1 - p.1)) • (q.2 - p.2)) = ((q.1 - a) / (q.1 - p.1)) • (q.2 - p.2) := by
            have : (q.1 - a) / (q.1 - p.1) = 1 - (a - p.1) / (q.1 - p.1) := by field_simp; ring
            rw [this, sub_smul, one_smul]
            abel
          have e4 : (q.1 - a) / (q.1 - p.1) * norm2 (q.2 - p.2) =
              norm2 (q.2 - p.2) - (a - p.1) / (q.1 - p.1) * norm2 (q.2 - p.2) := by field_simp; ring
          rw [e3, norm2_smul_nonneg (div_nonneg (by linarith) hpos.le), e4]
          ring
      · push Not at haq
        obtain ⟨ts, n, hm, h0, hn, hp⟩ := ih q hl haq.le hab
        refine ⟨ts, n, hm, h0, hn, ?_⟩
        have hge : ∀ k, q.1 ≤ ts k := fun k => haq.le.trans (h0 ▸ hm (Nat.zero_le k))
        have e : ∀ k, interpDisc (p :: q :: l) (ts k) = interpDisc (q :: l) (ts k) := fun k => interp_skip hpq (hge k)
        have hca : cum (p :: q :: l) a = norm2 (q.2 - p.2) + cum (q :: l) a := by
          simp [cum, not_le.2 haq, not_le.2 (hpq.trans haq)]
        unfold polygon at hp ⊢
        simp only [e, hp, hca, hcb]
        ring

theorem cum_between {p : ℝ × Vec3 ℝ} {l : Data} (h : Ascending (p :: l)) {a b : ℝ} (ha : p.1 ≤ a) (hab : a ≤ b) :
    IsArcLength (interpDisc (p :: l)) a b (cum (p :: l) b - cum (p :: l) a) := by
  constructor
  · rintro x ⟨ts, n, hm, h0, hn, rfl⟩
    have := polygon_le_cum h hm n
    rwa [h0, hn] at this
  · intro u hu
    obtain ⟨ts, n, hm, h0, hn, hp⟩ := between_attained p l h ha hab
    exact hu ⟨ts, n, hm, h0, hn, hp.symm⟩

theorem cum_arc {p : ℝ × Vec3 ℝ} {l : Data} (h : Ascending (p :: l)) {s : ℝ} (hs : p.1 ≤ s) :
    IsArcLength (interpDisc (p :: l)) p.1 s (cum (p :: l) s) := by
  constructor
  · rintro x ⟨ts, n, hm, h0, hn, rfl⟩
    have := polygon_le_cum h hm n
    rwa [h0, hn, cum_head p l p.1 le_rfl, sub_zero] at this
  · intro u hu
    obtain ⟨ts, n, hm, h0, hn, hp⟩ := cum_attained p l h hs
    exact hu ⟨ts, n, hm, h0, hn, hp.symm⟩

/-! ## What the code calculates -/

/-- the index up to which the points lie before the position -/
theorem upper_spec {data : Data} (h : Ascending data) (hne : data ≠ []) (s : ℝ) :
    (let coords := data.map Prod.fst
     let idx := argmin (coords.map fun p => |p - s|)
     coords.take (if coords.getD idx 0 < s then idx + 1 else idx)) = (data.map Prod.fst).takeWhile (fun c => decide (c < s)) := by
  obtain ⟨k, -, hk, hkl, hmin⟩ := nearest hne s
  simp only [hk, getD_fst hkl]
  have key : ∀ n, n ≤ data.length → (∀ j, (hj : j < data.length) → j < n → data[j].1 < s) →
      (∀ hn : n < data.length, s ≤ data[n].1) →
      (data.map Prod.fst).take n = (data.map Prod.fst).takeWhile (fun c => decide (c < s)) := by
    intro n hn hlt hge
    have h1 : ∀ (m : List ℝ) n, n ≤ m.length → (∀ j, (hj : j < m.length) → j < n → m[j] < s) → (∀ hn : n < m.length, s ≤ m[n]) →
        m.take n = m.takeWhile (fun c => decide (c < s)) := by
      intro m
      induction m with
      | nil => intro n _ _ _; simp
      | cons c m ih =>
        intro n hn hlt hge
        cases n with
        | zero =>
          have := hge (by simp)
          simp only [List.getElem_cons_zero] at this
          simp [List.takeWhile_cons, not_lt.2 this]
        | succ n =>
          have h0 := hlt 0 (by simp) (by omega)
          simp only [List.getElem_cons_zero] at h0
          rw [List.take_succ_cons, List.takeWhile_cons, if_pos (by simpa using h0)]
          rw [ih n (by simpa using hn) (fun j hj hjn => by
            have := hlt (j + 1) (by simpa using hj) (by omega)
            simpa using this) (fun hn' => by
            have := hge (by simpa using hn')
            simpa using this)]
    refine h1 _ n (by simpa using hn) (fun j hj hjn => ?_) fun hn' => ?_
    · simpa using hlt j (by simpa using hj) hjn
    · simpa using hge (by simpa using hn')
  split
  · rename_i hks
    refine key (k + 1) hkl (fun j hj hjk => ?_) fun hn => ?_
    · rcases Nat.lt_or_ge j k with h1 | h1
      · exact (asc_lt h h1 hkl).trans hks
      · have : j = k := by omega
        subst this; exact hks
    · by_contra hc
      push Not at hc
      have h1 := asc_lt h (Nat.lt_succ_self k) hn
      have h2 := hmin (k + 1) hn
      rw [abs_of_neg (by linarith), abs_of_neg (by linarith)] at h2
      have h1' : data[k].1 < data[k + 1].1 := h1
      linarith
  · rename_i hks
    push Not at hks
    refine key k hkl.le (fun j hj hjk => ?_) fun _ => hks
    by_contra hc
    push Not at hc
    have h1 := asc_lt h hjk hkl
    have h2 := hmin j hj
    rw [abs_of_nonneg (by linarith), abs_of_nonneg (by linarith)] at h2
    linarith

theorem path_cum : ∀ (p : ℝ × Vec3 ℝ) (l : Data), Ascending (p :: l) → ∀ s : ℝ,
    pathLength ((((p :: l).map Prod.fst).takeWhile (fun c => decide (c < s)) ++ [s]).map (interpDisc (p :: l))) = cum (p :: l) s
  | p, [], _, s => by
    by_cases h : p.1 < s <;> simp [List.takeWhile_cons, h, pathLength, interpDisc, cum, norm2_zero']
  | p, q :: l, h, s => by
    obtain ⟨hpq, hl⟩ := asc_cons h
    by_cases hps : s ≤ p.1
    · rw [cum_head p _ s hps]
      simp [List.takeWhile_cons, not_lt.2 hps, pathLength]
    · push Not at hps
      by_cases hqs : s ≤ q.1
      · simp only [List.map_cons, List.takeWhile_cons, hps, decide_true, if_true, not_lt.2 hqs, decide_false, Bool.false_eq_true, if_false,
          List.cons_append, List.nil_append, List.map_nil, pathLength]
        rw [interp_head p _ p.1 le_rfl]
        simp only [interpDisc, cum, not_le.2 hps, hqs, if_false, if_true, add_sub_cancel_left, add_zero]
        exact norm2_smul_nonneg (div_nonneg (by linarith) (by linarith)) _
      · push Not at hqs
        have ih := path_cum q l hl s
        have hall : ∀ c ∈ ((q :: l).map Prod.fst).takeWhile (fun c => decide (c < s)) ++ [s], q.1 ≤ c := by
          intro c hc
          rcases List.mem_append.1 hc with hc | hc
          · have hc := (List.takeWhile_sublist _).subset hc
            rcases List.mem_map.1 hc with ⟨e, he, rfl⟩
            rcases List.mem_cons.1 he with rfl | he
            · exact le_rfl
            · exact ((List.pairwise_cons.1 hl).1 _ (List.mem_map.2 ⟨e, he, rfl⟩)).le
          · rw [List.mem_singleton.1 hc]; exact hqs.le
        have hmap : (((q :: l).map Prod.fst).takeWhile (fun c => decide (c < s)) ++ [s]).map (interpDisc (p :: q :: l)) =
            (((q :: l).map Prod.fst).takeWhile (fun c => decide (c < s)) ++ [s]).map (interpDisc (q :: l)) :=
          List.map_congr_left fun c hc => interp_skip hpq (hall c hc)
        rw [List.map_cons (f := Prod.fst), List.takeWhile_cons, if_pos (by simpa using hps), List.cons_append, List.map_cons, hmap]
        have hstart : (((q :: l).map Prod.fst).takeWhile (fun c => decide (c < s)) ++ [s]).map (interpDisc (q :: l)) =
            q.2 :: ((l.map Prod.fst).takeWhile (fun c => decide (c < s)) ++ [s]).map (interpDisc (q :: l)) := by
          rw [List.map_cons (f := Prod.fst), List.takeWhile_cons, if_pos (by simpa using hqs), List.cons_append, List.map_cons,
            interp_head q l q.1 le_rfl]
        rw [hstart] at ih ⊢
        rw [pathLength, ih, interp_head p _ p.1 le_rfl]
        simp only [cum, not_le.2 hps, not_le.2 hqs, if_false]

theorem cum_last : ∀ (p : ℝ × Vec3 ℝ) (l : Data), Ascending (p :: l) → ∀ {s : ℝ}, (∀ e ∈ p :: l, e.1 ≤ s) →
    cum (p :: l) s = dataLength (p :: l)
  | _, [], _, _, _ => rfl
  | p, q :: l, h, s, hs => by
    obtain ⟨hpq, hl⟩ := asc_cons h
    have ih := cum_last q l hl fun e he => hs e (List.mem_cons_of_mem _ he)
    have hq : q.1 ≤ s := hs q (by simp)
    rw [dataLength, ← ih]
    rcases hq.lt_or_eq with h1 | h1
    · simp only [cum, not_le.2 (hpq.trans h1), not_le.2 h1, if_false]
    · subst h1
      rw [cum_head q l q.1 le_rfl]
      have hd : (q.1 - p.1) / (q.1 - p.1) = 1 := div_self (by linarith)
      simp only [cum, not_le.2 hpq, if_false, le_refl, if_true, hd, one_mul, add_zero]

theorem lenSection_before {p : ℝ × Vec3 ℝ} {l : Data} (h : Ascending (p :: l)) {maxCoord s : ℝ} (hm : s < maxCoord) :
    lenSectionDisc (p :: l) maxCoord s = cum (p :: l) s := by
  have hu := upper_spec h (by simp) s
  have hp := path_cum p l h s
  rw [← hu] at hp
  unfold lenSectionDisc
  rw [if_neg (by simpa using hm)]
  exact hp

/-- **C93, sections.** The length up to a position before `max_coord` is the length of the polygon up to this position: the least upper
bound of inscribed polygons. -/
theorem C93_section {p : ℝ × Vec3 ℝ} {l : Data} (h : Ascending (p :: l)) {maxCoord s : ℝ} (hs : p.1 ≤ s) (hm : s < maxCoord) :
    IsArcLength (interpDisc (p :: l)) p.1 s (lenSectionDisc (p :: l) maxCoord s) := by
  rw [lenSection_before h hm]
  exact cum_arc h hs

/-- **C93, total length.** The length of all points is that of the polygon from the first to the last point. -/
theorem C93_total {p : ℝ × Vec3 ℝ} {l : Data} (h : Ascending (p :: l)) {s : ℝ} (hs : ∀ e ∈ p :: l, e.1 ≤ s) :
    IsArcLength (interpDisc (p :: l)) p.1 s (dataLength (p :: l)) := by
  rw [← cum_last p l h hs]
  exact cum_arc h (hs p (by simp))

/-- **C93 (partial).** If no position of the data exceeds `max_coord`, the length is right for all positions. -/
theorem C93_length_partial {p : ℝ × Vec3 ℝ} {l : Data} (h : Ascending (p :: l)) {maxCoord : ℝ} (hmax : ∀ e ∈ p :: l, e.1 ≤ maxCoord)
    {s : ℝ} (hs : p.1 ≤ s) : IsArcLength (interpDisc (p :: l)) p.1 s (lenSectionDisc (p :: l) maxCoord s) := by
  by_cases hm : s < maxCoord
  · exact C93_section h hs hm
  · push Not at hm
    have : lenSectionDisc (p :: l) maxCoord s = dataLength (p :: l) := by
      unfold lenSectionDisc
      rw [if_pos (by simpa using hm)]
    rw [this]
    exact C93_total h fun e he => (hmax e he).trans hm

theorem arc_unique {f : ℝ → Vec3 ℝ} {a b L M : ℝ} (h : IsArcLength f a b L) (h' : IsArcLength f a b M) : L = M := h.unique h'

/-- **C93, exactly.** At `max_coord` and behind it the result is the length of all points. This is the length up to the position if and
only if the rest of the polygon has no length. -/
theorem C93_length_iff {p : ℝ × Vec3 ℝ} {l : Data} (h : Ascending (p :: l)) {maxCoord s : ℝ} (hs : p.1 ≤ s) (hm : maxCoord ≤ s) :
    IsArcLength (interpDisc (p :: l)) p.1 s (lenSectionDisc (p :: l) maxCoord s) ↔ cum (p :: l) s = dataLength (p :: l) := by
  have e : lenSectionDisc (p :: l) maxCoord s = dataLength (p :: l) := by
    unfold lenSectionDisc
    rw [if_pos (by simpa using hm)]
  rw [e]
  exact ⟨fun h' => arc_unique (cum_arc h hs) h', fun h' => h' ▸ cum_arc h hs⟩

/-- **C93, sections without length.** `get_section_length` raises exactly if all points up to the position coincide; in particular at
the first position. -/
theorem C93_section_error {p : ℝ × Vec3 ℝ} {l : Data} (h : Ascending (p :: l)) {maxCoord s : ℝ} (hs : p.1 ≤ s) (hm : s < maxCoord) :
    sectionLengthDisc (p :: l) maxCoord s = .error .valueError ↔ ∀ t, p.1 ≤ t → t ≤ s → interpDisc (p :: l) t = p.2 := by
  have hiff : sectionLengthDisc (p :: l) maxCoord s = .error .valueError ↔ cum (p :: l) s ≤ 0 := by
    unfold sectionLengthDisc
    rw [lenSection_before h hm]
    split <;> simp_all
  rw [hiff]
  constructor
  · intro hc t h1 h2
    have a1 := chord_cum (p :: l) h h1
    have a2 := chord_cum (p :: l) h h2
    rw [interp_head p l p.1 le_rfl, cum_head p l p.1 le_rfl, sub_zero] at a1
    have hz : norm2 (interpDisc (p :: l) t - p.2) = 0 :=
      le_antisymm (by linarith [norm2_nonneg' (interpDisc (p :: l) s - interpDisc (p :: l) t)]) (norm2_nonneg' _)
    exact sub_eq_zero.1 ((norm2_eq_zero_iff _).1 hz)
  · intro hall
    refine (cum_arc h hs).2 ?_
    rintro x ⟨ts, n, hmono, h0, hn, rfl⟩
    unfold polygon
    refine Finset.sum_nonpos fun k hk => ?_
    have hk : k < n := Finset.mem_range.1 hk
    have l1 : ∀ j, p.1 ≤ ts j := fun j => h0 ▸ hmono (Nat.zero_le j)
    have l2 : ∀ j, j ≤ n → ts j ≤ s := fun j hj => hn ▸ hmono hj
    rw [hall _ (l1 _) (l2 _ hk), hall _ (l1 _) (l2 _ hk.le), sub_self, norm2_zero']

/-- **C93, end points (partial).** If the positions of the data run from 0 to `max_coord`, the end points of the segment are the first
and the last point. -/
theorem C93_ends_partial {data : Data} (h : Ascending data) (hne : data ≠ []) {maxCoord : ℝ} (h0 : (data.head hne).1 = 0)
    (h1 : (data.getLast hne).1 = maxCoord) : pointStart data = planar (data.head hne).2 ∧
      pointEnd data maxCoord = planar (data.getLast hne).2 := by
  have hpos : 0 < data.length := List.length_pos_iff.2 hne
  constructor
  · have := interp_at data h 0 hpos
    rw [List.head_eq_getElem] at h0 ⊢
    rw [h0] at this
    rw [pointStart, this]
  · have := interp_at data h (data.length - 1) (by omega)
    rw [List.getLast_eq_getElem] at h1 ⊢
    rw [h1] at this
    rw [pointEnd, this]

/-- **C93, systems at the end (partial).** If the positions of the data end at 1, the system at the end of the segment lies at the last
point. -/
theorem C93_lcs_end_partial {data : Data} (h : Ascending data) (hne : data ≠ []) (h1 : (data.getLast hne).1 = 1) {limit : Bool}
    {f : Lcs ℝ} (hf : (TSeg.disc data limit).lcs 1 = .ok f) : f.coordinates = (data.getLast hne).2 := by
  have hi := interp_at data h (data.length - 1) (by have := List.length_pos_iff.2 hne; omega)
  rw [List.getLast_eq_getElem] at h1 ⊢
  rw [h1] at hi
  have hx : (tangentDisc data 1) 0 ≠ 0 ∨ (tangentDisc data 1) 1 ≠ 0 := by
    by_contra hc
    push Not at hc
    have := C60_vertical limit (interpDisc data 1) (tangentDisc data 1) hc.1 hc.2
    simp only [TSeg.lcs] at hf
    rw [this] at hf
    cases hf
  simp only [TSeg.lcs] at hf
  rw [← hi]
  cases limit
  · obtain ⟨g, hg, -, -, hc, -⟩ := C60_free (interpDisc data 1) (tangentDisc data 1) hx
    rw [hg] at hf
    cases hf
    exact hc
  · obtain ⟨g, hg, -, -, hc, -⟩ := C60_limited (interpDisc data 1) (tangentDisc data 1) hx
    rw [hg] at hf
    cases hf
    exact hc

/-! ## Examples -/

namespace DiscDemo

/-- a straight line with positions from 0 to 2 -/
noncomputable def data : Data := [(0, ![0, 0, 0]), (1, ![1, 0, 0]), (2, ![2, 0, 0])]

theorem asc : Ascending data := by simp [Ascending, data]

theorem norm_e : norm2 ![1, 0, 0] = 1 := by simp [norm2]

theorem step1 : (![1, 0, 0] : Vec3 ℝ) - ![0, 0, 0] = ![1, 0, 0] := by funext i; fin_cases i <;> simp

theorem step2 : (![2, 0, 0] : Vec3 ℝ) - ![1, 0, 0] = ![1, 0, 0] := by funext i; fin_cases i <;> norm_num

theorem total : dataLength data = 2 := by
  simp only [dataLength, data, step1, step2, norm_e]
  norm_num

end DiscDemo

/-- with the right `max_coord` the hypotheses hold, and the length up to the middle is 1 -/
example : lenSectionDisc DiscDemo.data 2 1 = 1 ∧ IsArcLength (interpDisc DiscDemo.data) 0 1 1 := by
  have h : lenSectionDisc DiscDemo.data 2 1 = 1 := by
    have := lenSection_before (maxCoord := 2) (s := 1) DiscDemo.asc (by norm_num)
    refine this.trans ?_
    simp only [cum, DiscDemo.step1, DiscDemo.norm_e]
    norm_num
  refine ⟨h, ?_⟩
  have := C93_section (maxCoord := 2) (s := 1) DiscDemo.asc (by norm_num) (by norm_num)
  change IsArcLength (interpDisc DiscDemo.data) 0 1 (lenSectionDisc DiscDemo.data 2 1) at this
  rwa [h] at this

/-- **C93, refuted.** With the default `max_coord` 1 and points at the positions 0, 1 and 2 the segment has the length 2, but it ends at
the second point, up to which the length is 1, and the coordinate system at the end of a trace segment lies there as well. -/
theorem C93_counterexample : Ascending DiscDemo.data ∧ sectionLengthDisc DiscDemo.data 1 1 = .ok 2 ∧
    pointEnd DiscDemo.data 1 = ![1, 0] ∧ IsArcLength (interpDisc DiscDemo.data) 0 1 1 ∧
    ∃ f, (TSeg.disc DiscDemo.data false).lcs 1 = .ok f ∧ f.coordinates = ![1, 0, 0] := by
  have hend : interpDisc DiscDemo.data 1 = ![1, 0, 0] := interp_at DiscDemo.data DiscDemo.asc 1 (by simp [DiscDemo.data])
  refine ⟨DiscDemo.asc, ?_, by rw [pointEnd, hend]; simp [planar], ?_, ?_⟩
  · have : lenSectionDisc DiscDemo.data 1 1 = 2 := by
      unfold lenSectionDisc
      rw [if_pos le_rfl, DiscDemo.total]
    rw [sectionLengthDisc, this, if_neg (by norm_num)]
  · have h := cum_arc (s := 1) DiscDemo.asc (by norm_num)
    have e : cum DiscDemo.data 1 = 1 := by
      simp only [cum, DiscDemo.data, DiscDemo.step1, DiscDemo.norm_e]
      norm_num
    change IsArcLength (interpDisc DiscDemo.data) 0 1 (cum DiscDemo.data 1) at h
    rwa [e] at h
  · have ht := C60_discrete_tangent (k := 1) (s := 1) DiscDemo.asc (by simp [DiscDemo.data]) (by simp [DiscDemo.data])
      (by simp [DiscDemo.data])
    have hx : (tangentDisc DiscDemo.data 1) 0 ≠ 0 ∨ (tangentDisc DiscDemo.data 1) 1 ≠ 0 := by
      left
      rw [ht]
      simp [DiscDemo.data]
      try norm_num
    obtain ⟨g, hg, -, -, hc, -⟩ := C60_free (interpDisc DiscDemo.data 1) (tangentDisc DiscDemo.data 1) hx
    exact ⟨g, hg, by rw [hc, hend]⟩

end Weldx.Tr
