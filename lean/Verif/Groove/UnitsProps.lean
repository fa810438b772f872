import Verif.Groove.Units
import Verif.Groove.Props
import Mathlib.Tactic.IntervalCases

/-!
# Properties of grooves with units (C100)
-/

namespace Weldx.Groove

open Weldx.Geo

/-! ### quantities -/

theorem Q.mm_def (q : Q) : q.mm = q.unit * q.mag := rfl

theorem Q.conv_mag {q : Q} {u : ℝ} (hu : 0 < u) : u * (q.conv u).mag = q.mm := by
  simp only [Qty.conv, Qty.mm, smul_eq_mul]
  rw [← mul_assoc, mul_div_cancel₀ _ hu.ne']

theorem Q.add_mm {p q : Q} (h : 0 < p.unit) : (p.add q).mm = p.mm + q.mm := by
  rw [Q.mm_def, Q.add, mul_add, Q.conv_mag h]; rfl

theorem Q.sub_mm {p q : Q} (h : 0 < p.unit) : (p.sub q).mm = p.mm - q.mm := by
  rw [Q.mm_def, Q.sub, mul_sub, Q.conv_mag h]; rfl

theorem Q.neg_mm (q : Q) : q.neg.mm = -q.mm := by simp only [Q.mm_def, Q.neg]; ring

theorem Q.mul_mm (c : ℝ) (q : Q) : (q.mul c).mm = c * q.mm := by simp only [Q.mm_def, Q.mul]; ring

theorem Q.half_mm (q : Q) : q.half.mm = q.mm / 2 := by simp only [Q.mm_def, Q.half]; ring

theorem Q.sqrt_mm {p q : Q} (h : 0 < p.unit) : (p.sqrtSubSq q).mm = √(p.mm ^ 2 - q.mm ^ 2) := by
  have e : p.mm ^ 2 - q.mm ^ 2 = p.unit ^ 2 * (p.mag ^ 2 - q.unit ^ 2 / p.unit ^ 2 * q.mag ^ 2) := by
    simp only [Q.mm_def]; field_simp
  rw [e, Real.sqrt_mul (by positivity), Real.sqrt_sq h.le]; rfl

theorem rad_eq (q : Q) : rad q = q.mm := rfl

theorem Q.le_iff (p q : Q) : p.le q ↔ p.mm ≤ q.mm := Iff.rfl
theorem Q.lt_iff (p q : Q) : p.lt q ↔ p.mm < q.mm := Iff.rfl
theorem oneMm_mm : oneMm.mm = 1 := by simp [oneMm, Qty.mm]

@[simp] theorem Q.add_unit (p q : Q) : (p.add q).unit = p.unit := rfl
@[simp] theorem Q.sub_unit (p q : Q) : (p.sub q).unit = p.unit := rfl
@[simp] theorem Q.neg_unit (p : Q) : p.neg.unit = p.unit := rfl
@[simp] theorem Q.mul_unit (c : ℝ) (p : Q) : (p.mul c).unit = p.unit := rfl
@[simp] theorem Q.half_unit (p : Q) : p.half.unit = p.unit := rfl
@[simp] theorem Q.sqrt_unit (p q : Q) : (p.sqrtSubSq q).unit = p.unit := rfl

/-! ### arrays -/

/-- the value of an entry -/
noncomputable def Item.mm : Item → ℝ
  | .zero => 0
  | .q x => x.mm

@[simp] theorem Item.mm_zero : Item.zero.mm = 0 := rfl
@[simp] theorem Item.mm_q (x : Q) : (Item.q x).mm = x.mm := rfl

theorem Item.magIn_mm {u : ℝ} (hu : 0 < u) (i : Item) : u * i.magIn u = i.mm := by
  cases i with
  | zero => simp [Item.magIn]
  | q x => exact Q.conv_mag hu

/-- the values of an array -/
noncomputable def mmL (a : Qty (List ℝ)) : List ℝ := a.mag.map (a.unit * ·)

theorem firstUnit_pos : ∀ {l : List Item}, (∀ x, Item.q x ∈ l → 0 < x.unit) → 0 < firstUnit l
  | [], _ => one_pos
  | .zero :: l, h => firstUnit_pos (l := l) fun x hx => h x (List.mem_cons_of_mem _ hx)
  | .q x :: _, h => h x List.mem_cons_self

theorem map_magIn {u : ℝ} (hu : 0 < u) (l : List Item) : (l.map (Item.magIn u)).map (u * ·) = l.map Item.mm := by
  rw [List.map_map]
  exact List.map_congr_left fun i _ => Item.magIn_mm hu i

theorem stack_mm {l : List Item} (h : 0 < firstUnit l) : mmL (stack l) = l.map Item.mm := map_magIn h l

theorem append_mm {a : Qty (List ℝ)} (h : 0 < a.unit) (l : List Item) : mmL (append a l) = mmL a ++ l.map Item.mm := by
  rw [mmL, append, List.map_append, map_magIn h]; rfl

theorem zeros_mm : mmL zerosMm = [0, 0] := by simp [mmL, zerosMm]

@[simp] theorem append_unit (a : Qty (List ℝ)) (l : List Item) : (append a l).unit = a.unit := rfl
@[simp] theorem stack_unit (l : List Item) : (stack l).unit = firstUnit l := rfl
@[simp] theorem zeros_unit : zerosMm.unit = 1 := rfl
@[simp] theorem firstUnit_q (x : Q) (l : List Item) : firstUnit (.q x :: l) = x.unit := rfl
@[simp] theorem firstUnit_zero (l : List Item) : firstUnit (.zero :: l) = firstUnit l := rfl
@[simp] theorem root_unit (c : Q) (a : Qty (List ℝ)) (i : Item) : (rootU c a i).unit = a.unit := by
  unfold rootU; split <;> rfl

theorem mag_ne_zero {c : Q} (h : 0 < c.unit) : c.mag ≠ 0 ↔ c.mm ≠ 0 := by
  rw [Q.mm_def, Ne, Ne, mul_eq_zero, not_or]
  exact ⟨fun x => ⟨h.ne', x⟩, fun x => x.2⟩

theorem root_mm {c : Q} (hc : 0 < c.unit) {a : Qty (List ℝ)} (h : 0 < a.unit) (i : Item) :
    mmL (rootU c a i) = mmL a ++ if c.mm ≠ 0 then [i.mm] else [] := by
  unfold rootU
  by_cases hz : c.mm ≠ 0
  · rw [if_pos ((mag_ne_zero hc).2 hz), if_pos hz, append_mm h]; rfl
  · rw [if_neg (fun x => hz ((mag_ne_zero hc).1 x)), if_neg hz, List.append_nil]

theorem rootKind_mm {c : Q} (hc : 0 < c.unit) : rootKindU c = rootKind c.mm := by
  unfold rootKindU rootKind
  by_cases hz : c.mm ≠ 0
  · rw [if_pos ((mag_ne_zero hc).2 hz), if_pos hz]
  · rw [if_neg (fun x => hz ((mag_ne_zero hc).1 x)), if_neg hz]

theorem points_mm {x : Qty (List ℝ)} (h : 0 < x.unit) (y : Qty (List ℝ)) :
    pointsMm x y = List.zipWith (fun a b => ![a, b]) (mmL x) (mmL y) := by
  unfold pointsMm mmL
  rw [List.zipWith_map]
  congr 1
  funext a b
  rw [← mul_assoc, mul_div_cancel₀ _ h.ne']

theorem maxOf_mul {u : ℝ} (hu : 0 < u) : ∀ l : List ℝ, u * maxOf l = maxOf (l.map (u * ·))
  | [] => by simp [maxOf]
  | [x] => rfl
  | x :: y :: l => by
    rw [maxOf, mul_max_of_nonneg _ _ hu.le, maxOf_mul hu (y :: l)]; rfl

theorem minOf_mul {u : ℝ} (hu : 0 < u) : ∀ l : List ℝ, u * minOf l = minOf (l.map (u * ·))
  | [] => by simp [minOf]
  | [x] => rfl
  | x :: y :: l => by
    rw [minOf, mul_min_of_nonneg _ _ hu.le, minOf_mul hu (y :: l)]; rfl

theorem maxU_mm {l : List Item} (h : 0 < firstUnit l) : (maxU l).mm = maxOf (l.map Item.mm) := by
  rw [← stack_mm h]
  exact maxOf_mul h _

theorem minU_mm {l : List Item} (h : 0 < firstUnit l) : (minU l).mm = minOf (l.map Item.mm) := by
  rw [← stack_mm h]
  exact minOf_mul h _

@[simp] theorem maxU_unit (l : List Item) : (maxU l).unit = firstUnit l := rfl
@[simp] theorem minU_unit (l : List Item) : (minU l).unit = firstUnit l := rfl

theorem widen_mm {w edge : Q} (hw : 0 < w.unit) (he : 0 < edge.unit) : (widenU w edge).mm = widen w.mm edge.mm := by
  unfold widenU widen
  rw [Q.le_iff, Q.add_mm he, oneMm_mm]
  split
  · exact Q.add_mm hw
  · rfl

theorem widenMin_mm {w edge : Q} (hw : 0 < w.unit) (he : 0 < edge.unit) : (widenMinU w edge).mm = widen w.mm (-edge.mm) := by
  unfold widenMinU widen
  rw [Q.le_iff, Q.add_mm (by exact he), oneMm_mm, Q.neg_mm]
  split
  · rw [Q.sub_mm hw, sub_eq_add_neg]
  · rfl

@[simp] theorem widen_unit (w edge : Q) : (widenU w edge).unit = w.unit := by
  unfold widenU; split <;> rfl
@[simp] theorem widenMin_unit (w edge : Q) : (widenMinU w edge).unit = w.unit := by
  unfold widenMinU; split <;> rfl

theorem halfGap_mm (b : Q) : halfGap b = -b.mm / 2 := by
  simp only [halfGap, Qty.conv, Q.neg, Q.half, Qty.mm, smul_eq_mul]; ring

theorem translateReflect_mm {b : Q} {ks : List Kind} {x y : Qty (List ℝ)} {ps : List Geo.V} (h : pointsMm x y = ps) :
    translateReflectU b ks x y = translateReflect b.mm ks ps := by
  unfold translateReflectU translateReflect
  rw [h, halfGap_mm]
  rfl

/-- the value of a row -/
noncomputable def rowMm (r : Item × Item) : Geo.V := ![r.1.mm, r.2.mm]

theorem rows_mm {l : List (Item × Item)} (h : 0 < firstUnit (l.flatMap fun r => [r.1, r.2])) :
    ((rows l).mag.map fun p => (rows l).unit • p) = l.map rowMm := by
  unfold rows
  simp only [List.map_map]
  refine List.map_congr_left fun r _ => ?_
  simp only [Function.comp, rowMm]
  rw [← Item.magIn_mm h r.1, ← Item.magIn_mm h r.2]
  ext i
  fin_cases i <;> simp

theorem polyline_mm {l : List (Item × Item)} (h : 0 < firstUnit (l.flatMap fun r => [r.1, r.2])) :
    polylineU l = polyline (l.map rowMm) := by
  rw [polylineU, rows_mm h]

theorem straight_mm {w b t : Q} (hw : 0 < w.unit) : straightU w b t = straight w.mm b.mm t.mm := by
  unfold straightU straight
  rw [polyline_mm (by simpa using hw)]
  simp only [List.map_cons, List.map_nil, rowMm, Item.mm_q, Item.mm_zero, Q.sub_mm (p := w.neg) hw, Q.neg_mm, Q.half_mm,
    neg_div]

theorem halfProfile_mm {w b t : Q} (hw : 0 < w.unit) {ks : List Kind} {x y : Qty (List ℝ)} {ps : List Geo.V}
    (h : pointsMm x y = ps) : halfProfileU w b t ks x y = halfProfile w.mm b.mm t.mm ks ps := by
  unfold halfProfileU halfProfile
  rw [h, halfGap_mm, straight_mm hw]
  rfl

theorem neg_minOf_two (s : ℝ) : -minOf [-s, 0] = max s 0 := by
  simp only [minOf]
  rw [← max_neg_neg, neg_neg, neg_zero]

theorem neg_minOf_three (s r : ℝ) : -minOf [-s, -r, 0] = max (max s r) 0 := by
  simp only [minOf]
  rw [← max_neg_neg, ← max_neg_neg, neg_neg, neg_neg, neg_zero, max_assoc]

theorem maxOf_two (s : ℝ) : maxOf [s, 0] = max s 0 := rfl

theorem maxOf_three (s r : ℝ) : maxOf [s, r, 0] = max (max s r) 0 := by
  simp only [maxOf, max_assoc]

/-! ### the profiles -/

theorem profileI_mm {w t b : Q} (hw : 0 < w.unit) (ht : 0 < t.unit) : profileIU w t b = profileI w.mm t.mm b.mm := by
  unfold profileIU profileI
  refine translateReflect_mm ?_
  rw [points_mm (by simpa using hw), stack_mm (by simpa using hw), stack_mm (by simpa using ht)]
  simp [Q.neg_mm]

theorem profileV_mm {w t alpha c b : Q} (hw : 0 < w.unit) (ht : 0 < t.unit) (hc : 0 < c.unit) :
    profileVU w t alpha c b = profileV w.mm t.mm alpha.mm c.mm b.mm := by
  unfold profileVU profileV
  rw [rootKind_mm hc]
  refine translateReflect_mm ?_
  rw [points_mm (by simpa using hw), append_mm (by simpa using hw), append_mm (by simp),
    root_mm hc (by simpa using hw), root_mm hc (by simp), stack_mm (by simpa using hw), zeros_mm]
  simp only [List.map_cons, List.map_nil, Item.mm_q, Item.mm_zero, Q.neg_mm]
  rw [widenMin_mm hw (by simpa using ht), minU_mm (by simpa using ht)]
  simp only [List.map_cons, List.map_nil, Item.mm_q, Item.mm_zero, Q.neg_mm, neg_minOf_two, Q.mul_mm, Q.sub_mm ht, rad_eq,
    Q.half_mm, rootFace]
  by_cases hz : c.mm = 0 <;> simp [hz]

theorem profileVV_mm {w t alpha beta h c b : Q} (hw : 0 < w.unit) (ht : 0 < t.unit) (hh : 0 < h.unit) (hc : 0 < c.unit) :
    profileVVU w t alpha beta h c b = profileVV w.mm t.mm alpha.mm beta.mm h.mm c.mm b.mm := by
  unfold profileVVU profileVV
  rw [rootKind_mm hc]
  refine translateReflect_mm ?_
  rw [points_mm (by simpa using hw), append_mm (by simpa using hw), append_mm (by simp),
    root_mm hc (by simpa using hw), root_mm hc (by simp), stack_mm (by simpa using hw), zeros_mm]
  simp only [List.map_cons, List.map_nil, Item.mm_q, Item.mm_zero, Q.neg_mm]
  rw [widenMin_mm hw (by simpa using hh), minU_mm (by simpa using hh)]
  have h1 : ∀ k : ℝ, 0 < ((h.sub c).mul k).unit := fun _ => hh
  have h2 : ∀ k : ℝ, 0 < ((h.sub c).mul k).neg.unit := fun _ => hh
  simp only [List.map_cons, List.map_nil, Item.mm_q, Item.mm_zero, Q.neg_mm, neg_minOf_two, Q.mul_mm, Q.sub_mm ht, Q.sub_mm hh,
    Q.add_mm hh, Q.sub_mm (h2 _), Q.add_mm (h1 _), rad_eq, Q.half_mm, rootFace]
  by_cases hz : c.mm = 0 <;> simp [hz]

theorem profileUV_mm {w t alpha beta R h b : Q} (hw : 0 < w.unit) (ht : 0 < t.unit) (hR : 0 < R.unit) (hh : 0 < h.unit) :
    profileUVU w t alpha beta R h b = profileUV w.mm t.mm alpha.mm beta.mm R.mm h.mm b.mm := by
  unfold profileUVU profileUV
  refine translateReflect_mm ?_
  have h1 : ∀ k : ℝ, 0 < ((R.mul k).neg).unit := fun _ => hR
  have h2 : ∀ p, 0 < (h.add p).unit := fun _ => hh
  rw [points_mm (by simpa using hw), stack_mm (by simpa using hw), stack_mm (by simpa using hh)]
  simp only [List.map_cons, List.map_nil, Item.mm_q, Item.mm_zero, Q.neg_mm]
  rw [widen_mm hw (by simpa using hR), maxU_mm (by simpa using hR)]
  simp only [List.map_cons, List.map_nil, Item.mm_q, Item.mm_zero, Q.neg_mm, maxOf_two, Q.mul_mm, Q.sub_mm ht, Q.sub_mm (h1 _),
    Q.sub_mm (h2 _), Q.add_mm hh, Q.sqrt_mm hR, rad_eq, Q.half_mm]
  simp [mul_comm]

theorem widthU_mm {w t beta R c : Q} (hw : 0 < w.unit) (ht : 0 < t.unit) (hR : 0 < R.unit) (hc : 0 < c.unit) :
    (widthUU w t beta R c).mm = widen w.mm (max (R.mm * Real.cos beta.mm + Real.tan beta.mm *
      (t.mm - (c.mm + R.mm - R.mm * Real.sin beta.mm))) 0) := by
  unfold widthUU
  have h1 : ∀ k : ℝ, 0 < (R.mul k).unit := fun _ => hR
  have h2 : ∀ p, 0 < (c.add p).unit := fun _ => hc
  rw [widen_mm hw (by simpa using hR), maxU_mm (by simpa using hR)]
  simp only [List.map_cons, List.map_nil, Item.mm_q, Item.mm_zero, maxOf_two, Q.mul_mm, Q.sub_mm ht, Q.add_mm (h1 _),
    Q.sub_mm (h2 _), Q.add_mm hc, rad_eq, mul_comm R.mm]

@[simp] theorem widthU_unit (w t beta R c : Q) : (widthUU w t beta R c).unit = w.unit := by simp [widthUU]

theorem pointsU_mm {w t beta R c : Q} (hw : 0 < w.unit) (ht : 0 < t.unit) (hR : 0 < R.unit) (hc : 0 < c.unit) :
    pointsMm (xUU w t beta R c) (yUU t beta R c) = pointsU w.mm t.mm beta.mm R.mm c.mm := by
  unfold xUU yUU pointsU
  have h1 : ∀ k : ℝ, 0 < (R.mul k).neg.unit := fun _ => hR
  have h2 : ∀ p, 0 < (c.add p).unit := fun _ => hc
  rw [points_mm (by simpa using hw), append_mm (by simpa using hw), append_mm (by simp),
    root_mm hc (by simpa using hw), root_mm hc (by simp), stack_mm (by simpa using hw), zeros_mm]
  simp only [List.map_cons, List.map_nil, Item.mm_q, Item.mm_zero, Q.neg_mm]
  rw [widthU_mm hw ht hR hc]
  simp only [Q.neg_mm, Q.mul_mm, Q.sub_mm ht, Q.sub_mm (h1 _), Q.sub_mm (h2 _), Q.add_mm hc, rad_eq, rootFace, mul_comm R.mm]
  by_cases hz : c.mm = 0 <;> simp [hz]

theorem kindsU_mm {c : Q} (hc : 0 < c.unit) : kindsUU c = kindsU c.mm := by rw [kindsUU, kindsU, rootKind_mm hc]

theorem profileU_mm {w t beta R c b : Q} (hw : 0 < w.unit) (ht : 0 < t.unit) (hR : 0 < R.unit) (hc : 0 < c.unit) :
    profileUU w t beta R c b = profileU w.mm t.mm beta.mm R.mm c.mm b.mm := by
  rw [profileUU, profileU, kindsU_mm hc, translateReflect_mm (pointsU_mm hw ht hR hc)]

theorem profileHV_mm {w t beta c b : Q} (hw : 0 < w.unit) (ht : 0 < t.unit) (hc : 0 < c.unit) :
    profileHVU w t beta c b = profileHV w.mm t.mm beta.mm c.mm b.mm := by
  have hp : ∀ ks : List Kind, ∀ s : Q, 0 < s.unit → ∀ k : ℝ, s.mm = k →
      halfProfileU (widenMinU w (minU [.q s.neg, .zero])) b t ks
        (append (rootU c (stack [.q (widenMinU w (minU [.q s.neg, .zero])).neg, .zero]) .zero)
          [.q s.neg, .q (widenMinU w (minU [.q s.neg, .zero])).neg])
        (append (rootU c zerosMm (.q c)) [.q t, .q t]) =
      halfProfile (widen w.mm (max k 0)) b.mm t.mm ks ([![-(widen w.mm (max k 0)), 0], ![0, 0]] ++ rootFace c.mm ![0, c.mm] ++
        [![-k, t.mm], ![-(widen w.mm (max k 0)), t.mm]]) := by
    rintro ks s hs k rfl
    have e : (widenMinU w (minU [.q s.neg, .zero])).mm = widen w.mm (max s.mm 0) := by
      rw [widenMin_mm hw (by simpa using hs), minU_mm (by simpa using hs)]
      simp only [List.map_cons, List.map_nil, Item.mm_q, Item.mm_zero, Q.neg_mm, neg_minOf_two]
    rw [← e]
    refine halfProfile_mm (by simpa using hw) ?_
    rw [points_mm (by simpa using hw), append_mm (by simpa using hw), append_mm (by simp),
      root_mm hc (by simpa using hw), root_mm hc (by simp), stack_mm (by simpa using hw), zeros_mm]
    simp only [List.map_cons, List.map_nil, Item.mm_q, Item.mm_zero, Q.neg_mm, rootFace]
    by_cases hz : c.mm = 0 <;> simp [hz]
  unfold profileHVU profileHV
  rw [rootKind_mm hc]
  exact hp _ ((t.sub c).mul (Real.tan (rad beta))) ht _ (by rw [Q.mul_mm, Q.sub_mm ht, rad_eq])

theorem profileHU_mm {w t beta R c b : Q} (hw : 0 < w.unit) (ht : 0 < t.unit) (hR : 0 < R.unit) (hc : 0 < c.unit) :
    profileHUU w t beta R c b = profileHU w.mm t.mm beta.mm R.mm c.mm b.mm := by
  rw [profileHUU, halfProfile_mm (by simpa using hw) (pointsU_mm hw ht hR hc), kindsU_mm hc, widthU_mm hw ht hR hc]
  rfl

theorem profileDV_mm {w t a1 a2 c h1 h2 b : Q} (hw : 0 < w.unit) (hc : 0 < c.unit) (hh1 : 0 < h1.unit)
    (hh2 : 0 < h2.unit) : profileDVU w t a1 a2 c h1 h2 b = profileDV w.mm t.mm a1.mm a2.mm c.mm h1.mm h2.mm b.mm := by
  unfold profileDVU profileDV
  rw [rootKind_mm hc]
  refine translateReflect_mm ?_
  rw [points_mm (by simpa using hw), append_mm (by simpa using hw), append_mm (by simpa using hh2),
    root_mm hc (by simpa using hw), root_mm hc (by simpa using hh2), stack_mm (by simpa using hw), stack_mm (by simpa using hh2)]
  simp only [List.map_cons, List.map_nil, Item.mm_q, Item.mm_zero, Q.neg_mm]
  rw [widenMin_mm hw (by simpa using hh1), minU_mm (by simpa using hh1)]
  simp only [List.map_cons, List.map_nil, Item.mm_q, Item.mm_zero, Q.neg_mm, neg_minOf_three, Q.mul_mm, Q.add_mm hh2, rad_eq,
    Q.half_mm, rootFace, pointsDV]
  by_cases hz : c.mm = 0 <;> simp [hz]

theorem profileDU_mm {w t b1 b2 R R2 c h1 h2 b : Q} (hw : 0 < w.unit) (ht : 0 < t.unit) (hR : 0 < R.unit) (hR2 : 0 < R2.unit)
    (hc : 0 < c.unit) (hh1 : 0 < h1.unit) (hh2 : 0 < h2.unit) :
    profileDUU w t b1 b2 R R2 c h1 h2 b = profileDU w.mm t.mm b1.mm b2.mm R.mm R2.mm c.mm h1.mm h2.mm b.mm := by
  unfold profileDUU profileDU
  rw [rootKind_mm hc]
  refine translateReflect_mm ?_
  have k1 : ∀ k : ℝ, 0 < (R.mul k).unit := fun _ => hR
  have k2 : ∀ k : ℝ, 0 < (R2.mul k).unit := fun _ => hR2
  have k3 : ∀ (k : ℝ) p, 0 < ((h1.sub p).mul k).unit := fun _ _ => hh1
  have k4 : ∀ (k : ℝ) p, 0 < ((h2.sub p).mul k).unit := fun _ _ => hh2
  have k5 : ∀ p, 0 < (h2.add p).unit := fun _ => hh2
  rw [points_mm (by simpa using hw), append_mm (by simpa using hw), append_mm (by simpa using hh2),
    root_mm hc (by simpa using hw), root_mm hc (by simpa using hh2), stack_mm (by simpa using hw), stack_mm (by simpa using hh2)]
  simp only [List.map_cons, List.map_nil, Item.mm_q, Item.mm_zero, Q.neg_mm]
  rw [widen_mm hw (by simpa using hR), maxU_mm (by simpa using hR)]
  simp only [List.map_cons, List.map_nil, Item.mm_q, Item.mm_zero, maxOf_three, Q.mul_mm, Q.sub_mm hh1, Q.sub_mm hh2, Q.sub_mm hR,
    Q.sub_mm hR2, Q.sub_mm ht, Q.add_mm hh1, Q.add_mm hh2, Q.add_mm (k1 _), Q.add_mm (k2 _), Q.add_mm (k3 _ _), Q.add_mm (k4 _ _),
    Q.add_mm (k5 _), rad_eq, rootFace, pointsDU, mul_comm R.mm, mul_comm R2.mm]
  by_cases hz : c.mm = 0 <;> simp [hz]

theorem profileDHV_mm {w t b1 b2 c h1 h2 b : Q} (hw : 0 < w.unit) (hc : 0 < c.unit) (hh1 : 0 < h1.unit) (hh2 : 0 < h2.unit) :
    profileDHVU w t b1 b2 c h1 h2 b = profileDHV w.mm t.mm b1.mm b2.mm c.mm h1.mm h2.mm b.mm := by
  unfold profileDHVU profileDHV
  rw [profileDV_mm hw hc hh1 hh2, straight_mm hw, Q.mul_mm, Q.mul_mm, mul_comm 2, mul_comm 2]
  rfl

theorem profileDHU_mm {w t b1 b2 R R2 c h1 h2 b : Q} (hw : 0 < w.unit) (ht : 0 < t.unit) (hR : 0 < R.unit) (hR2 : 0 < R2.unit)
    (hc : 0 < c.unit) (hh1 : 0 < h1.unit) (hh2 : 0 < h2.unit) :
    profileDHUU w t b1 b2 R R2 c h1 h2 b = profileDHU w.mm t.mm b1.mm b2.mm R.mm R2.mm c.mm h1.mm h2.mm b.mm := by
  unfold profileDHUU profileDHU
  rw [profileDU_mm hw ht hR hR2 hc hh1 hh2, straight_mm hw]
  rfl

/-! ### front face grooves -/

theorem polylines_mm : ∀ {l : List (List (Item × Item))},
    (∀ r ∈ l, 0 < firstUnit (r.flatMap fun r => [r.1, r.2])) → polylinesU l = polylines (l.map (List.map rowMm))
  | [], _ => rfl
  | ps :: r, h => by
    rw [polylinesU, List.map_cons, polylines, polyline_mm (h _ List.mem_cons_self),
      polylines_mm fun x hx => h x (List.mem_cons_of_mem _ hx)]
    rfl

theorem ff112_mm {w t1 : Q} (hw : 0 < w.unit) : (ff112U w t1).map (List.map rowMm) = ff112 w.mm t1.mm ∧
    ∀ r ∈ ff112U w t1, 0 < firstUnit (r.flatMap fun r => [r.1, r.2]) := by
  have h1 : 0 < (w.mul 2).unit := hw
  constructor
  · simp [ff112U, ff112, rowMm, Q.add_mm h1, Q.add_mm hw, Q.neg_mm, Q.mul_mm]
  · simp [ff112U, hw]

theorem ff311_mm {w t1 t2 alpha b : Q} (hw : 0 < w.unit) (h1 : 0 < t1.unit) (h2 : 0 < t2.unit) :
    (ff311U w t1 t2 alpha b).map (List.map rowMm) = ff311 w.mm t1.mm t2.mm alpha.mm b.mm ∧
    ∀ r ∈ ff311U w t1 t2 alpha b, 0 < firstUnit (r.flatMap fun r => [r.1, r.2]) := by
  have key : ∀ v : Q, 0 < v.unit → ∀ v' : ℝ, v.mm = v' → (([[(.q (t1.add (v.mul (Real.cos (rad alpha)))), .q (v.mul (Real.sin (rad alpha)))), (.q t1, .zero),
      (.q (t1.add (t1.mul (Real.cos (rad alpha + Real.pi / 2)))), .q (t1.mul (Real.sin (rad alpha + Real.pi / 2)))),
      (.q (t1.add ((v.mul (Real.cos (rad alpha))).add (t1.mul (Real.cos (rad alpha + Real.pi / 2))))),
        .q ((v.mul (Real.sin (rad alpha))).add (t1.mul (Real.sin (rad alpha + Real.pi / 2)))))],
      [(.q v, .q b.neg), (.zero, .q b.neg), (.zero, .q (t2.neg.sub b)), (.q v, .q (t2.neg.sub b))]] : List (List (Item × Item))).map (List.map rowMm)) =
      [[![t1.mm + Real.cos alpha.mm * v', Real.sin alpha.mm * v'], ![t1.mm, 0],
        ![t1.mm + Real.cos (alpha.mm + Real.pi / 2) * t1.mm, Real.sin (alpha.mm + Real.pi / 2) * t1.mm],
        ![t1.mm + (Real.cos alpha.mm * v' + Real.cos (alpha.mm + Real.pi / 2) * t1.mm),
          Real.sin alpha.mm * v' + Real.sin (alpha.mm + Real.pi / 2) * t1.mm]],
       [![v', -b.mm], ![0, -b.mm], ![0, -t2.mm - b.mm], ![v', -t2.mm - b.mm]]] := by
    rintro v hv v' rfl
    have k1 : ∀ k : ℝ, 0 < (v.mul k).unit := fun _ => hv
    have k2 : 0 < t2.neg.unit := h2
    simp only [List.map_cons, List.map_nil, rowMm, Item.mm_q, Item.mm_zero, Q.add_mm h1, Q.mul_mm, Q.add_mm (k1 _), Q.neg_mm,
      Q.sub_mm k2, rad_eq]
  have e : w.lt (t1.add oneMm) ↔ w.mm < t1.mm + 1 := by rw [Q.lt_iff, Q.add_mm h1, oneMm_mm]
  unfold ff311U ff311
  by_cases hl : w.mm < t1.mm + 1
  · rw [if_pos (e.2 hl), if_pos hl]
    refine ⟨key (t1.add w) h1 _ (Q.add_mm h1), ?_⟩
    simp [h1]
  · rw [if_neg (fun x => hl (e.1 x)), if_neg hl]
    refine ⟨key _ hw _ rfl, ?_⟩
    simp [h1, hw]

theorem ff312_mm {w t1 t2 b : Q} (hw : 0 < w.unit) (h2 : 0 < t2.unit) (hb : 0 < b.unit) :
    (ff312U w t1 t2 b).map (List.map rowMm) = ff312 w.mm t1.mm t2.mm b.mm ∧
    ∀ r ∈ ff312U w t1 t2 b, 0 < firstUnit (r.flatMap fun r => [r.1, r.2]) := by
  have k2 : 0 < t2.neg.unit := h2
  constructor
  · simp [ff312U, ff312, rowMm, Q.sub_mm k2, Q.neg_mm, Q.mul_mm]
  · simp [ff312U, hw, hb]

theorem ff313_mm {w t1 t2 alpha b : Q} (hw : 0 < w.unit) (h2 : 0 < t2.unit) (hb : 0 < b.unit) :
    (ff313U w t1 t2 alpha b).map (List.map rowMm) = ff313 w.mm t1.mm t2.mm alpha.mm b.mm ∧
    ∀ r ∈ ff313U w t1 t2 alpha b, 0 < firstUnit (r.flatMap fun r => [r.1, r.2]) := by
  have k1 : ∀ k : ℝ, 0 < (b.mul k).unit := fun _ => hb
  have k2 : ∀ k : ℝ, 0 < (t2.mul k).unit := fun _ => h2
  have k3 : ∀ (k : ℝ) p, 0 < ((b.add p).mul k).unit := fun _ _ => hb
  have k4 : ∀ (k : ℝ) p, 0 < ((t2.mul k).add p).unit := fun _ _ => h2
  have k5 : ∀ (k : ℝ) p q, 0 < (((t2.mul k).add p).add q).unit := fun _ _ _ => h2
  constructor
  · simp [ff313U, ff313, rowMm, Q.sub_mm (k5 _ _ _), Q.add_mm (k4 _ _), Q.add_mm (k3 _ _), Q.add_mm (k2 _), Q.add_mm (k1 _),
      Q.add_mm hb, Q.neg_mm, Q.mul_mm, rad_eq]
  · simp [ff313U, hw, h2]

theorem ff412_mm {w t1 t2 alpha e : Q} (hw : 0 < w.unit) (h2 : 0 < t2.unit) (he : 0 < e.unit) :
    (ff412U w t1 t2 alpha e).map (List.map rowMm) = ff412 w.mm t1.mm t2.mm alpha.mm e.mm ∧
    ∀ r ∈ ff412U w t1 t2 alpha e, 0 < firstUnit (r.flatMap fun r => [r.1, r.2]) := by
  have k1 : ∀ k : ℝ, 0 < (e.mul k).unit := fun _ => he
  have k2 : ∀ (k : ℝ) p, 0 < ((t2.sub p).mul k).unit := fun _ _ => h2
  constructor
  · simp [ff412U, ff412, rowMm, Q.sub_mm h2, Q.add_mm (k1 _), Q.add_mm (k2 _ _), Q.neg_mm, Q.mul_mm, rad_eq]
  · simp [ff412U, hw, he]

theorem ff413_mm {w t1 t2 b : Q} (hw : 0 < w.unit) (h1 : 0 < t1.unit) (h2 : 0 < t2.unit) :
    (ff413U w t1 t2 b).map (List.map rowMm) = ff413 w.mm t1.mm t2.mm b.mm ∧
    ∀ r ∈ ff413U w t1 t2 b, 0 < firstUnit (r.flatMap fun r => [r.1, r.2]) := by
  have k2 : 0 < t2.neg.unit := h2
  constructor
  · simp [ff413U, ff413, rowMm, Q.sub_mm k2, Q.neg_mm, Q.add_mm h1]
  · simp [ff413U, hw]

theorem profileFF_mm (code : Option FFCode) {w t1 : Q} {t2 alpha b e : Option Q} (hw : 0 < w.unit) (h1 : 0 < t1.unit)
    (h2 : ∀ x ∈ t2, 0 < x.unit) (hb : ∀ x ∈ b, 0 < x.unit) (he : ∀ x ∈ e, 0 < x.unit) :
    profileFFU code w t1 t2 alpha b e =
      profileFF code w.mm t1.mm (t2.map Qty.mm) (alpha.map Qty.mm) (b.map Qty.mm) (e.map Qty.mm) := by
  have go : ∀ {l : List (List (Item × Item))} {m : List (List Geo.V)}, (l.map (List.map rowMm) = m ∧
      ∀ r ∈ l, 0 < firstUnit (r.flatMap fun r => [r.1, r.2])) → polylinesU l = polylines m := by
    rintro l m ⟨rfl, h⟩
    exact polylines_mm h
  unfold profileFFU profileFF ffPointsU ffPoints
  cases code with
  | none => rfl
  | some k =>
    cases k with
    | c112 => exact go (ff112_mm hw)
    | c113 => exact go (ff112_mm hw)
    | c212 => exact go (ff112_mm hw)
    | c311 =>
      cases t2 <;> cases alpha <;> cases b <;> try rfl
      exact go (ff311_mm hw h1 (h2 _ rfl))
    | c312 =>
      cases t2 <;> cases b <;> try rfl
      exact go (ff312_mm hw (h2 _ rfl) (hb _ rfl))
    | c313 =>
      cases t2 <;> cases alpha <;> cases b <;> try rfl
      exact go (ff313_mm hw (h2 _ rfl) (hb _ rfl))
    | c411 =>
      cases t2 <;> cases alpha <;> cases b <;> try rfl
      exact go (ff313_mm hw (h2 _ rfl) (hb _ rfl))
    | c412 =>
      cases t2 <;> cases alpha <;> cases e <;> try rfl
      exact go (ff412_mm hw (h2 _ rfl) (he _ rfl))
    | c413 =>
      cases t2 <;> cases b <;> try rfl
      exact go (ff413_mm hw h1 (h2 _ rfl))

/-! ### C100 -/

/-- **C100.** The profile of a groove, for each class and every width: whatever units the parameters and the width have (also
different ones for each parameter), the profile is the one of the groove given in millimetres and radians. -/
theorem C100_profile {g : GrooveU} (h : g.Ok) {w : Q} (hw : 0 < w.unit) :
    g.profile w = profileMm w.mm g.code g.mm := by
  cases g with
  | I t b =>
    simp only [GrooveU.Ok, GrooveU.parameters, List.forall_mem_cons] at h
    exact profileI_mm hw h.1
  | V t alpha c b =>
    simp only [GrooveU.Ok, GrooveU.parameters, List.forall_mem_cons] at h
    exact profileV_mm hw h.1 h.2.2.1
  | VV t alpha beta hh c b =>
    simp only [GrooveU.Ok, GrooveU.parameters, List.forall_mem_cons] at h
    exact profileVV_mm hw h.1 h.2.2.2.1 h.2.2.2.2.1
  | UV t alpha beta R hh b =>
    simp only [GrooveU.Ok, GrooveU.parameters, List.forall_mem_cons] at h
    exact profileUV_mm hw h.1 h.2.2.2.1 h.2.2.2.2.1
  | U t beta R c b =>
    simp only [GrooveU.Ok, GrooveU.parameters, List.forall_mem_cons] at h
    exact profileU_mm hw h.1 h.2.2.1 h.2.2.2.1
  | HV t beta c b =>
    simp only [GrooveU.Ok, GrooveU.parameters, List.forall_mem_cons] at h
    exact profileHV_mm hw h.1 h.2.2.1
  | HU t beta R c b =>
    simp only [GrooveU.Ok, GrooveU.parameters, List.forall_mem_cons] at h
    exact profileHU_mm hw h.1 h.2.2.1 h.2.2.2.1
  | DV t a1 a2 c h1 h2 b =>
    cases h1 <;> cases h2 <;> try rfl
    simp only [GrooveU.Ok, GrooveU.parameters, Option.toList, List.cons_append, List.nil_append, List.forall_mem_cons] at h
    exact profileDV_mm hw h.2.2.2.1 h.2.2.2.2.1 h.2.2.2.2.2.1
  | DU t b1 b2 R R2 c h1 h2 b =>
    cases h1 <;> cases h2 <;> try rfl
    simp only [GrooveU.Ok, GrooveU.parameters, Option.toList, List.cons_append, List.nil_append, List.forall_mem_cons] at h
    exact profileDU_mm hw h.1 h.2.2.2.1 h.2.2.2.2.1 h.2.2.2.2.2.1 h.2.2.2.2.2.2.1 h.2.2.2.2.2.2.2.1
  | DHV t a1 a2 c h1 h2 b =>
    cases h1 <;> cases h2 <;> try rfl
    simp only [GrooveU.Ok, GrooveU.parameters, Option.toList, List.cons_append, List.nil_append, List.forall_mem_cons] at h
    exact profileDHV_mm hw h.2.2.2.1 h.2.2.2.2.1 h.2.2.2.2.2.1
  | DHU t b1 b2 R R2 c h1 h2 b =>
    cases h1 <;> cases h2 <;> try rfl
    simp only [GrooveU.Ok, GrooveU.parameters, Option.toList, List.cons_append, List.nil_append, List.forall_mem_cons] at h
    exact profileDHU_mm hw h.1 h.2.2.2.1 h.2.2.2.2.1 h.2.2.2.2.2.1 h.2.2.2.2.2.2.1 h.2.2.2.2.2.2.2.1
  | FF t1 t2 alpha b e code =>
    refine profileFF_mm code hw (h _ (by simp [GrooveU.parameters])) (fun x hx => h x ?_) (fun x hx => h x ?_) fun x hx => h x ?_
    all_goals (cases hx; simp [GrooveU.parameters])

/-- **C100.** Two descriptions of the same groove and width in different units have the same profile. -/
theorem C100_same {g g' : GrooveU} (h : g.Ok) (h' : g'.Ok) (e : g.mm = g'.mm) (ec : g.code = g'.code) {w w' : Q} (hw : 0 < w.unit)
    (hw' : 0 < w'.unit) (ew : w.mm = w'.mm) : g.profile w = g'.profile w' := by
  rw [C100_profile h hw, C100_profile h' hw', e, ec, ew]

theorem ofMm_mm (x : ℝ) : (ofMm x).mm = x := by simp [ofMm, Qty.mm]

/-- **C100.** The cross sectional area does not depend on the units of the parameters. -/
theorem C100_area {g : GrooveU} (h : g.Ok) : g.area = crossSectArea g.mm := by
  have p : ∀ x : ℝ, g.profile (ofMm x) = profileMm x g.code g.mm := fun x => by
    rw [C100_profile h (w := ofMm x) one_pos, ofMm_mm]
  cases g with
  | I | V | VV | UV | U | HV | HU => simp only [GrooveU.area, p]; rfl
  | DV t a1 a2 c h1 h2 b => cases h1 <;> cases h2 <;> (simp only [GrooveU.area, p]; rfl)
  | DU t b1 b2 R R2 c h1 h2 b => cases h1 <;> cases h2 <;> (simp only [GrooveU.area, p]; rfl)
  | DHV t a1 a2 c h1 h2 b => cases h1 <;> cases h2 <;> (simp only [GrooveU.area, p]; rfl)
  | DHU t b1 b2 R R2 c h1 h2 b => cases h1 <;> cases h2 <;> (simp only [GrooveU.area, p]; rfl)
  | FF => rfl

/-- **C100.** The welding speed does not depend on the units of the groove, of the wire feed and of the wire diameter. -/
theorem C100_speed {g : GrooveU} (h : g.Ok) (feed diameter : Q) :
    (g.speed feed diameter).map Qty.mm = weldingSpeed g.mm feed.mm diameter.mm := by
  unfold GrooveU.speed weldingSpeed
  rw [C100_area h]
  cases crossSectArea g.mm with
  | error e => rfl
  | ok a =>
    by_cases ha : a = 0
    · simp only [ha, if_true]; rfl
    · simp only [ha, if_false, Except.map]
      congr 1
      simp only [Qty.mm, smul_eq_mul]
      ring

theorem mag_neg_iff {x : Q} (h : 0 < x.unit) : x.mag < 0 ↔ x.mm < 0 := by
  rw [Q.mm_def]
  constructor
  · intro hx; exact mul_neg_of_pos_of_neg h hx
  · intro hx
    by_contra hn
    exact absurd hx (not_lt.2 (mul_nonneg h.le (not_lt.1 hn)))

theorem parameters_mm (g : GrooveU) : g.mm.parameters = g.parameters.map Qty.mm := by
  cases g with
  | I | V | VV | UV | U | HV | HU => rfl
  | DV t a1 a2 c h1 h2 b => cases h1 <;> cases h2 <;> rfl
  | DU t b1 b2 R R2 c h1 h2 b => cases h1 <;> cases h2 <;> rfl
  | DHV t a1 a2 c h1 h2 b => cases h1 <;> cases h2 <;> rfl
  | DHU t b1 b2 R R2 c h1 h2 b => cases h1 <;> cases h2 <;> rfl
  | FF t1 t2 alpha b e code => cases t2 <;> cases alpha <;> cases b <;> cases e <;> rfl

theorem checkParameters_mm {g : GrooveU} (h : g.Ok) : (checkParametersU g).map GrooveU.mm = checkParameters g.mm := by
  have e : (∀ x ∈ g.parameters, ¬ x.mag < 0) ↔ ∀ x ∈ g.mm.parameters, ¬ x < 0 := by
    rw [parameters_mm]
    constructor
    · intro hh x hx
      obtain ⟨y, hy, rfl⟩ := List.mem_map.1 hx
      exact fun hn => hh y hy ((mag_neg_iff (h y hy)).2 hn)
    · intro hh x hx hn
      exact hh x.mm (List.mem_map.2 ⟨x, hx, rfl⟩) ((mag_neg_iff (h x hx)).1 hn)
  unfold checkParametersU checkParameters
  by_cases hh : ∀ x ∈ g.mm.parameters, ¬ x < 0
  · rw [if_pos hh, if_pos (e.2 hh)]; rfl
  · rw [if_neg hh, if_neg (fun x => hh (e.1 x))]; rfl

theorem defaultHeights_mm {t c : Q} (ht : 0 < t.unit) (h1 h2 : Option Q) :
    ((defaultHeightsU t c h1 h2).1.map Qty.mm, (defaultHeightsU t c h1 h2).2.map Qty.mm) =
      defaultHeights t.mm c.mm (h1.map Qty.mm) (h2.map Qty.mm) := by
  cases h1 <;> cases h2 <;>
    simp [defaultHeightsU, defaultHeights, Q.half_mm, Q.sub_mm ht]

/-- **C100.** Which grooves are accepted (no negative parameter) and the heights that are filled in do not depend on the
units either. -/
theorem C100_accepted {g : GrooveU} (h : g.Ok) : (postInitU g).map GrooveU.mm = postInit g.mm := by
  cases g with
  | I | V | VV | UV | U | HV | HU | FF => exact checkParameters_mm h
  | DV t a1 a2 c h1 h2 b =>
    have := defaultHeights_mm (c := c) (h t (by simp [GrooveU.parameters])) h1 h2
    obtain ⟨e1, e2⟩ := Prod.ext_iff.1 this
    dsimp only at e1 e2
    simp only [postInitU, postInit, Except.map, GrooveU.mm, e1, e2]
  | DU t b1 b2 R R2 c h1 h2 b =>
    have := defaultHeights_mm (c := c) (h t (by simp [GrooveU.parameters])) h1 h2
    obtain ⟨e1, e2⟩ := Prod.ext_iff.1 this
    dsimp only at e1 e2
    simp only [postInitU, postInit, Except.map, GrooveU.mm, e1, e2]
  | DHV t a1 a2 c h1 h2 b =>
    have := defaultHeights_mm (c := c) (h t (by simp [GrooveU.parameters])) h1 h2
    obtain ⟨e1, e2⟩ := Prod.ext_iff.1 this
    dsimp only at e1 e2
    simp only [postInitU, postInit, Except.map, GrooveU.mm, e1, e2]
  | DHU t b1 b2 R R2 c h1 h2 b =>
    have := defaultHeights_mm (c := c) (h t (by simp [GrooveU.parameters])) h1 h2
    obtain ⟨e1, e2⟩ := Prod.ext_iff.1 this
    dsimp only at e1 e2
    simp only [postInitU, postInit, Except.map, GrooveU.mm, e1, e2]

/-- a V groove with thickness 1 cm, 60°, root face 2 mm and root gap 0.001 m -/
noncomputable def mixed : GrooveU := .V ⟨10, 1⟩ ⟨Real.pi / 180, 60⟩ ⟨1, 2⟩ ⟨1000, 1 / 1000⟩

theorem mixed_ok : mixed.Ok := by
  simp only [mixed, GrooveU.Ok, GrooveU.parameters, List.forall_mem_cons]
  refine ⟨by norm_num, by positivity, by norm_num, by norm_num, by simp⟩

theorem mixed_mm : mixed.mm = .V 10 (Real.pi / 3) 2 1 := by
  simp only [mixed, GrooveU.mm, Qty.mm, smul_eq_mul]
  norm_num
  ring

example : mixed.profile ⟨10, 1 / 2⟩ = profileV 5 10 (Real.pi / 3) 2 1 := by
  rw [C100_profile mixed_ok (by norm_num), mixed_mm]
  have : Qty.mm (⟨10, 1 / 2⟩ : Q) = 5 := by simp [Qty.mm]; norm_num
  rw [this]; rfl

example : mixed.area = crossSectArea (.V 10 (Real.pi / 3) 2 1) := by rw [C100_area mixed_ok, mixed_mm]

/-! ### dimensions -/

/-- the places that are not checked: the heights of double grooves and everything but the first thickness of front face
grooves -/
def unchecked : GrooveType → List Nat
  | .DV => [4, 5]
  | .DU => [6, 7]
  | .DHV => [4, 5]
  | .DHU => [6, 7]
  | .FF => [1, 2, 3, 4]
  | _ => []

theorem checkDims_iff : ∀ {ds as : List (Option Dim)}, ds.length = as.length →
    (checkDims ds as = true ↔ ∀ (i : Nat) (d : Dim), ds[i]? = some (some d) → as[i]? = some (some d))
  | [], [], _ => by simp [checkDims]
  | none :: ds, a :: as, h => by
    rw [checkDims, checkDims_iff (by simpa using h)]
    constructor
    · intro hh i d hi
      cases i with
      | zero => simp at hi
      | succ i => simpa using hh i d (by simpa using hi)
    · intro hh i d hi
      simpa using hh (i + 1) d (by simpa using hi)
  | some d :: ds, a :: as, h => by
    rw [checkDims, Bool.and_eq_true, checkDims_iff (by simpa using h), beq_iff_eq]
    constructor
    · rintro ⟨rfl, hh⟩ i d' hi
      cases i with
      | zero => simpa using hi
      | succ i => simpa using hh i d' (by simpa using hi)
    · intro hh
      refine ⟨by simpa using hh 0 d (by simp), fun i d' hi => by simpa using hh (i + 1) d' (by simpa using hi)⟩

theorem declared_spec (k : GrooveType) : (declared k).length = (meant k).length ∧
    ∀ (i : Nat) (d : Dim), (declared k)[i]? = some (some d) ↔ i ∉ unchecked k ∧ (meant k)[i]? = some d := by
  constructor
  · cases k <;> rfl
  · intro i d
    by_cases hi : i < 9
    · interval_cases i <;> cases k <;> simp [declared, meant, unchecked]
    · have h1 : (declared k).length ≤ i := by
        have : (declared k).length ≤ 9 := by cases k <;> simp [declared]
        omega
      have h2 : (meant k).length ≤ i := by
        have : (meant k).length ≤ 9 := by cases k <;> simp [meant]
        omega
      rw [List.getElem?_eq_none h1, List.getElem?_eq_none h2]
      simp

/-- **C100.** The constructor of a groove is reached exactly if every parameter has the dimension of its meaning, apart from
the places that are not checked. -/
theorem C100_dimensions_iff (k : GrooveType) {as : List (Option Dim)} (h : as.length = (meant k).length) :
    checkDims (declared k) as = true ↔ ∀ i ∉ unchecked k, ∀ d, (meant k)[i]? = some d → as[i]? = some (some d) := by
  rw [checkDims_iff ((declared_spec k).1.trans h.symm)]
  constructor
  · intro hh i hi d hd
    exact hh i d (((declared_spec k).2 i d).2 ⟨hi, hd⟩)
  · intro hh i d hd
    obtain ⟨a, b⟩ := ((declared_spec k).2 i d).1 hd
    exact hh i a d b

/-- **C100.** For the classes I, V, VV, UV, U, HV and HU wrong dimensions are always rejected. -/
theorem C100_dimensions {k : GrooveType} (hk : k = .I ∨ k = .V ∨ k = .VV ∨ k = .UV ∨ k = .U ∨ k = .HV ∨ k = .HU)
    {as : List (Option Dim)} (h : as.length = (meant k).length) :
    checkDims (declared k) as = true ↔ as = (meant k).map some := by
  have hu : unchecked k = [] := by rcases hk with rfl | rfl | rfl | rfl | rfl | rfl | rfl <;> rfl
  rw [C100_dimensions_iff k h, hu]
  constructor
  · intro hh
    refine List.ext_getElem? fun i => ?_
    rw [List.getElem?_map]
    by_cases hi : i < (meant k).length
    · rw [hh i (by simp) _ (List.getElem?_eq_getElem hi), List.getElem?_eq_getElem hi]; rfl
    · rw [List.getElem?_eq_none (by omega), List.getElem?_eq_none (by omega)]; rfl
  · rintro rfl i - d hd
    rw [List.getElem?_map, hd]; rfl

/-- **C100 (refuted).** A double V groove whose height is a time, and a front face groove whose gap is a time, whose second
thickness is an angle and whose angle is a length, are accepted. -/
theorem C100_dimensions_counterexample :
    checkDims (declared .DV) [some .length, some .angle, some .angle, some .length, some (.other 0), none, some .length] = true ∧
    checkDims (declared .FF) [some .length, some .angle, some .length, some (.other 0), none] = true := by
  decide

example : checkDims (declared .V) [some .length, some .length, some .length, some .length] = false := by
  rw [Bool.eq_false_iff, Ne, C100_dimensions (.inr (.inl rfl)) rfl]
  decide

end Weldx.Groove
