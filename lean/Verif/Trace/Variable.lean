import Verif.Trace.Props
import Verif.Geometry.Interp

/-!
# Variable profiles (C46)

Source: `/repo/weldx/geometry.py` 1992-2026 (`linear_profile_interpolation_sbs`), 2029-2213 (`VariableProfile`).

Simplifications: a profile is the list of its shapes, a shape the list of its segments; locations are real numbers. An
interpolation scheme is any function of two profiles and a weight.
-/

namespace Weldx.Tr

open Weldx.Geo (clip Seg GErr linearInterpolation Linked Close)

/-- exceptions of a variable profile: own ones and the ones of a scheme -/
inductive VErr (E : Type) where
  | valueError
  | indexError
  | scheme (e : E)

/-- attributes, `geometry.py` 2073-2075; `P` are profiles -/
structure VarProfile (P E : Type) where
  profiles : List P
  locations : List ℝ
  schemes : List (P → P → ℝ → Except E P)

/-- the loop in `geometry.py` 2069-2071: `range(len(profiles) - 1)` with as many locations as profiles -/
noncomputable def ascendingCheck {E : Type} : List ℝ → Except (VErr E) Unit
  | a :: b :: l => if a ≥ b then .error .valueError else ascendingCheck (b :: l)
  | _ => .ok ()

/-- `VariableProfile(profiles, locations, interpolation_schemes)`, `geometry.py` 2032-2075. The case of empty lists of
profiles: the second check compares with `-1`, it never succeeds. -/
noncomputable def mkVar {P E : Type} (profiles : List P) (locations : List ℝ) (schemes : List (P → P → ℝ → Except E P)) :
    Except (VErr E) (VarProfile P E) :=
  match locations with
  | [] => .error .indexError
  | l0 :: _ =>
    let locations := if ¬ l0 = 0 then 0 :: locations else locations
    if ¬ profiles.length = locations.length then .error .valueError
    else if ¬ (schemes.length : ℤ) = (profiles.length : ℤ) - 1 then .error .valueError
    else do
      ascendingCheck locations
      .ok ⟨profiles, locations, schemes⟩

/-- `max_location`, `geometry.py` 2129-2140 -/
noncomputable def VarProfile.maxLocation {P E : Type} (v : VarProfile P E) : ℝ := v.locations.getLastD 0

/-- `local_profile` with `_segment_index`, `geometry.py` 2085-2101 and 2190-2213 -/
noncomputable def VarProfile.localProfile {P E : Type} (v : VarProfile P E) (location : ℝ) : Except (VErr E) P :=
  let location := clip location 0 v.maxLocation
  match firstIdx location (v.locations.drop 1) 0 with
  | none => .error .indexError
  | some idx =>
    match v.locations[idx]?, v.locations[idx + 1]?, v.schemes[idx]?, v.profiles[idx]?, v.profiles[idx + 1]? with
    | some a, some b, some f, some p, some q => (f p q ((location - a) / (b - a))).mapError .scheme
    | _, _, _, _, _ => .error .indexError

/-- `linear_profile_interpolation_sbs`, `geometry.py` 1992-2026: the loop -/
noncomputable def interpolateProfiles : List (List Seg) → List (List Seg) → ℝ → Except GErr (List (List Seg))
  | a :: as, b :: bs, w => do
    let c ← linearInterpolation a b w
    let cs ← interpolateProfiles as bs w
    .ok (c :: cs)
  | _, _, _ => .ok []

/-- `linear_profile_interpolation_sbs`, `geometry.py` 1992-2026 -/
noncomputable def linearProfile (as bs : List (List Seg)) (w : ℝ) : Except GErr (List (List Seg)) :=
  let w := clip w 0 1
  if ¬ as.length = bs.length then .error .valueError else interpolateProfiles as bs w

/-! ### properties -/

variable {P E : Type}

theorem ascendingCheck_iff : ∀ l : List ℝ, ascendingCheck (E := E) l = .ok () ↔ l.Pairwise (· < ·)
  | [] => by simp [ascendingCheck]
  | [a] => by simp [ascendingCheck]
  | a :: b :: l => by
    have ih := ascendingCheck_iff (b :: l)
    simp only [ascendingCheck]
    constructor
    · intro h
      split at h
      · cases h
      · rename_i hab
        rw [List.pairwise_cons]
        have hp := ih.1 h
        refine ⟨?_, hp⟩
        intro x hx
        rw [List.mem_cons] at hx
        rcases hx with rfl | hx
        · exact not_le.1 hab
        · exact lt_trans (not_le.1 hab) ((List.pairwise_cons.1 hp).1 x hx)
    · intro h
      rw [List.pairwise_cons] at h
      rw [if_neg (not_le.2 (h.1 b (by simp)))]
      exact ih.2 h.2

theorem ascendingCheck_err (l : List ℝ) {e : VErr E} (h : ascendingCheck l = .error e) : e = .valueError := by
  induction l with
  | nil => cases h
  | cons a l ih => cases l with
    | nil => cases h
    | cons b l =>
      simp only [ascendingCheck] at h
      split at h
      · cases h; rfl
      · exact ih h

/-- **C46.** The constructor accepts exactly non-empty lists of locations that are strictly ascending from 0 (0 may be left
out), with one profile per location and one scheme less. The locations of the result start with 0. -/
theorem C46_accepted (ps : List P) (ls : List ℝ) (fs : List (P → P → ℝ → Except E P)) (v : VarProfile P E) :
    mkVar ps ls fs = .ok v ↔ ls ≠ [] ∧ v.profiles = ps ∧ v.schemes = fs ∧
      v.locations = (if ls.head? = some 0 then ls else 0 :: ls) ∧
      v.locations.Pairwise (· < ·) ∧ v.locations.length = ps.length ∧ ps.length = fs.length + 1 := by
  cases ls with
  | nil => simp [mkVar]
  | cons l0 l =>
    have e : (if ¬ l0 = 0 then 0 :: l0 :: l else l0 :: l) = if (l0 :: l).head? = some 0 then l0 :: l else 0 :: l0 :: l := by
      by_cases h : l0 = 0 <;> simp [h]
    simp only [mkVar, e]
    set L := if (l0 :: l).head? = some 0 then l0 :: l else 0 :: l0 :: l
    have hi : ((fs.length : ℤ) = (ps.length : ℤ) - 1) ↔ ps.length = fs.length + 1 := by omega
    by_cases h1 : ps.length = L.length
    · rw [if_neg (not_not.2 h1)]
      by_cases h2 : (fs.length : ℤ) = (ps.length : ℤ) - 1
      · rw [if_neg (not_not.2 h2)]
        simp only [bind, Except.bind]
        cases hc : ascendingCheck (E := E) L with
        | error x =>
          simp only [reduceCtorEq, false_iff]
          rintro ⟨-, -, -, h3, h4, -⟩
          rw [h3, ← ascendingCheck_iff (E := E), hc] at h4
          cases h4
        | ok u =>
          simp only [Except.ok.injEq]
          constructor
          · rintro rfl
            exact ⟨by simp, rfl, rfl, rfl, (ascendingCheck_iff _).1 hc, h1.symm, hi.1 h2⟩
          · rintro ⟨-, h3, h4, h5, -⟩
            cases v
            simp only at h3 h4 h5
            rw [h3, h4, h5]
      · rw [if_pos h2]
        simp only [reduceCtorEq, false_iff]
        rintro ⟨-, -, -, -, -, -, h⟩
        exact h2 (hi.2 h)
    · rw [if_pos h1]
      simp only [reduceCtorEq, false_iff]
      rintro ⟨-, -, -, h3, -, h4, -⟩
      rw [h3] at h4
      exact h1 h4.symm

/-- what an accepted variable profile satisfies -/
structure VarProfile.Good (v : VarProfile P E) : Prop where
  first : v.locations[0]? = some 0
  asc : v.locations.Pairwise (· < ·)
  lenP : v.profiles.length = v.locations.length
  lenF : v.schemes.length + 1 = v.locations.length

theorem mkVar_good {ps : List P} {ls : List ℝ} {fs : List (P → P → ℝ → Except E P)} {v : VarProfile P E}
    (h : mkVar ps ls fs = .ok v) : v.Good := by
  obtain ⟨h0, h1, h2, h3, h4, h5, h6⟩ := (C46_accepted _ _ _ _).1 h
  refine ⟨?_, h4, by rw [h1, h5], by rw [h2]; omega⟩
  rw [h3]
  split
  · rename_i h; rw [← List.head?_eq_getElem?]; exact h
  · rfl

theorem loc_mono {v : VarProfile P E} (h : v.Good) {i j : ℕ} {a b : ℝ} (hi : v.locations[i]? = some a)
    (hj : v.locations[j]? = some b) (hij : i < j) : a < b := by
  obtain ⟨h1, rfl⟩ := List.getElem?_eq_some_iff.1 hi
  obtain ⟨h2, rfl⟩ := List.getElem?_eq_some_iff.1 hj
  exact List.pairwise_iff_getElem.1 h.asc i j h1 h2 hij

theorem loc_nonneg {v : VarProfile P E} (h : v.Good) {i : ℕ} {a : ℝ} (hi : v.locations[i]? = some a) : 0 ≤ a := by
  cases i with
  | zero => rw [h.first] at hi; cases hi; exact le_rfl
  | succ i => exact (loc_mono h h.first hi (by omega)).le

theorem max_eq {v : VarProfile P E} (h : v.Good) : v.locations[v.locations.length - 1]? = some v.maxLocation := by
  have h0 := (List.getElem?_eq_some_iff.1 h.first).1
  unfold VarProfile.maxLocation
  rw [List.getLastD_eq_getLast?, List.getLast?_eq_getElem?]
  rw [List.getElem?_eq_getElem (by omega)]
  rfl

theorem loc_le_max {v : VarProfile P E} (h : v.Good) {i : ℕ} {a : ℝ} (hi : v.locations[i]? = some a) : a ≤ v.maxLocation := by
  have hlt := (List.getElem?_eq_some_iff.1 hi).1
  by_cases he : i = v.locations.length - 1
  · subst he
    rw [max_eq h] at hi
    cases hi; exact le_rfl
  · exact (loc_mono h hi (max_eq h) (by omega)).le

/-- **C46.** Between two neighbouring locations the local profile is the interpolation of exactly the two profiles there, with
the scheme of this piece and the relative location as weight. -/
theorem C46_between {v : VarProfile P E} (h : v.Good) {k : ℕ} {a b x : ℝ} {p q : P} {f : P → P → ℝ → Except E P}
    (ha : v.locations[k]? = some a) (hb : v.locations[k + 1]? = some b) (hp : v.profiles[k]? = some p)
    (hq : v.profiles[k + 1]? = some q) (hf : v.schemes[k]? = some f) (h0 : a < x ∨ k = 0 ∧ a ≤ x) (h1 : x ≤ b) :
    v.localProfile x = (f p q ((x - a) / (b - a))).mapError .scheme := by
  have hax : a ≤ x := by rcases h0 with h0 | h0; exacts [h0.le, h0.2]
  have hx0 : 0 ≤ x := le_trans (loc_nonneg h ha) hax
  have hxm : x ≤ v.maxLocation := le_trans h1 (loc_le_max h hb)
  have hc : clip x 0 v.maxLocation = x := by unfold clip; rw [max_eq_left hx0, min_eq_left hxm]
  unfold VarProfile.localProfile
  simp only [hc]
  rw [firstIdx_eq (m := k) (t := b) (by rw [List.getElem?_drop, Nat.add_comm]; exact hb) h1]
  · simp only [Nat.zero_add, ha, hb, hf, hp, hq]
  · intro m' t' hm ht
    rw [List.getElem?_drop, Nat.add_comm] at ht
    rcases h0 with h0 | h0
    · by_cases he : m' + 1 = k
      · rw [he, ha] at ht
        cases ht; exact h0
      · exact lt_trans (loc_mono h ht ha (by omega)) h0
    · omega

/-- **C46.** Locations outside are replaced by the nearest one inside. -/
theorem C46_outside {v : VarProfile P E} (h : v.Good) (x : ℝ) : (x ≤ 0 → v.localProfile x = v.localProfile 0) ∧
    (v.maxLocation ≤ x → v.localProfile x = v.localProfile v.maxLocation) := by
  have hm : 0 ≤ v.maxLocation := loc_nonneg h (max_eq h)
  unfold VarProfile.localProfile
  constructor
  · intro hx
    have : clip x 0 v.maxLocation = clip 0 0 v.maxLocation := by
      unfold clip; rw [max_eq_right hx, max_self]
    rw [this]
  · intro hx
    have : clip x 0 v.maxLocation = clip v.maxLocation 0 v.maxLocation := by
      unfold clip
      rw [max_eq_left (le_trans hm hx), max_eq_left hm, min_eq_right hx, min_self]
    rw [this]

/-- a scheme that returns the first profile for the weight 0 and the second one for the weight 1 -/
def Interpolating (f : P → P → ℝ → Except E P) (p q : P) : Prop := f p q 0 = .ok p ∧ f p q 1 = .ok q

/-- **C46.** With interpolating schemes the local profile at each location is the profile given for it. -/
theorem C46_given {v : VarProfile P E} (h : v.Good) (h2 : 2 ≤ v.profiles.length)
    (hi : ∀ k f p q, v.schemes[k]? = some f → v.profiles[k]? = some p → v.profiles[k + 1]? = some q → Interpolating f p q)
    {k : ℕ} {x : ℝ} {p : P} (hx : v.locations[k]? = some x) (hp : v.profiles[k]? = some p) : v.localProfile x = .ok p := by
  have hk := (List.getElem?_eq_some_iff.1 hp).1
  have hl := h.lenP
  have hf := h.lenF
  cases k with
  | zero =>
    have hb := List.getElem?_eq_getElem (l := v.locations) (i := 1) (by omega)
    have hq := List.getElem?_eq_getElem (l := v.profiles) (i := 1) (by omega)
    have hs := List.getElem?_eq_getElem (l := v.schemes) (i := 0) (by omega)
    rw [C46_between h hx hb hp hq hs (.inr ⟨rfl, le_rfl⟩) (loc_mono h hx hb (by omega)).le, sub_self, zero_div,
      (hi 0 _ _ _ hs hp hq).1]
    rfl
  | succ k =>
    have ha := List.getElem?_eq_getElem (l := v.locations) (i := k) (by omega)
    have hq := List.getElem?_eq_getElem (l := v.profiles) (i := k) (by omega)
    have hs := List.getElem?_eq_getElem (l := v.schemes) (i := k) (by omega)
    have hlt := loc_mono h ha hx (by omega)
    rw [C46_between h ha hx hq hp hs (.inl hlt) le_rfl, div_self (by linarith), (hi k _ _ _ hs hq hp).2]
    rfl

/-- a closed profile of lines -/
def LineProfile (p : List (List Seg)) : Prop :=
  ∀ s ∈ p, (∀ x ∈ s, x.Valid ∧ ∃ a b l, x = .line a b l) ∧ Linked Close s

/-- **C46.** The linear interpolation of two profiles of the same form, made of lines, is an interpolating scheme. -/
theorem C46_linear (p q : List (List Seg)) (hp : LineProfile p) (hq : LineProfile q) (hl : p.length = q.length)
    (hs : ∀ k (h : k < p.length), p[k].length = (q[k]'(hl ▸ h)).length) : Interpolating linearProfile p q := by
  have key : ∀ (p q : List (List Seg)), LineProfile p → LineProfile q → (hl : p.length = q.length) →
      (∀ k (h : k < p.length), p[k].length = (q[k]'(hl ▸ h)).length) →
      interpolateProfiles p q 0 = .ok p ∧ interpolateProfiles p q 1 = .ok q := by
    intro p
    induction p with
    | nil => intro q _ _ hl _; cases q with
      | nil => exact ⟨rfl, rfl⟩
      | cons b q => simp at hl
    | cons a p ih => intro q hp hq hl hs; cases q with
      | nil => simp at hl
      | cons b q =>
        have ha := hp a (by simp)
        have hb := hq b (by simp)
        have h0 := hs 0 (by simp)
        have i := ih q (fun s h => hp s (by simp [h])) (fun s h => hq s (by simp [h])) (by simpa using hl)
          (fun k h => hs (k + 1) (by simpa using h))
        have e0 := (Geo.C49_shape_ends 0 h0 ha.1 hb.1).1 le_rfl ha.2
        have e1 := (Geo.C49_shape_ends 1 h0 ha.1 hb.1).2 le_rfl hb.2
        simp only [List.getElem_cons_zero] at e0 e1
        constructor
        · simp only [interpolateProfiles, e0, i.1, bind, Except.bind]
        · simp only [interpolateProfiles, e1, i.2, bind, Except.bind]
  unfold Interpolating linearProfile
  simp only [Geo.clip_of_le (le_refl (0 : ℝ)), Geo.clip_of_ge (le_refl (1 : ℝ)), hl, not_true_eq_false, if_false]
  exact key p q hp hq hl hs

/-- **C46.** Weights outside of the unit interval give the ends. -/
theorem C46_linear_outside (p q : List (List Seg)) (w : ℝ) : (w ≤ 0 → linearProfile p q w = linearProfile p q 0) ∧
    (1 ≤ w → linearProfile p q w = linearProfile p q 1) := by
  unfold linearProfile
  refine ⟨fun h => ?_, fun h => ?_⟩
  · simp only [Geo.clip_of_le h, Geo.clip_of_le (le_refl (0 : ℝ))]
  · simp only [Geo.clip_of_ge h, Geo.clip_of_ge (le_refl (1 : ℝ))]

/-- **C46.** Profiles with different numbers of shapes can not be interpolated linearly. -/
theorem C46_linear_number (p q : List (List Seg)) (w : ℝ) (h : p.length ≠ q.length) : linearProfile p q w = .error .valueError := by
  simp only [linearProfile, h, not_false_eq_true, if_true]

/-- **C46.** A single profile without scheme is accepted, but it has no local profile: `local_profile` raises an
`IndexError` for every location. -/
theorem C46_single_counterexample (p : P) : ∃ v : VarProfile P E, mkVar [p] [0] [] = .ok v ∧
    ∀ x, v.localProfile x = .error .indexError := by
  refine ⟨⟨[p], [0], []⟩, ?_, fun x => rfl⟩
  simp [mkVar, ascendingCheck, bind, Except.bind]

/-- non-trivial example: three profiles (numbers) at 0, 10 and 20 -/
example : (do let v ← mkVar (E := Empty) [1, 3, 7] [10, 20] [fun a b w => .ok (a + w * (b - a)), fun a b w => .ok (a + w * (b - a))]
              v.localProfile 15) = .ok (5 : ℝ) := by
  have hv : mkVar (E := Empty) [(1 : ℝ), 3, 7] [10, 20] [fun a b w => .ok (a + w * (b - a)), fun a b w => .ok (a + w * (b - a))] =
      .ok ⟨[1, 3, 7], [0, 10, 20], [fun a b w => .ok (a + w * (b - a)), fun a b w => .ok (a + w * (b - a))]⟩ := by
    rw [C46_accepted]
    refine ⟨List.cons_ne_nil _ _, ?_⟩
    norm_num
  have h := C46_between (mkVar_good hv) (k := 1) (a := 10) (b := 20) (x := 15) (p := 3) (q := 7) rfl rfl rfl rfl rfl
    (.inl (by norm_num)) (by norm_num)
  simp only [hv, bind, Except.bind]
  rw [h]
  simp only [Except.mapError]
  norm_num

end Weldx.Tr
