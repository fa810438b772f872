import Verif.TimeLcs.Tag

/-!
# C72: coordinate systems in files
-/

namespace Weldx

open Ip Matrix Csm TLcs

/-! ### specification -/

open Classical in
/-- what is expected of a stored system, up to the tolerance with which zero coordinates and identities are recognised: components
that are zero or the identity are static, and without a time dependent component there are no times -/
noncomputable def TLcs.clean (c : TLcs) : TLcs :=
  let o := if unityRotation c.orient then .static 1 else c.orient
  let k := if unityTranslation c.coord then .static 0 else c.coord
  if o.isSeries || k.isSeries then ⟨c.times, c.ref, o, k⟩ else ⟨none, none, o, k⟩

open Classical in
/-- the unit is stored with the coordinates -/
noncomputable def ULcs.clean (u : ULcs) : ULcs := ⟨u.sys.clean, if unityTranslation u.sys.coord then 1 else u.unit⟩

/-! ### lemmas -/

theorem closeTo_self (b : ℝ) : closeTo b b := by
  unfold closeTo
  simp only [sub_self, abs_zero]
  positivity

theorem unity_one : unityRotation (.static 1) := fun _ _ => closeTo_self _

theorem unity_zero : unityTranslation (.static 0) := fun _ => closeTo_self _

/-- the time deltas of a system -/
theorem time_deltas {c : TLcs} {l : List Int} (h : c.times = some l) (ha : l.Pairwise (· < ·)) :
    ∃ t, c.time = .ok (some t) ∧ t.asTimedelta = .ok l ∧ t.referenceTime = .ok c.ref ∧
      (⟨false, l, none⟩ : Time).ofTime c.ref = .ok t := by
  refine ⟨_, time_eq h ha, ?_, ?_, ?_⟩
  · cases hr : c.ref with
    | none => simp [Time.asTimedelta, clock_of_times h, hr]
    | some r =>
      simp only [Time.asTimedelta, Option.isSome_some, if_true, Time.referenceTime, bind, Except.bind, clock_of_times h, hr,
        Option.getD_some, List.map_map]
      congr 1
      conv_rhs => rw [← List.map_id l]
      exact List.map_congr_left fun x _ => by simp
  · cases hr : c.ref <;> simp [Time.referenceTime]
  · have hm : Time.monotonic l = true := monotonic_of_strict ha
    rw [clock_of_times h]
    cases hr : c.ref with
    | none => simp [Time.ofTime, Time.make, hm]
    | some r =>
      have hm' : Time.monotonic (l.map (· + r)) = true := by
        apply monotonic_of_strict
        rw [List.pairwise_map]
        exact ha.imp fun h => by simpa using h
      simp [Time.ofTime, Time.make, hm']

theorem isSeries_false {V : Type} {k : Comp V} (h : k.isSeries = false) : ∃ v, k = .static v := by
  cases k with
  | static v => exact ⟨v, rfl⟩
  | series _ => cases h

theorem times_asc {c : TLcs} (h : c.WF) {l : List Int} (hl : c.times = some l) : l.Pairwise (· < ·) := by
  cases hd : c.dependent with
  | true =>
    obtain ⟨l', h1, _, h3, _⟩ := h.series hd
    rw [hl] at h1; cases h1; exact h3
  | false =>
    rcases h.label hd with h1 | ⟨x, h1⟩ <;> rw [hl] at h1 <;> cases h1
    simp

/-- the constructor on stored components -/
theorem construct_stored {S : Slerp} {c : TLcs} (hc : c.WF) (o' : Option (Comp (Mat3 ℝ))) (k' : Option (Comp (Vec3 ℝ)))
    (ho : ∀ o, o' = some o → o = c.orient) (hk : ∀ k, k' = some k → k = c.coord) :
    TLcs.construct S (Comp.arg o') (Comp.arg k') (c.times.map fun l => ⟨false, l, none⟩) c.ref =
      .ok (if (o'.getD (.static 1)).isSeries || (k'.getD (.static 0)).isSeries then
        ⟨c.times, c.ref, o'.getD (.static 1), k'.getD (.static 0)⟩
        else ⟨none, none, o'.getD (.static 1), k'.getD (.static 0)⟩) := by
  cases ht : c.times with
  | none =>
    have hd : c.dependent = false := by
      cases hd : c.dependent with
      | false => rfl
      | true => obtain ⟨l, h1, _⟩ := hc.series hd; rw [ht] at h1; cases h1
    unfold dependent at hd
    rw [Bool.or_eq_false_iff] at hd
    obtain ⟨R, hR⟩ := isSeries_false hd.1
    obtain ⟨T, hT⟩ := isSeries_false hd.2
    rw [hc.ref ht]
    cases o' with
    | none => cases k' with
      | none => rfl
      | some k => rw [hk k rfl, hT]; rfl
    | some o => cases k' with
      | none => rw [ho o rfl, hR]; rfl
      | some k => rw [ho o rfl, hk k rfl, hR, hT]; rfl
  | some l =>
    obtain ⟨t, h1, h2, h3, h4⟩ := time_deltas ht (times_asc hc ht)
    have hlen : ∀ x, o' = some (.series x) → l.length = x.length := by
      intro x hx
      have := ho _ hx
      obtain ⟨l', h1, _, _, h4, _⟩ := hc.series (by unfold dependent; rw [← this]; rfl)
      rw [ht] at h1; cases h1
      rw [← this] at h4
      exact h4.symm
    have hlen' : ∀ x, k' = some (.series x) → l.length = x.length := by
      intro x hx
      have := hk _ hx
      obtain ⟨l', h1, _, _, _, h5⟩ := hc.series (by unfold dependent; rw [← this]; simp [Comp.isSeries])
      rw [ht] at h1; cases h1
      rw [← this] at h5
      exact h5.symm
    have hres : ∀ o k, (match c.ref with
        | none => (Except.ok ⟨some l, c.ref, o, k⟩ : Except TimeError TLcs)
        | some r => .ok ((⟨some l, c.ref, o, k⟩ : TLcs).reset r)) = .ok ⟨some l, c.ref, o, k⟩ := by
      intro o k
      cases hr : c.ref with
      | none => rfl
      | some r => simp [TLcs.reset]
    have hstat : ∀ o k, (match c.ref with
        | none => (Except.ok ⟨none, none, o, k⟩ : Except TimeError TLcs)
        | some r => .ok ((⟨none, none, o, k⟩ : TLcs).reset r)) = .ok ⟨none, none, o, k⟩ := by
      intro o k
      cases hr : c.ref <;> rfl
    simp only [TLcs.construct, Option.map_some, buildTime_ref h4, bind, Except.bind, classRef, h3]
    cases o' with
    | none => cases k' with
      | none => simp only [Comp.arg, XArg.build, TLcs.assemble, unifyAxis, mergeArrays, bind, Except.bind]; exact hstat _ _
      | some k => cases k with
        | static T => simp only [Comp.arg, XArg.build, TLcs.assemble, unifyAxis, mergeArrays, bind, Except.bind]; exact hstat _ _
        | series x =>
          simp only [Comp.arg, XArg.build, h2, h3, bind, Except.bind, hlen' x rfl, if_true, TLcs.assemble, unifyAxis, mergeArrays]
          exact hres _ _
    | some o => cases o with
      | static R => cases k' with
        | none => simp only [Comp.arg, XArg.build, TLcs.assemble, unifyAxis, mergeArrays, bind, Except.bind]; exact hstat _ _
        | some k => cases k with
          | static T => simp only [Comp.arg, XArg.build, TLcs.assemble, unifyAxis, mergeArrays, bind, Except.bind]; exact hstat _ _
          | series x =>
            simp only [Comp.arg, XArg.build, h2, h3, bind, Except.bind, hlen' x rfl, if_true, TLcs.assemble, unifyAxis, mergeArrays]
            exact hres _ _
      | series y => cases k' with
        | none =>
          simp only [Comp.arg, XArg.build, h2, h3, bind, Except.bind, hlen y rfl, if_true, TLcs.assemble, unifyAxis, mergeArrays]
          exact hres _ _
        | some k => cases k with
          | static T =>
            simp only [Comp.arg, XArg.build, h2, h3, bind, Except.bind, hlen y rfl, if_true, TLcs.assemble, unifyAxis, mergeArrays]
            exact hres _ _
          | series x =>
            simp only [Comp.arg, XArg.build, h2, h3, bind, Except.bind, hlen y rfl, (hlen y rfl).symm.trans (hlen' x rfl), if_true,
              TLcs.assemble, unifyAxis, mergeArrays, ne_eq, not_true_eq_false, decide_false, Bool.and_false, Bool.false_eq_true,
              if_false]
            exact hres _ _

open Classical in
/-- the stored tree -/
theorem write_tree {u : ULcs} (h : u.sys.WF) : u.write = .ok ⟨if unityRotation u.sys.orient then none else some u.sys.orient,
    if unityTranslation u.sys.coord then none else some (u.sys.coord, u.unit), u.sys.times, u.sys.ref⟩ := by
  unfold ULcs.write
  cases ht : u.sys.times with
  | none => simp only [TLcs.time, ht, bind, Except.bind, ite_not]
  | some l =>
    obtain ⟨t, h1, h2, _⟩ := time_deltas ht (times_asc h ht)
    simp only [h1, h2, bind, Except.bind, ite_not]

/-! ### C72 -/

/-- **C72.** What is read is what was written, except for components that are zero or the identity within the tolerance. -/
theorem C72_read {S : Slerp} {u : ULcs} (h : u.sys.WF) : ∃ t, u.write = .ok t ∧ t.read S = .ok u.clean := by
  classical
  refine ⟨_, write_tree h, ?_⟩
  unfold LcsTree.read
  have e : (Option.map (fun x : Comp (Vec3 ℝ) × ℝ => x.1) (if unityTranslation u.sys.coord then none else some (u.sys.coord, u.unit))) =
      if unityTranslation u.sys.coord then none else some u.sys.coord := by split_ifs <;> rfl
  have e2 : (Option.map (fun x : Comp (Vec3 ℝ) × ℝ => x.2) (if unityTranslation u.sys.coord then none else some (u.sys.coord, u.unit))).getD 1 =
      if unityTranslation u.sys.coord then 1 else u.unit := by split_ifs <;> rfl
  simp only
  rw [e, construct_stored h _ _ (fun o ho => by split_ifs at ho; exact (Option.some.inj ho).symm)
    (fun k hk => by split_ifs at hk; exact (Option.some.inj hk).symm)]
  simp only [bind, Except.bind]
  rw [e2]
  have e3 : (if unityRotation u.sys.orient then none else some u.sys.orient).getD (.static 1) =
      if unityRotation u.sys.orient then .static 1 else u.sys.orient := by split_ifs <;> rfl
  have e4 : (if unityTranslation u.sys.coord then none else some u.sys.coord).getD (.static 0) =
      if unityTranslation u.sys.coord then .static 0 else u.sys.coord := by split_ifs <;> rfl
  rw [e3, e4]
  rfl

/-- **C72.** Exactly these systems are read as they were written: an orientation close to the identity is the static identity,
coordinates close to zero are static zeros in millimetres, and a static system has no times. -/
theorem C72_exact_iff {S : Slerp} {u : ULcs} (h : u.sys.WF) : (∃ t, u.write = .ok t ∧ t.read S = .ok u) ↔
    (unityRotation u.sys.orient → u.sys.orient = .static 1) ∧
    (unityTranslation u.sys.coord → u.sys.coord = .static 0 ∧ u.unit = 1) ∧ (u.sys.dependent = false → u.sys.times = none) := by
  classical
  obtain ⟨t, h1, h2⟩ := C72_read (S := S) h
  have step : (∃ t, u.write = .ok t ∧ t.read S = .ok u) ↔ u.clean = u := by
    constructor
    · rintro ⟨t', h3, h4⟩
      rw [h1] at h3; cases h3
      rw [h2] at h4
      exact Except.ok.inj h4
    · intro e
      exact ⟨t, h1, by rw [h2, e]⟩
  rw [step]
  obtain ⟨⟨ts, ref, o, k⟩, un⟩ := u
  simp only [ULcs.clean, TLcs.clean, ULcs.mk.injEq, TLcs.dependent]
  constructor
  · rintro ⟨e1, e2⟩
    have e1' := e1
    refine ⟨fun hu => ?_, fun hu => ⟨?_, ?_⟩, fun hd => ?_⟩
    · rw [if_pos hu] at e1
      split_ifs at e1 <;> · injection e1 with _ _ h3 _; exact h3.symm
    · rw [if_pos hu] at e1
      split_ifs at e1 <;> · injection e1 with _ _ _ h4; exact h4.symm
    · rw [if_pos hu] at e2; exact e2.symm
    · have : ((if unityRotation o then Comp.static 1 else o).isSeries || (if unityTranslation k then Comp.static 0 else k).isSeries) =
          false := by
        rw [Bool.or_eq_false_iff] at hd ⊢
        constructor
        · split_ifs
          · rfl
          · exact hd.1
        · split_ifs
          · rfl
          · exact hd.2
      rw [this] at e1
      simp only [Bool.false_eq_true, if_false] at e1
      injection e1 with h1 _ _ _
      exact h1.symm
  · rintro ⟨c1, c2, c3⟩
    have eo : (if unityRotation o then Comp.static 1 else o) = o := by
      split_ifs with hu
      · exact (c1 hu).symm
      · rfl
    have ek : (if unityTranslation k then Comp.static 0 else k) = k := by
      split_ifs with hu
      · exact (c2 hu).1.symm
      · rfl
    rw [eo, ek]
    constructor
    · cases hd : (o.isSeries || k.isSeries) with
      | true => rfl
      | false =>
        have h3 : ts = none := c3 hd
        have h4 : ref = none := h.ref h3
        rw [h3, h4]
        rfl
    · split_ifs with hu
      · exact (c2 hu).2.symm
      · rfl

/-- **C72.** A system that was read once is not changed by further files. -/
theorem C72_stable {S : Slerp} {u : ULcs} (h : u.sys.WF) : u.clean.sys.WF ∧ ∃ t, u.clean.write = .ok t ∧ t.read S = .ok u.clean := by
  classical
  have hwf : u.clean.sys.WF := by
    simp only [ULcs.clean, TLcs.clean]
    split_ifs with h1 h2 h3 h3 h2 h3 h3
    · cases h3
    · exact ⟨(fun h => by cases h), fun _ => .inl rfl, fun _ => rfl, Rotation.one⟩
    · have hs : u.sys.coord.isSeries = true := by simpa [Comp.isSeries] using h3
      obtain ⟨l, a1, a2, a3, a4, a5⟩ := h.series (by simp [TLcs.dependent, hs])
      exact ⟨fun _ => ⟨l, a1, a2, a3, trivial, a5⟩, fun hd => by simp [TLcs.dependent, hs] at hd, h.ref, Rotation.one⟩
    · refine ⟨fun hd => absurd hd h3, fun _ => .inl rfl, fun _ => rfl, Rotation.one⟩
    · have hs : u.sys.orient.isSeries = true := by simpa [Comp.isSeries] using h3
      obtain ⟨l, a1, a2, a3, a4, a5⟩ := h.series (by simp [TLcs.dependent, hs])
      exact ⟨fun _ => ⟨l, a1, a2, a3, a4, trivial⟩, fun hd => by simp [TLcs.dependent, hs] at hd, h.ref, h.rot⟩
    · exact ⟨fun hd => absurd hd h3, fun _ => .inl rfl, fun _ => rfl, h.rot⟩
    · exact ⟨fun hd => h.series hd, fun hd => absurd h3 (by rw [Bool.not_eq_true]; exact hd), h.ref, h.rot⟩
    · exact ⟨fun hd => absurd hd h3, fun _ => .inl rfl, fun _ => rfl, h.rot⟩
  refine ⟨hwf, (C72_exact_iff hwf).2 ⟨?_, ?_, ?_⟩⟩
  · intro hu
    simp only [ULcs.clean, TLcs.clean] at hu ⊢
    split_ifs at hu ⊢ <;> first | rfl | contradiction
  · intro hu
    simp only [ULcs.clean, TLcs.clean] at hu ⊢
    split_ifs at hu ⊢ <;> first | exact ⟨rfl, rfl⟩ | contradiction
  · intro hd
    simp only [ULcs.clean, TLcs.clean] at hd ⊢
    split_ifs at hd ⊢ with h1 h2 h3 h3 h2 h3 h3 <;> first | rfl | (exfalso; rw [TLcs.dependent] at hd; rw [h3] at hd; cases hd) | cases h3

/-- a linear mixture of small numbers is small -/
theorem value_small {s : Series (Vec3 ℝ)} {e : ℝ} (hs : ∀ p ∈ s, ∀ i, |p.2 i| ≤ e) (ha : Ascending s) {t : Int} {v : Vec3 ℝ}
    (h : Value linMix s t v) (i : Fin 3) : |v i| ≤ e := by
  cases h with
  | before hp _ => exact hs _ (List.mem_of_mem_head? hp) i
  | after hp _ => exact hs _ (List.mem_of_getLast? hp) i
  | @between k p q hp hq h1 h2 =>
    have hp' := hs _ (List.mem_of_getElem? hp) i
    have hq' := hs _ (List.mem_of_getElem? hq) i
    have hlt : p.1 < q.1 := by
      obtain ⟨hi, rfl⟩ := List.getElem?_eq_some_iff.1 hp
      obtain ⟨hj, rfl⟩ := List.getElem?_eq_some_iff.1 hq
      exact List.pairwise_iff_getElem.1 ha _ _ hi hj (Nat.lt_succ_self k)
    have hd : (0 : ℝ) < (q.1 : ℝ) - p.1 := by
      have : (p.1 : ℝ) < q.1 := by exact_mod_cast hlt
      linarith
    have w0 : 0 ≤ ((t : ℝ) - p.1) / (q.1 - p.1) := by
      apply div_nonneg _ hd.le
      have : (p.1 : ℝ) ≤ t := by exact_mod_cast h1
      linarith
    have w1 : ((t : ℝ) - p.1) / (q.1 - p.1) ≤ 1 := by
      rw [div_le_one hd]
      have : (t : ℝ) ≤ q.1 := by exact_mod_cast h2
      linarith
    generalize ((t : ℝ) - p.1) / (q.1 - p.1) = w at w0 w1
    have e1 : linMix p.2 q.2 w i = (1 - w) * p.2 i + w * q.2 i := by simp [linMix]; try ring
    rw [e1]
    rw [abs_le] at hp' hq' ⊢
    constructor <;> nlinarith

/-- **C72.** The coordinates that are read are the written ones up to `1e-8` of their unit, at every time; the orientations are
the written ones up to `1e-8` or (on the diagonal) `1.001e-5`, at every time of the system. -/
theorem C72_values {S : Slerp} (hS : SlerpOk S) {u : ULcs} (h : u.sys.WF) {t : Int} {f g : Lcs ℝ} (hf : u.sys.At S t f)
    (hg : u.clean.sys.At S t g) : (∀ i, |f.coordinates i - g.coordinates i| ≤ 1 / 10 ^ 8) ∧
      (t ∈ u.sys.clock ∨ u.sys.orient.isSeries = false → ∀ i j, |f.orientation i j - g.orientation i j| ≤
        1 / 10 ^ 8 + 1 / 10 ^ 5 * |(1 : Mat3 ℝ) i j|) := by
  classical
  have hclk : u.clean.sys.orient.isSeries = true ∨ u.clean.sys.coord.isSeries = true → u.clean.sys.clock = u.sys.clock := by
    simp only [ULcs.clean, TLcs.clean]
    rw [← Bool.or_eq_true]
    intro hh
    split_ifs at hh ⊢ <;> first | rfl | contradiction | cases hh
  have horient : u.clean.sys.orient = if unityRotation u.sys.orient then .static 1 else u.sys.orient := by
    simp only [ULcs.clean, TLcs.clean]; split_ifs <;> rfl
  have hcoord : u.clean.sys.coord = if unityTranslation u.sys.coord then .static 0 else u.sys.coord := by
    simp only [ULcs.clean, TLcs.clean]; split_ifs <;> rfl
  constructor
  · by_cases hu : unityTranslation u.sys.coord
    · have h2 := hg.2
      rw [hcoord, if_pos hu] at h2
      generalize g.coordinates = z at h2 ⊢
      cases h2
      intro i
      rw [show (0 : Vec3 ℝ) i = 0 from rfl, sub_zero]
      have h1 := hf.2
      have small : ∀ x : ℝ, closeTo x 0 → |x| ≤ 1 / 10 ^ 8 := fun x hx => by
        unfold closeTo at hx; simpa using hx
      cases hk : u.sys.coord with
      | static T =>
        rw [hk] at h1 hu
        generalize f.coordinates = v at h1 ⊢
        cases h1
        exact small _ (hu i)
      | series l =>
        rw [hk] at h1 hu
        generalize f.coordinates = v at h1 ⊢
        cases h1 with
        | series h1 =>
          exact value_small (fun p hp j => small _ (hu _ (List.of_mem_zip (a := p.1) (b := p.2) hp).2 j)) (zip_asc (clock_asc h) _) h1 i
    · have h2 := hg.2
      rw [hcoord, if_neg hu] at h2
      have : f.coordinates = g.coordinates := by
        cases hs : u.sys.coord.isSeries with
        | false =>
          exact compAt_unique linMix_ok (clock_asc h) (coord_all _) hf.2 (compAt_static hs h2)
        | true =>
          rw [hclk (.inr (by rw [hcoord, if_neg hu, hs]))] at h2
          exact compAt_unique linMix_ok (clock_asc h) (coord_all _) hf.2 h2
      intro i
      rw [this, sub_self, abs_zero]
      positivity
  · intro ht
    by_cases hu : unityRotation u.sys.orient
    · have h2 := hg.1
      rw [horient, if_pos hu] at h2
      generalize g.orientation = R at h2 ⊢
      cases h2
      intro i j
      have h1 := hf.1
      cases hk : u.sys.orient with
      | static T =>
        rw [hk] at h1 hu
        generalize f.orientation = v at h1 ⊢
        cases h1
        exact hu i j
      | series l =>
        have ht := ht.resolve_right (by rw [hk]; simp [Comp.isSeries])
        obtain ⟨n, hn⟩ := List.getElem?_of_mem ht
        obtain ⟨ts, a1, _, a3, a4, _⟩ := h.series (by simp [TLcs.dependent, hk, Comp.isSeries])
        have hl := (h.lens a1).1
        have := (compAt_sample hS (clock_asc h) h.rot hl hn _).1 hf.1
        rw [hk] at this hu
        exact hu _ (List.mem_of_getElem? this) i j
    · have h2 := hg.1
      rw [horient, if_neg hu] at h2
      have : f.orientation = g.orientation := by
        cases hs : u.sys.orient.isSeries with
        | false => exact compAt_unique hS (clock_asc h) h.rot hf.1 (compAt_static hs h2)
        | true =>
          rw [hclk (.inl (by rw [horient, if_neg hu, hs]))] at h2
          exact compAt_unique hS (clock_asc h) h.rot hf.1 h2
      intro i j
      rw [this, sub_self, abs_zero]
      positivity

/-- **C72.** Files of the first version: the same system with coordinates in millimetres. -/
theorem C72_legacy {S : Slerp} {t : LcsTree} {u : ULcs} (h : t.read S = .ok u) : t.readLegacy S = .ok ⟨u.sys, 1⟩ := by
  simp only [LcsTree.readLegacy, h, bind, Except.bind]

open Classical in
/-- **C72.** Coordinates given by an expression keep their reference time, with or without times of the orientations. -/
theorem C72_expression {e : ELcs} (h : (⟨e.times, e.ref, e.orient, .static 0⟩ : TLcs).WF ∨
      (e.times = none ∧ e.orient.isSeries = false ∧ CompAll Rotation e.orient)) :
    ∃ t x, writeExpr e = .ok t ∧ readExpr t e.expr = .ok x ∧ x.expr = e.expr ∧ x.tsRef = e.ref ∧
      x.orient = (if unityRotation e.orient then .static 1 else e.orient) ∧
      (x.orient.isSeries = true → x.times = e.times ∧ x.dsRef = e.ref) ∧ (x.orient.isSeries = false → x.times = none) := by
  obtain ⟨ts, ref, o, f⟩ := e
  simp only at h ⊢
  cases ts with
  | none =>
    have hs : o.isSeries = false := by
      rcases h with h | h
      · cases hd : o.isSeries with
        | false => rfl
        | true => obtain ⟨l, h1, _⟩ := h.series (by simp [TLcs.dependent, hd]); cases h1
      · exact h.2.1
    obtain ⟨R, rfl⟩ := isSeries_false hs
    have hq : ∃ t, buildTime none ref = .ok t ∧ classRef t = .ok ref := by
      cases ref with
      | none => exact ⟨none, rfl, rfl⟩
      | some r => exact ⟨some ⟨true, [r], some r⟩, by simp [buildTime, Time.make, Time.monotonic, bind, Except.bind],
          by simp [classRef, Time.referenceTime]⟩
    obtain ⟨t, q1, q2⟩ := hq
    refine ⟨(if unityRotation (.static R) then none else some (.static R), none, ref),
      ⟨none, none, ref, if unityRotation (.static R) then .static 1 else .static R, f⟩,
      by simp only [writeExpr, TLcs.time, bind, Except.bind, ite_not], ?_, rfl, rfl, rfl, ?_, fun _ => rfl⟩
    · simp only [readExpr, XLcs.construct, Option.map_none, q1, q2, bind, Except.bind]
      split_ifs <;> cases ref <;> rfl
    · intro h; split_ifs at h <;> cases h
  | some l =>
    have hw : (⟨some l, ref, o, .static 0⟩ : TLcs).WF := by
      rcases h with h | h
      · exact h
      · cases h.1
    obtain ⟨t, h1, h2, h3, h4⟩ := time_deltas (c := ⟨some l, ref, o, .static 0⟩) rfl (times_asc hw rfl)
    simp only at h3 h4
    refine ⟨(if unityRotation o then none else some o, some l, ref), ⟨if (if unityRotation o then Comp.static 1 else o).isSeries then some l else none,
        if (if unityRotation o then Comp.static 1 else o).isSeries then ref else none, ref,
        if unityRotation o then .static 1 else o, f⟩,
      by simp only [writeExpr, h1, h2, bind, Except.bind, ite_not], ?_, rfl, rfl, rfl, ?_, ?_⟩
    · simp only [readExpr, XLcs.construct, Option.map_some, buildTime_ref h4, classRef, h3, bind, Except.bind]
      by_cases hu : unityRotation o
      · simp only [if_pos hu, Comp.arg, XArg.build]
        cases ref <;> rfl
      · simp only [if_neg hu]
        cases o with
        | static R => simp only [Comp.arg, XArg.build]; cases ref <;> rfl
        | series x =>
          have hl : l.length = x.length := by
            obtain ⟨l', a1, _, _, a4, _⟩ := hw.series rfl
            cases a1
            exact a4.symm
          simp only [Comp.arg, XArg.build, h2, h3, bind, Except.bind, hl, if_true]
          cases ref with
          | none => rfl
          | some r => simp [TLcs.reset, Comp.isSeries]
    · intro hs
      simp only at hs ⊢
      rw [if_pos hs, if_pos hs]; exact ⟨rfl, rfl⟩
    · intro hs
      simp only at hs ⊢
      rw [hs]; rfl

/-! ### instances -/

namespace TagDemo

theorem not_unity : ¬ unityRotation (mover 5).orient := by
  intro h
  have := h !![-1, 0, 0; 0, -1, 0; 0, 0, 1] (by simp) 0 0
  simp only [closeTo] at this
  norm_num at this

theorem not_zero : ¬ unityTranslation (mover 5).coord := by
  intro h
  have := h ![4, 2, 0] (by simp) 0
  simp only [closeTo] at this
  norm_num at this

/-- C72: a system that turns and moves, in centimetres -/
example {S : Slerp} : ∃ t, (⟨mover 5, 10⟩ : ULcs).write = .ok t ∧ t.read S = .ok ⟨mover 5, 10⟩ :=
  (C72_exact_iff (mover_wf 5)).2 ⟨fun h => absurd h not_unity, fun h => absurd h not_zero, fun h => by cases h⟩

/-- C72: values of the system that is read -/
example {t : Int} {f g : Lcs ℝ} (hf : (mover 5).At jump t f) (hg : (⟨mover 5, 10⟩ : ULcs).clean.sys.At jump t g) (i : Fin 3) :
    |f.coordinates i - g.coordinates i| ≤ 1 / 10 ^ 8 :=
  (C72_values jump_ok (u := ⟨mover 5, 10⟩) (mover_wf 5) hf hg).1 i

/-- C72: the values of an expression count from the same reference time -/
example : ∃ t x, writeExpr ⟨none, some 5, .static 1, ramp.expr⟩ = .ok t ∧ readExpr t ramp.expr = .ok x ∧ x.tsRef = some 5 := by
  obtain ⟨t, x, h1, h2, _, h4, _⟩ := C72_expression (e := ⟨none, some 5, .static 1, ramp.expr⟩) (.inr ⟨rfl, rfl, Rotation.one⟩)
  exact ⟨t, x, h1, h2, h4⟩

/-- a system that stays at the origin -/
def still : TLcs := ⟨some [0, 10], some 5, .static 1, .series [0, 0]⟩

theorem still_wf : still.WF :=
  ⟨fun _ => ⟨[0, 10], rfl, by simp, by simp, trivial, rfl⟩, (fun h => by cases h), (fun h => by cases h), Rotation.one⟩

/-- **C72, refutation.** A time dependent system that stays at the origin is read as a static system without times and without
reference time. -/
theorem C72_still {S : Slerp} : still.dependent = true ∧ ∃ t u, (⟨still, 1⟩ : ULcs).write = .ok t ∧ t.read S = .ok u ∧
    u.sys.dependent = false ∧ u.sys.times = none ∧ u.sys.ref = none ∧ t.time = some [0, 10] ∧ t.reference = some 5 := by
  classical
  refine ⟨rfl, ?_⟩
  obtain ⟨t, h1, h2⟩ := C72_read (S := S) (u := ⟨still, 1⟩) still_wf
  have h3 := write_tree (u := ⟨still, 1⟩) still_wf
  rw [h1] at h3
  have h3 := Except.ok.inj h3
  have hu : unityRotation still.orient := unity_one
  have hz : unityTranslation still.coord := by
    intro T hT i
    simp only [List.mem_cons, List.not_mem_nil, or_false, or_self] at hT
    subst hT
    exact closeTo_self _
  have hcl : (⟨still, 1⟩ : ULcs).clean.sys = ⟨none, none, .static 1, .static 0⟩ := by
    simp only [ULcs.clean, TLcs.clean, if_pos hu, if_pos hz]; rfl
  exact ⟨t, _, h1, h2, by rw [hcl]; rfl, by rw [hcl], by rw [hcl], by rw [h3]; rfl, by rw [h3]; rfl⟩

/-- **C72, refutation.** Whether small coordinates are kept depends on their unit: 5 nanometres, written in metres, are lost, and
so is the unit; written in millimetres they are kept. -/
theorem C72_small {S : Slerp} :
    (∃ t, (⟨⟨none, none, .static 1, .static ![5 / 10 ^ 9, 0, 0]⟩, 1000⟩ : ULcs).write = .ok t ∧
      t.read S = .ok ⟨⟨none, none, .static 1, .static 0⟩, 1⟩) ∧
    (∃ t, (⟨⟨none, none, .static 1, .static ![5 / 10 ^ 6, 0, 0]⟩, 1⟩ : ULcs).write = .ok t ∧
      t.read S = .ok ⟨⟨none, none, .static 1, .static ![5 / 10 ^ 6, 0, 0]⟩, 1⟩) := by
  have wf : ∀ T : Vec3 ℝ, (⟨none, none, .static 1, .static T⟩ : TLcs).WF := fun T =>
    ⟨(fun h => by cases h), fun _ => .inl rfl, fun _ => rfl, Rotation.one⟩
  constructor
  · obtain ⟨t, h1, h2⟩ := C72_read (S := S) (u := ⟨⟨none, none, .static 1, .static ![5 / 10 ^ 9, 0, 0]⟩, 1000⟩) (wf _)
    have hz : unityTranslation (.static ![5 / 10 ^ 9, 0, 0]) := by
      intro i
      unfold closeTo
      fin_cases i <;> norm_num
    refine ⟨t, h1, h2.trans ?_⟩
    simp only [ULcs.clean, TLcs.clean, if_pos unity_one, if_pos hz]
    rfl
  · refine (C72_exact_iff (wf _)).2 ⟨fun _ => rfl, fun h => ?_, fun _ => rfl⟩
    exfalso
    have := h 0
    unfold closeTo at this
    norm_num at this

end TagDemo

end Weldx
