import Verif.TimeLcs.ExprRef

/-!
# C75: systems with an expression keep their motion
-/

namespace Weldx

open Ip Matrix Csm TLcs TimeSeries

namespace SLcs

/-- the specification: the absolute time at which the time variable of the expression is zero -/
def origin (e : SLcs) : Option Int := e.seriesRef.or e.ref

theorem seriesArg_many {d : Discrete (Vec3 ℝ)} (h : d.vals.length ≠ 1) :
    seriesArg d = .array (some ⟨false, d.times, d.ref⟩) (.series d.vals) := by
  unfold seriesArg
  split
  · rename_i v hv; rw [hv] at h; simp at h
  · rfl

theorem monotonic_map {l : List Int} (h : l.Pairwise (· < ·)) : Time.monotonic l = true := by
  rw [Time.monotonic_iff]
  exact h.imp fun h => h.le

theorem ofTime_abs {t : Time} (ha : t.abs = true) (hm : t.vals.Pairwise (· < ·)) (r : Option Int) :
    t.ofTime r = .ok ⟨true, t.vals, r.or t.ref⟩ := by
  cases r <;> cases hr : t.ref <;> simp [Time.ofTime, Time.make, ha, monotonic_map hm, hr]

theorem ofTime_rel {t : Time} (ha : t.abs = false) (hr : t.ref = none) (hm : t.vals.Pairwise (· < ·)) :
    t.ofTime none = .ok ⟨false, t.vals, none⟩ := by
  simp [Time.ofTime, Time.make, ha, monotonic_map hm, hr]

/-- the values of a series with a reference time or a requested time with a reference time -/
theorem series_abs {e : SLcs} {a : Int} {ts : List Int} (hm : ts.Pairwise (· < ·)) :
    e.series.interp ⟨true, ts, some a⟩ = .ok ⟨ts.map (· - e.seriesRef.getD a), some (e.seriesRef.getD a),
      ts.map (fun x => e.expr (x - e.seriesRef.getD a)), .step⟩ := by
  have h1 := ofTime_abs (t := ⟨true, ts, some a⟩) rfl hm none
  have h2 := ofTime_abs (t := ⟨true, ts, some a⟩) rfl hm e.seriesRef
  simp only [TimeSeries.interp, series, h1, Option.none_or, bind, Except.bind, h2]
  cases hs : e.seriesRef <;>
    simp [Time.asTimedelta, Time.referenceTime, bind, Except.bind, setMethod, Function.comp_def]

theorem series_rel {e : SLcs} {ts : List Int} (hm : ts.Pairwise (· < ·)) :
    e.series.interp ⟨false, ts, none⟩ = .ok ⟨ts, e.seriesRef, ts.map e.expr, .step⟩ := by
  have h1 := ofTime_rel (t := ⟨false, ts, none⟩) rfl rfl hm
  simp only [TimeSeries.interp, series, h1, bind, Except.bind]
  cases hs : e.seriesRef with
  | none => simp [h1, Time.asTimedelta, Time.referenceTime, bind, Except.bind, setMethod]
  | some r =>
    have h2 : (⟨false, ts, none⟩ : Time).ofTime (some r) = .ok ⟨true, ts.map (· + r), some r⟩ := by
      have : (ts.map (· + r)).Pairwise (· < ·) := by
        rw [List.pairwise_map]; exact hm.imp fun h => by simpa using h
      simp [Time.ofTime, Time.make, monotonic_map this]
    simp [h2, Time.asTimedelta, Time.referenceTime, bind, Except.bind, setMethod, Function.comp_def]

/-- the coordinates at several absolute times -/
theorem coords_abs {e : SLcs} {a : Int} (he : e.ref = some a) {t : Time} (ha : t.abs = true) (hm : t.vals.Pairwise (· < ·))
    (h2 : 2 ≤ t.vals.length) : e.coords t = .ok (.array (some ⟨false, t.vals.map (· - a), some a⟩)
      (.series (t.vals.map fun x => e.expr (x - e.seriesRef.getD a)))) := by
  have h1 := ofTime_abs ha hm (some a)
  simp only [coords, he, h1, Option.some_or, bind, Except.bind, series_abs hm]
  rw [seriesArg_many (by simp; omega)]
  simp only [setRef, List.map_map, Function.comp_def]
  simp

/-- **C75.** A system with a reference time has, at every absolute time, the value of its expression at the time since the reference
time of the series, or of the system if the series has none: several times. -/
theorem C75_absolute (S : Slerp) {e : SLcs} {a r : Int} (he : e.ref = some a) (hr : e.origin = some r) {t : Time} (ha : t.abs = true)
    (hm : t.vals.Pairwise (· < ·)) (h2 : 2 ≤ t.vals.length) {q : Int} (hq : t.referenceTime = .ok (some q)) :
    e.interpTime S t none = .ok ⟨some (t.vals.map (· - q)), some q, .static e.orient, .series (t.vals.map fun x => e.expr (x - r))⟩ := by
  have hr' : e.seriesRef.getD a = r := by
    unfold origin at hr
    rw [he] at hr
    cases hs : e.seriesRef <;> rw [hs] at hr <;> simpa using hr
  have h1 := ofTime_abs ha hm none
  have e1 : (⟨true, t.vals, Option.none.or t.ref⟩ : Time) = t := by
    cases t; simp_all
  rw [e1] at h1
  have hbt : buildTime (some t) none = .ok (some t) := by simp [buildTime, h1, bind, Except.bind]
  have hc := coords_abs he ha hm h2
  rw [hr'] at hc
  simp only [interpTime, h1, he, ha, hc, bind, Except.bind, isStatic, TLcs.construct, hbt, Bool.false_eq_true, if_false,
    XArg.build, RawTime.restore, classRef, hq, TLcs.assemble, unifyAxis, mergeArrays, TLcs.reset]
  by_cases hqa : q = a
  · simp [hqa]
  · simp [hqa, Function.comp_def]

/-- **C75.** The same at a single time: the system is static. -/
theorem C75_single (S : Slerp) {e : SLcs} {a r : Int} (he : e.ref = some a) (hr : e.origin = some r) {x : Int} {q : Option Int} :
    e.interpTime S ⟨true, [x], q⟩ none = .ok ⟨none, none, .static e.orient, .static (e.expr (x - r))⟩ := by
  have hr' : e.seriesRef.getD a = r := by
    unfold origin at hr
    rw [he] at hr
    cases hs : e.seriesRef <;> rw [hs] at hr <;> simpa using hr
  have hm : ([x] : List Int).Pairwise (· < ·) := by simp
  have h1 := ofTime_abs (t := ⟨true, [x], q⟩) rfl hm none
  have h2 := ofTime_abs (t := ⟨true, [x], q⟩) rfl hm (some a)
  have hs := series_abs (e := e) (a := a) hm
  simp only [Option.none_or, Option.some_or] at h1 h2
  simp only [interpTime, h1, he, coords, h2, hs, bind, Except.bind, hr']
  simp [seriesArg, setRef, isStatic, TLcs.construct, buildTime, XArg.build, classRef, TLcs.assemble, unifyAxis, mergeArrays, bind,
    Except.bind]

/-- **C75.** A system without a reference time has, at every time delta, the value of its expression there; the result counts from the
reference time of the series. -/
theorem C75_relative (S : Slerp) {e : SLcs} (he : e.ref = none) {ts : List Int} (hm : ts.Pairwise (· < ·)) (h2 : 2 ≤ ts.length) :
    e.interpTime S ⟨false, ts, none⟩ none = .ok ⟨some ts, e.seriesRef, .static e.orient, .series (ts.map e.expr)⟩ := by
  have h1 := ofTime_rel (t := ⟨false, ts, none⟩) rfl rfl hm
  have hbt : buildTime (some ⟨false, ts, none⟩) none = .ok (some ⟨false, ts, none⟩) := by simp [buildTime, h1, bind, Except.bind]
  have hc : e.coords ⟨false, ts, none⟩ = .ok (.array (some ⟨false, ts, e.seriesRef⟩) (.series (ts.map e.expr))) := by
    simp only [coords, he, h1, bind, Except.bind, series_rel hm]
    rw [seriesArg_many (by simp; omega)]
  simp only [interpTime, h1, he, hc, bind, Except.bind, isStatic, TLcs.construct, hbt, Bool.false_eq_true, if_false,
    XArg.build, RawTime.restore, classRef, Time.referenceTime, TLcs.assemble, unifyAxis, mergeArrays]
  simp

/-- **C75.** If the series has a reference time, setting the reference time of the system never changes where the system is at an
absolute time. -/
theorem C75_reset_keeps (S : Slerp) {e : SLcs} {a r b : Int} (he : e.ref = some a) (hs : e.seriesRef = some r) {t : Time}
    (ha : t.abs = true) (hm : t.vals.Pairwise (· < ·)) (h0 : t.vals ≠ []) :
    (e.reset (some b)).1.interpTime S t none = e.interpTime S t none ∧ (e.reset (some b)).2 = none := by
  refine ⟨?_, rfl⟩
  have o1 : e.origin = some r := by simp [origin, hs]
  have o2 : (e.reset (some b)).1.origin = some r := by simp [origin, reset, hs]
  have e2 : (e.reset (some b)).1.ref = some b := rfl
  obtain ⟨ab, vals, ref⟩ := t
  simp only at ha hm h0
  subst ha
  match vals, h0 with
  | [x], _ => rw [C75_single S he o1, C75_single S e2 o2]; rfl
  | x :: y :: l, _ =>
    have hq : ∃ q, (⟨true, x :: y :: l, ref⟩ : Time).referenceTime = .ok (some q) := by
      cases ref <;> exact ⟨_, rfl⟩
    obtain ⟨q, hq⟩ := hq
    rw [C75_absolute S he o1 rfl hm (by simp) hq, C75_absolute S e2 o2 rfl hm (by simp) hq]
    rfl

/-- **C75, refutation.** If the series has no reference time, setting another reference time moves the system in time: at the time `x`
it is where it was at `x - (b - a)`. -/
theorem C75_reset_moves (S : Slerp) {e : SLcs} {a b : Int} (he : e.ref = some a) (hs : e.seriesRef = none) {x : Int} {q : Option Int} :
    (e.reset (some b)).1.interpTime S ⟨true, [x], q⟩ none = e.interpTime S ⟨true, [x - (b - a)], q⟩ none := by
  have o1 : e.origin = some a := by simp [origin, hs, he]
  have o2 : (e.reset (some b)).1.origin = some b := by simp [origin, reset, hs]
  rw [C75_single S he o1, C75_single S (a := b) rfl o2]
  have : x - (b - a) - a = x - b := by ring
  rw [this]
  rfl

/-- **C75.** A reference time that is given together with the time of a query: durations count from it, and the result refers to it. -/
theorem C75_query_reference (S : Slerp) {e : SLcs} {a r : Int} (he : e.ref = some a) (hr : e.origin = some r) {ts : List Int}
    (hm : ts.Pairwise (· < ·)) (h2 : 2 ≤ ts.length) (q : Int) :
    e.interpTime S ⟨false, ts, none⟩ (some q) =
      .ok ⟨some ts, some q, .static e.orient, .series (ts.map fun x => e.expr (x + q - r))⟩ ∧
    ∀ p, e.interpTime S ⟨true, ts, p⟩ (some q) =
      .ok ⟨some (ts.map (· - q)), some q, .static e.orient, .series (ts.map fun x => e.expr (x - r))⟩ := by
  have hm' : (ts.map (· + q)).Pairwise (· < ·) := by rw [List.pairwise_map]; exact hm.imp fun h => by simpa using h
  have key : ∀ {t u : Time} {p : Option Int}, t.ofTime p = .ok u → u.ofTime none = .ok u → e.interpTime S t p = e.interpTime S u none := by
    intro t u p h1 h2
    simp only [interpTime, h1, h2, bind, Except.bind]
  constructor
  · have h1 : (⟨false, ts, none⟩ : Time).ofTime (some q) = .ok ⟨true, ts.map (· + q), some q⟩ := by
      simp [Time.ofTime, Time.make, monotonic_map hm']
    rw [key h1 (ofTime_abs rfl hm' none),
      C75_absolute S he hr (t := ⟨true, ts.map (· + q), some q⟩) rfl hm' (by simpa using h2) (q := q) (by simp [Time.referenceTime])]
    simp [List.map_map, Function.comp_def]
  · intro p
    rw [key (ofTime_abs (t := ⟨true, ts, p⟩) rfl hm (some q)) (ofTime_abs rfl hm none),
      C75_absolute S he hr (t := ⟨true, ts, (some q).or p⟩) rfl hm h2 (q := q) (by simp [Time.referenceTime])]

/-- **C75.** In both cases the state says when the motion is unchanged: the origin of the expression stays. -/
theorem C75_reset_iff (S : Slerp) {e : SLcs} {a b : Int} (he : e.ref = some a) :
    (∀ x q, (e.reset (some b)).1.interpTime S ⟨true, [x], q⟩ none = e.interpTime S ⟨true, [x], q⟩ none) ↔
      e.seriesRef.isSome = true ∨ ∀ x, e.expr (x + (a - b)) = e.expr x := by
  cases hs : e.seriesRef with
  | some r =>
    simp only [Option.isSome_some, true_or, iff_true]
    intro x q
    exact (C75_reset_keeps S he hs rfl (by simp) (by simp)).1
  | none =>
    have o1 : e.origin = some a := by simp [origin, hs, he]
    have o2 : (e.reset (some b)).1.origin = some b := by simp [origin, reset, hs]
    simp only [C75_single S he o1, C75_single S (a := b) (e := (e.reset (some b)).1) rfl o2]
    simp only [reset, Except.ok.injEq, TLcs.mk.injEq, Comp.static.injEq, true_and, Option.isSome_none, Bool.false_eq_true, false_or]
    constructor
    · intro h x
      have := h (x + a) none
      rw [show x + a - b = x + (a - b) by ring, show x + a - a = x by ring] at this
      exact this
    · intro h x _
      rw [← h (x - a)]
      congr 1
      ring

/-- **C75, refutation.** The reference time of the series is not that of the system: without a reference time among the arguments the
system has none and refuses every absolute time. -/
theorem C75_lost (S : Slerp) (R : Mat3 ℝ) (f : Int → Vec3 ℝ) (r : Option Int) : ∃ e, SLcs.construct R f r none none = .ok e ∧
    e.ref = none ∧ e.seriesRef = r ∧ ∀ t : Time, t.abs = true → t.vals.Pairwise (· < ·) →
      e.interpTime S t none = .error .typeError := by
  refine ⟨⟨R, f, r, none⟩, rfl, rfl, rfl, ?_⟩
  intro t ha hm
  have h1 := ofTime_abs ha hm none
  simp [interpTime, h1, bind, Except.bind]

/-- **C75.** With a reference time among the arguments the system has this reference time. -/
theorem C75_construct (R : Mat3 ℝ) (f : Int → Vec3 ℝ) (r : Option Int) (a : Int) :
    SLcs.construct R f r none (some a) = .ok ⟨R, f, r, some a⟩ := by
  simp [SLcs.construct, buildTime, Time.make, Time.monotonic, classRef, Time.referenceTime, bind, Except.bind]

/-- **C75, refutation.** Removing the reference time raises an exception and removes it all the same: the system then refuses the
absolute times it has answered before. -/
theorem C75_reset_none (S : Slerp) {e : SLcs} : (e.reset none).2 = some .typeError ∧ (e.reset none).1.ref = none ∧
    ∀ t : Time, t.abs = true → t.vals.Pairwise (· < ·) → (e.reset none).1.interpTime S t none = .error .typeError := by
  refine ⟨rfl, rfl, ?_⟩
  intro t ha hm
  have h1 := ofTime_abs ha hm none
  simp [interpTime, reset, h1, bind, Except.bind]

/-- **C75.** The last reference time counts, setting it twice is setting it once. -/
theorem C75_reset_last (e : SLcs) (r s : Option Int) : ((e.reset r).1.reset s).1 = (e.reset s).1 := rfl

namespace Demo

/-- a motion along the x-axis -/
def motion (series ref : Option Int) : SLcs := ⟨1, fun t => ![(t : ℝ), 0, 0], series, ref⟩

/-- C75: with a reference time of the series -/
example (S : Slerp) : (motion (some 50) (some 100)).interpTime S ⟨true, [100, 110], none⟩ none =
    .ok ⟨some [0, 10], some 100, .static 1, .series [![50, 0, 0], ![60, 0, 0]]⟩ := by
  rw [C75_absolute S (a := 100) (r := 50) (q := 100) rfl rfl rfl (by simp) (by simp) rfl]
  simp [motion]
  norm_num

/-- C75: a reset moves the motion without a reference time of the series -/
theorem C75_counterexample (S : Slerp) : (motion none (some 100)).interpTime S ⟨true, [110], none⟩ none =
      .ok ⟨none, none, .static 1, .static ![10, 0, 0]⟩ ∧
    ((motion none (some 100)).reset (some 105)).1.interpTime S ⟨true, [110], none⟩ none =
      .ok ⟨none, none, .static 1, .static ![5, 0, 0]⟩ := by
  constructor
  · rw [C75_single S (a := 100) (r := 100) rfl rfl]
    simp [motion]
  · rw [C75_single S (a := 105) (r := 105) rfl rfl]
    simp [motion, reset]

/-- C75: a system without reference time -/
example (S : Slerp) : (motion (some 50) none).interpTime S ⟨false, [1, 2], none⟩ none =
    .ok ⟨some [1, 2], some 50, .static 1, .series [![1, 0, 0], ![2, 0, 0]]⟩ := by
  rw [C75_relative S rfl (by simp) (by simp)]
  simp [motion]

/-- C75: the reset is harmless if the series has a reference time -/
example (S : Slerp) : ((motion (some 50) (some 100)).reset (some 7)).1.interpTime S ⟨true, [60], none⟩ none =
    .ok ⟨none, none, .static 1, .static ![10, 0, 0]⟩ := by
  rw [(C75_reset_keeps S (a := 100) (r := 50) rfl rfl rfl (by simp) (by simp)).1, C75_single S (a := 100) (r := 50) rfl rfl]
  simp [motion]

end Demo

end SLcs

end Weldx
