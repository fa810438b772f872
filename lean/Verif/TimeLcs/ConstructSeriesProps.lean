import Verif.TimeLcs.ConstructSeries

/-!
# C71: coordinates that are a discrete time series
-/

namespace Weldx

open Ip Matrix Csm TLcs TimeSeries

/-- the array of a time series -/
def seriesArr (d : Discrete (Vec3 ℝ)) : XArr (Vec3 ℝ) := ⟨some d.times, d.ref, .series d.vals⟩

theorem seriesArr_wf {d : Discrete (Vec3 ℝ)} (h : d.WF) (h2 : 2 ≤ d.times.length) : (seriesArr d).WF fun _ => True :=
  ⟨fun _ => ⟨d.times, rfl, h2, h.asc, h.len⟩, (fun h => by cases h), (fun h => by cases h), fun _ _ => trivial⟩

/-- **C71.** A time series gives its values, points in time and reference time to the system. -/
theorem C71_series_arg {d : Discrete (Vec3 ℝ)} (h : d.WF) (h2 : 2 ≤ d.times.length) (t : Option Time) :
    (seriesArg d).build 0 t = .ok (seriesArr d) ∧ (seriesArr d).clock = d.clock := by
  refine ⟨?_, rfl⟩
  have hl := h.len
  unfold seriesArg
  split
  · rename_i v hv
    rw [hv] at hl
    simp at hl
    omega
  · simp [XArg.build, RawTime.restore, bind, Except.bind, seriesArr]

/-- **C71.** A constant gives its value. -/
theorem C71_series_constant {d : Discrete (Vec3 ℝ)} {v : Vec3 ℝ} (hv : d.vals = [v]) (t : Option Time) :
    (seriesArg d).build 0 t = .ok ⟨none, none, .static v⟩ := by
  simp [seriesArg, hv, XArg.build]

/-- **C71.** A system with a time series of several values as coordinates has the values of the series at all times of the series; with
linear interpolation and constant orientations it has the values of the series at all times. Its reference time is the one of the
arguments or that of the arrays. -/
theorem C71_series {S : Slerp} (hS : SlerpOk S) {a : XArg (Mat3 ℝ)} {d : Discrete (Vec3 ℝ)} (h : d.WF) (h2 : 2 ≤ d.times.length)
    {time : Option Time} {tref : Option Int} {t : Option Time} {q : Option Int} {o : XArr (Mat3 ℝ)}
    (ht : buildTimeSeries d time tref = .ok t) (hq : classRef t = .ok q) (ho : a.build 1 t = .ok o) (hw : o.WF Rotation)
    (hr : o.comp.isSeries = true → o.ref = d.ref) :
    ∃ s, TLcs.constructSeries S a d time tref = .ok s ∧ s.WF ∧ s.dependent = true ∧ s.ref = q.or d.ref ∧
      (∀ x, x ∈ s.clock ↔ x - (if d.ref = none then q.getD 0 else 0) ∈ o.clock ∨ x - (if d.ref = none then q.getD 0 else 0) ∈ d.clock) ∧
      (∀ x ∈ d.clock, ∀ f : Lcs ℝ, s.At S (x + if d.ref = none then q.getD 0 else 0) f → d.At x f.coordinates) ∧
      (d.method = .linear → o.comp.isSeries = false → ∀ x, ∀ f : Lcs ℝ,
        s.At S (x + if d.ref = none then q.getD 0 else 0) f → d.At x f.coordinates) := by
  obtain ⟨hc, hcl⟩ := C71_series_arg h h2 t
  obtain ⟨s, h3, h4, h5, _, h6, h7, h8⟩ := C71_values hS hw (seriesArr_wf h h2) (fun ho _ => hr ho) q
  have hb : baseRef o (seriesArr d) = d.ref := by
    unfold baseRef
    split
    · rename_i ho'; exact hr ho'
    · rfl
  have hmv : move o (seriesArr d) q = if d.ref = none then q.getD 0 else 0 := by
    unfold move
    rw [hb]
    cases d.ref <;> simp
  rw [hmv, hcl] at h7 h8
  have hdep : s.dependent = true := by rw [h5]; simp [seriesArr, Comp.isSeries]
  have hstep : ∀ x ∈ d.clock, ∀ v, CompAt linMix d.clock (.series d.vals) x v → d.At x v := by
    intro x hx v hv
    obtain ⟨i, hi⟩ := List.getElem?_of_mem hx
    have hlt : i < d.vals.length := by
      have := (List.getElem?_eq_some_iff.1 hi).1
      rw [clock_len] at this
      rw [h.len]
      exact this
    have hvi := List.getElem?_eq_getElem hlt
    have hval : v = d.vals[i] := by
      cases hv with
      | series hv => exact (value_at_sample (linMix_ok) (TimeSeries.clock_asc h) (fun _ _ => trivial) hi hvi v).1 hv
    exact ((C37_exact h hi hvi).1).2 hval
  refine ⟨s, ?_, h4, hdep, by rw [h6 hdep, hb], h7, ?_, ?_⟩
  · simp only [TLcs.constructSeries, ht, ho, hc, hq, bind, Except.bind]
    exact h3
  · intro x hx f hf
    have := (h8 (x + if d.ref = none then q.getD 0 else 0) (.inl ((h7 _).2 (.inr (by simpa using hx)))) f).1 hf
    exact hstep x hx _ (by simpa [seriesArr] using this.2)
  · intro hm hst x f hf
    have := (h8 (x + if d.ref = none then q.getD 0 else 0) (.inr (.inl hst)) f).1 hf
    have h9 := this.2
    simp only [add_sub_cancel_right] at h9
    cases h9 with
    | series hv => unfold Discrete.At; rw [hm]; exact hv

/-- **C71, refutation.** The system forgets that a series consists of steps: between two different values it never has the value of the
series. -/
theorem C71_series_step {S : Slerp} (hS : SlerpOk S) {d : Discrete (Vec3 ℝ)} (h : d.WF) (hm : d.method = .step) {R : Mat3 ℝ}
    (hR : Rotation R) {i : ℕ} {a b x : Int} {v w : Vec3 ℝ} (ha : d.clock[i]? = some a) (hb : d.clock[i + 1]? = some b)
    (hv : d.vals[i]? = some v) (hw : d.vals[i + 1]? = some w) (hvw : v ≠ w) (h1 : a < x) (h2 : x < b) :
    ∃ s, TLcs.constructSeries S (.value R) d none none = .ok s ∧ (∃ f : Lcs ℝ, s.At S x f) ∧
      ∀ f : Lcs ℝ, s.At S x f → ¬ d.At x f.coordinates := by
  have hlen : 2 ≤ d.times.length := by
    have := (List.getElem?_eq_some_iff.1 hb).1
    rw [clock_len] at this
    omega
  have hmk : ∃ t q, buildTimeSeries d none none = .ok (some t) ∧ t.referenceTime = .ok q ∧ (q = d.ref) := by
    have hmon : ∀ r : Int, Time.monotonic (d.times.map (· + r)) = true := by
      intro r
      rw [Time.monotonic_iff, List.pairwise_map]
      exact h.asc.imp fun h => by simpa using h.le
    have hmon0 : Time.monotonic d.times = true := by
      rw [Time.monotonic_iff]
      exact h.asc.imp fun h => h.le
    have hgt : d.times.length > 1 := by omega
    cases hr : d.ref with
    | none =>
      exact ⟨⟨false, d.times, none⟩, none, by
        simp [buildTimeSeries, timeOf, hgt, hr, Time.make, hmon0, Except.map, Time.ofTime, bind, Except.bind],
        by simp [Time.referenceTime], rfl⟩
    | some r =>
      exact ⟨⟨true, d.times.map (· + r), some r⟩, some r, by
        simp [buildTimeSeries, timeOf, hgt, hr, Time.make, hmon r, Except.map, Time.ofTime, bind, Except.bind],
        by simp [Time.referenceTime], rfl⟩
  obtain ⟨t, q, ht, hq, rfl⟩ := hmk
  have hRw : XArr.WF Rotation (⟨none, none, .static R⟩ : XArr (Mat3 ℝ)) :=
    ⟨(fun h => by cases h), fun _ => rfl, fun _ => rfl, hR⟩
  obtain ⟨hc, hcl⟩ := C71_series_arg h hlen (some t)
  obtain ⟨s, h3, h4, h5, _, h6, h7, h8⟩ := C71_values hS hRw (seriesArr_wf h hlen) (fun ho _ => by cases ho) d.ref
  have hmv : move (⟨none, none, .static R⟩ : XArr (Mat3 ℝ)) (seriesArr d) d.ref = 0 := by
    unfold move baseRef
    simp only [Comp.isSeries, Bool.false_eq_true, if_false, seriesArr]
    cases d.ref <;> rfl
  have hat := fun f => h8 x (.inr (.inl rfl)) f
  rw [hmv, hcl] at hat
  simp only [sub_zero] at hat
  have hval : Value linMix (d.clock.zip d.vals) x (linMix v w (((x : ℝ) - a) / (b - a))) :=
    .between (i := i) (p := (a, v)) (q := (b, w)) ((data_get h).2 ⟨ha, hv⟩) ((data_get h).2 ⟨hb, hw⟩) h1.le h2.le
  refine ⟨s, ?_, ⟨⟨R, _⟩, (hat ⟨R, linMix v w (((x : ℝ) - a) / (b - a))⟩).2 ⟨.static, .series hval⟩⟩, ?_⟩
  · have hb : (XArg.value R).build 1 (some t) = .ok ⟨none, none, .static R⟩ := rfl
    simp only [TLcs.constructSeries, ht, hc, hb, classRef, hq, bind, Except.bind]
    exact h3
  · intro f hf hd
    have hfv := (hat f).1 hf
    have e1 : f.coordinates = linMix v w (((x : ℝ) - a) / (b - a)) := by
      cases hfv.2 with
      | series hv' => exact value_unique (data_asc h) (linMix_ends _) hv' hval
    rw [(C37_step h hm ha hb hv h1.le h2 (w := f.coordinates)).1 hd] at e1
    apply hvw
    have hba : (0 : ℝ) < (b : ℝ) - a := by
      have : (a : ℝ) < b := by exact_mod_cast h1.trans h2
      linarith
    have hxa : (0 : ℝ) < (x : ℝ) - a := by
      have : (a : ℝ) < x := by exact_mod_cast h1
      linarith
    have hne : (((x : ℝ) - a) / (b - a)) ≠ 0 := (div_pos hxa hba).ne'
    have e2 : (((x : ℝ) - a) / (b - a)) • (w - v) = 0 := by
      have : linMix v w (((x : ℝ) - a) / (b - a)) = v + (((x : ℝ) - a) / (b - a)) • (w - v) := by
        unfold linMix
        rw [sub_smul, one_smul, smul_sub]
        abel
      rw [this] at e1
      have := congrArg (· - v) e1
      simpa using this.symm
    rcases smul_eq_zero.1 e2 with h | h
    · exact absurd h hne
    · exact (sub_eq_zero.1 h).symm

/-- **C71, refutation.** A reference time that is given together with a constant time series is ignored, even if the orientations
depend on time. -/
theorem C71_series_reference {S : Slerp} (a : XArg (Mat3 ℝ)) {d : Discrete (Vec3 ℝ)} (h1 : d.times.length = 1) (tref : Option Int) :
    TLcs.constructSeries S a d none tref = TLcs.constructSeries S a d none none := by
  have : ∀ r, buildTimeSeries d none r = .ok none := by
    intro r
    simp [buildTimeSeries, timeOf, h1, bind, Except.bind]
  simp only [TLcs.constructSeries, this]

/-- **C71.** The time of a system with a time series of several values: a given time has priority over the times of the series, and a
given reference time over the one of the time or series; times without any reference time count from it. -/
theorem C71_series_time {d : Discrete (Vec3 ℝ)} (h : d.WF) (h2 : 2 ≤ d.times.length) (tref : Option Int) :
    (∀ {ts : List Int} {r : Option Int}, ts.Pairwise (· < ·) →
      buildTimeSeries d (some ⟨true, ts, r⟩) tref = .ok (some ⟨true, ts, tref.or r⟩)) ∧
    (∀ {ts : List Int}, ts.Pairwise (· < ·) →
      buildTimeSeries d (some ⟨false, ts, none⟩) tref = .ok (some (match tref with
        | none => ⟨false, ts, none⟩
        | some q => ⟨true, ts.map (· + q), some q⟩))) ∧
    buildTimeSeries d none tref = .ok (some (match d.ref, tref with
      | none, none => ⟨false, d.times, none⟩
      | none, some q => ⟨true, d.times.map (· + q), some q⟩
      | some r, _ => ⟨true, d.times.map (· + r), some (tref.getD r)⟩)) := by
  have mono : ∀ {l : List Int}, l.Pairwise (· < ·) → Time.monotonic l = true := fun h => by
    rw [Time.monotonic_iff]; exact h.imp fun h => h.le
  have monoAdd : ∀ {l : List Int} (q : Int), l.Pairwise (· < ·) → Time.monotonic (l.map (· + q)) = true := fun q h => by
    apply mono; rw [List.pairwise_map]; exact h.imp fun h => by simpa using h
  refine ⟨fun hm => ?_, fun hm => ?_, ?_⟩
  · cases tref <;> rename_i r <;> cases r <;> simp [buildTimeSeries, Time.ofTime, Time.make, mono hm, bind, Except.bind]
  · cases tref <;> simp [buildTimeSeries, Time.ofTime, Time.make, mono hm, monoAdd _ hm, bind, Except.bind]
  · have h1 : 1 < d.times.length := by omega
    cases hr : d.ref <;> cases tref <;>
      simp [buildTimeSeries, timeOf, h1, hr, Time.make, mono h.asc, monoAdd _ h.asc, Except.map, Time.ofTime, bind, Except.bind]

namespace ConstructDemo

/-- steps from the origin to (4, 0, 0) -/
def steps (m : Method) : Discrete (Vec3 ℝ) := ⟨[0, 10], some 100, [![0, 0, 0], ![4, 0, 0]], m⟩

theorem steps_wf (m : Method) : (steps m).WF := ⟨by simp [steps], by simp [steps], rfl, by simp [steps]⟩

/-- C71: the values of the series at its times -/
example : ∃ s, TLcs.constructSeries jump (.value 1) (steps .linear) none none = .ok s ∧ s.ref = some 100 ∧ 110 ∈ s.clock := by
  obtain ⟨s, h1, _, _, h2, h3, _⟩ := C71_series (S := jump) jump_ok (a := .value 1) (steps_wf .linear) (by simp [steps]) (time := none)
    (tref := none) (t := some ⟨true, [100, 110], some 100⟩) (q := some 100) (o := ⟨none, none, .static 1⟩)
    (by simp [buildTimeSeries, timeOf, steps, Time.make, Time.monotonic, Except.map, Time.ofTime, bind, Except.bind])
    (by simp [classRef, Time.referenceTime]) rfl ⟨(fun h => by cases h), fun _ => rfl, fun _ => rfl, Rotation.one⟩ (fun h => by cases h)
  exact ⟨s, h1, h2, (h3 110).2 (.inr (by simp [steps, Discrete.clock]))⟩

/-- C71: steps become slopes -/
theorem C71_series_counterexample : ∃ s, TLcs.constructSeries jump (.value 1) (steps .step) none none = .ok s ∧
    ∀ f : Lcs ℝ, s.At jump 105 f → ¬ (steps .step).At 105 f.coordinates := by
  obtain ⟨s, h1, _, h2⟩ := C71_series_step (S := jump) jump_ok (steps_wf .step) rfl Rotation.one (i := 0) (a := 100) (b := 110) (x := 105)
    (v := ![0, 0, 0]) (w := ![4, 0, 0]) (by simp [steps, Discrete.clock]) (by simp [steps, Discrete.clock]) rfl rfl
    (by intro e; have := congrFun e 0; simp at this) (by norm_num) (by norm_num)
  exact ⟨s, h1, h2⟩

/-- C71: with a constant series the given reference time 90 is ignored, the system counts from 100 -/
example : ∃ s, TLcs.constructSeries jump (.array (some turning) turns) ⟨[0], none, [![1, 2, 3]], .step⟩ none (some 90) = .ok s ∧
    s.ref = some 100 := by
  rw [C71_series_reference _ rfl]
  exact ⟨⟨some [0, 10], some 100, turns, .static ![1, 2, 3]⟩, by
    simp [TLcs.constructSeries, buildTimeSeries, timeOf, XArg.build, RawTime.restore, turning, seriesArg, classRef, TLcs.assemble,
      unifyAxis, mergeArrays, bind, Except.bind], rfl⟩

end ConstructDemo

end Weldx
