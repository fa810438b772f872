import Verif.TimeSeries.Model
import Verif.TimeLcs.QueryProps

/-!
# Values of time series
-/

namespace Weldx

open Ip

variable {V : Type}

/-! ### specification -/

/-- series that the constructor creates -/
structure Discrete.WF (d : Discrete V) : Prop where
  ne : d.times ≠ []
  asc : d.times.Pairwise (· < ·)
  len : d.vals.length = d.times.length
  single : d.times.length = 1 → d.method = .step

/-- the value of a discrete series at a point in time -/
def Discrete.At [AddCommGroup V] [Module ℝ V] (d : Discrete V) (t : Int) (v : V) : Prop := match d.method with
  | .linear => Value linMix (d.clock.zip d.vals) t v
  | .step => StepValue (d.clock.zip d.vals) t v

namespace TimeSeries

/-! ### lemmas -/

theorem clock_len (d : Discrete V) : d.clock.length = d.times.length := by simp [Discrete.clock]

theorem clock_asc {d : Discrete V} (h : d.WF) : d.clock.Pairwise (· < ·) := by
  unfold Discrete.clock
  rw [List.pairwise_map]
  exact h.asc.imp fun h => by simpa using h

theorem data_asc {d : Discrete V} (h : d.WF) : Ascending (d.clock.zip d.vals) := zip_asc (clock_asc h) _

theorem data_ne {d : Discrete V} (h : d.WF) : d.clock.zip d.vals ≠ [] := by
  rw [Ne, ← List.length_eq_zero_iff, List.length_zip, clock_len, h.len, min_self, List.length_eq_zero_iff]
  exact h.ne

theorem data_get {d : Discrete V} (h : d.WF) {i : ℕ} {t : Int} {v : V} :
    (d.clock.zip d.vals)[i]? = some (t, v) ↔ d.clock[i]? = some t ∧ d.vals[i]? = some v := by
  rw [List.getElem?_zip_eq_some]

theorem stepValue_unique {s : Series V} (h : Ascending s) {t : Int} {v w : V} (hv : StepValue s t v) (hw : StepValue s t w) :
    v = w := by
  have key : ∀ {p q : Int × V}, p ∈ s → q ∈ s → p.1 = q.1 → p.2 = q.2 := by
    intro p q hp hq e
    obtain ⟨i, hi⟩ := List.getElem?_of_mem hp
    obtain ⟨j, hj⟩ := List.getElem?_of_mem hq
    have hij : i = j := by
      rcases lt_trichotomy i j with h' | h' | h'
      · have := asc_index h hi hj h'; omega
      · exact h'
      · have := asc_index h hj hi h'; omega
    subst hij
    rw [hi] at hj; cases hj; rfl
  cases hv with
  | @before p hp ht =>
    cases hw with
    | @before q hq _ => rw [hp] at hq; cases hq; rfl
    | @«at» q hq ht' _ =>
      have := asc_first h hp hq
      exact key (List.mem_of_mem_head? hp) hq (by omega)
  | @«at» p hp ht hm =>
    cases hw with
    | @before q hq ht' =>
      have := asc_first h hq hp
      exact key hp (List.mem_of_mem_head? hq) (by omega)
    | @«at» q hq ht' hm' =>
      have h1 := hm q hq ht'
      have h2 := hm' p hp ht
      exact key hp hq (by omega)

section
variable [AddCommGroup V] [Module ℝ V]

theorem at_unique {d : Discrete V} (h : d.WF) {t : Int} {v w : V} (hv : d.At t v) (hw : d.At t w) : v = w := by
  unfold Discrete.At at hv hw
  cases hm : d.method with
  | linear => rw [hm] at hv hw; exact value_unique (data_asc h) (linMix_ends _) hv hw
  | step => rw [hm] at hv hw; exact stepValue_unique (data_asc h) hv hw

theorem interpLike_spec {d : Discrete V} (h : d.WF) {ts : List Int} (hts : ts.Pairwise (· < ·)) :
    ∃ l, interpLike d.method (d.clock.zip d.vals) ts = some l ∧ List.Forall₂ d.At ts l := by
  unfold Discrete.At
  cases hm : d.method with
  | linear => exact interp_linear (data_asc h) (data_ne h) hts
  | step => exact interp_step (data_asc h) (data_ne h) hts

/-- a single value is constant -/
theorem at_single {d : Discrete V} (h : d.WF) (h1 : d.times.length = 1) {v : V} (hv : d.vals[0]? = some v) (t : Int) : d.At t v := by
  obtain ⟨x, hx⟩ := List.length_eq_one_iff.1 h1
  obtain ⟨w, hw⟩ := List.length_eq_one_iff.1 (h.len.trans h1)
  rw [hw] at hv
  simp only [List.getElem?_cons_zero, Option.some.injEq] at hv
  subst hv
  have e : d.clock.zip d.vals = [(x + d.ref.getD 0, w)] := by rw [Discrete.clock, hx, hw]; rfl
  unfold Discrete.At
  rw [h.single h1, e]
  rcases le_total t (x + d.ref.getD 0) with h' | h'
  · exact .before (p := (x + d.ref.getD 0, w)) rfl h'
  · exact .at (p := (x + d.ref.getD 0, w)) (by simp) h' (by simp)

/-- the requested values -/
theorem interpDiscrete_spec {d : Discrete V} (h : d.WF) {t : Time} (hta : t.vals.Pairwise (· < ·)) (hne : t.vals ≠ [])
    (hrel : t.abs = false → d.ref = none) (hk : 2 ≤ d.times.length → d.ref.isSome = t.abs) :
    ∃ l, interpDiscrete d t = .ok l ∧ List.Forall₂ d.At t.vals l := by
  have hpos : d.times.length ≠ 0 := by rw [Ne, List.length_eq_zero_iff]; exact h.ne
  obtain ⟨rt, _, hrt, _, _, hra⟩ := deltas hne
  by_cases hs : (d.times.length ≤ 1 && t.abs) = true
  · rw [Bool.and_eq_true, decide_eq_true_eq] at hs
    have h1 : d.times.length = 1 := by omega
    obtain ⟨v, hv⟩ : ∃ v, d.vals[0]? = some v := ⟨_, List.getElem?_eq_getElem (by rw [h.len]; omega)⟩
    rw [hs.2] at hra
    obtain ⟨r, rfl⟩ := Option.isSome_iff_exists.1 hra
    obtain ⟨w', r', v', m'⟩ : (setReference d r).WF ∧ (setReference d r).ref = some r ∧ (setReference d r).vals = d.vals ∧
          (setReference d r).times.length = 1 := by
      unfold setReference
      cases hr : d.ref with
      | none => exact ⟨⟨h.ne, h.asc, h.len, h.single⟩, rfl, rfl, h1⟩
      | some a =>
        refine ⟨⟨by simpa using h.ne, ?_, by simpa using h.len, fun _ => h.single h1⟩, rfl, rfl, by simpa using h1⟩
        rw [List.pairwise_map]
        exact h.asc.imp fun h => by simpa using h
    generalize hd' : setReference d r = d' at w' r' v' m'
    obtain ⟨l, hl, hat⟩ := interpLike_spec w' hta
    have hv' : d'.vals[0]? = some v := by rw [v']; exact hv
    refine ⟨l, ?_, hat.imp fun x y hxy => ?_⟩
    · have hcond : (decide (d.times.length ≤ 1) && t.abs) = true := by simp [h1, hs.2]
      have had : adopt d t = .ok d' := by
        unfold adopt
        rw [if_pos hcond]
        simp only [hrt, bind, Except.bind, hd']
      simp only [interpDiscrete, had, bind, Except.bind, r', hs.2, hl, Option.isSome_some, ne_eq, not_true_eq_false, if_false]
    · rw [at_unique w' hxy (at_single w' m' hv' x)]
      exact at_single h h1 hv x
  · have hk' : d.ref.isSome = t.abs := by
      by_cases h2 : 2 ≤ d.times.length
      · exact hk h2
      · have hab : t.abs = false := by
          cases hab : t.abs with
          | false => rfl
          | true =>
            rw [Bool.and_eq_true, decide_eq_true_eq] at hs
            exact absurd ⟨by omega, hab⟩ hs
        rw [hrel hab, hab]; rfl
    obtain ⟨l, hl, hat⟩ := interpLike_spec h hta
    refine ⟨l, ?_, hat⟩
    simp only [interpDiscrete, adopt, hs, if_false, bind, Except.bind, hl, hk', ne_eq, not_true_eq_false, Bool.false_eq_true]

end

/-- the constructor -/
theorem create_spec {vals : List V} {time t : Time} {m : Method} {reference : Option Int} (ht : time.ofTime reference = .ok t)
    (hta : t.vals.Pairwise (· < ·)) (hne : t.vals ≠ []) :
    (vals.length = t.vals.length → ∃ d, create vals (some time) m reference = .ok d ∧ d.WF ∧ d.clock = t.vals ∧ d.vals = vals ∧
      t.referenceTime = .ok d.ref ∧ (2 ≤ d.times.length → d.method = m)) ∧
    (vals.length ≠ t.vals.length → create vals (some time) m reference = .error .valueError) := by
  obtain ⟨rt, ds, d1, d2, d3, d4⟩ := deltas hne
  have hlen : ds.length = t.vals.length := by rw [← d3, List.length_map]
  have hda : ds.Pairwise (· < ·) := by
    have := hta
    rw [← d3, List.pairwise_map] at this
    exact this.imp fun h => by simpa using h
  constructor
  · intro hl
    refine ⟨setMethod ⟨ds, rt, vals, .step⟩ m, ?_, ⟨?_, hda, hl.trans hlen.symm, ?_⟩, d3, rfl, d1, ?_⟩
    · simp only [create, Option.getD_some, ht, bind, Except.bind, d1, d2, hlen, hl, if_true]
    · show ds ≠ []
      rw [Ne, ← List.length_eq_zero_iff, hlen, List.length_eq_zero_iff]; exact hne
    · intro h1
      have : ds.length = 1 := h1
      simp [setMethod, this]
    · intro h2
      have : 1 < ds.length := h2
      simp [setMethod, this]
  · intro hl
    simp only [create, Option.getD_some, ht, bind, Except.bind, d1, d2]
    rw [if_neg (by omega)]

/-! ### C37 -/

section
variable [AddCommGroup V] [Module ℝ V]

/-- **C37.** Interpolating a discrete series at increasing times gives a series with these times whose values are the values of the
series at these points in time; times without reference count from the reference time of the series. -/
theorem C37_interp {d : Discrete V} (h : d.WF) {time t : Time} (ht : time.ofTime d.ref = .ok t) (hr : time.abs = false → time.ref = none)
    (hta : t.vals.Pairwise (· < ·)) (hne : t.vals ≠ []) (hk : 2 ≤ d.times.length → d.ref.isSome = t.abs) :
    ∃ r, (discrete d).interp time = .ok r ∧ r.WF ∧ r.clock = time.vals ∧ List.Forall₂ d.At t.vals r.vals ∧
      time.referenceTime = .ok r.ref ∧ (2 ≤ r.times.length → r.method = d.method) := by
  obtain ⟨o1, o2, o3⟩ := TLcs.ofTime_ok ht
  -- the times as given
  have hlen : time.vals.length = t.vals.length := by
    rw [o1]; split_ifs
    · rfl
    · split <;> simp
  have hasc : time.vals.Pairwise (· < ·) := by
    rw [o1] at hta
    split_ifs at hta with hab
    · exact hta
    · split at hta
      · rw [List.pairwise_map] at hta
        exact hta.imp fun h => by simpa using h
      · exact hta
  have hne' : time.vals ≠ [] := by
    rw [Ne, ← List.length_eq_zero_iff, hlen, List.length_eq_zero_iff]; exact hne
  have hself : time.ofTime none = .ok time := by
    rw [TEdge.ofTime_again none hasc (by simpa using hr)]; rfl
  have hrel : t.abs = false → d.ref = none := by
    intro hab
    rw [o2] at hab
    have := (Bool.or_eq_false_iff.1 hab).2
    cases hd : d.ref with
    | none => rfl
    | some r => rw [hd] at this; simp at this
  obtain ⟨l, hl, hat⟩ := interpDiscrete_spec h hta hne hrel hk
  obtain ⟨c1, _⟩ := create_spec (vals := l) (m := d.method) (reference := none) hself hasc hne'
  obtain ⟨r, hr, rw', rc, rv, rr, rm⟩ := c1 (by rw [← hat.length_eq, hlen])
  refine ⟨r, ?_, rw', rc, by rw [rv]; exact hat, rr, rm⟩
  simp only [interp, hself, bind, Except.bind, ht, hl, hr]

/-- **C37.** At its own times a series has its values, before the first and after the last time the first and the last value. -/
theorem C37_exact {d : Discrete V} (h : d.WF) {i : ℕ} {t : Int} {v : V} (ht : d.clock[i]? = some t) (hv : d.vals[i]? = some v)
    {w : V} : (d.At t w ↔ w = v) ∧ (i = 0 → ∀ x ≤ t, d.At x w ↔ w = v) ∧ (i + 1 = d.times.length → ∀ x ≥ t, d.At x w ↔ w = v) := by
  have hget : (d.clock.zip d.vals)[i]? = some (t, v) := (data_get h).2 ⟨ht, hv⟩
  have hmem := List.mem_of_getElem? hget
  have iff : ∀ x, d.At x v → (d.At x w ↔ w = v) := fun x hx => ⟨fun hw => at_unique h hw hx, fun e => e ▸ hx⟩
  have hlen : (d.clock.zip d.vals).length = d.times.length := by rw [List.length_zip, clock_len, h.len, min_self]
  have hfirst : i = 0 → ∀ x ≤ t, d.At x v := by
    rintro rfl x hx
    unfold Discrete.At
    have hh : (d.clock.zip d.vals).head? = some (t, v) := by rw [List.head?_eq_getElem?]; exact hget
    split
    · exact .before hh hx
    · exact .before hh hx
  have hlast : i + 1 = d.times.length → ∀ x ≥ t, d.At x v := by
    intro hi x hx
    unfold Discrete.At
    have hh : (d.clock.zip d.vals).getLast? = some (t, v) := by
      rw [List.getLast?_eq_getElem?, hlen, ← hi]; exact hget
    split
    · exact .after hh hx
    · exact .at hmem hx fun q hq _ => asc_last (data_asc h) hh hq
  have hat : d.At t v := by
    unfold Discrete.At
    split
    · obtain ⟨u, hu⟩ := value_exists linMix (data_asc h) (data_ne h) t
      rw [← value_sample (data_asc h) (linMix_ends _) hmem hu]; exact hu
    · exact .at hmem le_rfl fun q _ hq => hq
  exact ⟨iff t hat, fun hi x hx => iff x (hfirst hi x hx), fun hi x hx => iff x (hlast hi x hx)⟩

/-- **C37.** With steps the value is the one at the last time that is not after the requested one. -/
theorem C37_step {d : Discrete V} (h : d.WF) (hm : d.method = .step) {i : ℕ} {a b x : Int} {v w : V} (ha : d.clock[i]? = some a)
    (hb : d.clock[i + 1]? = some b) (hv : d.vals[i]? = some v) (h1 : a ≤ x) (h2 : x < b) : d.At x w ↔ w = v := by
  have hmem := List.mem_of_getElem? ((data_get h).2 ⟨ha, hv⟩)
  have hat : d.At x v := by
    unfold Discrete.At
    rw [hm]
    refine .at hmem h1 fun q hq hqx => ?_
    obtain ⟨j, hj⟩ := List.getElem?_of_mem hq
    obtain ⟨hj1, _⟩ := (data_get h (t := q.1) (v := q.2)).1 hj
    by_contra hlt
    have hij : i < j := (asc_get (clock_asc h) ha hj1).1.2 (by omega)
    have := (asc_get (clock_asc h) hb hj1)
    have : b ≤ q.1 := by
      rcases Nat.lt_or_ge (i + 1) j with h' | h'
      · exact ((this.1).1 h').le
      · have : i + 1 = j := by omega
        subst this
        rw [hb] at hj1; cases hj1; exact le_rfl
    omega
  exact ⟨fun hw => at_unique h hw hat, fun e => e ▸ hat⟩

/-- **C37.** A linear series has between two times the value on the straight line between the values there. -/
theorem C37_linear {d : Discrete V} (h : d.WF) (hm : d.method = .linear) {i : ℕ} {a b x : Int} {v v' w : V}
    (ha : d.clock[i]? = some a) (hb : d.clock[i + 1]? = some b) (hv : d.vals[i]? = some v) (hv' : d.vals[i + 1]? = some v')
    (h1 : a ≤ x) (h2 : x ≤ b) : d.At x w ↔ ∃ c : ℝ, 0 ≤ c ∧ c ≤ 1 ∧ c * (b - a) = x - a ∧ w = (1 - c) • v + c • v' := by
  have hab : a < b := (asc_get (clock_asc h) ha hb).1.1 (by omega)
  have hab' : (0 : ℝ) < b - a := by
    have : (a : ℝ) < b := by exact_mod_cast hab
    linarith
  have h1' : (a : ℝ) ≤ x := by exact_mod_cast h1
  have h2' : (x : ℝ) ≤ b := by exact_mod_cast h2
  have hat : d.At x (linMix v v' (((x : ℝ) - a) / (b - a))) := by
    unfold Discrete.At
    rw [hm]
    exact .between (p := (a, v)) (q := (b, v')) ((data_get h).2 ⟨ha, hv⟩) ((data_get h).2 ⟨hb, hv'⟩) h1 h2
  constructor
  · intro hw
    refine ⟨((x : ℝ) - a) / (b - a), div_nonneg (by linarith) hab'.le, (div_le_one hab').2 (by linarith), ?_,
      at_unique h hw hat⟩
    field_simp
  · rintro ⟨c, _, _, hc, rfl⟩
    have : c = ((x : ℝ) - a) / (b - a) := by rw [eq_div_iff hab'.ne']; exact hc
    rw [this]; exact hat

/-- **C37.** A single value is constant, whatever the kind of times. -/
theorem C37_constant {d : Discrete V} (h : d.WF) {v : V} (hv : d.vals = [v]) {time t : Time} (ht : time.ofTime d.ref = .ok t)
    (hr : time.abs = false → time.ref = none) (hta : t.vals.Pairwise (· < ·)) (hne : t.vals ≠ []) :
    ∃ r, (discrete d).interp time = .ok r ∧ r.clock = time.vals ∧ ∀ w ∈ r.vals, w = v := by
  have h1 : d.times.length = 1 := by rw [← h.len, hv]; rfl
  obtain ⟨r, hr, _, hc, hf, _⟩ := C37_interp h ht hr hta hne (by omega)
  refine ⟨r, hr, hc, fun w hw => ?_⟩
  obtain ⟨i, hi⟩ := List.getElem?_of_mem hw
  obtain ⟨x, _, hx⟩ := TLcs.forall₂_get' hf hi
  exact at_unique h hx (at_single h h1 (by rw [hv]; rfl) x)

/-- Finding: if a series with reference time is interpolated at time deltas, the result has no reference time, so that further
interpolations at points in time are refused. -/
theorem C37_reference_lost {d : Discrete V} (h : d.WF) {b : Int} (hb : d.ref = some b) {ts : List Int} (hts : ts.Pairwise (· < ·))
    (h2 : 2 ≤ ts.length) {t : Int} : ∃ r, (discrete d).interp ⟨false, ts, none⟩ = .ok r ∧ r.ref = none ∧
      (discrete r).interp ⟨true, [t], none⟩ = .error .typeError := by
  have hts' : (ts.map (· + b)).Pairwise (· < ·) := by
    rw [List.pairwise_map]
    exact hts.imp fun h => by simpa using h
  have hne : ts ≠ [] := by rw [Ne, ← List.length_eq_zero_iff]; omega
  obtain ⟨r, hr, rw', rc, rf, rr, rm⟩ := C37_interp h (time := ⟨false, ts, none⟩) (t := ⟨true, ts.map (· + b), some b⟩)
    (by simp [Time.ofTime, Time.make, hb, monotonic_of_strict hts']) (by simp) hts' (by simpa using hne) (by simp [hb])
  simp only [Time.referenceTime, Bool.false_eq_true, if_false, Except.ok.injEq] at rr
  have hlen : 2 ≤ r.times.length := by rw [← clock_len, rc]; exact h2
  refine ⟨r, hr, rr.symm, ?_⟩
  have hof : Time.ofTime ⟨true, [t], none⟩ none = .ok ⟨true, [t], none⟩ := by simp [Time.ofTime, Time.make, Time.monotonic]
  have hlen' : ¬ r.times.length ≤ 1 := by omega
  simp only [interp, hof, bind, Except.bind, ← rr, interpDiscrete, adopt, hlen', decide_false, Bool.false_and, Bool.false_eq_true, if_false,
    Option.isSome_none, ne_eq, not_false_eq_true, if_true]

end

/-- **C37** for expressions: the value at each point in time is the one of the expression at the time since the reference time -/
theorem C37_expression [AddCommGroup V] [Module ℝ V] (f : Int → V) {ref : Option Int} {time t : Time} (ht : time.ofTime ref = .ok t)
    (hr : time.abs = false → time.ref = none) (hta : t.vals.Pairwise (· < ·)) (hne : t.vals ≠ []) {b : Option Int}
    (hb : t.referenceTime = .ok b) :
    ∃ r, (expression f ref).interp time = .ok r ∧ r.WF ∧ r.clock = t.vals ∧ r.vals = t.vals.map fun x => f (x - b.getD 0) := by
  obtain ⟨o1, o2, o3⟩ := TLcs.ofTime_ok ht
  have hasc : time.vals.Pairwise (· < ·) := by
    rw [o1] at hta
    split_ifs at hta with hab
    · exact hta
    · split at hta
      · rw [List.pairwise_map] at hta
        exact hta.imp fun h => by simpa using h
      · exact hta
  have hself : time.ofTime none = .ok time := by
    rw [TEdge.ofTime_again none hasc (by simpa using hr)]; rfl
  obtain ⟨rt, ds, d1, d2, d3, d4⟩ := deltas hne
  rw [hb] at d1
  cases d1
  have hda : ds.Pairwise (· < ·) := by
    have := hta
    rw [← d3, List.pairwise_map] at this
    exact this.imp fun h => by simpa using h
  refine ⟨setMethod ⟨ds, b, ds.map f, .step⟩ .step, ?_, ⟨?_, hda, by simp [setMethod], by simp [setMethod]⟩, d3, ?_⟩
  · simp only [interp, hself, bind, Except.bind, ht, d2, hb]
  · rintro (h : ds = [])
    rw [h] at d3
    exact hne d3.symm
  · rw [← d3, List.map_map]
    show ds.map f = _
    apply List.map_congr_left
    intro x _
    simp

/-- Finding: an expression without reference time at given points in time: its time counts from the first requested one, so that
the value at the same point in time depends on the other requested times. -/
theorem C37_expression_origin [AddCommGroup V] [Module ℝ V] (f : Int → V) {a b : Int} (hab : a < b) :
    ∃ r r', (expression f none).interp ⟨true, [a, b], none⟩ = .ok r ∧ (expression f none).interp ⟨true, [b], none⟩ = .ok r' ∧
      r.clock = [a, b] ∧ r'.clock = [b] ∧ r.vals[1]? = some (f (b - a)) ∧ r'.vals[0]? = some (f 0) := by
  obtain ⟨r, h1, _, h3, h4⟩ := C37_expression f (ref := none) (time := ⟨true, [a, b], none⟩) (t := ⟨true, [a, b], none⟩) (b := some a)
    (by simp [Time.ofTime, Time.make, Time.monotonic, hab.le]) (by simp) (by simpa using hab) (by simp) (by simp [Time.referenceTime])
  obtain ⟨r', h1', _, h3', h4'⟩ := C37_expression f (ref := none) (time := ⟨true, [b], none⟩) (t := ⟨true, [b], none⟩) (b := some b)
    (by simp [Time.ofTime, Time.make, Time.monotonic]) (by simp) (by simp) (by simp) (by simp [Time.referenceTime])
  exact ⟨r, r', h1, h1', h3, h3', by rw [h4]; rfl, by rw [h4']; simp⟩

/-! ### instances -/

/-- current with two values -/
def current (m : Method) : Discrete ℝ := ⟨[0, 10], some 100, [200, 300], m⟩

theorem current_wf (m : Method) : (current m).WF := ⟨by simp [current], by simp [current], by simp [current], by simp [current]⟩

example : ∃ r, (discrete (current .linear)).interp ⟨false, [2, 5], none⟩ = .ok r ∧ r.clock = [2, 5] := by
  obtain ⟨r, h1, _, h3, _⟩ := C37_interp (current_wf .linear) (time := ⟨false, [2, 5], none⟩) (t := ⟨true, [102, 105], some 100⟩)
    (by simp [Time.ofTime, Time.make, Time.monotonic, current]) (by simp) (by simp) (by simp) (by simp [current])
  exact ⟨r, h1, h3⟩

example : (current .step).At 110 300 := (C37_exact (current_wf .step) (i := 1) (v := 300) (by simp [current, Discrete.clock]) rfl).1.2 rfl

example : (current .step).At 109 200 := (C37_step (current_wf .step) rfl (i := 0) (a := 100) (b := 110) (by simp [current, Discrete.clock])
  (by simp [current, Discrete.clock]) rfl (by norm_num) (by norm_num)).2 rfl

example : (current .linear).At 105 250 := (C37_linear (current_wf .linear) rfl (i := 0) (a := 100) (b := 110) (v := 200) (v' := 300)
  (by simp [current, Discrete.clock]) (by simp [current, Discrete.clock]) rfl rfl (by norm_num) (by norm_num)).2
  ⟨1 / 2, by norm_num, by norm_num, by norm_num, by norm_num⟩

end TimeSeries
end Weldx
