import Verif.Csm.InterpTimeProps
import Verif.Csm.Invariant2
import Verif.TimeLcs.Examples

/-!
# Interpolation of a whole manager with time dependent systems (C70)

Source: `/repo/weldx/transformations/cs_manager.py` 1310-1378 (`interp_time`), `/repo/weldx/transformations/local_cs.py` 723-772
(`interp_time`), 867-882 (`reset_reference_time`).
-/

namespace Weldx

open Ip Matrix Csm

/-! ### model -/

/-- `reset_reference_time`, `local_cs.py` 867-882, of a system whose coordinates are an expression: the times of the orientation are
adjusted, the expression is not -/
def ELcs.reset (e : ELcs) (r : Int) : ELcs := ⟨(e.frame.reset r).times, some r, e.orient, e.expr⟩

namespace TEdge

/-- `reset_reference_time` -/
def reset (r : Int) : TEdge → TEdge
  | discrete c => discrete (c.reset r)
  | expression e i => expression (e.reset r) i

theorem reset_reset (r : Int) (e : TEdge) : reset r (reset r e) = reset r e := by
  cases e with
  | discrete c => simp only [reset, TLcs.C21_idempotent]
  | expression e i =>
    obtain ⟨ts, ref, o, f⟩ := e
    cases ts with
    | none => simp [reset, ELcs.reset, ELcs.frame, TLcs.reset]
    | some l =>
      cases ref with
      | none => simp [reset, ELcs.reset, ELcs.frame, TLcs.reset]
      | some old =>
        by_cases h : r = old <;> simp [reset, ELcs.reset, ELcs.frame, TLcs.reset, h]

/-- coordinates are a `TimeSeries` -/
def isSeries : TEdge → Bool
  | discrete _ => false
  | expression _ _ => true

/-- `interp_time` of the stored system, `local_cs.py` 751-752: `none` if the system itself is returned -/
noncomputable def interpAt (S : Slerp) (time : Option Time) (tref : Option Int) (e : TEdge) : Except TimeError (Option TEdge) :=
  match time with
  | none => .ok none
  | some t => if e.dependent then (e.interp S t tref).map fun c => some (discrete c) else .ok none

end TEdge

noncomputable instance : LcsTime TEdge where
  invert := TEdge.reverse
  isSeries := TEdge.isSeries
  isTimeDependent := TEdge.dependent
  refTime := TEdge.ref
  reset := TEdge.reset
  reset_reset := TEdge.reset_reset

/-! ### theorems -/

namespace TEdge

/-- systems that a user supplies -/
def Plain : TEdge → Prop
  | discrete _ => True
  | expression _ i => i = false

theorem dependent_reset (r : Int) (e : TEdge) : (e.reset r).dependent = e.dependent := by
  cases e with
  | discrete c =>
    obtain ⟨ts, ref, o, k⟩ := c
    cases ts with
    | none => rfl
    | some l => cases ref with
      | none => rfl
      | some old => simp only [reset, TLcs.reset]; split_ifs <;> rfl
  | expression e i => rfl

end TEdge

/-- values of a series whose times are moved -/
theorem value_move {V : Type} {mix : V → V → ℝ → V} {s : Series V} {t : Int} {v : V} (r : Int) (h : Value mix s t v) :
    Value mix (s.map fun p => (p.1 + r, p.2)) (t + r) v := by
  cases h with
  | before hp ht => exact Value.before (p := (_ + r, _)) (by rw [List.head?_map, hp]; rfl) (by simpa using ht)
  | after hp ht => exact Value.after (p := (_ + r, _)) (by rw [List.getLast?_map, hp]; rfl) (by simpa using ht)
  | @between i p q hp hq h1 h2 =>
    have := Value.between (mix := mix) (s := s.map fun p => (p.1 + r, p.2)) (t := t + r) (i := i) (p := (p.1 + r, p.2))
      (q := (q.1 + r, q.2)) (by rw [List.getElem?_map, hp]; rfl) (by rw [List.getElem?_map, hq]; rfl) (by simpa using h1)
      (by simpa using h2)
    have e : (((t + r : Int) : ℝ) - ((p.1 + r : Int) : ℝ)) / (((q.1 + r : Int) : ℝ) - ((p.1 + r : Int) : ℝ)) =
        ((t : ℝ) - p.1) / (q.1 - p.1) := by
      push_cast
      rw [add_sub_add_right_eq_sub, add_sub_add_right_eq_sub]
    simp only [e] at this
    exact this

theorem zip_move {V : Type} (r : Int) : ∀ (ts : List Int) (l : List V),
    (ts.map (· + r)).zip l = (ts.zip l).map fun p => (p.1 + r, p.2)
  | [], _ => by simp
  | _ :: _, [] => by simp
  | t :: ts, v :: l => by simp [zip_move r ts l]

theorem compAt_move {V : Type} {mix : V → V → ℝ → V} {ts : List Int} {k : Comp V} {t : Int} {v : V} (r : Int) :
    CompAt mix (ts.map (· + r)) k t v ↔ CompAt mix ts k (t - r) v := by
  have key : ∀ {ts : List Int} {k : Comp V} {t : Int} {v : V} (r : Int), CompAt mix ts k t v →
      CompAt mix (ts.map (· + r)) k (t + r) v := by
    intro ts k t v r h
    cases h with
    | static => exact .static
    | series h =>
      refine .series ?_
      rw [zip_move]
      exact value_move r h
  constructor
  · intro h
    have := key (-r) h
    rw [List.map_map] at this
    have e : ((· + -r) ∘ (· + r) : Int → Int) = id := by
      funext x
      simp
    rw [e, List.map_id, ← sub_eq_add_neg] at this
    exact this
  · intro h
    have := key r h
    rwa [sub_add_cancel] at this

namespace TEdge

theorem resetIn_some {e : TEdge} {a : Int} (h : e.ref = some a) (r : Option Int) : resetIn r e = e := by
  show (match e.ref, r with | none, some r => _ | _, _ => e) = e
  rw [h]

theorem resetIn_none (e : TEdge) : resetIn none e = e := by
  unfold resetIn
  split
  · rename_i h
    cases h
  · rfl

theorem resetIn_reset {e : TEdge} (h : e.ref = none) (r : Int) : resetIn (some r) e = e.reset r := by
  show (match e.ref, some r with | none, some r => e.reset r | _, _ => e) = _
  rw [h]

/-- the reference time of the manager is given to a system without one: its times count from it -/
theorem resetIn_spec {S : Slerp} {e : TEdge} (he : e.WF) (r : Option Int) :
    (resetIn r e).WF ∧ (resetIn r e).dependent = e.dependent ∧ ((resetIn r e).Plain ↔ e.Plain) ∧
    (e.dependent = true → (resetIn r e).ref = e.ref.or r) ∧ (e.dependent = false → resetIn r e = e) ∧
    ∀ t f, (resetIn r e).At S t f ↔ e.AtCsm S r t f := by
  cases hr : e.ref with
  | some a =>
    rw [resetIn_some hr]
    refine ⟨he, rfl, Iff.rfl, fun _ => by rw [hr]; rfl, fun _ => rfl, fun t f => ?_⟩
    simp only [AtCsm, hr]
  | none =>
    cases r with
    | none =>
      rw [resetIn_none]
      refine ⟨he, rfl, Iff.rfl, fun _ => by rw [hr]; rfl, fun _ => rfl, fun t f => ?_⟩
      simp only [AtCsm, hr]
    | some r =>
      rw [resetIn_reset hr]
      have hat : ∀ t f, e.AtCsm S (some r) t f ↔ e.At S (t - r) f := fun t f => by simp only [AtCsm, hr]
      cases e with
      | expression e i =>
        obtain ⟨ts, rf, o, ex⟩ := e
        have hr' : rf = none := hr
        subst hr'
        have e1 : (expression ⟨ts, none, o, ex⟩ i).reset r = expression ⟨ts, some r, o, ex⟩ i := by
          cases ts <;> simp [reset, ELcs.reset, ELcs.frame, TLcs.reset]
        rw [e1]
        refine ⟨⟨fun h => ?_, he.2.1, he.2.2⟩, rfl, Iff.rfl, fun _ => rfl, (fun h => by cases h), fun t f => ?_⟩
        · have := he.1 h
          refine ⟨this.series, this.label, fun h' => ?_, this.rot⟩
          obtain ⟨l, hl, _⟩ := this.series (by simpa [ELcs.frame, TLcs.dependent] using .inl h)
          simp only [ELcs.frame] at hl h'
          rw [h'] at hl
          cases hl
        · rw [hat]
          have hc : (⟨ts, some r, o, ex⟩ : ELcs).frame.clock = ((⟨ts, none, o, ex⟩ : ELcs).frame.clock).map (· + r) := by
            simp [TLcs.clock, ELcs.frame]
          simp only [At, hc, compAt_move, Option.getD_some, Option.getD_none, sub_zero]
      | discrete c =>
        obtain ⟨ts, rf, o, k⟩ := c
        have hr' : rf = none := hr
        subst hr'
        cases ts with
        | none =>
          have e1 : (discrete ⟨none, none, o, k⟩).reset r = discrete ⟨none, none, o, k⟩ := rfl
          rw [e1]
          have hd : (⟨none, none, o, k⟩ : TLcs).dependent = false := by
            by_contra hd
            obtain ⟨l, hl, _⟩ := he.1.series (by simpa using hd)
            cases hl
          refine ⟨he, rfl, Iff.rfl, fun h => ?_, fun _ => rfl, fun t f => ?_⟩
          · have : (⟨none, none, o, k⟩ : TLcs).dependent = true := h
            rw [hd] at this
            cases this
          · rw [hat]
            obtain ⟨g, _, _, g3⟩ := TLcs.At_static (S := S) hd
            show TLcs.At S _ t f ↔ TLcs.At S _ (t - r) f
            rw [g3, g3]
        | some l =>
          have e1 : (discrete ⟨some l, none, o, k⟩).reset r = discrete ⟨some l, some r, o, k⟩ := rfl
          rw [e1]
          have hd : (⟨some l, none, o, k⟩ : TLcs).dependent = true := by
            by_contra hd
            cases he.2 (by simpa using hd)
          refine ⟨⟨⟨he.1.series, he.1.label, by simp, he.1.rot⟩, he.2⟩, rfl, Iff.rfl, fun _ => rfl, fun h => ?_, fun t f => ?_⟩
          · have : (⟨some l, none, o, k⟩ : TLcs).dependent = false := h
            rw [hd] at this
            cases this
          · rw [hat]
            have hc : (⟨some l, some r, o, k⟩ : TLcs).clock = ((⟨some l, none, o, k⟩ : TLcs).clock).map (· + r) := by
              simp [TLcs.clock]
            show TLcs.At S _ t f ↔ TLcs.At S _ (t - r) f
            simp only [TLcs.At, hc, compAt_move]

/-- what `interp_time` gives for one edge of the manager -/
theorem interpAt_spec {S : Slerp} (hS : SlerpOk S) {e : TEdge} (he : e.WF) (hp : e.Plain) (r : Option Int) {t t' : Time}
    {tref : Option Int} (ht : t.ofTime tref = .ok t') (hta : t'.vals.Pairwise (· < ·)) (hne : t'.vals ≠ [])
    (hk : e.dependent = true → (e.ref.or r).isSome = t'.abs) :
    ∃ o, interpAt S (some t) tref (resetIn r e) = .ok o ∧ (o.getD (resetIn r e)).isSeries = false ∧
      ∃ c, o.getD (resetIn r e) = discrete c ∧ c.WF ∧ (c.dependent = true → c.clock = t'.vals ∧ t'.referenceTime = .ok c.ref) ∧
        ∀ x ∈ t'.vals, ∀ f, e.AtCsm S r x f → c.At S x f ∧ (discrete c).AtCsm S r x f := by
  obtain ⟨h1, h2, h3, h4, h5, h6⟩ := resetIn_spec (S := S) he r
  by_cases hd : e.dependent = true
  · rw [h4 hd |>.symm] at hk
    obtain ⟨c, c1, c2, c3⟩ := interp_spec hS h1 (h2.trans hd) ht hta hne (hk hd)
    have hplain : ∀ x f, (resetIn r e).AtRaw S x f ↔ (resetIn r e).At S x f := by
      intro x f
      have hp' := h3.2 hp
      cases hE : resetIn r e with
      | discrete c => exact Iff.rfl
      | expression e' i =>
        rw [hE] at hp'
        have hp'' : i = false := hp'
        subst hp''
        simp [At, AtRaw]
    refine ⟨some (discrete c), by simp only [interpAt, h2, hd, if_true, c1]; rfl, rfl, c, rfl, c2.1, ?_, ?_⟩
    · intro hcd
      rcases c2.2 with ⟨_, h, h'⟩ | ⟨h, _⟩
      · exact ⟨h, h'⟩
      · rw [hcd] at h
        cases h
    · intro x hx f hf
      have hc := c3 x hx f ((hplain x f).2 ((h6 x f).2 hf))
      refine ⟨hc, ?_⟩
      unfold AtCsm
      cases hcr : c.ref with
      | some a => simp only [ref, hcr]; exact hc
      | none =>
        simp only [ref, hcr]
        cases r with
        | none => exact hc
        | some r =>
          -- the result is static
          rcases c2.2 with ⟨_, _, h'⟩ | ⟨h, _⟩
          · rw [hcr] at h'
            have habs : t'.abs = true := by
              rw [← hk hd, h4 hd]
              cases e.ref <;> rfl
            simp only [Time.referenceTime, habs, if_true] at h'
            cases hr : t'.ref with
            | some a => rw [hr] at h'; cases h'
            | none =>
              rw [hr] at h'
              cases hv : t'.vals with
              | nil => exact absurd hv hne
              | cons a l => rw [hv] at h'; cases h'
          · obtain ⟨g, _, _, g3⟩ := TLcs.At_static (S := S) h
            show TLcs.At S _ (x - r) f
            rw [g3] at hc ⊢
            exact hc
  · have hd' : e.dependent = false := by simpa using hd
    rw [h5 hd']
    cases e with
    | expression e i => cases hd'
    | discrete c =>
      refine ⟨none, by simp [interpAt, hd'], rfl, c, rfl, he.1, fun h => absurd h hd, fun x _ f hf => ⟨?_, hf⟩⟩
      obtain ⟨g, _, _, g3⟩ := TLcs.At_static (S := S) hd'
      have : c.At S x f ↔ f = g := g3 x f
      rw [this]
      unfold AtCsm at hf
      split at hf <;> exact (g3 _ f).1 hf

end TEdge

namespace TLcs

/-- interpolation at the own times -/
theorem interpComp_own {V : Type} {good : V → Prop} {mix : V → V → ℝ → V} (hm : MixOk good mix)
    {interp : Series V → List Int → Option (List V)}
    (hi : ∀ {s : Series V}, Ascending s → s ≠ [] → (∀ p ∈ s, good p.2) → ∀ {ts : List Int}, ts.Pairwise (· < ·) →
      ∃ r, interp s ts = some r ∧ List.Forall₂ (Value mix s) ts r)
    {own : List Int} (ho : own.Pairwise (· < ·)) (h2 : 2 ≤ own.length) {k : Comp V} (hk : CompLen own.length k)
    (hg : CompAll good k) : interpComp interp own own k = .ok k := by
  cases k with
  | static v => rfl
  | series l =>
    have hne : own ≠ [] := by
      intro h
      rw [h] at h2
      simp at h2
    obtain ⟨r, h, r1, r2, r3, r4⟩ := interpComp_spec hm hi ho hne ho hne hk hg
    have hout : outside own own = false := by
      obtain ⟨a, b, e1, e2, e3, e4, _⟩ := edges ho hne
      have hab : a < b := by
        rw [List.head?_eq_getElem?] at e1
        rw [List.getLast?_eq_getElem?] at e2
        exact (asc_get ho e1 e2).1.1 (by omega)
      simp [outside, e3, e4, hab]
    have hs := r4.2 ⟨rfl, hout, h2⟩
    rw [h]
    cases r with
    | static v => cases hs
    | series l' =>
      congr 2
      apply List.ext_getElem?
      intro i
      have e1 : l.length = own.length := hk
      have e2 : l'.length = own.length := r2
      by_cases hi : i < own.length
      · have ht := List.getElem?_eq_getElem hi
        have hl := List.getElem?_eq_getElem (e1 ▸ hi : i < l.length)
        have := r3 _ (List.getElem_mem hi) _ ((compAt_sample hm ho hg hk ht l[i]).2 hl)
        rw [hl]
        exact (compAt_sample hm ho r1 r2 ht l[i]).1 this
      · rw [List.getElem?_eq_none (by omega), List.getElem?_eq_none (by omega)]

/-- **C20** (own times): interpolating a system at its own times, with its own reference time, gives the same system -/
theorem C20_own {S : Slerp} (hS : SlerpOk S) {c : TLcs} (hc : c.WF) (hd : c.dependent = true) {t t' : Time} {tref : Option Int}
    (ht : t.ofTime tref = .ok t') (hv : c.clock = t'.vals) (hr : t'.referenceTime = .ok c.ref) :
    c.interpTime S (some t) tref = .ok c := by
  obtain ⟨l, hl, h2, ha, h3, h4⟩ := hc.series hd
  have hlen : c.clock.length = l.length := clock_length hl
  have hne : t'.vals ≠ [] := by
    rw [← hv, Ne, ← List.length_eq_zero_iff]
    omega
  obtain ⟨rt, ds, d1, d2, d3, d4⟩ := deltas hne
  rw [hr] at d1
  cases d1
  have hds : ds = l := by
    rw [← hv, clock_of_times hl] at d3
    exact List.map_injective_iff.2 (fun x y h => by simpa using h) d3
  subst hds
  have ho := interpComp_own (interp := interpOrientation S) hS (fun h1 h2 h3 _ h4 => interp_orientation h1 h2 (hS.ends h3) h4)
    (clock_asc hc) (hlen ▸ h2) (hlen ▸ h3) hc.rot
  have hk := interpComp_own (interp := interpCoordinates) (linMix_ok (V := Vec3 ℝ)) (fun h1 h2 _ _ h4 => interp_linear h1 h2 h4)
    (clock_asc hc) (hlen ▸ h2) (hlen ▸ h4) (coord_all c.coord)
  have hd' : (c.orient.isSeries || c.coord.isSeries) = true := hd
  unfold interpTime
  simp only [hd, if_true, ht, d4, time_eq hl ha, ← hv, ho, hk, hd', d2, hr, bind, Except.bind, ne_eq, not_true_eq_false, if_false]
  rw [← hl]

end TLcs

namespace TEdge

/-- reference time of a system that becomes static -/
theorem interp_ref {S : Slerp} (hS : SlerpOk S) {e : TEdge} (he : e.WF) (hd : e.dependent = true) {t t' : Time}
    {tref : Option Int} (ht : t.ofTime tref = .ok t') (hta : t'.vals.Pairwise (· < ·)) (hne : t'.vals ≠ [])
    (hk : e.ref.isSome = t'.abs) {c : TLcs} (hc : e.interp S t tref = .ok c) (hs : c.dependent = false) :
    (c.times = none ∧ c.ref = none) ∨ c.ref = e.ref := by
  cases e with
  | discrete e =>
    obtain ⟨r, hr, _, _, _, _, h⟩ := TLcs.interpTime_spec hS he.1 hd ht hta hne hk
    have hc' : e.interpTime S (some t) tref = .ok c := hc
    rw [hr] at hc'
    cases hc'
    exact (h hs).imp_right fun h => h.2
  | expression e i =>
    have hk' : e.ref.isSome = t'.abs := hk
    have hc' : e.interpTime S t tref = .ok c := hc
    simp only [ELcs.interpTime, ht, bind, Except.bind, hk', ne_eq, not_true_eq_false, if_false] at hc'
    cases ho : e.interpOrient S t' with
    | error x => rw [ho] at hc'; cases hc'
    | ok p =>
      obtain ⟨o, label⟩ := p
      rw [ho] at hc'
      simp only at hc'
      split_ifs at hc' with h1 h2
      · exfalso
        cases hx : t'.asTimedelta with
        | error x => rw [hx] at hc'; cases hc'
        | ok ds =>
          rw [hx] at hc'
          simp only at hc'
          cases hy : t'.referenceTime with
          | error x => rw [hy] at hc'; cases hc'
          | ok rt =>
            rw [hy] at hc'
            cases hc'
            have : (o.isSeries || (e.interpCoord t').isSeries) = false := hs
            rw [h1] at this
            cases this
      · cases hc'
        exact .inr rfl
      · cases hc'
        exact .inl ⟨rfl, rfl⟩

/-- interpolating a link a second time has no effect -/
theorem again_interpAt {S : Slerp} (hS : SlerpOk S) {e : TEdge} (he : e.WF) (r : Option Int) {t t' : Time}
    {tref : Option Int} (ht : t.ofTime tref = .ok t') (hta : t'.vals.Pairwise (· < ·)) (hne : t'.vals ≠ [])
    (hk : e.dependent = true → (e.ref.or r).isSome = t'.abs) : Again (interpAt S (some t) tref) r e := by
  intro o ho
  obtain ⟨h1, h2, _, h4, h5, _⟩ := resetIn_spec (S := S) he r
  by_cases hd : e.dependent = true
  · have hk' : (resetIn r e).ref.isSome = t'.abs := by rw [h4 hd]; exact hk hd
    obtain ⟨c, c1, c2, _⟩ := interp_spec hS h1 (h2.trans hd) ht hta hne hk'
    simp only [interpAt, h2, hd, if_true, c1, Except.map, Except.ok.injEq] at ho
    subst ho
    simp only [Option.getD_some]
    have hrr : (resetIn r e).ref = none → r = none := by
      intro h
      rw [h4 hd] at h
      cases hx : e.ref <;> simp_all
    have hself : resetIn r (discrete c) = discrete c := by
      cases hcr : c.ref with
      | some a => exact resetIn_some (e := discrete c) hcr r
      | none =>
        rcases c2.2 with ⟨_, _, h'⟩ | ⟨h', _⟩
        · have habs : t'.abs = false := by
            obtain ⟨rt, _, d1, _, _, d4⟩ := deltas hne
            rw [h', hcr] at d1
            cases d1
            exact d4.symm
          rw [habs] at hk'
          rw [hrr (by simpa using hk'), resetIn_none]
        · rcases interp_ref hS h1 (h2.trans hd) ht hta hne hk' c1 h' with ⟨h, _⟩ | h
          · cases r with
            | none => rw [resetIn_none]
            | some r =>
              rw [resetIn_reset (e := discrete c) hcr]
              simp only [reset, TLcs.reset, h]
          · rw [hcr] at h
            rw [hrr h.symm, resetIn_none]
    rw [hself]
    rcases c2.2 with ⟨g1, g2, g3⟩ | ⟨g1, _⟩
    · refine ⟨some (discrete c), ?_, rfl⟩
      have : (discrete c).dependent = true := g1
      simp only [interpAt, this, if_true, interp, TLcs.C20_own hS c2.1 g1 ht g2 g3, Except.map]
    · refine ⟨none, ?_, rfl⟩
      have : (discrete c).dependent = false := g1
      simp [interpAt, this]
  · have hd' : e.dependent = false := by simpa using hd
    rw [h5 hd'] at ho ⊢
    simp only [interpAt, hd', Bool.false_eq_true, if_false, Except.ok.injEq] at ho
    subst ho
    rw [Option.getD_none, h5 hd']
    exact ⟨none, by simp [interpAt, hd'], rfl⟩

/-- without times -/
theorem again_none (S : Slerp) (e : TEdge) (r : Option Int) (tref : Option Int) : Again (interpAt S none tref) r e := by
  intro o ho
  cases ho
  refine ⟨none, rfl, ?_⟩
  rw [Option.getD_none, Option.getD_none]
  exact resetIn_idem r e

end TEdge

variable {N D : Type} [DecidableEq N]

/-- **C70** (values): with given times, the call succeeds if every affected time dependent system has (or gets from the manager) a
reference time exactly if the times have one. Then every affected link has, at the given times, the values that it had before in the
supplied direction, and their inverses in the other direction. -/
theorem C70_values {S : Slerp} (hS : SlerpOk S) {h : LHeap TEdge} {m : Csm N Nat D} (I : Inv (h.view m)) (hb : Bounded h m)
    {affected : Option (List N)} (hv : ∀ cs, affected = some cs → ∀ c ∈ cs, c ∈ m.names ∧ c ≠ m.root) {t t' : Time} {tref : Option Int}
    (ht : t.ofTime tref = .ok t') (hta : t'.vals.Pairwise (· < ·)) (hne : t'.vals ≠ [])
    (hw : ∀ a b e, (h.view m).Affected affected a b → (h.view m).Supplied a b e → e.WF ∧ e.Plain ∧
      (e.dependent = true → (e.ref.or m.refTime).isSome = t'.abs)) :
    ∃ h' m', interpTime (TEdge.interpAt S (some t) tref) affected (h, m) = .ok () (h', m') ∧ m'.refTime = m.refTime ∧
      ∀ a b e, (h.view m).Affected affected a b → (h.view m).Supplied a b e → ∃ c : TLcs,
        (h'.view m').Supplied a b (.discrete c) ∧ (h'.view m').edge? b a = some ⟨false, some (.discrete c.invert)⟩ ∧ c.WF ∧
        (c.dependent = true → c.clock = t'.vals ∧ t'.referenceTime = .ok c.ref) ∧
        ∀ x ∈ t'.vals, ∀ f, e.AtCsm S m.refTime x f →
          (TEdge.discrete c).AtCsm S m.refTime x f ∧ (TEdge.discrete c.invert).AtCsm S m.refTime x f.invert := by
  have hn : Harmless (TEdge.interpAt S (some t) tref) h m affected := .inr fun a b e ha hs => by
    obtain ⟨w1, _, w3⟩ := hw a b e ha hs
    exact TEdge.again_interpAt hS w1 m.refTime ht hta hne w3
  have hok : ∃ h' m', interpTime (TEdge.interpAt S (some t) tref) affected (h, m) = .ok () (h', m') := by
    refine (C70_ok_iff I hb hn).2 ⟨hv, fun a b e ha hs => ?_⟩
    obtain ⟨w1, w2, w3⟩ := hw a b e ha hs
    obtain ⟨o, o1, o2, _⟩ := TEdge.interpAt_spec hS w1 w2 m.refTime ht hta hne w3
    exact ⟨o, o1, o2⟩
  obtain ⟨h', m', hr⟩ := hok
  obtain ⟨_, hf, _, h1, _, _⟩ := C70_result I hb hn hr
  refine ⟨h', m', hr, by rw [hf], fun a b e ha hs => ?_⟩
  obtain ⟨o', s1, s2, s3, _⟩ := h1 a b e ha hs
  obtain ⟨w1, w2, w3⟩ := hw a b e ha hs
  obtain ⟨o, o1, _, c, o2, o3, o4, o5⟩ := TEdge.interpAt_spec hS w1 w2 m.refTime ht hta hne w3
  rw [s1] at o1
  cases o1
  rw [o2] at s2 s3
  refine ⟨c, s2, s3, o3, o4, fun x hx f hf => ?_⟩
  obtain ⟨v1, v2⟩ := o5 x hx f hf
  refine ⟨v2, ?_⟩
  by_cases hcd : c.dependent = true
  · obtain ⟨k1, k2⟩ := o4 hcd
    have hi := TLcs.invert_sample hS o3 (t := x) (by rw [k1]; exact hx) v1
    unfold TEdge.AtCsm at v2 ⊢
    have hrr : (TEdge.discrete c.invert).ref = (TEdge.discrete c).ref := rfl
    rw [hrr]
    cases hcr : (TEdge.discrete c).ref with
    | some a => exact hi
    | none =>
      cases hmr : m.refTime with
      | none => exact hi
      | some r =>
        exfalso
        rw [show c.ref = none from hcr] at k2
        have hd : e.dependent = true := by
          by_contra hd
          have hd' : e.dependent = false := by simpa using hd
          obtain ⟨_, _, _, _, g5, _⟩ := TEdge.resetIn_spec (S := S) w1 m.refTime
          rw [g5 hd'] at o2 s1
          simp only [TEdge.interpAt, hd', Bool.false_eq_true, if_false] at s1
          cases s1
          simp only [Option.getD_none] at o2
          rw [o2] at hd'
          have : c.dependent = false := hd'
          rw [hcd] at this
          cases this
        have habs : t'.abs = true := by
          rw [← w3 hd, hmr]
          cases e.ref <;> rfl
        simp only [Time.referenceTime, habs, if_true] at k2
        cases hr' : t'.ref with
        | some a => rw [hr'] at k2; cases k2
        | none =>
          rw [hr'] at k2
          cases hv' : t'.vals with
          | nil => exact absurd hv' hne
          | cons a l => rw [hv'] at k2; cases k2
  · obtain ⟨g, g1, _⟩ := TLcs.At_static (S := S) (c := c) (by simpa using hcd)
    unfold TEdge.AtCsm at v2 ⊢
    have hrr : (TEdge.discrete c.invert).ref = (TEdge.discrete c).ref := rfl
    rw [hrr]
    split at v2 <;> exact TLcs.invert_static_orientation g1 v2

/-- **C70** (times of the other kind): if an affected time dependent system has a reference time (its own or that of the manager) and
the times do not, or the other way round, the call fails. In particular a manager with reference time cannot be interpolated with
time deltas unless `time_ref` is given too, other than `get_cs` (C62), which uses the reference time of the manager then. -/
theorem C70_kind {S : Slerp} {h : LHeap TEdge} {m : Csm N Nat D} (I : Inv (h.view m)) (hb : Bounded h m)
    {affected : Option (List N)} {t t' : Time} {tref : Option Int}
    (ht : t.ofTime tref = .ok t') {a b : N} {e : TEdge} (ha : (h.view m).Affected affected a b) (hs : (h.view m).Supplied a b e)
    (hw : e.WF) (hd : e.dependent = true) (hk : (e.ref.or m.refTime).isSome ≠ t'.abs) :
    ∀ st, interpTime (TEdge.interpAt S (some t) tref) affected (h, m) ≠ .ok () st := by
  rintro ⟨h', m'⟩ hr
  obtain ⟨o, ho⟩ := interpTime_ready I hb hr ha hs
  obtain ⟨_, h2, _, h4, _⟩ := TEdge.resetIn_spec (S := S) hw m.refTime
  simp only [TEdge.interpAt, h2, hd, if_true] at ho
  rw [C62_kind ht (h2.trans hd) (by rw [h4 hd]; exact hk)] at ho
  cases ho

/-- **C70** (no times): without times nothing is interpolated; systems described by an expression cannot be inverted then, so the
call fails if there is one -/
theorem C70_no_time {S : Slerp} {h : LHeap TEdge} {m : Csm N Nat D} (I : Inv (h.view m)) (hb : Bounded h m)
    {affected : Option (List N)} (hv : ∀ cs, affected = some cs → ∀ c ∈ cs, c ∈ m.names ∧ c ≠ m.root) (tref : Option Int) :
    (∃ st, interpTime (TEdge.interpAt S none tref) affected (h, m) = .ok () st) ↔
      ∀ a b e, (h.view m).Affected affected a b → (h.view m).Supplied a b e → ∃ c, e = .discrete c := by
  have hser : ∀ e : TEdge, LcsLike.isSeries (resetIn m.refTime e) = e.isSeries := by
    intro e
    show (resetIn m.refTime e).isSeries = _
    unfold resetIn
    split
    · cases e <;> rfl
    · rfl
  have hn : Harmless (TEdge.interpAt S none tref) h m affected := .inr fun _ _ e _ _ => TEdge.again_none S e m.refTime tref
  constructor
  · rintro ⟨⟨h', m'⟩, hr⟩ a b e ha hs
    obtain ⟨_, hi⟩ := (C70_ok_iff I hb hn).1 ⟨h', m', hr⟩
    obtain ⟨o, ho, h1⟩ := hi a b e ha hs
    cases ho
    rw [Option.getD_none, hser] at h1
    cases e with
    | discrete c => exact ⟨c, rfl⟩
    | expression e i => cases h1
  · intro hi
    obtain ⟨h', m', hr⟩ := (C70_ok_iff (interp := TEdge.interpAt S none tref) I hb hn).2 ⟨hv, fun a b e ha hs => by
      obtain ⟨c, rfl⟩ := hi a b e ha hs
      exact ⟨none, rfl, by rw [Option.getD_none, hser]; rfl⟩⟩
    exact ⟨_, hr⟩

/-- **C70** (shared systems): a system without reference time that another manager uses too gets the reference time `r` of this
manager. So if the other one has the reference time `r'`, its values are moved in time by `r' - r`. -/
theorem C70_shared {S : Slerp} {h h' : LHeap TEdge} {m m' : Csm N Nat D} (I : Inv (h.view m)) (hb : Bounded h m)
    {affected : Option (List N)} {interp : TEdge → Except TimeError (Option TEdge)}
    (hn : Harmless interp h m affected) (hr : interpTime interp affected (h, m) = .ok () (h', m')) {a b : N} {l : Nat}
    (ha : (h.view m).Affected affected a b) (hs : m.edge? a b = some ⟨true, some l⟩) {r r' : Int} (hm : m.refTime = some r)
    (hw : (h.obj l).WF) (hd : (h.obj l).dependent = true) (hrf : (h.obj l).ref = none) :
    (h'.obj l).ref = some r ∧ ∀ t f, (h'.obj l).AtCsm S (some r') t f ↔ (h.obj l).AtCsm S (some r') (t + (r' - r)) f := by
  obtain ⟨_, _, _, _, _, h6⟩ := C70_result I hb hn hr
  have h7 : h'.obj l = resetIn m.refTime (h.obj l) := by
    rcases h6 l (hb a b _ l hs rfl) with ⟨_, h⟩ | ⟨h, _⟩
    · exact h
    · exact absurd ⟨a, b, ha, hs⟩ h
  obtain ⟨_, _, _, g4, _, g6⟩ := TEdge.resetIn_spec (S := S) hw m.refTime
  rw [h7, g4 hd, hrf, hm]
  refine ⟨rfl, fun t f => ?_⟩
  have e1 : (resetIn (some r) (h.obj l)).AtCsm S (some r') t f ↔ (resetIn (some r) (h.obj l)).At S t f := by
    unfold TEdge.AtCsm
    rw [← hm, g4 hd, hrf, hm]
    rfl
  rw [e1, ← hm, g6, hm]
  unfold TEdge.AtCsm
  rw [hrf]
  simp only
  rw [show t + (r' - r) - r' = t - r by ring]

/-! ### a manager -/

namespace InterpDemo

/-- the objects: a system that turns, its inverse, a static one, its inverse -/
noncomputable def heap : LHeap TEdge :=
  ⟨fun | 0 => .discrete halfTurn | 1 => .discrete halfTurn.invert | 2 => .discrete shifted | _ => .discrete shifted.invert, 4⟩

/-- the manager `2 - 1 - 0`; the system on the first link turns -/
def mgr (r : Option Int) : Csm ℕ Nat Unit :=
  { name := 100, root := 0, refTime := r, nodes := [(0, []), (1, []), (2, [])], subs := [],
    edges := [((1, 0), ⟨true, some 0⟩), ((0, 1), ⟨false, some 1⟩), ((2, 1), ⟨true, some 2⟩), ((1, 2), ⟨false, some 3⟩)] }

theorem inv (r : Option Int) : Inv (heap.view (mgr r)) := by
  have : heap.view (mgr r) =
      (addCs 2 1 (.discrete shifted) true true (addCs 1 0 (.discrete halfTurn) true true (Csm.init 0 100 r)).state).state := by
    cases r <;> rfl
  rw [this]
  exact (Reachable.addCs _ _ _ _ _ (.addCs _ _ _ _ _ (.init _ _ _))).inv

theorem bounded (r : Option Int) : Bounded heap (mgr r) := by
  intro a b e l he hl
  have := Dict.mem_of_get? he
  simp only [mgr, List.mem_cons, List.not_mem_nil, or_false, Prod.mk.injEq] at this
  rcases this with ⟨_, rfl⟩ | ⟨_, rfl⟩ | ⟨_, rfl⟩ | ⟨_, rfl⟩ <;> cases hl <;> simp [heap]

theorem supplied {r : Option Int} {a b : ℕ} {e : TEdge} (h : (heap.view (mgr r)).Supplied a b e) :
    (a = 1 ∧ b = 0 ∧ e = .discrete halfTurn) ∨ (a = 2 ∧ b = 1 ∧ e = .discrete shifted) := by
  unfold Supplied at h
  simp only [LHeap.view, mgr, List.map_cons, List.map_nil, List.mem_cons, List.not_mem_nil, or_false, Prod.mk.injEq,
    Edge.mk.injEq, Option.map_some, Option.some.injEq, Bool.true_eq_false, false_and, and_false] at h
  simp only [false_or, or_false, true_and] at h
  rcases h with ⟨⟨rfl, rfl⟩, h⟩ | ⟨⟨rfl, rfl⟩, h⟩
  · exact .inl ⟨rfl, rfl, h⟩
  · exact .inr ⟨rfl, rfl, h⟩

theorem supplied1 (r : Option Int) : (heap.view (mgr r)).Supplied 1 0 (.discrete halfTurn) := List.mem_cons_self ..

theorem halfTurn_ok : (TEdge.discrete halfTurn).WF := ⟨halfTurn_wf, fun h => by simp [halfTurn, TLcs.dependent, Comp.isSeries] at h⟩

theorem wf {r : Option Int} {a b : ℕ} {e : TEdge} (h : (heap.view (mgr r)).Supplied a b e) : e.WF ∧ e.Plain ∧ e.ref = none := by
  rcases supplied h with ⟨_, _, rfl⟩ | ⟨_, _, rfl⟩
  · exact ⟨halfTurn_ok, trivial, rfl⟩
  · exact ⟨⟨shifted_wf, fun _ => rfl⟩, trivial, rfl⟩

/-- C70: all links are interpolated, with time stamps -/
example : ∃ h' m', interpTime (TEdge.interpAt jump (some ⟨true, [6, 7], none⟩) none) none (heap, mgr (some 5)) = .ok () (h', m') ∧
    Inv (h'.view m') := by
  obtain ⟨h', m', h1, _⟩ := C70_values jump_ok (inv (some 5)) (bounded (some 5)) (affected := none) (by simp)
    (t := ⟨true, [6, 7], none⟩) (t' := ⟨true, [6, 7], none⟩) (tref := none) (by simp [Time.ofTime, Time.make, Time.monotonic])
    (by simp) (by simp) (fun a b e _ hs => ⟨(wf hs).1, (wf hs).2.1, fun _ => by rw [(wf hs).2.2]; rfl⟩)
  exact ⟨h', m', h1, C70_inv_all (inv _) (bounded _) h1⟩

/-- C70: a system that is listed twice -/
example : ∃ h' m', interpTime (TEdge.interpAt jump (some ⟨true, [6, 7], none⟩) none) (some [1, 1]) (heap, mgr (some 5)) =
    .ok () (h', m') := by
  obtain ⟨h', m', h1, _⟩ := C70_values jump_ok (inv (some 5)) (bounded (some 5)) (affected := some [1, 1])
    (fun cs hcs c hc => by
      cases hcs
      have : c = 1 := by simpa using hc
      subst this
      exact ⟨by decide, by decide⟩)
    (t := ⟨true, [6, 7], none⟩) (t' := ⟨true, [6, 7], none⟩) (tref := none) (by simp [Time.ofTime, Time.make, Time.monotonic])
    (by simp) (by simp) (fun a b e _ hs => ⟨(wf hs).1, (wf hs).2.1, fun _ => by rw [(wf hs).2.2]; rfl⟩)
  exact ⟨h', m', h1⟩

/-- C20: a system at its own times -/
example : halfTurn.interpTime jump (some ⟨false, halfTurn.clock, none⟩) none = .ok halfTurn :=
  TLcs.C20_own jump_ok halfTurn_wf rfl (t' := ⟨false, halfTurn.clock, none⟩)
    (by simp [Time.ofTime, Time.make, Time.monotonic, halfTurn, TLcs.clock]) rfl rfl

/-- C70: an unknown system -/
example (i : TEdge → Except TimeError (Option TEdge)) :
    interpTime i (some [1, 7]) (heap, mgr none) = .err (.csm .valueError) (heap, mgr none) :=
  C70_unknown (inv none) (c := 7) (by simp) (by decide)

/-- **C70** (counterexample): the value of the direction that was not supplied is changed at a given time -/
theorem C70_reverse_counterexample {S : Slerp} (hS : SlerpOk S) : ∃ (h h' : LHeap TEdge) (m m' : Csm ℕ Nat Unit), Inv (h.view m) ∧
    Bounded h m ∧ interpTime (TEdge.interpAt S (some ⟨false, [1, 2], none⟩) none) none (h, m) = .ok () (h', m') ∧
    ∃ e e' : TEdge, (h.view m).edge? 0 1 = some ⟨false, some e⟩ ∧ (h'.view m').edge? 0 1 = some ⟨false, some e'⟩ ∧
      ∃ g g', e.AtCsm S none 1 g ∧ e'.AtCsm S none 1 g' ∧ g ≠ g' := by
  obtain ⟨h', m', h1, _, h2⟩ := C70_values hS (inv none) (bounded none) (affected := none) (by simp)
    (t := ⟨false, [1, 2], none⟩) (t' := ⟨false, [1, 2], none⟩) (tref := none) (by simp [Time.ofTime, Time.make, Time.monotonic])
    (by simp) (by simp) (fun a b e _ hs => ⟨(wf hs).1, (wf hs).2.1, fun _ => by rw [(wf hs).2.2]; rfl⟩)
  obtain ⟨c, _, c2, _, _, c5⟩ := h2 1 0 _ (view_adj.2 ⟨⟨true, some 0⟩, rfl⟩) (supplied1 none)
  obtain ⟨f, hf⟩ := TLcs.At_exists S halfTurn_wf 1
  obtain ⟨g, hg⟩ := TEdge.At_exists S (TEdge.reverse_wf halfTurn_ok) 1
  obtain ⟨_, _, hne⟩ := (C23_counterexample hS).2 f g hf hg
  exact ⟨heap, h', mgr none, m', inv none, bounded none, h1, _, _, rfl, c2, g, f.invert, hg, (c5 1 (by simp) f hf).2, hne⟩

/-- C70: time deltas cannot be used if the manager has a reference time -/
example : ∀ st, interpTime (TEdge.interpAt jump (some ⟨false, [1, 2], none⟩) none) none (heap, mgr (some 5)) ≠ .ok () st :=
  C70_kind (inv _) (bounded _) (t' := ⟨false, [1, 2], none⟩) (by simp [Time.ofTime, Time.make, Time.monotonic])
    (view_adj.2 ⟨⟨true, some 0⟩, rfl⟩) (supplied1 _) halfTurn_ok rfl (by simp [mgr])

/-- C70: without times, the objects get the reference time nevertheless -/
example : ∃ h' m', interpTime (TEdge.interpAt jump none none) none (heap, mgr (some 5)) = .ok () (h', m') ∧
    (h'.obj 0).ref = some 5 ∧ ∀ t f, (h'.obj 0).AtCsm jump (some 7) t f ↔ (heap.obj 0).AtCsm jump (some 7) (t + 2) f := by
  obtain ⟨⟨h', m'⟩, hr⟩ := (C70_no_time (S := jump) (inv (some 5)) (bounded _) (affected := none) (by simp) none).2
    (fun a b e _ hs => by
      rcases supplied hs with ⟨_, _, rfl⟩ | ⟨_, _, rfl⟩
      · exact ⟨_, rfl⟩
      · exact ⟨_, rfl⟩)
  refine ⟨h', m', hr, ?_⟩
  obtain ⟨h1, h2⟩ := C70_shared (S := jump) (inv (some 5)) (bounded _) (.inl (by simp)) hr (a := 1) (b := 0) (l := 0)
    (view_adj.2 ⟨⟨true, some 0⟩, rfl⟩) rfl (r := 5) (r' := 7) rfl halfTurn_ok rfl rfl
  exact ⟨h1, h2⟩

/-- C70: the root after another system -/
example : ∃ h' m', interpTime (TEdge.interpAt jump (some ⟨false, [1, 2], none⟩) none) (some [1, 0]) (heap, mgr none) =
    .err (.csm .keyError) (h', m') ∧ m'.edge? 0 1 = (mgr none).edge? 0 1 := by
  obtain ⟨par, ht, T⟩ := (inv none).tree.treeOn (inv none).root_mem
  have hp : par 1 = 0 := by
    have h1 := getParent_eq (inv none) T (n := 1) (by decide) (by decide)
    have h2 : (heap.view (mgr none)).getParent 1 = .ok (some 0) := rfl
    rw [h2] at h1
    simpa using h1.symm
  have haff : (heap.view (mgr none)).Affected (some [1]) 1 0 := .inl ⟨by simp, (parent_iff (inv none) T).2 ⟨by decide, by decide, hp⟩⟩
  obtain ⟨h', m', h1, h2⟩ := C70_root (interp := TEdge.interpAt jump (some ⟨false, [1, 2], none⟩) none) (inv none) (bounded none)
    (cs := [1]) (cs' := []) (.inl (by simp)) (by decide) (by simp) (fun a b e _ hs => by
      obtain ⟨o, o1, _⟩ := TEdge.interpAt_spec jump_ok (wf hs).1 (wf hs).2.1 none (t := ⟨false, [1, 2], none⟩)
        (t' := ⟨false, [1, 2], none⟩) (tref := none) (by simp [Time.ofTime, Time.make, Time.monotonic]) (by simp) (by simp)
        (fun _ => by rw [(wf hs).2.2]; rfl)
      exact ⟨o, o1⟩)
  obtain ⟨_, _, _, h3, _⟩ := h2 1 0 _ haff (supplied1 none)
  exact ⟨h', m', h1, h3⟩

end InterpDemo
end Weldx
