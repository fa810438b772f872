import Verif.TimeLcs.Query

/-!
# Values of queries
-/

namespace Weldx

open Ip Matrix

/-- time deltas and reference time give the values -/
theorem deltas {t : Time} (hne : t.vals ≠ []) : ∃ rt ds, t.referenceTime = .ok rt ∧ t.asTimedelta = .ok ds ∧
    ds.map (· + rt.getD 0) = t.vals ∧ rt.isSome = t.abs := by
  cases hab : t.abs with
  | false =>
    exact ⟨none, t.vals, by simp [Time.referenceTime, hab], by simp [Time.asTimedelta, hab], by simp, rfl⟩
  | true =>
    obtain ⟨r, hr⟩ : ∃ r, t.referenceTime = .ok (some r) := by
      simp only [Time.referenceTime, hab, if_true]
      cases t.ref with
      | some r => exact ⟨r, rfl⟩
      | none =>
        cases hv : t.vals with
        | nil => exact absurd hv hne
        | cons a l => exact ⟨a, rfl⟩
    refine ⟨some r, t.vals.map (· - r), hr, by simp [Time.asTimedelta, hab, hr, bind, Except.bind], ?_, rfl⟩
    rw [List.map_map]
    conv_rhs => rw [← List.map_id t.vals]
    apply List.map_congr_left
    intro x _
    simp

/-- a system with given times -/
theorem with_times {S : Slerp} (hS : SlerpOk S) {t : Time} (hne : t.vals ≠ []) (hta : t.vals.Pairwise (· < ·))
    {rt : Option Int} {ds : List Int} (h1 : ds.map (· + rt.getD 0) = t.vals) {o : Comp (Mat3 ℝ)} {k : Comp (Vec3 ℝ)}
    (ho : TLcs.CompAll Rotation o) (lo : TLcs.CompLen t.vals.length o) (lk : TLcs.CompLen t.vals.length k)
    (h2 : 2 ≤ t.vals.length) (hd : (o.isSeries || k.isSeries) = true) :
    (⟨some ds, rt, o, k⟩ : TLcs).WF ∧ (⟨some ds, rt, o, k⟩ : TLcs).clock = t.vals := by
  have hcl : (⟨some ds, rt, o, k⟩ : TLcs).clock = t.vals := h1
  have hdl : ds.length = t.vals.length := by rw [← h1, List.length_map]
  have hda : ds.Pairwise (· < ·) := by
    have := hta
    rw [← h1, List.pairwise_map] at this
    exact this.imp fun h => by simpa using h
  refine ⟨⟨fun _ => ⟨ds, rfl, hdl ▸ h2, hda, hdl ▸ lo, hdl ▸ lk⟩, fun h => ?_, by simp, ho⟩, hcl⟩
  unfold TLcs.dependent at h
  simp only at h
  rw [hd] at h; cases h

namespace TEdge

/-- the value before the direction is taken into account -/
def AtRaw (S : Slerp) : TEdge → Int → Lcs ℝ → Prop
  | discrete c, t, f => c.At S t f
  | expression e _, t, g => CompAt S e.frame.clock e.orient t g.orientation ∧ g.coordinates = e.expr (t - e.ref.getD 0)

/-- the value after the direction is taken into account -/
def turned (f : Lcs ℝ) : TEdge → Lcs ℝ
  | expression _ true => f.invert
  | _ => f

theorem At_raw {S : Slerp} {e : TEdge} {t : Int} {f : Lcs ℝ} : e.At S t f ↔ ∃ g, e.AtRaw S t g ∧ f = turned g e := by
  cases e with
  | discrete c =>
    constructor
    · exact fun h => ⟨f, h, rfl⟩
    · rintro ⟨g, h, rfl⟩; exact h
  | expression e i =>
    cases i <;> simp [At, AtRaw, turned, and_assoc]

/-- what is known about a system obtained for the times `t` -/
def Known (t : Time) (r : TLcs) : Prop := r.WF ∧
  ((r.dependent = true ∧ r.clock = t.vals ∧ t.referenceTime = .ok r.ref) ∨
    (r.dependent = false ∧ (r.times = none ∨ t.vals.length = 1)))

/-- the same without the reference time -/
def Known' (t : Time) (r : TLcs) : Prop := r.WF ∧
  ((r.dependent = true ∧ r.clock = t.vals) ∨ (r.dependent = false ∧ (r.times = none ∨ t.vals.length = 1)))

theorem Known.weak {t : Time} {r : TLcs} (h : Known t r) : Known' t r :=
  ⟨h.1, h.2.elim (fun h => .inl ⟨h.1, h.2.1⟩) .inr⟩

theorem static_label {c : TLcs} (hw : c.WF) (hd : c.dependent = false) {l : List Int} (hc : c.clock = l) (hne : l ≠ []) :
    l.length = 1 := by
  rcases hw.label hd with h | ⟨x, h⟩
  · rw [TLcs.clock, h] at hc; simp at hc; exact absurd hc hne
  · rw [TLcs.clock_of_times h] at hc; rw [← hc]; simp

theorem interp_spec {S : Slerp} (hS : SlerpOk S) {e : TEdge} (he : e.WF) (hd : e.dependent = true) {t t' : Time}
    {tref : Option Int} (ht : t.ofTime tref = .ok t') (hta : t'.vals.Pairwise (· < ·)) (hne : t'.vals ≠ [])
    (hk : e.ref.isSome = t'.abs) :
    ∃ r, e.interp S t tref = .ok r ∧ Known t' r ∧ ∀ x ∈ t'.vals, ∀ f, e.AtRaw S x f → r.At S x f := by
  cases e with
  | discrete c =>
    obtain ⟨r, hr, hw, h1, h2, h3, h4⟩ := TLcs.interpTime_spec hS he.1 hd ht hta hne hk
    refine ⟨r, hr, ⟨hw, ?_⟩, h1⟩
    by_cases hrd : r.dependent = true
    · exact .inl ⟨hrd, h3 hrd⟩
    · have hrd' : r.dependent = false := by simpa using hrd
      refine .inr ⟨hrd', ?_⟩
      rcases h4 hrd' with h | h
      · exact .inl h.1
      · exact .inr (static_label hw hrd' h.1 hne)
  | expression e i =>
    obtain ⟨rt, ds, d1, d2, d3, d4⟩ := deltas hne
    -- the orientation
    obtain ⟨o, label, ho, o1, o2, o3, o4, o5⟩ : ∃ o label, e.interpOrient S t' = .ok (o, label) ∧ TLcs.CompAll Rotation o ∧
        TLcs.CompLen t'.vals.length o ∧ (∀ x ∈ t'.vals, ∀ v, CompAt S e.frame.clock e.orient x v → CompAt S t'.vals o x v) ∧
        (o.isSeries = true → 2 ≤ t'.vals.length) ∧ (label = true → o.isSeries = false → t'.vals.length = 1) := by
      cases hoo : e.orient with
      | static R =>
        have hser : e.orient.isSeries = false := by rw [hoo]; rfl
        have htm : e.frame.time = .ok none := by
          have : e.frame.times = none := he.2.1 hser
          rw [TLcs.time, this]
        refine ⟨.static R, false, by simp [ELcs.interpOrient, hoo, htm, bind, Except.bind], ?_, trivial, ?_, by simp [Comp.isSeries], by simp⟩
        · have := he.2.2
          rw [hoo] at this; exact this
        · intro x _ v hv
          cases hv; exact .static
      | series l =>
        have hser : e.orient.isSeries = true := by rw [hoo]; rfl
        have hw := he.1 hser
        have hfd : e.frame.dependent = true := by
          unfold TLcs.dependent ELcs.frame; simp [hser]
        obtain ⟨ls, hls, h2, ha, h3, _⟩ := hw.series hfd
        have hlen : e.frame.clock.length = ls.length := TLcs.clock_length hls
        have hone : e.frame.clock ≠ [] := by rw [Ne, ← List.length_eq_zero_iff]; omega
        have h3' : TLcs.CompLen e.frame.clock.length (.series l : Comp (Mat3 ℝ)) := by
          have : e.frame.orient = .series l := hoo
          rw [this] at h3; rw [hlen]; exact h3
        have hrot : TLcs.CompAll Rotation (.series l) := by
          have := he.2.2
          rw [hoo] at this; exact this
        obtain ⟨o, ho, o1, o2, o3, o4⟩ := TLcs.interpComp_spec (interp := interpOrientation S) hS
          (fun h1 h2 h3 _ h4 => interp_orientation h1 h2 (hS.ends h3) h4) (TLcs.clock_asc hw) hone hta hne h3' hrot
        refine ⟨o, _, by simp only [ELcs.interpOrient, hoo, TLcs.time_eq hls ha, bind, Except.bind, ho]; rfl, o1, o2, o3,
          fun h => (o4.1 h).2.2, fun h1 h2 => ?_⟩
        have hout : TLcs.outside e.frame.clock t'.vals = false := by simpa using h1
        by_contra hlen
        have : 2 ≤ t'.vals.length := by
          have : t'.vals.length ≠ 0 := by rw [Ne, List.length_eq_zero_iff]; exact hne
          omega
        rw [o4.2 ⟨rfl, hout, this⟩] at h2; cases h2
    -- the coordinates
    have hc1 : TLcs.CompLen t'.vals.length (e.interpCoord t') := by
      unfold ELcs.interpCoord
      split <;> simp [TLcs.CompLen]
    have hc2 : ∀ x ∈ t'.vals, CompAt linMix t'.vals (e.interpCoord t') x (e.expr (x - e.ref.getD 0)) := by
      intro x hx
      obtain ⟨i, hi⟩ := List.getElem?_of_mem hx
      rw [TLcs.compAt_sample linMix_ok hta (TLcs.coord_all _) hc1 hi]
      unfold ELcs.interpCoord
      split
      · rename_i y hy
        rw [hy] at hx
        simp only [List.mem_singleton] at hx
        rw [hx]; rfl
      · simp only [Comp.get?, List.getElem?_map, hi, Option.map_some]
    have hc3 : (e.interpCoord t').isSeries = true ↔ 2 ≤ t'.vals.length := by
      unfold ELcs.interpCoord
      split
      · rename_i y hy; simp [Comp.isSeries, hy]
      · rename_i hy
        simp only [Comp.isSeries, true_iff]
        match hv : t'.vals with
        | [] => exact absurd hv hne
        | [x] => exact absurd hv (hy x)
        | a :: b :: l => simp
    have hres : e.interpTime S t tref = (if o.isSeries || (e.interpCoord t').isSeries then
        .ok ⟨some ds, rt, o, e.interpCoord t'⟩
        else if label then .ok ⟨some (t'.vals.map (· - e.ref.getD 0)), e.ref, o, e.interpCoord t'⟩
        else .ok ⟨none, none, o, e.interpCoord t'⟩) := by
      have hk' : e.ref.isSome = t'.abs := hk
      simp only [ELcs.interpTime, ht, bind, Except.bind, hk', ne_eq, not_true_eq_false, if_false, ho, d1, d2]
    by_cases hs : (o.isSeries || (e.interpCoord t').isSeries) = true
    · rw [if_pos hs] at hres
      have h2 : 2 ≤ t'.vals.length := by
        rw [Bool.or_eq_true] at hs
        exact hs.elim o4 hc3.1
      obtain ⟨w1, w2⟩ := with_times hS hne hta d3 o1 o2 hc1 h2 hs
      refine ⟨_, hres, ⟨w1, .inl ⟨hs, w2, d1⟩⟩, ?_⟩
      intro x hx f hf
      unfold TLcs.At
      rw [w2]
      exact ⟨o3 x hx _ hf.1, by rw [hf.2]; exact hc2 x hx⟩
    · rw [if_neg hs] at hres
      have hos : ∃ R, o = .static R := by
        cases o with
        | static R => exact ⟨R, rfl⟩
        | series l => simp [Comp.isSeries] at hs
      have hks : ∃ T, e.interpCoord t' = .static T := by
        cases hk : e.interpCoord t' with
        | static R => exact ⟨R, rfl⟩
        | series l => rw [hk] at hs; simp [Comp.isSeries] at hs
      obtain ⟨R, rfl⟩ := hos
      obtain ⟨T, hT⟩ := hks
      have hone : t'.vals.length = 1 := by
        have h0 : t'.vals.length ≠ 0 := by rw [Ne, List.length_eq_zero_iff]; exact hne
        have : ¬ 2 ≤ t'.vals.length := fun h => hs (by rw [hc3.2 h]; simp)
        omega
      have hat : ∀ ts : List Int, ∀ x ∈ t'.vals, ∀ f, (TEdge.expression e i).AtRaw S x f →
          CompAt S ts (.static R) x f.orientation ∧ CompAt linMix ts (.static T) x f.coordinates := by
        intro ts x hx f hf
        have h1 := o3 x hx _ hf.1
        have h2 := hc2 x hx
        rw [← hf.2, hT] at h2
        generalize f.orientation = A at *
        generalize f.coordinates = B at *
        cases h1; cases h2
        exact ⟨.static, .static⟩
      rw [hT] at hres
      cases label with
      | true =>
        rw [if_pos rfl] at hres
        refine ⟨_, hres, ⟨⟨by simp [TLcs.dependent, Comp.isSeries], fun _ => ?_, by simp, o1⟩,
          .inr ⟨by simp [TLcs.dependent, Comp.isSeries], .inr hone⟩⟩, fun x hx f hf => hat _ x hx f hf⟩
        obtain ⟨x, hx⟩ := List.length_eq_one_iff.1 hone
        right; exact ⟨x - e.ref.getD 0, by simp [hx]⟩
      | false =>
        rw [if_neg (by simp)] at hres
        exact ⟨_, hres, ⟨⟨by simp [TLcs.dependent, Comp.isSeries], by simp, by simp, o1⟩,
          .inr ⟨by simp [TLcs.dependent, Comp.isSeries], .inl rfl⟩⟩, fun x hx f hf => hat _ x hx f hf⟩

/-- the direction is taken into account -/
theorem turn_spec {S : Slerp} (hS : SlerpOk S) {t : Time} {r : TLcs} (e : TEdge) (h : Known t r) :
    Known t (turn r e) ∧ ∀ x ∈ t.vals, ∀ f, r.At S x f → (turn r e).At S x (turned f e) := by
  have hinv : Known t r.invert ∧ ∀ x ∈ t.vals, ∀ f, r.At S x f → r.invert.At S x f.invert := by
    refine ⟨⟨TLcs.invert_wf h.1, ?_⟩, ?_⟩
    · rw [TLcs.invert_dep]; exact h.2
    · intro x hx f hf
      rcases h.2 with ⟨_, h1, _⟩ | ⟨h1, _⟩
      · exact TLcs.invert_sample hS h.1 (h1 ▸ hx) hf
      · obtain ⟨g, g1, _⟩ := TLcs.At_static (S := S) h1
        exact TLcs.invert_static_orientation g1 hf
  cases e with
  | discrete c => exact ⟨h, fun _ _ _ hf => hf⟩
  | expression e i => cases i with
    | false => exact ⟨h, fun _ _ _ hf => hf⟩
    | true => exact hinv

theorem turn_spec' {S : Slerp} (hS : SlerpOk S) {t : Time} {r : TLcs} (e : TEdge) (h : Known' t r) :
    Known' t (turn r e) ∧ ∀ x ∈ t.vals, ∀ f, r.At S x f → (turn r e).At S x (turned f e) := by
  have hinv : Known' t r.invert ∧ ∀ x ∈ t.vals, ∀ f, r.At S x f → r.invert.At S x f.invert := by
    refine ⟨⟨TLcs.invert_wf h.1, ?_⟩, ?_⟩
    · rw [TLcs.invert_dep]; exact h.2
    · intro x hx f hf
      rcases h.2 with ⟨_, h1⟩ | ⟨h1, _⟩
      · exact TLcs.invert_sample hS h.1 (h1 ▸ hx) hf
      · obtain ⟨g, g1, _⟩ := TLcs.At_static (S := S) h1
        exact TLcs.invert_static_orientation g1 hf
  cases e with
  | discrete c => exact ⟨h, fun _ _ _ hf => hf⟩
  | expression e i => cases i with
    | false => exact ⟨h, fun _ _ _ hf => hf⟩
    | true => exact hinv

theorem rebuild_spec {S : Slerp} (hS : SlerpOk S) {t d : Time} {c : TLcs} (hc : Known d c) {r : Int}
    (hd : d.vals = t.vals.map (· - r)) (hne : t.vals ≠ []) (hta : t.vals.Pairwise (· < ·)) :
    ∃ c', rebuild c t = .ok c' ∧ Known t c' ∧ ∀ x ∈ t.vals, ∀ f, c.At S (x - r) f → c'.At S x f := by
  obtain ⟨rt, ds, d1, d2, d3, d4⟩ := deltas hne
  obtain ⟨hw, h | h⟩ := hc
  · obtain ⟨h1, h2, _⟩ := h
    obtain ⟨l, hl, hl2, _, l1, l2⟩ := hw.series h1
    have hlen : l.length = t.vals.length := by
      rw [← TLcs.clock_length hl, h2, hd, List.length_map]
    rw [hlen] at l1 l2 hl2
    obtain ⟨w1, w2⟩ := with_times hS hne hta d3 hw.rot l1 l2 hl2 h1
    refine ⟨⟨some ds, rt, c.orient, c.coord⟩, by simp [rebuild, h1, d1, d2, bind, Except.bind], ⟨w1, .inl ⟨h1, w2, d1⟩⟩, ?_⟩
    intro x hx f hf
    obtain ⟨i, hi⟩ := List.getElem?_of_mem hx
    have hi' : c.clock[i]? = some (x - r) := by rw [h2, hd, List.getElem?_map, hi]; rfl
    rw [TLcs.At_sample hS w1 (by rw [w2]; exact hi)]
    exact (TLcs.At_sample hS hw hi' f).1 hf
  · obtain ⟨h1, h2⟩ := h
    obtain ⟨g, g1, g2, g3⟩ := TLcs.At_static (S := S) h1
    refine ⟨⟨none, none, c.orient, c.coord⟩, by simp [rebuild, h1], ⟨⟨?_, by simp, by simp, hw.rot⟩, .inr ⟨h1, .inl rfl⟩⟩, ?_⟩
    · intro h
      have h1' : (⟨none, none, c.orient, c.coord⟩ : TLcs).dependent = false := h1
      rw [h1'] at h; cases h
    · intro x _ f hf
      obtain ⟨g', g1', g2', g3'⟩ := TLcs.At_static (S := S) (c := ⟨none, none, c.orient, c.coord⟩) h1
      rw [g3']
      rw [g3] at hf
      simp only at g1' g2'
      rw [g1] at g1'; rw [g2] at g2'
      rw [hf]
      exact Lcs.ext (Comp.static.inj g1') (Comp.static.inj g2')

/-- `Time(time, time_ref)` of a time that has been treated before -/
theorem ofTime_again {t : Time} (q : Option Int) (hta : t.vals.Pairwise (· < ·)) (h : t.abs = false → q.or t.ref = none) :
    t.ofTime q = .ok ⟨t.abs, t.vals, q.or t.ref⟩ := by
  have e : t.ofTime q = Time.make t.abs t.vals (q.or t.ref) := by
    unfold Time.ofTime; cases q <;> rfl
  rw [e]
  unfold Time.make
  cases hr : q.or t.ref with
  | none => simp [monotonic_of_strict hta]
  | some r =>
    have : t.abs = true := by
      by_contra h'
      rw [h (by simpa using h')] at hr; cases hr
    simp [this, monotonic_of_strict hta]

/-- the hypotheses about the times of a query -/
structure Query (csmRef tref : Option Int) (t : Time) : Prop where
  asc : t.vals.Pairwise (· < ·)
  ne : t.vals ≠ []
  ref : ∀ r, tref = some r → t.ref = some r
  rel : t.abs = false → t.ref = none
  csm : csmRef.isSome = true → t.abs = true

theorem interpolated_eq {S : Slerp} {csmRef tref : Option Int} {t : Time} {own : Bool} {e : TEdge}
    (h : ¬ (e.ref = none ∧ csmRef.isSome = true)) : onEdge.interpolated S csmRef t tref own e =
      (do .ok (turn (← e.interp S t (if own then e.ref else tref)) e) : Except TimeError TLcs) := by
  unfold onEdge.interpolated
  cases h1 : e.ref with
  | some a => rfl
  | none => cases csmRef with
    | none => rfl
    | some r => exact absurd ⟨h1, rfl⟩ h

/-- a single system -/
theorem onEdge_spec {S : Slerp} (hS : SlerpOk S) {csmRef tref : Option Int} {t : Time} (hq : Query csmRef tref t) (own : Bool)
    {e : TEdge} (he : e.WF) (hk : e.dependent = true → csmRef = none → e.ref.isSome = t.abs) :
    ∃ r, e.onEdge S csmRef t tref own = .ok r ∧ Known' t r ∧ (own = false → Known t r) ∧
      ∀ x ∈ t.vals, ∀ f, e.AtCsm S csmRef x f → r.At S x f := by
  have main : e.dependent = true → ∃ r, onEdge.interpolated S csmRef t tref own e = .ok r ∧ Known' t r ∧ (own = false → Known t r) ∧
      ∀ x ∈ t.vals, ∀ f, e.AtCsm S csmRef x f → r.At S x f := by
    intro hd
    by_cases hcase : e.ref = none ∧ csmRef.isSome = true
    · unfold onEdge.interpolated
      obtain ⟨hr, hc⟩ := hcase
      obtain ⟨r, rfl⟩ := Option.isSome_iff_exists.1 hc
      have hab := hq.csm rfl
      simp only [hr]
      have hsub : t.sub ⟨true, [r], none⟩ = .ok ⟨false, t.vals.map (· - r), none⟩ := by
        have hmono : Time.monotonic (t.vals.map (· - r)) = true := by
          apply monotonic_of_strict
          rw [List.pairwise_map]
          exact hq.asc.imp fun h => by simpa using h
        have hel : Time.elementwise (· - ·) t.vals [r] = .ok (t.vals.map (· - r)) := by
          unfold Time.elementwise
          split
          · rename_i x _ heq _; simp_all
          · rename_i y h1 h2; simp_all
          · rename_i h1 h2; exact absurd rfl (h2 r)
        have h1 : Time.ofTime ⟨true, [r], none⟩ none = .ok ⟨true, [r], none⟩ := by
          simp [Time.ofTime, Time.make, Time.monotonic]
        simp only [Time.sub, h1, bind, Except.bind, hab, Bool.not_true, Bool.false_and, Bool.false_eq_true, if_false, if_true, hel,
          Time.make, Bool.and_false]
        simp [hmono]
      have hda : (t.vals.map (· - r)).Pairwise (· < ·) := by
        rw [List.pairwise_map]
        exact hq.asc.imp fun h => by simpa using h
      obtain ⟨c, hc, hkn, hat⟩ := interp_spec hS he hd (t := ⟨false, t.vals.map (· - r), none⟩) (tref := none)
        (t' := ⟨false, t.vals.map (· - r), none⟩) (ofTime_again none hda (by simp)) hda (by simpa using hq.ne) (by rw [hr]; rfl)
      obtain ⟨c', hc', hkn', hat'⟩ := rebuild_spec hS hkn (t := t) (r := r) rfl hq.ne hq.asc
      obtain ⟨k1, k2⟩ := turn_spec hS e hkn'
      refine ⟨turn c' e, by simp only [hsub, hc, hc', bind, Except.bind], k1.weak, fun _ => k1, ?_⟩
      intro x hx f hf
      simp only [AtCsm, hr] at hf
      obtain ⟨g, hg, rfl⟩ := At_raw.1 hf
      exact k2 x hx g (hat' x hx g (hat (x - r) (List.mem_map_of_mem hx) g hg))
    · have hform : onEdge.interpolated S csmRef t tref own e =
          (do .ok (turn (← e.interp S t (if own then e.ref else tref)) e) : Except TimeError TLcs) :=
        interpolated_eq hcase
      have hform' : ∀ x f, e.AtCsm S csmRef x f → e.At S x f := by
        intro x f hf
        unfold AtCsm at hf
        cases h1 : e.ref with
        | some a => rw [h1] at hf; exact hf
        | none => cases h2 : csmRef with
          | none => rw [h1, h2] at hf; exact hf
          | some r => exact absurd ⟨h1, by rw [h2]; rfl⟩ hcase
      rw [hform]
      have hkind : e.ref.isSome = t.abs := by
        cases h2 : csmRef with
        | none => exact hk hd h2
        | some r =>
          rw [hq.csm (by rw [h2]; rfl)]
          cases h1 : e.ref with
          | none => exact absurd ⟨h1, by rw [h2]; rfl⟩ hcase
          | some a => rfl
      set q := if own then e.ref else tref with hqdef
      have hof := ofTime_again (t := t) q hq.asc (by
        intro h
        rw [hq.rel h, Option.or_none, hqdef]
        cases own with
        | true =>
          rw [h] at hkind
          simpa using hkind
        | false =>
          simp only [Bool.false_eq_true, if_false]
          cases htr : tref with
          | none => rfl
          | some r => have := hq.ref r htr; rw [hq.rel h] at this; cases this)
      obtain ⟨c, hc, hkn, hat⟩ := interp_spec hS he hd hof hq.asc hq.ne hkind
      have hkw : Known' t c := ⟨hkn.1, hkn.2.elim (fun h => .inl ⟨h.1, h.2.1⟩) .inr⟩
      obtain ⟨k1, k2⟩ := turn_spec' hS e hkw
      refine ⟨turn c e, by simp only [hc, bind, Except.bind], k1, fun ho => ?_, ?_⟩
      · have hkn' : Known t c := by
          have : (⟨t.abs, t.vals, q.or t.ref⟩ : Time) = t := by
            have hqq : q.or t.ref = t.ref := by
              rw [hqdef, ho]
              simp only [Bool.false_eq_true, if_false]
              cases htr : tref with
              | none => rfl
              | some r => rw [hq.ref r htr]; rfl
            rw [hqq]
          rw [this] at hkn
          exact hkn
        exact (turn_spec hS e hkn').1
      · intro x hx f hf
        obtain ⟨g, hg, rfl⟩ := At_raw.1 (hform' x f hf)
        exact k2 x hx g (hat x hx g hg)
  cases e with
  | expression e i => exact main rfl
  | discrete c =>
    simp only [onEdge]
    by_cases hd : c.dependent = true
    · rw [if_pos hd]
      exact main hd
    · rw [if_neg hd]
      have hd' : c.dependent = false := by simpa using hd
      have hkn : Known t c := ⟨he.1, .inr ⟨hd', .inl (he.2 hd')⟩⟩
      refine ⟨c, rfl, hkn.weak, fun _ => hkn, ?_⟩
      intro x _ f hf
      obtain ⟨g, g1, g2, g3⟩ := TLcs.At_static (S := S) hd'
      have hf' : ∃ y, c.At S y f := by
        unfold AtCsm at hf
        split at hf
        · exact ⟨_, hf⟩
        · exact ⟨_, hf⟩
      obtain ⟨y, hy⟩ := hf'
      rw [g3] at hy ⊢
      exact hy

end TEdge

open TEdge

/-- sums of static systems -/
theorem add_static {S : Slerp} {a b : TLcs} (ha : a.WF) (hb : b.WF) (hda : a.dependent = false) (hdb : b.dependent = false) :
    ∃ s, a.add S b = .ok s ∧ s.WF ∧ s.dependent = false ∧ ∀ x y z f g, a.At S x f → b.At S y g → s.At S z (f.add g) := by
  obtain ⟨l, r, tref, hu, lw, rw', ⟨l1, l2, l3, l4⟩, ⟨r1, r2, r3, r4⟩, ⟨e1, e2⟩, u1, u2, u3, u4⟩ := TLcs.unifyRefs_spec ha hb
  have ldep : l.dependent = false := by unfold TLcs.dependent at hda ⊢; rw [l1, l2]; exact hda
  have rdep : r.dependent = false := by unfold TLcs.dependent at hdb ⊢; rw [r1, r2]; exact hdb
  obtain ⟨t, ht⟩ : ∃ t, l.time = .ok t := by
    cases hl : l.times with
    | none => exact ⟨none, by rw [TLcs.time, hl]⟩
    | some ls => exact ⟨_, TLcs.time_eq hl (lw.times_asc hl)⟩
  have hadd := TLcs.add_eq hu ht (TLcs.interpTime_static (S := S) r t tref (.inr rdep))
  have hdep : (⟨TLcs.mergeTimes l r, if (TLcs.mergeTimes l r).isSome then tref else none, TLcs.sumOrient l r,
      TLcs.sumCoord l r⟩ : TLcs).dependent = false := by
    rw [TLcs.sum_dep, ldep, rdep]; rfl
  refine ⟨_, hadd, ⟨fun h => ?_, fun _ => ?_, fun h => ?_, TLcs.sum_rot lw rw'⟩, hdep, ?_⟩
  · rw [hdep] at h; cases h
  · simp only [TLcs.mergeTimes, ldep, rdep, Bool.false_eq_true, if_false]
    rcases lw.label ldep with h | ⟨x, h⟩
    · rcases rw'.label rdep with h' | ⟨y, h'⟩
      · rw [h, h']; exact .inl rfl
      · rw [h, h']; exact .inr ⟨y, rfl⟩
    · rcases rw'.label rdep with h' | ⟨y, h'⟩
      · rw [h, h']; exact .inr ⟨x, rfl⟩
      · rw [h, h']
        simp only
        split_ifs
        · exact .inr ⟨x, rfl⟩
        · exact .inl rfl
  · simp only at h ⊢
    rw [h]; rfl
  · intro x y z f g hf hg
    have hf' : l.At S x f := (TLcs.At_congr l3 l1 l2 x f).2 hf
    have hg' : r.At S y g := (TLcs.At_congr r3 r1 r2 y g).2 hg
    have := TLcs.sum_get (TLcs.get_of_label ldep hf' 0) (TLcs.get_of_label rdep hg' 0)
    obtain ⟨k, k1, k2, k3⟩ := TLcs.At_static (S := S) hdep
    simp only at k1 k2
    rw [k3]
    rw [k1, k2] at this
    simp only [Comp.get?, Option.some.injEq] at this
    exact Lcs.ext this.1.symm this.2.symm

/-- sums of systems with the same times -/
theorem add_known {S : Slerp} (hS : SlerpOk S) {t : Time} (hne : t.vals ≠ []) {a b : TLcs} (ha : Known t a) (hb : Known t b) :
    ∃ s, a.add S b = .ok s ∧ Known t s ∧ ∀ x ∈ t.vals, ∀ f g, a.At S x f → b.At S x g → s.At S x (f.add g) := by
  obtain ⟨aw, a1⟩ := ha
  obtain ⟨bw, b1⟩ := hb
  have two : ∀ c : TLcs, c.WF → c.dependent = true → c.clock = t.vals → t.vals.length ≠ 1 := by
    intro c hw hd hc
    obtain ⟨l, hl, h2, _⟩ := hw.series hd
    rw [← hc, TLcs.clock_length hl]; omega
  rcases a1 with ⟨ad, ac, ar⟩ | ⟨ad, al⟩
  · -- the left system has the times
    have hat := TLcs.times_some aw ad
    have hrefs : b.dependent = true → a.ref = b.ref := by
      intro hd
      rcases b1 with ⟨_, _, br⟩ | ⟨h, _⟩
      · rw [ar] at br; exact Except.ok.inj br
      · rw [hd] at h; cases h
    have hbref : b.dependent = false → b.ref = none := by
      intro hd
      rcases b1 with ⟨h, _⟩ | ⟨_, h | h⟩
      · rw [hd] at h; cases h
      · exact bw.ref h
      · exact absurd h (two a aw ad ac)
    obtain ⟨s, hs, sw, sd, sc, sat⟩ := TLcs.C22_left hS aw bw hat
      (fun h => by
        cases hbd : b.dependent with
        | true => rw [hrefs hbd]; exact h
        | false => rw [hbref hbd] at h; cases h)
      (fun h1 h2 => by rw [← hrefs h1]; exact h2)
    obtain ⟨c1, c2, c3⟩ := sc ad
    refine ⟨s, hs, ⟨sw, .inl ⟨sd.trans ad, c1.trans ac, ?_⟩⟩, ?_⟩
    · rw [ar]
      congr 1
      cases hsr : s.ref with
      | none => rw [hsr] at c2; simpa using c2.symm
      | some q =>
        rcases (c3 q hsr).1 with h | h
        · rw [h]
        · cases hbd : b.dependent with
          | true => rw [hrefs hbd, h]
          | false => rw [hbref hbd] at h; cases h
    · intro x hx f g hf hg
      exact sat x (ac ▸ hx) f g hf hg
  · rcases al with al | al
    · obtain ⟨s, hs, sw, sd, sc, sr, sat⟩ := TLcs.C22_right hS aw bw al
      refine ⟨s, hs, ⟨sw, ?_⟩, ?_⟩
      · rcases b1 with ⟨bd, bc, br⟩ | ⟨bd, bl⟩
        · exact .inl ⟨sd.trans bd, sc.trans bc, by rw [sr]; exact br⟩
        · refine .inr ⟨sd.trans bd, ?_⟩
          rcases bl with bl | bl
          · left
            rcases sw.label (sd.trans bd) with h | ⟨x, h⟩
            · exact h
            · rw [TLcs.clock_of_times h, TLcs.clock, bl] at sc; simp at sc
          · exact .inr bl
      · intro x hx f g hf hg
        refine sat x ?_ f g hf hg
        rcases b1 with ⟨bd, bc, br⟩ | ⟨bd, bl⟩
        · exact .inl (bc ▸ hx)
        · exact .inr bd
    · have bd : b.dependent = false := by
        rcases b1 with ⟨h, h', _⟩ | ⟨h, _⟩
        · exact absurd al (two b bw h h')
        · exact h
      obtain ⟨s, hs, sw, sd, sat⟩ := add_static (S := S) aw bw ad bd
      exact ⟨s, hs, ⟨sw, .inr ⟨sd, .inr al⟩⟩, fun x _ f g hf hg => sat x x x f g hf hg⟩

theorem addEdges_spec {S : Slerp} (hS : SlerpOk S) {csmRef tref : Option Int} {t : Time} (hq : Query csmRef tref t) :
    ∀ {es : List TEdge}, (∀ e ∈ es, e.WF ∧ (e.dependent = true → csmRef = none → e.ref.isSome = t.abs)) → ∀ {acc : TLcs},
      Known t acc → ∃ s, addEdges S csmRef t tref es acc = .ok s ∧ Known t s ∧ ∀ x ∈ t.vals, ∀ f fs, acc.At S x f →
        List.Forall₂ (fun e g => e.AtCsm S csmRef x g) es fs → s.At S x (fs.foldl Lcs.add f)
  | [], _, acc, ha => ⟨acc, rfl, ha, fun x hx f fs hf h => by cases h; exact hf⟩
  | e :: es, he, acc, ha => by
    obtain ⟨r, hr, _, hk, hat⟩ := onEdge_spec hS hq false (he e (by simp)).1 (he e (by simp)).2
    obtain ⟨s, hs, sk, sat⟩ := add_known hS hq.ne ha (hk rfl)
    obtain ⟨u, hu, uk, uat⟩ := addEdges_spec hS hq (es := es) (fun e' h => he e' (by simp [h])) sk
    refine ⟨u, by simp only [addEdges, hr, hs, hu, bind, Except.bind], uk, ?_⟩
    intro x hx f fs hf h
    cases h with
    | @cons _ g _ gs hg hgs => exact uat x hx (f.add g) gs (sat x hx f g hf (hat x hx g hg)) hgs

theorem along_foldl (f : Lcs ℝ) (fs : List (Lcs ℝ)) (p : Vec3 ℝ) : (fs.foldl Lcs.add f).toParent p = along (f :: fs) p := by
  induction fs generalizing f p with
  | nil => rfl
  | cons g gs ih =>
    rw [List.foldl_cons, ih]
    simp only [along, List.foldl_cons]
    rw [C01_add_composes]

/-- **C62.** A query for several points in time gives at each of them the composition of the systems of the path at
this point in time: systems with a reference time are taken at it, those without count from the reference time of the manager. -/
theorem C62_get_cs {S : Slerp} (hS : SlerpOk S) {csmRef timeRef : Option Int} {time t : Time}
    (ht : time.ofTime (timeRef.or csmRef) = .ok t) (hta : t.vals.Pairwise (· < ·)) (hne : t.vals ≠ []) {es : List TEdge}
    (he : ∀ e ∈ es, e.WF ∧ (e.dependent = true → csmRef = none → e.ref.isSome = t.abs)) :
    ∃ s, getCs S csmRef es time timeRef = .ok s ∧ s.WF ∧ (s.dependent = true → s.clock = t.vals) ∧
      ∀ x ∈ t.vals, ∀ fs, List.Forall₂ (fun e g => e.AtCsm S csmRef x g) es fs →
        ∃ f, s.At S x f ∧ ∀ p, f.toParent p = along fs p := by
  obtain ⟨_, o2, o3⟩ := TLcs.ofTime_ok ht
  have hq : Query csmRef (timeRef.or csmRef) t := by
    refine ⟨hta, hne, fun r hr => by rw [o3, hr]; rfl, fun h => ?_, fun h => ?_⟩
    · rw [o2] at h
      rw [o3]
      simpa using (Bool.or_eq_false_iff.1 h).2
    · rw [o2]
      obtain ⟨r, rfl⟩ := Option.isSome_iff_exists.1 h
      cases timeRef <;> simp
  have fin : ∀ s : TLcs, Known' t s → (s.dependent = true → s.clock = t.vals) := by
    intro s h hd
    rcases h.2 with h | h
    · exact h.2
    · rw [hd] at h; cases h.1
  unfold getCs
  simp only [ht, bind, Except.bind]
  match es, he with
  | [], _ =>
    refine ⟨_, rfl, ⟨by simp [TLcs.dependent, Comp.isSeries], by simp, by simp, Rotation.one⟩,
      by simp [TLcs.dependent, Comp.isSeries], ?_⟩
    intro x _ fs hfs
    cases hfs
    exact ⟨Lcs.default, ⟨.static, .static⟩, fun p => (C01_default_neutral (Lcs.default : Lcs ℝ) p).1⟩
  | [e], he =>
    obtain ⟨r, hr, hk, _, hat⟩ := onEdge_spec hS hq (timeRef.or csmRef).isNone (he e (by simp)).1 (he e (by simp)).2
    refine ⟨r, hr, hk.1, fin r hk, ?_⟩
    intro x hx fs hfs
    cases hfs with
    | @cons _ g _ gs hg hgs =>
      cases hgs
      exact ⟨g, hat x hx g hg, fun p => rfl⟩
  | e :: e' :: es, he =>
    obtain ⟨r, hr, _, hk, hat⟩ := onEdge_spec hS hq false (he e (by simp)).1 (he e (by simp)).2
    obtain ⟨s, hs, sk, sat⟩ := addEdges_spec hS hq (es := e' :: es) (fun e' h => he e' (by simp [List.mem_cons.1 h])) (hk rfl)
    refine ⟨s, by simp only [hr, hs], sk.1, fin s sk.weak, ?_⟩
    intro x hx fs hfs
    cases hfs with
    | @cons _ g _ gs hg hgs =>
      exact ⟨_, sat x hx g gs (hat x hx g hg) hgs, fun p => along_foldl g gs p⟩

/-- **C62** (kinds of time are not mixed): a time dependent system with a reference time can not be taken at times without one, and a
system without reference time not at points in time. -/
theorem C62_kind {S : Slerp} {tref : Option Int} {t t' : Time} (ht : t.ofTime tref = .ok t') {e : TEdge} (hd : e.dependent = true)
    (hk : e.ref.isSome ≠ t'.abs) : e.interp S t tref = .error .typeError := by
  cases e with
  | discrete c =>
    have hd' : c.dependent = true := hd
    have hk' : c.ref.isSome ≠ t'.abs := hk
    simp only [TEdge.interp, TLcs.interpTime, hd', if_true, ht, bind, Except.bind, if_pos hk']
  | expression e i =>
    have hk' : e.ref.isSome ≠ t'.abs := hk
    simp only [TEdge.interp, ELcs.interpTime, ht, bind, Except.bind, if_pos hk']

/-- an expression without reference time at a point in time -/
example (S : Slerp) : (TEdge.expression ⟨none, none, .static 1, fun _ => 0⟩ true).interp S ⟨true, [5], none⟩ none =
    .error .typeError :=
  C62_kind (t' := ⟨true, [5], none⟩) rfl rfl (by decide)

end Weldx
