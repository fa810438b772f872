import Verif.TimeLcs.Construct
import Verif.TimeLcs.Examples

/-!
# C71: creation of time dependent coordinate systems
-/

namespace Weldx

open Ip Matrix Csm TLcs

/-! ### specification -/

namespace RawTime

/-- the points in time of a time coordinate: time stamps, or time deltas since its reference time -/
def clock (t : RawTime) : List Int := if t.abs then t.vals else t.vals.map (· + t.ref.getD 0)

end RawTime

namespace XArr
variable {V : Type}

/-- the points in time of an array -/
def clock (x : XArr V) : List Int := (x.times.getD []).map (· + x.ref.getD 0)

/-- arrays as they are meant: series have at least two increasing times and as many values, other arrays have no times -/
structure WF (good : V → Prop) (x : XArr V) : Prop where
  series : x.comp.isSeries = true → ∃ l, x.times = some l ∧ 2 ≤ l.length ∧ l.Pairwise (· < ·) ∧ CompLen l.length x.comp
  static : x.comp.isSeries = false → x.times = none
  ref : x.times = none → x.ref = none
  all : CompAll good x.comp

end XArr

/-- the reference time of the given arrays -/
def baseRef (o : XArr (Mat3 ℝ)) (c : XArr (Vec3 ℝ)) : Option Int := if o.comp.isSeries then o.ref else c.ref

/-- without a reference time the time deltas of the arrays count from the one that is given, if any -/
def move (o : XArr (Mat3 ℝ)) (c : XArr (Vec3 ℝ)) (q : Option Int) : Int := match baseRef o c with
  | none => q.getD 0
  | some _ => 0

/-! ### lemmas -/

theorem map_add_sub (l : List Int) (a : Int) : (l.map (· - a)).map (· + a) = l := by
  rw [List.map_map]
  conv_rhs => rw [← List.map_id l]
  exact List.map_congr_left fun x _ => by simp

theorem map_sub_inj {l : List Int} (h : l ≠ []) {a b : Int} (e : l.map (· - a) = l.map (· - b)) : a = b := by
  cases l with
  | nil => exact absurd rfl h
  | cons x l =>
    simp only [List.map_cons, List.cons.injEq] at e
    omega

namespace XArr
variable {V : Type} {good : V → Prop} {mix : V → V → ℝ → V}

theorem clock_asc {x : XArr V} (h : x.WF good) : x.clock.Pairwise (· < ·) := by
  unfold clock
  rw [List.pairwise_map]
  cases hs : x.comp.isSeries with
  | true =>
    obtain ⟨l, hl, _, ha, _⟩ := h.series hs
    rw [hl]
    exact ha.imp fun h => by simpa using h
  | false => rw [h.static hs]; simp

theorem make_clock {x : XArr V} {l : List Int} (hl : x.times = some l) (ha : l.Pairwise (· < ·)) :
    Time.make false l x.ref = .ok ⟨x.ref.isSome, x.clock, x.ref⟩ := by
  have hm : Time.monotonic l = true := monotonic_of_strict ha
  unfold clock
  rw [hl]
  simp only [Time.make, Option.getD_some]
  cases hr : x.ref with
  | none => simp [hm]
  | some r =>
    have hm' : Time.monotonic (l.map (· + r)) = true := by
      apply monotonic_of_strict
      rw [List.pairwise_map]
      exact ha.imp fun h => by simpa using h
    simp [hm']

theorem compAt_ex {x : XArr V} (h : x.WF good) (t : Int) : ∃ v, CompAt mix x.clock x.comp t v := by
  cases hs : x.comp with
  | static v => exact ⟨v, .static⟩
  | series l =>
    obtain ⟨ts, h1, h2, _, h4⟩ := h.series (by rw [hs]; rfl)
    have hlen : x.clock.length = ts.length := by unfold clock; rw [h1]; simp
    rw [hs] at h4
    exact compAt_exists (clock_asc h) (by rw [Ne, ← List.length_eq_zero_iff]; omega) (hlen ▸ h4) t

/-- interpolation of one array at a finer time axis -/
theorem interp_spec (hm : MixOk good mix) {f : Series V → List Int → Option (List V)}
    (hi : ∀ {s : Series V}, Ascending s → s ≠ [] → (∀ p ∈ s, good p.2) → ∀ {ts : List Int}, ts.Pairwise (· < ·) →
      ∃ r, f s ts = some r ∧ List.Forall₂ (Value mix s) ts r)
    {x : XArr V} (hx : x.WF good) (hs : x.comp.isSeries = true) {own u : Time} (ho : own.vals = x.clock)
    (hu : u.vals.Pairwise (· < ·)) (hl : 2 ≤ u.vals.length) :
    ∃ y, x.interp f own u = .ok y ∧ y.times = some (u.vals.map (· - x.ref.getD 0)) ∧ y.ref = x.ref ∧ y.comp.isSeries = true ∧
      CompLen u.vals.length y.comp ∧ CompAll good y.comp ∧
      ∀ t ∈ u.vals, ∀ v, CompAt mix x.clock x.comp t v → CompAt mix u.vals y.comp t v := by
  obtain ⟨ts, h1, h2, h3, h4⟩ := hx.series hs
  have hg := hx.all
  have hc := clock_asc hx
  have hlen : x.clock.length = ts.length := by unfold clock; rw [h1]; simp
  cases hk : x.comp with
  | static v => rw [hk] at hs; cases hs
  | series l =>
    rw [hk] at h4 hg
    have h4' : l.length = ts.length := h4
    have hasc := zip_asc hc l
    have hgood := zip_good (ts := x.clock) hg
    have hzne : x.clock.zip l ≠ [] := by
      rw [Ne, ← List.length_eq_zero_iff, List.length_zip]
      omega
    obtain ⟨vs, hvs, hf⟩ := hi hasc hzne hgood hu
    have hlv := hf.length_eq
    have hvg : ∀ v ∈ vs, good v := by
      intro v hv
      obtain ⟨i, hi⟩ := List.getElem?_of_mem hv
      obtain ⟨a, _, h⟩ := forall₂_get' hf hi
      exact hm.value hgood h
    have key : ∀ t ∈ u.vals, ∀ v, CompAt mix x.clock (.series l) t v → CompAt mix u.vals (.series vs) t v := by
      intro t htm v hv
      cases hv with
      | series hv =>
        obtain ⟨i, hi⟩ := List.getElem?_of_mem htm
        obtain ⟨b, hb, hv'⟩ := forall₂_get hf hi
        rw [value_unique hasc (hm.ends hgood) hv hv']
        exact .series ((value_at_sample hm hu hvg hi hb b).2 rfl)
    simp only [interp, hk, ho, hvs]
    match vs, hlv, hvg, key with
    | [], hlv, _, _ => simp only [List.length_nil] at hlv; omega
    | [w], hlv, _, _ => simp only [List.length_cons, List.length_nil] at hlv; omega
    | w :: w' :: vs, hlv, hvg, key => exact ⟨_, rfl, rfl, rfl, rfl, hlv.symm, hvg, key⟩

end XArr

/-- what the two arrays and the merged data set have in common -/
structure Merged (S : Slerp) (o : XArr (Mat3 ℝ)) (c : XArr (Vec3 ℝ)) (d : TLcs) : Prop where
  wf : d.WF
  dependent : d.dependent = (o.comp.isSeries || c.comp.isSeries)
  static : d.dependent = false → d.times = none
  ref : d.ref = baseRef o c
  clock : ∀ x, x ∈ d.clock ↔ x ∈ o.clock ∨ x ∈ c.clock
  sample : ∀ x ∈ d.clock, ∀ f : Lcs ℝ, CompAt S o.clock o.comp x f.orientation → CompAt linMix c.clock c.comp x f.coordinates →
    d.At S x f
  every : o.comp.isSeries = false ∨ c.comp.isSeries = false ∨ o.times = c.times → ∀ x, ∀ f : Lcs ℝ,
    CompAt S o.clock o.comp x f.orientation → CompAt linMix c.clock c.comp x f.coordinates → d.At S x f

theorem compAt_static {V : Type} {mix : V → V → ℝ → V} {ts ts' : List Int} {k : Comp V} (h : k.isSeries = false) {t : Int} {v : V}
    (hv : CompAt mix ts k t v) : CompAt mix ts' k t v := by
  cases hv with
  | static => exact .static
  | series _ => cases h

/-- the merged data set of arrays with one reference time -/
theorem merged {S : Slerp} (hS : SlerpOk S) {o : XArr (Mat3 ℝ)} {c : XArr (Vec3 ℝ)} (ho : o.WF Rotation)
    (hc : c.WF fun _ => True) (hr : o.comp.isSeries = true → c.comp.isSeries = true → o.ref = c.ref) :
    ∃ o' c' d, unifyAxis S o c = .ok (o', c') ∧ mergeArrays o' c' = .ok d ∧ Merged S o c d := by
  cases hos : o.comp.isSeries with
  | false =>
    have ht := ho.static hos
    have hclk : o.clock = [] := by unfold XArr.clock; rw [ht]; rfl
    refine ⟨o, c, ⟨c.times, c.ref, o.comp, c.comp⟩, by simp only [unifyAxis, ht], by simp only [mergeArrays, ht], ?_⟩
    have hdep : (⟨c.times, c.ref, o.comp, c.comp⟩ : TLcs).dependent = c.comp.isSeries := by
      show (o.comp.isSeries || c.comp.isSeries) = _; rw [hos]; rfl
    have hat : ∀ x, ∀ f : Lcs ℝ, CompAt S o.clock o.comp x f.orientation → CompAt linMix c.clock c.comp x f.coordinates →
        (⟨c.times, c.ref, o.comp, c.comp⟩ : TLcs).At S x f := fun x f h1 h2 => ⟨compAt_static hos h1, h2⟩
    refine ⟨⟨?_, ?_, hc.ref, ho.all⟩, ?_, ?_, ?_, ?_, fun x _ f => hat x f, fun _ x f => hat x f⟩
    · intro h
      obtain ⟨l, h1, h2, h3, h4⟩ := hc.series (hdep ▸ h)
      refine ⟨l, h1, h2, h3, ?_, h4⟩
      show CompLen _ o.comp
      cases hk : o.comp with
      | static _ => trivial
      | series _ => rw [hk] at hos; cases hos
    · exact fun h => .inl (hc.static (hdep ▸ h))
    · rw [hdep, hos]; rfl
    · exact fun h => hc.static (hdep ▸ h)
    · unfold baseRef; rw [hos]; rfl
    · intro x; rw [hclk]; simp [TLcs.clock, XArr.clock]
  | true =>
    obtain ⟨a, a1, a2, a3, a4⟩ := ho.series hos
    cases hcs : c.comp.isSeries with
    | false =>
      have ht := hc.static hcs
      have hclk : c.clock = [] := by unfold XArr.clock; rw [ht]; rfl
      refine ⟨o, c, ⟨some a, o.ref, o.comp, c.comp⟩, by simp only [unifyAxis, ht, a1], by simp only [mergeArrays, ht, a1], ?_⟩
      have hdep : (⟨some a, o.ref, o.comp, c.comp⟩ : TLcs).dependent = true := by
        show (o.comp.isSeries || c.comp.isSeries) = _; rw [hos]; rfl
      have hclk' : (⟨some a, o.ref, o.comp, c.comp⟩ : TLcs).clock = o.clock := by unfold TLcs.clock XArr.clock; rw [a1]
      have hat : ∀ x, ∀ f : Lcs ℝ, CompAt S o.clock o.comp x f.orientation → CompAt linMix c.clock c.comp x f.coordinates →
          (⟨some a, o.ref, o.comp, c.comp⟩ : TLcs).At S x f := fun x f h1 h2 =>
        ⟨by rw [hclk']; exact h1, compAt_static hcs h2⟩
      refine ⟨⟨fun _ => ⟨a, rfl, a2, a3, a4, ?_⟩, (fun h => by rw [hdep] at h; cases h), (fun h => by cases h), ho.all⟩, ?_, ?_, ?_, ?_,
        fun x _ f => hat x f, fun _ x f => hat x f⟩
      · show CompLen _ c.comp
        cases hk : c.comp with
        | static _ => trivial
        | series _ => rw [hk] at hcs; cases hcs
      · rw [hdep, hos]; rfl
      · exact fun h => by rw [hdep] at h; cases h
      · unfold baseRef; rw [hos]; rfl
      · intro x; rw [hclk', hclk]; simp
    | true =>
      have hr := hr hos hcs
      obtain ⟨b, b1, b2, b3, b4⟩ := hc.series hcs
      by_cases hab : a = b
      · subst hab
        have hclk : c.clock = o.clock := by unfold XArr.clock; rw [a1, b1, hr]
        refine ⟨o, c, ⟨some a, o.ref, o.comp, c.comp⟩, by simp [unifyAxis, a1, b1], by simp [mergeArrays, a1, b1], ?_⟩
        have hdep : (⟨some a, o.ref, o.comp, c.comp⟩ : TLcs).dependent = true := by
          show (o.comp.isSeries || c.comp.isSeries) = _; rw [hos]; rfl
        have hclk' : (⟨some a, o.ref, o.comp, c.comp⟩ : TLcs).clock = o.clock := by unfold TLcs.clock XArr.clock; rw [a1]
        have hat : ∀ x, ∀ f : Lcs ℝ, CompAt S o.clock o.comp x f.orientation → CompAt linMix c.clock c.comp x f.coordinates →
            (⟨some a, o.ref, o.comp, c.comp⟩ : TLcs).At S x f := fun x f h1 h2 =>
          ⟨by rw [hclk']; exact h1, by rw [hclk', ← hclk]; exact h2⟩
        refine ⟨⟨fun _ => ⟨a, rfl, a2, a3, a4, b4⟩, (fun h => by rw [hdep] at h; cases h), (fun h => by cases h), ho.all⟩, ?_, ?_, ?_, ?_,
          fun x _ f => hat x f, fun _ x f => hat x f⟩
        · rw [hdep, hos]; rfl
        · exact fun h => by rw [hdep] at h; cases h
        · unfold baseRef; rw [hos]; rfl
        · intro x; rw [hclk', hclk]; simp
      · have ho' := XArr.clock_asc ho
        have hc' := XArr.clock_asc hc
        have hm1 := XArr.make_clock a1 a3
        have hm2 := XArr.make_clock b1 b3
        have hv : ∀ t ∈ [(⟨o.ref.isSome, o.clock, o.ref⟩ : Time), ⟨c.ref.isSome, c.clock, c.ref⟩],
            t.Valid ∧ t.abs = o.ref.isSome := by
          intro t ht
          simp only [List.mem_cons, List.not_mem_nil, or_false] at ht
          rcases ht with rfl | rfl
          · exact ⟨⟨sorted_le ho', fun h => by simpa using h⟩, rfl⟩
          · exact ⟨⟨sorted_le hc', fun h => by simpa using h⟩, by rw [hr]⟩
        obtain ⟨u, hu, _⟩ := Time.C24_union (by simp) hv
        obtain ⟨hmem, _, hstr⟩ := Time.C24_union_values hv hu
        have hus : u.vals.Pairwise (· < ·) := hstr (by
          intro t ht
          simp only [List.mem_cons, List.not_mem_nil, or_false] at ht
          rcases ht with rfl | rfl
          · exact ho'.imp fun h => ne_of_lt h
          · exact hc'.imp fun h => ne_of_lt h)
        have hmem' : ∀ x, x ∈ u.vals ↔ x ∈ o.clock ∨ x ∈ c.clock := by
          intro x; rw [hmem]; simp
        have hul : 2 ≤ u.vals.length := by
          have h1 : o.clock.length ≤ u.vals.length :=
            (List.subperm_of_subset (ho'.imp fun h => ne_of_lt h) fun x hx => (hmem' x).2 (.inl hx)).length_le
          have h2 : o.clock.length = a.length := by unfold XArr.clock; rw [a1]; simp
          omega
        obtain ⟨o', o1, o2, o3, o4, o5, o6, o7⟩ := XArr.interp_spec (f := interpOrientation S) hS
          (fun h1 h2 h3 _ h4 => interp_orientation h1 h2 (hS.ends h3) h4) ho hos (own := ⟨o.ref.isSome, o.clock, o.ref⟩) rfl hus hul
        obtain ⟨c', c1, c2, c3, c4, c5, c6, c7⟩ := XArr.interp_spec (f := interpCoordinates) (linMix_ok (V := Vec3 ℝ))
          (fun h1 h2 _ _ h4 => interp_linear h1 h2 h4) hc hcs (own := ⟨c.ref.isSome, c.clock, c.ref⟩) rfl hus hul
        refine ⟨o', c', ⟨some (u.vals.map (· - o.ref.getD 0)), o.ref, o'.comp, c'.comp⟩, ?_, ?_, ?_⟩
        · simp only [unifyAxis, a1, b1, hos, hcs, Bool.and_self, Bool.true_and, ne_eq, hab, not_false_eq_true, decide_true, if_true,
            hm1, hm2, hu, o1, c1, bind, Except.bind]
        · simp only [mergeArrays, o2, c2, hr, o3, if_true]
        · set d : TLcs := ⟨some (u.vals.map (· - o.ref.getD 0)), o.ref, o'.comp, c'.comp⟩ with hd
          have hdep : d.dependent = true := by
            show (o'.comp.isSeries || c'.comp.isSeries) = _; rw [o4]; rfl
          have hclk : d.clock = u.vals := map_add_sub _ _
          refine ⟨⟨fun _ => ⟨_, rfl, by simpa using hul, ?_, by simpa using o5, by simpa using c5⟩, (fun h => by rw [hdep] at h; cases h),
            (fun h => by cases h), o6⟩, ?_, ?_, ?_, ?_, ?_, ?_⟩
          · rw [List.pairwise_map]; exact hus.imp fun h => by simpa using h
          · rw [hdep, hos]; rfl
          · exact fun h => by rw [hdep] at h; cases h
          · unfold baseRef; rw [hos]; rfl
          · intro x; rw [hclk, hmem']
          · intro x hx f h1 h2
            rw [hclk] at hx
            unfold TLcs.At
            rw [hclk]
            exact ⟨o7 x hx _ h1, c7 x hx _ h2⟩
          · rintro (h | h | h)
            · rw [hos] at h; cases h
            · rw [hcs] at h; cases h
            · rw [a1, b1] at h; exact absurd (Option.some.inj h) hab

/-! ### C71 -/

/-- the reference time that is given -/
theorem reset_base {d : TLcs} (h : d.WF) (q : Option Int) {r : TLcs} (hr : r = match (motive := Option Int → TLcs) q with
      | none => d | some q => d.reset q) :
    r.WF ∧ r.dependent = d.dependent ∧ (r.times = none ↔ d.times = none) ∧
      (d.times ≠ none → r.ref = q.or d.ref) ∧ r.orient = d.orient ∧ r.coord = d.coord ∧
      r.clock = d.clock.map (· + match d.ref with | none => q.getD 0 | some _ => 0) := by
  subst hr
  cases q with
  | none =>
    refine ⟨h, rfl, Iff.rfl, fun _ => rfl, rfl, rfl, ?_⟩
    cases d.ref <;> simp
  | some q =>
    obtain ⟨h1, h2, h3, h4, h5, h6, h7⟩ := reset_spec h q
    refine ⟨h1, by unfold TLcs.dependent; simp only [h2, h3], h6, fun hn => by simpa using h4 hn, h2, h3, ?_⟩
    show (d.reset q).clock = _
    cases hr : d.ref with
    | some a => rw [h7 (by rw [hr]; simp)]; simp
    | none =>
      cases ht : d.times with
      | none => rw [h5 ht]; simp [TLcs.clock, ht]
      | some l =>
        rw [(C21_relative (S := jump) ht q hr).2.2.1]
        simp [TLcs.clock, ht, hr]

/-- **C71.** A system made of arrays that count from the same reference time has these values at all of their times. It is time
dependent if one of the arrays is, its times are those of both arrays, and it counts from the reference time that is given or
else from that of the arrays. -/
theorem C71_values {S : Slerp} (hS : SlerpOk S) {o : XArr (Mat3 ℝ)} {c : XArr (Vec3 ℝ)} (ho : o.WF Rotation)
    (hc : c.WF fun _ => True) (hr : o.comp.isSeries = true → c.comp.isSeries = true → o.ref = c.ref) (q : Option Int) :
    ∃ d, TLcs.assemble S o c q = .ok d ∧ d.WF ∧ d.dependent = (o.comp.isSeries || c.comp.isSeries) ∧
      (d.dependent = false → d.times = none) ∧ (d.dependent = true → d.ref = q.or (baseRef o c)) ∧
      (∀ x, x ∈ d.clock ↔ x - move o c q ∈ o.clock ∨ x - move o c q ∈ c.clock) ∧
      (∀ x, x ∈ d.clock ∨ o.comp.isSeries = false ∨ c.comp.isSeries = false ∨ o.times = c.times → ∀ f : Lcs ℝ, d.At S x f ↔
        CompAt S o.clock o.comp (x - move o c q) f.orientation ∧ CompAt linMix c.clock c.comp (x - move o c q) f.coordinates) := by
  obtain ⟨o', c', d, h1, h2, m⟩ := merged hS ho hc hr
  obtain ⟨r1, r2, r3, r4, r5, r6, r7⟩ := reset_base m.wf q rfl
  refine ⟨_, ?_, r1, r2.trans m.dependent, fun h => r3.2 (m.static (r2 ▸ h)), ?_, ?_, ?_⟩
  · simp only [TLcs.assemble, h1, h2, bind, Except.bind]
    cases q <;> rfl
  · intro h
    obtain ⟨l, hl, _⟩ := m.wf.series (r2 ▸ h)
    rw [r4 (by rw [hl]; simp), m.ref]
  · intro x
    rw [r7, ← m.clock, List.mem_map, m.ref]
    constructor
    · rintro ⟨y, hy, rfl⟩
      unfold move
      convert hy using 1
      simp
    · intro h
      exact ⟨_, h, by unfold move; simp⟩
  · intro x hx
    have key : ∀ f : Lcs ℝ, CompAt S o.clock o.comp (x - move o c q) f.orientation →
        CompAt linMix c.clock c.comp (x - move o c q) f.coordinates → d.At S (x - move o c q) f := by
      rcases hx with hx | hx
      · apply m.sample
        rw [r7, m.ref] at hx
        obtain ⟨y, hy, rfl⟩ := List.mem_map.1 hx
        unfold move
        convert hy using 1
        simp
      · exact m.every hx _
    intro f
    have e : ∀ g : Lcs ℝ, d.At S (x - move o c q) g ↔ TLcs.At S (match (motive := Option Int → TLcs) q with
      | none => d | some q => d.reset q) x g := by
      intro g
      unfold TLcs.At
      rw [r5, r6, r7, m.ref, compAt_move, compAt_move]
      rfl
    rw [← e]
    constructor
    · intro hf
      obtain ⟨R, hR⟩ := XArr.compAt_ex (mix := S) ho (x - move o c q)
      obtain ⟨T, hT⟩ := XArr.compAt_ex (mix := linMix) hc (x - move o c q)
      have := At_unique hS m.wf hf (key ⟨R, T⟩ hR hT)
      rw [this]
      exact ⟨hR, hT⟩
    · exact fun h => key f h.1 h.2

/-! ### the arguments -/

/-- times as an array: time deltas and reference time -/
theorem time_array {t : Time} (hne : t.vals ≠ []) : ∃ ds r, t.asTimedelta = .ok ds ∧ t.referenceTime = .ok r ∧
    ds.map (· + r.getD 0) = t.vals ∧ r.isSome = t.abs := by
  cases hab : t.abs with
  | false => exact ⟨t.vals, none, by simp [Time.asTimedelta, hab], by simp [Time.referenceTime, hab], by simp, rfl⟩
  | true =>
    obtain ⟨r, hr⟩ : ∃ r, t.referenceTime = .ok (some r) := by
      simp only [Time.referenceTime, hab, if_true]
      cases t.ref with
      | some r => exact ⟨r, rfl⟩
      | none =>
        cases hv : t.vals with
        | nil => exact absurd hv hne
        | cons a l => exact ⟨a, rfl⟩
    exact ⟨t.vals.map (· - r), some r, by simp [Time.asTimedelta, hab, hr, bind, Except.bind], hr, map_add_sub _ _, rfl⟩

/-- **C71.** Values with a time dimension get the points in time that are given, and must be as many. -/
theorem C71_values_arg {V : Type} (dflt : V) {t : Time} (hne : t.vals ≠ []) (l : List V) :
    (l.length = t.vals.length → ∃ x, XArg.build dflt (some t) (.values l) = .ok x ∧ x.comp = .series l ∧ x.clock = t.vals ∧
      t.referenceTime = .ok x.ref ∧ x.times.isSome = true) ∧
    (l.length ≠ t.vals.length → XArg.build dflt (some t) (.values l) = .error .valueError) ∧
    XArg.build dflt none (.values l) = .error .valueError := by
  obtain ⟨ds, r, h1, h2, h3, _⟩ := time_array hne
  have hlen : ds.length = t.vals.length := by rw [← h3, List.length_map]
  refine ⟨fun h => ?_, fun h => ?_, rfl⟩
  · refine ⟨⟨some ds, r, .series l⟩, ?_, rfl, h3, h2, rfl⟩
    simp only [XArg.build, h1, h2, bind, Except.bind, hlen, h, if_true]
  · simp only [XArg.build, h1, bind, Except.bind, hlen]
    rw [if_neg (Ne.symm h)]

/-- **C71.** A given array keeps its points in time, whether they are time stamps or time deltas; time stamps count from the
reference time of the array or from the first time stamp. -/
theorem C71_array_arg {V : Type} (dflt : V) (t : Option Time) {w : RawTime} (hne : w.vals ≠ []) (k : Comp V) :
    ∃ x, XArg.build dflt t (.array (some w) k) = .ok x ∧ x.comp = k ∧ x.clock = w.clock ∧
      x.ref = (if w.abs then w.ref.or w.vals.head? else w.ref) := by
  obtain ⟨ab, l, r⟩ := w
  cases ab with
  | false => exact ⟨⟨some l, r, k⟩, by simp [XArg.build, RawTime.restore, bind, Except.bind], rfl, rfl, rfl⟩
  | true =>
    cases r with
    | some r =>
      exact ⟨⟨some (l.map (· - r)), some r, k⟩, by simp [XArg.build, RawTime.restore, bind, Except.bind], rfl, map_add_sub _ _, rfl⟩
    | none =>
      cases l with
      | nil => exact absurd rfl hne
      | cons a l =>
        exact ⟨⟨some ((a :: l).map (· - a)), some a, k⟩, by simp [XArg.build, RawTime.restore, bind, Except.bind], rfl,
          map_add_sub _ _, rfl⟩

/-- the class `Time` that is made of the parameters -/
theorem buildTime_ref {t t' : Time} {tref : Option Int} (h : t.ofTime tref = .ok t') :
    buildTime (some t) tref = .ok (some t') := by
  simp only [buildTime, h, bind, Except.bind]

/-- **C71.** Orientations and coordinates with a time dimension: the system has exactly these values at the given times. -/
theorem C71_arrays {S : Slerp} {lo : List (Mat3 ℝ)} {lc : List (Vec3 ℝ)} {t t' : Time} {tref : Option Int}
    (ht : t.ofTime tref = .ok t') (hne : t'.vals ≠ []) (h1 : lo.length = t'.vals.length) (h2 : lc.length = t'.vals.length) :
    ∃ d, TLcs.construct S (.values lo) (.values lc) (some t) tref = .ok d ∧ d.clock = t'.vals ∧
      t'.referenceTime = .ok d.ref ∧ d.orient = .series lo ∧ d.coord = .series lc := by
  obtain ⟨ds, r, a1, a2, a3, _⟩ := time_array hne
  have hlen : ds.length = t'.vals.length := by rw [← a3, List.length_map]
  refine ⟨⟨some ds, r, .series lo, .series lc⟩, ?_, a3, a2, rfl, rfl⟩
  simp only [TLcs.construct, buildTime_ref ht, bind, Except.bind, XArg.build, a1, a2, hlen, h1, h2, if_true, classRef, TLcs.assemble,
    unifyAxis, mergeArrays, ne_eq, not_true_eq_false, decide_false, Bool.and_false, Bool.false_eq_true, if_false]
  cases r with
  | none => rfl
  | some r => simp [TLcs.reset]

/-- **C71.** A system of two single values is static: times and reference time are dropped. -/
theorem C71_static {S : Slerp} (R : Mat3 ℝ) (T : Vec3 ℝ) {time : Option Time} {tref : Option Int} {t' : Option Time} {q : Option Int}
    (ht : buildTime time tref = .ok t') (hq : classRef t' = .ok q) :
    TLcs.construct S (.value R) (.value T) time tref = .ok ⟨none, none, .static R, .static T⟩ := by
  simp only [TLcs.construct, ht, bind, Except.bind, XArg.build, hq, TLcs.assemble, unifyAxis, mergeArrays]
  cases q <;> rfl

/-- **C71.** Nothing given: the identity. -/
theorem C71_default {S : Slerp} : TLcs.construct S .none .none none none = .ok ⟨none, none, .static 1, .static 0⟩ := rfl

/-- **C71.** Times without reference time have no influence on arrays that have their own. -/
theorem C71_time_ignored {S : Slerp} (w : Option RawTime) (k : Comp (Mat3 ℝ)) (w' : Option RawTime) (k' : Comp (Vec3 ℝ)) {t : Time}
    (hm : t.vals.Pairwise (· ≤ ·)) (ha : t.abs = false) (hr : t.ref = none) :
    TLcs.construct S (.array w k) (.array w' k') (some t) none = TLcs.construct S (.array w k) (.array w' k') none none := by
  have e : t.ofTime none = .ok t := by
    obtain ⟨ab, l, r⟩ := t
    simp only at hm ha hr
    subst ha hr
    simp [Time.ofTime, Time.make, (Time.monotonic_iff l).2 hm]
  have hq : classRef (some t) = .ok none := by simp [classRef, Time.referenceTime, ha]
  have hb : ∀ (V : Type) (d : V) (w : Option RawTime) (k : Comp V), XArg.build d (some t) (.array w k) = XArg.build d none (.array w k) := by
    intro V d w k; cases w <;> rfl
  have hn : buildTime none none = .ok none := rfl
  have hn' : classRef none = .ok none := rfl
  simp only [TLcs.construct, buildTime_ref e, bind, Except.bind, hq, hn, hn', hb]

/-! ### different reference times -/

/-- **C71.** Only the time deltas of the arrays are compared. With the same time deltas the reference time of the coordinates is
replaced by that of the orientations. -/
theorem C71_same_deltas {S : Slerp} {o : XArr (Mat3 ℝ)} {c : XArr (Vec3 ℝ)} {a : List Int} (ho : o.times = some a)
    (hc : c.times = some a) : TLcs.assemble S o c none = .ok ⟨some a, o.ref, o.comp, c.comp⟩ := by
  simp [TLcs.assemble, unifyAxis, mergeArrays, ho, hc, bind, Except.bind]

/-- **C71.** The coordinates are then moved in time by the difference of the reference times: the time at which they have a value
differs from the given one. -/
theorem C71_moved {S : Slerp} {o : XArr (Mat3 ℝ)} {c : XArr (Vec3 ℝ)} {a : List Int} (ho : o.times = some a)
    (hc : c.times = some a) (t : Int) (v : Vec3 ℝ) : ∃ d, TLcs.assemble S o c none = .ok d ∧
      (CompAt linMix d.clock d.coord t v ↔ CompAt linMix c.clock c.comp (t - (o.ref.getD 0 - c.ref.getD 0)) v) := by
  refine ⟨_, C71_same_deltas ho hc, ?_⟩
  rw [← compAt_move]
  unfold TLcs.clock XArr.clock
  rw [hc, List.map_map]
  have e : ((fun x : Int => x + (o.ref.getD 0 - c.ref.getD 0)) ∘ fun x => x + c.ref.getD 0) = fun x => x + o.ref.getD 0 := by
    funext x; simp
  rw [Option.getD_some, e]

/-- **C71.** With different time deltas, arrays with different reference times are not accepted. -/
theorem C71_conflict {S : Slerp} (hS : SlerpOk S) {o : XArr (Mat3 ℝ)} {c : XArr (Vec3 ℝ)} (ho : o.WF Rotation)
    (hc : c.WF fun _ => True) (hos : o.comp.isSeries = true) (hcs : c.comp.isSeries = true) (hne : o.times ≠ c.times)
    {x y : Int} (hx : o.ref = some x) (hy : c.ref = some y) (hxy : x ≠ y) (q : Option Int) :
    TLcs.assemble S o c q = .error .valueError := by
  obtain ⟨a, a1, a2, a3, a4⟩ := ho.series hos
  obtain ⟨b, b1, b2, b3, b4⟩ := hc.series hcs
  have hab : a ≠ b := by rw [a1, b1] at hne; exact fun h => hne (by rw [h])
  have ho' := XArr.clock_asc ho
  have hc' := XArr.clock_asc hc
  have hm1 := XArr.make_clock a1 a3
  have hm2 := XArr.make_clock b1 b3
  have hv : ∀ t ∈ [(⟨o.ref.isSome, o.clock, o.ref⟩ : Time), ⟨c.ref.isSome, c.clock, c.ref⟩], t.Valid ∧ t.abs = true := by
    intro t ht
    simp only [List.mem_cons, List.not_mem_nil, or_false] at ht
    rcases ht with rfl | rfl
    · exact ⟨⟨sorted_le ho', fun h => by simpa using h⟩, by rw [hx]; rfl⟩
    · exact ⟨⟨sorted_le hc', fun h => by simpa using h⟩, by rw [hy]; rfl⟩
  obtain ⟨u, hu, _⟩ := Time.C24_union (by simp) hv
  obtain ⟨hmem, _, hstr⟩ := Time.C24_union_values hv hu
  have hus : u.vals.Pairwise (· < ·) := hstr (by
    intro t ht
    simp only [List.mem_cons, List.not_mem_nil, or_false] at ht
    rcases ht with rfl | rfl
    · exact ho'.imp fun h => ne_of_lt h
    · exact hc'.imp fun h => ne_of_lt h)
  have hul : 2 ≤ u.vals.length := by
    have h1 : o.clock.length ≤ u.vals.length :=
      (List.subperm_of_subset (ho'.imp fun h => ne_of_lt h) fun x hx => (hmem x).2 ⟨_, List.mem_cons_self, hx⟩).length_le
    have h2 : o.clock.length = a.length := by unfold XArr.clock; rw [a1]; simp
    omega
  obtain ⟨o', o1, o2, _⟩ := XArr.interp_spec (f := interpOrientation S) hS
    (fun h1 h2 h3 _ h4 => interp_orientation h1 h2 (hS.ends h3) h4) ho hos (own := ⟨o.ref.isSome, o.clock, o.ref⟩) rfl hus hul
  obtain ⟨c', c1, c2, _⟩ := XArr.interp_spec (f := interpCoordinates) (linMix_ok (V := Vec3 ℝ))
    (fun h1 h2 _ _ h4 => interp_linear h1 h2 h4) hc hcs (own := ⟨c.ref.isSome, c.clock, c.ref⟩) rfl hus hul
  have hd : ¬ u.vals.map (· - o.ref.getD 0) = u.vals.map (· - c.ref.getD 0) := by
    intro h
    refine hxy ?_
    have := map_sub_inj (by rw [Ne, ← List.length_eq_zero_iff]; omega) h
    simpa [hx, hy] using this
  simp only [TLcs.assemble, unifyAxis, a1, b1, hos, hcs, Bool.and_self, ne_eq, hab, not_false_eq_true, decide_true,
    if_true, hm1, hm2, hu, o1, c1, bind, Except.bind, mergeArrays, o2, c2]
  rw [if_neg hd]

/-- **C71.** Nor are arrays of which only one has a reference time. -/
theorem C71_kinds {S : Slerp} {o : XArr (Mat3 ℝ)} {c : XArr (Vec3 ℝ)} (ho : o.WF Rotation) (hc : c.WF fun _ => True)
    (hos : o.comp.isSeries = true) (hcs : c.comp.isSeries = true) (hne : o.times ≠ c.times) (hk : o.ref.isSome ≠ c.ref.isSome)
    (q : Option Int) : TLcs.assemble S o c q = .error .typeError := by
  obtain ⟨a, a1, a2, a3, a4⟩ := ho.series hos
  obtain ⟨b, b1, b2, b3, b4⟩ := hc.series hcs
  have hab : a ≠ b := by rw [a1, b1] at hne; exact fun h => hne (by rw [h])
  have hu : Time.union [(⟨o.ref.isSome, o.clock, o.ref⟩ : Time), ⟨c.ref.isSome, c.clock, c.ref⟩] = .error .typeError := by
    refine Time.C24_union_mixed (fun t ht => ?_) List.mem_cons_self (List.mem_cons_of_mem _ List.mem_cons_self) hk
    simp only [List.mem_cons, List.not_mem_nil, or_false] at ht
    rcases ht with rfl | rfl
    · exact ⟨sorted_le (XArr.clock_asc ho), fun h => by simpa using h⟩
    · exact ⟨sorted_le (XArr.clock_asc hc), fun h => by simpa using h⟩
  simp only [TLcs.assemble, unifyAxis, a1, b1, hos, hcs, Bool.and_self, ne_eq, hab, not_false_eq_true, decide_true,
    if_true, XArr.make_clock a1 a3, XArr.make_clock b1 b3, hu, bind, Except.bind]

/-! ### coordinates given by an expression -/

/-- **C71.** The expression counts from the reference time that is given with the times; orientations in an array of time deltas
without reference time count from the same one. -/
theorem C71_expression {t : Option Time} {time : Option Time} {tref q : Option Int} (ht : buildTime time tref = .ok t)
    (hq : classRef t = .ok q) {a : XArg (Mat3 ℝ)} {o : XArr (Mat3 ℝ)} (ho : a.build 1 t = .ok o) (ho' : o.WF Rotation)
    (f : Int → Vec3 ℝ) :
    ∃ e, XLcs.construct a f time tref = .ok e ∧ e.expr = f ∧ e.orient = o.comp ∧ e.tsRef = q ∧
      (o.times ≠ none → e.dsRef = q.or o.ref) ∧ (o.ref ≠ none → (e.times.getD []).map (· + e.dsRef.getD 0) = o.clock) ∧
      (o.times ≠ none → (e.dsRef = e.tsRef ↔ q ≠ none ∨ o.ref = none)) := by
  cases q with
  | none =>
    refine ⟨⟨o.times, o.ref, none, o.comp, f⟩, by simp only [XLcs.construct, ht, ho, hq, bind, Except.bind], rfl, rfl, rfl,
      fun _ => rfl, fun _ => rfl, fun _ => by simp⟩
  | some q =>
    have hwf : (⟨o.times, o.ref, o.comp, .static 0⟩ : TLcs).WF := by
      refine ⟨?_, ?_, ho'.ref, ho'.all⟩
      · intro h
        obtain ⟨l, h1, h2, h3, h4⟩ := ho'.series (by simpa [TLcs.dependent, Comp.isSeries] using h)
        exact ⟨l, h1, h2, h3, h4, trivial⟩
      · intro h
        exact .inl (ho'.static (by simpa [TLcs.dependent, Comp.isSeries] using h))
    obtain ⟨_, _, _, h4, _, _, h7⟩ := reset_spec hwf q
    refine ⟨⟨((⟨o.times, o.ref, o.comp, .static 0⟩ : TLcs).reset q).times, ((⟨o.times, o.ref, o.comp, .static 0⟩ : TLcs).reset q).ref,
      some q, o.comp, f⟩, by simp only [XLcs.construct, ht, ho, hq, bind, Except.bind], rfl, rfl, rfl, ?_, ?_, ?_⟩
    · exact fun h => h4 h
    · exact fun h => h7 h
    · intro h
      rw [show _ = some q from h4 h]
      simp

/-- **C71.** Otherwise, with orientations that have a reference time and no reference time given, the system can not be
evaluated: neither time stamps nor time deltas are accepted. -/
theorem C71_expression_unusable {S : Slerp} {w : RawTime} (hne : w.vals.Pairwise (· ≤ ·)) (hr : (w.abs = true ∧ w.vals ≠ []) ∨ w.ref ≠ none)
    (l : List (Mat3 ℝ)) (f : Int → Vec3 ℝ) :
    ∃ e, XLcs.construct (.array (some w) (.series l)) f none none = .ok e ∧
      ∀ t tref, ∀ d, e.interpTime S t tref ≠ .ok d := by
  have key : ∃ ds r, w.restore = .ok (ds, some r) ∧ ds.Pairwise (· ≤ ·) := by
    obtain ⟨ab, v, r⟩ := w
    have hp : ∀ a : Int, (v.map (· - a)).Pairwise (· ≤ ·) := fun a => by
      rw [List.pairwise_map]; exact hne.imp fun h => by simpa using h
    cases ab with
    | false =>
      cases r with
      | none => simp at hr
      | some r => exact ⟨v, r, rfl, hne⟩
    | true =>
      cases r with
      | some r => exact ⟨_, r, rfl, hp r⟩
      | none =>
        cases v with
        | nil => simp at hr
        | cons a v => exact ⟨_, a, rfl, hp a⟩
  obtain ⟨ds, r, h1, h2⟩ := key
  refine ⟨⟨some ds, some r, none, .series l, f⟩,
    by simp only [XLcs.construct, buildTime, XArg.build, classRef, h1, bind, Except.bind], ?_⟩
  intro t tref d
  simp only [XLcs.interpTime, bind, Except.bind]
  cases ht : t.ofTime tref with
  | error e => simp
  | ok t' =>
    simp only
    cases hab : t'.abs with
    | true => simp
    | false =>
      have hm : Time.monotonic (ds.map (· + r)) = true := by
        rw [Time.monotonic_iff, List.pairwise_map]
        exact h2.imp fun h => by simpa using h
      simp [Time.make, hm]

/-! ### instances -/

namespace ConstructDemo

/-- orientations at the time stamps 100 and 110 -/
def turning : RawTime := ⟨true, [100, 110], none⟩

/-- coordinates at the time deltas 0, 4 and 10 since 100 -/
def moving : RawTime := ⟨false, [0, 4, 10], some 100⟩

def turns : Comp (Mat3 ℝ) := .series [1, !![-1, 0, 0; 0, -1, 0; 0, 0, 1]]

def moves : Comp (Vec3 ℝ) := .series [![0, 0, 0], ![4, 0, 0], ![4, 6, 0]]

def turnArr (r : Int) : XArr (Mat3 ℝ) := ⟨some [0, 10], some r, turns⟩

def moveArr (l : List Int) (r : Option Int) : XArr (Vec3 ℝ) := ⟨some l, r, moves⟩

theorem turn_wf (r : Int) : (turnArr r).WF Rotation := by
  refine ⟨fun _ => ⟨[0, 10], rfl, by simp, by simp, rfl⟩, (fun h => by cases h), (fun h => by cases h), ?_⟩
  intro v hv
  simp only [List.mem_cons, List.not_mem_nil, or_false] at hv
  rcases hv with rfl | rfl
  · exact Rotation.one
  · exact halfTurn_rot

theorem move_wf {l : List Int} (h : l.Pairwise (· < ·)) (h3 : l.length = 3) (r : Option Int) :
    (moveArr l r).WF fun _ => True :=
  ⟨fun _ => ⟨l, rfl, by omega, h, h3.symm⟩, (fun h => by cases h), (fun h => by cases h), fun _ _ => trivial⟩

/-- C71: time stamps and time deltas with the same reference time -/
example : ∃ d, TLcs.construct jump (.array (some turning) turns) (.array (some moving) moves) none none = .ok d ∧
    d.dependent = true ∧ d.ref = some 100 ∧ 104 ∈ d.clock := by
  obtain ⟨d, h1, _, h3, _, h5, h6, _⟩ := C71_values jump_ok (turn_wf 100) (move_wf (l := [0, 4, 10]) (by simp) rfl (some 100))
    (fun _ _ => rfl) none
  refine ⟨d, ?_, h3, ?_, (h6 104).2 (.inr ?_)⟩
  · rw [← h1]
    simp [TLcs.construct, XArg.build, RawTime.restore, buildTime, classRef, turning, moving, turnArr, moveArr, bind, Except.bind]
  · rw [h5 (h3 ▸ rfl)]; rfl
  · simp [move, baseRef, turnArr, turns, Comp.isSeries, XArr.clock, moveArr]

/-- C71: the number of values must fit -/
example (t : Option Time) (h : t = some ⟨false, [0, 5], none⟩) :
    XArg.build (0 : Vec3 ℝ) t (.values [0, 0, 0]) = .error .valueError := by
  subst h
  exact (C71_values_arg 0 (by simp) _).2.1 (by simp)

/-- C71: values at time stamps -/
example : ∃ d, TLcs.construct jump (.values [1, 1]) (.values [0, ![1, 0, 0]]) (some ⟨false, [0, 5], none⟩) (some 7) = .ok d ∧
    d.clock = [7, 12] ∧ d.coord = .series [0, ![1, 0, 0]] := by
  obtain ⟨d, h1, h2, _, _, h5⟩ := C71_arrays (S := jump) (lo := [1, 1]) (lc := [0, ![1, 0, 0]]) (t := ⟨false, [0, 5], none⟩)
    (t' := ⟨true, [7, 12], some 7⟩) (tref := some 7) (by simp [Time.ofTime, Time.make, Time.monotonic]) (by simp) rfl rfl
  exact ⟨d, h1, h2, h5⟩

/-- C71: different reference times and different time deltas -/
example : TLcs.assemble jump (turnArr 100) (moveArr [0, 4, 10] (some 90)) none = .error .valueError :=
  C71_conflict jump_ok (turn_wf 100) (move_wf (by simp) rfl _) rfl rfl (by simp [turnArr, moveArr]) rfl rfl (by decide) none

/-- C71: only the orientations have a reference time -/
example : TLcs.assemble jump (turnArr 100) (moveArr [0, 4, 10] none) none = .error .typeError :=
  C71_kinds (turn_wf 100) (move_wf (by simp) rfl _) rfl rfl (by simp [turnArr, moveArr]) (by simp [turnArr, moveArr]) none

/-- **C71, refutation.** The statement that a system has the given values at the given times is wrong for arrays with different
reference times: here the coordinates are (4, 0, 0) at the time stamp 60 and the system has them there at 110, without any error. -/
theorem C71_counterexample : ∃ (o : XArr (Mat3 ℝ)) (c : XArr (Vec3 ℝ)) (d : TLcs), o.WF Rotation ∧ (c.WF fun _ => True) ∧
    TLcs.assemble jump o c none = .ok d ∧ d.WF ∧ CompAt linMix c.clock c.comp 60 ![4, 0, 0] ∧
    CompAt linMix d.clock d.coord 60 ![0, 0, 0] ∧ CompAt linMix d.clock d.coord 110 ![4, 0, 0] := by
  have hc : XArr.WF (fun _ => True) (⟨some [0, 10], some 50, .series [![0, 0, 0], ![4, 0, 0]]⟩ : XArr (Vec3 ℝ)) :=
    ⟨fun _ => ⟨[0, 10], rfl, by simp, by simp, rfl⟩, (fun h => by cases h), (fun h => by cases h), fun _ _ => trivial⟩
  refine ⟨turnArr 100, ⟨some [0, 10], some 50, .series [![0, 0, 0], ![4, 0, 0]]⟩, _, turn_wf 100, hc, C71_same_deltas rfl rfl,
    ⟨fun _ => ⟨[0, 10], rfl, by simp, by simp, rfl, rfl⟩, (fun h => by cases h), (fun h => by cases h), (turn_wf 100).all⟩,
    .series ?_, .series ?_, .series ?_⟩
  · exact Value.after (p := (60, ![4, 0, 0])) rfl (le_refl _)
  · exact Value.before (p := (100, ![0, 0, 0])) rfl (by norm_num)
  · exact Value.after (p := (110, ![4, 0, 0])) rfl (le_refl _)

/-- C71: an expression and orientations at time stamps -/
example : ∃ e, XLcs.construct (.array (some turning) turns) (fun t => ![(t : ℝ), 0, 0]) none none = .ok e ∧
    ∀ t tref, ∀ d, e.interpTime jump t tref ≠ .ok d :=
  C71_expression_unusable (by simp [turning]) (.inl ⟨rfl, by simp [turning]⟩) _ _

/-- C71: the same with a reference time -/
example : ∃ e, XLcs.construct (.array (some turning) turns) (fun t => ![(t : ℝ), 0, 0]) none (some 90) = .ok e ∧
    e.tsRef = some 90 ∧ e.dsRef = some 90 := by
  obtain ⟨e, h1, _, _, h4, h5, _⟩ := C71_expression (time := none) (tref := some 90) (t := some ⟨true, [90], some 90⟩) (q := some 90)
    (by simp [buildTime, Time.make, Time.monotonic, bind, Except.bind]) (by simp [classRef, Time.referenceTime])
    (a := .array (some turning) turns) (o := turnArr 100)
    (by simp [XArg.build, RawTime.restore, turning, turnArr, bind, Except.bind]) (turn_wf 100) (fun t => ![(t : ℝ), 0, 0])
  exact ⟨e, h1, h4, h5 (by simp [turnArr])⟩

end ConstructDemo

end Weldx
