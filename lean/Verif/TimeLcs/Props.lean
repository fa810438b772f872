import Verif.TimeLcs.Interp

/-!
# Samples, reference times, sums and inverses of time dependent systems
-/

namespace Weldx

open Ip Matrix

/-! ### values at samples -/

namespace Comp

/-- the value with an index -/
def get? {V : Type} (k : Comp V) (i : ℕ) : Option V := match k with
  | .static v => some v
  | .series l => l[i]?

theorem get?_map {A B : Type} (f : A → B) (k : Comp A) (i : ℕ) : (k.map f).get? i = (k.get? i).map f := by
  cases k <;> simp [map, get?]

theorem get?_map₂ {A B C : Type} (f : A → B → C) {a : Comp A} {b : Comp B} {i : ℕ} {x : A} {y : B} (ha : a.get? i = some x)
    (hb : b.get? i = some y) : (map₂ f a b).get? i = some (f x y) := by
  cases a <;> cases b <;> simp_all [map₂, get?, List.getElem?_zipWith]

end Comp

namespace TLcs

section comps
variable {A B C : Type}

theorem compLen_map {n : ℕ} (f : A → B) {k : Comp A} (h : CompLen n k) : CompLen n (k.map f) := by
  cases k <;> simp_all [CompLen, Comp.map]

theorem compLen_map₂ {n : ℕ} (f : A → B → C) {a : Comp A} {b : Comp B} (ha : CompLen n a) (hb : CompLen n b) :
    CompLen n (Comp.map₂ f a b) := by
  cases a <;> cases b <;> simp_all [CompLen, Comp.map₂]

theorem isSeries_map₂ (f : A → B → C) (a : Comp A) (b : Comp B) :
    (Comp.map₂ f a b).isSeries = (a.isSeries || b.isSeries) := by
  cases a <;> cases b <;> rfl

theorem isSeries_map (f : A → B) (a : Comp A) : (a.map f).isSeries = a.isSeries := by cases a <;> rfl

theorem compAll_map₂ {P : A → Prop} {Q : B → Prop} {R : C → Prop} {f : A → B → C} (hf : ∀ a b, P a → Q b → R (f a b))
    {a : Comp A} {b : Comp B} (ha : CompAll P a) (hb : CompAll Q b) : CompAll R (Comp.map₂ f a b) := by
  cases a with
  | static x => cases b with
    | static y => exact hf _ _ ha hb
    | series m =>
      intro v hv
      obtain ⟨y, hy, rfl⟩ := List.mem_map.1 hv
      exact hf _ _ ha (hb y hy)
  | series l => cases b with
    | static y =>
      intro v hv
      obtain ⟨x, hx, rfl⟩ := List.mem_map.1 hv
      exact hf _ _ (ha x hx) hb
    | series m =>
      intro v hv
      obtain ⟨i, hi⟩ := List.getElem?_of_mem hv
      rw [List.getElem?_zipWith] at hi
      cases hx : l[i]? with
      | none => rw [hx] at hi; simp at hi
      | some x => cases hy : m[i]? with
        | none => rw [hx, hy] at hi; simp at hi
        | some y =>
          rw [hx, hy] at hi
          simp only [Option.some.injEq] at hi
          rw [← hi]
          exact hf _ _ (ha x (List.mem_of_getElem? hx)) (hb y (List.mem_of_getElem? hy))

theorem compAll_map {P : A → Prop} {Q : B → Prop} {f : A → B} (hf : ∀ a, P a → Q (f a)) {k : Comp A} (h : CompAll P k) :
    CompAll Q (k.map f) := by
  cases k with
  | static x => exact hf _ h
  | series l =>
    intro v hv
    obtain ⟨x, hx, rfl⟩ := List.mem_map.1 hv
    exact hf _ (h x hx)

theorem compAt_sample {V : Type} {good : V → Prop} {mix : V → V → ℝ → V} (hm : MixOk good mix) {ts : List Int}
    (h : ts.Pairwise (· < ·)) {k : Comp V} (hk : CompAll good k) (hl : CompLen ts.length k) {i : ℕ} {t : Int}
    (ht : ts[i]? = some t) (v : V) : CompAt mix ts k t v ↔ k.get? i = some v := by
  cases k with
  | static w =>
    constructor
    · intro h; cases h; rfl
    · intro h; simp only [Comp.get?, Option.some.injEq] at h; subst h; exact .static
  | series l =>
    have hi : i < l.length := by rw [hl]; exact (List.getElem?_eq_some_iff.1 ht).1
    have hv := value_at_sample hm h hk ht (List.getElem?_eq_getElem hi) v
    constructor
    · intro h
      cases h with
      | series h => rw [Comp.get?, hv.1 h]; exact List.getElem?_eq_getElem hi
    · intro h
      apply CompAt.series
      rw [hv]
      rw [Comp.get?, List.getElem?_eq_getElem hi] at h
      exact (Option.some.inj h).symm

end comps

/-- the lengths of the variables in terms of the points in time -/
theorem WF.lens {c : TLcs} (h : c.WF) {l : List Int} (hl : c.times = some l) :
    CompLen c.clock.length c.orient ∧ CompLen c.clock.length c.coord := by
  rw [clock_length hl]
  by_cases hd : c.dependent = true
  · obtain ⟨l', hl', _, _, h3, h4⟩ := h.series hd
    rw [hl] at hl'; cases hl'
    exact ⟨h3, h4⟩
  · unfold dependent at hd
    cases ho : c.orient with
    | series l => rw [ho] at hd; simp [Comp.isSeries] at hd
    | static R => cases hk : c.coord with
      | series l => rw [hk] at hd; simp [Comp.isSeries] at hd
      | static T => exact ⟨trivial, trivial⟩

/-- the value at a sample is given by the entries with its index -/
theorem At_sample {S : Slerp} (hS : SlerpOk S) {c : TLcs} (h : c.WF) {i : ℕ} {t : Int} (ht : c.clock[i]? = some t) (f : Lcs ℝ) :
    c.At S t f ↔ c.orient.get? i = some f.orientation ∧ c.coord.get? i = some f.coordinates := by
  obtain ⟨l, hl⟩ : ∃ l, c.times = some l := by
    cases hl : c.times with
    | none => rw [clock, hl] at ht; simp at ht
    | some l => exact ⟨l, rfl⟩
  obtain ⟨h1, h2⟩ := h.lens hl
  unfold At
  rw [compAt_sample hS (clock_asc h) h.rot h1 ht, compAt_sample linMix_ok (clock_asc h) (coord_all _) h2 ht]

/-- the value of a static system -/
theorem At_static {S : Slerp} {c : TLcs} (h : c.dependent = false) : ∃ f : Lcs ℝ, c.orient = .static f.orientation ∧
    c.coord = .static f.coordinates ∧ ∀ t g, c.At S t g ↔ g = f := by
  unfold dependent at h
  cases ho : c.orient with
  | series l => rw [ho] at h; simp [Comp.isSeries] at h
  | static R => cases hk : c.coord with
    | series l => rw [hk] at h; simp [Comp.isSeries] at h
    | static T =>
      refine ⟨⟨R, T⟩, rfl, rfl, ?_⟩
      intro t g
      unfold At
      rw [ho, hk]
      constructor
      · rintro ⟨h1, h2⟩
        obtain ⟨A, B⟩ := g
        simp only at h1 h2
        cases h1; cases h2; rfl
      · rintro rfl
        exact ⟨.static, .static⟩

theorem At_congr {S : Slerp} {c d : TLcs} (h1 : d.clock = c.clock) (h2 : d.orient = c.orient) (h3 : d.coord = c.coord) (t : Int)
    (f : Lcs ℝ) : d.At S t f ↔ c.At S t f := by
  unfold At; rw [h1, h2, h3]

/-! ### C20: interpolation -/

/-- at its own times a system has the stored values -/
theorem C20_exact {S : Slerp} (hS : SlerpOk S) {c : TLcs} (h : c.WF) {i : ℕ} {t : Int} (ht : c.clock[i]? = some t) {f : Lcs ℝ}
    (hf : c.At S t f) : (∀ l, c.orient = .series l → l[i]? = some f.orientation) ∧
      (∀ l, c.coord = .series l → l[i]? = some f.coordinates) := by
  obtain ⟨h1, h2⟩ := (At_sample hS h ht f).1 hf
  exact ⟨fun l hl => by rw [hl] at h1; exact h1, fun l hl => by rw [hl] at h2; exact h2⟩

/-- before the first time it has the first values, after the last time the last ones -/
theorem C20_clamped {S : Slerp} (hS : SlerpOk S) {c : TLcs} (h : c.WF) {t x : Int} {f g : Lcs ℝ} (hf : c.At S t f)
    (hg : c.At S x g) (hx : (c.clock.head? = some x ∧ t ≤ x) ∨ (c.clock.getLast? = some x ∧ x ≤ t)) : f = g := by
  have main : c.At S t g := by
    have key : ∀ {V : Type} {good : V → Prop} {mix : V → V → ℝ → V}, MixOk good mix → ∀ {k : Comp V}, CompAll good k →
        CompLen c.clock.length k → ∀ {v : V}, CompAt mix c.clock k x v → CompAt mix c.clock k t v := by
      intro V good mix hm k hk hl v hv
      cases k with
      | static w => cases hv; exact .static
      | series l =>
        simp only [CompLen] at hl
        rcases hx with ⟨hx, hle⟩ | ⟨hx, hle⟩
        · rw [List.head?_eq_getElem?] at hx
          have h0 : 0 < l.length := by rw [hl]; exact (List.getElem?_eq_some_iff.1 hx).1
          have hget := List.getElem?_eq_getElem h0
          have := (compAt_sample hm (clock_asc h) (k := .series l) hk hl hx v).1 hv
          simp only [Comp.get?] at this
          refine .series (.before (p := (x, v)) ?_ hle)
          rw [List.head?_eq_getElem?, List.getElem?_zip_eq_some]
          exact ⟨hx, this⟩
        · rw [List.getLast?_eq_getElem?] at hx
          have := (compAt_sample hm (clock_asc h) (k := .series l) hk hl hx v).1 hv
          simp only [Comp.get?] at this
          refine .series (.after (p := (x, v)) ?_ hle)
          rw [List.getLast?_eq_getElem?, List.length_zip, hl, min_self, List.getElem?_zip_eq_some]
          exact ⟨hx, this⟩
    obtain ⟨l, hl⟩ : ∃ l, c.times = some l := by
      cases hl : c.times with
      | none => rw [clock, hl] at hx; simp at hx
      | some l => exact ⟨l, rfl⟩
    obtain ⟨h1, h2⟩ := h.lens hl
    exact ⟨key hS h.rot h1 hg.1, key linMix_ok (coord_all _) h2 hg.2⟩
  exact At_unique hS h hf main

theorem linMix_between {x y w : ℝ} (h0 : 0 ≤ w) (h1 : w ≤ 1) : min x y ≤ (1 - w) * x + w * y ∧ (1 - w) * x + w * y ≤ max x y := by
  constructor
  · rcases min_cases x y with ⟨h, h'⟩ | ⟨h, h'⟩ <;> rw [h] <;> nlinarith
  · rcases max_cases x y with ⟨h, h'⟩ | ⟨h, h'⟩ <;> rw [h] <;> nlinarith

/-- between two neighbouring times each coordinate is between the neighbouring values and the orientation is the
interpolation of the neighbouring ones with a weight between zero and one -/
theorem C20_between {S : Slerp} (hS : SlerpOk S) {c : TLcs} (h : c.WF) {i : ℕ} {a b t : Int} (ha : c.clock[i]? = some a)
    (hb : c.clock[i + 1]? = some b) (h1 : a ≤ t) (h2 : t ≤ b) {f : Lcs ℝ} (hf : c.At S t f) :
    (∀ l, c.coord = .series l → ∃ p q, l[i]? = some p ∧ l[i + 1]? = some q ∧
      ∀ j, min (p j) (q j) ≤ f.coordinates j ∧ f.coordinates j ≤ max (p j) (q j)) ∧
    (∀ l, c.orient = .series l → ∃ p q w, l[i]? = some p ∧ l[i + 1]? = some q ∧ 0 ≤ w ∧ w ≤ 1 ∧ f.orientation = S p q w) := by
  have hab : a < b := (asc_get (clock_asc h) ha hb).1.1 (by omega)
  have hw : 0 ≤ ((t : ℝ) - a) / (b - a) ∧ ((t : ℝ) - a) / (b - a) ≤ 1 := by
    have hab' : (a : ℝ) < b := by exact_mod_cast hab
    have h1' : (a : ℝ) ≤ t := by exact_mod_cast h1
    have h2' : (t : ℝ) ≤ b := by exact_mod_cast h2
    constructor
    · apply div_nonneg <;> linarith
    · rw [div_le_one (by linarith)]; linarith
  obtain ⟨l, hl⟩ : ∃ l, c.times = some l := by
    cases hl : c.times with
    | none => rw [clock, hl] at ha; simp at ha
    | some l => exact ⟨l, rfl⟩
  obtain ⟨l1, l2⟩ := h.lens hl
  have key : ∀ {V : Type} {good : V → Prop} {mix : V → V → ℝ → V}, MixOk good mix → ∀ {l : List V}, (∀ v ∈ l, good v) →
      l.length = c.clock.length → ∀ {v : V}, CompAt mix c.clock (.series l) t v → ∃ p q, l[i]? = some p ∧ l[i + 1]? = some q ∧
        v = mix p q (((t : ℝ) - a) / (b - a)) := by
    intro V good mix hm l hk hl v hv
    have hi : i + 1 < l.length := by rw [hl]; exact (List.getElem?_eq_some_iff.1 hb).1
    have e1 := List.getElem?_eq_getElem (Nat.lt_of_succ_lt hi)
    have e2 := List.getElem?_eq_getElem hi
    refine ⟨_, _, e1, e2, ?_⟩
    cases hv with
    | series hv =>
      refine value_unique (zip_asc (clock_asc h) l) (hm.ends (zip_good hk)) hv ?_
      exact .between (i := i) (p := (a, l[i])) (q := (b, l[i + 1])) (by rw [List.getElem?_zip_eq_some]; exact ⟨ha, e1⟩)
        (by rw [List.getElem?_zip_eq_some]; exact ⟨hb, e2⟩) h1 h2
  constructor
  · intro l hl
    have := hf.2
    rw [hl] at this l2
    obtain ⟨p, q, hp, hq, e⟩ := key linMix_ok (fun _ _ => trivial) l2 this
    refine ⟨p, q, hp, hq, fun j => ?_⟩
    rw [e]
    simp only [linMix, Pi.add_apply, Pi.smul_apply, smul_eq_mul]
    exact linMix_between hw.1 hw.2
  · intro l hl
    have := hf.1
    rw [hl] at this l1
    have hr := h.rot
    rw [hl] at hr
    obtain ⟨p, q, hp, hq, e⟩ := key hS hr l1 this
    exact ⟨p, q, _, hp, hq, hw.1, hw.2, e⟩

/-- `interp_time` gives a system with the same values at all requested times; it is static if all of them are before or after the
data or if there is only one -/
theorem C20_interp_time {S : Slerp} (hS : SlerpOk S) {c : TLcs} (hc : c.WF) (hd : c.dependent = true) {t t' : Time}
    {tref : Option Int} (ht : t.ofTime tref = .ok t') (hta : t'.vals.Pairwise (· < ·)) (hne : t'.vals ≠ [])
    (hk : c.ref.isSome = t'.abs) :
    ∃ r, c.interpTime S (some t) tref = .ok r ∧ (∀ x ∈ t'.vals, ∀ f, r.At S x f ↔ c.At S x f) ∧
      (r.dependent = true ↔ outside c.clock t'.vals = false ∧ 2 ≤ t'.vals.length) ∧
      (r.dependent = true → r.clock = t'.vals) := by
  obtain ⟨r, hr, hw, h1, h2, h3, _⟩ := interpTime_spec hS hc hd ht hta hne hk
  refine ⟨r, hr, ?_, h2, fun h => (h3 h).1⟩
  intro x hx f
  refine ⟨fun h => ?_, h1 x hx f⟩
  obtain ⟨g, hg⟩ := At_exists S hc x
  rw [At_unique hS hw h (h1 x hx g hg)]
  exact hg

/-! ### C21: the reference time -/

theorem reset_spec {c : TLcs} (h : c.WF) (r : Int) : (c.reset r).WF ∧ (c.reset r).orient = c.orient ∧
    (c.reset r).coord = c.coord ∧ (c.times ≠ none → (c.reset r).ref = some r) ∧
    (c.times = none → c.reset r = c) ∧ ((c.reset r).times = none ↔ c.times = none) ∧
    (c.ref ≠ none → (c.reset r).clock = c.clock) := by
  cases hl : c.times with
  | none =>
    have e : c.reset r = c := by rw [reset, hl]
    rw [e]
    exact ⟨h, rfl, rfl, fun h => absurd rfl h, fun _ => rfl, by rw [hl], fun _ => rfl⟩
  | some l =>
    cases hr : c.ref with
    | none =>
      have e : c.reset r = { c with ref := some r } := by rw [reset, hl]; simp only [hr]
      rw [e]
      refine ⟨⟨h.series, h.label, ?_, h.rot⟩, rfl, rfl, fun _ => rfl, by simp, by simp [hl], fun h => absurd rfl h⟩
      intro h'; simp only at h'; rw [hl] at h'; cases h'
    | some old =>
      have e : c.reset r = if r = old then c else { c with times := some (l.map (· - (r - old))), ref := some r } := by
        rw [reset, hl]; simp only [hr]
      rw [e]
      by_cases hro : r = old
      · rw [if_pos hro]
        exact ⟨h, rfl, rfl, fun _ => by rw [hr, hro], by simp, by rw [hl], fun _ => rfl⟩
      · rw [if_neg hro]
        refine ⟨⟨?_, ?_, by simp, h.rot⟩, rfl, rfl, fun _ => rfl, by simp, by simp, fun _ => ?_⟩
        · intro hd
          obtain ⟨l', hl', h2, h3, h4, h5⟩ := h.series hd
          rw [hl] at hl'; cases hl'
          refine ⟨_, rfl, by simpa using h2, ?_, by simpa using h4, by simpa using h5⟩
          rw [List.pairwise_map]
          exact h3.imp fun h => by omega
        · intro hd
          rcases h.label hd with h' | ⟨x, h'⟩
          · rw [hl] at h'; cases h'
          · rw [hl] at h'; cases h'
            right; exact ⟨_, rfl⟩
        · rw [clock_of_times hl, clock_of_times (c := { c with times := some (l.map (· - (r - old))), ref := some r }) rfl, hr]
          rw [List.map_map]
          apply List.map_congr_left
          intro x _
          simp only [Function.comp, Option.getD_some]
          ring

/-- with a reference time, the points in time and the value at each of them stay -/
theorem C21_absolute {S : Slerp} {c : TLcs} (h : c.WF) (r : Int) (hr : c.ref ≠ none) : (c.reset r).ref = some r ∧
    (c.reset r).clock = c.clock ∧ ∀ t f, (c.reset r).At S t f ↔ c.At S t f := by
  obtain ⟨_, h2, h3, h4, _, _, h7⟩ := reset_spec h r
  have hl : c.times ≠ none := fun hl => hr (h.ref hl)
  exact ⟨h4 hl, h7 hr, fun t f => At_congr (h7 hr) h2 h3 t f⟩

/-- without a reference time the time deltas and the values at each of them stay -/
theorem C21_relative {S : Slerp} {c : TLcs} {l : List Int} (hl : c.times = some l) (r : Int) (hr : c.ref = none) :
    (c.reset r).ref = some r ∧ (c.reset r).times = c.times ∧ (c.reset r).clock = l.map (· + r) ∧
      ({ c.reset r with ref := none } : TLcs) = c ∧ ∀ t f, ({ c.reset r with ref := none } : TLcs).At S t f ↔ c.At S t f := by
  have e : c.reset r = { c with ref := some r } := by rw [reset, hl]; simp only [hr]
  have e' : ({ c.reset r with ref := none } : TLcs) = c := by rw [e, ← hr]
  rw [e]
  refine ⟨rfl, rfl, clock_of_times (c := { c with ref := some r }) hl, by rw [← hr], fun t f => ?_⟩
  rw [e] at e'
  rw [e']

/-- the last reset wins -/
theorem C21_last {c : TLcs} (h : c.WF) (r s : Int) (hr : c.ref ≠ none) : (c.reset r).reset s = c.reset s := by
  cases hl : c.times with
  | none => exact absurd (h.ref hl) hr
  | some l =>
    cases ho : c.ref with
    | none => exact absurd ho hr
    | some old =>
      have e : ∀ x, c.reset x = { c with times := some (l.map (· - (x - old))), ref := some x } := by
        intro x
        have e : c.reset x = if x = old then c else { c with times := some (l.map (· - (x - old))), ref := some x } := by
          rw [reset, hl]; simp only [ho]
        rw [e]
        split_ifs with hx
        · subst hx
          obtain ⟨a, b, o, k⟩ := c
          simp only at hl ho
          subst hl; subst ho
          simp
        · rfl
      rw [e r, e s]
      simp only [reset]
      split_ifs with hx
      · rw [hx]
      · simp only [List.map_map, TLcs.mk.injEq, Option.some.injEq, and_true]
        apply List.map_congr_left
        intro x _
        simp only [Function.comp]
        ring

/-- resetting twice to the same time is resetting once -/
theorem C21_idempotent (c : TLcs) (r : Int) : (c.reset r).reset r = c.reset r := by
  cases hl : c.times with
  | none =>
    have e : c.reset r = c := by rw [reset, hl]
    rw [e, e]
  | some l =>
    cases ho : c.ref with
    | none =>
      have e : c.reset r = { c with ref := some r } := by rw [reset, hl]; simp only [ho]
      rw [e, reset]
      simp only [hl, if_true]
    | some old =>
      have e : c.reset r = if r = old then c else { c with times := some (l.map (· - (r - old))), ref := some r } := by
        rw [reset, hl]; simp only [ho]
      rw [e]
      split_ifs with hx
      · rw [e, if_pos hx]
      · simp [reset]

end TLcs
end Weldx
