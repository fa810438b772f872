import Verif.TimeLcs.Spec

/-!
# Interpolation of time dependent systems
-/

namespace Weldx

open Ip Matrix

theorem monotonic_of_strict {l : List Int} (h : l.Pairwise (· < ·)) : Time.monotonic l = true :=
  (Time.monotonic_iff l).2 (sorted_le h)

theorem max_last {l : List Int} (h : l.Pairwise (· < ·)) : l.max? = l.getLast? := by
  cases hl : l.getLast? with
  | none => rw [List.getLast?_eq_none_iff] at hl; subst hl; rfl
  | some a =>
    rw [List.max?_eq_some_iff]
    refine ⟨List.mem_of_getLast? hl, ?_⟩
    intro b hb
    obtain ⟨i, hi⟩ := List.getElem?_of_mem hb
    have hb' := (List.getElem?_eq_some_iff.1 hi).1
    rw [List.getLast?_eq_getElem?] at hl
    rcases Nat.lt_or_ge i (l.length - 1) with h' | h'
    · exact ((asc_get h hi hl).1.1 h').le
    · have : i = l.length - 1 := by omega
      subst this
      rw [hi] at hl; cases hl; exact le_rfl

theorem min_head {l : List Int} (h : l.Pairwise (· < ·)) : l.min? = l.head? := by
  cases l with
  | nil => rfl
  | cons a l =>
    rw [List.head?_cons, List.min?_eq_some_iff]
    refine ⟨by simp, ?_⟩
    intro b hb
    rw [List.mem_cons] at hb
    rcases hb with rfl | hb
    · exact le_rfl
    · exact ((List.pairwise_cons.1 h).1 b hb).le

namespace TLcs

/-- the edges of an increasing list -/
theorem edges {ts : List Int} (h : ts.Pairwise (· < ·)) (hne : ts ≠ []) : ∃ a b, ts.head? = some a ∧ ts.getLast? = some b ∧
    ts.min? = some a ∧ ts.max? = some b ∧ ∀ t ∈ ts, a ≤ t ∧ t ≤ b := by
  obtain ⟨b, hb⟩ : ∃ b, ts.getLast? = some b := ⟨_, List.getLast?_eq_some_getLast hne⟩
  obtain ⟨a, ha⟩ : ∃ a, ts.head? = some a := ⟨_, List.head?_eq_some_head hne⟩
  refine ⟨a, b, ha, hb, (min_head h).trans ha, (max_last h).trans hb, fun t ht => ⟨?_, ?_⟩⟩
  · exact (List.min?_eq_some_iff.1 ((min_head h).trans ha)).2 t ht
  · exact (List.max?_eq_some_iff.1 ((max_last h).trans hb)).2 t ht

theorem forall₂_get {A B : Type} {R : A → B → Prop} {l : List A} {r : List B} (h : List.Forall₂ R l r) {k : ℕ} {a : A}
    (ha : l[k]? = some a) : ∃ b, r[k]? = some b ∧ R a b := by
  induction h generalizing k with
  | nil => simp at ha
  | cons hv _ ih =>
    cases k with
    | zero => simp only [List.getElem?_cons_zero, Option.some.injEq] at ha; subst ha; exact ⟨_, rfl, hv⟩
    | succ k => simp only [List.getElem?_cons_succ] at ha ⊢; exact ih ha

theorem forall₂_get' {A B : Type} {R : A → B → Prop} {l : List A} {r : List B} (h : List.Forall₂ R l r) {k : ℕ} {b : B}
    (hb : r[k]? = some b) : ∃ a, l[k]? = some a ∧ R a b := by
  induction h generalizing k with
  | nil => simp at hb
  | cons hv _ ih =>
    cases k with
    | zero => simp only [List.getElem?_cons_zero, Option.some.injEq] at hb; subst hb; exact ⟨_, rfl, hv⟩
    | succ k => simp only [List.getElem?_cons_succ] at hb ⊢; exact ih hb

/-- interpolation of one variable -/
theorem interpComp_spec {V : Type} {good : V → Prop} {mix : V → V → ℝ → V} (hm : MixOk good mix)
    {interp : Series V → List Int → Option (List V)}
    (hi : ∀ {s : Series V}, Ascending s → s ≠ [] → (∀ p ∈ s, good p.2) → ∀ {ts : List Int}, ts.Pairwise (· < ·) →
      ∃ r, interp s ts = some r ∧ List.Forall₂ (Value mix s) ts r)
    {own ts : List Int} (ho : own.Pairwise (· < ·)) (hne : own ≠ []) (ht : ts.Pairwise (· < ·)) (htne : ts ≠ []) {k : Comp V}
    (hk : CompLen own.length k) (hg : CompAll good k) :
    ∃ r, interpComp interp own ts k = .ok r ∧ CompAll good r ∧ CompLen ts.length r ∧
      (∀ t ∈ ts, ∀ v, CompAt mix own k t v → CompAt mix ts r t v) ∧
      (r.isSeries = true ↔ k.isSeries = true ∧ outside own ts = false ∧ 2 ≤ ts.length) := by
  cases k with
  | static v =>
    refine ⟨.static v, rfl, hg, trivial, ?_, by simp [Comp.isSeries]⟩
    intro t _ w hw
    cases hw
    exact .static
  | series l =>
    obtain ⟨omin, omax, o1, o2, o3, o4, o5⟩ := edges ho hne
    obtain ⟨tmin, tmax, t1, t2, t3, t4, t5⟩ := edges ht htne
    have hlen : own.length = l.length := hk.symm
    have hlne : l ≠ [] := by
      intro h; subst h
      exact hne (List.length_eq_zero_iff.1 hlen)
    have hasc := zip_asc ho l
    have hgood := zip_good (ts := own) hg
    have hends := hm.ends hgood
    have hzne : own.zip l ≠ [] := by
      rw [Ne, List.zip_eq_nil_iff]; exact fun h => h.elim hne hlne
    obtain ⟨v0, hv0⟩ : ∃ v, l.head? = some v := ⟨_, List.head?_eq_some_head hlne⟩
    obtain ⟨v1, hv1⟩ : ∃ v, l.getLast? = some v := ⟨_, List.getLast?_eq_some_getLast hlne⟩
    simp only [interpComp, t3, t4, o3, o4]
    have hout : outside own ts = (decide (tmax ≤ omin) || decide (tmin ≥ omax)) := by
      simp only [outside, t3, t4, o3, o4]
    by_cases h1 : tmax ≤ omin
    · rw [if_pos h1, hv0]
      refine ⟨_, rfl, hg v0 (List.mem_of_mem_head? hv0), trivial, ?_, by simp [Comp.isSeries, hout, h1]⟩
      intro t htm v hv
      cases hv with
      | series hv =>
        have hh : (own.zip l).head? = some (omin, v0) := by
          rw [List.head?_eq_getElem?] at o1 hv0 ⊢
          rw [List.getElem?_zip_eq_some]; exact ⟨o1, hv0⟩
        have := value_unique hasc hends hv (.before hh (le_trans (t5 t htm).2 h1))
        rw [this]
        exact .static
    · rw [if_neg h1]
      by_cases h2 : tmin ≥ omax
      · rw [if_pos h2, hv1]
        refine ⟨_, rfl, hg v1 (List.mem_of_getLast? hv1), trivial, ?_, by simp [Comp.isSeries, hout, h2]⟩
        intro t htm v hv
        cases hv with
        | series hv =>
          have hh : (own.zip l).getLast? = some (omax, v1) := by
            rw [List.getLast?_eq_getElem?] at o2 hv1 ⊢
            rw [List.length_zip, hlen, min_self, List.getElem?_zip_eq_some]
            exact ⟨hlen ▸ o2, hv1⟩
          have := value_unique hasc hends hv (.after hh (le_trans h2 (t5 t htm).1))
          rw [this]
          exact .static
      · rw [if_neg h2]
        obtain ⟨vs, hvs, hf⟩ := hi hasc hzne hgood ht
        have hl := hf.length_eq
        have hvg : ∀ v ∈ vs, good v := by
          intro v hv
          obtain ⟨i, hi⟩ := List.getElem?_of_mem hv
          obtain ⟨a, _, h⟩ := forall₂_get' hf hi
          exact hm.value hgood h
        have key : ∀ t ∈ ts, ∀ v, CompAt mix own (.series l) t v → CompAt mix ts (.series vs) t v := by
          intro t htm v hv
          cases hv with
          | series hv =>
            obtain ⟨i, hi⟩ := List.getElem?_of_mem htm
            obtain ⟨b, hb, hv'⟩ := forall₂_get hf hi
            rw [value_unique hasc hends hv hv']
            exact .series ((value_at_sample hm ht hvg hi hb b).2 rfl)
        rw [hvs]
        match vs, hf, hl, hvg, key with
        | [], _, hl, _, _ => exact absurd (List.length_eq_zero_iff.1 hl) htne
        | [w], hf, hl, hvg, _ =>
          refine ⟨_, rfl, hvg w (by simp), trivial, ?_, by simp [Comp.isSeries, hl]⟩
          intro t htm v hv
          cases hv with
          | series hv =>
            obtain ⟨i, hi⟩ := List.getElem?_of_mem htm
            obtain ⟨b, hb, hv'⟩ := forall₂_get hf hi
            have : b = w := by
              have := List.mem_of_getElem? hb
              simpa using this
            rw [value_unique hasc hends hv hv', this]
            exact .static
        | w :: w' :: vs, _, hl, hvg, key =>
          refine ⟨_, rfl, hvg, hl.symm, key, ?_⟩
          simp only [Comp.isSeries, hout, h1, h2, decide_false, Bool.or_false, true_and, true_iff]
          rw [hl]; simp

theorem coord_all (k : Comp (Vec3 ℝ)) : CompAll (fun _ => True) k := by cases k <;> simp [CompAll]

theorem time_eq {c : TLcs} {l : List Int} (h : c.times = some l) (ha : l.Pairwise (· < ·)) :
    c.time = .ok (some ⟨c.ref.isSome, c.clock, c.ref⟩) := by
  have hm : Time.monotonic l = true := monotonic_of_strict ha
  rw [time, h, clock_of_times h]
  simp only [Time.make]
  cases hr : c.ref with
  | none => simp [hm, Except.map]
  | some r =>
    have hm' : Time.monotonic (l.map (· + r)) = true := by
      apply monotonic_of_strict
      rw [List.pairwise_map]
      exact ha.imp fun h => by simpa using h
    simp [hm', Except.map]

/-- the requested times as the function sees them -/
theorem ofTime_ok {t : Time} {tref : Option Int} {t' : Time} (h : t.ofTime tref = .ok t') :
    t'.vals = (if t.abs = true then t.vals else match tref.or t.ref with
      | some r => t.vals.map (· + r)
      | none => t.vals) ∧ t'.abs = (t.abs || (tref.or t.ref).isSome) ∧ t'.ref = tref.or t.ref := by
  have e : t.ofTime tref = Time.make t.abs t.vals (tref.or t.ref) := by
    unfold Time.ofTime; cases tref <;> rfl
  rw [e] at h
  unfold Time.make at h
  generalize tref.or t.ref = rr at h
  cases rr with
  | none =>
    simp only at h
    split_ifs at h
    cases h
    simp
  | some r =>
    cases ha : t.abs
    · simp only [ha] at h
      simp only [Bool.false_eq_true, if_false] at h ⊢
      split_ifs at h
      cases h
      simp
    · simp only [ha] at h
      simp only [if_true] at h ⊢
      split_ifs at h
      cases h
      simp

/-- `interp_time` of a system that is time dependent -/
theorem interpTime_spec {S : Slerp} (hS : SlerpOk S) {c : TLcs} (hc : c.WF) (hd : c.dependent = true) {t t' : Time}
    {tref : Option Int} (ht : t.ofTime tref = .ok t') (hta : t'.vals.Pairwise (· < ·)) (hne : t'.vals ≠ [])
    (hk : c.ref.isSome = t'.abs) :
    ∃ r, c.interpTime S (some t) tref = .ok r ∧ r.WF ∧
      (∀ x ∈ t'.vals, ∀ f, c.At S x f → r.At S x f) ∧
      (r.dependent = true ↔ outside c.clock t'.vals = false ∧ 2 ≤ t'.vals.length) ∧
      (r.dependent = true → r.clock = t'.vals ∧ t'.referenceTime = .ok r.ref) ∧
      (r.dependent = false → (r.times = none ∧ r.ref = none) ∨ r.clock = t'.vals ∧ r.ref = c.ref) := by
  obtain ⟨l, hl, h2, ha, h3, h4⟩ := hc.series hd
  have hlen : c.clock.length = l.length := clock_length hl
  have hone : c.clock ≠ [] := by rw [Ne, ← List.length_eq_zero_iff]; omega
  obtain ⟨o, ho, o1, o2, o3, o4⟩ := interpComp_spec (interp := interpOrientation S) hS
    (fun h1 h2 h3 _ h4 => interp_orientation h1 h2 (hS.ends h3) h4) (clock_asc hc) hone hta hne (hlen ▸ h3) hc.rot
  obtain ⟨k, hkk, k1, k2, k3, k4⟩ := interpComp_spec (interp := interpCoordinates) (linMix_ok (V := Vec3 ℝ))
    (fun h1 h2 _ _ h4 => interp_linear h1 h2 h4) (clock_asc hc) hone hta hne (hlen ▸ h4) (coord_all c.coord)
  have hor : (o.isSeries || k.isSeries) = true ↔ outside c.clock t'.vals = false ∧ 2 ≤ t'.vals.length := by
    rw [Bool.or_eq_true, o4, k4, ← or_and_right, ← Bool.or_eq_true]
    exact ⟨fun h => h.2, fun h => ⟨hd, h⟩⟩
  unfold interpTime
  simp only [hd, if_true, ht, hk, time_eq hl ha, ho, hkk, bind, Except.bind, ne_eq, not_true_eq_false, if_false]
  by_cases hs : (o.isSeries || k.isSeries) = true
  · rw [if_pos hs]
    -- the reference time of the requested times
    obtain ⟨rt, hrt, hdelta, hclock⟩ : ∃ rt, t'.referenceTime = .ok rt ∧ ∃ ds, t'.asTimedelta = .ok ds ∧
        ds.map (· + rt.getD 0) = t'.vals := by
      cases hab : t'.abs with
      | false =>
        refine ⟨none, by simp [Time.referenceTime, hab], t'.vals, by simp [Time.asTimedelta, hab], by simp⟩
      | true =>
        obtain ⟨r, hr⟩ : ∃ r, t'.referenceTime = .ok (some r) := by
          simp only [Time.referenceTime, hab, if_true]
          cases t'.ref with
          | some r => exact ⟨r, rfl⟩
          | none =>
            cases hv : t'.vals with
            | nil => exact absurd hv hne
            | cons a l => exact ⟨a, rfl⟩
        refine ⟨some r, hr, t'.vals.map (· - r), by simp [Time.asTimedelta, hab, hr, bind, Except.bind], ?_⟩
        rw [List.map_map]
        conv_rhs => rw [← List.map_id t'.vals]
        apply List.map_congr_left
        intro x _
        simp
    rw [hrt, hclock.1]
    have hcl : (⟨some hdelta, rt, o, k⟩ : TLcs).clock = t'.vals := hclock.2
    have hdl : hdelta.length = t'.vals.length := by
      rw [← hclock.2, List.length_map]
    have hda : hdelta.Pairwise (· < ·) := by
      have := hta
      rw [← hclock.2, List.pairwise_map] at this
      exact this.imp fun h => by simpa using h
    refine ⟨_, rfl, ⟨fun _ => ⟨hdelta, rfl, ?_, hda, hdl ▸ o2, hdl ▸ k2⟩, ?_, by simp, o1⟩, ?_, ?_, ?_, ?_⟩
    · rw [hdl]; exact (hor.1 hs).2
    · intro h; unfold dependent at h; simp only at h; rw [hs] at h; cases h
    · intro x hx f hf
      unfold At
      rw [hcl]
      exact ⟨o3 x hx _ hf.1, k3 x hx _ hf.2⟩
    · exact hor
    · exact fun _ => ⟨hcl, rfl⟩
    · intro h; unfold dependent at h; simp only at h; rw [hs] at h; cases h
  · rw [if_neg hs]
    have hos : ∃ R, o = .static R := by
      cases o with
      | static R => exact ⟨R, rfl⟩
      | series l => simp [Comp.isSeries] at hs
    have hks : ∃ T, k = .static T := by
      cases k with
      | static R => exact ⟨R, rfl⟩
      | series l => simp [Comp.isSeries] at hs
    obtain ⟨R, rfl⟩ := hos
    obtain ⟨T, rfl⟩ := hks
    have hat : ∀ ts : List Int, ∀ x ∈ t'.vals, ∀ f, c.At S x f → CompAt S ts (.static R) x f.orientation ∧
        CompAt linMix ts (.static T) x f.coordinates := by
      intro ts x hx f hf
      have h1 := o3 x hx _ hf.1
      have h2 := k3 x hx _ hf.2
      generalize f.orientation = A at *
      generalize f.coordinates = B at *
      cases h1; cases h2
      exact ⟨.static, .static⟩
    by_cases hout : outside c.clock t'.vals = true
    · rw [if_pos hout]
      refine ⟨_, rfl, ⟨by simp [dependent, Comp.isSeries], by simp, by simp, o1⟩, fun x hx f hf => hat _ x hx f hf, ?_,
        by simp [dependent, Comp.isSeries], by simp⟩
      simp [dependent, Comp.isSeries, hout]
    · rw [if_neg hout]
      have h1 : ¬ 2 ≤ t'.vals.length := fun h => hs (hor.2 ⟨by simpa using hout, h⟩)
      obtain ⟨x, hx⟩ : ∃ x, t'.vals = [x] := by
        match hv : t'.vals with
        | [] => exact absurd hv hne
        | [x] => exact ⟨x, rfl⟩
        | a :: b :: l => rw [hv] at h1; simp at h1
      refine ⟨_, rfl, ⟨by simp [dependent, Comp.isSeries], ?_, by simp, o1⟩, fun x hx f hf => hat _ x hx f hf, ?_,
        by simp [dependent, Comp.isSeries], ?_⟩
      · intro _; right; exact ⟨x - c.ref.getD 0, by simp [hx]⟩
      · simp [dependent, Comp.isSeries, hx]
      · intro _; right
        simp [clock, hx]

/-- without times or time dependency nothing changes -/
theorem interpTime_static {S : Slerp} (c : TLcs) (t : Option Time) (tref : Option Int) (h : t = none ∨ c.dependent = false) :
    c.interpTime S t tref = .ok c := by
  cases t with
  | none => rfl
  | some t =>
    rcases h with h | h
    · cases h
    · simp [interpTime, h]

/-- one reference time only -/
theorem interpTime_mixed {S : Slerp} (c : TLcs) (hd : c.dependent = true) {t t' : Time} {tref : Option Int}
    (ht : t.ofTime tref = .ok t') (hk : c.ref.isSome ≠ t'.abs) : c.interpTime S (some t) tref = .error .typeError := by
  simp [interpTime, hd, ht, bind, Except.bind, hk]

end TLcs
end Weldx
