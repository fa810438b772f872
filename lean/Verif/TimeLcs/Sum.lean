import Verif.TimeLcs.Props

/-!
# Sums and inverses of time dependent systems
-/

namespace Weldx

open Ip Matrix

theorem Rotation.mul {A B : Mat3 ℝ} (ha : Rotation A) (hb : Rotation B) : Rotation (A * B) := by
  refine ⟨?_, by rw [Matrix.det_mul, ha.2, hb.2, one_mul]⟩
  rw [Matrix.transpose_mul, Matrix.mul_assoc, ← Matrix.mul_assoc B, hb.1, Matrix.one_mul, ha.1]

theorem Rotation.transpose {A : Mat3 ℝ} (ha : Rotation A) : Rotation Aᵀ := by
  refine ⟨?_, by rw [Matrix.det_transpose, ha.2]⟩
  rw [Matrix.transpose_transpose]
  exact mul_eq_one_comm.1 ha.1

theorem Rotation.one : Rotation 1 := ⟨by simp, by simp⟩

namespace TLcs

/-! ### values of sums and inverses at one index -/

/-- the two variables of a sum -/
noncomputable def sumOrient (lhs rhs : TLcs) : Comp (Mat3 ℝ) := Comp.map₂ (· * ·) rhs.orient lhs.orient

noncomputable def sumCoord (lhs rhs : TLcs) : Comp (Vec3 ℝ) :=
  Comp.map₂ (· + ·) (Comp.map₂ (fun R T => R *ᵥ T) rhs.orient lhs.coord) rhs.coord

theorem sum_get {lhs rhs : TLcs} {i : ℕ} {f g : Lcs ℝ}
    (hf : lhs.orient.get? i = some f.orientation ∧ lhs.coord.get? i = some f.coordinates)
    (hg : rhs.orient.get? i = some g.orientation ∧ rhs.coord.get? i = some g.coordinates) :
    (sumOrient lhs rhs).get? i = some (f.add g).orientation ∧ (sumCoord lhs rhs).get? i = some (f.add g).coordinates :=
  ⟨Comp.get?_map₂ _ hg.1 hf.1, Comp.get?_map₂ _ (Comp.get?_map₂ _ hg.1 hf.2) hg.2⟩

theorem sum_rot {lhs rhs : TLcs} (hl : lhs.WF) (hr : rhs.WF) : CompAll Rotation (sumOrient lhs rhs) :=
  compAll_map₂ (fun _ _ h1 h2 => h1.mul h2) hr.rot hl.rot

theorem sum_dep (lhs rhs : TLcs) (t : Option (List Int)) (r : Option Int) :
    (⟨t, r, sumOrient lhs rhs, sumCoord lhs rhs⟩ : TLcs).dependent = (lhs.dependent || rhs.dependent) := by
  unfold dependent sumOrient sumCoord
  simp only [isSeries_map₂]
  cases lhs.orient.isSeries <;> cases lhs.coord.isSeries <;> cases rhs.orient.isSeries <;> cases rhs.coord.isSeries <;> rfl

theorem sum_len {lhs rhs : TLcs} {n : ℕ} (h1 : CompLen n lhs.orient) (h2 : CompLen n lhs.coord) (h3 : CompLen n rhs.orient)
    (h4 : CompLen n rhs.coord) : CompLen n (sumOrient lhs rhs) ∧ CompLen n (sumCoord lhs rhs) :=
  ⟨compLen_map₂ _ h3 h1, compLen_map₂ _ (compLen_map₂ _ h3 h2) h4⟩

/-- unfolded sum -/
theorem add_eq {S : Slerp} {lhs rhs l r r' : TLcs} {tref : Option Int} {t : Option Time} (hu : unifyRefs lhs rhs = (l, r, tref))
    (ht : l.time = .ok t) (hr : r.interpTime S t tref = .ok r') : lhs.add S rhs =
      .ok ⟨mergeTimes l r', if (mergeTimes l r').isSome then tref else none, sumOrient l r', sumCoord l r'⟩ := by
  simp only [add, hu, ht, hr, bind, Except.bind]
  rfl

/-- the unified reference times -/
theorem unifyRefs_spec {lhs rhs : TLcs} (hl : lhs.WF) (hr : rhs.WF) : ∃ l r tref, unifyRefs lhs rhs = (l, r, tref) ∧ l.WF ∧ r.WF ∧
    (l.orient = lhs.orient ∧ l.coord = lhs.coord ∧ l.clock = lhs.clock ∧ (l.times = none ↔ lhs.times = none)) ∧
    (r.orient = rhs.orient ∧ r.coord = rhs.coord ∧ r.clock = rhs.clock ∧ (r.times = none ↔ rhs.times = none)) ∧
    (l.ref.isSome = lhs.ref.isSome ∧ r.ref.isSome = rhs.ref.isSome) ∧
    (l.ref = none ∨ l.ref = tref) ∧ (r.ref = none ∨ r.ref = tref) ∧ (tref = none → l.ref = none ∧ r.ref = none) ∧
    (∀ a, tref = some a → (lhs.ref = some a ∨ rhs.ref = some a) ∧ (∀ b, lhs.ref = some b → a ≤ b) ∧
      ∀ b, rhs.ref = some b → a ≤ b) := by
  unfold unifyRefs
  cases h1 : lhs.ref with
  | none =>
    refine ⟨lhs, rhs, rhs.ref, rfl, hl, hr, ⟨rfl, rfl, rfl, Iff.rfl⟩, ⟨rfl, rfl, rfl, Iff.rfl⟩, by simp [h1], .inl h1, .inr rfl,
      fun h => ⟨h1, h⟩, ?_⟩
    intro a ha
    refine ⟨.inr ha, by simp, ?_⟩
    intro b hb
    rw [ha] at hb; cases hb; exact le_rfl
  | some a => cases h2 : rhs.ref with
    | none =>
      refine ⟨lhs, rhs, some a, rfl, hl, hr, ⟨rfl, rfl, rfl, Iff.rfl⟩, ⟨rfl, rfl, rfl, Iff.rfl⟩, by simp [h1, h2], .inr h1, .inl h2,
        by simp, ?_⟩
      intro x hx
      simp only [Option.some.injEq] at hx
      subst hx
      simp
    | some b =>
      have hlt : lhs.times ≠ none := fun h => by have := hl.ref h; rw [h1] at this; cases this
      have hrt : rhs.times ≠ none := fun h => by have := hr.ref h; rw [h2] at this; cases this
      simp only
      by_cases hab : a = b
      · rw [if_neg (by simpa using hab)]
        subst hab
        refine ⟨lhs, rhs, some a, rfl, hl, hr, ⟨rfl, rfl, rfl, Iff.rfl⟩, ⟨rfl, rfl, rfl, Iff.rfl⟩, by simp [h1, h2], .inr h1, .inr h2,
          by simp, ?_⟩
        intro x hx
        simp only [Option.some.injEq] at hx
        subst hx
        simp
      · rw [if_pos hab]
        by_cases hlt' : a < b
        · rw [if_pos hlt']
          obtain ⟨q1, q2, q3, q4, _, q6, q7⟩ := reset_spec hr a
          refine ⟨lhs, rhs.reset a, some a, rfl, hl, q1, ⟨rfl, rfl, rfl, Iff.rfl⟩, ⟨q2, q3, q7 (by rw [h2]; simp), q6⟩,
            by simp [h1, q4 hrt], .inr h1, .inr (q4 hrt), by simp, ?_⟩
          intro x hx
          simp only [Option.some.injEq] at hx
          subst hx
          refine ⟨.inl rfl, by simp, ?_⟩
          intro y hy
          simp only [Option.some.injEq] at hy
          omega
        · rw [if_neg hlt']
          obtain ⟨q1, q2, q3, q4, _, q6, q7⟩ := reset_spec hl b
          refine ⟨lhs.reset b, rhs, some b, rfl, q1, hr, ⟨q2, q3, q7 (by rw [h1]; simp), q6⟩, ⟨rfl, rfl, rfl, Iff.rfl⟩,
            by simp [h2, q4 hlt], .inr (q4 hlt), .inr h2, by simp, ?_⟩
          intro x hx
          simp only [Option.some.injEq] at hx
          subst hx
          refine ⟨.inr rfl, ?_, by simp⟩
          intro y hy
          simp only [Option.some.injEq] at hy
          omega

theorem get_of_label {S : Slerp} {c : TLcs} (h : c.dependent = false) {t : Int} {f : Lcs ℝ} (hf : c.At S t f) (i : ℕ) :
    c.orient.get? i = some f.orientation ∧ c.coord.get? i = some f.coordinates := by
  obtain ⟨g, h1, h2, h3⟩ := At_static (S := S) h
  rw [(h3 t f).1 hf, h1, h2]
  exact ⟨rfl, rfl⟩

theorem times_some {c : TLcs} (h : c.WF) (hd : c.dependent = true) : c.times ≠ none := by
  obtain ⟨l, hl, _⟩ := h.series hd
  rw [hl]; simp

theorem WF.times_asc {c : TLcs} (h : c.WF) {l : List Int} (hl : c.times = some l) : l.Pairwise (· < ·) := by
  by_cases hd : c.dependent = true
  · obtain ⟨l', hl', _, ha, _⟩ := h.series hd
    rw [hl] at hl'; cases hl'; exact ha
  · rcases h.label (by simpa using hd) with h' | ⟨x, h'⟩
    · rw [hl] at h'; cases h'
    · rw [hl] at h'; cases h'; simp

/-! ### C22: sums -/

/-- the left system has times (or the single time left by an earlier interpolation): the sum has its times and at each of them
its value is the composition of the values of both systems at this time -/
theorem C22_left {S : Slerp} (hS : SlerpOk S) {lhs rhs : TLcs} (hl : lhs.WF) (hr : rhs.WF) (ht : lhs.times ≠ none)
    (h1 : rhs.ref.isSome = true → lhs.ref.isSome = true)
    (h2 : rhs.dependent = true → lhs.ref.isSome = true → rhs.ref.isSome = true) :
    ∃ s, lhs.add S rhs = .ok s ∧ s.WF ∧ s.dependent = lhs.dependent ∧
      (lhs.dependent = true → s.clock = lhs.clock ∧ s.ref.isSome = lhs.ref.isSome ∧
        ∀ a, s.ref = some a → (lhs.ref = some a ∨ rhs.ref = some a) ∧ (∀ b, lhs.ref = some b → a ≤ b) ∧
          ∀ b, rhs.ref = some b → a ≤ b) ∧
      ∀ x ∈ lhs.clock, ∀ f g, lhs.At S x f → rhs.At S x g → s.At S x (f.add g) := by
  obtain ⟨l, r, tref, hu, lw, rw', ⟨l1, l2, l3, l4⟩, ⟨r1, r2, r3, r4⟩, ⟨e1, e2⟩, u1, u2, u3, u4⟩ := unifyRefs_spec hl hr
  have htl : l.times ≠ none := fun h => ht (l4.1 h)
  obtain ⟨ls, hls⟩ := Option.ne_none_iff_exists'.1 htl
  have las := lw.times_asc hls
  have hct := clock_asc lw
  have hlref : l.ref = tref := by
    rcases u1 with h | h
    · cases htr : tref with
      | none => exact h
      | some a =>
        exfalso
        have : rhs.ref.isSome = true := by
          rcases (u4 a htr).1 with h' | h'
          · rw [h, h'] at e1; simp at e1
          · rw [h']; rfl
        have := h1 this
        rw [← e1, h] at this; cases this
    · exact h
  have ldep : l.dependent = lhs.dependent := by unfold dependent; rw [l1, l2]
  have rdep : r.dependent = rhs.dependent := by unfold dependent; rw [r1, r2]
  have hlsne : ls ≠ [] := by
    by_cases hd : l.dependent = true
    · obtain ⟨l', hl', h2, _⟩ := lw.series hd
      rw [hls] at hl'; cases hl'
      intro h; subst h; simp at h2
    · rcases lw.label (by simpa using hd) with h' | ⟨x, h'⟩
      · exact absurd h' htl
      · rw [hls] at h'; cases h'; simp
  have htime := time_eq hls las
  -- the right system at the times of the left one
  obtain ⟨r', hr', rw'', rat, rcl⟩ : ∃ r', r.interpTime S (some ⟨l.ref.isSome, l.clock, l.ref⟩) tref = .ok r' ∧ r'.WF ∧
      (∀ x ∈ l.clock, ∀ g, r.At S x g → r'.At S x g) ∧
      (r'.dependent = true → l.dependent = true ∧ r'.clock = l.clock) := by
    by_cases hd : r.dependent = true
    · have hab : ∀ a, tref = some a → l.ref.isSome = true := fun a h => by rw [hlref, h]; rfl
      have hof : (⟨l.ref.isSome, l.clock, l.ref⟩ : Time).ofTime tref = .ok ⟨l.ref.isSome, l.clock, l.ref⟩ := by
        have e : (⟨l.ref.isSome, l.clock, l.ref⟩ : Time).ofTime tref =
            Time.make l.ref.isSome l.clock (tref.or l.ref) := by
          unfold Time.ofTime; cases tref <;> rfl
        rw [e, hlref, Option.or_self, ← hlref]
        simp only [Time.make]
        cases hr : l.ref with
        | none => simp [monotonic_of_strict hct]
        | some a => simp [monotonic_of_strict hct]
      have hk : r.ref.isSome = (⟨l.ref.isSome, l.clock, l.ref⟩ : Time).abs := by
        simp only
        rw [Bool.eq_iff_iff]
        constructor
        · intro h
          rw [e1]; exact h1 (e2 ▸ h)
        · intro h
          rw [e2]; exact h2 (rdep ▸ hd) (e1 ▸ h)
      obtain ⟨r', h1, h2, h3, h4, h5, h6⟩ := interpTime_spec hS rw' hd hof hct (by
        simp only; rw [clock_of_times hls]; simpa using hlsne) hk
      refine ⟨r', h1, h2, h3, fun h => ⟨?_, (h5 h).1⟩⟩
      have h2' := (h4.1 h).2
      by_contra hld
      rcases lw.label (by simpa using hld) with h' | ⟨x, h'⟩
      · exact htl h'
      · rw [clock_of_times h'] at h2'; simp at h2'
    · refine ⟨r, interpTime_static r _ _ (.inr (by simpa using hd)), rw', fun _ _ _ h => h, fun h => absurd h hd⟩
  have hadd := add_eq hu htime hr'
  by_cases hd : l.dependent = true
  · have hm : mergeTimes l r' = some ls := by rw [mergeTimes, if_pos hd, hls]
    rw [hm] at hadd
    simp only [Option.isSome_some, if_true] at hadd
    have hcl : (⟨some ls, tref, sumOrient l r', sumCoord l r'⟩ : TLcs).clock = l.clock := by
      rw [clock_of_times (c := ⟨some ls, tref, sumOrient l r', sumCoord l r'⟩) rfl, clock_of_times hls, hlref]
    have hdep : (⟨some ls, tref, sumOrient l r', sumCoord l r'⟩ : TLcs).dependent = true := by
      rw [sum_dep, hd]; rfl
    obtain ⟨q1, q2⟩ := lw.lens hls
    have rlen : CompLen l.clock.length r'.orient ∧ CompLen l.clock.length r'.coord := by
      by_cases h : r'.dependent = true
      · obtain ⟨m, hm', _⟩ := rw''.series h
        have := rw''.lens hm'
        rw [(rcl h).2] at this
        exact this
      · obtain ⟨g, h1, h2, _⟩ := At_static (S := S) (c := r') (by simpa using h)
        rw [h1, h2]; exact ⟨trivial, trivial⟩
    have hlen := clock_length hls
    have hsl := sum_len q1 q2 rlen.1 rlen.2
    rw [hlen] at hsl
    have hw : (⟨some ls, tref, sumOrient l r', sumCoord l r'⟩ : TLcs).WF := by
      refine ⟨fun _ => ⟨ls, rfl, ?_, las, hsl⟩, fun h => ?_, by simp, sum_rot lw rw''⟩
      · obtain ⟨l', hl', h2, _⟩ := lw.series hd
        rw [hls] at hl'; cases hl'; exact h2
      · rw [hdep] at h; cases h
    refine ⟨_, hadd, hw, ?_, ?_, ?_⟩
    · rw [hdep, ← ldep, hd]
    · intro _
      refine ⟨hcl.trans l3, ?_, ?_⟩
      · simp only
        rw [← hlref, e1]
      · intro a ha
        exact u4 a ha
    · intro x hx f g hf hg
      obtain ⟨i, hi⟩ := List.getElem?_of_mem hx
      rw [← l3] at hi hx
      have hf' : l.At S x f := (At_congr l3 l1 l2 x f).2 hf
      have hg' : r'.At S x g := rat x hx g ((At_congr r3 r1 r2 x g).2 hg)
      have hf'' := (At_sample hS lw hi f).1 hf'
      have hg'' : r'.orient.get? i = some g.orientation ∧ r'.coord.get? i = some g.coordinates := by
        by_cases h : r'.dependent = true
        · exact (At_sample hS rw'' (by rw [(rcl h).2]; exact hi) g).1 hg'
        · exact get_of_label (by simpa using h) hg' i
      rw [At_sample hS hw (by rw [hcl]; exact hi)]
      exact sum_get hf'' hg''
  · have hrd : r'.dependent = false := by
      by_contra h
      exact hd (rcl (by simpa using h)).1
    have hd' : l.dependent = false := by simpa using hd
    have hdep : (⟨mergeTimes l r', if (mergeTimes l r').isSome then tref else none, sumOrient l r', sumCoord l r'⟩ : TLcs).dependent
        = false := by
      rw [sum_dep, hd', hrd]; rfl
    refine ⟨_, hadd, ⟨fun h => ?_, fun _ => ?_, fun h => ?_, sum_rot lw rw''⟩, by rw [hdep, ← ldep, hd'], fun h => ?_, ?_⟩
    · rw [hdep] at h; cases h
    · simp only [mergeTimes, hd', hrd, Bool.false_eq_true, if_false]
      rcases lw.label hd' with h | ⟨x, h⟩
      · exact absurd h htl
      · rcases rw''.label hrd with h' | ⟨y, h'⟩
        · rw [h, h']; exact .inr ⟨x, rfl⟩
        · rw [h, h']
          simp only
          split_ifs
          · exact .inr ⟨x, rfl⟩
          · exact .inl rfl
    · simp only at h ⊢
      rw [h]; rfl
    · rw [← ldep, hd'] at h; cases h
    · intro x hx f g hf hg
      have hf' : l.At S x f := (At_congr l3 l1 l2 x f).2 hf
      have hg' : r'.At S x g := rat x (by rw [l3]; exact hx) g ((At_congr r3 r1 r2 x g).2 hg)
      have := sum_get (get_of_label hd' hf' 0) (get_of_label hrd hg' 0)
      obtain ⟨k, k1, k2, k3⟩ := At_static (S := S) hdep
      simp only at k1 k2
      rw [k3]
      rw [k1, k2] at this
      simp only [Comp.get?, Option.some.injEq] at this
      exact Lcs.ext this.1.symm this.2.symm

/-- the left system is static: the sum has the times of the right one -/
theorem C22_right {S : Slerp} (hS : SlerpOk S) {lhs rhs : TLcs} (hl : lhs.WF) (hr : rhs.WF) (ht : lhs.times = none) :
    ∃ s, lhs.add S rhs = .ok s ∧ s.WF ∧ s.dependent = rhs.dependent ∧ s.clock = rhs.clock ∧ s.ref = rhs.ref ∧
      ∀ x, (x ∈ rhs.clock ∨ rhs.dependent = false) → ∀ f g, lhs.At S x f → rhs.At S x g → s.At S x (f.add g) := by
  have hld : lhs.dependent = false := by
    by_contra h
    exact times_some hl (by simpa using h) ht
  have hu : unifyRefs lhs rhs = (lhs, rhs, rhs.ref) := by
    rw [unifyRefs, hl.ref ht]
  have hadd := add_eq (S := S) hu (t := none) (by rw [time, ht]) (interpTime_static rhs none rhs.ref (.inl rfl))
  have hm : mergeTimes lhs rhs = rhs.times := by
    rw [mergeTimes, hld]
    simp only [Bool.false_eq_true, if_false, ht]
    split_ifs <;> rfl
  rw [hm] at hadd
  have href : (if rhs.times.isSome then rhs.ref else none) = rhs.ref := by
    cases h : rhs.times with
    | none => rw [hr.ref h]; rfl
    | some l => rfl
  rw [href] at hadd
  have hcl : (⟨rhs.times, rhs.ref, sumOrient lhs rhs, sumCoord lhs rhs⟩ : TLcs).clock = rhs.clock := rfl
  have hdep : (⟨rhs.times, rhs.ref, sumOrient lhs rhs, sumCoord lhs rhs⟩ : TLcs).dependent = rhs.dependent := by
    rw [sum_dep, hld]; rfl
  obtain ⟨k, k1, k2, k3⟩ := At_static (S := S) hld
  have hw : (⟨rhs.times, rhs.ref, sumOrient lhs rhs, sumCoord lhs rhs⟩ : TLcs).WF := by
    refine ⟨fun h => ?_, fun h => ?_, hr.ref, sum_rot hl hr⟩
    · rw [hdep] at h
      obtain ⟨l, h1, h2, h3, h4, h5⟩ := hr.series h
      refine ⟨l, h1, h2, h3, sum_len ?_ ?_ h4 h5⟩
      · rw [k1]; trivial
      · rw [k2]; trivial
    · rw [hdep] at h
      exact hr.label h
  refine ⟨_, hadd, hw, hdep, hcl, rfl, ?_⟩
  intro x hx f g hf hg
  rcases hx with hx | hx
  · obtain ⟨i, hi⟩ := List.getElem?_of_mem hx
    rw [At_sample hS hw (by rw [hcl]; exact hi)]
    exact sum_get (get_of_label hld hf i) ((At_sample hS hr hi g).1 hg)
  · have := sum_get (get_of_label hld hf 0) (get_of_label hx hg 0)
    obtain ⟨k, k1, k2, k3⟩ := At_static (S := S) (hdep.trans hx)
    simp only at k1 k2
    rw [k3]
    rw [k1, k2] at this
    simp only [Comp.get?, Option.some.injEq] at this
    exact Lcs.ext this.1.symm this.2.symm

/-- a left system without reference time is read as if its times were relative to the reference time of the right one -/
theorem C22_missing_reference_left (S : Slerp) {lhs rhs : TLcs} (hl : lhs.WF) (hr : lhs.ref = none) {b : Int}
    (hb : rhs.ref = some b) (ht : lhs.times ≠ none) : lhs.add S rhs = ({ lhs with ref := some b } : TLcs).add S rhs := by
  obtain ⟨l, hlt⟩ := Option.ne_none_iff_exists'.1 ht
  have hu1 : unifyRefs lhs rhs = (lhs, rhs, some b) := by rw [unifyRefs, hr, hb]
  have hu2 : unifyRefs ({ lhs with ref := some b } : TLcs) rhs = ({ lhs with ref := some b }, rhs, some b) := by
    simp [unifyRefs, hb]
  have ha := hl.times_asc hlt
  have ht1 := time_eq hlt ha
  have ht2 := time_eq (c := { lhs with ref := some b }) hlt ha
  simp only [hr] at ht1
  have hcl : ({ lhs with ref := some b } : TLcs).clock = l.map (· + b) := clock_of_times (c := { lhs with ref := some b }) hlt
  have hcl' : lhs.clock = l := by rw [clock_of_times hlt, hr]; simp
  have hof : (⟨false, l, none⟩ : Time).ofTime (some b) = (⟨true, l.map (· + b), some b⟩ : Time).ofTime (some b) := by
    simp [Time.ofTime, Time.make]
  have hint : rhs.interpTime S (some ⟨false, l, none⟩) (some b) = rhs.interpTime S (some ⟨true, l.map (· + b), some b⟩) (some b) := by
    simp only [interpTime, hof]
  simp only [add, hu1, hu2, ht1, ht2, bind, Except.bind, hcl, hcl']
  simp only [Option.isSome_none, Option.isSome_some]
  rw [hint]
  rfl

/-- a right system that is time dependent without reference time can not be added to one with reference time -/
theorem C22_missing_reference_right (S : Slerp) {lhs rhs : TLcs} (hl : lhs.WF) {a : Int} (ha : lhs.ref = some a)
    (hr : rhs.ref = none) (hd : rhs.dependent = true) : lhs.add S rhs = .error .typeError := by
  have ht : lhs.times ≠ none := fun h => by have := hl.ref h; rw [ha] at this; cases this
  obtain ⟨l, hlt⟩ := Option.ne_none_iff_exists'.1 ht
  have hu : unifyRefs lhs rhs = (lhs, rhs, some a) := by rw [unifyRefs, ha, hr]
  have hct := clock_asc hl
  have hof : (⟨lhs.ref.isSome, lhs.clock, lhs.ref⟩ : Time).ofTime (some a) = .ok ⟨true, lhs.clock, some a⟩ := by
    simp [Time.ofTime, Time.make, ha, monotonic_of_strict hct]
  have := interpTime_mixed (S := S) rhs hd hof (by simp [hr])
  simp only [add, hu, time_eq hlt (hl.times_asc hlt), bind, Except.bind, this]

/-! ### inverses -/

theorem invert_wf {c : TLcs} (h : c.WF) : c.invert.WF := by
  have hdep : c.invert.dependent = c.dependent := by
    unfold dependent invert
    simp only [isSeries_map, isSeries_map₂]
    cases c.orient.isSeries <;> cases c.coord.isSeries <;> rfl
  refine ⟨fun hd => ?_, fun hd => ?_, h.ref, compAll_map (fun _ h => h.transpose) h.rot⟩
  · rw [hdep] at hd
    obtain ⟨l, h1, h2, h3, h4, h5⟩ := h.series hd
    exact ⟨l, h1, h2, h3, compLen_map _ h4, compLen_map₂ _ h4 h5⟩
  · rw [hdep] at hd
    exact h.label hd

theorem invert_dep (c : TLcs) : c.invert.dependent = c.dependent := by
  unfold dependent invert
  simp only [isSeries_map, isSeries_map₂]
  cases c.orient.isSeries <;> cases c.coord.isSeries <;> rfl

/-- the inverse at a sample -/
theorem invert_sample {S : Slerp} (hS : SlerpOk S) {c : TLcs} (h : c.WF) {t : Int} (ht : t ∈ c.clock) {f : Lcs ℝ}
    (hf : c.At S t f) : c.invert.At S t f.invert := by
  obtain ⟨i, hi⟩ := List.getElem?_of_mem ht
  obtain ⟨h1, h2⟩ := (At_sample hS h hi f).1 hf
  rw [At_sample hS (invert_wf h) (t := t) (i := i) hi]
  refine ⟨?_, Comp.get?_map₂ _ h1 h2⟩
  simp only [invert, Comp.get?_map, h1]
  rfl

/-- linear maps commute with linear interpolation -/
theorem value_map {V W : Type} [AddCommGroup V] [Module ℝ V] [AddCommGroup W] [Module ℝ W] (g : V →ₗ[ℝ] W) {ts : List Int}
    {l : List V} {t : Int} {v : V} (h : Value linMix (ts.zip l) t v) : Value linMix (ts.zip (l.map g)) t (g v) := by
  have e : ts.zip (l.map g) = (ts.zip l).map fun p => (p.1, g p.2) := by
    rw [List.zip_map_right]
    rfl
  rw [e]
  cases h with
  | @before p hp ht => exact .before (p := (p.1, g p.2)) (by rw [List.head?_map, hp]; rfl) ht
  | @after p hp ht => exact .after (p := (p.1, g p.2)) (by rw [List.getLast?_map, hp]; rfl) ht
  | @between i p q hp hq h1 h2 =>
    have := Value.between (mix := linMix) (s := (ts.zip l).map fun p => (p.1, g p.2)) (i := i) (p := (p.1, g p.2))
      (q := (q.1, g q.2)) (by rw [List.getElem?_map, hp]; rfl) (by rw [List.getElem?_map, hq]; rfl) h1 h2
    have hg : g (linMix p.2 q.2 (((t : ℝ) - p.1) / (q.1 - p.1))) = linMix (g p.2) (g q.2) (((t : ℝ) - p.1) / (q.1 - p.1)) := by
      simp [linMix]
    rw [hg]
    exact this

/-- the inverse at any time for a static orientation -/
theorem invert_static_orientation {S : Slerp} {c : TLcs} {R : Mat3 ℝ} (hR : c.orient = .static R) {t : Int} {f : Lcs ℝ}
    (hf : c.At S t f) : c.invert.At S t f.invert := by
  obtain ⟨ts, rf, o, k⟩ := c
  simp only at hR
  subst hR
  obtain ⟨h1, h2⟩ := hf
  obtain ⟨A, B⟩ := f
  simp only at h1 h2
  cases h1
  refine ⟨.static, ?_⟩
  cases k with
  | static T => cases h2; exact .static
  | series l =>
    cases h2 with
    | series h2 =>
      let g : Vec3 ℝ →ₗ[ℝ] Vec3 ℝ := -(Matrix.mulVecLin Rᵀ)
      have hg : ∀ v, g v = Rᵀ *ᵥ (-v) := by
        intro v
        simp [g, Matrix.mulVec_neg, Matrix.mulVec_transpose]
      have := value_map g h2
      rw [hg] at this
      have e : l.map g = l.map fun T => Rᵀ *ᵥ (-T) := List.map_congr_left fun v _ => hg v
      rw [e] at this
      exact .series this

end TLcs
end Weldx
