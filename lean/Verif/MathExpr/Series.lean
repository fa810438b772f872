import Verif.MathExpr.Props

/-!
# Stepwise evaluation of expression based generic series (C36)
-/

namespace Weldx.Me

variable {K : Type}

/-! ## Specification vocabulary -/

/-- the same dimensions and values; the coordinates may differ -/
def Same (a b : Arr K) : Prop := a.dims = b.dims ∧ a.val = b.val

/-- an expression based series as the constructor leaves it: every variable of the expression has its own dimension, the parameters
agree about lengths and coordinates of the dimensions they share, and no parameter has a dimension of a variable (this is
checked by `_test_expr`, generic_series.py 360-403) -/
structure Series (me : ME K) (sd : List (String × String)) : Prop where
  params_nodup : (Dict.keys me.params).Nodup
  params_free : ∀ s ∈ Dict.keys me.params, s ∈ me.expr.free
  syms_nodup : (Dict.keys sd).Nodup
  dims_nodup : (sd.map Prod.snd).Nodup
  vars : ∀ s, s ∈ Dict.keys sd ↔ s ∈ me.variableNames
  agree : ∃ (S : String → ℕ) (C : String → List K), ∀ p ∈ me.params,
    (∀ d ∈ p.2.dims, d.2 = S d.1) ∧ ∀ c ∈ p.2.coords, c.2 = C c.1
  own : ∀ p ∈ me.params, ∀ d ∈ sd.map Prod.snd, d ∉ Dict.keys p.2.dims ∧ d ∉ Dict.keys p.2.coords

/-! ## Labelled arrays -/

theorem joinLabels_mem {L : Type} [DecidableEq L] {a b r : List (String × L)} (h : joinLabels a b = some r) :
    (∀ e ∈ r, e ∈ a ∨ e ∈ b) ∧ ∀ d, d ∈ Dict.keys r ↔ d ∈ Dict.keys a ∨ d ∈ Dict.keys b := by
  unfold joinLabels at h
  split at h
  · cases h
    constructor
    · intro e he
      rcases List.mem_append.1 he with h | h
      · exact .inl h
      · exact .inr (List.mem_filter.1 h).1
    · intro d
      rw [Dict.keys_append, List.mem_append]
      constructor
      · rintro (h | h)
        · exact .inl h
        · obtain ⟨v, hv⟩ := Dict.mem_keys_iff.1 h
          exact .inr (Dict.mem_keys_of_mem (List.mem_filter.1 hv).1)
      · rintro (h | h)
        · exact .inl h
        · by_cases ha : d ∈ Dict.keys a
          · exact .inl ha
          · obtain ⟨v, hv⟩ := Dict.mem_keys_iff.1 h
            refine .inr (Dict.mem_keys_of_mem (v := v) (List.mem_filter.2 ⟨hv, ?_⟩))
            simp [Dict.get?_eq_none.2 ha]
  · cases h

theorem joinLabels_ok {L : Type} [DecidableEq L] {a b : List (String × L)} {S : String → L} (ha : ∀ e ∈ a, e.2 = S e.1)
    (hb : ∀ e ∈ b, e.2 = S e.1) : ∃ r, joinLabels a b = some r := by
  unfold joinLabels
  rw [if_pos]
  · exact ⟨_, rfl⟩
  · intro e he
    cases h : Dict.get? a e.1 with
    | none => exact .inl rfl
    | some v =>
      right
      rw [hb e he, ← ha _ (Dict.mem_of_get? h)]

/-- the arrays of an environment agree about lengths and coordinates -/
def Agree (S : String → ℕ) (C : String → List K) (env : List (String × Arr K)) : Prop :=
  ∀ s a, Dict.get? env s = some a → (∀ d ∈ a.dims, d.2 = S d.1) ∧ ∀ c ∈ a.coords, c.2 = C c.1

theorem eval_ok [DecidableEq K] {S : String → ℕ} {C : String → List K} {env : List (String × Arr K)} (hA : Agree S C env)
    (e : Expr K) (hs : ∀ s ∈ e.syms, s ∈ Dict.keys env) :
    ∃ r, e.eval env = .ok r ∧ (∀ d ∈ r.dims, d.2 = S d.1) ∧ (∀ c ∈ r.coords, c.2 = C c.1) ∧
      ∀ d, d ∈ Dict.keys r.coords ↔ ∃ s ∈ e.syms, ∃ a, Dict.get? env s = some a ∧ d ∈ Dict.keys a.coords := by
  induction e with
  | num k => exact ⟨_, rfl, by simp [Arr.const], by simp [Arr.const], by simp [Arr.const, Expr.syms]⟩
  | sym s =>
    obtain ⟨a, ha⟩ := Dict.get?_isSome.2 (hs s (by simp [Expr.syms]))
    refine ⟨a, by simp [Expr.eval, ha], (hA s a ha).1, (hA s a ha).2, ?_⟩
    intro d
    simp [Expr.syms, ha]
  | un f a ih =>
    obtain ⟨r, h1, h2, h3, h4⟩ := ih hs
    exact ⟨{ r with
      val := fun i => f (r.val i) }, by simp only [Expr.eval, h1], h2, h3, h4⟩
  | bin f a b iha ihb =>
    obtain ⟨r, h1, h2, h3, h4⟩ := iha (fun s h => hs s (by simp [Expr.syms, h]))
    obtain ⟨q, k1, k2, k3, k4⟩ := ihb (fun s h => hs s (by simp [Expr.syms, h]))
    obtain ⟨c, hc⟩ := joinLabels_ok h3 k3
    obtain ⟨d, hd⟩ := joinLabels_ok h2 k2
    refine ⟨⟨d, c, fun i => f (r.val i) (q.val i)⟩, by simp only [Expr.eval, h1, k1, Arr.bin, hc, hd], ?_, ?_, ?_⟩
    · intro x hx
      rcases (joinLabels_mem hd).1 x hx with h | h
      · exact h2 x h
      · exact k2 x h
    · intro x hx
      rcases (joinLabels_mem hc).1 x hx with h | h
      · exact h3 x h
      · exact k3 x h
    · intro x
      rw [(joinLabels_mem hc).2 x, h4, k4]
      simp only [Expr.syms, List.mem_append]
      constructor
      · rintro (⟨s, hs, h⟩ | ⟨s, hs, h⟩)
        · exact ⟨s, .inl hs, h⟩
        · exact ⟨s, .inr hs, h⟩
      · rintro ⟨s, hs | hs, h⟩
        · exact .inl ⟨s, hs, h⟩
        · exact .inr ⟨s, hs, h⟩

theorem eval_same [DecidableEq K] {env env' : List (String × Arr K)}
    (h : ∀ s a, Dict.get? env s = some a → ∃ a', Dict.get? env' s = some a' ∧ Same a a') (e : Expr K) {r r' : Arr K}
    (hr : e.eval env = .ok r) (hr' : e.eval env' = .ok r') : Same r r' := by
  induction e generalizing r r' with
  | num k => cases hr; cases hr'; exact ⟨rfl, rfl⟩
  | sym s =>
    simp only [Expr.eval] at hr hr'
    cases ha : Dict.get? env s with
    | none => rw [ha] at hr; cases hr
    | some a =>
      obtain ⟨a', ha', hs⟩ := h s a ha
      rw [ha] at hr; rw [ha'] at hr'
      cases hr; cases hr'; exact hs
  | un f a ih =>
    simp only [Expr.eval] at hr hr'
    cases ha : a.eval env with
    | error x => rw [ha] at hr; cases hr
    | ok q =>
      cases ha' : a.eval env' with
      | error x => rw [ha'] at hr'; cases hr'
      | ok q' =>
        rw [ha] at hr; rw [ha'] at hr'
        cases hr; cases hr'
        have := ih ha ha'
        exact ⟨this.1, by simp only; rw [this.2]⟩
  | bin f a b iha ihb =>
    simp only [Expr.eval] at hr hr'
    cases ha : a.eval env with
    | error x => rw [ha] at hr; cases hr
    | ok q =>
      cases ha' : a.eval env' with
      | error x => rw [ha'] at hr'; cases hr'
      | ok q' =>
        rw [ha] at hr; rw [ha'] at hr'
        simp only at hr hr'
        cases hb : b.eval env with
        | error x => rw [hb] at hr; cases hr
        | ok p =>
          cases hb' : b.eval env' with
          | error x => rw [hb'] at hr'; cases hr'
          | ok p' =>
            rw [hb] at hr; rw [hb'] at hr'
            simp only [Arr.bin] at hr hr'
            obtain ⟨hq1, hq2⟩ := iha ha ha'
            obtain ⟨hp1, hp2⟩ := ihb hb hb'
            rw [← hq1, ← hp1, ← hq2, ← hp2] at hr'
            cases hc : joinLabels q.coords p.coords with
            | none => rw [hc] at hr; cases hr
            | some c =>
              cases hc' : joinLabels q'.coords p'.coords with
              | none => rw [hc'] at hr'; cases hr'
              | some c' =>
                rw [hc] at hr; rw [hc'] at hr'
                cases hd : joinLabels q.dims p.dims with
                | none => rw [hd] at hr; cases hr
                | some d => rw [hd] at hr hr'; cases hr; cases hr'; exact ⟨rfl, rfl⟩

/-! ## Partial evaluations -/

theorem symbolOf_eq {sd : List (String × String)} (hn : (sd.map Prod.snd).Nodup) {s d} (h : (s, d) ∈ sd) :
    symbolOf sd d = s := by
  unfold symbolOf
  induction sd with
  | nil => simp at h
  | cons e t ih =>
    simp only [List.map_cons, List.nodup_cons] at hn
    rcases List.mem_cons.1 h with rfl | h
    · simp
    · have : e.2 ≠ d := by
        rintro rfl
        exact hn.1 (List.mem_map.2 ⟨_, h, rfl⟩)
      rw [List.find?_cons_of_neg (by simpa using this)]
      exact ih hn.2 h

theorem eq_of_nodup_keys {V : Type} {d : List (String × V)} (hn : (Dict.keys d).Nodup) {k v w} (h : (k, v) ∈ d) (h' : (k, w) ∈ d) :
    v = w := by
  have := Dict.get?_of_mem hn h
  rw [Dict.get?_of_mem hn h'] at this
  exact (Option.some.inj this).symm

theorem fixAll_spec [Inhabited K] {σ : String → String} {me : ME K} {sd : List (String × String)}
    (hσ : ∀ e ∈ sd, σ e.2 = e.1) (hn : (Dict.keys sd).Nodup)
    (hf : ∀ s ∈ Dict.keys sd, s ∈ me.expr.free ∧ s ∉ Dict.keys me.params)
    {cs : List (String × List K)} (hcn : (Dict.keys cs).Nodup) (hc : ∀ d ∈ Dict.keys cs, d ∈ sd.map Prod.snd) :
    fixAll me sd (cs.map fun e => (σ e.1, e.1, Coord.many e.2)) =
      .ok (.expr ⟨me.expr, me.params ++ cs.map fun e => (σ e.1, Arr.vec e.2 e.1)⟩
        (sd.filter fun e => e.2 ∉ Dict.keys cs)) := by
  induction cs generalizing me sd with
  | nil =>
    simp [fixAll]
  | cons c t ih =>
    obtain ⟨d, ks⟩ := c
    obtain ⟨⟨s, d'⟩, hsd, hd⟩ := List.mem_map.1 (hc d (by simp))
    simp only at hd
    subst hd
    have hs : σ d' = s := hσ _ hsd
    have hsk : s ∈ Dict.keys sd := Dict.mem_keys_of_mem hsd
    obtain ⟨hf1, hf2⟩ := hf s hsk
    have herase : Dict.erase sd s = sd.filter fun e => e.2 ≠ d' := by
      unfold Dict.erase
      apply List.filter_congr
      rintro ⟨s', d⟩ he
      simp only [ne_eq, decide_not, Bool.not_eq_eq_eq_not, Bool.not_not, decide_eq_decide]
      constructor
      · intro h; subst h; exact eq_of_nodup_keys hn he hsd
      · intro h; subst h; exact (hσ _ he).symm.trans hs
    simp only [Dict.keys_cons, List.nodup_cons] at hcn
    simp only [List.map_cons, fixAll, hs, ME.setParameters, hf1, not_true_eq_false, if_false, Coord.partial, Arg.toArr,
      hsk, Dict.set_of_not_mem hf2]
    rw [ih]
    · rw [herase]
      simp only [List.filter_filter, List.append_assoc, List.cons_append, List.nil_append]
      congr 2
      apply List.filter_congr
      rintro ⟨s', d⟩ he
      simp only [Dict.keys_cons, List.mem_cons, not_or, Bool.decide_and, ne_eq, Bool.and_comm]
    · intro e he
      exact hσ e (List.mem_filter.1 he).1
    · rw [Dict.keys_erase]; exact hn.filter _
    · intro x hx
      rw [Dict.keys_erase] at hx
      obtain ⟨h1, h2⟩ := List.mem_filter.1 hx
      simp only [ne_eq, decide_not, Bool.not_eq_eq_eq_not, Bool.not_true, decide_eq_false_iff_not] at h2
      refine ⟨(hf x h1).1, ?_⟩
      simp only [Dict.keys_append, List.mem_append, not_or]
      exact ⟨(hf x h1).2, by simpa using h2⟩
    · exact hcn.2
    · intro x hx
      rw [herase]
      obtain ⟨e, he, rfl⟩ := List.mem_map.1 (hc x (by simp [hx]))
      refine List.mem_map.2 ⟨e, List.mem_filter.2 ⟨he, ?_⟩, rfl⟩
      simp only [ne_eq, decide_not, Bool.not_eq_eq_eq_not, Bool.not_true, decide_eq_false_iff_not]
      rintro rfl
      exact hcn.1 hx

/-- lists of values as coordinates -/
def manys (cs : List (String × List K)) : List (String × Coord K) := cs.map fun e => (e.1, .many e.2)

theorem evaluates_append [Inhabited K] [DecidableEq K] {g : GS K} {a b : List (List (String × Coord K))} :
    g.evaluates (a ++ b) = match g.evaluates a with
      | .error x => .error x
      | .ok g' => g'.evaluates b := by
  induction a generalizing g with
  | nil => rfl
  | cons c t ih =>
    simp only [List.cons_append, GS.evaluates]
    cases g.evaluate c with
    | error x => rfl
    | ok g' => exact ih

theorem steps_spec [Inhabited K] [DecidableEq K] {σ : String → String} {me : ME K} {sd : List (String × String)}
    (hσ : ∀ e ∈ sd, σ e.2 = e.1) (hn : (Dict.keys sd).Nodup) (hdn : (sd.map Prod.snd).Nodup)
    (hf : ∀ s ∈ Dict.keys sd, s ∈ me.expr.free ∧ s ∉ Dict.keys me.params)
    {steps : List (List (String × List K))} (hcn : (Dict.keys steps.flatten).Nodup)
    (hc : ∀ d ∈ Dict.keys steps.flatten, d ∈ sd.map Prod.snd)
    (hlen : me.params.length + steps.flatten.length < me.expr.free.length) :
    (GS.expr me sd).evaluates (steps.map manys) =
      .ok (.expr ⟨me.expr, me.params ++ steps.flatten.map fun e => (σ e.1, Arr.vec e.2 e.1)⟩
        (sd.filter fun e => e.2 ∉ Dict.keys steps.flatten)) := by
  induction steps generalizing me sd with
  | nil => simp [GS.evaluates]
  | cons c t ih =>
    simp only [List.flatten_cons, Dict.keys_append, List.nodup_append, List.mem_append, List.length_append] at hcn hc hlen
    have hsym : ∀ d ∈ Dict.keys c, symbolOf sd d = σ d := by
      intro d hd
      obtain ⟨⟨s, d'⟩, hsd, rfl⟩ := List.mem_map.1 (hc d (.inl hd))
      exact (symbolOf_eq hdn hsd).trans (hσ _ hsd).symm
    have hmap : ((manys c).map fun e => (symbolOf sd e.1, e.1, e.2)) = c.map fun e => (σ e.1, e.1, Coord.many e.2) := by
      unfold manys
      rw [List.map_map]
      apply List.map_congr_left
      intro e he
      simp only [Function.comp]
      rw [hsym e.1 (Dict.mem_keys_of_mem he)]
    have hstep : (GS.expr me sd).evaluate (manys c) =
        .ok (.expr ⟨me.expr, me.params ++ c.map fun e => (σ e.1, Arr.vec e.2 e.1)⟩
          (sd.filter fun e => e.2 ∉ Dict.keys c)) := by
      simp only [GS.evaluate]
      rw [if_neg, hmap]
      · exact fixAll_spec hσ hn hf hcn.1 (fun d hd => hc d (.inl hd))
      · unfold ME.numVariables manys
        simp only [List.length_map]
        omega
    simp only [List.map_cons, GS.evaluates, hstep]
    have hinj : ∀ e ∈ sd, ∀ x ∈ c, e.1 = σ x.1 → e.2 = x.1 := by
      intro e he x hx h
      obtain ⟨⟨s, d'⟩, hsd, hd'⟩ := List.mem_map.1 (hc x.1 (.inl (Dict.mem_keys_of_mem hx)))
      simp only at hd'
      have := hσ _ hsd
      simp only [hd'] at this
      rw [← h] at this
      rw [← hd']
      have h2 : (e.1, d') ∈ sd := by rw [this]; exact hsd
      exact eq_of_nodup_keys hn he h2
    rw [ih]
    · simp only [List.flatten_cons, List.map_append, List.append_assoc, List.filter_filter, Dict.keys_append, List.mem_append,
        not_or, Bool.decide_and]
      congr 2
      apply List.filter_congr
      intro e he
      exact Bool.and_comm _ _
    · intro e he
      exact hσ e (List.mem_filter.1 he).1
    · exact hn.sublist (List.Sublist.map _ List.filter_sublist)
    · exact hdn.sublist (List.Sublist.map _ List.filter_sublist)
    · intro s hs
      obtain ⟨d, hd⟩ := Dict.mem_keys_iff.1 hs
      obtain ⟨h1, h2⟩ := List.mem_filter.1 hd
      have hs' := Dict.mem_keys_of_mem h1
      refine ⟨(hf s hs').1, ?_⟩
      simp only [Dict.keys_append, List.mem_append, not_or]
      refine ⟨(hf s hs').2, ?_⟩
      intro h
      obtain ⟨v, hv⟩ := Dict.mem_keys_iff.1 h
      obtain ⟨x, hx, he⟩ := List.mem_map.1 hv
      have := hinj _ h1 x hx (by simp only [Prod.mk.injEq] at he; exact he.1.symm)
      simp only at this
      subst this
      simp only [decide_eq_true_eq] at h2
      exact h2 (Dict.mem_keys_of_mem hx)
    · exact hcn.2.1
    · intro d hd
      obtain ⟨e, he, rfl⟩ := List.mem_map.1 (hc d (.inr hd))
      refine List.mem_map.2 ⟨e, List.mem_filter.2 ⟨he, ?_⟩, rfl⟩
      simp only [decide_eq_true_eq]
      intro h
      exact hcn.2.2 _ h _ hd rfl
    · simp only [List.length_append, List.length_map]
      omega

/-! ## C36: generic series -/

theorem update_nil {V : Type} {l : List (String × V)} (h : (Dict.keys l).Nodup) : Dict.update [] l = l := by
  have := Dict.update_of_disjoint (d := []) h (by simp)
  simpa using this

theorem series_num {me : ME K} {sd : List (String × String)} (h : Series me sd) :
    me.expr.free.length = me.params.length + sd.length := by
  have hperm : (Dict.keys sd ++ Dict.keys me.params).Perm me.expr.free := by
    rw [List.perm_ext_iff_of_nodup _ (free_nodup _)]
    · intro s
      rw [List.mem_append, h.vars]
      simp only [ME.variableNames, List.mem_filter, decide_eq_true_eq]
      constructor
      · rintro (h1 | h1)
        · exact h1.1
        · exact h.params_free s h1
      · intro h1
        by_cases hk : s ∈ Dict.keys me.params
        · exact .inr hk
        · exact .inl ⟨h1, hk⟩
    · rw [List.nodup_append]
      refine ⟨h.syms_nodup, h.params_nodup, ?_⟩
      rintro a ha b hb rfl
      have := (h.vars a).1 ha
      simp only [ME.variableNames, List.mem_filter, decide_eq_true_eq] at this
      exact this.2 hb
  have := hperm.length_eq
  simp only [List.length_append, Dict.keys, List.length_map] at this
  omega

theorem sym_mem {me : ME K} {sd : List (String × String)} (h : Series me sd) {s} (hs : s ∈ Dict.keys sd) :
    s ∈ me.expr.free ∧ s ∉ Dict.keys me.params := by
  have := (h.vars s).1 hs
  simpa only [ME.variableNames, List.mem_filter, decide_eq_true_eq] using this

/-- a full evaluation calls the function with arguments that carry their coordinates -/
theorem full_spec [Inhabited K] [DecidableEq K] {σ : String → String} {me : ME K} {sd : List (String × String)}
    (hσ : ∀ e ∈ sd, σ e.2 = e.1) (hn : (Dict.keys sd).Nodup) (hdn : (sd.map Prod.snd).Nodup)
    (hf : ∀ s ∈ Dict.keys sd, s ∈ me.expr.free ∧ s ∉ Dict.keys me.params)
    {cs : List (String × Coord K)} (hcn : (Dict.keys cs).Nodup) (hc : ∀ d ∈ Dict.keys cs, d ∈ sd.map Prod.snd)
    (hlen : me.params.length + cs.length = me.expr.free.length) :
    (Dict.keys (cs.map fun e => (σ e.1, e.2.full e.1))).Nodup ∧
    (GS.expr me sd).evaluate cs =
      match me.expr.call ((cs.map fun e => (σ e.1, e.2.full e.1)) ++ me.params) with
      | .error x => .error x
      | .ok a => .ok (.array a) := by
  have hsym : ∀ d ∈ Dict.keys cs, symbolOf sd d = σ d := by
    intro d hd
    obtain ⟨⟨s, d'⟩, hsd, rfl⟩ := List.mem_map.1 (hc d hd)
    exact (symbolOf_eq hdn hsd).trans (hσ _ hsd).symm
  have hmem : ∀ d ∈ Dict.keys cs, (σ d, d) ∈ sd := by
    intro d hd
    obtain ⟨⟨s, d'⟩, hsd, rfl⟩ := List.mem_map.1 (hc d hd)
    have := hσ _ hsd
    simp only at this
    simpa only [this] using hsd
  have hmap : (cs.map fun e => (symbolOf sd e.1, e.2.full e.1)) = cs.map fun e => (σ e.1, e.2.full e.1) := by
    apply List.map_congr_left
    intro e he
    rw [hsym e.1 (Dict.mem_keys_of_mem he)]
  have hnd : (Dict.keys (cs.map fun e => (σ e.1, e.2.full e.1))).Nodup := by
    have : Dict.keys (cs.map fun e => (σ e.1, e.2.full e.1)) = (Dict.keys cs).map σ := by
      simp [Dict.keys, List.map_map, Function.comp_def]
    rw [this]
    refine List.Nodup.map_on ?_ hcn
    intro a ha b hb hab
    have h1 := hmem a ha
    have h2 := hmem b hb
    rw [hab] at h1
    exact eq_of_nodup_keys hn h1 h2
  refine ⟨hnd, ?_⟩
  simp only [GS.evaluate]
  rw [if_pos (by unfold ME.numVariables; omega), hmap, update_nil hnd]
  unfold ME.evaluate
  rw [if_neg]
  · cases me.expr.call ((cs.map fun e => (σ e.1, e.2.full e.1)) ++ me.params) <;> rfl
  rintro ⟨s, h1, h2⟩
  obtain ⟨v, hv⟩ := Dict.mem_keys_iff.1 h1
  obtain ⟨e, he, heq⟩ := List.mem_map.1 hv
  have hs : σ e.1 = s := (Prod.mk.inj heq).1
  have := hmem e.1 (Dict.mem_keys_of_mem he)
  rw [hs] at this
  exact (hf s (Dict.mem_keys_of_mem this)).2 h2

/-- **C36** (generic series): coordinates are given in any number of steps, `steps` (lists of values) and then `last`; `all` are
the same coordinates in any order. Both evaluations succeed with the same dimensions and the same values. The result of the
evaluation at once has the coordinates of all dimensions; the stepwise result has only those of the last step: the coordinates
of the dimensions that were fixed before are lost. -/
theorem C36_series [Inhabited K] [DecidableEq K] {me : ME K} {sd : List (String × String)} (hg : Series me sd)
    {steps : List (List (String × List K))} {last all : List (String × Coord K)} (hlast : last ≠ [])
    (hn : (Dict.keys (manys steps.flatten ++ last)).Nodup)
    (hd : ∀ d, d ∈ Dict.keys (manys steps.flatten ++ last) ↔ d ∈ sd.map Prod.snd)
    (hall : all.Perm (manys steps.flatten ++ last)) :
    ∃ r r', (GS.expr me sd).evaluates (steps.map manys ++ [last]) = .ok (.array r) ∧
      (GS.expr me sd).evaluate all = .ok (.array r') ∧ r.dims = r'.dims ∧ r.val = r'.val ∧
      (∀ e ∈ all, Dict.get? r'.coords e.1 = some e.2.values) ∧
      (∀ e ∈ last, Dict.get? r.coords e.1 = some e.2.values) ∧
      ∀ e ∈ steps.flatten, Dict.get? r.coords e.1 = none := by
  obtain ⟨S, C, hSC⟩ := hg.agree
  let σ : String → String := symbolOf sd
  have hσ : ∀ e ∈ sd, σ e.2 = e.1 := fun e he => symbolOf_eq hg.dims_nodup he
  have hf : ∀ s ∈ Dict.keys sd, s ∈ me.expr.free ∧ s ∉ Dict.keys me.params := fun s hs => sym_mem hg hs
  have hkm : Dict.keys (manys steps.flatten) = Dict.keys steps.flatten := by
    simp [manys, Dict.keys, List.map_map, Function.comp_def]
  have hnum := series_num hg
  have hlen : steps.flatten.length + last.length = sd.length := by
    have : (Dict.keys (manys steps.flatten ++ last)).Perm (sd.map Prod.snd) :=
      (List.perm_ext_iff_of_nodup hn hg.dims_nodup).2 hd
    have := this.length_eq
    simpa only [Dict.keys, manys, List.length_map, List.length_append] using this
  have hl0 : 0 < last.length := List.length_pos_iff.2 hlast
  have hn' := hn
  rw [Dict.keys_append, hkm, List.nodup_append] at hn'
  have hd' : ∀ d, d ∈ Dict.keys steps.flatten ∨ d ∈ Dict.keys last ↔ d ∈ sd.map Prod.snd := by
    intro d
    rw [← hd, Dict.keys_append, hkm, List.mem_append]
  have hmem : ∀ d ∈ sd.map Prod.snd, (σ d, d) ∈ sd := by
    intro d hd
    obtain ⟨⟨s, d'⟩, hsd, rfl⟩ := List.mem_map.1 hd
    have := hσ _ hsd
    simp only at this
    simpa only [this] using hsd
  have hinj : ∀ a ∈ sd.map Prod.snd, ∀ b ∈ sd.map Prod.snd, σ a = σ b → a = b := by
    intro a ha b hb hab
    have h1 := hmem a ha
    rw [hab] at h1
    exact eq_of_nodup_keys hg.syms_nodup h1 (hmem b hb)
  -- the stepwise evaluation
  have h1 := steps_spec (σ := σ) hσ hg.syms_nodup hg.dims_nodup hf hn'.1 (fun d h => (hd' d).1 (.inl h))
    (by omega : me.params.length + steps.flatten.length < me.expr.free.length)
  set me1 : ME K := ⟨me.expr, me.params ++ steps.flatten.map fun e => (σ e.1, Arr.vec e.2 e.1)⟩ with hme1
  set sd1 := sd.filter fun e => e.2 ∉ Dict.keys steps.flatten with hsd1
  have hsub : ∀ e ∈ sd1, e ∈ sd ∧ e.2 ∉ Dict.keys steps.flatten := by
    intro e he
    have := List.mem_filter.1 he
    exact ⟨this.1, by simpa using this.2⟩
  have hstripped : ∀ s, s ∈ Dict.keys (steps.flatten.map fun e => (σ e.1, Arr.vec e.2 e.1)) →
      ∃ d ∈ Dict.keys steps.flatten, s = σ d := by
    intro s hs
    obtain ⟨v, hv⟩ := Dict.mem_keys_iff.1 hs
    obtain ⟨x, hx, he⟩ := List.mem_map.1 hv
    exact ⟨x.1, Dict.mem_keys_of_mem hx, (Prod.mk.inj he).1.symm⟩
  obtain ⟨hnd2, h2⟩ := full_spec (me := me1) (sd := sd1) (σ := σ) (fun e he => hσ e (hsub e he).1)
    (hg.syms_nodup.sublist (List.Sublist.map _ List.filter_sublist))
    (hg.dims_nodup.sublist (List.Sublist.map _ List.filter_sublist)) (by
      intro s hs
      obtain ⟨d, hd⟩ := Dict.mem_keys_iff.1 hs
      obtain ⟨h1, h2⟩ := hsub _ hd
      have hs' := Dict.mem_keys_of_mem h1
      refine ⟨(hf s hs').1, ?_⟩
      simp only [hme1, Dict.keys_append, List.mem_append, not_or]
      refine ⟨(hf s hs').2, ?_⟩
      intro h
      obtain ⟨d', hd'm, rfl⟩ := hstripped s h
      have := hinj d' ((hd' d').1 (.inl hd'm)) d (List.mem_map.2 ⟨_, h1, rfl⟩) (hσ _ h1).symm
      exact h2 (this ▸ hd'm)) hn'.2.1 (by
      intro d hd
      obtain ⟨e, he, rfl⟩ := List.mem_map.1 ((hd' d).1 (.inr hd))
      refine List.mem_map.2 ⟨e, List.mem_filter.2 ⟨he, ?_⟩, rfl⟩
      simp only [decide_eq_true_eq]
      intro h
      exact hn'.2.2 _ h _ hd rfl) (by
      simp only [hme1, List.length_append, List.length_map]; omega)
  -- the evaluation at once
  have hkall : (Dict.keys all).Perm (Dict.keys (manys steps.flatten ++ last)) := hall.map _
  have hnall : (Dict.keys all).Nodup := hkall.nodup_iff.2 hn
  have hdall : ∀ d ∈ Dict.keys all, d ∈ sd.map Prod.snd := fun d h => (hd d).1 (hkall.mem_iff.1 h)
  obtain ⟨hnd3, h3⟩ := full_spec (σ := σ) hσ hg.syms_nodup hg.dims_nodup hf hnall hdall (by
    have := hall.length_eq
    simp only [manys, List.length_append, List.length_map] at this
    omega)
  -- the two environments
  set env1 := (last.map fun e => (σ e.1, e.2.full e.1)) ++ me1.params with henv1
  set env2 := (all.map fun e => (σ e.1, e.2.full e.1)) ++ me.params with henv2
  let S' : String → ℕ := fun d => match Dict.get? all d with
    | some c => c.values.length
    | none => S d
  let C' : String → List K := fun d => match Dict.get? all d with
    | some c => c.values
    | none => C d
  have hS' : ∀ e ∈ all, S' e.1 = e.2.values.length ∧ C' e.1 = e.2.values := by
    rintro ⟨d, c⟩ he
    simp only [S', C', Dict.get?_of_mem hnall he, and_self]
  have hnone : ∀ d, d ∉ sd.map Prod.snd → S' d = S d ∧ C' d = C d := by
    intro d h
    have : Dict.get? all d = none := Dict.get?_eq_none.2 (fun hk => h (hdall d hk))
    simp only [S', C', this, and_self]
  have hfull : ∀ e ∈ all, (∀ d ∈ (e.2.full e.1).dims, d.2 = S' d.1) ∧ ∀ c ∈ (e.2.full e.1).coords, c.2 = C' c.1 := by
    intro e he
    simp only [Coord.full, Arr.vec, List.mem_singleton, forall_eq]
    exact ⟨(hS' e he).1.symm, (hS' e he).2.symm⟩
  have hpar : ∀ p ∈ me.params, (∀ d ∈ p.2.dims, d.2 = S' d.1) ∧ ∀ c ∈ p.2.coords, c.2 = C' c.1 := by
    intro p hp
    constructor
    · intro d hdm
      rw [(hSC p hp).1 d hdm, (hnone d.1 (fun h => (hg.own p hp d.1 h).1 (Dict.mem_keys_of_mem hdm))).1]
    · intro d hdm
      rw [(hSC p hp).2 d hdm, (hnone d.1 (fun h => (hg.own p hp d.1 h).2 (Dict.mem_keys_of_mem hdm))).2]
  have hlall : ∀ e ∈ last, e ∈ all := fun e he => hall.mem_iff.2 (List.mem_append_right _ he)
  have hsall : ∀ e ∈ steps.flatten, (e.1, Coord.many e.2) ∈ all := fun e he =>
    hall.mem_iff.2 (List.mem_append_left _ (List.mem_map.2 ⟨e, he, rfl⟩))
  have hA1 : Agree S' C' env1 := by
    intro s a hsa
    rcases List.mem_append.1 (Dict.mem_of_get? hsa) with h | h
    · obtain ⟨e, he, heq⟩ := List.mem_map.1 h
      obtain ⟨rfl, rfl⟩ := Prod.mk.inj heq
      exact hfull e (hlall e he)
    · rcases List.mem_append.1 h with h | h
      · exact hpar _ h
      · obtain ⟨e, he, heq⟩ := List.mem_map.1 h
        obtain ⟨rfl, rfl⟩ := Prod.mk.inj heq
        refine ⟨?_, by simp [Arr.vec]⟩
        simp only [Arr.vec, List.mem_singleton, forall_eq]
        exact (hS' _ (hsall e he)).1.symm
  have hA2 : Agree S' C' env2 := by
    intro s a hsa
    rcases List.mem_append.1 (Dict.mem_of_get? hsa) with h | h
    · obtain ⟨e, he, heq⟩ := List.mem_map.1 h
      obtain ⟨rfl, rfl⟩ := Prod.mk.inj heq
      exact hfull e he
    · exact hpar _ h
  have hdisj : ∀ d ∈ sd.map Prod.snd, σ d ∉ Dict.keys me.params := fun d hdm =>
    (hf _ (Dict.mem_keys_of_mem (hmem d hdm))).2
  have hcover2 : ∀ s, s ∈ Dict.keys env2 ↔ s ∈ me.expr.free := by
    intro s
    rw [henv2, Dict.keys_append, List.mem_append]
    constructor
    · rintro (h | h)
      · obtain ⟨v, hv⟩ := Dict.mem_keys_iff.1 h
        obtain ⟨e, he, heq⟩ := List.mem_map.1 hv
        obtain ⟨rfl, rfl⟩ := Prod.mk.inj heq
        exact (hf _ (Dict.mem_keys_of_mem (hmem _ (hdall _ (Dict.mem_keys_of_mem he))))).1
      · exact hg.params_free s h
    · intro h
      by_cases hk : s ∈ Dict.keys me.params
      · exact .inr hk
      · left
        have : s ∈ Dict.keys sd := (hg.vars s).2 (by simp [ME.variableNames, h, hk])
        obtain ⟨d, hsd⟩ := Dict.mem_keys_iff.1 this
        have hda : d ∈ Dict.keys all := hkall.mem_iff.2 ((hd d).2 (List.mem_map.2 ⟨_, hsd, rfl⟩))
        obtain ⟨c, hc⟩ := Dict.mem_keys_iff.1 hda
        refine Dict.mem_keys_of_mem (v := c.full d) (List.mem_map.2 ⟨_, hc, ?_⟩)
        simp only [Prod.mk.injEq, and_true]
        exact hσ _ hsd
  have hnd2' : (Dict.keys env2).Nodup := by
    rw [henv2, Dict.keys_append, List.nodup_append]
    refine ⟨hnd3, hg.params_nodup, ?_⟩
    rintro a ha b hb rfl
    obtain ⟨v, hv⟩ := Dict.mem_keys_iff.1 ha
    obtain ⟨e, he, heq⟩ := List.mem_map.1 hv
    obtain ⟨rfl, rfl⟩ := Prod.mk.inj heq
    exact hdisj _ (hdall _ (Dict.mem_keys_of_mem he)) hb
  have hkeys12 : ∀ s, s ∈ Dict.keys env1 ↔ s ∈ Dict.keys env2 := by
    have hσmem : ∀ (l : List (String × Arr K)) (d : String) (a : Arr K), (σ d, a) ∈ l → σ d ∈ Dict.keys l :=
      fun l d a h => Dict.mem_keys_of_mem h
    intro s
    rw [henv1, henv2, hme1]
    simp only [Dict.keys_append, List.mem_append]
    constructor
    · rintro (h | h | h)
      · obtain ⟨v, hv⟩ := Dict.mem_keys_iff.1 h
        obtain ⟨e, he, heq⟩ := List.mem_map.1 hv
        obtain ⟨rfl, rfl⟩ := Prod.mk.inj heq
        exact .inl (hσmem _ _ _ (List.mem_map.2 ⟨e, hlall e he, rfl⟩))
      · exact .inr h
      · obtain ⟨v, hv⟩ := Dict.mem_keys_iff.1 h
        obtain ⟨e, he, heq⟩ := List.mem_map.1 hv
        obtain ⟨rfl, rfl⟩ := Prod.mk.inj heq
        exact .inl (hσmem _ _ _ (List.mem_map.2 ⟨_, hsall e he, rfl⟩))
    · rintro (h | h)
      · obtain ⟨v, hv⟩ := Dict.mem_keys_iff.1 h
        obtain ⟨e, he, heq⟩ := List.mem_map.1 hv
        obtain ⟨rfl, rfl⟩ := Prod.mk.inj heq
        rcases List.mem_append.1 (hall.mem_iff.1 he) with h | h
        · obtain ⟨x, hx, rfl⟩ := List.mem_map.1 h
          exact .inr (.inr (hσmem _ _ _ (List.mem_map.2 ⟨x, hx, rfl⟩)))
        · exact .inl (hσmem _ _ _ (List.mem_map.2 ⟨e, h, rfl⟩))
      · exact .inr (.inl h)
  have hsame : ∀ s a, Dict.get? env1 s = some a → ∃ a', Dict.get? env2 s = some a' ∧ Same a a' := by
    intro s a hsa
    rcases List.mem_append.1 (Dict.mem_of_get? hsa) with h | h
    · obtain ⟨e, he, heq⟩ := List.mem_map.1 h
      obtain ⟨rfl, rfl⟩ := Prod.mk.inj heq
      exact ⟨_, Dict.get?_of_mem hnd2' (List.mem_append_left _ (List.mem_map.2 ⟨e, hlall e he, rfl⟩)), rfl, rfl⟩
    · rcases List.mem_append.1 h with h | h
      · exact ⟨a, Dict.get?_of_mem hnd2' (List.mem_append_right _ h), rfl, rfl⟩
      · obtain ⟨e, he, heq⟩ := List.mem_map.1 h
        obtain ⟨rfl, rfl⟩ := Prod.mk.inj heq
        exact ⟨_, Dict.get?_of_mem hnd2' (List.mem_append_left _ (List.mem_map.2 ⟨_, hsall e he, rfl⟩)), rfl, rfl⟩
  obtain ⟨r, hr, -, hrC, hrK⟩ := eval_ok hA1 me.expr (fun s hs => (hkeys12 s).2 ((hcover2 s).2 (mem_free.2 hs)))
  obtain ⟨r', hr', -, hrC', hrK'⟩ := eval_ok hA2 me.expr (fun s hs => (hcover2 s).2 (mem_free.2 hs))
  have hcall1 : me.expr.call env1 = .ok r := by
    unfold Expr.call
    rw [if_pos, hr]
    exact ⟨fun s hs => (hkeys12 s).2 ((hcover2 s).2 hs), fun s hs => (hcover2 s).1 ((hkeys12 s).1 hs)⟩
  have hcall2 : me.expr.call env2 = .ok r' := by
    unfold Expr.call
    rw [if_pos, hr']
    exact ⟨fun s hs => (hcover2 s).2 hs, fun s hs => (hcover2 s).1 hs⟩
  have hget : ∀ (q : Arr K), (∀ c ∈ q.coords, c.2 = C' c.1) → ∀ e ∈ all, e.1 ∈ Dict.keys q.coords →
      Dict.get? q.coords e.1 = some e.2.values := by
    intro q hq e he hk
    obtain ⟨v, hv⟩ := Dict.get?_isSome.2 hk
    have := hq _ (Dict.mem_of_get? hv)
    simp only at this
    rw [hv, this, (hS' e he).2]
  obtain ⟨hd1, hv1⟩ := eval_same hsame me.expr hr hr'
  refine ⟨r, r', ?_, ?_, hd1, hv1, ?_, ?_, ?_⟩
  · rw [evaluates_append, h1]
    simp only [GS.evaluates]
    rw [h2, hcall1]
  · rw [h3, hcall2]
  · intro e he
    refine hget r' hrC' e he ((hrK' e.1).2 ?_)
    have hm : (σ e.1, e.2.full e.1) ∈ env2 := List.mem_append_left _ (List.mem_map.2 ⟨e, he, rfl⟩)
    refine ⟨σ e.1, mem_free.1 ((hcover2 _).1 (Dict.mem_keys_of_mem hm)), _, Dict.get?_of_mem hnd2' hm, ?_⟩
    simp [Coord.full]
  · intro e he
    refine hget r hrC e (hlall e he) ((hrK e.1).2 ?_)
    have hm : (σ e.1, e.2.full e.1) ∈ last.map fun e => (σ e.1, e.2.full e.1) := List.mem_map.2 ⟨e, he, rfl⟩
    have hm1 : (σ e.1, e.2.full e.1) ∈ env1 := List.mem_append_left _ hm
    refine ⟨σ e.1, mem_free.1 ((hcover2 _).1 ((hkeys12 _).1 (Dict.mem_keys_of_mem hm1))), e.2.full e.1, ?_, ?_⟩
    · rw [henv1, Dict.get?_append, Dict.get?_of_mem hnd2 hm]
      rfl
    · simp [Coord.full]
  · intro e he
    rw [Dict.get?_eq_none]
    intro hk
    obtain ⟨s, -, a, hsa, ha⟩ := (hrK e.1).1 hk
    have hed : e.1 ∈ sd.map Prod.snd := (hd' e.1).1 (.inl (Dict.mem_keys_of_mem he))
    rcases List.mem_append.1 (Dict.mem_of_get? hsa) with h | h
    · obtain ⟨x, hx, heq⟩ := List.mem_map.1 h
      obtain ⟨rfl, rfl⟩ := Prod.mk.inj heq
      simp only [Coord.full, Dict.keys_cons, Dict.keys_nil, List.mem_singleton] at ha
      exact hn'.2.2 _ (Dict.mem_keys_of_mem he) _ (Dict.mem_keys_of_mem hx) ha
    · rcases List.mem_append.1 h with h | h
      · exact (hg.own _ h e.1 hed).2 ha
      · obtain ⟨x, hx, heq⟩ := List.mem_map.1 h
        obtain ⟨rfl, rfl⟩ := Prod.mk.inj heq
        simp [Arr.vec] at ha

/-- **C36** (numbers): a partial evaluation with a single number raises a `ValueError`, an evaluation of all dimensions with single
numbers does not (`C36_series` with `last` only). -/
theorem C36_series_number [Inhabited K] [DecidableEq K] {me : ME K} {sd : List (String × String)} (hg : Series me sd)
    {d : String} {k : K} {rest : List (String × Coord K)} (hd : d ∈ sd.map Prod.snd)
    (hlen : rest.length + 1 ≠ sd.length) :
    (GS.expr me sd).evaluate ((d, .one k) :: rest) = .error .valueError := by
  have hnum := series_num hg
  simp only [GS.evaluate]
  rw [if_neg (by unfold ME.numVariables; simp only [List.length_cons]; omega)]
  obtain ⟨⟨s, d'⟩, hsd, rfl⟩ := List.mem_map.1 hd
  have hf := (sym_mem hg (Dict.mem_keys_of_mem hsd)).1
  simp only [List.map_cons, fixAll, symbolOf_eq hg.dims_nodup hsd, ME.setParameters, hf, not_true_eq_false, if_false,
    Coord.partial, Arg.toArr]

/-- **C36.** A dimension that is given as number has this number as its only coordinate in the result. -/
theorem C36_series_one [Inhabited K] [DecidableEq K] {me : ME K} {sd : List (String × String)} (hg : Series me sd)
    {all : List (String × Coord K)} (hne : all ≠ []) (hn : (Dict.keys all).Nodup)
    (hd : ∀ d, d ∈ Dict.keys all ↔ d ∈ sd.map Prod.snd) :
    ∃ r, (GS.expr me sd).evaluate all = .ok (.array r) ∧
      (∀ d k, (d, .one k) ∈ all → Dict.get? r.coords d = some [k]) ∧
      ∀ d ks, (d, .many ks) ∈ all → Dict.get? r.coords d = some ks := by
  obtain ⟨_, r', _, h2, _, _, h5, _⟩ := C36_series hg (steps := []) (last := all) (all := all) hne (by simpa [manys] using hn)
    (by simpa [manys] using hd) (by simp [manys])
  exact ⟨r', h2, fun d k h => h5 _ h, fun d ks h => h5 _ h⟩

/-! ### Example -/

/-- `a * x + b` with `a = 2`, the dimension of `x` is called "length", that of `b` "offset" -/
theorem line_series : Series (ME.mk line [("a", .const 2)]) [("x", "length"), ("b", "offset")] where
  params_nodup := by decide
  params_free := by decide
  syms_nodup := by decide
  dims_nodup := by decide
  vars := by
    have : (ME.mk line [("a", .const 2)]).variableNames = ["x", "b"] := by decide
    intro s
    rw [this]
    rfl
  agree := ⟨fun _ => 0, fun _ => [], by simp [Arr.const]⟩
  own := by simp [Arr.const]

example : ∃ r r',
    (GS.expr (ME.mk line [("a", .const 2)]) [("x", "length"), ("b", "offset")]).evaluates
      [[("length", .many [1, 2])], [("offset", .one 7)]] = .ok (.array r) ∧
    (GS.expr (ME.mk line [("a", .const 2)]) [("x", "length"), ("b", "offset")]).evaluate
      [("offset", .one 7), ("length", .many [1, 2])] = .ok (.array r') ∧
    r.dims = r'.dims ∧ r.val = r'.val ∧ Dict.get? r'.coords "length" = some [1, 2] ∧ Dict.get? r.coords "length" = none := by
  obtain ⟨r, r', h1, h2, h3, h4, h5, -, h7⟩ := C36_series line_series (steps := [[("length", [1, 2])]])
    (last := [("offset", .one 7)]) (all := [("offset", .one 7), ("length", .many [1, 2])]) (by simp) (by decide)
    (by intro d; simp [manys, Dict.keys]) (by exact List.Perm.swap _ _ _)
  exact ⟨r, r', h1, h2, h3, h4, h5 ("length", .many [1, 2]) (by simp), h7 ("length", [1, 2]) (by simp)⟩

end Weldx.Me
