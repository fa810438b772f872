import Verif.Series.Init
import Verif.MathExpr.Series
import Std.Data.String.ToNat

/-!
# The constructor of expression based series (C68)
-/

namespace Weldx.Me

variable {K U D : Type}

/-! ## Specification vocabulary -/

/-- an array as xarray builds it: no dimension occurs twice, and index coordinates belong to dimensions -/
structure Arr.Wf (a : Arr K) : Prop where
  dims : (Dict.keys a.dims).Nodup
  coords : (Dict.keys a.coords).Nodup
  index : ∀ d ∈ Dict.keys a.coords, d ∈ Dict.keys a.dims

/-- arrays given as parameters are as xarray builds them -/
def Input.Wf : Input K U → Prop
  | .array a _ => a.Wf
  | _ => True

/-- two arrays give the same length and the same labels to dimensions with the same name -/
def Fits (a b : Arr K) : Prop :=
  (∀ d n m, (d, n) ∈ a.dims → (d, m) ∈ b.dims → n = m) ∧ ∀ d l m, (d, l) ∈ a.coords → (d, m) ∈ b.coords → l = m

/-- the variables have dimensions of their own and the parameters fit to each other -/
structure Consistent (me : ME K) (σ : String → String) : Prop where
  distinct : ∀ v ∈ me.variableNames, ∀ w ∈ me.variableNames, σ v = σ w → v = w
  own : ∀ v ∈ me.variableNames, ∀ p ∈ me.params, σ v ∉ Dict.keys p.2.dims
  params : ∀ p ∈ me.params, ∀ q ∈ me.params, Fits p.2 q.2

/-- the dimension of a variable: the one given for it, or its own name -/
def dimOf (dims : List (String × String)) (v : String) : String := (Dict.get? dims v).getD v

/-! ## Arrays -/

theorem defaultNames_nodup (n : ℕ) : (defaultNames n).Nodup := by
  refine List.Nodup.map ?_ List.nodup_range
  intro a b h
  exact Nat.repr_injective ((String.append_right_inj _).1 h)

theorem named_spec {q : Qty K} {names : List String} {a : Arr K} (h : q.named names = .ok a) :
    names.length = q.shape.length ∧ a.dims = names.zip q.shape ∧ a.coords = [] := by
  unfold Qty.named at h
  split at h
  · rename_i hl
    cases h
    exact ⟨hl, rfl, rfl⟩
  · cases h

theorem keys_zip {names : List String} {l : List ℕ} (h : names.length = l.length) : Dict.keys (names.zip l) = names := by
  unfold Dict.keys
  rw [List.map_fst_zip (Nat.le_of_eq h)]

theorem named_wf {q : Qty K} {names : List String} {a : Arr K} (hn : names.Nodup) (h : q.named names = .ok a) : a.Wf := by
  obtain ⟨hl, hd, hc⟩ := named_spec h
  refine ⟨?_, by simp [hc], by simp [hc]⟩
  rw [hd, keys_zip hl]
  exact hn

theorem format_wf {sym : String} {i : Input K U} {a : Arr K} {u : U} (hw : i.Wf) (h : i.format sym = .ok (a, u)) : a.Wf := by
  cases i with
  | quantity q u' =>
    simp only [Input.format] at h
    split at h
    · cases h
    · rename_i b hb
      cases h
      exact named_wf (defaultNames_nodup _) hb
  | tuple q dim u' =>
    simp only [Input.format] at h
    split at h
    · cases h
    · rename_i b hb
      cases h
      split at hb
      · exact named_wf (by simp) hb
      · exact named_wf (defaultNames_nodup _) hb
  | array b o =>
    cases o with
    | none => simp [Input.format] at h
    | some w =>
      simp only [Input.format] at h
      cases h
      exact hw

theorem formatParams_spec {e : Expr K} {params : List (String × Input K U)} {ps : List (String × Arr K × U)}
    (h : formatParams e params = .ok ps) :
    Dict.keys ps = Dict.keys params ∧ (∀ k ∈ Dict.keys ps, k ∈ e.free) ∧
      ∀ k a u, (k, a, u) ∈ ps → ∃ i, (k, i) ∈ params ∧ i.format k = .ok (a, u) := by
  induction params generalizing ps with
  | nil => simp only [formatParams] at h; cases h; simp
  | cons x t ih =>
    obtain ⟨k, v⟩ := x
    simp only [formatParams] at h
    split at h
    · cases h
    · rename_i hk
      split at h
      · cases h
      · rename_i a ha
        split at h
        · cases h
        · rename_i r hr
          cases h
          obtain ⟨h1, h2, h3⟩ := ih hr
          refine ⟨by simp [h1], ?_, ?_⟩
          · intro k' hk'
            rcases List.mem_cons.1 hk' with h | h
            · subst h; exact not_not.1 hk
            · exact h2 k' h
          · intro k' a' u' hm
            rcases List.mem_cons.1 hm with h | h
            · cases h
              exact ⟨v, by simp, ha⟩
            · obtain ⟨i, hi, hf⟩ := h3 k' a' u' h
              exact ⟨i, List.mem_cons_of_mem _ hi, hf⟩

/-! ## Evaluations that succeed -/

theorem joinLabels_keep {L : Type} [DecidableEq L] {a b r : List (String × L)} (h : joinLabels a b = some r)
    (ha : (Dict.keys a).Nodup) (hb : (Dict.keys b).Nodup) :
    (Dict.keys r).Nodup ∧ (∀ e ∈ a, e ∈ r) ∧ ∀ e ∈ b, e ∈ r := by
  unfold joinLabels at h
  split at h
  · rename_i hc
    cases h
    refine ⟨?_, fun e he => List.mem_append_left _ he, ?_⟩
    · rw [Dict.keys_append]
      refine List.Nodup.append ha ?_ ?_
      · exact (List.filter_sublist.map Prod.fst).nodup hb
      · intro x hx hy
        obtain ⟨v, hv⟩ := Dict.mem_keys_iff.1 hy
        have := (List.mem_filter.1 hv).2
        simp only [decide_eq_true_eq] at this
        exact Dict.get?_eq_none.1 this hx
    · intro e he
      rcases hc e he with h | h
      · exact List.mem_append_right _ (List.mem_filter.2 ⟨he, by simp [h]⟩)
      · exact List.mem_append_left _ (Dict.mem_of_get? h)
  · cases h

theorem eval_keep [DecidableEq K] {env : List (String × Arr K)} (hw : ∀ e ∈ env, e.2.Wf) {e : Expr K} {r : Arr K}
    (h : e.eval env = .ok r) :
    (Dict.keys r.dims).Nodup ∧ (Dict.keys r.coords).Nodup ∧
      ∀ s ∈ e.syms, ∃ a, Dict.get? env s = some a ∧ (∀ x ∈ a.dims, x ∈ r.dims) ∧ ∀ x ∈ a.coords, x ∈ r.coords := by
  induction e generalizing r with
  | num k =>
    simp only [Expr.eval] at h
    cases h
    exact ⟨by simp [Arr.const], by simp [Arr.const], by simp [Expr.syms]⟩
  | sym s =>
    simp only [Expr.eval] at h
    split at h
    · cases h
    · rename_i a ha
      cases h
      have := hw _ (Dict.mem_of_get? ha)
      refine ⟨this.dims, this.coords, ?_⟩
      intro s' hs'
      simp only [Expr.syms, List.mem_singleton] at hs'
      subst hs'
      exact ⟨_, ha, fun _ h => h, fun _ h => h⟩
  | un f a ih =>
    simp only [Expr.eval] at h
    split at h
    · cases h
    · rename_i r' hr'
      cases h
      exact ih (r := r') hr'
  | bin f a b iha ihb =>
    simp only [Expr.eval] at h
    split at h
    · cases h
    · rename_i ra hra
      split at h
      · cases h
      · rename_i rb hrb
        obtain ⟨a1, a2, a3⟩ := iha hra
        obtain ⟨b1, b2, b3⟩ := ihb hrb
        unfold Arr.bin at h
        split at h
        · cases h
        · rename_i c hc
          split at h
          · cases h
          · rename_i d hd
            cases h
            obtain ⟨c1, c2, c3⟩ := joinLabels_keep hc a2 b2
            obtain ⟨d1, d2, d3⟩ := joinLabels_keep hd a1 b1
            refine ⟨d1, c1, ?_⟩
            intro s hs
            simp only [Expr.syms, List.mem_append] at hs
            rcases hs with hs | hs
            · obtain ⟨x, hx, h1, h2⟩ := a3 s hs
              exact ⟨x, hx, fun y hy => d2 y (h1 y hy), fun y hy => c2 y (h2 y hy)⟩
            · obtain ⟨x, hx, h1, h2⟩ := b3 s hs
              exact ⟨x, hx, fun y hy => d3 y (h1 y hy), fun y hy => c3 y (h2 y hy)⟩

theorem nodup_unique {L : Type} {l : List (String × L)} (h : (Dict.keys l).Nodup) {d : String} {x y : L} (hx : (d, x) ∈ l)
    (hy : (d, y) ∈ l) : x = y := by
  have h1 := Dict.get?_of_mem h hx
  have h2 := Dict.get?_of_mem h hy
  rw [h1] at h2
  exact Option.some.inj h2

/-- an evaluation that succeeds shows that all arrays fit -/
theorem fits_of_eval [DecidableEq K] {env : List (String × Arr K)} (hn : (Dict.keys env).Nodup) (hw : ∀ e ∈ env, e.2.Wf)
    {e : Expr K} {r : Arr K} (h : e.eval env = .ok r) (hs : ∀ s ∈ Dict.keys env, s ∈ e.syms) :
    ∀ x ∈ env, ∀ y ∈ env, Fits x.2 y.2 := by
  obtain ⟨h1, h2, h3⟩ := eval_keep hw h
  intro x hx y hy
  obtain ⟨a, ha, a1, a2⟩ := h3 x.1 (hs _ (Dict.mem_keys_of_mem hx))
  obtain ⟨b, hb, b1, b2⟩ := h3 y.1 (hs _ (Dict.mem_keys_of_mem hy))
  have ea : a = x.2 := Option.some.inj (ha.symm.trans (Dict.get?_of_mem hn hx))
  have eb : b = y.2 := Option.some.inj (hb.symm.trans (Dict.get?_of_mem hn hy))
  subst ea eb
  exact ⟨fun d n m h h' => nodup_unique h1 (a1 _ h) (b1 _ h'), fun d n m h h' => nodup_unique h2 (a2 _ h) (b2 _ h')⟩

/-- arrays that fit in pairs agree about the lengths and the labels of all dimensions -/
theorem agree_of_fits {env : List (String × Arr K)} (hf : ∀ x ∈ env, ∀ y ∈ env, Fits x.2 y.2) :
    ∃ (S : String → ℕ) (C : String → List K), ∀ x ∈ env, (∀ d ∈ x.2.dims, d.2 = S d.1) ∧ ∀ c ∈ x.2.coords, c.2 = C c.1 := by
  let LD := env.flatMap fun x => x.2.dims
  let LC := env.flatMap fun x => x.2.coords
  refine ⟨fun d => (Dict.get? LD d).getD 0, fun d => (Dict.get? LC d).getD [], ?_⟩
  intro x hm
  constructor
  · intro d hd
    have hk : d.1 ∈ Dict.keys LD := Dict.mem_keys_of_mem (List.mem_flatMap.2 ⟨_, hm, hd⟩)
    obtain ⟨n, hn⟩ := Dict.get?_isSome.2 hk
    obtain ⟨y, hy, hyd⟩ := List.mem_flatMap.1 (Dict.mem_of_get? hn)
    show d.2 = (Dict.get? LD d.1).getD 0
    rw [hn]
    exact (hf _ hm _ hy).1 d.1 _ _ hd hyd
  · intro d hd
    have hk : d.1 ∈ Dict.keys LC := Dict.mem_keys_of_mem (List.mem_flatMap.2 ⟨_, hm, hd⟩)
    obtain ⟨n, hn⟩ := Dict.get?_isSome.2 hk
    obtain ⟨y, hy, hyd⟩ := List.mem_flatMap.1 (Dict.mem_of_get? hn)
    show d.2 = (Dict.get? LC d.1).getD []
    rw [hn]
    exact (hf _ hm _ hy).2 d.1 _ _ hd hyd

/-- arrays that fit can be combined -/
theorem eval_of_fits [DecidableEq K] {env : List (String × Arr K)} (hf : ∀ x ∈ env, ∀ y ∈ env, Fits x.2 y.2) {e : Expr K}
    (hs : ∀ s ∈ e.syms, s ∈ Dict.keys env) : ∃ r, e.eval env = .ok r := by
  obtain ⟨S, C, h⟩ := agree_of_fits hf
  obtain ⟨r, hr, _⟩ := eval_ok (S := S) (C := C) (fun s a ha => h (s, a) (Dict.mem_of_get? ha)) e hs
  exact ⟨r, hr⟩

/-! ## The test evaluations -/

/-- an expression with parameters and the units of its variables, as the constructor has them when it calls `_test_expr` -/
structure Setup (me : ME K) (vu : List (String × U)) : Prop where
  params_nodup : (Dict.keys me.params).Nodup
  params_free : ∀ s ∈ Dict.keys me.params, s ∈ me.expr.free
  wf : ∀ p ∈ me.params, p.2.Wf
  units_nodup : (Dict.keys vu).Nodup
  vars : ∀ s, s ∈ Dict.keys vu ↔ s ∈ me.variableNames

theorem mem_vars {me : ME K} {s : String} : s ∈ me.variableNames ↔ s ∈ me.expr.free ∧ s ∉ Dict.keys me.params := by
  simp [ME.variableNames]

theorem evaluate_eq [DecidableEq K] {me : ME K} {vu : List (String × U)} (hs : Setup me vu) {kw : List (String × Arr K)}
    (hk : Dict.keys kw = Dict.keys vu) : me.evaluate kw = me.expr.eval (kw ++ me.params) ∧
      (Dict.keys (kw ++ me.params)).Nodup ∧ (∀ s, s ∈ Dict.keys (kw ++ me.params) ↔ s ∈ me.expr.syms) := by
  have hmem : ∀ s, s ∈ Dict.keys (kw ++ me.params) ↔ s ∈ me.expr.syms := by
    intro s
    rw [Dict.keys_append, List.mem_append, hk, hs.vars, mem_vars, ← mem_free]
    constructor
    · rintro (h | h)
      · exact h.1
      · exact hs.params_free s h
    · intro h
      by_cases hp : s ∈ Dict.keys me.params
      · exact .inr hp
      · exact .inl ⟨h, hp⟩
  refine ⟨?_, ?_, hmem⟩
  · unfold ME.evaluate Expr.call
    rw [if_neg, if_pos]
    · exact ⟨fun s h => (hmem s).2 (mem_free.1 h), fun s h => mem_free.2 ((hmem s).1 h)⟩
    · rintro ⟨s, h1, h2⟩
      rw [hk, hs.vars, mem_vars] at h1
      exact h1.2 h2
  · rw [Dict.keys_append]
    refine List.Nodup.append (hk ▸ hs.units_nodup) hs.params_nodup ?_
    intro s h1 h2
    rw [hk, hs.vars, mem_vars] at h1
    exact h1.2 h2

theorem keys_probe [Inhabited K] {nat : ℕ → K} {dims : List (String × String)} {n : ℕ} {vu : List (String × U)} :
    Dict.keys (probe nat dims n vu) = Dict.keys vu := by
  induction vu generalizing n with
  | nil => rfl
  | cons e t ih => simp [probe, ih]

theorem mem_probe [Inhabited K] {nat : ℕ → K} {dims : List (String × String)} {n : ℕ} {vu : List (String × U)}
    {x : String × Arr K} : x ∈ probe nat dims n vu ↔
      ∃ i, ∃ h : i < vu.length, x = (vu[i].1, .vec ((List.range (n + i)).map nat) (dimOf dims vu[i].1)) := by
  induction vu generalizing n with
  | nil => simp [probe]
  | cons e t ih =>
    simp only [probe, List.mem_cons, ih]
    constructor
    · rintro (h | ⟨i, hi, h⟩)
      · exact ⟨0, by simp, by simpa [dimOf] using h⟩
      · refine ⟨i + 1, by simpa using hi, ?_⟩
        rw [h]
        simp [show n + 1 + i = n + (i + 1) by omega]
    · rintro ⟨i, hi, h⟩
      cases i with
      | zero => left; simpa [dimOf] using h
      | succ i =>
        right
        refine ⟨i, by simpa using hi, ?_⟩
        rw [h]
        simp [show n + 1 + i = n + (i + 1) by omega]

theorem vec_dims [Inhabited K] {nat : ℕ → K} {n : ℕ} {d : String} :
    (Arr.vec ((List.range n).map nat) d).dims = [(d, n)] ∧ (Arr.vec ((List.range n).map nat) d).coords = [] := by
  simp [Arr.vec]

theorem vec_wf [Inhabited K] {l : List K} {d : String} : (Arr.vec l d).Wf := ⟨by simp [Arr.vec], by simp [Arr.vec], by simp [Arr.vec]⟩

/-- a test evaluation succeeds if everything is consistent -/
theorem probe_ok [Inhabited K] [DecidableEq K] {nat : ℕ → K} {dims : List (String × String)} {me : ME K}
    {vu : List (String × U)} (hs : Setup me vu) (hc : Consistent me (dimOf dims)) (n : ℕ) :
    ∃ r, me.evaluate (probe nat dims n vu) = .ok r := by
  obtain ⟨h1, _, h3⟩ := evaluate_eq hs (kw := probe nat dims n vu) keys_probe
  rw [h1]
  refine eval_of_fits ?_ fun s h => (h3 s).2 h
  have hv : ∀ i, ∀ h : i < vu.length, vu[i].1 ∈ me.variableNames := fun i h =>
    (hs.vars _).1 (Dict.mem_keys_of_mem (List.getElem_mem h))
  intro x hx y hy
  rcases List.mem_append.1 hx with hx | hx <;> rcases List.mem_append.1 hy with hy | hy
  · obtain ⟨i, hi, rfl⟩ := mem_probe.1 hx
    obtain ⟨j, hj, rfl⟩ := mem_probe.1 hy
    refine ⟨?_, by simp [vec_dims]⟩
    intro d a b ha hb
    simp only [vec_dims, List.mem_singleton, Prod.mk.injEq] at ha hb
    have := hc.distinct _ (hv i hi) _ (hv j hj) (ha.1.symm.trans hb.1)
    have hij : i = j := by
      refine (List.nodup_iff_injective_getElem.1 hs.units_nodup).eq_iff (a := ⟨i, by simpa [Dict.keys] using hi⟩)
        (b := ⟨j, by simpa [Dict.keys] using hj⟩) |>.1 (by simpa [Dict.keys] using this) |> fun h => by simpa using h
    omega
  · obtain ⟨i, hi, rfl⟩ := mem_probe.1 hx
    refine ⟨?_, by simp [vec_dims]⟩
    intro d a b ha hb
    simp only [vec_dims, List.mem_singleton, Prod.mk.injEq] at ha
    exact absurd (ha.1 ▸ Dict.mem_keys_of_mem hb) (hc.own _ (hv i hi) _ hy)
  · obtain ⟨i, hi, rfl⟩ := mem_probe.1 hy
    refine ⟨?_, by simp [vec_dims]⟩
    intro d a b ha hb
    simp only [vec_dims, List.mem_singleton, Prod.mk.injEq] at hb
    exact absurd (hb.1 ▸ Dict.mem_keys_of_mem ha) (hc.own _ (hv i hi) _ hx)
  · exact hc.params _ hx _ hy

/-- the two test evaluations show that everything is consistent -/
theorem consistent_of_probes [Inhabited K] [DecidableEq K] {nat : ℕ → K} {dims : List (String × String)} {me : ME K}
    {vu : List (String × U)} (hs : Setup me vu) {r r' : Arr K} (h2 : me.evaluate (probe nat dims 2 vu) = .ok r)
    (h3 : me.evaluate (probe nat dims 3 vu) = .ok r') : Consistent me (dimOf dims) := by
  have key : ∀ n r, me.evaluate (probe nat dims n vu) = .ok r →
      ∀ x ∈ probe nat dims n vu ++ me.params, ∀ y ∈ probe nat dims n vu ++ me.params, Fits x.2 y.2 := by
    intro n r h
    obtain ⟨e1, e2, e3⟩ := evaluate_eq hs (kw := probe nat dims n vu) keys_probe
    rw [e1] at h
    refine fits_of_eval e2 ?_ h fun s h => (e3 s).1 h
    intro x hx
    rcases List.mem_append.1 hx with hx | hx
    · obtain ⟨i, hi, rfl⟩ := mem_probe.1 hx
      exact vec_wf
    · exact hs.wf _ hx
  have hget : ∀ v ∈ me.variableNames, ∃ i, ∃ h : i < vu.length, vu[i].1 = v := by
    intro v hv
    obtain ⟨u, hu⟩ := Dict.mem_keys_iff.1 ((hs.vars v).2 hv)
    obtain ⟨i, hi, h⟩ := List.getElem_of_mem hu
    exact ⟨i, hi, by rw [h]⟩
  refine ⟨?_, ?_, ?_⟩
  · intro v hv w hw hvw
    obtain ⟨i, hi, rfl⟩ := hget v hv
    obtain ⟨j, hj, rfl⟩ := hget w hw
    have := (key 2 r h2 _ (List.mem_append_left _ (mem_probe.2 ⟨i, hi, rfl⟩)) _
      (List.mem_append_left _ (mem_probe.2 ⟨j, hj, rfl⟩))).1 (dimOf dims vu[i].1) (2 + i) (2 + j) (by simp [vec_dims])
      (by simp [vec_dims, hvw])
    have : i = j := by omega
    subst this
    rfl
  · intro v hv p hp hm
    obtain ⟨i, hi, rfl⟩ := hget v hv
    obtain ⟨n, hn⟩ := Dict.mem_keys_iff.1 hm
    have a := (key 2 r h2 _ (List.mem_append_left _ (mem_probe.2 ⟨i, hi, rfl⟩)) _ (List.mem_append_right _ hp)).1
      (dimOf dims vu[i].1) (2 + i) n (by simp [vec_dims]) hn
    have b := (key 3 r' h3 _ (List.mem_append_left _ (mem_probe.2 ⟨i, hi, rfl⟩)) _ (List.mem_append_right _ hp)).1
      (dimOf dims vu[i].1) (3 + i) n (by simp [vec_dims]) hn
    omega
  · intro p hp q hq
    exact key 2 r h2 _ (List.mem_append_right _ hp) _ (List.mem_append_right _ hq)

/-- **C68** (test evaluations): `_test_expr` succeeds exactly if every variable has a dimension of its own, no parameter uses the
dimension of a variable, all parameters fit to each other, and the expression has a unit. So two evaluations with lengths
2, 3, … and 3, 4, … are enough to find every conflict. -/
theorem C68_test [Inhabited K] [DecidableEq K] {nat : ℕ → K} {unitOf : Expr K → List (String × U) → Except InitErr U}
    {me : ME K} {pu : List (String × U)} {dims : List (String × String)} {vu : List (String × U)} (hs : Setup me vu) {u : U} :
    testExpr nat unitOf me pu dims vu = .ok u ↔ Consistent me (dimOf dims) ∧ unitOf me.expr (vu ++ pu) = .ok u := by
  constructor
  · intro h
    unfold testExpr at h
    simp only at h
    split at h
    · cases h
    · rename_i o ho
      split at h
      · cases h
      · cases h
      · rename_i r hr
        split at h
        · cases h
        · cases h
        · rename_i r' hr'
          refine ⟨consistent_of_probes hs hr hr', ?_⟩
          cases o with
          | none => simp at h
          | some w =>
            simp only [Except.ok.injEq] at h
            subst h
            split at ho
            · cases ho
            · cases ho
            · split at ho
              · cases ho
              · rename_i hu
                cases ho
                exact hu
  · rintro ⟨hc, hu⟩
    obtain ⟨r2, h2⟩ := probe_ok (nat := nat) hs hc 2
    obtain ⟨r3, h3⟩ := probe_ok (nat := nat) hs hc 3
    have h1 : ∃ r, me.evaluate (vu.map fun e => (e.1, Arr.const (nat 1))) = .ok r := by
      obtain ⟨e1, _, e3⟩ := evaluate_eq hs (kw := vu.map fun e => (e.1, Arr.const (nat 1)))
        (by simp [Dict.keys, List.map_map, Function.comp_def])
      rw [e1]
      refine eval_of_fits ?_ fun s h => (e3 s).2 h
      intro x hx y hy
      rcases List.mem_append.1 hx with hx | hx
      · obtain ⟨e, _, rfl⟩ := List.mem_map.1 hx
        exact ⟨by simp [Arr.const], by simp [Arr.const]⟩
      · rcases List.mem_append.1 hy with hy | hy
        · obtain ⟨e, _, rfl⟩ := List.mem_map.1 hy
          exact ⟨by simp [Arr.const], by simp [Arr.const]⟩
        · exact hc.params _ hx _ hy
    obtain ⟨r1, h1⟩ := h1
    unfold testExpr
    simp only [h1, h2, h3, hu]

/-- `return expr_units` never fails: if the first evaluation raises a `ValueError`, so does one of the others -/
theorem C68_never_unbound [Inhabited K] [DecidableEq K] {nat : ℕ → K}
    {unitOf : Expr K → List (String × U) → Except InitErr U} {me : ME K} {pu : List (String × U)}
    {dims : List (String × String)} {vu : List (String × U)} (hs : Setup me vu)
    (hu : ∀ e us, unitOf e us ≠ .error .unbound) : testExpr nat unitOf me pu dims vu ≠ .error .unbound := by
  intro h
  have h0 := h
  unfold testExpr at h
  simp only at h
  split at h
  · rename_i x hx
    cases h
    split at hx
    · cases hx
    · cases hx
    · split at hx
      · rename_i e he
        cases hx
        exact hu _ _ he
      · cases hx
  · rename_i o ho
    split at h
    · cases h
    · cases h
    · rename_i r hr
      split at h
      · cases h
      · cases h
      · rename_i r' hr'
        have hc := consistent_of_probes hs hr hr'
        obtain ⟨e1, _, e3⟩ := evaluate_eq hs (kw := vu.map fun e => (e.1, Arr.const (nat 1)))
          (by simp [Dict.keys, List.map_map, Function.comp_def])
        have : ∃ r, me.evaluate (vu.map fun e => (e.1, Arr.const (nat 1))) = .ok r := by
          rw [e1]
          refine eval_of_fits ?_ fun s h => (e3 s).2 h
          intro x hx y hy
          rcases List.mem_append.1 hx with hx | hx
          · obtain ⟨e, _, rfl⟩ := List.mem_map.1 hx
            exact ⟨by simp [Arr.const], by simp [Arr.const]⟩
          · rcases List.mem_append.1 hy with hy | hy
            · obtain ⟨e, _, rfl⟩ := List.mem_map.1 hy
              exact ⟨by simp [Arr.const], by simp [Arr.const]⟩
            · exact hc.params _ hx _ hy
        obtain ⟨r1, h1⟩ := this
        cases o with
        | some w => simp at h
        | none =>
          simp only [h1] at ho
          split at ho <;> cases ho

/-! ## Units and dimensions of the variables -/

theorem mem_addRequired {params : List String} {req units : List (String × U)} {k : String} :
    k ∈ Dict.keys (addRequired params units req) ↔ k ∈ Dict.keys units ∨ (k ∈ Dict.keys req ∧ k ∉ params) := by
  induction req generalizing units with
  | nil => simp [addRequired]
  | cons e t ih =>
    simp only [addRequired, ih, Dict.keys_cons, List.mem_cons]
    split
    · rename_i h
      simp only [Dict.keys_append, List.mem_append, Dict.keys_cons, Dict.keys_nil, List.mem_singleton]
      constructor
      · rintro ((h1 | h1) | h1)
        · exact .inl h1
        · exact .inr ⟨.inl h1, h1 ▸ h.2⟩
        · exact .inr ⟨.inr h1.1, h1.2⟩
      · rintro (h1 | ⟨h1 | h1, h2⟩)
        · exact .inl (.inl h1)
        · exact .inl (.inr h1)
        · exact .inr ⟨h1, h2⟩
    · rename_i h
      constructor
      · rintro (h1 | h1)
        · exact .inl h1
        · exact .inr ⟨.inr h1.1, h1.2⟩
      · rintro (h1 | ⟨h1 | h1, h2⟩)
        · exact .inl h1
        · subst h1
          left
          by_contra hc
          exact h ⟨hc, h2⟩
        · exact .inr ⟨h1, h2⟩

theorem addRequired_nodup {params : List String} {req units : List (String × U)} (h : (Dict.keys units).Nodup) :
    (Dict.keys (addRequired params units req)).Nodup := by
  induction req generalizing units with
  | nil => exact h
  | cons e t ih =>
    simp only [addRequired]
    refine ih ?_
    split
    · rename_i hc
      rw [Dict.keys_append]
      exact List.Nodup.append h (by simp) (List.disjoint_left.2 fun x hx hy => by
        simp at hy; exact hc.1 (hy ▸ hx))
    · exact h

theorem addRequired_get {params : List String} {req units : List (String × U)} {k : String} {u : U}
    (h : Dict.get? units k = some u) : Dict.get? (addRequired params units req) k = some u := by
  induction req generalizing units with
  | nil => exact h
  | cons e t ih =>
    simp only [addRequired]
    refine ih ?_
    split
    · rw [Dict.get?_append, h]; rfl
    · exact h

/-- the units of the variables after the constructor: the given unit, else the unit required by the class, else no unit -/
theorem updatedUnits_spec {one : U} {vars params : List String} {req units vu : List (String × U)} (hv : vars.Nodup)
    (hu : (Dict.keys units).Nodup) (h : updatedUnits one vars params req units = .ok vu) :
    (Dict.keys vu).Nodup ∧ (∀ s, s ∈ Dict.keys vu ↔ s ∈ vars) ∧
      (∀ k u, Dict.get? units k = some u → Dict.get? vu k = some u) ∧
      ∀ k ∈ vars, k ∉ Dict.keys units → k ∉ Dict.keys req → Dict.get? vu k = some one := by
  unfold updatedUnits at h
  simp only at h
  split at h
  · rename_i hk
    cases h
    have hkey : Dict.keys ((vars.filter (· ∉ Dict.keys (addRequired params units req))).map fun v => (v, one)) =
        vars.filter (· ∉ Dict.keys (addRequired params units req)) := by
      simp [Dict.keys, List.map_map, Function.comp_def]
    refine ⟨?_, ?_, ?_, ?_⟩
    · rw [Dict.keys_append, hkey]
      refine List.Nodup.append (addRequired_nodup hu) (hv.filter _) (List.disjoint_left.2 fun x hx hy => ?_)
      have := (List.mem_filter.1 hy).2
      simp only [decide_eq_true_eq] at this
      exact this hx
    · intro s
      rw [Dict.keys_append, hkey, List.mem_append, List.mem_filter]
      constructor
      · rintro (h | h)
        · exact hk s h
        · exact h.1
      · intro h
        by_cases hm : s ∈ Dict.keys (addRequired params units req)
        · exact .inl hm
        · exact .inr ⟨h, by simpa using hm⟩
    · intro k u hg
      rw [Dict.get?_append, addRequired_get hg]
      rfl
    · intro k hkv hnu hnr
      have hm : k ∉ Dict.keys (addRequired params units req) := by
        rw [mem_addRequired]
        tauto
      rw [Dict.get?_append, Dict.get?_eq_none.2 hm]
      simp only [Option.none_or]
      refine Dict.get?_of_mem ?_ ?_
      · rw [hkey]; exact hv.filter _
      · exact List.mem_map.2 ⟨k, List.mem_filter.2 ⟨hkv, by simpa using hm⟩, rfl⟩
  · cases h

theorem vars_nodup (me : ME K) : me.variableNames.Nodup := (free_nodup _).filter _

theorem updatedDims_spec {vars : List String} {dims : List (String × String)} :
    Dict.keys (updatedDims vars dims) = vars ∧
      (updatedDims vars dims).map Prod.snd = vars.map (dimOf dims) := by
  constructor <;> simp [updatedDims, Dict.keys, List.map_map, Function.comp_def, dimOf]

theorem dimOf_updatedDims {vars : List String} (hv : vars.Nodup) {dims : List (String × String)} {v : String} (h : v ∈ vars) :
    dimOf (updatedDims vars dims) v = dimOf dims v := by
  have : Dict.get? (updatedDims vars dims) v = some (dimOf dims v) := by
    refine Dict.get?_of_mem ?_ ?_
    · rw [updatedDims_spec.1]; exact hv
    · exact List.mem_map.2 ⟨v, h, rfl⟩
  unfold dimOf at this ⊢
  rw [this]
  rfl

theorem consistent_congr {me : ME K} {σ τ : String → String} (h : ∀ v ∈ me.variableNames, σ v = τ v)
    (hc : Consistent me σ) : Consistent me τ where
  distinct v hv w hw := by rw [← h v hv, ← h w hw]; exact hc.distinct v hv w hw
  own v hv p hp := by rw [← h v hv]; exact hc.own v hv p hp
  params := hc.params

/-! ## C68: the constructor -/

theorem formatParams_iff {e : Expr K} {params : List (String × Input K U)} {ps : List (String × Arr K × U)} :
    formatParams e params = .ok ps ↔ (∀ p ∈ params, p.1 ∈ e.free) ∧
      List.Forall₂ (fun p q => q.1 = p.1 ∧ p.2.format p.1 = .ok q.2) params ps := by
  induction params generalizing ps with
  | nil =>
    simp only [formatParams, List.not_mem_nil, false_imp_iff, implies_true, true_and, List.forall₂_nil_left_iff,
      Except.ok.injEq]
    exact eq_comm
  | cons x t ih =>
    obtain ⟨k, v⟩ := x
    rw [List.forall_mem_cons]
    simp only [formatParams]
    by_cases hk : k ∈ e.free
    · rw [if_neg (not_not.2 hk)]
      cases hf : v.format k with
      | error x =>
        simp only [reduceCtorEq, false_iff, not_and]
        intro _ h
        cases h with
        | cons h _ => rw [hf] at h; cases h.2
      | ok a =>
        cases ht : formatParams e t with
        | error x =>
          simp only [reduceCtorEq, false_iff, not_and]
          intro h1 h
          cases h with
          | cons _ h =>
            have := ih.2 ⟨h1.2, h⟩
            rw [ht] at this
            cases this
        | ok r =>
          have := ih.1 ht
          constructor
          · intro h
            cases h
            exact ⟨⟨hk, this.1⟩, .cons ⟨rfl, hf⟩ this.2⟩
          · rintro ⟨h1, h⟩
            cases h with
            | @cons _ q _ qs hq h =>
              have h3 := ih.2 ⟨h1.2, h⟩
              rw [ht] at h3
              cases h3
              rw [hf] at hq
              obtain ⟨q1, q2⟩ := q
              simp only [Except.ok.injEq] at hq
              obtain ⟨rfl, rfl⟩ := hq
              rfl
    · rw [if_pos hk]
      simp [hk]

theorem setup_of_init {one : U} {e : Expr K} {params : List (String × Input K U)} {req units vu : List (String × U)}
    {ps : List (String × Arr K × U)} (hp : (Dict.keys params).Nodup) (hw : ∀ p ∈ params, p.2.Wf)
    (hu : (Dict.keys units).Nodup) (h : formatParams e params = .ok ps) {me : ME K}
    (hme : me = ⟨e, ps.map fun p => (p.1, p.2.1)⟩)
    (hv : updatedUnits one me.variableNames (Dict.keys me.params) req units = .ok vu) : Setup me vu := by
  obtain ⟨h1, h2, h3⟩ := formatParams_spec h
  have hk : Dict.keys me.params = Dict.keys params := by
    rw [← h1, hme]
    simp [Dict.keys, List.map_map, Function.comp_def]
  obtain ⟨u1, u2, _⟩ := updatedUnits_spec (vars_nodup me) hu hv
  refine ⟨hk ▸ hp, ?_, ?_, u1, u2⟩
  · intro s hs
    rw [hk, ← h1] at hs
    rw [hme]
    exact h2 s hs
  · intro p hpm
    rw [hme] at hpm
    obtain ⟨⟨k, a, u⟩, hq, rfl⟩ := List.mem_map.1 hpm
    obtain ⟨i, hi, hf⟩ := h3 k a u hq
    exact format_wf (hw _ hi) hf

/-- **C68** (result): a series that the constructor returns has the expression and the parameters that were given, every variable
has the given dimension or its own name, the given unit or the unit of the class or no unit, and all arrays fit: it meets the
hypotheses of the theorems about evaluation (C36). -/
theorem C68_result [Inhabited K] [DecidableEq K] [DecidableEq D] {c : Cls K U} {one : U} {dim : U → D} {nat : ℕ → K}
    {unitOf : Expr K → List (String × U) → Except InitErr U} {e : Expr K} {dims : List (String × String)}
    {params : List (String × Input K U)} {units : List (String × U)} {s : ExprSeries K U} (hp : (Dict.keys params).Nodup)
    (hw : ∀ p ∈ params, p.2.Wf) (hu : (Dict.keys units).Nodup)
    (h : initExpr c one dim nat unitOf e dims params units = .ok s) :
    s.me.expr = e ∧ Dict.keys s.me.params = Dict.keys params ∧ Series s.me s.dims ∧
      (∀ v ∈ e.free, v ∉ Dict.keys params → Dict.get? s.dims v = some (dimOf dims v)) ∧
      (∀ k u, Dict.get? units k = some u → Dict.get? s.varUnits k = some u) ∧
      (∀ v ∈ e.free, v ∉ Dict.keys params → v ∉ Dict.keys units → v ∉ Dict.keys c.reqDimUnits →
        Dict.get? s.varUnits v = some one) ∧
      (∀ v, v ∈ Dict.keys s.varUnits ↔ v ∈ Dict.keys s.dims) ∧
      unitOf e (s.varUnits ++ s.paramUnits) = .ok s.units := by
  unfold initExpr at h
  split at h
  · cases h
  · rename_i ps hps
    simp only at h
    split at h
    · cases h
    · split at h
      · cases h
      · rename_i vu hvu
        split at h
        · cases h
        · rename_i u htest
          split at h
          · cases h
          · split at h
            · rename_i hnd
              cases h
              have hset := setup_of_init hp hw hu hps rfl hvu
              obtain ⟨h1, h2, h3⟩ := formatParams_spec hps
              obtain ⟨hcons, hunit⟩ := (C68_test hset).1 htest
              obtain ⟨u1, u2, u3, u4⟩ := updatedUnits_spec (vars_nodup _) hu hvu
              have hk : Dict.keys (ps.map fun p => (p.1, p.2.1)) = Dict.keys params := by
                rw [← h1]
                simp [Dict.keys, List.map_map, Function.comp_def]
              have hvars : ∀ v, v ∈ e.free → v ∉ Dict.keys params →
                  v ∈ (ME.mk e (ps.map fun p => (p.1, p.2.1))).variableNames := by
                intro v h h'
                exact mem_vars.2 ⟨h, by rw [hk]; exact h'⟩
              refine ⟨rfl, hk, ?_, ?_, u3, ?_, ?_, hunit⟩
              · refine ⟨hset.params_nodup, hset.params_free, ?_, hnd, ?_, agree_of_fits hcons.params, ?_⟩
                · rw [updatedDims_spec.1]; exact vars_nodup _
                · intro s; rw [updatedDims_spec.1]
                · intro p hpm d hd
                  rw [updatedDims_spec.2] at hd
                  obtain ⟨v, hv, rfl⟩ := List.mem_map.1 hd
                  have := hcons.own v hv p hpm
                  rw [dimOf_updatedDims (vars_nodup _) hv] at this
                  exact ⟨this, fun hx => this ((hset.wf p hpm).index _ hx)⟩
              · intro v h h'
                refine Dict.get?_of_mem (by rw [updatedDims_spec.1]; exact vars_nodup _) ?_
                exact List.mem_map.2 ⟨v, hvars v h h', rfl⟩
              · intro v h h'
                exact u4 v (hvars v h h')
              · intro v
                rw [updatedDims_spec.1]
                exact u2 v
            · cases h

theorem generic_check [DecidableEq K] [DecidableEq D] {dim : U → D} {me : ME K} {pu vu : List (String × U)}
    {dims : List (String × String)} {u : U} : (Cls.generic : Cls K U).checkExpr dim me pu dims vu u = .ok () := by
  simp [Cls.generic, Cls.checkExpr, checkDimUnits, checkCoords]

/-- **C68** (acceptance): a `GenericSeries` is created exactly if the parameters are symbols of the expression with usable values,
some symbol is left as variable, units are given for variables only, the variables have different dimensions that no parameter
uses, the parameters fit to each other, and the expression has a unit for the units of its variables. -/
theorem C68_accepts [Inhabited K] [DecidableEq K] [DecidableEq D] {one : U} {dim : U → D} {nat : ℕ → K}
    {unitOf : Expr K → List (String × U) → Except InitErr U} {e : Expr K} {dims : List (String × String)}
    {params : List (String × Input K U)} {units : List (String × U)} (hp : (Dict.keys params).Nodup)
    (hw : ∀ p ∈ params, p.2.Wf) (hu : (Dict.keys units).Nodup) :
    (∃ s, initExpr (Cls.generic : Cls K U) one dim nat unitOf e dims params units = .ok s) ↔
      (∀ p ∈ params, p.1 ∈ e.free) ∧ (∃ v ∈ e.free, v ∉ Dict.keys params) ∧
      (∀ k ∈ Dict.keys units, k ∈ e.free ∧ k ∉ Dict.keys params) ∧
      (∀ v ∈ e.free, v ∉ Dict.keys params → ∀ w ∈ e.free, w ∉ Dict.keys params → dimOf dims v = dimOf dims w → v = w) ∧
      ∃ ps : List (String × Arr K × U),
        List.Forall₂ (fun p q => q.1 = p.1 ∧ p.2.format p.1 = .ok q.2) params ps ∧
        (∀ v ∈ e.free, v ∉ Dict.keys params → ∀ q ∈ ps, dimOf dims v ∉ Dict.keys q.2.1.dims) ∧
        (∀ p ∈ ps, ∀ q ∈ ps, Fits p.2.1 q.2.1) ∧
        ∃ u, unitOf e (units ++ ((e.free.filter (· ∉ Dict.keys params)).filter (· ∉ Dict.keys units)).map (fun v => (v, one)) ++
          ps.map fun p => (p.1, p.2.2)) = .ok u := by
  have hkeys : ∀ ps : List (String × Arr K × U), formatParams e params = .ok ps →
      Dict.keys (ps.map fun p => (p.1, p.2.1)) = Dict.keys params := by
    intro ps hps
    rw [← (formatParams_spec hps).1]
    simp [Dict.keys, List.map_map, Function.comp_def]
  have hvars : ∀ ps : List (String × Arr K × U), formatParams e params = .ok ps →
      (ME.mk e (ps.map fun p => (p.1, p.2.1))).variableNames = e.free.filter (· ∉ Dict.keys params) := by
    intro ps hps
    unfold ME.variableNames
    rw [hkeys ps hps]
  have hmem : ∀ ps : List (String × Arr K × U), formatParams e params = .ok ps → ∀ v,
      v ∈ (ME.mk e (ps.map fun p => (p.1, p.2.1))).variableNames ↔ v ∈ e.free ∧ v ∉ Dict.keys params := by
    intro ps hps v
    rw [hvars ps hps]
    simp
  have hunits : ∀ ps : List (String × Arr K × U), formatParams e params = .ok ps → ∀ vu,
      updatedUnits one (ME.mk e (ps.map fun p => (p.1, p.2.1))).variableNames
        (Dict.keys (ps.map fun p => (p.1, p.2.1))) (Cls.generic : Cls K U).reqDimUnits units = .ok vu ↔
      (∀ k ∈ Dict.keys units, k ∈ e.free ∧ k ∉ Dict.keys params) ∧
        vu = units ++ ((e.free.filter (· ∉ Dict.keys params)).filter (· ∉ Dict.keys units)).map (fun v => (v, one)) := by
    intro ps hps vu
    simp only [updatedUnits, Cls.generic, addRequired, hvars ps hps]
    by_cases hk : ∀ k ∈ Dict.keys units, k ∈ e.free ∧ k ∉ Dict.keys params
    · rw [if_pos (by intro k h; simpa using hk k h)]
      simp only [Except.ok.injEq]
      constructor
      · intro h; exact ⟨hk, h.symm⟩
      · intro h; exact h.2.symm
    · rw [if_neg (by intro h; exact hk fun k hm => by simpa using h k hm)]
      simp [hk]
  have hnum : ∀ ps : List (String × Arr K × U), formatParams e params = .ok ps →
      ((ME.mk e (ps.map fun p => (p.1, p.2.1))).numVariables = 0 ↔ ¬ ∃ v ∈ e.free, v ∉ Dict.keys params) := by
    intro ps hps
    have hk := hkeys ps hps
    have hlen : (ps.map fun p => (p.1, p.2.1)).length = (Dict.keys params).length := by
      rw [← hk]; simp [Dict.keys]
    have hsub : ∀ s ∈ Dict.keys params, s ∈ e.free := by
      intro s hs
      rw [← (formatParams_spec hps).1] at hs
      exact (formatParams_spec hps).2.1 s hs
    unfold ME.numVariables
    simp only [hlen]
    constructor
    · rintro h ⟨v, hv, hn⟩
      have hlt : (v :: Dict.keys params).length ≤ e.free.length := by
        refine (List.Nodup.subperm (List.nodup_cons.2 ⟨hn, hp⟩) ?_).length_le
        intro x hx
        rcases List.mem_cons.1 hx with rfl | hx
        · exact hv
        · exact hsub x hx
      simp only [List.length_cons] at hlt
      omega
    · intro h
      have h1 := (List.Nodup.subperm hp (fun x hx => hsub x hx)).length_le
      have h2 := (List.Nodup.subperm (free_nodup e) (fun x hx => by
        by_contra hc; exact h ⟨x, hx, hc⟩)).length_le
      omega
  constructor
  · rintro ⟨s, h⟩
    unfold initExpr at h
    split at h
    · cases h
    · rename_i ps hps
      simp only at h
      split at h
      · cases h
      · rename_i hn0
        split at h
        · cases h
        · rename_i vu hvu
          split at h
          · cases h
          · rename_i u htest
            have hset := setup_of_init hp hw hu hps rfl hvu
            obtain ⟨hcons, hunit⟩ := (C68_test hset).1 htest
            obtain ⟨hk, rfl⟩ := (hunits ps hps vu).1 hvu
            have hcons := consistent_congr (fun v hv => dimOf_updatedDims (vars_nodup _) hv) hcons
            have hf := formatParams_iff.1 hps
            refine ⟨hf.1, not_not.1 fun hc => hn0 ((hnum ps hps).2 hc), hk, ?_, ps, hf.2, ?_, ?_, u, hunit⟩
            · intro v hv hv' w hw hw' h
              exact hcons.distinct v ((hmem ps hps v).2 ⟨hv, hv'⟩) w ((hmem ps hps w).2 ⟨hw, hw'⟩) h
            · intro v hv hv' q hq
              exact hcons.own v ((hmem ps hps v).2 ⟨hv, hv'⟩) (q.1, q.2.1) (List.mem_map.2 ⟨q, hq, rfl⟩)
            · intro p hpm q hq
              exact hcons.params (p.1, p.2.1) (List.mem_map.2 ⟨p, hpm, rfl⟩) (q.1, q.2.1) (List.mem_map.2 ⟨q, hq, rfl⟩)
  · rintro ⟨hfree, hex, hk, hdist, ps, hall, hown, hfit, u, hunit⟩
    have hps := formatParams_iff.2 ⟨hfree, hall⟩
    have hvu := (hunits ps hps _).2 ⟨hk, rfl⟩
    have hset := setup_of_init hp hw hu hps rfl hvu
    have hc : Consistent (ME.mk e (ps.map fun p => (p.1, p.2.1))) (dimOf dims) := by
      refine ⟨?_, ?_, ?_⟩
      · intro v hv w hw h
        obtain ⟨a, b⟩ := (hmem ps hps v).1 hv
        obtain ⟨a', b'⟩ := (hmem ps hps w).1 hw
        exact hdist v a b w a' b' h
      · intro v hv p hpm
        obtain ⟨a, b⟩ := (hmem ps hps v).1 hv
        obtain ⟨q, hq, rfl⟩ := List.mem_map.1 hpm
        exact hown v a b q hq
      · intro p hpm q hq
        obtain ⟨p', hp', rfl⟩ := List.mem_map.1 hpm
        obtain ⟨q', hq', rfl⟩ := List.mem_map.1 hq
        exact hfit p' hp' q' hq'
    have hc' := consistent_congr (fun v hv => (dimOf_updatedDims (vars_nodup _) (dims := dims) hv).symm) hc
    have htest := (C68_test (nat := nat) (unitOf := unitOf) hset).2 ⟨hc', hunit⟩
    have hnd : ((updatedDims (ME.mk e (ps.map fun p => (p.1, p.2.1))).variableNames dims).map Prod.snd).Nodup := by
      rw [updatedDims_spec.2]
      exact List.Nodup.map_on (fun v hv w hw h => hc.distinct v hv w hw h) (vars_nodup _)
    unfold initExpr
    simp only [hps]
    rw [if_neg (fun h => (hnum ps hps).1 h hex)]
    simp only [hvu, htest, generic_check]
    rw [if_pos hnd]
    exact ⟨_, rfl⟩

/-! ## C68: derived classes -/

theorem checkDimUnits_iff [DecidableEq D] {dim : U → D} {pu vu req : List (String × U)} :
    checkDimUnits dim pu vu req = .ok () ↔ ∀ r ∈ req, ∃ u,
      (Dict.get? vu r.1 = some u ∨ (Dict.get? vu r.1 = none ∧ Dict.get? pu r.1 = some u)) ∧ dim u = dim r.2 := by
  induction req with
  | nil => simp [checkDimUnits]
  | cons r t ih =>
    obtain ⟨k, v⟩ := r
    rw [List.forall_mem_cons]
    simp only [checkDimUnits]
    cases hv : Dict.get? vu k with
    | some u =>
      simp only [Option.orElse_some]
      split
      · rename_i h; rw [ih]; simp [h]
      · rename_i h; simp [h]
    | none =>
      simp only [Option.orElse_none]
      cases hp : Dict.get? pu k with
      | none => simp
      | some u =>
        simp only
        split
        · rename_i h; rw [ih]; simp [h]
        · rename_i h; simp [h]

theorem checkParamCoords_iff [DecidableEq K] {k : String} {v : List K} {ps : List (String × Arr K)} :
    checkParamCoords k v ps = .ok () ↔ ∀ p ∈ ps, ∀ l, Dict.get? p.2.coords k = some l → allEqual l v = true := by
  induction ps with
  | nil => simp [checkParamCoords]
  | cons p t ih =>
    rw [List.forall_mem_cons]
    simp only [checkParamCoords]
    by_cases hk : k ∈ Dict.keys p.2.coords
    · rw [if_pos hk]
      obtain ⟨l, hl⟩ := Dict.get?_isSome.2 hk
      simp only [checkValues, hl]
      by_cases ha : allEqual l v = true
      · simp only [ha, if_true, ih]
        simp [ha]
      · simp only [ha, Bool.false_eq_true, if_false]
        simp [ha]
    · rw [if_neg hk, ih]
      simp [Dict.get?_eq_none.2 hk]

theorem checkCoords_iff [DecidableEq K] {me : ME K} {dims : List (String × String)} {req : List (String × List K)} :
    checkCoords me dims req = .ok () ↔ ∀ r ∈ req, r.1 ∉ Dict.keys dims ∧
      ∀ p ∈ me.params, ∀ l, Dict.get? p.2.coords r.1 = some l → allEqual l r.2 = true := by
  induction req with
  | nil => simp [checkCoords]
  | cons r t ih =>
    obtain ⟨k, v⟩ := r
    rw [List.forall_mem_cons]
    simp only [checkCoords]
    by_cases hk : k ∈ Dict.keys dims
    · simp [hk]
    · rw [if_neg hk, ← checkParamCoords_iff]
      cases hc : checkParamCoords k v me.params with
      | error e => simp
      | ok u => rw [← ih]; simp [hk]

/-- the dimensions of an expression: those of its variables and those of parameters without empty axis -/
theorem mem_exprDims {me : ME K} {dims : List (String × String)} {d : String} :
    d ∈ exprDims me dims ↔ (∃ v, (v, d) ∈ dims) ∨
      ∃ p ∈ me.params, d ∈ Dict.keys p.2.dims ∧ ∀ x ∈ p.2.dims, x.2 ≠ 0 := by
  unfold exprDims
  rw [List.mem_append, List.mem_flatMap]
  refine or_congr (by simp) ?_
  refine exists_congr fun p => and_congr_right fun _ => ?_
  by_cases h : (p.2.dims.all fun d => d.2 ≠ 0) = true
  · rw [if_pos h]
    have := List.all_eq_true.1 h
    simp only [decide_eq_true_eq] at this
    exact ⟨fun hd => ⟨hd, this⟩, fun hd => hd.1⟩
  · rw [if_neg h]
    simp only [List.not_mem_nil, false_iff, not_and]
    intro _ hc
    exact h (List.all_eq_true.2 fun x hx => by simpa using hc x hx)

/-- **C68** (classes): exactly what is checked for an expression of a derived class. `allEqual` compares as numpy does. Required
dimensions are dimensions; but required units and required coordinates are looked up under the *symbols* of variables and
parameters, and a parameter that has the dimension without coordinates is not checked. -/
theorem C68_class [DecidableEq K] [DecidableEq D] {c : Cls K U} {dim : U → D} {me : ME K} {pu vu : List (String × U)}
    {dims : List (String × String)} {u : U} : c.checkExpr dim me pu dims vu u = .ok () ↔
      (c.allowedVars = [] ∨ ∀ v ∈ me.variableNames, v ∈ c.allowedVars) ∧ (∀ v ∈ c.reqVars, v ∈ me.variableNames) ∧
      (∀ d ∈ c.reqDims, (∃ v, (v, d) ∈ dims) ∨ ∃ p ∈ me.params, d ∈ Dict.keys p.2.dims ∧ ∀ x ∈ p.2.dims, x.2 ≠ 0) ∧
      (∀ w, c.reqUnit = some w → dim u = dim w) ∧
      (∀ r ∈ c.reqDimUnits, ∃ w,
        (Dict.get? vu r.1 = some w ∨ (Dict.get? vu r.1 = none ∧ Dict.get? pu r.1 = some w)) ∧ dim w = dim r.2) ∧
      ∀ r ∈ c.reqDimCoords, r.1 ∉ Dict.keys dims ∧
        ∀ p ∈ me.params, ∀ l, Dict.get? p.2.coords r.1 = some l → allEqual l r.2 = true := by
  simp only [← mem_exprDims, ← checkDimUnits_iff, ← checkCoords_iff]
  unfold Cls.checkExpr
  by_cases h1 : c.allowedVars = [] ∨ ∀ v ∈ me.variableNames, v ∈ c.allowedVars
  · rw [if_neg (by
      rintro ⟨a, b⟩
      rcases h1 with h | h
      · simp [h] at a
      · exact b h)]
    by_cases h2 : ∀ v ∈ c.reqVars, v ∈ me.variableNames
    · rw [if_neg (not_not.2 h2)]
      by_cases h3 : ∀ d ∈ c.reqDims, d ∈ exprDims me dims
      · rw [if_neg (not_not.2 h3)]
        by_cases h4 : ∀ w, c.reqUnit = some w → dim u = dim w
        · rw [if_neg (by rintro ⟨w, hw, hn⟩; exact hn (h4 w hw))]
          cases h5 : checkDimUnits dim pu vu c.reqDimUnits with
          | error e => simp
          | ok x => exact ⟨fun h => ⟨h1, h2, h3, h4, rfl, h⟩, fun h => h.2.2.2.2.2⟩
        · rw [if_pos (by
            simp only [not_forall] at h4
            obtain ⟨w, hw, hn⟩ := h4
            exact ⟨w, hw, hn⟩)]
          simp [h4]
      · rw [if_pos h3]; simp [h3]
    · rw [if_pos h2]; simp [h2]
  · rw [if_pos (by
      simp only [not_or] at h1
      exact ⟨List.length_pos_iff.2 h1.1, h1.2⟩)]
    simp [h1]

theorem updatedUnits_req {one : U} {vars params : List String} {req units vu : List (String × U)} (hv : vars.Nodup)
    (hu : (Dict.keys units).Nodup) (h : updatedUnits one vars params req units = .ok vu) :
    ∀ k ∈ Dict.keys req, k ∉ params → k ∈ Dict.keys vu := by
  intro k hk hp
  rw [(updatedUnits_spec hv hu h).2.1]
  unfold updatedUnits at h
  simp only at h
  split at h
  · rename_i hc
    exact hc k (mem_addRequired.2 (.inr ⟨hk, hp⟩))
  · cases h

theorem checkDimUnits_noUnit [DecidableEq D] {dim : U → D} {pu vu req : List (String × U)}
    (h : ∀ k ∈ Dict.keys req, k ∈ Dict.keys vu ∨ k ∈ Dict.keys pu) : checkDimUnits dim pu vu req ≠ .error .noUnit := by
  induction req with
  | nil => simp [checkDimUnits]
  | cons r t ih =>
    obtain ⟨k, v⟩ := r
    simp only [Dict.keys_cons, List.mem_cons, forall_eq_or_imp] at h
    have ih := ih h.2
    simp only [checkDimUnits]
    cases hv : Dict.get? vu k with
    | some u =>
      simp only [Option.orElse_some]
      split
      · exact ih
      · simp
    | none =>
      simp only [Option.orElse_none]
      cases hp : Dict.get? pu k with
      | none => exact absurd h.1 (by simp [Dict.get?_eq_none.1 hv, Dict.get?_eq_none.1 hp])
      | some u =>
        simp only
        split
        · exact ih
        · simp

theorem checkCoords_errors [DecidableEq K] {me : ME K} {dims : List (String × String)} {req : List (String × List K)} {x : InitErr}
    (h : checkCoords me dims req = .error x) : x = .value := by
  have hp : ∀ (k : String) (v : List K) (ps : List (String × Arr K)) x, checkParamCoords k v ps = .error x → x = .value := by
    intro k v ps
    induction ps with
    | nil => intro x h; simp [checkParamCoords] at h
    | cons p t ih =>
      intro x h
      simp only [checkParamCoords] at h
      split at h
      · rename_i hk
        obtain ⟨l, hl⟩ := Dict.get?_isSome.2 hk
        simp only [checkValues, hl] at h
        by_cases ha : allEqual l v = true
        · simp only [ha, if_true] at h; exact ih x h
        · simp only [ha, Bool.false_eq_true, if_false] at h; cases h; rfl
      · exact ih x h
  induction req with
  | nil => simp [checkCoords] at h
  | cons r t ih =>
    obtain ⟨k, v⟩ := r
    simp only [checkCoords] at h
    split at h
    · cases h; rfl
    · split at h
      · rename_i e he
        cases h
        exact hp _ _ _ _ he
      · exact ih h

/-- **C68** (errors): the accidental exceptions of the constructor never happen: the unit is always bound when it is returned,
`bidict` never finds a duplicate dimension, and the message about a missing unit is never built from `None`. -/
theorem C68_errors [Inhabited K] [DecidableEq K] [DecidableEq D] {c : Cls K U} {one : U} {dim : U → D} {nat : ℕ → K}
    {unitOf : Expr K → List (String × U) → Except InitErr U} {e : Expr K} {dims : List (String × String)}
    {params : List (String × Input K U)} {units : List (String × U)} (hp : (Dict.keys params).Nodup)
    (hw : ∀ p ∈ params, p.2.Wf) (hu : (Dict.keys units).Nodup) (hr : ∀ e us, unitOf e us ≠ .error .unbound)
    (hd : ∀ e us, unitOf e us ≠ .error .duplication) (hn : ∀ e us, unitOf e us ≠ .error .noUnit) {x : InitErr}
    (h : initExpr c one dim nat unitOf e dims params units = .error x) : x ≠ .unbound ∧ x ≠ .duplication ∧ x ≠ .noUnit := by
  have hnamed : ∀ (q : Qty K) l x, q.named l = .error x → x = .value := by
    intro q l x h
    unfold Qty.named at h
    split at h <;> cases h
    rfl
  have hform : ∀ (i : Input K U) k x, i.format k = .error x → x = .value := by
    intro i k x h
    cases i with
    | quantity q u =>
      simp only [Input.format] at h
      split at h
      · rename_i hq; cases h; exact hnamed _ _ _ hq
      · cases h
    | tuple q d u =>
      simp only [Input.format] at h
      split at h
      · rename_i hq
        cases h
        split at hq
        · exact hnamed _ _ _ hq
        · exact hnamed _ _ _ hq
      · cases h
    | array a o => cases o <;> simp only [Input.format] at h <;> cases h; rfl
  have hps : ∀ (l : List (String × Input K U)) x, formatParams e l = .error x → x = .value := by
    intro l
    induction l with
    | nil => intro x h; simp [formatParams] at h
    | cons p t ih =>
      intro x h
      simp only [formatParams] at h
      split at h
      · cases h; rfl
      · split at h
        · rename_i hf; cases h; exact hform _ _ _ hf
        · split at h
          · rename_i ht; cases h; exact ih _ ht
          · cases h
  unfold initExpr at h
  split at h
  · rename_i h1; cases h; have := hps _ _ h1; subst this; simp
  · rename_i ps hps'
    simp only at h
    split at h
    · cases h; simp
    · split at h
      · rename_i h1
        cases h
        simp only [updatedUnits] at h1
        split at h1 <;> cases h1
        simp
      · rename_i vu hvu
        have hset := setup_of_init hp hw hu hps' rfl hvu
        split at h
        · rename_i h1
          cases h
          have hb : x ≠ .unbound := by
            rintro rfl
            exact C68_never_unbound hset hr h1
          refine ⟨hb, ?_, ?_⟩
          all_goals
            rintro rfl
            unfold testExpr at h1
            simp only at h1
            split at h1
            · rename_i h2
              cases h1
              split at h2
              · cases h2
              · cases h2
              · split at h2
                · rename_i h3
                  cases h2
                  first | exact hd _ _ h3 | exact hn _ _ h3
                · cases h2
            · split at h1
              · cases h1
              · cases h1
              · split at h1
                · cases h1
                · cases h1
                · split at h1 <;> cases h1
        · rename_i u htest
          have hcons := consistent_congr (fun v hv => dimOf_updatedDims (vars_nodup _) hv) ((C68_test hset).1 htest).1
          split at h
          · rename_i h1
            cases h
            unfold Cls.checkExpr at h1
            split at h1
            · cases h1; simp
            · split at h1
              · cases h1; simp
              · split at h1
                · cases h1; simp
                · split at h1
                  · cases h1; simp
                  · split at h1
                    · rename_i h2
                      cases h1
                      have h3 : x ≠ .noUnit := by
                        rintro rfl
                        refine checkDimUnits_noUnit ?_ h2
                        intro k hk
                        by_cases hkp : k ∈ Dict.keys (ps.map fun p => (p.1, p.2.1))
                        · right
                          simpa [Dict.keys, List.map_map, Function.comp_def] using hkp
                        · exact .inl (updatedUnits_req (vars_nodup _) hu hvu k hk hkp)
                      refine ⟨?_, ?_, h3⟩
                      all_goals
                        rintro rfl
                        clear h3
                        generalize c.reqDimUnits = l at h2
                        induction l with
                        | nil => simp [checkDimUnits] at h2
                        | cons r t ih =>
                          simp only [checkDimUnits] at h2
                          split at h2
                          · cases h2
                          · split at h2
                            · exact ih h2
                            · cases h2
                    · have := checkCoords_errors h1
                      subst this
                      simp
          · rw [if_pos] at h
            · cases h
            · rw [updatedDims_spec.2]
              exact List.Nodup.map_on (fun v hv w hw h => hcons.distinct v hv w hw h) (vars_nodup _)

/-! ## C68: parameters -/

/-- **C68** (parameters): an array with unit is kept; an array without unit is rejected; a list given with a dimension gets this
dimension, except if the dimension has the name of the parameter itself: then it is replaced by `dim_0`, as for a list without
dimension. -/
theorem C68_parameter (sym : String) (n : ℕ) (val : List ℕ → K) (a : Arr K) (u : U) :
    Input.format sym (.array a (some u)) = .ok (a, u) ∧
    Input.format sym (.array a none : Input K U) = .error .value ∧
    (∀ dim, dim ≠ sym → ∃ r, Input.format sym (.tuple ⟨[n], val⟩ dim u) = .ok (r, u) ∧ r.dims = [(dim, n)] ∧ r.coords = [] ∧
      ∀ i, r.val i = val [i dim]) ∧
    (∃ r, Input.format sym (.tuple ⟨[n], val⟩ sym u) = .ok (r, u) ∧ r.dims = [("dim_0", n)] ∧ r.coords = [] ∧
      ∀ i, r.val i = val [i "dim_0"]) ∧
    ∃ r, Input.format sym (.quantity ⟨[n], val⟩ u) = .ok (r, u) ∧ r.dims = [("dim_0", n)] ∧ r.coords = [] ∧
      ∀ i, r.val i = val [i "dim_0"] := by
  have hd : defaultNames 1 = ["dim_0"] := rfl
  refine ⟨rfl, rfl, ?_, ?_, ?_⟩
  · intro dim h
    simp only [Input.format, if_pos h, Qty.named, List.length_singleton, if_true]
    exact ⟨_, rfl, rfl, rfl, fun i => rfl⟩
  · simp only [Input.format, ne_eq, not_true, if_false, Qty.unnamed, Qty.named, List.length_singleton, hd, if_true]
    exact ⟨_, rfl, rfl, rfl, fun i => rfl⟩
  · simp only [Input.format, Qty.unnamed, Qty.named, List.length_singleton, hd, if_true]
    exact ⟨_, rfl, rfl, rfl, fun i => rfl⟩

/-- so two lists of different lengths, each with the dimension of its own name, do not fit, although their dimensions differ: the
series is rejected for every expression with both -/
theorem C68_own_name_rejected [Inhabited K] [DecidableEq K] [DecidableEq D] {c : Cls K U} {one : U} {dim : U → D} {nat : ℕ → K}
    {unitOf : Expr K → List (String × U) → Except InitErr U} {e : Expr K} {dims : List (String × String)}
    {units : List (String × U)} {a b : String} (hab : a ≠ b) {n m : ℕ} (hnm : n ≠ m) (f g : List ℕ → K) (u w : U)
    (hu : (Dict.keys units).Nodup) :
    ∀ s, initExpr c one dim nat unitOf e dims [(a, .tuple ⟨[n], f⟩ a u), (b, .tuple ⟨[m], g⟩ b w)] units ≠ .ok s := by
  intro s h
  obtain ⟨_, _, hs, _⟩ := C68_result (by simpa using hab) (by simp [Input.Wf]) hu h
  unfold initExpr at h
  split at h
  · cases h
  · rename_i ps hps
    simp only at h
    split at h
    · cases h
    · split at h
      · cases h
      · split at h
        · cases h
        · split at h
          · cases h
          · split at h
            · cases h
              obtain ⟨ra, ha, hda, _⟩ := (C68_parameter a n f (.const (f [])) u).2.2.2.1
              obtain ⟨rb, hb, hdb, _⟩ := (C68_parameter b m g (.const (g [])) w).2.2.2.1
              have hps := (formatParams_iff.1 hps).2
              cases hps with
              | @cons _ q1 _ _ h1 h2 =>
                cases h2 with
                | @cons _ q2 _ _ h3 h4 =>
                  obtain ⟨S, C, hSC⟩ := hs.agree
                  obtain ⟨q1k, q1a, q1u⟩ := q1
                  obtain ⟨q2k, q2a, q2u⟩ := q2
                  rw [ha] at h1
                  rw [hb] at h3
                  cases h1.2
                  cases h3.2
                  have e1 := (hSC (q1k, ra) (by simp)).1 ("dim_0", n) (by simp [hda])
                  have e2 := (hSC (q2k, rb) (by simp)).1 ("dim_0", m) (by simp [hdb])
                  exact hnm (e1.trans e2.symm)
            · cases h

/-! ## C68: spatial series -/

theorem allEqual_distinct [DecidableEq K] {x y z : K} (h : x ≠ y) {l : List K} : allEqual l [x, y, z] = true ↔ l = [x, y, z] := by
  unfold allEqual
  split
  · simp
  · rename_i hl
    constructor
    · intro h'
      exfalso
      match l, hl, h' with
      | [w], _, h' =>
        simp only [List.all_cons, Bool.and_eq_true, decide_eq_true_eq] at h'
        exact h (h'.1.symm.trans h'.2.1)
      | [], _, h' => simp at h'
      | a :: b :: t, _, h' => simp at h'
    · rintro rfl
      simp at hl

/-- **C68** (spatial series): an expression is accepted by the class exactly if `s` is a variable with a unit compatible to
"no unit", `s` and `c` are dimensions, `c` is no variable, and parameters that have coordinates of `c` have `x, y, z`. -/
theorem C68_spatial [DecidableEq K] [DecidableEq D] {one : U} {x y z : K} (hxy : x ≠ y) {dim : U → D} {me : ME K}
    {pu vu : List (String × U)} {dims : List (String × String)} {u : U} (hv : ∀ s, s ∈ Dict.keys vu ↔ s ∈ me.variableNames) :
    (Cls.spatial one x y z).checkExpr dim me pu dims vu u = .ok () ↔
      "s" ∈ me.variableNames ∧ (∃ w, Dict.get? vu "s" = some w ∧ dim w = dim one) ∧
      (∀ d, d = "s" ∨ d = "c" → (∃ v, (v, d) ∈ dims) ∨ ∃ p ∈ me.params, d ∈ Dict.keys p.2.dims ∧ ∀ x ∈ p.2.dims, x.2 ≠ 0) ∧
      "c" ∉ Dict.keys dims ∧ ∀ p ∈ me.params, ∀ l, Dict.get? p.2.coords "c" = some l → l = [x, y, z] := by
  rw [C68_class]
  simp only [Cls.spatial, List.mem_singleton, forall_eq, List.mem_cons, List.not_mem_nil, or_false, true_or, true_and,
    reduceCtorEq, false_imp_iff, implies_true, allEqual_distinct hxy]
  constructor
  · rintro ⟨h1, h2, ⟨w, h3, h4⟩, h5, h6⟩
    refine ⟨h1, ⟨w, ?_, h4⟩, h2, h5, h6⟩
    rcases h3 with h | h
    · exact h
    · exact absurd ((hv "s").2 h1) (Dict.get?_eq_none.1 h.1)
  · rintro ⟨h1, ⟨w, h3, h4⟩, h2, h5, h6⟩
    exact ⟨h1, h2, ⟨w, .inl h3, h4⟩, h5, h6⟩

/-- **C68** (parameters of spatial series): a list of three values gets the dimension `c` with the coordinates `x, y, z`; three values
in another shape raise, and everything else (a list of another length, a pair with a dimension, an array) is not changed. -/
theorem C68_spatial_parameter (x y z : K) (shape : List ℕ) (val : List ℕ → K) (u : U) :
    (∃ a, spatialParam x y z (.quantity ⟨[3], val⟩ u) = .ok (.array a (some u)) ∧ a.dims = [("c", 3)] ∧
      a.coords = [("c", [x, y, z])] ∧ ∀ i, a.val i = val [i "c"]) ∧
    (shape.prod = 3 → shape ≠ [3] → spatialParam x y z (.quantity ⟨shape, val⟩ u) = .error .value) ∧
    (shape.prod ≠ 3 → spatialParam x y z (.quantity ⟨shape, val⟩ u) = .ok (.quantity ⟨shape, val⟩ u)) ∧
    (∀ q d, spatialParam x y z (.tuple q d u) = .ok (.tuple q d u)) ∧
    ∀ a o, spatialParam x y z (.array a o : Input K U) = .ok (.array a o) := by
  refine ⟨⟨_, rfl, rfl, rfl, fun i => rfl⟩, ?_, ?_, fun _ _ => rfl, fun _ _ => rfl⟩
  · intro hp hs
    have hl : ¬ (["c"] : List String).length = shape.length := by
      intro h
      match shape, h with
      | [n], _ =>
        simp only [List.prod_cons, List.prod_nil, Nat.mul_one] at hp
        exact hs (by rw [hp])
    simp only [spatialParam, hp, if_true, Qty.named, if_neg hl]
  · intro hp
    simp only [spatialParam, hp, if_false]

theorem checkAll_iff {A : Type} {f : A → Except InitErr Unit} {l : List A} :
    checkAll f l = .ok () ↔ ∀ a ∈ l, f a = .ok () := by
  induction l with
  | nil => simp [checkAll]
  | cons a t ih =>
    simp only [checkAll, List.forall_mem_cons]
    cases f a with
    | error e => simp
    | ok u => simp [ih]

/-- **C68** (discrete classes): exactly what is checked for data of a derived class. Here required units belong to dimensions, and
required coordinates must be there. A required unit is only checked if the dimension is there. -/
theorem C68_discrete [DecidableEq K] [DecidableEq D] {c : Cls K U} {dim : U → D} {a : Disc K U} :
    c.checkDisc dim a = .ok () ↔
      (∀ d ∈ c.reqDims, d ∈ Dict.keys a.arr.dims) ∧
      (∀ u, c.reqUnit = some u → ∃ w, a.units = some w ∧ dim w = dim u) ∧
      (∀ r ∈ c.reqDimCoords, ∃ l, Dict.get? a.arr.coords r.1 = some l ∧ allEqual l r.2 = true) ∧
      ∀ r ∈ c.reqDimUnits, (r.1 ∈ Dict.keys a.arr.dims ∨ r.1 ∈ Dict.keys c.reqDimCoords) →
        r.1 ∈ Dict.keys a.arr.coords ∧ ∃ w, Dict.get? a.coordUnits r.1 = some w ∧ dim w = dim r.2 := by
  have hv : ∀ r : String × List K, checkValues a.arr.coords r.1 r.2 = .ok () ↔
      ∃ l, Dict.get? a.arr.coords r.1 = some l ∧ allEqual l r.2 = true := by
    intro r
    unfold checkValues
    cases Dict.get? a.arr.coords r.1 with
    | none => simp
    | some l => by_cases h : allEqual l r.2 = true <;> simp [h]
  have hu : ∀ r : String × U, checkCoordUnit dim a r.1 r.2 = .ok () ↔
      r.1 ∈ Dict.keys a.arr.coords ∧ ∃ w, Dict.get? a.coordUnits r.1 = some w ∧ dim w = dim r.2 := by
    intro r
    unfold checkCoordUnit
    rw [← Dict.get?_isSome]
    cases Dict.get? a.arr.coords r.1 with
    | none => simp
    | some l =>
      cases Dict.get? a.coordUnits r.1 with
      | none => simp
      | some w => by_cases h : dim w = dim r.2 <;> simp [h]
  unfold Cls.checkDisc
  by_cases h1 : ∀ d ∈ c.reqDims, d ∈ Dict.keys a.arr.dims
  · rw [if_neg (not_not.2 h1)]
    by_cases h2 : ∀ u, c.reqUnit = some u → ∃ w, a.units = some w ∧ dim w = dim u
    · rw [if_neg (by
        rintro ⟨u, hu, hn⟩
        obtain ⟨w, hw, he⟩ := h2 u hu
        exact hn w hw he)]
      cases h3 : checkAll (fun e => checkValues a.arr.coords e.1 e.2) c.reqDimCoords with
      | error e =>
        simp only [reduceCtorEq, false_iff, not_and]
        intro _ _ h
        have := (checkAll_iff (f := fun e => checkValues a.arr.coords e.1 e.2)).2 fun r hr => (hv r).2 (h r hr)
        rw [h3] at this
        cases this
      | ok u =>
        have h3 := checkAll_iff.1 h3
        simp only [checkAll_iff, List.mem_filter, decide_eq_true_eq]
        constructor
        · intro h
          exact ⟨h1, h2, fun r hr => (hv r).1 (h3 r hr), fun r hr hd => (hu r).1 (h r ⟨hr, hd⟩)⟩
        · rintro ⟨_, _, _, h⟩ r hr
          exact (hu r).2 (h r hr.1 hr.2)
    · rw [if_pos (by
        simp only [not_forall] at h2
        obtain ⟨u, hu, hn⟩ := h2
        exact ⟨u, hu, fun w hw he => hn ⟨w, hw, he⟩⟩)]
      simp [h2]
  · rw [if_pos h1]; simp [h1]

/-! ## Examples -/

/-- `a*s + b` over the integers -/
def spatialLine : Expr Int := .bin (· + ·) (.bin (· * ·) (.sym "a") (.sym "s")) (.sym "b")

/-- a parameter with `n` values along `c` and without coordinates -/
def alongC (n : ℕ) : Arr Int := ⟨[("c", n)], [], fun i => i "c"⟩

/-- **C68** (refuted): "requires coordinates x, y, z" is false: parameters with the dimension `c`, seven values and no coordinates
are accepted by the checks of `SpatialSeries`; one unit is enough for this example -/
theorem C68_spatial_unchecked : ∃ s : ExprSeries Int Unit,
    initExpr (Cls.spatial () 0 1 2) () id (fun n => (n : Int)) (fun _ _ => .ok ()) spatialLine []
      [("a", .array (alongC 7) (some ())), ("b", .array (alongC 7) (some ()))] [] = .ok s ∧
      ∀ p ∈ s.me.params, p.2.dims = [("c", 7)] := by
  refine ⟨_, rfl, ?_⟩
  intro p hp
  simp only [List.map_cons, List.map_nil, List.mem_cons, List.not_mem_nil, or_false] at hp
  rcases hp with rfl | rfl <;> rfl

/-- **C68** (refuted): a required coordinate dimension can be a variable dimension if its symbol has another name -/
theorem C68_variable_c : ∃ s : ExprSeries Int Unit,
    initExpr (Cls.spatial () 0 1 2) () id (fun n => (n : Int)) (fun _ _ => .ok ()) spatialLine [("b", "c")]
      [("a", .quantity ⟨[], fun _ => 4⟩ ())] [] = .ok s ∧ ("b", "c") ∈ s.dims := by
  refine ⟨_, rfl, ?_⟩
  simp [updatedDims, ME.variableNames, spatialLine, Expr.free, Expr.syms, Dict.keys, Dict.get?]

/-- with the coordinates it is accepted as documented -/
example : ∃ s : ExprSeries Int Unit,
    initExpr (Cls.spatial () 0 1 2) () id (fun n => (n : Int)) (fun _ _ => .ok ()) spatialLine []
      [("a", .array ⟨[("c", 3)], [("c", [0, 1, 2])], fun i => i "c"⟩ (some ())), ("b", .quantity ⟨[], fun _ => 4⟩ ())] [] =
        .ok s := ⟨_, rfl⟩

/-- wrong coordinates are found -/
example : initExpr (D := Unit) (Cls.spatial () 0 1 2) () id (fun n => (n : Int)) (fun _ _ => .ok ()) spatialLine []
      [("a", .array ⟨[("c", 3)], [("c", [0, 1, 5])], fun i => i "c"⟩ (some ())), ("b", .quantity ⟨[], fun _ => 4⟩ ())] [] =
        .error .value := rfl

/-- a parameter that uses the dimension of a variable is found, also if it has the length of the first test -/
example : initExpr (D := Unit) (Cls.generic : Cls Int Unit) () id (fun n => (n : Int)) (fun _ _ => .ok ()) spatialLine
      [("s", "time")] [("a", .tuple ⟨[2], fun _ => 1⟩ "time" ()), ("b", .quantity ⟨[], fun _ => 4⟩ ())] [] =
        .error .value := rfl

/-- C68_own_name_rejected is about parameters that are accepted with other names of the dimensions -/
example : ∃ s : ExprSeries Int Unit,
    initExpr (Cls.generic : Cls Int Unit) () id (fun n => (n : Int)) (fun _ _ => .ok ()) spatialLine []
      [("a", .tuple ⟨[2], fun _ => 1⟩ "a_dim" ()), ("b", .tuple ⟨[3], fun _ => 1⟩ "b_dim" ())] [] = .ok s := ⟨_, rfl⟩

end Weldx.Me
