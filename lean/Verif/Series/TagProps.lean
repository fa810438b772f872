import Verif.Series.Tag

/-!
# Serialisation of generic series and mathematical expressions: properties (C69)
-/

namespace Weldx.Me

variable {K U D : Type}

/-! ## Expression based series -/

/-- an expression based series as the constructor and the partial evaluation leave it (see C68_result) -/
structure ExprSeries.Valid (unitOf : Expr K → List (String × U) → Except InitErr U) (s : ExprSeries K U) : Prop where
  series : Series s.me s.dims
  wf : ∀ p ∈ s.me.params, p.2.Wf
  paramUnits : Dict.keys s.paramUnits = Dict.keys s.me.params
  units_nodup : (Dict.keys s.varUnits).Nodup
  vars : ∀ v, v ∈ Dict.keys s.varUnits ↔ v ∈ Dict.keys s.dims
  free : s.dims ≠ []
  units : unitOf s.me.expr (s.varUnits ++ s.paramUnits) = .ok s.units

theorem addFreeDim_eq {dims : List (String × String)} {v : String × U} (acc : List (String × FreeDim U)) :
    addFreeDim dims acc v =
      Dict.set acc (dimOf dims v.1) ⟨v.2, if dimOf dims v.1 ≠ v.1 then some v.1 else none⟩ := by
  unfold addFreeDim dimOf
  cases h : Dict.get? dims v.1 with
  | none => simp
  | some d =>
    simp only [Option.getD_some]
    by_cases hd : d = v.1
    · simp [hd]
    · simp [hd]

theorem foldl_addFreeDim {dims : List (String × String)} (l : List (String × U)) (acc : List (String × FreeDim U)) :
    l.foldl (addFreeDim dims) acc = Dict.update acc
      (l.map fun v => (dimOf dims v.1, ⟨v.2, if dimOf dims v.1 ≠ v.1 then some v.1 else none⟩)) := by
  induction l generalizing acc with
  | nil => rfl
  | cons v t ih =>
    rw [List.foldl_cons, addFreeDim_eq, ih]
    rfl

/-- the free dimensions of a file: one entry for each variable under the name of its dimension -/
theorem freeDims_eq {s : ExprSeries K U} {unitOf : Expr K → List (String × U) → Except InitErr U} (hs : s.Valid unitOf) :
    s.toTree.freeDimensions =
      s.varUnits.map fun v => (dimOf s.dims v.1, ⟨v.2, if dimOf s.dims v.1 ≠ v.1 then some v.1 else none⟩) := by
  unfold ExprSeries.toTree
  simp only
  rw [foldl_addFreeDim, update_nil]
  have : Dict.keys (s.varUnits.map fun v => (dimOf s.dims v.1, (⟨v.2, if dimOf s.dims v.1 ≠ v.1 then some v.1 else none⟩ : FreeDim U)))
      = (Dict.keys s.varUnits).map (dimOf s.dims) := by
    simp [Dict.keys, List.map_map, Function.comp_def]
  rw [this]
  refine List.Nodup.map_on ?_ hs.units_nodup
  intro a ha b hb hab
  obtain ⟨da, hda⟩ := Dict.mem_keys_iff.1 ((hs.vars a).1 ha)
  obtain ⟨db, hdb⟩ := Dict.mem_keys_iff.1 ((hs.vars b).1 hb)
  have ea : dimOf s.dims a = da := by simp [dimOf, Dict.get?_of_mem hs.series.syms_nodup hda]
  have eb : dimOf s.dims b = db := by simp [dimOf, Dict.get?_of_mem hs.series.syms_nodup hdb]
  rw [ea, eb] at hab
  subst hab
  have h1 := symbolOf_eq hs.series.dims_nodup hda
  have h2 := symbolOf_eq hs.series.dims_nodup hdb
  exact h1.symm.trans h2

theorem foldl_readFreeDim (l : List (String × FreeDim U)) (a : List (String × String)) (b : List (String × U)) :
    l.foldl readFreeDim (a, b) =
      (Dict.update a (l.filterMap fun e => e.2.symbol.map fun s => (s, e.1)),
       Dict.update b (l.map fun e => (e.2.symbol.getD e.1, e.2.units))) := by
  induction l generalizing a b with
  | nil => rfl
  | cons e t ih =>
    rw [List.foldl_cons]
    obtain ⟨k, u, sym⟩ := e
    cases sym with
    | none => simp only [readFreeDim, ih]; rfl
    | some s => simp only [readFreeDim, ih]; rfl

theorem formatParams_arrays {e : Expr K} {ps : List (String × Arr K × U)} (h : ∀ p ∈ ps, p.1 ∈ e.free) :
    formatParams e (ps.map fun p => (p.1, Input.array p.2.1 (some p.2.2))) = .ok ps := by
  induction ps with
  | nil => rfl
  | cons p t ih =>
    simp only [List.forall_mem_cons] at h
    simp only [List.map_cons, formatParams, Input.format, ih h.2, if_neg (not_not.2 h.1)]

theorem zip_fst {A B : Type} {l : List (String × A)} {m : List (String × B)} (h : Dict.keys m = Dict.keys l) :
    ((l.zip m).map fun p => (p.1.1, p.1.2, p.2.2)).map (fun p => (p.1, p.2.1)) = l ∧
      ((l.zip m).map fun p => (p.1.1, p.1.2, p.2.2)).map (fun p => (p.1, p.2.2)) = m := by
  induction l generalizing m with
  | nil =>
    cases m with
    | nil => simp
    | cons x y => simp at h
  | cons x y ih =>
    cases m with
    | nil => simp at h
    | cons x' y' =>
      simp only [Dict.keys_cons, List.cons.injEq] at h
      obtain ⟨h1, h2⟩ := ih h.2
      simp only [List.zip_cons_cons, List.map_cons, h1, h2, true_and]
      rw [← h.1]

theorem fits_of_agree {ps : List (String × Arr K)} (h : ∃ (S : String → ℕ) (C : String → List K), ∀ p ∈ ps,
    (∀ d ∈ p.2.dims, d.2 = S d.1) ∧ ∀ c ∈ p.2.coords, c.2 = C c.1) : ∀ p ∈ ps, ∀ q ∈ ps, Fits p.2 q.2 := by
  obtain ⟨S, C, h⟩ := h
  intro p hp q hq
  refine ⟨?_, ?_⟩
  · intro d n m h1 h2
    exact ((h p hp).1 _ h1).trans ((h q hq).1 _ h2).symm
  · intro d n m h1 h2
    exact ((h p hp).2 _ h1).trans ((h q hq).2 _ h2).symm

/-- **C69** (expressions): an expression based series is read as it was written: with the same expression, parameters, units and
the same dimension for every variable. It is never rejected by the tests of the constructor. -/
theorem C69_expression [Inhabited K] [DecidableEq K] [DecidableEq D] {one : U} {dim : U → D} {nat : ℕ → K}
    {unitOf : Expr K → List (String × U) → Except InitErr U} {s : ExprSeries K U} (hs : s.Valid unitOf) :
    ∃ s', s.toTree.fromTree one dim nat unitOf = .ok s' ∧ s'.me = s.me ∧ s'.paramUnits = s.paramUnits ∧
      s'.varUnits = s.varUnits ∧ s'.units = s.units ∧ ∀ v, Dict.get? s'.dims v = Dict.get? s.dims v := by
  have hσ : ∀ v ∈ Dict.keys s.dims, Dict.get? s.dims v = some (dimOf s.dims v) := by
    intro v hv
    obtain ⟨d, hd⟩ := Dict.get?_isSome.2 hv
    simp [dimOf, hd]
  obtain ⟨z1, z2⟩ := zip_fst hs.paramUnits
  -- what is read
  have hunits : (s.toTree.freeDimensions.map fun e => (e.2.symbol.getD e.1, e.2.units)) = s.varUnits := by
    rw [freeDims_eq hs, List.map_map]
    conv_rhs => rw [← List.map_id s.varUnits]
    refine List.map_congr_left fun v _ => ?_
    simp only [Function.comp_apply, id]
    by_cases h : dimOf s.dims v.1 = v.1 <;> simp [h]
  set M : List (String × String) := s.toTree.freeDimensions.filterMap fun e => e.2.symbol.map fun x => (x, e.1) with hM
  have hMmem : ∀ v d, (v, d) ∈ M ↔ v ∈ Dict.keys s.varUnits ∧ d = dimOf s.dims v ∧ d ≠ v := by
    intro v d
    rw [hM, freeDims_eq hs]
    simp only [List.mem_filterMap, List.mem_map, exists_exists_and_eq_and, Option.map_eq_some_iff, Prod.mk.injEq]
    constructor
    · rintro ⟨x, hx, y, hy, rfl, rfl⟩
      split at hy
      · rename_i h
        cases hy
        exact ⟨Dict.mem_keys_of_mem hx, rfl, h⟩
      · cases hy
    · rintro ⟨hv, rfl, h⟩
      obtain ⟨u, hu⟩ := Dict.mem_keys_iff.1 hv
      exact ⟨(v, u), hu, v, by simp [h], rfl, rfl⟩
  have hMn : (Dict.keys M).Nodup := by
    have hsub : (Dict.keys M).Sublist (Dict.keys s.varUnits) := by
      rw [hM, freeDims_eq hs, List.filterMap_map]
      generalize s.varUnits = l
      induction l with
      | nil => simp
      | cons v t ih =>
        rw [List.filterMap_cons]
        simp only [Function.comp_apply]
        by_cases h : dimOf s.dims v.1 = v.1
        · simp only [h, ne_eq, not_true, if_false, Option.map_none, Dict.keys_cons]
          exact ih.cons _
        · simp only [ne_eq, h, not_false_iff, if_true, Option.map_some, Dict.keys_cons]
          exact ih.cons_cons _
    exact hsub.nodup hs.units_nodup
  have hread : s.toTree.freeDimensions.foldl readFreeDim ([], []) = (M, s.varUnits) := by
    rw [foldl_readFreeDim, hunits, ← hM, update_nil hMn, update_nil hs.units_nodup]
  have hdim : ∀ v ∈ Dict.keys s.dims, dimOf M v = dimOf s.dims v := by
    intro v hv
    have hv' := (hs.vars v).2 hv
    by_cases h : dimOf s.dims v = v
    · have : Dict.get? M v = none := by
        rw [Dict.get?_eq_none]
        intro hm
        obtain ⟨d, hd⟩ := Dict.mem_keys_iff.1 hm
        obtain ⟨_, rfl, hne⟩ := (hMmem v d).1 hd
        exact hne h
      rw [h]
      simp [dimOf, this]
    · have : Dict.get? M v = some (dimOf s.dims v) := Dict.get?_of_mem hMn ((hMmem v _).2 ⟨hv', rfl, h⟩)
      conv_lhs => rw [dimOf, this]
      rfl
  -- the constructor
  set ps := (s.me.params.zip s.paramUnits).map fun p => (p.1.1, p.1.2, p.2.2) with hps
  have hkey : ∀ p ∈ ps, p.1 ∈ s.me.expr.free := by
    intro p hp
    have : p.1 ∈ Dict.keys s.me.params := by
      rw [← z1]
      exact Dict.mem_keys_of_mem (List.mem_map.2 ⟨p, hp, rfl⟩)
    exact hs.series.params_free _ this
  have hfmt := formatParams_arrays hkey
  have hvars : ∀ v, v ∈ Dict.keys s.varUnits ↔ v ∈ s.me.variableNames := fun v =>
    (hs.vars v).trans (hs.series.vars v)
  have hset : Setup s.me s.varUnits :=
    ⟨hs.series.params_nodup, hs.series.params_free, hs.wf, hs.units_nodup, hvars⟩
  have hupd : updatedUnits one s.me.variableNames (Dict.keys s.me.params) (Cls.generic : Cls K U).reqDimUnits s.varUnits =
      .ok s.varUnits := by
    simp only [updatedUnits, Cls.generic, addRequired]
    rw [if_pos (fun k hk => (hvars k).1 hk)]
    have : s.me.variableNames.filter (· ∉ Dict.keys s.varUnits) = [] := by
      rw [List.filter_eq_nil_iff]
      intro v hv
      simpa using (hvars v).2 hv
    rw [this]
    simp
  have hcons : Consistent s.me (dimOf s.dims) := by
    refine ⟨?_, ?_, fits_of_agree hs.series.agree⟩
    · intro v hv w hw h
      have h1 := Dict.mem_of_get? (hσ v ((hs.series.vars v).2 hv))
      have h2 := Dict.mem_of_get? (hσ w ((hs.series.vars w).2 hw))
      rw [← h] at h2
      exact (symbolOf_eq hs.series.dims_nodup h1).symm.trans (symbolOf_eq hs.series.dims_nodup h2)
    · intro v hv p hp
      have h1 := Dict.mem_of_get? (hσ v ((hs.series.vars v).2 hv))
      exact (hs.series.own p hp _ (List.mem_map.2 ⟨_, h1, rfl⟩)).1
  have hdim' : ∀ v ∈ s.me.variableNames, dimOf s.dims v = dimOf (updatedDims s.me.variableNames M) v := by
    intro v hv
    rw [dimOf_updatedDims (vars_nodup _) hv, hdim v ((hs.series.vars v).2 hv)]
  have htest := (C68_test (nat := nat) (unitOf := unitOf) (pu := s.paramUnits) hset).2
    ⟨consistent_congr hdim' hcons, hs.units⟩
  have hnum : s.me.numVariables ≠ 0 := by
    have := series_num hs.series
    have hl : 0 < s.dims.length := List.length_pos_iff.2 hs.free
    unfold ME.numVariables
    omega
  have hnd : ((updatedDims s.me.variableNames M).map Prod.snd).Nodup := by
    rw [updatedDims_spec.2]
    refine List.Nodup.map_on ?_ (vars_nodup _)
    intro v hv w hw h
    rw [hdim v ((hs.series.vars v).2 hv), hdim w ((hs.series.vars w).2 hw)] at h
    exact hcons.distinct v hv w hw h
  refine ⟨⟨s.me, s.paramUnits, updatedDims s.me.variableNames M, s.varUnits, s.units⟩, ?_, rfl, rfl, rfl, rfl, ?_⟩
  · unfold SeriesTree.fromTree
    have hex : s.toTree.expression = s.me.expr := rfl
    have hpar : s.toTree.parameters = ps := rfl
    have heta : (⟨s.me.expr, s.me.params⟩ : ME K) = s.me := rfl
    simp only [hread, hex, hpar]
    unfold initExpr
    simp only [hfmt, z1, heta, z2, hnum, if_false, hupd, htest, generic_check, hnd, if_true]
  · intro v
    simp only
    by_cases hv : v ∈ s.me.variableNames
    · have hv' := (hs.series.vars v).2 hv
      rw [hσ v hv', ← hdim v hv']
      exact Dict.get?_of_mem (by rw [updatedDims_spec.1]; exact vars_nodup _) (List.mem_map.2 ⟨v, hv, rfl⟩)
    · rw [Dict.get?_eq_none.2, Dict.get?_eq_none.2]
      · rwa [hs.series.vars]
      · rwa [updatedDims_spec.1]

/-- series made by the constructor are valid -/
theorem C69_constructed [Inhabited K] [DecidableEq K] [DecidableEq D] {c : Cls K U} {one : U} {dim : U → D} {nat : ℕ → K}
    {unitOf : Expr K → List (String × U) → Except InitErr U} {e : Expr K} {dims : List (String × String)}
    {params : List (String × Input K U)} {units : List (String × U)} {s : ExprSeries K U} (hp : (Dict.keys params).Nodup)
    (hw : ∀ p ∈ params, p.2.Wf) (hu : (Dict.keys units).Nodup)
    (h : initExpr c one dim nat unitOf e dims params units = .ok s) : s.Valid unitOf := by
  have hres := C68_result hp hw hu h
  unfold initExpr at h
  split at h
  · cases h
  · rename_i ps hps
    simp only at h
    split at h
    · cases h
    · rename_i hnum
      split at h
      · cases h
      · rename_i vu hvu
        split at h
        · cases h
        · split at h
          · cases h
          · split at h
            · cases h
              have hset := setup_of_init hp hw hu hps rfl hvu
              obtain ⟨_, _, hser, _, _, _, hv, hunit⟩ := hres
              refine ⟨hser, hset.wf, ?_, hset.units_nodup, hv, ?_, hunit⟩
              · simp [Dict.keys, List.map_map, Function.comp_def]
              · intro hnil
                have := series_num hser
                rw [hnil] at this
                simp only [List.length_nil] at this
                apply hnum
                unfold ME.numVariables
                simp only at this ⊢
                omega
            · cases h

/-- `a*x + b*y` with exchanged names of the dimensions: the constructor accepts it, so it is written and read as it is -/
example : ∃ s : ExprSeries Int Unit, initExpr (D := Unit) (Cls.generic : Cls Int Unit) () id (fun n => (n : Int)) (fun _ _ => .ok ())
    (.bin (· + ·) (.bin (· * ·) (.sym "a") (.sym "x")) (.sym "y")) [("x", "y"), ("y", "x")]
    [("a", .tuple ⟨[2], fun _ => 1⟩ "d" ())] [] = .ok s ∧ s.dims = [("x", "y"), ("y", "x")] ∧
    s.toTree.freeDimensions = [("y", ⟨(), some "x"⟩), ("x", ⟨(), some "y"⟩)] := ⟨_, rfl, rfl, rfl⟩

/-! ## Discrete series -/

variable {V A C : Type}

/-- **C69** (discrete): a discrete series with a unit whose coordinates all belong to a dimension of the same name is read with the
same values, dimensions and interpolation; coordinates without unit get the unit `U_("")`, and the name and the attributes of the
data array are lost. -/
theorem C69_discrete (one : U) (noAttrs : A) {s : DiscSeries V A K U} {u : U} (hu : s.units = some u)
    (hc : ∀ c ∈ s.coords, c.2.dims = [c.1] ∧ c.1 ∈ s.dims) :
    s.toTree.fromTree one noAttrs = .ok { s with
      coords := s.coords.map fun c => (c.1, { c.2 with
        units := some (c.2.units.getD one) })
      attrs := noAttrs } := by
  unfold DiscTree.fromTree DiscSeries.toTree
  simp only [hu]
  rw [if_pos]
  · congr 2
    rw [List.map_map]
    refine List.map_congr_left fun c h => ?_
    simp only [Function.comp_apply]
    rw [(hc c h).1]
  · intro c h
    obtain ⟨c', h', rfl⟩ := List.mem_map.1 h
    exact (hc c' h').2

/-- **C69** (discrete, exactly): the data of a discrete series is read as it was written exactly if it has a unit, and every
coordinate is the coordinate of a dimension and has a unit. (Coordinates use only dimensions of the array, and a coordinate with
the name of a dimension has this dimension: this is the invariant of xarray.) -/
theorem C69_discrete_iff (one : U) (noAttrs : A) {s : DiscSeries V A K U}
    (hx : ∀ c ∈ s.coords, (∀ d ∈ c.2.dims, d ∈ s.dims) ∧ (c.1 ∈ s.dims → c.2.dims = [c.1])) :
    s.toTree.fromTree one noAttrs = .ok { s with attrs := noAttrs } ↔
      s.units ≠ none ∧ ∀ c ∈ s.coords, c.2.dims = [c.1] ∧ c.2.units ≠ none := by
  constructor
  · intro h
    have hk := h
    unfold DiscTree.fromTree DiscSeries.toTree at h
    simp only at h
    split at h
    · cases h
    · rename_i u hu
      split at h
      · rename_i hd
        refine ⟨by simp [hu], ?_⟩
        intro c hc
        have hmem : c.1 ∈ s.dims := hd (c.1, c.2.vals, c.2.units) (List.mem_map.2 ⟨c, hc, rfl⟩)
        have hdims := (hx c hc).2 hmem
        refine ⟨hdims, ?_⟩
        rw [C69_discrete one noAttrs hu (fun c hc => ⟨(hx c hc).2 (hd (c.1, c.2.vals, c.2.units) (List.mem_map.2 ⟨c, hc, rfl⟩)),
          hd (c.1, c.2.vals, c.2.units) (List.mem_map.2 ⟨c, hc, rfl⟩)⟩)] at hk
        have hcs : (s.coords.map fun c => (c.1, { c.2 with
            units := some (c.2.units.getD one) })) = s.coords := by
          have := Except.ok.inj hk
          exact congrArg DiscSeries.coords this
        have hid : s.coords.map (fun c => (c.1, { c.2 with
            units := some (c.2.units.getD one) })) = s.coords.map id := by rw [hcs, List.map_id]
        have := (List.map_inj_left.1 hid) c hc
        have h2 : (some (c.2.units.getD one)) = c.2.units := congrArg (fun x => x.2.units) this
        rw [← h2]
        simp
      · cases h
  · rintro ⟨hu, hc⟩
    obtain ⟨u, hu⟩ := Option.ne_none_iff_exists'.1 hu
    rw [C69_discrete one noAttrs hu]
    · congr 2
      conv_rhs => rw [← List.map_id s.coords]
      refine List.map_congr_left fun c h => ?_
      obtain ⟨w, hw⟩ := Option.ne_none_iff_exists'.1 (hc c h).2
      obtain ⟨k, d, v, o⟩ := c
      simp only at hw
      subst hw
      rfl
    · intro c h
      refine ⟨(hc c h).1, (hx c h).1 c.1 ?_⟩
      rw [(hc c h).1]
      simp

/-- **C69** (refuted): a discrete series without unit, which the constructor accepts, is written but can not be read; the same holds
for one with a coordinate that is not that of a dimension -/
theorem C69_discrete_unreadable (one : U) (noAttrs : A) (s : DiscSeries V A K U) :
    (s.units = none → s.toTree.fromTree one noAttrs = .error .typeError) ∧
      ∀ u, s.units = some u → (∃ c ∈ s.coords, c.1 ∉ s.dims) → s.toTree.fromTree one noAttrs = .error .valueError := by
  constructor
  · intro h
    simp [DiscTree.fromTree, DiscSeries.toTree, h]
  · rintro u h ⟨c, hc, hn⟩
    unfold DiscTree.fromTree DiscSeries.toTree
    simp only [h]
    rw [if_neg]
    intro hall
    exact hn (hall (c.1, c.2.vals, c.2.units) (List.mem_map.2 ⟨c, hc, rfl⟩))

/-- `GenericSeries(Q_([10, 20], "V"), dims=["t"], coords={"t": Q_([0, 5], "s")})` meets the hypotheses -/
example : (DiscSeries.mk ["t"] [10, 20] (some "V") [("t", ⟨["t"], [0, 5], some "s"⟩)] () "linear" :
    DiscSeries (List Int) Unit Int String).toTree.fromTree "" () =
      .ok (DiscSeries.mk ["t"] [10, 20] (some "V") [("t", ⟨["t"], [0, 5], some "s"⟩)] () "linear") := rfl

/-! ## Mathematical expressions -/

/-- the values of quantities are not changed by saving -/
theorem saveStore_value (σ : Store V) (ps : List (String × MParam C)) (i : ℕ) : (saveStore σ ps i).1 = (σ i).1 := by
  induction ps generalizing σ with
  | nil => rfl
  | cons p t ih =>
    obtain ⟨k, p⟩ := p
    cases p with
    | plain q => exact ih σ
    | array q ds c =>
      simp only [saveStore]
      rw [ih]
      split <;> rfl

theorem saveStore_other (σ : Store V) (ps : List (String × MParam C)) (i : ℕ)
    (h : ∀ k q ds c, (k, MParam.array q ds c) ∈ ps → q ≠ i) : saveStore σ ps i = σ i := by
  induction ps generalizing σ with
  | nil => rfl
  | cons p t ih =>
    obtain ⟨k, p⟩ := p
    have ht : ∀ k q ds c, (k, MParam.array q ds c) ∈ t → q ≠ i := fun k q ds c hm => h k q ds c (List.mem_cons_of_mem _ hm)
    cases p with
    | plain q => exact ih σ ht
    | array q ds c =>
      simp only [saveStore]
      rw [ih _ ht, if_neg]
      intro e
      exact h k q ds c (by simp) e.symm

theorem saveStore_array (σ : Store V) (ps : List (String × MParam C)) (i : ℕ)
    (h : ∃ k ds c, (k, MParam.array i ds c) ∈ ps) :
    ∃ k ds c, (k, MParam.array i ds c) ∈ ps ∧ (saveStore σ ps i).2 = some (.dims ds) := by
  induction ps generalizing σ with
  | nil => simp at h
  | cons p t ih =>
    by_cases ht : ∃ k ds c, (k, MParam.array i ds c) ∈ t
    · obtain ⟨k, p⟩ := p
      cases p with
      | plain q =>
        obtain ⟨k', ds, c, hm, he⟩ := ih σ ht
        exact ⟨k', ds, c, List.mem_cons_of_mem _ hm, he⟩
      | array q ds' c' =>
        simp only [saveStore]
        obtain ⟨k', ds, c, hm, he⟩ := ih _ ht
        exact ⟨k', ds, c, List.mem_cons_of_mem _ hm, he⟩
    · obtain ⟨k, ds, c, hm⟩ := h
      rcases List.mem_cons.1 hm with rfl | hm
      · refine ⟨k, ds, c, by simp, ?_⟩
        simp only [saveStore]
        rw [saveStore_other]
        · simp
        · rintro k' q ds' c' hm' rfl
          exact ht ⟨k', ds', c', hm'⟩
      · exact absurd ⟨k, ds, c, hm⟩ ht

/-- what should be read for a parameter; coordinates are always dropped -/
def MParam.expected (σ : Store V) : MParam C → RParam V
  | .plain q => .plain (σ q).1
  | .array q ds _ => .array (σ q).1 ds

theorem readTree_iff {ndim : V → ℕ} {l : List (String × V × Option Info)} {r : List (String × RParam V)} :
    readTree ndim l = .ok r ↔ List.Forall₂ (fun e p => p.1 = e.1 ∧ readParam ndim e.2 = .ok p.2) l r := by
  induction l generalizing r with
  | nil =>
    simp only [readTree, Except.ok.injEq, List.forall₂_nil_left_iff]
    exact eq_comm
  | cons e t ih =>
    obtain ⟨k, e⟩ := e
    simp only [readTree]
    constructor
    · intro h
      split at h
      · cases h
      · rename_i p hp
        split at h
        · cases h
        · rename_i r' hr
          cases h
          exact .cons ⟨rfl, hp⟩ (ih.1 hr)
    · intro h
      cases h with
      | @cons _ p _ t' hp ht =>
        obtain ⟨p1, p2⟩ := p
        simp only at hp
        rw [hp.2, ih.2 ht, hp.1]

/-- **C69** (mathematical expressions): parameters are read as they were written, without the coordinates of arrays, exactly if
quantities without dimensions have no metadata and are not the data of an array parameter, and arrays that share their data also
share the names of their dimensions. -/
theorem C69_math {ndim : V → ℕ} {σ : Store V} {ps : List (String × MParam C)}
    (hn : ∀ k q ds c, (k, MParam.array q ds c) ∈ ps → ds.length = ndim (σ q).1) :
    readTree ndim (saveTree σ ps) = .ok (ps.map fun p => (p.1, p.2.expected σ)) ↔
      (∀ k q, (k, MParam.plain q) ∈ ps → (σ q).2 = none ∧ ∀ k' q' ds c, (k', MParam.array q' ds c) ∈ ps → q' ≠ q) ∧
      ∀ k k' q ds ds' c c', (k, MParam.array q ds c) ∈ ps → (k', MParam.array q ds' c') ∈ ps → ds = ds' := by
  rw [readTree_iff]
  unfold saveTree
  rw [List.forall₂_map_left_iff, List.forall₂_map_right_iff, List.forall₂_same]
  simp only [true_and, saveStore_value]
  constructor
  · intro h
    refine ⟨?_, ?_⟩
    · intro k q hm
      have := h _ hm
      simp only [MParam.ref, MParam.expected] at this
      have hno : ∀ k' q' ds c, (k', MParam.array q' ds c) ∈ ps → q' ≠ q := by
        rintro k' q' ds c hm' rfl
        obtain ⟨_, ds', _, _, he⟩ := saveStore_array σ ps q' ⟨k', ds, c, hm'⟩
        rw [he] at this
        simp only [readParam] at this
        split at this <;> cases this
      refine ⟨?_, hno⟩
      rw [saveStore_other σ ps q hno] at this
      cases ho : (σ q).2 with
      | none => rfl
      | some i =>
        rw [ho] at this
        cases i with
        | dims ds =>
          simp only [readParam] at this
          split at this <;> cases this
        | other => simp [readParam] at this
    · have key : ∀ k q ds c, (k, MParam.array q ds c) ∈ ps → (saveStore σ ps q).2 = some (.dims ds) := by
        intro k q ds c hm
        have := h _ hm
        simp only [MParam.ref, MParam.expected] at this
        obtain ⟨_, ds', _, _, he⟩ := saveStore_array σ ps q ⟨k, ds, c, hm⟩
        rw [he] at this
        simp only [readParam] at this
        split at this
        · cases this
          exact he
        · cases this
      intro k k' q ds ds' c c' h1 h2
      have := (key k q ds c h1).symm.trans (key k' q ds' c' h2)
      cases this
      rfl
  · rintro ⟨hp, ha⟩ ⟨k, p⟩ hm
    cases p with
    | plain q =>
      obtain ⟨h1, h2⟩ := hp k q hm
      simp only [MParam.ref, MParam.expected, saveStore_other σ ps q h2, h1, readParam]
    | array q ds c =>
      obtain ⟨k', ds', c', hm', he⟩ := saveStore_array σ ps q ⟨k, ds, c, hm⟩
      have := ha k k' q ds ds' c c' hm hm'
      subst this
      simp only [MParam.ref, MParam.expected, he, readParam, if_pos (hn k q ds c hm)]

/-- **C69** (side effect): saving sets the metadata of the quantities of all array parameters, replaces what the user has stored
there, and does not remove it. Other quantities are not changed. -/
theorem C69_math_side_effect (σ : Store V) (ps : List (String × MParam C)) (i : ℕ) :
    (saveStore σ ps i).1 = (σ i).1 ∧
      ((∃ k ds c, (k, MParam.array i ds c) ∈ ps) → ∃ ds, (saveStore σ ps i).2 = some (.dims ds)) ∧
      ((¬ ∃ k ds c, (k, MParam.array i ds c) ∈ ps) → (saveStore σ ps i).2 = (σ i).2) := by
  refine ⟨saveStore_value σ ps i, ?_, ?_⟩
  · intro h
    obtain ⟨_, ds, _, _, he⟩ := saveStore_array σ ps i h
    exact ⟨ds, he⟩
  · intro h
    rw [saveStore_other]
    rintro k q ds c hm rfl
    exact h ⟨k, ds, c, hm⟩

/-- **C69** (refuted): after an expression with the array parameter `(q, ds)` was saved, every expression with the parameter `q`
is read with an array instead of the quantity -/
theorem C69_math_leak {ndim : V → ℕ} {σ : Store V} {k k' : String} {q : ℕ} {ds : List String} {c : C}
    (h : ds.length = ndim (σ q).1) :
    readTree ndim (saveTree (saveStore σ [(k, MParam.array q ds c)]) [(k', (MParam.plain q : MParam C))]) =
      .ok [(k', .array (σ q).1 ds)] := by
  simp [saveTree, saveStore, MParam.ref, readTree, readParam, h]

/-- **C69** (refuted): two parameters that share a quantity are both read with the dimension of the last one -/
theorem C69_math_shared {ndim : V → ℕ} {σ : Store V} {k k' : String} {q : ℕ} {d d' : String} {c c' : C} (h : 1 = ndim (σ q).1) :
    readTree ndim (saveTree σ [(k, MParam.array q [d] c), (k', MParam.array q [d'] c')]) =
      .ok [(k, .array (σ q).1 [d']), (k', .array (σ q).1 [d'])] := by
  simp [saveTree, saveStore, MParam.ref, readTree, readParam, ← h]

/-- **C69** (refuted): an expression with a quantity that has metadata of the user can not be read -/
theorem C69_math_user {ndim : V → ℕ} {σ : Store V} {k : String} {q : ℕ} (h : (σ q).2 = some .other) :
    readTree ndim (saveTree σ [(k, (MParam.plain q : MParam C))]) = .error .keyError := by
  simp [saveTree, saveStore, MParam.ref, readTree, readParam, h]

/-- two arrays with their own data and a number: the hypotheses and the criterion of C69_math hold -/
example : readTree (fun l : List Int × ℕ => l.2)
    (saveTree (fun i => if i = 0 then (([1, 2], 1), none) else if i = 1 then (([3], 1), some .other) else (([4], 0), none))
      [("a", MParam.array 0 ["x"] ()), ("b", MParam.array 1 ["y"] ()), ("c", MParam.plain 2)]) =
    .ok [("a", .array ([1, 2], 1) ["x"]), ("b", .array ([3], 1) ["y"]), ("c", .plain ([4], 0))] := by decide

end Weldx.Me
