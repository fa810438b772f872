import Verif.MathExpr.Units
import Verif.Series.Discrete

/-!
# Series with units (C104)

Source: `/repo/weldx/core/time_series.py` 183-224 (`_init_expression`), 240-250 (`_interp_time_expression`), 373-389 (`interp_time`);
`/repo/weldx/time.py` 432-457 (`as_quantity`); `/repo/weldx/core/generic_series.py` 299-356 (`_init_get_updated_units`,
`_init_expression`), 358-405 (`_test_expr`), 465-543 (`evaluate`); `/repo/weldx/util/xarray.py` 278-395 (`xr_interp_like`).

Simplifications: those of `Verif/MathExpr/Units.lean` and, for discrete values, of `Verif/Series/Discrete.lean`; the times are given as
time deltas (`Verif/TimeSeries/Model.lean` has reference times); the coordinates of discrete values have units (without the attribute
nothing is converted); only evaluations with values for all variables
(`Verif/MathExpr/UnitsGeneric.lean` has stepwise evaluations).
-/

namespace Weldx.Pint

variable {ι : Type}

/-! ### model: time series -/

/-- the kinds of exceptions of the constructors -/
inductive SErr
  | weldx | keyError | indexError | pint (e : Err)
deriving DecidableEq

/-- `TimeSeries` with an expression: the attributes `_data`, `_time_var_name` and `_units` -/
structure TimeExpr (ι : Type) where
  me : ME ι
  var : String
  units : Unit ι

/-- nanoseconds -/
noncomputable def nano (sec : Unit ι) : Unit ι := ⟨sec.factor / 10 ^ 9, sec.dim⟩

/-- `Time.as_quantity`, `time.py` 450-453 -/
noncomputable def asQuantity (sec tu : Unit ι) (t : Int) : Except Err (Q ι) := Q.convert ⟨t, nano sec⟩ tu

/-- the value at one time, `time_series.py` 240-250; a number has no method `assign_coords` -/
noncomputable def valueAt (sec : Unit ι) (me : ME ι) (var : String) (tu : Unit ι) (t : Int) : Except Err (Q ι) :=
  match asQuantity sec tu t with
  | .error x => .error x
  | .ok q => match me.evaluate [(var, .quantity q)] with
    | .error x => .error x
    | .ok (.num _) => .error .typeError
    | .ok (.qty r) => .ok r

/-- `_interp_time_expression` at several times -/
noncomputable def interpTimes (sec : Unit ι) (me : ME ι) (var : String) (tu : Unit ι) : List Int → Except Err (List (Q ι))
  | [] => .ok []
  | t :: l => match valueAt sec me var tu t with
    | .error x => .error x
    | .ok q => match interpTimes sec me var tu l with
      | .error x => .error x
      | .ok r => .ok (q :: r)

/-- the checks with arrays, `time_series.py` 212-224: any exception is replaced -/
noncomputable def arrayChecks (sec : Unit ι) (me : ME ι) (var : String) : Except SErr _root_.Unit :=
  match interpTimes sec me var sec [10 ^ 9, 2 * 10 ^ 9] with
  | .error _ => .error .weldx
  | .ok _ => match interpTimes sec me var sec [10 ^ 9, 2 * 10 ^ 9, 3 * 10 ^ 9] with
    | .error _ => .error .weldx
    | .ok _ => .ok ()

/-- `_init_expression`, `time_series.py` 183-224 -/
noncomputable def createTime (sec : Unit ι) (me : ME ι) : Except SErr (TimeExpr ι) :=
  if me.numVariables ≠ 1 then .error .weldx
  else match me.variableNames with
    | [] => .error .indexError
    | v :: _ => match me.evaluate [(v, .quantity ⟨1, sec⟩)] with
      | .error .dimensionality => .error .weldx
      | .error x => .error (.pint x)
      | .ok (.num _) => .error (.pint .typeError)
      | .ok (.qty q) => match arrayChecks sec me v with
        | .error x => .error x
        | .ok _ => .ok ⟨me, v, q.unit⟩

/-- `interp_time`, `time_series.py` 373-389, of an expression -/
noncomputable def TimeExpr.interp (sec : Unit ι) (s : TimeExpr ι) (times : List Int) (tu : Unit ι) : Except Err (List (Q ι)) :=
  interpTimes sec s.me s.var tu times

/-! ### model: generic series -/

/-- `GenericSeries` with an expression: the attributes `_obj`, `_variable_units` and `_units` -/
structure SeriesExpr (ι : Type) where
  me : ME ι
  variableUnits : List (String × Unit ι)
  units : Unit ι

/-- `_init_get_updated_units`, `generic_series.py` 299-321: variables without unit are numbers -/
def updatedUnits (me : ME ι) (units : List (String × Unit ι)) : List (String × Unit ι) :=
  units ++ (me.variableNames.filter (· ∉ Dict.keys units)).map fun v => (v, .one)

/-- `_init_expression`, `generic_series.py` 323-356, and `_test_expr`, 358-405. `reduce` is the unit of `to_reduced_units`. -/
noncomputable def createSeries (reduce : Unit ι → Unit ι) (me : ME ι) (units : List (String × Unit ι)) : Except SErr (SeriesExpr ι) :=
  if me.numVariables = 0 then .error (.pint .valueError)
  else if ∃ k ∈ Dict.keys units, k ∉ me.variableNames then .error .keyError
  else match me.evaluate ((updatedUnits me units).map fun x => (x.1, .quantity ⟨1, x.2⟩)) with
    | .error x => .error (.pint x)
    | .ok (.num _) => .error (.pint .typeError)
    | .ok (.qty q) => .ok ⟨me, updatedUnits me units, reduce q.unit⟩

/-- `evaluate`, `generic_series.py` 465-521, with values for all variables -/
noncomputable def SeriesExpr.evaluate (s : SeriesExpr ι) (kw : List (String × Input ι)) : Except Err (Val ι) := s.me.evaluate kw

/-- `GenericSeries` with discrete values and the units of its coordinates -/
structure SeriesDisc (ι : Type) where
  series : Ds.Series
  coordUnit : String → Unit ι

/-- coordinates multiplied by a number for each dimension -/
noncomputable def scaleCoords (f : String → ℝ) (a : Ds.Arr) : Ds.Arr := ⟨a.dims.map fun x => (x.1, x.2.map (· * f x.1)), a.val⟩

/-- the units of the requested coordinates -/
def requestUnit (s : SeriesDisc ι) (kw : List (String × List ℝ × Unit ι)) (d : String) : Unit ι := match Dict.get? kw d with
  | some x => x.2
  | none => s.coordUnit d

/-- `_evaluate_array`, `generic_series.py` 535-543, and `xr_interp_like`, `xarray.py` 344-352: the coordinates are converted to the
requested units -/
noncomputable def SeriesDisc.evaluate (s : SeriesDisc ι) (kw : List (String × List ℝ × Unit ι)) : Except SErr (SeriesDisc ι) :=
  open Classical in
  if ∃ e ∈ kw, e.1 ∉ Dict.keys s.series.arr.dims then .error .keyError
  else if ∃ e ∈ kw, (s.coordUnit e.1).dim ≠ e.2.2.dim then .error (.pint .dimensionality)
  else
    let base := scaleCoords (fun d => (s.coordUnit d).factor / (requestUnit s kw d).factor) s.series.arr
    match Ds.evaluate ⟨base, s.series.method⟩ (kw.map fun e => (e.1, e.2.1)) with
    | .error _ => .error .keyError
    | .ok r => .ok ⟨r, requestUnit s kw⟩

/-! ### specification -/

/-- expressions as the constructor makes them -/
structure ME.WF (e : ME ι) : Prop where
  nodup : (Dict.keys e.params).Nodup
  known : ∀ s ∈ Dict.keys e.params, s ∈ e.expr.free
  positive : ∀ s q, Dict.get? e.params s = some q → 0 < q.unit.factor

/-- the array with coordinates in base units -/
noncomputable def SeriesDisc.si (s : SeriesDisc ι) : Ds.Arr := scaleCoords (fun d => (s.coordUnit d).factor) s.series.arr

/-! ### lemmas -/

theorem wf_set {e : ME ι} (h : e.WF) {k : String} {q : Q ι} (hk : k ∈ e.expr.free) (hq : 0 < q.unit.factor) :
    ME.WF ⟨e.expr, Dict.set e.params k q⟩ where
  nodup := Dict.nodup_keys_set h.nodup
  known := fun s hs => (Dict.mem_keys_set.1 hs).elim (h.known s) fun hs => hs ▸ hk
  positive := fun s p hp => by
    rw [Dict.get?_set] at hp
    split at hp
    · cases hp; exact hq
    · exact h.positive s p hp

theorem wf_setParameters {e : ME ι} (h : e.WF) {l : List (String × Input ι)} (hl : ∀ x ∈ l, 0 < x.2.toQ.unit.factor) :
    (e.setParameters l).1.WF := by
  induction l generalizing e with
  | nil => exact h
  | cons x t ih =>
    obtain ⟨k, v⟩ := x
    unfold ME.setParameters
    split
    · exact h
    · rename_i hk
      exact ih (wf_set h (by simpa using hk) (hl _ (List.mem_cons_self ..))) fun x hx => hl x (List.mem_cons_of_mem _ hx)

theorem num_variables {e : ME ι} (h : e.WF) : e.numVariables = e.variableNames.length := by
  have hp : (e.expr.free.filter (· ∈ Dict.keys e.params)).Perm (Dict.keys e.params) := by
    have hn : e.expr.free.Nodup := List.nodup_dedup _
    rw [List.perm_ext_iff_of_nodup (hn.filter _) h.nodup]
    intro s
    simp only [List.mem_filter, decide_eq_true_eq]
    exact ⟨fun x => x.2, fun x => ⟨h.known s x, x⟩⟩
  have := hp.length_eq
  have hk : (Dict.keys e.params).length = e.params.length := by simp [Dict.keys]
  have key := List.length_eq_length_filter_add (l := e.expr.free) (fun s => decide (s ∈ Dict.keys e.params))
  have h2 : e.variableNames = e.expr.free.filter fun s => !decide (s ∈ Dict.keys e.params) := by
    unfold ME.variableNames
    congr 1
    funext s
    simp
  unfold ME.numVariables
  rw [h2]
  omega

theorem mem_variableNames {e : ME ι} {s : String} : s ∈ e.variableNames ↔ s ∈ e.expr.syms ∧ s ∉ Dict.keys e.params := by
  simp [ME.variableNames, Ex.free]

theorem complete {e : ME ι} (h : e.WF) {kw : List (String × Input ι)} (hk : ∀ s, s ∈ Dict.keys kw ↔ s ∈ e.variableNames) :
    e.Complete kw := by
  have hkk : Dict.keys (kw.map fun x => (x.1, x.2.toQ)) = Dict.keys kw := by simp [Dict.keys, List.map_map, Function.comp_def]
  refine ⟨fun s hs => (mem_variableNames.1 ((hk s).1 hs)).2, fun s => ?_⟩
  unfold ME.args
  rw [Dict.keys_append, List.mem_append, hkk, hk, mem_variableNames]
  constructor
  · rintro (hs | hs)
    · exact hs.1
    · exact List.mem_dedup.1 (h.known s hs)
  · intro hs
    by_cases hp : s ∈ Dict.keys e.params
    · exact .inr hp
    · exact .inl ⟨hs, hp⟩

theorem get_toQ (kw : List (String × Input ι)) (s : String) : Dict.get? (kw.map fun x => (x.1, x.2.toQ)) s = (Dict.get? kw s).map Input.toQ := by
  induction kw with
  | nil => rfl
  | cons x l ih =>
    obtain ⟨k, v⟩ := x
    simp only [List.map_cons, Dict.get?]
    split
    · rfl
    · exact ih

theorem get_args (e : ME ι) (kw : List (String × Input ι)) (s : String) :
    Dict.get? (e.args kw) s = ((Dict.get? kw s).map Input.toQ).or (Dict.get? e.params s) := by
  unfold ME.args
  rw [Dict.get?_append, get_toQ]

theorem positive_args {e : ME ι} (h : e.WF) {kw : List (String × Input ι)} (hk : ∀ s v, Dict.get? kw s = some v → 0 < v.toQ.unit.factor) :
    Positive (e.args kw) := by
  intro s q hq
  rw [get_args] at hq
  cases hkw : Dict.get? kw s with
  | none => rw [hkw] at hq; exact h.positive s q hq
  | some v => rw [hkw] at hq; cases hq; exact hk s v hkw

/-- an evaluation of an expression with symbols gives a quantity -/
theorem evaluate_qty {e : ME ι} {kw : List (String × Input ι)} (h : e.Complete kw) (hp : Positive (e.args kw)) (hs : e.expr.syms ≠ [])
    {v : Val ι} (hv : e.evaluate kw = .ok v) : ∃ q, v = .qty q ∧ 0 < q.unit.factor := by
  rw [evaluate_eq h] at hv
  rcases eval_fine hp e.expr (fun s hs => (h.2 s).2 hs) with ⟨w, h1, h2⟩ | ⟨h1, h2⟩
  · rw [hv] at h1
    cases h1
    exact h2.qty hs
  · rw [hv] at h1; cases h1

/-! ### time series -/

/-- the dimensionalities of the symbols if the variables have the given ones -/
def dimsWith (e : ME ι) (δ : String → Dim ι) (s : String) : Dim ι := match Dict.get? e.params s with
  | some q => q.unit.dim
  | none => δ s

/-- the values of the symbols in base units if the variables have the given ones -/
noncomputable def valuesWith (e : ME ι) (ρ : String → ℝ) (s : String) : ℝ := match Dict.get? e.params s with
  | some q => q.si
  | none => ρ s

theorem dimOf_args {e : ME ι} {kw : List (String × Input ι)} (h : e.Complete kw) {s : String} (hs : s ∈ e.expr.syms) {δ : String → Dim ι}
    (hd : ∀ v, Dict.get? kw s = some v → v.toQ.unit.dim = δ s) : dimOf (e.args kw) s = dimsWith e δ s := by
  unfold dimOf dimsWith
  rw [get_args]
  cases hkw : Dict.get? kw s with
  | some v =>
    have : Dict.get? e.params s = none := Dict.get?_eq_none.2 (h.1 s (Dict.get?_isSome.1 ⟨v, hkw⟩))
    rw [this]
    exact hd v hkw
  | none =>
    obtain ⟨q, hq⟩ := Dict.get?_isSome.2 ((h.2 s).2 hs)
    rw [get_args, hkw] at hq
    simp only [Option.map_none, Option.none_or] at hq
    simp [hq]

theorem siOf_args {e : ME ι} {kw : List (String × Input ι)} (h : e.Complete kw) {s : String} (hs : s ∈ e.expr.syms) {ρ : String → ℝ}
    (hd : ∀ v, Dict.get? kw s = some v → v.toQ.si = ρ s) : siOf (e.args kw) s = valuesWith e ρ s := by
  unfold siOf valuesWith
  rw [get_args]
  cases hkw : Dict.get? kw s with
  | some v =>
    have : Dict.get? e.params s = none := Dict.get?_eq_none.2 (h.1 s (Dict.get?_isSome.1 ⟨v, hkw⟩))
    rw [this]
    exact hd v hkw
  | none =>
    obtain ⟨q, hq⟩ := Dict.get?_isSome.2 ((h.2 s).2 hs)
    rw [get_args, hkw] at hq
    simp only [Option.map_none, Option.none_or] at hq
    simp [hq]

theorem single_get {v s : String} {x w : Input ι} (h : Dict.get? [(v, x)] s = some w) : s = v ∧ w = x := by
  simp only [Dict.get?] at h
  split at h
  · rename_i he
    cases h
    exact ⟨he.symm, rfl⟩
  · cases h

/-- the evaluation of an expression with one variable at a quantity -/
theorem one_variable {e : ME ι} (h : e.WF) {v : String} (hv : e.variableNames = [v]) {q : Q ι} (hq : 0 < q.unit.factor) :
    (∀ d, e.expr.HasDim (dimsWith e fun _ => q.unit.dim) d → ∃ r, e.evaluate [(v, .quantity q)] = .ok (.qty r) ∧ r.unit.dim = d ∧
      r.si = e.expr.value (valuesWith e fun _ => q.si)) ∧
    ((¬ ∃ d, e.expr.HasDim (dimsWith e fun _ => q.unit.dim) d) → e.evaluate [(v, .quantity q)] = .error .dimensionality) := by
  have hc : e.Complete [(v, .quantity q)] := complete h (by simp [hv, Dict.keys])
  have hp : Positive (e.args [(v, .quantity q)]) := positive_args h fun s w hw => by
    rw [(single_get hw).2]; exact hq
  have hd : ∀ s ∈ e.expr.syms, dimOf (e.args [(v, .quantity q)]) s = dimsWith e (fun _ => q.unit.dim) s := fun s hs =>
    dimOf_args hc hs fun w hw => by rw [(single_get hw).2]; rfl
  have hs : ∀ s ∈ e.expr.syms, siOf (e.args [(v, .quantity q)]) s = valuesWith e (fun _ => q.si) s := fun s hs =>
    siOf_args hc hs fun w hw => by rw [(single_get hw).2]; rfl
  have hne : e.expr.syms ≠ [] := fun h0 => by
    have : v ∈ e.variableNames := by rw [hv]; simp
    rw [mem_variableNames, h0] at this
    simp at this
  constructor
  · intro d hd'
    have hd2 := hd'.congr fun s k => (hd s k).symm
    obtain ⟨w, hw⟩ := (C104_accepts hc hp).1.2 ⟨d, hd2⟩
    obtain ⟨r, rfl, _⟩ := evaluate_qty hc hp hne hw
    obtain ⟨v1, v2⟩ := C104_value hc hp hw
    refine ⟨r, hw, ((v2 d).1 hd2).symm, ?_⟩
    exact v1.trans (Ex.value_congr hs)
  · intro hn
    exact (C104_accepts hc hp).2 fun ⟨d, hd'⟩ => hn ⟨d, hd'.congr hd⟩

theorem asQuantity_ok {sec tu : Unit ι} (ht : tu.dim = sec.dim) (hf : 0 < tu.factor) (t : Int) :
    ∃ q, asQuantity sec tu t = .ok q ∧ q.unit = tu ∧ q.si = t * (sec.factor / 10 ^ 9) := by
  unfold asQuantity Q.convert
  rw [if_pos (show (nano sec).dim = tu.dim from ht.symm)]
  refine ⟨_, rfl, rfl, ?_⟩
  simp only [Q.si, nano]
  rw [div_mul_cancel₀ _ hf.ne']

/-- the values of a time series at all times -/
theorem interp_ok {sec tu : Unit ι} (ht : tu.dim = sec.dim) (hf : 0 < tu.factor) {e : ME ι} (h : e.WF) {v : String}
    (hv : e.variableNames = [v]) {d : Dim ι} (hd : e.expr.HasDim (dimsWith e fun _ => sec.dim) d) (times : List Int) :
    ∃ l, interpTimes sec e v tu times = .ok l ∧
      List.Forall₂ (fun (t : Int) (q : Q ι) => valueAt sec e v tu t = .ok q ∧ q.unit.dim = d ∧
        q.si = e.expr.value (valuesWith e fun _ => t * (sec.factor / 10 ^ 9))) times l := by
  induction times with
  | nil => exact ⟨[], rfl, .nil⟩
  | cons t l ih =>
    obtain ⟨r, h1, h2⟩ := ih
    obtain ⟨q, q1, q2, q3⟩ := asQuantity_ok ht hf t
    obtain ⟨w, w1, w2, w3⟩ := (one_variable h hv (q := q) (by rw [q2]; exact hf)).1 d (by rw [q2, ht]; exact hd)
    have : valueAt sec e v tu t = .ok w := by simp only [valueAt, q1, w1]
    refine ⟨w :: r, by simp only [interpTimes, this, h1], .cons ⟨this, w2, ?_⟩ h2⟩
    rw [w3, q3]

/-- **C104.** A time series can be created from an expression exactly if it has one variable and the dimensions fit if this variable is
a time; any other expression is a `WeldxException`. -/
theorem C104_time_series {sec : Unit ι} (hs : 0 < sec.factor) {e : ME ι} (h : e.WF) :
    ((∃ s, createTime sec e = .ok s) ↔ (∃ v, e.variableNames = [v]) ∧ ∃ d, e.expr.HasDim (dimsWith e fun _ => sec.dim) d) ∧
    ((¬ ∃ s, createTime sec e = .ok s) → createTime sec e = .error .weldx) := by
  by_cases h1 : e.numVariables ≠ 1
  · have hc : createTime sec e = .error .weldx := by unfold createTime; rw [if_pos h1]
    refine ⟨⟨fun ⟨s, hs⟩ => ?_, fun ⟨⟨v, hv⟩, _⟩ => absurd ?_ h1⟩, fun _ => hc⟩
    · rw [hc] at hs; cases hs
    · rw [num_variables h, hv]; rfl
  · push Not at h1
    have hl : e.variableNames.length = 1 := by
      have := num_variables h
      omega
    obtain ⟨v, hv⟩ := List.length_eq_one_iff.1 hl
    obtain ⟨o1, o2⟩ := one_variable h hv (q := ⟨1, sec⟩) hs
    by_cases hd : ∃ d, e.expr.HasDim (dimsWith e fun _ => sec.dim) d
    · obtain ⟨d, hd⟩ := hd
      obtain ⟨r, r1, r2, r3⟩ := o1 d hd
      obtain ⟨l1, k1, _⟩ := interp_ok (tu := sec) rfl hs h hv hd [10 ^ 9, 2 * 10 ^ 9]
      obtain ⟨l2, k2, _⟩ := interp_ok (tu := sec) rfl hs h hv hd [10 ^ 9, 2 * 10 ^ 9, 3 * 10 ^ 9]
      have hc : createTime sec e = .ok ⟨e, v, r.unit⟩ := by
        unfold createTime arrayChecks
        rw [if_neg (by simpa using h1)]
        simp only [hv, r1, k1, k2]
      exact ⟨⟨fun _ => ⟨⟨v, hv⟩, d, hd⟩, fun _ => ⟨_, hc⟩⟩, fun hn => absurd ⟨_, hc⟩ hn⟩
    · have hc : createTime sec e = .error .weldx := by
        unfold createTime
        rw [if_neg (by simpa using h1)]
        simp only [hv, o2 hd]
      refine ⟨⟨fun ⟨s, hs⟩ => ?_, fun hh => absurd hh.2 hd⟩, fun _ => hc⟩
      rw [hc] at hs; cases hs

/-- what the constructor stores -/
theorem createTime_spec {sec : Unit ι} (hs : 0 < sec.factor) {e : ME ι} (h : e.WF) {s : TimeExpr ι} (hc : createTime sec e = .ok s) :
    s.me = e ∧ e.variableNames = [s.var] ∧ e.expr.HasDim (dimsWith e fun _ => sec.dim) s.units.dim ∧
      ∃ r, e.evaluate [(s.var, .quantity ⟨1, sec⟩)] = .ok (.qty r) ∧ s.units = r.unit := by
  obtain ⟨⟨v, hv⟩, d, hd⟩ := (C104_time_series hs h).1.1 ⟨s, hc⟩
  obtain ⟨r, r1, r2, r3⟩ := (one_variable h hv (q := ⟨1, sec⟩) hs).1 d hd
  unfold createTime at hc
  split at hc
  · cases hc
  · simp only [hv, r1] at hc
    split at hc
    · cases hc
    · cases hc
      exact ⟨rfl, hv, r2.symm ▸ hd, r, r1, rfl⟩

/-- **C104.** A time series that was created from an expression has a value at all times, for every unit of time that is used for the
calculation. It is the value of the expression at this time in base units and has the dimensionality of `units`. All values have one
unit, and in seconds this is `units`. -/
theorem C104_time_series_value {sec : Unit ι} (hs : 0 < sec.factor) {e : ME ι} (h : e.WF) {s : TimeExpr ι} (hc : createTime sec e = .ok s)
    {tu : Unit ι} (ht : tu.dim = sec.dim) (hf : 0 < tu.factor) (times : List Int) :
    ∃ l u, s.interp sec times tu = .ok l ∧ u.dim = s.units.dim ∧ (tu = sec → u = s.units) ∧
      List.Forall₂ (fun (t : Int) (q : Q ι) => q.unit = u ∧ q.si = e.expr.value (valuesWith e fun _ => t * (sec.factor / 10 ^ 9))) times l := by
  obtain ⟨rfl, hv, hd, r, r1, r2⟩ := createTime_spec hs h hc
  obtain ⟨l, h1, h2⟩ := interp_ok ht hf h hv hd times
  obtain ⟨w, w1, w2, _⟩ := (one_variable h hv (q := ⟨1, tu⟩) hf).1 _ (show s.me.expr.HasDim (dimsWith s.me fun _ => tu.dim) _ from ht.symm ▸ hd)
  have hcm : ∀ q : Q ι, s.me.Complete [(s.var, .quantity q)] := fun q => complete h (by simp [hv, Dict.keys])
  refine ⟨l, w.unit, h1, w2, fun htu => ?_, h2.imp fun t q hq => ⟨?_, ?_⟩⟩
  · subst htu
    rw [r1] at w1
    cases w1
    exact r2.symm
  · obtain ⟨k1, k2, k3⟩ := hq
    obtain ⟨x, x1, x2, _⟩ := asQuantity_ok ht hf t
    simp only [valueAt, x1] at k1
    rcases C104_unit (hcm x) (hcm ⟨1, tu⟩) (fun s' => by
      rw [get_args, get_args]
      simp only [Dict.get?]
      split
      · simp [Input.toQ, x2]
      · rfl) with ⟨a, b, c1, c2, c3⟩ | ⟨y, c1, c2⟩
    · rw [w1] at c2
      cases c2
      rw [c1] at k1
      cases a with
      | num k => cases k1
      | qty a =>
        cases k1
        simpa [Val.unit?] using c3
    · rw [w1] at c2; cases c2
  · exact hq.2.2

/-! ### generic series -/

/-- the values that are used for the test of the constructor -/
def unitValues (us : List (String × Unit ι)) : List (String × Input ι) := us.map fun x => (x.1, .quantity ⟨1, x.2⟩)

theorem get_unitValues (us : List (String × Unit ι)) (x : String) :
    Dict.get? (unitValues us) x = (Dict.get? us x).map fun u => .quantity ⟨1, u⟩ := by
  unfold unitValues
  induction us with
  | nil => rfl
  | cons y l ih =>
    obtain ⟨k, v⟩ := y
    simp only [List.map_cons, Dict.get?]
    split
    · rfl
    · exact ih

theorem keys_updatedUnits {e : ME ι} {units : List (String × Unit ι)} (hk : ∀ k ∈ Dict.keys units, k ∈ e.variableNames) (x : String) :
    x ∈ Dict.keys (updatedUnits e units) ↔ x ∈ e.variableNames := by
  have : Dict.keys ((e.variableNames.filter (· ∉ Dict.keys units)).map fun v => (v, (Unit.one : Unit ι))) =
      e.variableNames.filter (· ∉ Dict.keys units) := by simp [Dict.keys, List.map_map, Function.comp_def]
  unfold updatedUnits
  rw [Dict.keys_append, List.mem_append, this, List.mem_filter]
  constructor
  · rintro (hx | hx)
    · exact hk x hx
    · exact hx.1
  · intro hx
    by_cases hm : x ∈ Dict.keys units
    · exact .inl hm
    · exact .inr ⟨hx, by simpa using hm⟩

theorem complete_units {e : ME ι} (h : e.WF) {units : List (String × Unit ι)} (hk : ∀ k ∈ Dict.keys units, k ∈ e.variableNames) :
    e.Complete (unitValues (updatedUnits e units)) := complete h fun x => by
  rw [← keys_updatedUnits hk]
  simp [unitValues, Dict.keys, List.map_map, Function.comp_def]

theorem positive_units {e : ME ι} (h : e.WF) {units : List (String × Unit ι)}
    (hu : ∀ s u, Dict.get? (updatedUnits e units) s = some u → 0 < u.factor) : Positive (e.args (unitValues (updatedUnits e units))) :=
  positive_args h fun x v hv => by
    rw [get_unitValues] at hv
    cases hg : Dict.get? (updatedUnits e units) x with
    | none => rw [hg] at hv; cases hv
    | some u => rw [hg] at hv; cases hv; exact hu x u hg

theorem syms_ne {e : ME ι} (h : e.WF) (h0 : e.numVariables ≠ 0) : e.expr.syms ≠ [] := fun h1 => by
  have : e.variableNames = [] := List.eq_nil_iff_forall_not_mem.2 fun x hx => by
    rw [mem_variableNames, h1] at hx
    simp at hx
  rw [num_variables h, this] at h0
  exact h0 rfl

/-- the dimensionalities of the variables: those of the given units, and numbers -/
def givenDim (units : List (String × Unit ι)) (s : String) : Dim ι := match Dict.get? units s with
  | some u => u.dim
  | none => 0

theorem dimOf_units {e : ME ι} (h : e.WF) {units : List (String × Unit ι)} (hk : ∀ k ∈ Dict.keys units, k ∈ e.variableNames) :
    ∀ s ∈ e.expr.syms, dimOf (e.args (unitValues (updatedUnits e units))) s = dimsWith e (givenDim units) s := by
  intro s hs
  refine dimOf_args (complete_units h hk) hs fun v hv => ?_
  rw [get_unitValues] at hv
  unfold updatedUnits at hv
  rw [Dict.get?_append] at hv
  unfold givenDim
  cases hg : Dict.get? units s with
  | some u => rw [hg] at hv; cases hv; rfl
  | none =>
    rw [hg] at hv
    simp only [Option.map_eq_some_iff] at hv
    obtain ⟨u, hu, rfl⟩ := hv
    have := Dict.mem_of_get? hu
    rw [List.mem_map] at this
    obtain ⟨_, _, hx⟩ := this
    cases hx
    rfl

/-- **C104.** A series can be created from an expression exactly if it has variables, all given units are those of variables, and the
dimensions fit with the given units (variables without unit are numbers). -/
theorem C104_series_create {reduce : Unit ι → Unit ι} {e : ME ι} (h : e.WF) {units : List (String × Unit ι)}
    (hu : ∀ s u, Dict.get? (updatedUnits e units) s = some u → 0 < u.factor) :
    ((∃ s, createSeries reduce e units = .ok s) ↔ e.variableNames ≠ [] ∧ (∀ k ∈ Dict.keys units, k ∈ e.variableNames) ∧
      ∃ d, e.expr.HasDim (dimsWith e (givenDim units)) d) ∧
    (∀ s, createSeries reduce e units = .ok s → s.me = e ∧ (∀ x u, Dict.get? units x = some u → Dict.get? s.variableUnits x = some u) ∧
      (∀ x, x ∈ Dict.keys s.variableUnits ↔ x ∈ e.variableNames) ∧
      ((∀ u, (reduce u).dim = u.dim) → e.expr.HasDim (dimsWith e (givenDim units)) s.units.dim)) := by
  by_cases h0 : e.numVariables = 0
  · have hc : createSeries reduce e units = .error (.pint .valueError) := by unfold createSeries; rw [if_pos h0]
    have hv : e.variableNames = [] := by
      have := num_variables h
      exact List.length_eq_zero_iff.1 (by omega)
    refine ⟨⟨fun ⟨s, hs⟩ => ?_, fun hh => absurd hv hh.1⟩, fun s hs => ?_⟩ <;> rw [hc] at hs <;> cases hs
  by_cases hk : ∃ k ∈ Dict.keys units, k ∉ e.variableNames
  · have hc : createSeries reduce e units = .error .keyError := by unfold createSeries; rw [if_neg h0, if_pos hk]
    refine ⟨⟨fun ⟨s, hs⟩ => ?_, fun hh => ?_⟩, fun s hs => ?_⟩
    · rw [hc] at hs; cases hs
    · obtain ⟨k, k1, k2⟩ := hk
      exact absurd (hh.2.1 k k1) k2
    · rw [hc] at hs; cases hs
  push Not at hk
  have hc1 := complete_units h hk
  have hp1 := positive_units h hu
  have hd := dimOf_units h hk
  have hne : e.variableNames ≠ [] := fun hn => h0 (by rw [num_variables h, hn]; rfl)
  have hcr : createSeries reduce e units = match e.evaluate (unitValues (updatedUnits e units)) with
      | .error x => .error (.pint x)
      | .ok (.num _) => .error (.pint .typeError)
      | .ok (.qty q) => .ok ⟨e, updatedUnits e units, reduce q.unit⟩ := by
    unfold createSeries
    rw [if_neg h0, if_neg (by push Not; exact hk)]
    rfl
  by_cases hdim : ∃ d, e.expr.HasDim (dimsWith e (givenDim units)) d
  · obtain ⟨d, hd'⟩ := hdim
    have hd2 := hd'.congr fun s hs => (hd s hs).symm
    obtain ⟨w, hw⟩ := (C104_accepts hc1 hp1).1.2 ⟨d, hd2⟩
    obtain ⟨r, rfl, _⟩ := evaluate_qty hc1 hp1 (syms_ne h h0) hw
    rw [hcr, hw]
    refine ⟨⟨fun _ => ⟨hne, hk, d, hd'⟩, fun _ => ⟨_, rfl⟩⟩, fun s hs => ?_⟩
    cases hs
    refine ⟨rfl, fun x u hx => ?_, keys_updatedUnits hk, fun hr => ?_⟩
    · show Dict.get? (updatedUnits e units) x = some u
      unfold updatedUnits
      rw [Dict.get?_append, hx]
      rfl
    · show e.expr.HasDim _ (reduce r.unit).dim
      have hrd : d = r.unit.dim := ((C104_value hc1 hp1 hw).2 d).1 hd2
      rw [hr, ← hrd]
      exact hd'
  · have he := (C104_accepts hc1 hp1).2 fun ⟨d, hd'⟩ => hdim ⟨d, hd'.congr hd⟩
    rw [hcr, he]
    exact ⟨⟨fun ⟨s, hs⟩ => (by cases hs), fun hh => absurd hh.2.2 hdim⟩, fun s hs => (by cases hs)⟩

/-- **C104.** A series that was created from an expression can be evaluated with values in all units of the right dimensionality; the
result is the value of the expression in base units and has the dimensionality of `units`. -/
theorem C104_series {reduce : Unit ι → Unit ι} (hr : ∀ u, (reduce u).dim = u.dim) {e : ME ι} (h : e.WF) {units : List (String × Unit ι)}
    (hu : ∀ s u, Dict.get? (updatedUnits e units) s = some u → 0 < u.factor) {s : SeriesExpr ι} (hc : createSeries reduce e units = .ok s)
    {kw : List (String × Input ι)} (hk : ∀ x, x ∈ Dict.keys kw ↔ x ∈ e.variableNames)
    (hp : ∀ x v, Dict.get? kw x = some v → 0 < v.toQ.unit.factor)
    (hd : ∀ x v, Dict.get? kw x = some v → v.toQ.unit.dim = givenDim units x) :
    ∃ q, s.evaluate kw = .ok (.qty q) ∧ q.unit.dim = s.units.dim ∧ q.si = e.expr.value (siOf (e.args kw)) := by
  obtain ⟨c1, c2⟩ := C104_series_create (reduce := reduce) h hu
  obtain ⟨rfl, _, _, h4⟩ := c2 s hc
  obtain ⟨n1, _, _⟩ := c1.1 ⟨s, hc⟩
  have hc2 : s.me.Complete kw := complete h hk
  have hp2 : Positive (s.me.args kw) := positive_args h hp
  have hd2 := (h4 hr).congr fun x hx => (dimOf_args hc2 hx fun v hv => hd x v hv).symm
  obtain ⟨w, hw⟩ := (C104_accepts hc2 hp2).1.2 ⟨_, hd2⟩
  have h0 : s.me.numVariables ≠ 0 := fun h0 => n1 (List.length_eq_zero_iff.1 (by have := num_variables h; omega))
  obtain ⟨r, rfl, _⟩ := evaluate_qty hc2 hp2 (syms_ne h h0) hw
  obtain ⟨w1, w2⟩ := C104_value hc2 hp2 hw
  exact ⟨r, hw, ((w2 _).1 hd2).symm, w1⟩

/-! ### discrete values -/

theorem below_scale {c : ℝ} (hc : 0 < c) (cs : List ℝ) (x : ℝ) : Ds.below (cs.map (· * c)) (x * c) = Ds.below cs x := by
  induction cs with
  | nil => rfl
  | cons a l ih =>
    rw [List.map_cons, Ds.below_cons, Ds.below_cons, ih]
    simp only [mul_le_mul_iff_left₀ hc]

theorem weights_scale {c : ℝ} (hc : 0 < c) (m : Ds.Method) (cs : List ℝ) (x : ℝ) :
    Ds.weights m (cs.map (· * c)) (x * c) = Ds.weights m cs x := by
  have hg : ∀ i, (cs.map (· * c)).getD i 0 = cs.getD i 0 * c := by
    intro i
    simp only [List.getD_eq_getElem?_getD, List.getElem?_map]
    cases cs[i]? <;> simp
  unfold Ds.weights
  simp only [below_scale hc, List.length_map, hg]
  cases m with
  | step => rfl
  | nearest =>
    have : (x * c - cs.getD (Ds.below cs x - 1) 0 * c ≤ cs.getD (Ds.below cs x) 0 * c - x * c) ↔
        (x - cs.getD (Ds.below cs x - 1) 0 ≤ cs.getD (Ds.below cs x) 0 - x) := by
      rw [← sub_mul, ← sub_mul, mul_le_mul_iff_left₀ hc]
    simp only [this]
  | linear =>
    have : (x * c - cs.getD (Ds.below cs x - 1) 0 * c) / (cs.getD (Ds.below cs x) 0 * c - cs.getD (Ds.below cs x - 1) 0 * c) =
        (x - cs.getD (Ds.below cs x - 1) 0) / (cs.getD (Ds.below cs x) 0 - cs.getD (Ds.below cs x - 1) 0) := by
      rw [← sub_mul, ← sub_mul, mul_div_mul_right _ _ hc.ne']
    simp only [this]

theorem get_scale (f : String → ℝ) (l : List (String × List ℝ)) (d : String) :
    Dict.get? (l.map fun x => (x.1, x.2.map (· * f x.1))) d = (Dict.get? l d).map fun cs => cs.map (· * f d) := by
  induction l with
  | nil => rfl
  | cons x t ih =>
    obtain ⟨k, v⟩ := x
    simp only [List.map_cons, Dict.get?]
    split
    · rename_i h; rw [h]; rfl
    · exact ih

theorem set_scale (f : String → ℝ) (l : List (String × List ℝ)) (d : String) (xs : List ℝ) :
    Dict.set (l.map fun x => (x.1, x.2.map (· * f x.1))) d (xs.map (· * f d)) = (Dict.set l d xs).map fun x => (x.1, x.2.map (· * f x.1)) := by
  induction l with
  | nil => rfl
  | cons x t ih =>
    obtain ⟨k, v⟩ := x
    simp only [List.map_cons, Dict.set]
    split
    · rename_i h; rw [h]; rfl
    · rw [ih]; rfl

theorem interp1_scale {f : String → ℝ} (hf : ∀ d, 0 < f d) (m : Ds.Method) (a : Ds.Arr) (d : String) (xs : List ℝ) :
    Ds.interp1 m (scaleCoords f a) d (xs.map (· * f d)) = scaleCoords f (Ds.interp1 m a d xs) := by
  unfold Ds.interp1
  simp only [scaleCoords, get_scale]
  cases Dict.get? a.dims d with
  | none => rfl
  | some cs =>
    simp only [Option.map_some, set_scale]
    congr 1
    funext ix
    have : (xs.map (· * f d)).getD (ix d) 0 = xs.getD (ix d) 0 * f d := by
      simp only [List.getD_eq_getElem?_getD, List.getElem?_map]
      cases xs[ix d]? <;> simp
    rw [this, weights_scale (hf d)]

theorem interp_scale {f : String → ℝ} (hf : ∀ d, 0 < f d) (m : Ds.Method) (a : Ds.Arr) (kw : List (String × List ℝ)) :
    Ds.interp m (scaleCoords f a) (kw.map fun x => (x.1, x.2.map (· * f x.1))) = scaleCoords f (Ds.interp m a kw) := by
  induction kw generalizing a with
  | nil => rfl
  | cons x t ih =>
    have h1 : Ds.interp m (scaleCoords f a) ((x :: t).map fun x => (x.1, x.2.map (· * f x.1))) =
        Ds.interp m (Ds.interp1 m (scaleCoords f a) x.1 (x.2.map (· * f x.1))) (t.map fun x => (x.1, x.2.map (· * f x.1))) := rfl
    rw [h1, interp1_scale hf, ih]
    rfl

theorem scale_scale (f g : String → ℝ) (a : Ds.Arr) : scaleCoords f (scaleCoords g a) = scaleCoords (fun d => g d * f d) a := by
  unfold scaleCoords
  simp only [List.map_map, Function.comp_def, mul_assoc]

/-- the requested coordinates in base units -/
noncomputable def siRequest (kw : List (String × List ℝ × Unit ι)) : List (String × List ℝ) :=
  kw.map fun e => (e.1, e.2.1.map (· * e.2.2.factor))

/-- **C104.** A series with discrete values can be evaluated at coordinates in all units of the right dimensionality: the result has the
requested units and is, in base units, the interpolation of the series in base units. Other units are a `DimensionalityError`, unknown
dimensions a `KeyError`. -/
theorem C104_discrete (s : SeriesDisc ι) (hs : ∀ d, 0 < (s.coordUnit d).factor) {kw : List (String × List ℝ × Unit ι)}
    (hn : (Dict.keys kw).Nodup) (hp : ∀ e ∈ kw, 0 < e.2.2.factor) :
    ((∃ e ∈ kw, e.1 ∉ Dict.keys s.series.arr.dims) → s.evaluate kw = .error .keyError) ∧
    ((∀ e ∈ kw, e.1 ∈ Dict.keys s.series.arr.dims) → (∃ e ∈ kw, (s.coordUnit e.1).dim ≠ e.2.2.dim) →
      s.evaluate kw = .error (.pint .dimensionality)) ∧
    ((∀ e ∈ kw, e.1 ∈ Dict.keys s.series.arr.dims) → (∀ e ∈ kw, (s.coordUnit e.1).dim = e.2.2.dim) →
      ∃ r, s.evaluate kw = .ok r ∧ r.si = Ds.interp s.series.method s.si (siRequest kw) ∧
        (∀ e ∈ kw, r.coordUnit e.1 = e.2.2) ∧ (∀ d, d ∉ Dict.keys kw → r.coordUnit d = s.coordUnit d)) := by
  classical
  have hru : ∀ e ∈ kw, requestUnit s kw e.1 = e.2.2 := by
    intro e he
    obtain ⟨d, x⟩ := e
    unfold requestUnit
    rw [Dict.get?_of_mem hn he]
  refine ⟨fun h => ?_, fun h1 h2 => ?_, fun h1 h2 => ?_⟩
  · unfold SeriesDisc.evaluate
    exact if_pos h
  · unfold SeriesDisc.evaluate
    rw [if_neg (by push Not; exact h1), if_pos h2]
  · have hpos : ∀ d, 0 < (requestUnit s kw d).factor := by
      intro d
      unfold requestUnit
      cases hg : Dict.get? kw d with
      | none => exact hs d
      | some x => exact hp _ (Dict.mem_of_get? hg)
    have hkw : siRequest kw = (kw.map fun e => (e.1, e.2.1)).map fun x => (x.1, x.2.map (· * (requestUnit s kw x.1).factor)) := by
      unfold siRequest
      rw [List.map_map]
      refine List.map_congr_left fun e he => ?_
      simp only [Function.comp_def, hru e he]
    have hev : s.evaluate kw = .ok ⟨⟨Ds.interp s.series.method
        (scaleCoords (fun d => (s.coordUnit d).factor / (requestUnit s kw d).factor) s.series.arr) (kw.map fun e => (e.1, e.2.1)), .linear⟩,
        requestUnit s kw⟩ := by
      unfold SeriesDisc.evaluate
      rw [if_neg (by push Not; exact h1), if_neg (by push Not; exact h2)]
      unfold Ds.evaluate
      dsimp only
      rw [if_pos]
      simp only [List.all_map, List.all_eq_true, Function.comp_def, decide_eq_true_eq]
      intro e he
      have : Dict.keys (scaleCoords (fun d => (s.coordUnit d).factor / (requestUnit s kw d).factor) s.series.arr).dims =
          Dict.keys s.series.arr.dims := by simp [scaleCoords, Dict.keys, List.map_map, Function.comp_def]
      rw [this]
      exact h1 e he
    refine ⟨_, hev, ?_, hru, fun d hd => ?_⟩
    · unfold SeriesDisc.si
      simp only
      rw [← interp_scale hpos, scale_scale, hkw]
      congr 2
      funext d
      rw [div_mul_cancel₀ _ (hpos d).ne']
    · show requestUnit s kw d = _
      unfold requestUnit
      rw [Dict.get?_eq_none.2 hd]

theorem interp1_data (c : ℝ) (m : Ds.Method) (a : Ds.Arr) (d : String) (xs : List ℝ) :
    Ds.interp1 m ⟨a.dims, fun ix => c * a.val ix⟩ d xs = ⟨(Ds.interp1 m a d xs).dims, fun ix => c * (Ds.interp1 m a d xs).val ix⟩ := by
  unfold Ds.interp1
  simp only
  cases Dict.get? a.dims d with
  | none => rfl
  | some cs =>
    simp only
    congr 1
    funext ix
    rw [← List.sum_map_mul_left]
    congr 1
    refine List.map_congr_left fun w _ => ?_
    ring

/-- **C104.** Converting the values of a series before or after the evaluation gives the same. -/
theorem C104_discrete_data (c : ℝ) (m : Ds.Method) (a : Ds.Arr) (kw : List (String × List ℝ)) :
    Ds.interp m ⟨a.dims, fun ix => c * a.val ix⟩ kw = ⟨(Ds.interp m a kw).dims, fun ix => c * (Ds.interp m a kw).val ix⟩ := by
  induction kw generalizing a with
  | nil => rfl
  | cons x t ih =>
    show Ds.interp m (Ds.interp1 m ⟨a.dims, fun ix => c * a.val ix⟩ x.1 x.2) t = _
    rw [interp1_data, ih]
    rfl

namespace Demo

theorem feed_wf : feed.WF where
  nodup := by simp [feed, Dict.keys]
  known := by
    intro s hs
    simp only [feed, Dict.keys, List.map_cons, List.map_nil, List.mem_cons, List.not_mem_nil, or_false] at hs
    rcases hs with rfl | rfl <;> simp [feed, line, Ex.free, Ex.syms]
  positive := by
    intro s q h
    have := Dict.mem_of_get? h
    simp only [feed, List.mem_cons, Prod.mk.injEq, List.not_mem_nil, or_false] at this
    rcases this with ⟨_, rfl⟩ | ⟨_, rfl⟩ <;> norm_num [mmPerMinute, cm]

theorem feed_names : feed.variableNames = ["t"] := by
  have h : feed.expr.free = ["a", "t", "b"] := by simp [feed, line, Ex.free, Ex.syms]
  unfold ME.variableNames
  rw [h]
  simp [feed, Dict.keys]

theorem feed_dim : feed.expr.HasDim (dimsWith feed fun _ => second.dim) (dim 1 0) := by
  refine .add ?_ (.sym "b")
  have := Ex.HasDim.mul (.sym (δ := dimsWith feed fun _ => second.dim) "a") (.sym "t")
  have e : dimsWith feed (fun _ => second.dim) "a" + dimsWith feed (fun _ => second.dim) "t" = dim 1 0 := by
    show dim 1 (-1) + dim 0 1 = _
    rw [dim_add]; norm_num
  rw [e] at this
  exact this

/-- the hypotheses of `C104_time_series` and `C104_time_series_value`: the position after 30 s, calculated in minutes, is 50 mm -/
example : 0 < second.factor ∧ feed.WF ∧ ∃ s, createTime second feed = .ok s ∧
    ∃ q, s.interp second [30 * 10 ^ 9] minute = .ok [q] ∧ q.si = 50 / 1000 := by
  have hs : 0 < second.factor := by norm_num [second]
  obtain ⟨s, h⟩ := (C104_time_series hs feed_wf).1.2 ⟨⟨_, feed_names⟩, _, feed_dim⟩
  obtain ⟨l, u, h1, _, _, h4⟩ := C104_time_series_value hs feed_wf h (tu := minute) rfl (by norm_num [minute]) [30 * 10 ^ 9]
  refine ⟨hs, feed_wf, s, h, ?_⟩
  cases h4 with
  | cons hq ht =>
    cases ht
    refine ⟨_, h1, ?_⟩
    rw [hq.2]
    show 60 * (1 / 60000) * (((30 * 10 ^ 9 : ℤ) : ℝ) * (1 / 10 ^ 9)) + 2 * (1 / 100 : ℝ) = 50 / 1000
    norm_num

/-- `a * t` -/
def product : Ex := .mul (.sym "a") (.sym "t")

/-- 1 mm * t -/
noncomputable def stretch : ME Base := ⟨product, [("a", ⟨1, mm⟩)]⟩

theorem stretch_wf : stretch.WF where
  nodup := by simp [stretch, Dict.keys]
  known := by
    intro s hs
    simp only [stretch, Dict.keys, List.map_cons, List.map_nil, List.mem_cons, List.not_mem_nil, or_false] at hs
    rw [hs]
    simp [stretch, product, Ex.free, Ex.syms]
  positive := by
    intro s q h
    have := Dict.mem_of_get? h
    simp only [stretch, List.mem_cons, Prod.mk.injEq, List.not_mem_nil, or_false] at this
    obtain ⟨_, rfl⟩ := this
    norm_num [mm]

theorem stretch_names : stretch.variableNames = ["t"] := by
  have h : stretch.expr.free = ["a", "t"] := by simp [stretch, product, Ex.free, Ex.syms]
  unfold ME.variableNames
  rw [h]
  simp [stretch, Dict.keys]

theorem stretch_value (q : Q Base) : stretch.evaluate [("t", .quantity q)] = .ok (.qty ⟨1 * q.mag, mm.mul q.unit⟩) := by
  rw [evaluate_eq (complete stretch_wf (by simp [stretch_names, Dict.keys]))]
  simp [stretch, product, Ex.eval, ME.args, Dict.get?, Input.toQ, Val.mul]

noncomputable def milli : Unit Base := ⟨1 / 1000, dim 0 1⟩

/-- **C104.** The unit of the values of a time series is not always `units`: it depends on the unit of time that is used for the
calculation. -/
theorem C104_time_unit_counterexample : ∃ s l, createTime second stretch = .ok s ∧ s.interp second [10 ^ 9] milli = .ok l ∧
    ∀ q ∈ l, q.unit ≠ s.units := by
  have hs : 0 < second.factor := by norm_num [second]
  obtain ⟨s, h⟩ := (C104_time_series hs stretch_wf).1.2 ⟨⟨_, stretch_names⟩, _, .mul (.sym "a") (.sym "t")⟩
  obtain ⟨h1, h2, _, r, r1, r2⟩ := createTime_spec hs stretch_wf h
  rw [stretch_names] at h2
  have hv : s.var = "t" := by simpa using h2.symm
  rw [hv, stretch_value] at r1
  obtain ⟨q, q1, q2, _⟩ := asQuantity_ok (sec := second) (tu := milli) rfl (by norm_num [milli]) (10 ^ 9)
  refine ⟨s, [⟨1 * q.mag, mm.mul milli⟩], h, ?_, ?_⟩
  · unfold TimeExpr.interp
    rw [h1, hv]
    simp only [interpTimes, valueAt, q1, stretch_value, q2]
  · intro w hw
    rw [List.mem_singleton] at hw
    rw [hw, r2]
    cases r1
    intro he
    have := congrArg Unit.factor he
    norm_num [mm, milli, second, Unit.mul] at this

/-- **C104.** Counterexample to the documentation of `GenericSeries` (`generic_series.py` 127-132): the units of the variables are not
checked when the series is evaluated. The variable `t` was declared in seconds, and a length is accepted. -/
theorem C104_variable_units_counterexample : ∃ s q, createSeries id stretch [("t", second)] = .ok s ∧
    s.evaluate [("t", .quantity ⟨1, mm⟩)] = .ok (.qty q) ∧ Dict.get? s.variableUnits "t" = some second ∧ mm.dim ≠ second.dim ∧
    q.unit.dim ≠ s.units.dim := by
  have hn : stretch.numVariables ≠ 0 := by
    rw [num_variables stretch_wf, stretch_names]; simp
  have hu : updatedUnits stretch [("t", second)] = [("t", second)] := by
    simp [updatedUnits, stretch_names, Dict.keys]
  have hc : createSeries id stretch [("t", second)] = .ok ⟨stretch, [("t", second)], mm.mul second⟩ := by
    unfold createSeries
    rw [if_neg hn, if_neg (by simp [Dict.keys, stretch_names]), hu]
    simp only [List.map_cons, List.map_nil, stretch_value, id]
  refine ⟨_, _, hc, stretch_value _, rfl, fun h => ?_, fun h => ?_⟩
  · have := congrFun h .length
    norm_num [mm, second, dim] at this
  · have := congrFun h .time
    norm_num [mm, second, dim, Unit.mul] at this

/-- the hypotheses of `C104_series`: the variable in minutes -/
example : ∃ s, createSeries id stretch [("t", second)] = .ok s ∧
    (∀ x, x ∈ Dict.keys [("t", (Input.quantity ⟨2, minute⟩ : Input Base))] ↔ x ∈ stretch.variableNames) ∧
    Dict.get? s.variableUnits "t" = some second ∧ minute.dim = second.dim ∧
    s.evaluate [("t", .quantity ⟨2, minute⟩)] = .ok (.qty ⟨1 * 2, mm.mul minute⟩) := by
  obtain ⟨s, q, h1, _, h3, _⟩ := C104_variable_units_counterexample
  refine ⟨s, h1, by simp [stretch_names, Dict.keys], h3, rfl, ?_⟩
  have : s.me = stretch := by
    unfold createSeries at h1
    split at h1
    · cases h1
    · split at h1
      · cases h1
      · split at h1
        · cases h1
        · cases h1
        · cases h1; rfl
  unfold SeriesExpr.evaluate
  rw [this]
  exact stretch_value _

/-- three values at 0 mm, 10 mm and 20 mm -/
noncomputable def profile : SeriesDisc Base :=
  ⟨⟨⟨[("x", [0, 10, 20])], fun ix => (ix "x" : ℝ) ^ 2⟩, .linear⟩, fun _ => mm⟩

/-- the hypotheses of `C104_discrete`: at 1.5 cm the value is 2.5 -/
example : ∃ r, profile.evaluate [("x", [3 / 2], cm)] = .ok r ∧ r.coordUnit "x" = cm ∧ r.si.val (fun _ => 0) = 5 / 2 := by
  obtain ⟨r, h1, h2, h3, _⟩ := (C104_discrete profile (kw := [("x", [3 / 2], cm)]) (fun _ => by norm_num [profile, mm]) (by simp [Dict.keys])
    (by simp [cm])).2.2 (by simp [profile, Dict.keys]) (by simp [profile, mm, cm])
  refine ⟨r, h1, h3 _ (List.mem_singleton.2 rfl), ?_⟩
  rw [h2]
  norm_num [siRequest, Ds.interp, Ds.interp1, SeriesDisc.si, scaleCoords, profile, Dict.get?, Ds.weights, Ds.below, mm, cm, List.takeWhile]

end Demo

end Weldx.Pint
