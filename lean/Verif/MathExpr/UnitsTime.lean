import Verif.MathExpr.UnitsArrays
import Verif.MathExpr.UnitsSeries

/-!
# Time series of expressions with arrays as parameters (C104)

Source: `/repo/weldx/core/time_series.py` 183-224 (`_init_expression`), 240-250 (`_interp_time_expression`), 373-389 (`interp_time`),
446-459 (`shape`).

Simplifications: those of `Verif/MathExpr/UnitsArrays.lean`; the times are given as time deltas in nanoseconds; the order of the dimensions
of interpolated values is not described (`interp_time` moves the time to the front).
-/

namespace Weldx.Pint

open Weldx.Me (joinLabels)

variable {ι : Type}

/-! ### model -/

/-- `get_variable_names`, `math_expression.py` 229-242 -/
def ArrME.variableNames (e : ArrME ι) : List String := e.expr.free.filter (· ∉ Dict.keys e.params)

/-- `num_variables`, `math_expression.py` 193-204 -/
def ArrME.numVariables (e : ArrME ι) : Int := (e.expr.free.length : Int) - e.params.length

/-- `xr.DataArray(time_q, dims=["time"])`, `time_series.py` 242-246, with `Time.as_quantity`, `time.py` 450-453; a single time is an array
of length 1 -/
noncomputable def timeArr (sec tu : Unit ι) (times : List Int) : Except Err (QArr ι) :=
  open Classical in
  if (nano sec).dim = tu.dim then
    .ok ⟨[("time", times.length)], [], fun i => (times.getD (i "time") 0 : ℤ) * (nano sec).factor / tu.factor, tu⟩
  else .error .dimensionality

/-- `_interp_time_expression`, `time_series.py` 240-250; a number has no method `assign_coords` -/
noncomputable def interpArr (sec : Unit ι) (me : ArrME ι) (var : String) (tu : Unit ι) (times : List Int) : Except AErr (QArr ι) :=
  match timeArr sec tu times with
  | .error x => .error (.pint x)
  | .ok t => match me.evaluate [(var, .array t)] with
    | .error x => .error x
    | .ok (.num _) => .error (.pint .typeError)
    | .ok (.arr a) => .ok { a with coords := Dict.set a.coords "time" (times.map fun t => (t : ℝ)) }

/-- `TimeSeries` with an expression: the attributes `_data`, `_time_var_name`, `_units` and `_shape` -/
structure ArrTimeExpr (ι : Type) where
  me : ArrME ι
  var : String
  units : Unit ι
  shape : List ℕ

/-- the kinds of exceptions of the constructor -/
inductive ASErr
  | weldx | indexError | arr (e : AErr)
deriving DecidableEq

/-- the checks with arrays, `time_series.py` 212-224: any exception is replaced -/
noncomputable def timeChecks (sec : Unit ι) (me : ArrME ι) (var : String) : Except ASErr _root_.Unit :=
  match interpArr sec me var sec [10 ^ 9, 2 * 10 ^ 9] with
  | .error _ => .error .weldx
  | .ok _ => match interpArr sec me var sec [10 ^ 9, 2 * 10 ^ 9, 3 * 10 ^ 9] with
    | .error _ => .error .weldx
    | .ok _ => .ok ()

/-- `_init_expression`, `time_series.py` 183-224; a number has no attribute `data` -/
noncomputable def createTimeArr (sec : Unit ι) (me : ArrME ι) : Except ASErr (ArrTimeExpr ι) :=
  if me.numVariables ≠ 1 then .error .weldx
  else match me.variableNames with
    | [] => .error .indexError
    | v :: _ => match me.evaluate [(v, .quantity ⟨1, sec⟩)] with
      | .error (.pint .dimensionality) => .error .weldx
      | .error x => .error (.arr x)
      | .ok (.num _) => .error (.arr (.pint .typeError))
      | .ok (.arr a) => match timeChecks sec me v with
        | .error x => .error x
        | .ok _ => .ok ⟨me, v, a.unit, if a.dims = [] then [1] else a.dims.map Prod.snd⟩

/-- `interp_time`, `time_series.py` 373-389 -/
noncomputable def ArrTimeExpr.interp (sec : Unit ι) (s : ArrTimeExpr ι) (times : List Int) (tu : Unit ι) : Except AErr (QArr ι) :=
  interpArr sec s.me s.var tu times

/-! ### specification -/

/-- expressions as the constructor makes them; an array has each dimension once -/
structure ArrME.WF (e : ArrME ι) : Prop where
  nodup : (Dict.keys e.params).Nodup
  known : ∀ s ∈ Dict.keys e.params, s ∈ e.expr.free
  positive : ∀ s a, Dict.get? e.params s = some a → 0 < a.unit.factor
  dims : ∀ x ∈ e.params, (Dict.keys x.2.dims).Nodup

/-- the dimensionalities of the symbols if the variable is a time -/
def arrDims (e : ArrME ι) (sec : Unit ι) (s : String) : Dim ι := match Dict.get? e.params s with
  | some a => a.unit.dim
  | none => sec.dim

/-- the values of the symbols in base units at a position if the variable has the given value -/
noncomputable def arrValues (e : ArrME ι) (i : String → ℕ) (x : ℝ) (s : String) : ℝ := match Dict.get? e.params s with
  | some a => a.val i * a.unit.factor
  | none => x

/-- no parameter has a dimension with the name of the time -/
def NoTime (e : ArrME ι) : Prop := ∀ x ∈ e.params, "time" ∉ Dict.keys x.2.dims

/-! ### lemmas -/

theorem joinLabels_some {L : Type} [DecidableEq L] {a b c : List (String × L)} (h : joinLabels a b = some c)
    (ha : (Dict.keys a).Nodup) (hb : (Dict.keys b).Nodup) :
    (Dict.keys c).Nodup ∧ (∀ d ∈ a, d ∈ c) ∧ ∀ d ∈ b, d ∈ c := by
  unfold joinLabels at h
  split at h
  · rename_i hc
    cases h
    refine ⟨?_, fun d hd => List.mem_append_left _ hd, fun d hd => ?_⟩
    · rw [Dict.keys_append, List.nodup_append]
      refine ⟨ha, hb.sublist (List.Sublist.map _ List.filter_sublist), ?_⟩
      intro x hx y hy he
      subst he
      obtain ⟨v, hv⟩ := Dict.mem_keys_iff.1 hy
      have := (List.mem_filter.1 hv).2
      rw [decide_eq_true_eq] at this
      exact Dict.get?_eq_none.1 this hx
    · rcases hc d hd with h0 | h0
      · exact List.mem_append_right _ (List.mem_filter.2 ⟨hd, by simpa using h0⟩)
      · exact List.mem_append_left _ (Dict.mem_of_get? h0)
  · cases h

theorem joinBoth_ok {a b : QArr ι} {d : List (String × ℕ)} {c : List (String × List ℝ)} (h : joinBoth a b = .ok (d, c)) :
    joinLabels a.dims b.dims = some d := by
  unfold joinBoth at h
  split at h
  · cases h
  · split at h
    · cases h
    · rename_i h1
      cases h
      exact h1

/-- the dimensions of a result -/
def Has (env : List (String × QArr ι)) (syms : List String) (v : VArr ι) : Prop :=
  (Dict.keys v.dims).Nodup ∧ ∀ s ∈ syms, ∀ a, Dict.get? env s = some a → ∀ d ∈ a.dims, d ∈ v.dims

theorem Has.append {env : List (String × QArr ι)} {l m : List String} {v w r : VArr ι} (hv : Has env l v) (hw : Has env m w)
    (h1 : (Dict.keys r.dims).Nodup) (h2 : ∀ d ∈ v.dims, d ∈ r.dims) (h3 : ∀ d ∈ w.dims, d ∈ r.dims) : Has env (l ++ m) r := by
  refine ⟨h1, fun s hs a ha d hd => ?_⟩
  rcases List.mem_append.1 hs with h | h
  · exact h2 _ (hv.2 s h a ha d hd)
  · exact h3 _ (hw.2 s h a ha d hd)

theorem addNumArr_dims {k : ℝ} {a : QArr ι} {v : VArr ι} (h : addNumArr k a = .ok v) : v.dims = a.dims := by
  unfold addNumArr at h
  split at h
  · cases h; rfl
  · split at h
    · cases h; rfl
    · cases h

/-- a successful evaluation has all dimensions of its arguments, each with one length -/
theorem evalArr_has {env : List (String × QArr ι)} (he : ∀ x ∈ env, (Dict.keys x.2.dims).Nodup) :
    ∀ (e : Ex) {v : VArr ι}, e.evalArr env = .ok v → Has env e.syms v
  | .num k, v, h => by
    cases h
    exact ⟨by simp [VArr.dims], by simp [Ex.syms]⟩
  | .sym s, v, h => by
    simp only [Ex.evalArr] at h
    split at h
    · cases h
    · rename_i a ha
      cases h
      refine ⟨he _ (Dict.mem_of_get? ha), fun s' hs b hb d hd => ?_⟩
      simp only [Ex.syms, List.mem_singleton] at hs
      subst hs
      rw [ha] at hb
      cases hb
      exact hd
  | .add a b, v, h => by
    simp only [Ex.evalArr] at h
    split at h
    · cases h
    · rename_i r hr
      split at h
      · cases h
      · rename_i s hs
        have i1 := evalArr_has he a hr
        have i2 := evalArr_has he b hs
        simp only [Ex.syms]
        cases r with
        | num k =>
          cases s with
          | num l => cases h; exact i1.append i2 i1.1 (fun _ h => h) (fun _ h => h)
          | arr q =>
            have := addNumArr_dims h
            exact i1.append i2 (by rw [this]; exact i2.1) (by simp [VArr.dims]) (by rw [this]; exact fun _ h => h)
        | arr p =>
          cases s with
          | num l =>
            have := addNumArr_dims h
            exact i1.append i2 (by rw [this]; exact i1.1) (by rw [this]; exact fun _ h => h) (by simp [VArr.dims])
          | arr q =>
            simp only [VArr.add] at h
            split at h
            · cases h
            · rename_i d c hj
              split at h
              · cases h
                obtain ⟨j1, j2, j3⟩ := joinLabels_some (joinBoth_ok hj) i1.1 i2.1
                exact i1.append i2 j1 j2 j3
              · cases h
  | .mul a b, v, h => by
    simp only [Ex.evalArr] at h
    split at h
    · cases h
    · rename_i r hr
      split at h
      · cases h
      · rename_i s hs
        have i1 := evalArr_has he a hr
        have i2 := evalArr_has he b hs
        simp only [Ex.syms]
        cases r with
        | num k =>
          cases s with
          | num l => cases h; exact i1.append i2 i1.1 (fun _ h => h) (fun _ h => h)
          | arr q => cases h; exact i1.append i2 i2.1 (by simp [VArr.dims]) (fun _ h => h)
        | arr p =>
          cases s with
          | num l => cases h; exact i1.append i2 i1.1 (fun _ h => h) (by simp [VArr.dims])
          | arr q =>
            simp only [VArr.mul] at h
            split at h
            · cases h
            · rename_i d c hj
              cases h
              obtain ⟨j1, j2, j3⟩ := joinLabels_some (joinBoth_ok hj) i1.1 i2.1
              exact i1.append i2 j1 j2 j3
  | .pow a n, v, h => by
    simp only [Ex.evalArr] at h
    split at h
    · cases h
    · rename_i r hr
      have i1 := evalArr_has he a hr
      cases h
      cases r <;> exact i1
  | .sqrt a, v, h => by
    simp only [Ex.evalArr] at h
    split at h
    · cases h
    · rename_i r hr
      have i1 := evalArr_has he a hr
      cases h
      cases r <;> exact i1
  | .abs a, v, h => by
    simp only [Ex.evalArr] at h
    split at h
    · cases h
    · rename_i r hr
      have i1 := evalArr_has he a hr
      cases h
      cases r <;> exact i1
  | .fn f a, v, h => by
    simp only [Ex.evalArr] at h
    split at h
    · cases h
    · rename_i r hr
      have i1 := evalArr_has he a hr
      cases r with
      | num k => cases h; exact i1
      | arr p =>
        simp only [VArr.fn] at h
        split at h
        · cases h; exact i1
        · cases h

theorem element_wf {e : ArrME ι} (h : e.WF) (i : String → ℕ) : (e.element i).WF where
  nodup := by
    show (Dict.keys (elements e.params i)).Nodup
    rw [elements_keys]; exact h.nodup
  known := by
    show ∀ s ∈ Dict.keys (elements e.params i), _
    rw [elements_keys]; exact h.known
  positive := by
    intro s q hq
    rw [show (e.element i).params = elements e.params i from rfl, elements_get] at hq
    cases hg : Dict.get? e.params s with
    | none => rw [hg] at hq; cases hq
    | some a => rw [hg] at hq; cases hq; exact h.positive s a hg

theorem element_names (e : ArrME ι) (i : String → ℕ) : (e.element i).variableNames = e.variableNames := by
  show e.expr.free.filter (· ∉ Dict.keys (elements e.params i)) = _
  rw [elements_keys]; rfl

theorem arr_num_variables {e : ArrME ι} (h : e.WF) : e.numVariables = e.variableNames.length := by
  have := num_variables (element_wf h fun _ => 0)
  rw [element_names] at this
  rw [← this]
  show _ = ((e.expr.free.length : Int) - (elements e.params _).length)
  simp [elements, ArrME.numVariables]

theorem element_dims (e : ArrME ι) (i : String → ℕ) (u : Unit ι) : dimsWith (e.element i) (fun _ => u.dim) = arrDims e u := by
  funext s
  unfold dimsWith arrDims
  rw [show (e.element i).params = elements e.params i from rfl, elements_get]
  cases Dict.get? e.params s <;> rfl

theorem element_values (e : ArrME ι) (i : String → ℕ) (x : ℝ) : valuesWith (e.element i) (fun _ => x) = arrValues e i x := by
  funext s
  unfold valuesWith arrValues
  rw [show (e.element i).params = elements e.params i from rfl, elements_get]
  cases Dict.get? e.params s <;> rfl

/-- the evaluation with one value for the variable -/
theorem evaluate_one {e : ArrME ι} (h : e.WF) {v : String} (hv : e.variableNames = [v]) {x : ArrInput ι} (hx : 0 < x.toArr.unit.factor)
    {len : String → ℕ} {co : String → List ℝ} (hf : Fits (e.args [(v, x)]) len co) :
    (∀ d, e.expr.HasDim (arrDims e x.toArr.unit) d → ∃ a, e.evaluate [(v, x)] = .ok (.arr a) ∧ a.unit.dim = d ∧
      (∀ i, a.val i * a.unit.factor = e.expr.value (arrValues e i (x.toArr.val i * x.toArr.unit.factor))) ∧
      ∀ d, d ∈ a.dims ↔ d ∈ x.toArr.dims ∨ ∃ y ∈ e.params, d ∈ y.2.dims) ∧
    ((¬ ∃ d, e.expr.HasDim (arrDims e x.toArr.unit) d) → e.evaluate [(v, x)] = .error (.pint .dimensionality)) := by
  have hq : ∀ i, x.element i = .quantity (x.toArr.at i) ∨ ∃ k, x = .number k := by
    intro i
    cases x with
    | number k => exact .inr ⟨k, rfl⟩
    | quantity q => exact .inl rfl
    | array a => exact .inl rfl
  have hone : ∀ i, (e.element i).evaluate [(v, x.element i)] = (e.element i).evaluate [(v, .quantity (x.toArr.at i))] := by
    intro i
    rcases hq i with h1 | ⟨k, rfl⟩
    · rw [h1]
    · rfl
  have hov : ∀ i, _ := fun i => one_variable (element_wf h i) (v := v) (by rw [element_names]; exact hv) (q := x.toArr.at i) hx
  simp only [show ∀ i, (x.toArr.at i).unit = x.toArr.unit from fun _ => rfl, element_dims, element_values] at hov
  have hsy : ∀ s, s ∈ e.expr.syms ↔ s = v ∨ s ∈ Dict.keys e.params := by
    intro s
    have hm : s ∈ e.variableNames ↔ s ∈ e.expr.syms ∧ s ∉ Dict.keys e.params := by simp [ArrME.variableNames, Ex.free]
    rw [hv, List.mem_singleton] at hm
    constructor
    · intro hs
      by_cases hk : s ∈ Dict.keys e.params
      · exact .inr hk
      · exact .inl (hm.2 ⟨hs, hk⟩)
    · rintro (hs | hs)
      · exact (hm.1 hs).1
      · have := h.known s hs
        simpa [Ex.free] using this
  have hvp : v ∉ Dict.keys e.params := by
    have hm : v ∈ e.variableNames ↔ v ∈ e.expr.syms ∧ v ∉ Dict.keys e.params := by simp [ArrME.variableNames, Ex.free]
    exact (hm.1 (by rw [hv]; simp)).2
  constructor
  · intro d hd
    rcases C104_arrays e [(v, x)] hf with ⟨w, w1, w2, w3, -⟩ | ⟨y, y1, y2⟩
    · have hw : ∃ a, w = .arr a := by
        obtain ⟨r, r1, _⟩ := (hov fun _ => 0).1 d hd
        have := w2 fun _ => 0
        simp only [List.map_cons, List.map_nil] at this
        rw [hone, r1] at this
        cases w with
        | num k => cases this
        | arr a => exact ⟨a, rfl⟩
      obtain ⟨a, rfl⟩ := hw
      have hall : ∀ i, a.unit.dim = d ∧ a.val i * a.unit.factor = e.expr.value (arrValues e i (x.toArr.val i * x.toArr.unit.factor)) := by
        intro i
        obtain ⟨r, r1, r2, r3⟩ := (hov i).1 d hd
        have := w2 i
        simp only [List.map_cons, List.map_nil] at this
        rw [hone, r1] at this
        have hr : r = a.at i := by cases this; rfl
        subst hr
        exact ⟨r2, r3⟩
      refine ⟨a, w1, (hall fun _ => 0).1, fun i => (hall i).2, fun d => ?_⟩
      have := w3 d
      rw [show (VArr.arr a).dims = a.dims from rfl] at this
      rw [this]
      constructor
      · rintro ⟨s, hs, b, hb, hd⟩
        rw [show e.args [(v, x)] = (v, x.toArr) :: e.params from rfl] at hb
        simp only [Dict.get?] at hb
        split at hb
        · cases hb; exact .inl hd
        · exact .inr ⟨_, Dict.mem_of_get? hb, hd⟩
      · rintro (hd | ⟨⟨s, b⟩, hy, hd⟩)
        · refine ⟨v, (hsy v).2 (.inl rfl), x.toArr, ?_, hd⟩
          rw [show e.args [(v, x)] = (v, x.toArr) :: e.params from rfl]
          simp [Dict.get?]
        · have hk := Dict.mem_keys_of_mem hy
          refine ⟨s, (hsy s).2 (.inr hk), b, ?_, hd⟩
          rw [show e.args [(v, x)] = (v, x.toArr) :: e.params from rfl]
          simp only [Dict.get?]
          rw [if_neg (fun hc => hvp (by rw [hc]; exact hk))]
          exact Dict.get?_of_mem h.nodup hy
    · exfalso
      obtain ⟨r, r1, _⟩ := (hov fun _ => 0).1 d hd
      have := y2 fun _ => 0
      simp only [List.map_cons, List.map_nil] at this
      rw [hone, r1] at this
      cases this
  · intro hn
    have he := (hov fun _ => 0).2 hn
    rcases C104_arrays e [(v, x)] hf with ⟨w, w1, w2, w3, -⟩ | ⟨y, y1, y2⟩
    · have := w2 fun _ => 0
      simp only [List.map_cons, List.map_nil] at this
      rw [hone, he] at this
      cases this
    · have := y2 fun _ => 0
      simp only [List.map_cons, List.map_nil] at this
      rw [hone, he] at this
      cases this
      exact y1

theorem fits_scalar {e : ArrME ι} {len : String → ℕ} {co : String → List ℝ} (hf : Fits e.params len co) (v : String) (q : Q ι) :
    Fits (e.args [(v, .quantity q)]) len co := by
  constructor
  · intro x hx d hd
    rcases List.mem_cons.1 hx with rfl | hx
    · cases hd
    · exact hf.len x hx d hd
  · intro x hx d hd
    rcases List.mem_cons.1 hx with rfl | hx
    · cases hd
    · exact hf.co x hx d hd

/-- interpolation without parameters that have the dimension of the time -/
theorem interpArr_ok {e : ArrME ι} (h : e.WF) {v : String} (hv : e.variableNames = [v]) {len : String → ℕ} {co : String → List ℝ}
    (hf : Fits e.params len co) (hn : NoTime e) {sec tu : Unit ι} (ht : tu.dim = sec.dim) (hp : 0 < tu.factor) {d : Dim ι}
    (hd : e.expr.HasDim (arrDims e sec) d) (times : List Int) :
    ∃ a, interpArr sec e v tu times = .ok a ∧ a.unit.dim = d ∧
      (∀ d, d ∈ a.dims ↔ d = ("time", times.length) ∨ ∃ y ∈ e.params, d ∈ y.2.dims) ∧
      Dict.get? a.coords "time" = some (times.map fun t => (t : ℝ)) ∧
      (∃ t b, timeArr sec tu times = .ok t ∧ t.unit = tu ∧ e.evaluate [(v, .array t)] = .ok (.arr b) ∧ a.unit = b.unit) ∧
      ∀ (i : String → ℕ) (t : ℤ), times[i "time"]? = some t →
        a.val i * a.unit.factor = e.expr.value (arrValues e i (t * (sec.factor / 10 ^ 9))) := by
  have hta : ∃ t, timeArr sec tu times = .ok t ∧ t.dims = [("time", times.length)] ∧ t.coords = [] ∧ t.unit = tu ∧
      ∀ (i : String → ℕ) (x : ℤ), times[i "time"]? = some x → t.val i * t.unit.factor = x * (sec.factor / 10 ^ 9) := by
    unfold timeArr
    rw [if_pos (show (nano sec).dim = tu.dim from ht.symm)]
    refine ⟨_, rfl, rfl, rfl, rfl, fun i x hx => ?_⟩
    dsimp only
    rw [div_mul_cancel₀ _ hp.ne', List.getD_eq_getElem?_getD, hx]
    rfl
  obtain ⟨t, t1, t2, t3, t4, t5⟩ := hta
  have hfit : Fits (e.args [(v, .array t)]) (fun s => if s = "time" then times.length else len s) co := by
    constructor
    · intro x hx d hd
      rcases List.mem_cons.1 hx with rfl | hx
      · have : d ∈ t.dims := hd
        rw [t2, List.mem_singleton] at this
        subst this
        simp
      · have hne : d.1 ≠ "time" := fun hc => hn x hx (by rw [← hc]; exact List.mem_map_of_mem hd)
        rw [if_neg hne]
        exact hf.len x hx d hd
    · intro x hx d hd
      rcases List.mem_cons.1 hx with rfl | hx
      · have : d ∈ t.coords := hd
        rw [t3] at this
        cases this
      · exact hf.co x hx d hd
  have hd' : e.expr.HasDim (arrDims e (ArrInput.array t).toArr.unit) d := by
    have : arrDims e (ArrInput.array t).toArr.unit = arrDims e sec := by
      funext s
      unfold arrDims
      cases Dict.get? e.params s with
      | none => show t.unit.dim = _; rw [t4]; exact ht
      | some a => rfl
    rw [this]; exact hd
  obtain ⟨b, b1, b2, b3, b4⟩ := (evaluate_one h hv (x := .array t) (by show 0 < t.unit.factor; rw [t4]; exact hp) hfit).1 d hd'
  refine ⟨{ b with coords := Dict.set b.coords "time" (times.map fun t => (t : ℝ)) }, ?_, b2, fun x => ?_, ?_, ⟨t, b, t1, t4, b1, rfl⟩,
    fun i x hx => ?_⟩
  · simp only [interpArr, t1, b1]
  · show x ∈ b.dims ↔ _
    rw [b4]
    show x ∈ t.dims ∨ _ ↔ _
    rw [t2, List.mem_singleton]
  · rw [Dict.get?_set, if_pos rfl]
  · have := b3 i
    rw [show (ArrInput.array t).toArr.val i * (ArrInput.array t).toArr.unit.factor = x * (sec.factor / 10 ^ 9) from t5 i x hx] at this
    exact this

/-- interpolation at another number of times than a parameter has -/
theorem interpArr_length {e : ArrME ι} (h : e.WF) {v : String} (hv : e.variableNames = [v]) {sec tu : Unit ι} {times : List Int}
    {a : QArr ι} (ha : interpArr sec e v tu times = .ok a) {x : String × QArr ι} (hx : x ∈ e.params) {n : ℕ}
    (hn : ("time", n) ∈ x.2.dims) : n = times.length := by
  unfold interpArr timeArr at ha
  split at ha
  · cases ha
  · rename_i t ht
    split at ht
    · cases ht
      split at ha
      · cases ha
      · cases ha
      · rename_i b hb
        unfold ArrME.evaluate at hb
        split at hb
        · cases hb
        · split at hb
          · set t : QArr ι := ⟨[("time", times.length)], [],
              fun i => (times.getD (i "time") 0 : ℤ) * (nano sec).factor / tu.factor, tu⟩ with htd
            have hargs : e.args [(v, .array t)] = (v, t) :: e.params := rfl
            rw [hargs] at hb
            have H := evalArr_has (env := (v, t) :: e.params) (fun y hy => by
              rcases List.mem_cons.1 hy with rfl | hy
              · simp [htd, Dict.keys]
              · exact h.dims y hy) e.expr hb
            have hvm : v ∈ e.expr.syms ∧ v ∉ Dict.keys e.params := by
              have hm : v ∈ e.variableNames ↔ v ∈ e.expr.syms ∧ v ∉ Dict.keys e.params := by simp [ArrME.variableNames, Ex.free]
              exact hm.1 (by rw [hv]; simp)
            have hk : x.1 ∈ Dict.keys e.params := List.mem_map_of_mem hx
            have h1 : ("time", times.length) ∈ (VArr.arr b).dims := H.2 v hvm.1 t (by simp [Dict.get?]) _ (by simp [htd])
            have h2 : ("time", n) ∈ (VArr.arr b).dims := by
              refine H.2 x.1 (by simpa [Ex.free] using h.known _ hk) x.2 ?_ _ hn
              simp only [Dict.get?]
              rw [if_neg (fun hc => hvm.2 (by rw [hc]; exact hk))]
              exact Dict.get?_of_mem h.nodup hx
            have e1 := Dict.get?_of_mem H.1 h1
            have e2 := Dict.get?_of_mem H.1 h2
            rw [e1] at e2
            cases e2
            rfl
          · cases hb
    · cases ht

/-! ### theorems -/

/-- **C104.** A time series can be created from an expression with arrays as parameters exactly if it has one variable, the dimensionalities
fit if this variable is a time, and no parameter has a dimension with the name of the time; any other expression is a `WeldxException`. -/
theorem C104_time_arrays {sec : Unit ι} (hs : 0 < sec.factor) {e : ArrME ι} (h : e.WF) {len : String → ℕ} {co : String → List ℝ}
    (hf : Fits e.params len co) :
    ((∃ s, createTimeArr sec e = .ok s) ↔ (∃ v, e.variableNames = [v]) ∧ (∃ d, e.expr.HasDim (arrDims e sec) d) ∧ NoTime e) ∧
    ((¬ ∃ s, createTimeArr sec e = .ok s) → createTimeArr sec e = .error .weldx) := by
  by_cases h1 : e.numVariables ≠ 1
  · have hc : createTimeArr sec e = .error .weldx := by unfold createTimeArr; rw [if_pos h1]
    refine ⟨⟨fun ⟨s, hs⟩ => ?_, fun ⟨⟨v, hv⟩, _⟩ => absurd ?_ h1⟩, fun _ => hc⟩
    · rw [hc] at hs; cases hs
    · rw [arr_num_variables h, hv]; rfl
  · push Not at h1
    have hl : e.variableNames.length = 1 := by
      have := arr_num_variables h
      omega
    obtain ⟨v, hv⟩ := List.length_eq_one_iff.1 hl
    obtain ⟨o1, o2⟩ := evaluate_one h hv (x := .quantity ⟨1, sec⟩) hs (fits_scalar hf v ⟨1, sec⟩)
    by_cases hd : ∃ d, e.expr.HasDim (arrDims e sec) d
    · obtain ⟨d, hd⟩ := hd
      obtain ⟨a, a1, -⟩ := o1 d hd
      by_cases hn : NoTime e
      · obtain ⟨r1, k1, -⟩ := interpArr_ok h hv hf hn (tu := sec) rfl hs hd [10 ^ 9, 2 * 10 ^ 9]
        obtain ⟨r2, k2, -⟩ := interpArr_ok h hv hf hn (tu := sec) rfl hs hd [10 ^ 9, 2 * 10 ^ 9, 3 * 10 ^ 9]
        have hc : ∃ s, createTimeArr sec e = .ok s := by
          unfold createTimeArr timeChecks
          rw [if_neg (by simpa using h1)]
          simp only [hv, a1, k1, k2]
          exact ⟨_, rfl⟩
        exact ⟨⟨fun _ => ⟨⟨v, hv⟩, ⟨d, hd⟩, hn⟩, fun _ => hc⟩, fun h => absurd hc h⟩
      · have hc : createTimeArr sec e = .error .weldx := by
          unfold NoTime at hn
          push Not at hn
          obtain ⟨x, hx, hk⟩ := hn
          obtain ⟨n, hn⟩ := Dict.mem_keys_iff.1 hk
          unfold createTimeArr timeChecks
          rw [if_neg (by simpa using h1)]
          simp only [hv, a1]
          cases k1 : interpArr sec e v sec [10 ^ 9, 2 * 10 ^ 9] with
          | error _ => rfl
          | ok r1 =>
            cases k2 : interpArr sec e v sec [10 ^ 9, 2 * 10 ^ 9, 3 * 10 ^ 9] with
            | error _ => rfl
            | ok r2 =>
              have e1 := interpArr_length h hv k1 hx hn
              have e2 := interpArr_length h hv k2 hx hn
              rw [e1] at e2
              cases e2
        refine ⟨⟨fun ⟨s, hs⟩ => ?_, fun hh => absurd hh.2.2 hn⟩, fun _ => hc⟩
        rw [hc] at hs; cases hs
    · have hc : createTimeArr sec e = .error .weldx := by
        unfold createTimeArr
        rw [if_neg (by simpa using h1)]
        simp only [hv, o2 hd]
      refine ⟨⟨fun ⟨s, hs⟩ => ?_, fun hh => absurd hh.2.1 hd⟩, fun _ => hc⟩
      rw [hc] at hs; cases hs

/-- **C104.** A time series that was created from an expression with arrays as parameters has values at all times: the result has the
dimension of the time with the given times as coordinates and the dimensions of all parameters, and its element at a time is the value of the
expression for the elements of the parameters in base units. The shape of the series consists of the lengths of the dimensions of the
parameters. -/
theorem C104_time_arrays_value {sec : Unit ι} (hs : 0 < sec.factor) {e : ArrME ι} (h : e.WF) {len : String → ℕ} {co : String → List ℝ}
    (hf : Fits e.params len co) {s : ArrTimeExpr ι} (hc : createTimeArr sec e = .ok s) :
    (∃ ds : List (String × ℕ), s.shape = (if ds = [] then [1] else ds.map Prod.snd) ∧ (Dict.keys ds).Nodup ∧
      ∀ d, d ∈ ds ↔ ∃ y ∈ e.params, d ∈ y.2.dims) ∧
    ∀ {tu : Unit ι}, tu.dim = sec.dim → 0 < tu.factor → ∀ times : List Int,
      ∃ a, s.interp sec times tu = .ok a ∧ a.unit.dim = s.units.dim ∧ (tu = sec → a.unit = s.units) ∧
        (∀ d, d ∈ a.dims ↔ d = ("time", times.length) ∨ ∃ y ∈ e.params, d ∈ y.2.dims) ∧
        Dict.get? a.coords "time" = some (times.map fun t => (t : ℝ)) ∧
        ∀ (i : String → ℕ) (t : ℤ), times[i "time"]? = some t →
          a.val i * a.unit.factor = e.expr.value (arrValues e i (t * (sec.factor / 10 ^ 9))) := by
  obtain ⟨⟨v, hv⟩, ⟨d, hd⟩, hn⟩ := (C104_time_arrays hs h hf).1.1 ⟨s, hc⟩
  obtain ⟨r, r1, r2, r3, r4⟩ := (evaluate_one h hv (x := .quantity ⟨1, sec⟩) hs (fits_scalar hf v ⟨1, sec⟩)).1 d hd
  have hr : s.me = e ∧ s.var = v ∧ s.units = r.unit ∧ s.shape = if r.dims = [] then [1] else r.dims.map Prod.snd := by
    unfold createTimeArr at hc
    split at hc
    · cases hc
    · simp only [hv, r1] at hc
      split at hc
      · cases hc
      · cases hc
        exact ⟨rfl, rfl, rfl, rfl⟩
  obtain ⟨s1, s2, s3, s4⟩ := hr
  refine ⟨⟨r.dims, s4, ?_, fun x => ?_⟩, fun {tu} ht hp times => ?_⟩
  · have hev := r1
    unfold ArrME.evaluate at hev
    split at hev
    · cases hev
    · split at hev
      · refine (evalArr_has (fun y hy => ?_) e.expr hev).1
        rcases List.mem_cons.1 hy with rfl | hy
        · simp [ArrInput.toArr, Dict.keys]
        · exact h.dims y hy
      · cases hev
  · rw [r4]
    simp [ArrInput.toArr]
  · obtain ⟨a, a1, a2, a3, a4, ⟨t, b, t1, t2, b1, b2⟩, a5⟩ := interpArr_ok h hv hf hn ht hp hd times
    refine ⟨a, by unfold ArrTimeExpr.interp; rw [s1, s2]; exact a1, by rw [a2, s3, r2], fun htu => ?_, a3, a4, a5⟩
    subst htu
    have hw := element_wf h fun _ => 0
    have hcm : ∀ q : Q ι, (e.element fun _ => 0).Complete [(v, .quantity q)] := fun q =>
      complete hw (by rw [element_names]; simp [hv, Dict.keys])
    have hta : Fits (e.args [(v, .array t)]) (fun s => if s = "time" then times.length else len s) co := by
      unfold timeArr at t1
      split at t1
      · cases t1
        constructor
        · intro x hx d hd
          rcases List.mem_cons.1 hx with rfl | hx
          · simp only [ArrInput.toArr, List.mem_singleton] at hd
            subst hd
            simp
          · have hne : d.1 ≠ "time" := fun hc => hn x hx (by rw [← hc]; exact List.mem_map_of_mem hd)
            rw [if_neg hne]
            exact hf.len x hx d hd
        · intro x hx d hd
          rcases List.mem_cons.1 hx with rfl | hx
          · cases hd
          · exact hf.co x hx d hd
      · cases t1
    have q1 : (e.element fun _ => 0).evaluate [(v, .quantity (t.at fun _ => 0))] = .ok (.qty (b.at fun _ => 0)) := by
      rcases C104_arrays e [(v, .array t)] hta with ⟨w, w1, w2, -⟩ | ⟨x, x1, -⟩
      · rw [b1] at w1
        cases w1
        exact w2 fun _ => 0
      · rw [b1] at x1; cases x1
    have q2 : (e.element fun _ => 0).evaluate [(v, .quantity ⟨1, tu⟩)] = .ok (.qty (r.at fun _ => 0)) := by
      rcases C104_arrays e [(v, .quantity ⟨1, tu⟩)] (fits_scalar hf v _) with ⟨w, w1, w2, -⟩ | ⟨x, x1, -⟩
      · rw [r1] at w1
        cases w1
        exact w2 fun _ => 0
      · rw [r1] at x1; cases x1
    rcases C104_unit (hcm (t.at fun _ => 0)) (hcm ⟨1, tu⟩) (fun s' => by
      rw [get_args, get_args]
      simp only [Dict.get?]
      split
      · simp [Input.toQ, QArr.at, t2]
      · rfl) with ⟨x, y, c1, c2, c3⟩ | ⟨y, c1, c2⟩
    · rw [q1] at c1
      rw [q2] at c2
      cases c1
      cases c2
      rw [b2, s3]
      simpa [Val.unit?, QArr.at] using c3
    · rw [q1] at c1; cases c1

/-! ### example -/

namespace Demo

theorem movesArr_wf : movesArr.WF where
  nodup := by simp [movesArr, Dict.keys]
  known := by
    intro s hs
    simp only [movesArr, Dict.keys, List.map_cons, List.map_nil, List.mem_cons, List.not_mem_nil, or_false] at hs
    rcases hs with rfl | rfl <;> simp [movesArr, Ex.free, Ex.syms]
  positive := by
    intro s q h
    have := Dict.mem_of_get? h
    simp only [movesArr, List.mem_cons, Prod.mk.injEq, List.not_mem_nil, or_false] at this
    rcases this with ⟨_, rfl⟩ | ⟨_, rfl⟩ <;> norm_num [mmPerMinute, cm]
  dims := by
    intro x hx
    simp only [movesArr, List.mem_cons, List.not_mem_nil, or_false] at hx
    rcases hx with rfl | rfl <;> simp [Dict.keys]

/-- The hypotheses are met: two positions, 5 cm + 1 mm per minute after 30 s is 50.5 mm. -/
example : ∃ s, createTimeArr second movesArr = .ok s ∧ s.shape = [2] ∧ ∃ a, s.interp second [30 * 10 ^ 9] second = .ok a ∧
    a.val (fun d => if d = "c" then 1 else 0) * a.unit.factor = 50.5 / 1000 := by
  have hs : 0 < second.factor := by norm_num [second]
  have hf : Fits movesArr.params (fun _ => 2) (fun _ => []) := ⟨by simp [movesArr], by simp [movesArr]⟩
  have hfree : movesArr.expr.free = ["a", "t", "b"] := by simp [movesArr, Ex.free, Ex.syms]
  have hv : movesArr.variableNames = ["t"] := by
    unfold ArrME.variableNames
    rw [hfree]
    simp [movesArr, Dict.keys]
  have hd : movesArr.expr.HasDim (arrDims movesArr second) (dim 1 0) := by
    refine .add ?_ (.sym "b")
    have := Ex.HasDim.mul (.sym (δ := arrDims movesArr second) "a") (.sym "t")
    have e : arrDims movesArr second "a" + arrDims movesArr second "t" = dim 1 0 := by
      show dim 1 (-1) + dim 0 1 = _
      rw [dim_add]; norm_num
    rw [e] at this
    exact this
  obtain ⟨s, h⟩ := (C104_time_arrays hs movesArr_wf hf).1.2 ⟨⟨_, hv⟩, ⟨_, hd⟩, by
    intro x hx
    simp only [movesArr, List.mem_cons, List.not_mem_nil, or_false] at hx
    rcases hx with rfl | rfl <;> simp [Dict.keys]⟩
  obtain ⟨⟨ds, d1, d2, d3⟩, hi⟩ := C104_time_arrays_value hs movesArr_wf hf h
  obtain ⟨a, a1, -, -, -, -, a5⟩ := hi (tu := second) rfl hs [30 * 10 ^ 9]
  refine ⟨s, h, ?_, a, a1, ?_⟩
  · have hm : ∀ d, d ∈ ds ↔ d = ("c", 2) := fun d => by rw [d3]; simp [movesArr]
    have : ds = [("c", 2)] := by
      cases ds with
      | nil => exact absurd ((hm _).2 rfl) (by simp)
      | cons x l =>
        have hx := (hm x).1 (by simp)
        subst hx
        cases l with
        | nil => rfl
        | cons y l =>
          have hy := (hm y).1 (by simp)
          subst hy
          simp [Dict.keys] at d2
    rw [d1, this]
    rfl
  · rw [a5 _ (30 * 10 ^ 9) (by simp)]
    show (((if ("c" : String) = "c" then 1 else 0 : ℕ) : ℝ) * mmPerMinute.factor) * (((30 * 10 ^ 9 : ℤ) : ℝ) * (second.factor / 10 ^ 9)) +
      5 * cm.factor = 50.5 / 1000
    norm_num [mmPerMinute, second, cm]

end Demo

end Weldx.Pint
