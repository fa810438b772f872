import Verif.MathExpr.UnitsTime
import Verif.MathExpr.Series

/-!
# Generic series of expressions with arrays and units (C104)

Source: `/repo/weldx/core/generic_series.py` 290-297 (`_init_get_updated_dims`), 299-321 (`_init_get_updated_units`), 323-356
(`_init_expression`), 358-405 (`_test_expr`), 465-533 (`evaluate`, `_evaluate_expr`).

Simplifications: those of `Verif/MathExpr/UnitsArrays.lean`; coordinates are lists of numbers with a unit (a single number is a list of one
number in a full evaluation, in a partial evaluation it fails, see `C36_series_number`); the constraints of derived classes are in
`Verif/Series/Init.lean`.
-/

namespace Weldx.Pint

open Weldx.Me (joinLabels symbolOf)

variable {ι : Type}

/-! ### model -/

/-- `GenericSeries` with an expression: the attributes `_obj`, `_symbol_dims`, `_variable_units` and `_units` -/
structure GenArr (ι : Type) where
  me : ArrME ι
  symbolDims : List (String × String)
  variableUnits : List (String × Unit ι)
  units : Unit ι

/-- a `GenericSeries`: an expression or an array -/
inductive ArrGS (ι : Type)
  | expr (s : GenArr ι)
  | array (a : QArr ι)

/-- the kinds of exceptions -/
inductive GErr
  | keyError | unboundLocal | arr (e : AErr)
deriving DecidableEq

/-- the dimension of a variable, `generic_series.py` 296 -/
def dimName (dims : List (String × String)) (v : String) : String := (Dict.get? dims v).getD v

/-- `_init_get_updated_units`, 299-321: variables without unit are numbers -/
def ArrME.allUnits (me : ArrME ι) (units : List (String × Unit ι)) : List (String × Unit ι) :=
  units ++ (me.variableNames.filter (· ∉ Dict.keys units)).map fun v => (v, .one)

/-- the arrays of the test evaluations, 384-389 -/
noncomputable def testArrays (dims : List (String × String)) (us : List (String × Unit ι)) (offset : ℕ) : List (String × ArrInput ι) :=
  us.mapIdx fun n x => (x.1, .array ⟨[(dimName dims x.1, n + 2 + offset)], [], fun i => i (dimName dims x.1), x.2⟩)

/-- the two test evaluations with arrays, 378-389 -/
noncomputable def testBoth (me : ArrME ι) (dims : List (String × String)) (us : List (String × Unit ι)) : Except AErr _root_.Unit :=
  match me.evaluate (testArrays dims us 0) with
  | .error x => .error x
  | .ok _ => match me.evaluate (testArrays dims us 1) with
    | .error x => .error x
    | .ok _ => .ok ()

/-- `_init_expression` and `_test_expr`, 323-405. `reduce` is the unit of `to_reduced_units`. A `ValueError` of the first evaluation is
left to the next check (375). -/
noncomputable def createGeneric (reduce : Unit ι → Unit ι) (me : ArrME ι) (dims : List (String × String))
    (units : List (String × Unit ι)) : Except GErr (GenArr ι) :=
  if me.numVariables = 0 then .error (.arr (.pint .valueError))
  else if ∃ k ∈ Dict.keys units, k ∉ me.variableNames then .error .keyError
  else match me.evaluate ((me.allUnits units).map fun x => (x.1, .quantity ⟨1, x.2⟩)) with
    | .error (.pint .valueError) => match testBoth me dims (me.allUnits units) with
      | .error x => .error (.arr x)
      | .ok _ => .error .unboundLocal
    | .error x => .error (.arr x)
    | .ok (.num _) => .error (.arr (.pint .typeError))
    | .ok (.arr a) => match testBoth me dims (me.allUnits units) with
      | .error x => .error (.arr x)
      | .ok _ => .ok ⟨me, me.variableNames.map fun v => (v, dimName dims v), me.allUnits units, reduce a.unit⟩

/-- `_quantity_to_xarray`, 895-897 -/
noncomputable def vecArr (d : String) (vs : List ℝ) (u : Unit ι) : QArr ι := ⟨[(d, vs.length)], [], fun i => vs.getD (i d) 0, u⟩

/-- 517-521: the argument of a full evaluation -/
noncomputable def fullArr (d : String) (vs : List ℝ) (u : Unit ι) : QArr ι := { vecArr d vs u with coords := [(d, vs)] }

/-- 526-532: the loop that turns coordinates into parameters -/
noncomputable def fixArr (s : GenArr ι) : List (String × List ℝ × Unit ι) → Except GErr (ArrGS ι)
  | [] => .ok (.expr s)
  | (d, vs, u) :: t =>
    if symbolOf s.symbolDims d ∉ s.me.expr.free then .error (.arr (.pint .valueError))
    else if symbolOf s.symbolDims d ∉ Dict.keys s.symbolDims then .error .keyError
    else fixArr ⟨⟨s.me.expr, Dict.set s.me.params (symbolOf s.symbolDims d) (vecArr d vs u)⟩,
      Dict.erase s.symbolDims (symbolOf s.symbolDims d), Dict.erase s.variableUnits (symbolOf s.symbolDims d), s.units⟩ t

/-- `evaluate`, 465-533; the interpolation of arrays is in `Verif/Series/Discrete.lean` -/
noncomputable def ArrGS.evaluate (g : ArrGS ι) (coords : List (String × List ℝ × Unit ι)) : Except GErr (ArrGS ι) := match g with
  | .array _ => .error (.arr .notModelled)
  | .expr s =>
    if (coords.length : Int) = s.me.numVariables then
      match s.me.evaluate (coords.map fun x => (symbolOf s.symbolDims x.1, .array (fullArr x.1 x.2.1 x.2.2))) with
      | .error x => .error (.arr x)
      | .ok (.num _) => .error (.arr (.pint .typeError))
      | .ok (.arr a) => .ok (.array a)
    else fixArr s coords

/-- several evaluations one after the other -/
noncomputable def ArrGS.evaluates (g : ArrGS ι) : List (List (String × List ℝ × Unit ι)) → Except GErr (ArrGS ι)
  | [] => .ok g
  | c :: t => match g.evaluate c with
    | .error x => .error x
    | .ok g' => g'.evaluates t

/-! ### specification -/

/-- the dimensionalities of the symbols for given ones of the variables -/
def arrDimsWith (e : ArrME ι) (δ : String → Dim ι) (s : String) : Dim ι := match Dict.get? e.params s with
  | some a => a.unit.dim
  | none => δ s

/-- the dimensionality that the user declared for a variable -/
def declared (units : List (String × Unit ι)) (s : String) : Dim ι := match Dict.get? units s with
  | some u => u.dim
  | none => 0

/-- the value of a symbol in base units at a position, for given coordinates of the dimensions -/
noncomputable def symbolValue (e : ArrME ι) (sd : List (String × String)) (all : List (String × List ℝ × Unit ι)) (i : String → ℕ)
    (s : String) : ℝ := match Dict.get? e.params s with
  | some a => a.val i * a.unit.factor
  | none => match Dict.get? sd s with
    | none => 0
    | some d => match Dict.get? all d with
      | none => 0
      | some x => x.1.getD (i d) 0 * x.2.factor

/-! ### lemmas -/

theorem args_get (e : ArrME ι) (kw : List (String × ArrInput ι)) (s : String) :
    Dict.get? (e.args kw) s = ((Dict.get? kw s).map ArrInput.toArr).or (Dict.get? e.params s) := by
  unfold ArrME.args
  rw [Dict.get?_append]
  congr 1
  induction kw with
  | nil => rfl
  | cons x t ih =>
    obtain ⟨k, v⟩ := x
    simp only [List.map_cons, Dict.get?]
    split
    · rfl
    · exact ih

theorem names_mem {e : ArrME ι} {s : String} : s ∈ e.variableNames ↔ s ∈ e.expr.syms ∧ s ∉ Dict.keys e.params := by
  simp [ArrME.variableNames, Ex.free]

theorem args_keys {e : ArrME ι} (h : e.WF) {kw : List (String × ArrInput ι)} (hk : ∀ s, s ∈ Dict.keys kw ↔ s ∈ e.variableNames) (s : String) :
    s ∈ Dict.keys (e.args kw) ↔ s ∈ e.expr.syms := by
  have : Dict.keys (kw.map fun x => (x.1, x.2.toArr)) = Dict.keys kw := by simp [Dict.keys, List.map_map, Function.comp_def]
  unfold ArrME.args
  rw [Dict.keys_append, List.mem_append, this, hk, names_mem]
  constructor
  · rintro (hs | hs)
    · exact hs.1
    · simpa [Ex.free] using h.known s hs
  · intro hs
    by_cases hp : s ∈ Dict.keys e.params
    · exact .inr hp
    · exact .inl ⟨hs, hp⟩

/-- the evaluation with values for all variables -/
theorem evaluate_all {e : ArrME ι} (h : e.WF) {kw : List (String × ArrInput ι)} (hk : ∀ s, s ∈ Dict.keys kw ↔ s ∈ e.variableNames)
    (hp : ∀ s x, Dict.get? kw s = some x → 0 < x.toArr.unit.factor) {len : String → ℕ} {co : String → List ℝ}
    (hf : Fits (e.args kw) len co) (hne : e.variableNames ≠ []) :
    (∀ d, e.expr.HasDim (arrDimOf (e.args kw)) d → ∃ a, e.evaluate kw = .ok (.arr a) ∧ a.unit.dim = d ∧
      (∀ i, a.val i * a.unit.factor =
        e.expr.value (fun s => ((Dict.get? (e.args kw) s).map fun a => a.val i * a.unit.factor).getD 0)) ∧
      (∀ d, d ∈ a.dims ↔ ∃ s ∈ e.expr.syms, ∃ b, Dict.get? (e.args kw) s = some b ∧ d ∈ b.dims) ∧
      ∀ d, d ∈ a.coords ↔ ∃ s ∈ e.expr.syms, ∃ b, Dict.get? (e.args kw) s = some b ∧ d ∈ b.coords) ∧
    ((¬ ∃ d, e.expr.HasDim (arrDimOf (e.args kw)) d) → e.evaluate kw = .error (.pint .dimensionality)) := by
  have hkp : ∀ s ∈ Dict.keys kw, s ∉ Dict.keys e.params := fun s hs => (names_mem.1 ((hk s).1 hs)).2
  have hpos : ∀ s a, Dict.get? (e.args kw) s = some a → 0 < a.unit.factor := by
    intro s a ha
    rw [args_get] at ha
    cases hg : Dict.get? kw s with
    | some x =>
      rw [hg] at ha
      cases ha
      exact hp s x hg
    | none =>
      rw [hg] at ha
      exact h.positive s a ha
  have hsy : e.expr.syms ≠ [] := fun h0 => by
    obtain ⟨v, hv⟩ := List.exists_mem_of_ne_nil _ hne
    have := (names_mem.1 hv).1
    rw [h0] at this
    cases this
  rcases C104_arrays_value hf hkp (args_keys h hk) hpos with ⟨v, v1, v2⟩ | ⟨v1, v2⟩
  · refine ⟨fun d hd => ?_, fun hn => absurd ⟨_, ((v2 fun _ => 0).2 _).2 rfl⟩ hn⟩
    rcases C104_arrays e kw hf with ⟨w, w1, w2, w3, w4⟩ | ⟨x, x1, -⟩
    · rw [v1] at w1
      cases w1
      have hkw : ∀ i : String → ℕ, Dict.keys (kw.map fun x => (x.1, x.2.element i)) = Dict.keys kw := fun i => by
        simp [Dict.keys, List.map_map, Function.comp_def]
      have hcomp : (e.element fun _ => 0).Complete (kw.map fun x => (x.1, x.2.element fun _ => 0)) := by
        refine complete (element_wf h _) fun s => ?_
        rw [hkw, element_names]
        exact hk s
      have hpe : Positive ((e.element fun _ => 0).args (kw.map fun x => (x.1, x.2.element fun _ => 0))) := by
        intro s q hq
        rw [args_element, elements_get] at hq
        cases hg : Dict.get? (e.args kw) s with
        | none => rw [hg] at hq; cases hq
        | some a => rw [hg] at hq; cases hq; exact hpos s a hg
      obtain ⟨r, hr, -⟩ := evaluate_qty hcomp hpe hsy (w2 fun _ => 0)
      cases v with
      | num k => cases hr
      | arr a => exact ⟨a, v1, (((v2 fun _ => 0).2 d).1 hd).symm, fun i => (v2 i).1, w3, w4⟩
    · rw [v1] at x1; cases x1
  · exact ⟨fun d hd => absurd ⟨d, hd⟩ v2, fun _ => v1⟩

theorem allUnits_keys {e : ArrME ι} {units : List (String × Unit ι)} (hk : ∀ k ∈ Dict.keys units, k ∈ e.variableNames) (x : String) :
    x ∈ Dict.keys (e.allUnits units) ↔ x ∈ e.variableNames := by
  have : Dict.keys ((e.variableNames.filter (· ∉ Dict.keys units)).map fun v => (v, (Unit.one : Unit ι))) =
      e.variableNames.filter (· ∉ Dict.keys units) := by simp [Dict.keys, List.map_map, Function.comp_def]
  unfold ArrME.allUnits
  rw [Dict.keys_append, List.mem_append, this, List.mem_filter]
  constructor
  · rintro (h | h)
    exacts [hk x h, h.1]
  · intro h
    by_cases hu : x ∈ Dict.keys units
    exacts [.inl hu, .inr ⟨h, by simpa using hu⟩]

theorem allUnits_nodup {e : ArrME ι} {units : List (String × Unit ι)} (hn : (Dict.keys units).Nodup) : (Dict.keys (e.allUnits units)).Nodup := by
  have : Dict.keys ((e.variableNames.filter (· ∉ Dict.keys units)).map fun v => (v, (Unit.one : Unit ι))) =
      e.variableNames.filter (· ∉ Dict.keys units) := by simp [Dict.keys, List.map_map, Function.comp_def]
  unfold ArrME.allUnits
  rw [Dict.keys_append, this, List.nodup_append]
  refine ⟨hn, ((List.nodup_dedup _).filter _).filter _, ?_⟩
  intro a ha b hb hab
  subst hab
  have := (List.mem_filter.1 hb).2
  simp only [decide_eq_true_eq] at this
  exact this ha

theorem allUnits_dim {e : ArrME ι} {units : List (String × Unit ι)} {s : String} {u : Unit ι}
    (h : Dict.get? (e.allUnits units) s = some u) : u.dim = declared units s := by
  unfold ArrME.allUnits at h
  rw [Dict.get?_append] at h
  unfold declared
  cases hg : Dict.get? units s with
  | some w => rw [hg] at h; cases h; rfl
  | none =>
    rw [hg] at h
    obtain ⟨v, -, hv⟩ := List.mem_map.1 (Dict.mem_of_get? h)
    cases hv
    rfl

/-- the dimensionalities of the arguments are the declared ones -/
theorem dims_args {e : ArrME ι} {kw : List (String × ArrInput ι)} (hk : ∀ s, s ∈ Dict.keys kw ↔ s ∈ e.variableNames)
    {δ : String → Dim ι} (hd : ∀ s x, Dict.get? kw s = some x → x.toArr.unit.dim = δ s) :
    ∀ s ∈ e.expr.syms, arrDimOf (e.args kw) s = arrDimsWith e δ s := by
  intro s hs
  unfold arrDimOf arrDimsWith
  rw [args_get]
  cases hg : Dict.get? kw s with
  | some x =>
    have : Dict.get? e.params s = none :=
      Dict.get?_eq_none.2 (names_mem.1 ((hk s).1 (Dict.get?_isSome.1 ⟨x, hg⟩))).2
    rw [this]
    exact hd s x hg
  | none =>
    have hn : s ∉ Dict.keys kw := Dict.get?_eq_none.1 hg
    rw [hk, names_mem] at hn
    have hp : s ∈ Dict.keys e.params := by
      by_contra hc
      exact hn ⟨hs, hc⟩
    obtain ⟨a, ha⟩ := Dict.get?_isSome.2 hp
    rw [ha]
    rfl

theorem testArrays_mem {dims : List (String × String)} {us : List (String × Unit ι)} {off : ℕ} {y : String × ArrInput ι}
    (h : y ∈ testArrays dims us off) : ∃ (n : ℕ) (x : String × Unit ι), us[n]? = some x ∧
      y = (x.1, .array ⟨[(dimName dims x.1, n + 2 + off)], [], fun i => i (dimName dims x.1), x.2⟩) := by
  unfold testArrays at h
  obtain ⟨n, hn, rfl⟩ := List.mem_mapIdx.1 h
  exact ⟨n, us[n], by simp, rfl⟩

theorem testArrays_of {dims : List (String × String)} {us : List (String × Unit ι)} {off n : ℕ} {x : String × Unit ι}
    (h : us[n]? = some x) :
    (x.1, .array ⟨[(dimName dims x.1, n + 2 + off)], [], fun i => i (dimName dims x.1), x.2⟩) ∈ testArrays dims us off := by
  unfold testArrays
  obtain ⟨hn, rfl⟩ := List.getElem?_eq_some_iff.1 h
  exact List.mem_mapIdx.2 ⟨n, hn, rfl⟩

theorem testArrays_keys (dims : List (String × String)) (us : List (String × Unit ι)) (off : ℕ) :
    Dict.keys (testArrays dims us off) = Dict.keys us := by
  unfold testArrays Dict.keys
  apply List.ext_getElem
  · simp
  · intro i h1 h2
    simp

/-- a successful evaluation has all dimensions of its arguments, each with one length -/
theorem evaluate_has {e : ArrME ι} (h : e.WF) {kw : List (String × ArrInput ι)} (hk : ∀ s, s ∈ Dict.keys kw ↔ s ∈ e.variableNames)
    (hn : (Dict.keys kw).Nodup) (hd : ∀ x ∈ kw, (Dict.keys x.2.toArr.dims).Nodup) {v : VArr ι} (hv : e.evaluate kw = .ok v) :
    (Dict.keys v.dims).Nodup ∧ (∀ x ∈ kw, ∀ d ∈ x.2.toArr.dims, d ∈ v.dims) ∧ ∀ x ∈ e.params, ∀ d ∈ x.2.dims, d ∈ v.dims := by
  unfold ArrME.evaluate at hv
  split at hv
  · cases hv
  · split at hv
    · have H := evalArr_has (env := e.args kw) (fun y hy => by
        rcases List.mem_append.1 hy with hy | hy
        · obtain ⟨x, hx, rfl⟩ := List.mem_map.1 hy
          exact hd x hx
        · exact h.dims y hy) e.expr hv
      refine ⟨H.1, ?_, ?_⟩
      · rintro ⟨k, x⟩ hx d hdx
        have hkk := (hk k).1 (Dict.mem_keys_of_mem hx)
        refine H.2 k (names_mem.1 hkk).1 x.toArr ?_ d hdx
        rw [args_get, Dict.get?_of_mem hn hx]
        rfl
      · rintro ⟨k, x⟩ hx d hdx
        have hkk := Dict.mem_keys_of_mem hx
        refine H.2 k (by simpa [Ex.free] using h.known k hkk) x ?_ d hdx
        have : Dict.get? kw k = none := Dict.get?_eq_none.2 fun hc => (names_mem.1 ((hk k).1 hc)).2 hkk
        rw [args_get, this, Dict.get?_of_mem h.nodup hx]
        rfl
    · cases hv

/-- every variable has a dimension of its own -/
def OwnDims (e : ArrME ι) (D : String → String) : Prop :=
  (∀ v ∈ e.variableNames, ∀ w ∈ e.variableNames, D v = D w → v = w) ∧
    ∀ v ∈ e.variableNames, ∀ x ∈ e.params, D v ∉ Dict.keys x.2.dims

theorem testArrays_fits {e : ArrME ι} {dims : List (String × String)} {us : List (String × Unit ι)}
    (hus : ∀ x, x ∈ Dict.keys us ↔ x ∈ e.variableNames) (hn : (Dict.keys us).Nodup) {len : String → ℕ} {co : String → List ℝ}
    (hf : Fits e.params len co) (ho : OwnDims e (dimName dims)) (off : ℕ) : ∃ len', Fits (e.args (testArrays dims us off)) len' co := by
  refine ⟨fun d => if ∃ v ∈ e.variableNames, dimName dims v = d then us.findIdx (fun x => dimName dims x.1 = d) + 2 + off else len d, ?_, ?_⟩
  · intro y hy d hd
    rcases List.mem_append.1 hy with hy | hy
    · obtain ⟨z, hz, rfl⟩ := List.mem_map.1 hy
      obtain ⟨n, x, hx, rfl⟩ := testArrays_mem hz
      simp only [ArrInput.toArr, List.mem_singleton] at hd
      subst hd
      have hxm : x.1 ∈ e.variableNames := (hus _).1 (List.mem_map_of_mem (List.mem_of_getElem? hx))
      rw [if_pos ⟨x.1, hxm, rfl⟩]
      obtain ⟨hl, hxe⟩ := List.getElem?_eq_some_iff.1 hx
      have : us.findIdx (fun y => decide (dimName dims y.1 = dimName dims x.1)) = n := by
        rw [List.findIdx_eq hl]
        refine ⟨by simp [hxe], fun j hj => ?_⟩
        have hj' : j < us.length := hj.trans hl
        rw [Bool.eq_false_iff]
        simp only [ne_eq, decide_eq_true_eq]
        intro hc
        have hv := ho.1 us[j].1 ((hus _).1 (List.mem_map_of_mem (List.getElem_mem hj'))) x.1 hxm hc
        have : (Dict.keys us)[j]'(by simpa [Dict.keys] using hj') = (Dict.keys us)[n]'(by simpa [Dict.keys] using hl) := by
          simp only [Dict.keys, List.getElem_map]
          rw [hv, hxe]
        exact absurd ((List.Nodup.getElem_inj_iff hn).1 this) (by omega)
      show n + 2 + off = _
      rw [this]
    · have : ¬ ∃ v ∈ e.variableNames, dimName dims v = d.1 := by
        rintro ⟨v, hv, he⟩
        exact ho.2 v hv y hy (by rw [he]; exact List.mem_map_of_mem hd)
      rw [if_neg this]
      exact hf.len y hy d hd
  · intro y hy d hd
    rcases List.mem_append.1 hy with hy | hy
    · obtain ⟨z, hz, rfl⟩ := List.mem_map.1 hy
      obtain ⟨n, x, hx, rfl⟩ := testArrays_mem hz
      cases hd
    · exact hf.co y hy d hd

/-! ### creation -/

/-- **C104.** A generic series can be created from an expression with arrays as parameters exactly if it has variables, all given units are
those of variables, the dimensionalities fit with the given units, the parameters agree about the lengths of their dimensions, and every
variable has a dimension that no other variable and no parameter has. -/
theorem C104_generic_create {reduce : Unit ι → Unit ι} {e : ArrME ι} (h : e.WF) {dims : List (String × String)}
    {units : List (String × Unit ι)} (hn : (Dict.keys units).Nodup)
    (hu : ∀ s u, Dict.get? (e.allUnits units) s = some u → 0 < u.factor) {co : String → List ℝ}
    (hco : ∀ x ∈ e.params, ∀ d ∈ x.2.coords, d.2 = co d.1) :
    (∃ s, createGeneric reduce e dims units = .ok s) ↔ e.variableNames ≠ [] ∧ (∀ k ∈ Dict.keys units, k ∈ e.variableNames) ∧
      (∃ d, e.expr.HasDim (arrDimsWith e (declared units)) d) ∧ (∃ len, Fits e.params len co) ∧ OwnDims e (dimName dims) := by
  have hkn := allUnits_nodup (e := e) hn
  have hget : ∀ s x, Dict.get? ((e.allUnits units).map fun x => (x.1, ArrInput.quantity ⟨1, x.2⟩)) s = some x →
      ∃ u, Dict.get? (e.allUnits units) s = some u ∧ x = .quantity ⟨1, u⟩ := by
    intro s x hx
    obtain ⟨y, hy, hxy⟩ := List.mem_map.1 (Dict.mem_of_get? hx)
    cases hxy
    exact ⟨y.2, Dict.get?_of_mem hkn hy, rfl⟩
  have hnum : e.numVariables = 0 ↔ e.variableNames = [] := by
    rw [arr_num_variables h]
    simp
  constructor
  · rintro ⟨s, hs⟩
    unfold createGeneric at hs
    split at hs
    · cases hs
    rename_i h0
    split at hs
    · cases hs
    rename_i hk
    push Not at hk
    have hne : e.variableNames ≠ [] := fun hc => h0 (hnum.2 hc)
    have hks := allUnits_keys hk
    have ht : ∃ v w a, e.evaluate (testArrays dims (e.allUnits units) 0) = .ok v ∧ e.evaluate (testArrays dims (e.allUnits units) 1) = .ok w ∧
        e.evaluate ((e.allUnits units).map fun x => (x.1, .quantity ⟨1, x.2⟩)) = .ok (.arr a) := by
      split at hs
      · split at hs <;> cases hs
      · cases hs
      · cases hs
      · rename_i a ha
        split at hs
        · cases hs
        · rename_i ht
          unfold testBoth at ht
          split at ht
          · cases ht
          · rename_i v hv
            split at ht
            · cases ht
            · rename_i w hw
              exact ⟨v, w, a, hv, hw, ha⟩
    obtain ⟨v, w, a, hv, hw, ha⟩ := ht
    have htk : ∀ off s, s ∈ Dict.keys (testArrays dims (e.allUnits units) off) ↔ s ∈ e.variableNames := fun off s => by
      rw [testArrays_keys]; exact hks s
    have htd : ∀ off, ∀ x ∈ testArrays dims (e.allUnits units) off, (Dict.keys x.2.toArr.dims).Nodup := by
      intro off x hx
      obtain ⟨n, y, -, rfl⟩ := testArrays_mem hx
      simp [ArrInput.toArr, Dict.keys]
    obtain ⟨v1, v2, v3⟩ := evaluate_has h (htk 0) (by rw [testArrays_keys]; exact hkn) (htd 0) hv
    obtain ⟨w1, w2, w3⟩ := evaluate_has h (htk 1) (by rw [testArrays_keys]; exact hkn) (htd 1) hw
    have hfit : Fits e.params (fun d => (Dict.get? v.dims d).getD 0) co :=
      ⟨fun x hx d hd => by rw [Dict.get?_of_mem v1 (v3 x hx d hd)]; rfl, hco⟩
    have hidx : ∀ x ∈ e.variableNames, ∃ (n : ℕ) (u : Unit ι), (e.allUnits units)[n]? = some (x, u) := by
      intro x hx
      obtain ⟨u, hu⟩ := Dict.mem_keys_iff.1 ((hks x).2 hx)
      obtain ⟨n, hn⟩ := List.getElem?_of_mem hu
      exact ⟨n, u, hn⟩
    refine ⟨hne, hk, ?_, ⟨_, hfit⟩, ?_, ?_⟩
    · have hsc : Fits (e.args ((e.allUnits units).map fun x => (x.1, ArrInput.quantity ⟨1, x.2⟩))) (fun d => (Dict.get? v.dims d).getD 0) co := by
        constructor
        · intro x hx d hd
          rcases List.mem_append.1 hx with hx | hx
          · obtain ⟨y, hy, rfl⟩ := List.mem_map.1 hx
            obtain ⟨z, hz, rfl⟩ := List.mem_map.1 hy
            cases hd
          · exact hfit.len x hx d hd
        · intro x hx d hd
          rcases List.mem_append.1 hx with hx | hx
          · obtain ⟨y, hy, rfl⟩ := List.mem_map.1 hx
            obtain ⟨z, hz, rfl⟩ := List.mem_map.1 hy
            cases hd
          · exact hfit.co x hx d hd
      have hk2 : ∀ s, s ∈ Dict.keys ((e.allUnits units).map fun x => (x.1, ArrInput.quantity ⟨1, x.2⟩)) ↔ s ∈ e.variableNames := by
        intro s
        rw [← hks s]
        simp [Dict.keys, List.map_map, Function.comp_def]
      obtain ⟨-, g2⟩ := evaluate_all h hk2 (fun s x hx => by
        obtain ⟨u, hu1, rfl⟩ := hget s x hx
        exact hu s u hu1) hsc hne
      by_contra hc
      rw [g2 fun ⟨d, hd⟩ => hc ⟨d, hd.congr (dims_args hk2 fun s x hx => by
        obtain ⟨u, hu1, rfl⟩ := hget s x hx
        exact allUnits_dim hu1)⟩] at ha
      cases ha
    · intro x hx y hy hxy
      obtain ⟨n, u, hn⟩ := hidx x hx
      obtain ⟨m, u', hm⟩ := hidx y hy
      have e1 := Dict.get?_of_mem v1 (v2 _ (testArrays_of hn) (dimName dims x, n + 2 + 0) (by simp [ArrInput.toArr]))
      have e2 := Dict.get?_of_mem v1 (v2 _ (testArrays_of hm) (dimName dims y, m + 2 + 0) (by simp [ArrInput.toArr]))
      rw [hxy, e2] at e1
      have : n = m := by
        have := Option.some.inj e1
        omega
      subst this
      rw [hn] at hm
      cases hm
      rfl
    · intro x hx p hp hc
      obtain ⟨k, hk⟩ := Dict.mem_keys_iff.1 hc
      obtain ⟨n, u, hn⟩ := hidx x hx
      have e1 := Dict.get?_of_mem v1 (v2 _ (testArrays_of hn) (dimName dims x, n + 2 + 0) (by simp [ArrInput.toArr]))
      have e2 := Dict.get?_of_mem w1 (w2 _ (testArrays_of hn) (dimName dims x, n + 2 + 1) (by simp [ArrInput.toArr]))
      rw [Dict.get?_of_mem v1 (v3 p hp _ hk)] at e1
      rw [Dict.get?_of_mem w1 (w3 p hp _ hk)] at e2
      have a1 := Option.some.inj e1
      have a2 := Option.some.inj e2
      omega
  · rintro ⟨hne, hk, ⟨d, hd⟩, ⟨len, hfit⟩, ho⟩
    have hks := allUnits_keys hk
    have hsc : Fits (e.args ((e.allUnits units).map fun x => (x.1, ArrInput.quantity ⟨1, x.2⟩))) len co := by
      constructor
      · intro x hx d hd
        rcases List.mem_append.1 hx with hx | hx
        · obtain ⟨y, hy, rfl⟩ := List.mem_map.1 hx
          obtain ⟨z, hz, rfl⟩ := List.mem_map.1 hy
          cases hd
        · exact hfit.len x hx d hd
      · intro x hx d hd
        rcases List.mem_append.1 hx with hx | hx
        · obtain ⟨y, hy, rfl⟩ := List.mem_map.1 hx
          obtain ⟨z, hz, rfl⟩ := List.mem_map.1 hy
          cases hd
        · exact hfit.co x hx d hd
    have hk2 : ∀ s, s ∈ Dict.keys ((e.allUnits units).map fun x => (x.1, ArrInput.quantity ⟨1, x.2⟩)) ↔ s ∈ e.variableNames := by
      intro s
      rw [← hks s]
      simp [Dict.keys, List.map_map, Function.comp_def]
    obtain ⟨a, a1, -⟩ := (evaluate_all h hk2 (fun s x hx => by
      obtain ⟨u, hu1, rfl⟩ := hget s x hx
      exact hu s u hu1) hsc hne).1 d (hd.congr fun s hs => (dims_args hk2 (fun s x hx => by
        obtain ⟨u, hu1, rfl⟩ := hget s x hx
        exact allUnits_dim hu1) s hs).symm)
    have hta : ∀ off, ∃ b, e.evaluate (testArrays dims (e.allUnits units) off) = .ok (.arr b) := by
      intro off
      obtain ⟨len', hf'⟩ := testArrays_fits hks hkn hfit ho off
      have htk : ∀ s, s ∈ Dict.keys (testArrays dims (e.allUnits units) off) ↔ s ∈ e.variableNames := fun s => by
        rw [testArrays_keys]; exact hks s
      have htg : ∀ s x, Dict.get? (testArrays dims (e.allUnits units) off) s = some x →
          ∃ u, Dict.get? (e.allUnits units) s = some u ∧ x.toArr.unit = u := by
        intro s x hx
        obtain ⟨n, y, hy, hxy⟩ := testArrays_mem (Dict.mem_of_get? hx)
        cases hxy
        exact ⟨y.2, Dict.get?_of_mem hkn (List.mem_of_getElem? hy), rfl⟩
      obtain ⟨b, b1, -⟩ := (evaluate_all h htk (fun s x hx => by
        obtain ⟨u, hu1, hu2⟩ := htg s x hx
        rw [hu2]
        exact hu s u hu1) hf' hne).1 d (hd.congr fun s hs => (dims_args htk (fun s x hx => by
          obtain ⟨u, hu1, hu2⟩ := htg s x hx
          rw [hu2]
          exact allUnits_dim hu1) s hs).symm)
      exact ⟨b, b1⟩
    obtain ⟨b0, hb0⟩ := hta 0
    obtain ⟨b1, hb1⟩ := hta 1
    unfold createGeneric
    rw [if_neg (fun hc => hne (hnum.1 hc)), if_neg (by push Not; exact hk)]
    simp only [a1, testBoth, hb0, hb1]
    exact ⟨_, rfl⟩

/-! ### evaluation -/

/-- expressions of series: every variable has a dimension that no other variable and no parameter has -/
structure Gen (s : GenArr ι) : Prop where
  wf : s.me.WF
  fits : ∃ len co, Fits s.me.params len co
  keys_nodup : (Dict.keys s.symbolDims).Nodup
  dims_nodup : (s.symbolDims.map Prod.snd).Nodup
  vars : ∀ x, x ∈ Dict.keys s.symbolDims ↔ x ∈ s.me.variableNames
  own : ∀ x ∈ s.me.params, ∀ d ∈ s.symbolDims.map Prod.snd, d ∉ Dict.keys x.2.dims ∧ d ∉ Dict.keys x.2.coords

/-- the dimensions of the parameters -/
def ParamDim (e : ArrME ι) (d : String × ℕ) : Prop := ∃ x ∈ e.params, d ∈ x.2.dims

theorem gen_length {s : GenArr ι} (h : Gen s) : s.me.numVariables = (s.symbolDims.length : Int) := by
  rw [arr_num_variables h.wf]
  have hn : s.me.variableNames.Nodup := (List.nodup_dedup _).filter _
  have : (Dict.keys s.symbolDims).Perm s.me.variableNames := by
    rw [List.perm_ext_iff_of_nodup h.keys_nodup hn]
    exact h.vars
  rw [← this.length_eq]
  simp [Dict.keys]

/-- one coordinate becomes a parameter -/
theorem gen_set {s : GenArr ι} (h : Gen s) {v d : String} (hv : (v, d) ∈ s.symbolDims) {vs : List ℝ} {u : Unit ι} (hu : 0 < u.factor) :
    Gen ⟨⟨s.me.expr, Dict.set s.me.params v (vecArr d vs u)⟩, Dict.erase s.symbolDims v, Dict.erase s.variableUnits v, s.units⟩ := by
  have hvm := names_mem.1 ((h.vars v).1 (Dict.mem_keys_of_mem hv))
  have hset : Dict.set s.me.params v (vecArr d vs u) = s.me.params ++ [(v, vecArr d vs u)] := Dict.set_of_not_mem hvm.2
  have hmem : ∀ x, x ∈ Dict.set s.me.params v (vecArr d vs u) ↔ x ∈ s.me.params ∨ x = (v, vecArr d vs u) := by
    intro x
    rw [hset]
    simp
  have hd : d ∈ s.symbolDims.map Prod.snd := List.mem_map.2 ⟨_, hv, rfl⟩
  refine ⟨⟨?_, ?_, ?_, ?_⟩, ?_, ?_, ?_, ?_, ?_⟩
  · exact Dict.nodup_keys_set h.wf.nodup
  · intro x hx
    rcases Dict.mem_keys_set.1 hx with hx | rfl
    · exact h.wf.known x hx
    · show x ∈ s.me.expr.free
      simpa [Ex.free] using hvm.1
  · intro x a ha
    rcases (hmem _).1 (Dict.mem_of_get? ha) with hx | hx
    · exact h.wf.positive x a (Dict.get?_of_mem h.wf.nodup hx)
    · cases hx
      exact hu
  · intro x hx
    rcases (hmem _).1 hx with hx | rfl
    · exact h.wf.dims x hx
    · simp [vecArr, Dict.keys]
  · obtain ⟨len, co, hf⟩ := h.fits
    refine ⟨fun x => if x = d then vs.length else len x, co, ?_, ?_⟩
    · intro x hx y hy
      rcases (hmem _).1 hx with hx | rfl
      · have : y.1 ≠ d := fun hc => (h.own x hx d hd).1 (by rw [← hc]; exact List.mem_map_of_mem hy)
        rw [if_neg this]
        exact hf.len x hx y hy
      · simp only [vecArr, List.mem_singleton] at hy
        subst hy
        simp
    · intro x hx y hy
      rcases (hmem _).1 hx with hx | rfl
      · exact hf.co x hx y hy
      · cases hy
  · show (Dict.keys (Dict.erase s.symbolDims v)).Nodup
    rw [Dict.keys_erase]
    exact h.keys_nodup.filter _
  · exact h.dims_nodup.sublist (List.Sublist.map _ List.filter_sublist)
  · intro x
    show x ∈ Dict.keys (Dict.erase s.symbolDims v) ↔ _
    rw [Dict.keys_erase, List.mem_filter, h.vars, names_mem, names_mem]
    show _ ↔ x ∈ s.me.expr.syms ∧ x ∉ Dict.keys (Dict.set s.me.params v (vecArr d vs u))
    rw [Dict.mem_keys_set]
    simp only [ne_eq, decide_not, Bool.not_eq_eq_eq_not, Bool.not_true, decide_eq_false_iff_not]
    tauto
  · intro x hx y hy
    obtain ⟨⟨w, y'⟩, hw, rfl⟩ := List.mem_map.1 hy
    obtain ⟨hw1, hw2⟩ := Dict.mem_erase.1 hw
    rcases (hmem _).1 hx with hx | rfl
    · exact h.own x hx y' (List.mem_map.2 ⟨_, hw1, rfl⟩)
    · refine ⟨?_, by simp [vecArr]⟩
      simp only [vecArr, Dict.keys, List.map_cons, List.map_nil, List.mem_singleton]
      intro hc
      subst hc
      have := List.inj_on_of_nodup_map h.dims_nodup hw1 hv rfl
      cases this
      exact hw2 rfl

/-- the loop that turns coordinates into parameters -/
theorem fixArr_spec (δ : String → Dim ι) : ∀ (cs : List (String × List ℝ × Unit ι)) {s : GenArr ι}, Gen s → (Dict.keys cs).Nodup →
    (∀ d ∈ Dict.keys cs, d ∈ s.symbolDims.map Prod.snd) → (∀ x ∈ cs, 0 < x.2.2.factor) →
    (∀ x ∈ cs, ∀ v, (v, x.1) ∈ s.symbolDims → x.2.2.dim = δ v) →
    ∃ s', fixArr s cs = .ok (.expr s') ∧ Gen s' ∧ s'.me.expr = s.me.expr ∧ s'.units = s.units ∧
      (∀ x, x ∈ s'.symbolDims ↔ x ∈ s.symbolDims ∧ x.2 ∉ Dict.keys cs) ∧
      (∀ x ∈ s.me.expr.syms, arrDimsWith s'.me δ x = arrDimsWith s.me δ x) ∧
      (∀ d, ParamDim s'.me d ↔ ParamDim s.me d ∨ ∃ x ∈ cs, d = (x.1, x.2.1.length)) ∧
      (∀ x, x ∈ s'.variableUnits ↔ x ∈ s.variableUnits ∧ ∀ d, (x.1, d) ∈ s.symbolDims → d ∉ Dict.keys cs) ∧
      ∀ all : List (String × List ℝ × Unit ι), (∀ x ∈ cs, Dict.get? all x.1 = some x.2) → ∀ i x,
        symbolValue s'.me s'.symbolDims all i x = symbolValue s.me s.symbolDims all i x
  | [], s, hg, _, _, _, _ => ⟨s, rfl, hg, rfl, rfl, by simp, fun _ _ => rfl, by simp, by simp, fun _ _ _ _ => rfl⟩
  | (d, vs, u) :: t, s, hg, hn, hk, hp, hd => by
    obtain ⟨⟨v, d'⟩, hv, hvd⟩ := List.mem_map.1 (hk d (by simp))
    have hvd' : d' = d := hvd
    subst hvd'
    have hsym : symbolOf s.symbolDims d' = v := Me.symbolOf_eq hg.dims_nodup hv
    have hvk := Dict.mem_keys_of_mem hv
    have hvm := names_mem.1 ((hg.vars v).1 hvk)
    have hg' := gen_set hg hv (vs := vs) (hp _ List.mem_cons_self)
    obtain ⟨hn1, hn2⟩ := List.nodup_cons.1 (show (d' :: Dict.keys t).Nodup from hn)
    have hsub : ∀ x, x ∈ Dict.erase s.symbolDims v ↔ x ∈ s.symbolDims ∧ x.2 ≠ d' := by
      rintro ⟨w, y⟩
      rw [Dict.mem_erase]
      refine and_congr_right fun hw => not_congr ⟨fun hc => ?_, fun hc => ?_⟩
      · have hc' : w = v := hc
        subst hc'
        have e1 := Dict.get?_of_mem hg.keys_nodup hw
        rw [Dict.get?_of_mem hg.keys_nodup hv] at e1
        cases e1
        rfl
      · have hc' : y = d' := hc
        subst hc'
        have := List.inj_on_of_nodup_map hg.dims_nodup hw hv rfl
        cases this
        rfl
    obtain ⟨s', f1, f2, f3, f4, f5, f6, f7, f9, f8⟩ := fixArr_spec δ t hg' hn2 (by
      intro x hx
      obtain ⟨⟨w, y⟩, hw, hwy⟩ := List.mem_map.1 (hk x (by simp [hx]))
      have hwy' : y = x := hwy
      subst hwy'
      exact List.mem_map.2 ⟨(w, y), (hsub _).2 ⟨hw, fun hc => hn1 (by rw [← show y = d' from hc]; exact hx)⟩, rfl⟩)
      (fun x hx => hp x (List.mem_cons_of_mem _ hx))
      (fun x hx w hw => hd x (List.mem_cons_of_mem _ hx) w ((hsub _).1 hw).1)
    have hget : ∀ x, Dict.get? (Dict.set s.me.params v (vecArr d' vs u)) x = if x = v then some (vecArr d' vs u) else Dict.get? s.me.params x := by
      intro x
      rw [Dict.get?_set]
    refine ⟨s', ?_, f2, f3, f4, fun x => ?_, fun x hx => ?_, fun x => ?_, fun x => ?_, fun all hall i x => ?_⟩
    · simp only [fixArr]
      rw [hsym, if_neg (by simpa [Ex.free] using hvm.1), if_neg (by simpa using hvk)]
      exact f1
    · rw [f5]
      show x ∈ Dict.erase s.symbolDims v ∧ _ ↔ _
      rw [hsub]
      simp only [Dict.keys, List.map_cons, List.mem_cons]
      tauto
    · rw [f6 x hx]
      unfold arrDimsWith
      rw [show (⟨s.me.expr, Dict.set s.me.params v (vecArr d' vs u)⟩ : ArrME ι).params = Dict.set s.me.params v (vecArr d' vs u) from rfl, hget]
      by_cases hc : x = v
      · subst hc
        rw [if_pos rfl, Dict.get?_eq_none.2 hvm.2]
        exact hd _ List.mem_cons_self x hv
      · rw [if_neg hc]
    · rw [f7]
      have : ParamDim (⟨s.me.expr, Dict.set s.me.params v (vecArr d' vs u)⟩ : ArrME ι) x ↔ ParamDim s.me x ∨ x = (d', vs.length) := by
        unfold ParamDim
        rw [show (⟨s.me.expr, Dict.set s.me.params v (vecArr d' vs u)⟩ : ArrME ι).params = s.me.params ++ [(v, vecArr d' vs u)] from
          Dict.set_of_not_mem hvm.2]
        constructor
        · rintro ⟨y, hy, hxy⟩
          rcases List.mem_append.1 hy with hy | hy
          · exact .inl ⟨y, hy, hxy⟩
          · rw [List.mem_singleton] at hy
            subst hy
            exact .inr (List.mem_singleton.1 hxy)
        · rintro (⟨y, hy, hxy⟩ | rfl)
          · exact ⟨y, List.mem_append_left _ hy, hxy⟩
          · exact ⟨_, List.mem_append_right _ (List.mem_singleton.2 rfl), List.mem_singleton.2 rfl⟩
      rw [this]
      simp only [List.mem_cons, exists_eq_or_imp]
      tauto
    · obtain ⟨x, w⟩ := x
      rw [f9]
      show (x, w) ∈ Dict.erase s.variableUnits v ∧ (∀ d, (x, d) ∈ Dict.erase s.symbolDims v → d ∉ Dict.keys t) ↔ _
      rw [Dict.mem_erase]
      constructor
      · rintro ⟨⟨h1, h2⟩, h3⟩
        refine ⟨h1, fun y hxy hc => ?_⟩
        rcases List.mem_cons.1 (show y ∈ d' :: Dict.keys t from hc) with hc | hc
        · have := List.inj_on_of_nodup_map hg.dims_nodup hxy hv hc
          cases this
          exact h2 rfl
        · exact h3 y (Dict.mem_erase.2 ⟨hxy, h2⟩) hc
      · rintro ⟨h1, h2⟩
        refine ⟨⟨h1, fun hc => ?_⟩, fun d hd hc => h2 d (Dict.mem_erase.1 hd).1 (List.mem_cons_of_mem _ hc)⟩
        subst hc
        exact h2 d' hv (by simp)
    · rw [f8 all (fun y hy => hall y (List.mem_cons_of_mem _ hy))]
      unfold symbolValue
      rw [show (⟨s.me.expr, Dict.set s.me.params v (vecArr d' vs u)⟩ : ArrME ι).params = Dict.set s.me.params v (vecArr d' vs u) from rfl, hget]
      by_cases hc : x = v
      · subst hc
        rw [if_pos rfl, Dict.get?_eq_none.2 hvm.2, Dict.get?_of_mem hg.keys_nodup hv]
        have := hall _ List.mem_cons_self
        simp only [this]
        rfl
      · rw [if_neg hc]
        have : Dict.get? (Dict.erase s.symbolDims v) x = Dict.get? s.symbolDims x := by
          rw [Dict.get?_erase, if_neg hc]
        simp only [this]

/-- **C104.** An evaluation with coordinates for some of the dimensions is a series of the same expression: these dimensions and the units
of their variables are removed, and the coordinates are parameters. -/
theorem C104_generic_step {s : GenArr ι} (hg : Gen s) {cs : List (String × List ℝ × Unit ι)} (hn : (Dict.keys cs).Nodup)
    (hk : ∀ d ∈ Dict.keys cs, d ∈ s.symbolDims.map Prod.snd) (hp : ∀ x ∈ cs, 0 < x.2.2.factor) (hl : cs.length ≠ s.symbolDims.length) :
    ∃ s', (ArrGS.expr s).evaluate cs = .ok (.expr s') ∧ Gen s' ∧ s'.me.expr = s.me.expr ∧ s'.units = s.units ∧
      (∀ x, x ∈ s'.symbolDims ↔ x ∈ s.symbolDims ∧ x.2 ∉ Dict.keys cs) ∧
      (∀ x, x ∈ s'.variableUnits ↔ x ∈ s.variableUnits ∧ ∀ d, (x.1, d) ∈ s.symbolDims → d ∉ Dict.keys cs) ∧
      ∀ d, ParamDim s'.me d ↔ ParamDim s.me d ∨ ∃ x ∈ cs, d = (x.1, x.2.1.length) := by
  obtain ⟨s', f1, f2, f3, f4, f5, -, f7, f9, -⟩ := fixArr_spec (fun v => match Dict.get? s.symbolDims v with
    | none => 0
    | some d => match Dict.get? cs d with
      | none => 0
      | some x => x.2.dim) cs hg hn hk hp (by
    intro x hx v hv
    simp only [Dict.get?_of_mem hg.keys_nodup hv, Dict.get?_of_mem hn hx])
  refine ⟨s', ?_, f2, f3, f4, f5, f9, f7⟩
  simp only [ArrGS.evaluate]
  rw [if_neg (by rw [gen_length hg]; exact_mod_cast hl)]
  exact f1

/-- the evaluation with coordinates for all dimensions -/
theorem full_spec {s : GenArr ι} (hg : Gen s) {δ : String → Dim ι} {d : Dim ι} (hd : s.me.expr.HasDim (arrDimsWith s.me δ) d)
    {cs : List (String × List ℝ × Unit ι)} (hne : cs ≠ []) (hn : (Dict.keys cs).Nodup)
    (hk : ∀ x, x ∈ Dict.keys cs ↔ x ∈ s.symbolDims.map Prod.snd) (hp : ∀ x ∈ cs, 0 < x.2.2.factor)
    (hu : ∀ x ∈ cs, ∀ v, (v, x.1) ∈ s.symbolDims → x.2.2.dim = δ v) :
    ∃ a, (ArrGS.expr s).evaluate cs = .ok (.array a) ∧ a.unit.dim = d ∧
      (∀ i (all : List (String × List ℝ × Unit ι)), (∀ x ∈ cs, Dict.get? all x.1 = some x.2) →
        a.val i * a.unit.factor = s.me.expr.value (symbolValue s.me s.symbolDims all i)) ∧
      (∀ x, x ∈ a.dims ↔ ParamDim s.me x ∨ ∃ y ∈ cs, x = (y.1, y.2.1.length)) ∧ ∀ y ∈ cs, (y.1, y.2.1) ∈ a.coords := by
  have hlen : cs.length = s.symbolDims.length := by
    have : (Dict.keys cs).Perm (s.symbolDims.map Prod.snd) := by
      rw [List.perm_ext_iff_of_nodup hn hg.dims_nodup]
      exact hk
    simpa [Dict.keys] using this.length_eq
  have hsym : ∀ x ∈ cs, (symbolOf s.symbolDims x.1, x.1) ∈ s.symbolDims := by
    intro x hx
    obtain ⟨⟨v, d'⟩, hv, hvd⟩ := List.mem_map.1 ((hk x.1).1 (List.mem_map_of_mem hx))
    have hvd' : d' = x.1 := hvd
    subst hvd'
    rw [Me.symbolOf_eq hg.dims_nodup hv]
    exact hv
  have hkey : Dict.keys (cs.map fun x => (symbolOf s.symbolDims x.1, ArrInput.array (fullArr x.1 x.2.1 x.2.2))) =
      cs.map fun x => symbolOf s.symbolDims x.1 := by simp [Dict.keys, List.map_map, Function.comp_def]
  have hkn : (Dict.keys (cs.map fun x => (symbolOf s.symbolDims x.1, ArrInput.array (fullArr x.1 x.2.1 x.2.2)))).Nodup := by
    rw [hkey]
    refine List.Nodup.map_on (fun x hx y hy hxy => ?_) (List.Nodup.of_map _ hn)
    have e1 := Dict.get?_of_mem hg.keys_nodup (hsym x hx)
    have e2 := Dict.get?_of_mem hg.keys_nodup (hsym y hy)
    rw [hxy, e2] at e1
    exact (List.inj_on_of_nodup_map hn hy hx (Option.some.inj e1)).symm
  have hkv : ∀ v, v ∈ Dict.keys (cs.map fun x => (symbolOf s.symbolDims x.1, ArrInput.array (fullArr x.1 x.2.1 x.2.2))) ↔ v ∈ s.me.variableNames := by
    intro v
    rw [hkey, ← hg.vars]
    constructor
    · intro hv
      obtain ⟨x, hx, rfl⟩ := List.mem_map.1 hv
      exact Dict.mem_keys_of_mem (hsym x hx)
    · intro hv
      obtain ⟨d', hd'⟩ := Dict.mem_keys_iff.1 hv
      obtain ⟨x, hx, hxd⟩ := List.mem_map.1 ((hk d').2 (List.mem_map.2 ⟨_, hd', rfl⟩))
      refine List.mem_map.2 ⟨x, hx, ?_⟩
      rw [hxd]
      exact Me.symbolOf_eq hg.dims_nodup hd'
  have hget : ∀ v x, Dict.get? (cs.map fun x => (symbolOf s.symbolDims x.1, ArrInput.array (fullArr x.1 x.2.1 x.2.2))) v = some x ↔
      ∃ y ∈ cs, (v, y.1) ∈ s.symbolDims ∧ x = .array (fullArr y.1 y.2.1 y.2.2) := by
    intro v x
    rw [Dict.get?_iff_mem hkn]
    constructor
    · intro hx
      obtain ⟨y, hy, hxy⟩ := List.mem_map.1 hx
      cases hxy
      exact ⟨y, hy, hsym y hy, rfl⟩
    · rintro ⟨y, hy, hv, rfl⟩
      refine List.mem_map.2 ⟨y, hy, ?_⟩
      rw [Me.symbolOf_eq hg.dims_nodup hv]
  obtain ⟨len, co, hf⟩ := hg.fits
  have hfit : Fits (s.me.args (cs.map fun x => (symbolOf s.symbolDims x.1, ArrInput.array (fullArr x.1 x.2.1 x.2.2))))
      (fun d => match Dict.get? cs d with
        | some x => x.1.length
        | none => len d) (fun d => match Dict.get? cs d with
        | some x => x.1
        | none => co d) := by
    constructor
    · intro x hx y hy
      rcases List.mem_append.1 hx with hx | hx
      · obtain ⟨z, hz, rfl⟩ := List.mem_map.1 hx
        obtain ⟨w, hw, rfl⟩ := List.mem_map.1 hz
        simp only [ArrInput.toArr, fullArr, vecArr, List.mem_singleton] at hy
        subst hy
        simp only [Dict.get?_of_mem hn hw]
      · have : Dict.get? cs y.1 = none := Dict.get?_eq_none.2 fun hc =>
          (hg.own x hx y.1 ((hk _).1 hc)).1 (List.mem_map_of_mem hy)
        simp only [this]
        exact hf.len x hx y hy
    · intro x hx y hy
      rcases List.mem_append.1 hx with hx | hx
      · obtain ⟨z, hz, rfl⟩ := List.mem_map.1 hx
        obtain ⟨w, hw, rfl⟩ := List.mem_map.1 hz
        simp only [ArrInput.toArr, fullArr, List.mem_singleton] at hy
        subst hy
        simp only [Dict.get?_of_mem hn hw]
      · have : Dict.get? cs y.1 = none := Dict.get?_eq_none.2 fun hc =>
          (hg.own x hx y.1 ((hk _).1 hc)).2 (List.mem_map_of_mem hy)
        simp only [this]
        exact hf.co x hx y hy
  have hvne : s.me.variableNames ≠ [] := by
    obtain ⟨x, hx⟩ := List.exists_mem_of_ne_nil _ hne
    intro hc
    have := (hg.vars _).1 (Dict.mem_keys_of_mem (hsym x hx))
    rw [hc] at this
    cases this
  obtain ⟨a, a1, a2, a3, a4, a5⟩ := (evaluate_all hg.wf hkv (fun v x hx => by
    obtain ⟨y, hy, -, rfl⟩ := (hget v x).1 hx
    exact hp y hy) hfit hvne).1 d (hd.congr fun v hv => (dims_args hkv (fun v x hx => by
      obtain ⟨y, hy, hvy, rfl⟩ := (hget v x).1 hx
      exact hu y hy v hvy) v hv).symm)
  have hargs : ∀ v ∈ s.me.expr.syms, (∃ y ∈ cs, (v, y.1) ∈ s.symbolDims ∧ Dict.get? s.me.params v = none ∧
      Dict.get? (s.me.args (cs.map fun x => (symbolOf s.symbolDims x.1, ArrInput.array (fullArr x.1 x.2.1 x.2.2)))) v =
        some (fullArr y.1 y.2.1 y.2.2)) ∨ ∃ b, Dict.get? s.me.params v = some b ∧
      Dict.get? (s.me.args (cs.map fun x => (symbolOf s.symbolDims x.1, ArrInput.array (fullArr x.1 x.2.1 x.2.2)))) v = some b := by
    intro v hv
    rw [args_get]
    cases hg' : Dict.get? (cs.map fun x => (symbolOf s.symbolDims x.1, ArrInput.array (fullArr x.1 x.2.1 x.2.2))) v with
    | some x =>
      obtain ⟨y, hy, hvy, rfl⟩ := (hget v x).1 hg'
      exact .inl ⟨y, hy, hvy, Dict.get?_eq_none.2 (names_mem.1 ((hg.vars v).1 (Dict.mem_keys_of_mem hvy))).2, rfl⟩
    | none =>
      have hnk := Dict.get?_eq_none.1 hg'
      rw [hkv, names_mem] at hnk
      have hpk : v ∈ Dict.keys s.me.params := by
        by_contra hc
        exact hnk ⟨hv, hc⟩
      obtain ⟨b, hb⟩ := Dict.get?_isSome.2 hpk
      exact .inr ⟨b, hb, by rw [hb]; rfl⟩
  have hof : ∀ y ∈ cs, symbolOf s.symbolDims y.1 ∈ s.me.expr.syms := fun y hy =>
    (names_mem.1 ((hg.vars _).1 (Dict.mem_keys_of_mem (hsym y hy)))).1
  have hof2 : ∀ y ∈ cs, Dict.get? (s.me.args (cs.map fun x => (symbolOf s.symbolDims x.1, ArrInput.array (fullArr x.1 x.2.1 x.2.2))))
      (symbolOf s.symbolDims y.1) = some (fullArr y.1 y.2.1 y.2.2) := by
    intro y hy
    rw [args_get, (hget _ _).2 ⟨y, hy, hsym y hy, rfl⟩]
    rfl
  refine ⟨a, ?_, a2, fun i all hall => ?_, fun x => ?_, fun y hy => ?_⟩
  · simp only [ArrGS.evaluate]
    rw [if_pos (by rw [gen_length hg, hlen])]
    simp only [a1]
  · rw [a3 i]
    refine Ex.value_congr fun v hv => ?_
    rcases hargs v hv with ⟨y, hy, h1, h2, h3⟩ | ⟨b, h1, h2⟩
    · rw [h3]
      unfold symbolValue
      simp only [h2, Dict.get?_of_mem hg.keys_nodup h1, hall y hy]
      rfl
    · rw [h2]
      unfold symbolValue
      simp only [h1]
      rfl
  · rw [a4]
    constructor
    · rintro ⟨v, hv, b, hb, hx⟩
      rcases hargs v hv with ⟨y, hy, h1, h2, h3⟩ | ⟨b', h1, h2⟩
      · rw [h3] at hb
        cases hb
        exact .inr ⟨y, hy, List.mem_singleton.1 hx⟩
      · rw [h2] at hb
        cases hb
        exact .inl ⟨_, Dict.mem_of_get? h1, hx⟩
    · rintro (⟨⟨v, b⟩, hy, hx⟩ | ⟨y, hy, rfl⟩)
      · have hvk := Dict.mem_keys_of_mem hy
        have hvs : v ∈ s.me.expr.syms := by simpa [Ex.free] using hg.wf.known v hvk
        rcases hargs v hvs with ⟨y, hy', h1, h2, h3⟩ | ⟨b', h1, h2⟩
        · exact absurd hvk (Dict.get?_eq_none.1 h2)
        · rw [Dict.get?_of_mem hg.wf.nodup hy] at h1
          cases h1
          exact ⟨v, hvs, b, h2, hx⟩
      · exact ⟨_, hof y hy, _, hof2 y hy, List.mem_singleton.2 rfl⟩
  · rw [a5]
    exact ⟨_, hof y hy, _, hof2 y hy, List.mem_singleton.2 rfl⟩

/-- **C104.** A generic series of an expression with arrays and units can be evaluated stepwise, with coordinates in all units of the right
dimensionality. The result has the dimensions of the parameters and those of all coordinates, and each of its elements is the value of
the expression for the coordinates at this position in base units. The coordinates of the last step are the coordinates of the result. -/
theorem C104_generic {δ : String → Dim ι} {d : Dim ι} {last : List (String × List ℝ × Unit ι)} (hlast : last ≠ []) :
    ∀ (steps : List (List (String × List ℝ × Unit ι))) {s : GenArr ι}, Gen s → s.me.expr.HasDim (arrDimsWith s.me δ) d →
    (Dict.keys (steps.flatten ++ last)).Nodup → (∀ x, x ∈ Dict.keys (steps.flatten ++ last) ↔ x ∈ s.symbolDims.map Prod.snd) →
    (∀ x ∈ steps.flatten ++ last, 0 < x.2.2.factor) →
    (∀ x ∈ steps.flatten ++ last, ∀ v, (v, x.1) ∈ s.symbolDims → x.2.2.dim = δ v) →
    ∃ a, (ArrGS.expr s).evaluates (steps ++ [last]) = .ok (.array a) ∧ a.unit.dim = d ∧
      (∀ i (all : List (String × List ℝ × Unit ι)), (∀ x ∈ steps.flatten ++ last, Dict.get? all x.1 = some x.2) →
        a.val i * a.unit.factor = s.me.expr.value (symbolValue s.me s.symbolDims all i)) ∧
      (∀ x, x ∈ a.dims ↔ ParamDim s.me x ∨ ∃ y ∈ steps.flatten ++ last, x = (y.1, y.2.1.length)) ∧
      ∀ y ∈ last, (y.1, y.2.1) ∈ a.coords
  | [], s, hg, hd, hn, hk, hp, hu => by
    obtain ⟨a, a1, a2, a3, a4, a5⟩ := full_spec hg hd hlast hn hk hp hu
    refine ⟨a, ?_, a2, a3, a4, a5⟩
    show (ArrGS.expr s).evaluates [last] = _
    simp only [ArrGS.evaluates, a1]
  | c :: t, s, hg, hd, hn, hk, hp, hu => by
    have hflat : (c :: t).flatten ++ last = c ++ (t.flatten ++ last) := by simp
    rw [hflat] at hn hk hp hu ⊢
    rw [Dict.keys_append, List.nodup_append] at hn
    obtain ⟨n1, n2, n3⟩ := hn
    obtain ⟨s', f1, f2, f3, f4, f5, f6, f7, f9, f8⟩ := fixArr_spec δ c hg n1
      (fun x hx => (hk x).1 (by rw [Dict.keys_append]; exact List.mem_append_left _ hx))
      (fun x hx => hp x (List.mem_append_left _ hx)) (fun x hx => hu x (List.mem_append_left _ hx))
    have hshort : ¬ (c.length : Int) = s.me.numVariables := by
      rw [gen_length hg]
      have : (Dict.keys (c ++ (t.flatten ++ last))).Perm (s.symbolDims.map Prod.snd) := by
        rw [List.perm_ext_iff_of_nodup (by rw [Dict.keys_append, List.nodup_append]; exact ⟨n1, n2, n3⟩) hg.dims_nodup]
        exact hk
      have hl := this.length_eq
      simp only [Dict.keys, List.length_map, List.length_append] at hl
      have : 0 < last.length := List.length_pos_iff.2 hlast
      omega
    obtain ⟨a, a1, a2, a3, a4, a5⟩ := C104_generic hlast t f2 (by
        rw [f3]
        exact hd.congr fun x hx => (f6 x hx).symm) n2 (by
        intro x
        constructor
        · intro hx
          obtain ⟨y, hy, rfl⟩ := List.mem_map.1 ((hk x).1 (by rw [Dict.keys_append]; exact List.mem_append_right _ hx))
          exact List.mem_map.2 ⟨y, (f5 y).2 ⟨hy, fun hc => n3 _ hc _ hx rfl⟩, rfl⟩
        · intro hx
          obtain ⟨y, hy, rfl⟩ := List.mem_map.1 hx
          obtain ⟨y1, y2⟩ := (f5 y).1 hy
          have := (hk y.2).2 (List.mem_map.2 ⟨y, y1, rfl⟩)
          rw [Dict.keys_append] at this
          rcases List.mem_append.1 this with h | h
          · exact absurd h y2
          · exact h)
      (fun x hx => hp x (List.mem_append_right _ hx))
      (fun x hx v hv => hu x (List.mem_append_right _ hx) v ((f5 _).1 hv).1)
    refine ⟨a, ?_, a2, fun i all hall => ?_, fun x => ?_, a5⟩
    · show (ArrGS.expr s).evaluates (c :: (t ++ [last])) = _
      simp only [ArrGS.evaluates, ArrGS.evaluate]
      rw [if_neg hshort, f1]
      exact a1
    · rw [a3 i all (fun x hx => hall x (List.mem_append_right _ hx)), f3]
      congr 1
      funext x
      exact f8 all (fun y hy => hall y (List.mem_append_left _ hy)) i x
    · rw [a4, f7]
      simp only [List.mem_append]
      constructor
      · rintro ((h | ⟨y, hy, h⟩) | ⟨y, hy, h⟩)
        exacts [.inl h, .inr ⟨y, .inl hy, h⟩, .inr ⟨y, .inr hy, h⟩]
      · rintro (h | ⟨y, hy | hy, h⟩)
        exacts [.inl (.inl h), .inl (.inr ⟨y, hy, h⟩), .inr ⟨y, hy, h⟩]

/-- what the constructor stores -/
theorem createGeneric_spec {reduce : Unit ι → Unit ι} {e : ArrME ι} (h : e.WF) {dims : List (String × String)}
    {units : List (String × Unit ι)} (hn : (Dict.keys units).Nodup)
    (hu : ∀ s u, Dict.get? (e.allUnits units) s = some u → 0 < u.factor) {co : String → List ℝ}
    (hco : ∀ x ∈ e.params, ∀ d ∈ x.2.coords, d.2 = co d.1) (hidx : ∀ x ∈ e.params, ∀ d ∈ Dict.keys x.2.coords, d ∈ Dict.keys x.2.dims)
    {s : GenArr ι} (hs : createGeneric reduce e dims units = .ok s) :
    Gen s ∧ s.me = e ∧ s.symbolDims = e.variableNames.map (fun v => (v, dimName dims v)) ∧ s.variableUnits = e.allUnits units ∧
      ((∀ u, (reduce u).dim = u.dim) → e.expr.HasDim (arrDimsWith e (declared units)) s.units.dim) := by
  obtain ⟨hne, hk, ⟨d, hd⟩, ⟨len, hfit⟩, ho⟩ := (C104_generic_create (reduce := reduce) (dims := dims) h hn hu hco).1 ⟨s, hs⟩
  have hkn := allUnits_nodup (e := e) hn
  have hks := allUnits_keys hk
  have hget : ∀ s x, Dict.get? ((e.allUnits units).map fun x => (x.1, ArrInput.quantity ⟨1, x.2⟩)) s = some x →
      ∃ u, Dict.get? (e.allUnits units) s = some u ∧ x = .quantity ⟨1, u⟩ := by
    intro s x hx
    obtain ⟨y, hy, hxy⟩ := List.mem_map.1 (Dict.mem_of_get? hx)
    cases hxy
    exact ⟨y.2, Dict.get?_of_mem hkn hy, rfl⟩
  have hsc : Fits (e.args ((e.allUnits units).map fun x => (x.1, ArrInput.quantity ⟨1, x.2⟩))) len co := by
    constructor
    · intro x hx d hd
      rcases List.mem_append.1 hx with hx | hx
      · obtain ⟨y, hy, rfl⟩ := List.mem_map.1 hx
        obtain ⟨z, hz, rfl⟩ := List.mem_map.1 hy
        cases hd
      · exact hfit.len x hx d hd
    · intro x hx d hd
      rcases List.mem_append.1 hx with hx | hx
      · obtain ⟨y, hy, rfl⟩ := List.mem_map.1 hx
        obtain ⟨z, hz, rfl⟩ := List.mem_map.1 hy
        cases hd
      · exact hfit.co x hx d hd
  have hk2 : ∀ s, s ∈ Dict.keys ((e.allUnits units).map fun x => (x.1, ArrInput.quantity ⟨1, x.2⟩)) ↔ s ∈ e.variableNames := by
    intro s
    rw [← hks s]
    simp [Dict.keys, List.map_map, Function.comp_def]
  obtain ⟨a, a1, a2, -⟩ := (evaluate_all h hk2 (fun s x hx => by
    obtain ⟨u, hu1, rfl⟩ := hget s x hx
    exact hu s u hu1) hsc hne).1 d (hd.congr fun s hs => (dims_args hk2 (fun s x hx => by
      obtain ⟨u, hu1, rfl⟩ := hget s x hx
      exact allUnits_dim hu1) s hs).symm)
  have hvn : e.variableNames.Nodup := (List.nodup_dedup _).filter _
  unfold createGeneric at hs
  split at hs
  · cases hs
  split at hs
  · cases hs
  simp only [a1] at hs
  split at hs
  · cases hs
  cases hs
  refine ⟨⟨h, ⟨len, co, hfit⟩, ?_, ?_, ?_, ?_⟩, rfl, rfl, rfl, fun hr => ?_⟩
  · simpa [Dict.keys, List.map_map, Function.comp_def] using hvn
  · rw [List.map_map]
    exact List.Nodup.map_on (fun x hx y hy hxy => ho.1 x hx y hy hxy) hvn
  · intro x
    simp [Dict.keys, List.map_map, Function.comp_def]
  · intro x hx d' hd'
    rw [List.map_map] at hd'
    obtain ⟨v, hv, rfl⟩ := List.mem_map.1 hd'
    exact ⟨ho.2 v hv x hx, fun hc => ho.2 v hv x hx (hidx x hx _ hc)⟩
  · rw [hr, a2]
    exact hd

/-- **C104.** A generic series that was created from an expression with arrays as parameters can be evaluated stepwise with coordinates
that have the dimensionality of the declared units; the result has the dimensionality of `units`, and each of its elements is the value
of the expression in base units. -/
theorem C104_generic_value {reduce : Unit ι → Unit ι} (hr : ∀ u, (reduce u).dim = u.dim) {e : ArrME ι} (h : e.WF)
    {dims : List (String × String)} {units : List (String × Unit ι)} (hn : (Dict.keys units).Nodup)
    (hu : ∀ s u, Dict.get? (e.allUnits units) s = some u → 0 < u.factor) {co : String → List ℝ}
    (hco : ∀ x ∈ e.params, ∀ d ∈ x.2.coords, d.2 = co d.1) (hidx : ∀ x ∈ e.params, ∀ d ∈ Dict.keys x.2.coords, d ∈ Dict.keys x.2.dims)
    {s : GenArr ι} (hs : createGeneric reduce e dims units = .ok s) {steps : List (List (String × List ℝ × Unit ι))}
    {last : List (String × List ℝ × Unit ι)} (hlast : last ≠ []) (hnd : (Dict.keys (steps.flatten ++ last)).Nodup)
    (hk : ∀ x, x ∈ Dict.keys (steps.flatten ++ last) ↔ ∃ v ∈ e.variableNames, x = dimName dims v)
    (hp : ∀ x ∈ steps.flatten ++ last, 0 < x.2.2.factor)
    (hd : ∀ x ∈ steps.flatten ++ last, ∀ v ∈ e.variableNames, dimName dims v = x.1 → x.2.2.dim = declared units v) :
    ∃ a, (ArrGS.expr s).evaluates (steps ++ [last]) = .ok (.array a) ∧ a.unit.dim = s.units.dim ∧
      (∀ i, a.val i * a.unit.factor =
        e.expr.value (symbolValue e (e.variableNames.map fun v => (v, dimName dims v)) (steps.flatten ++ last) i)) ∧
      (∀ x, x ∈ a.dims ↔ ParamDim e x ∨ ∃ y ∈ steps.flatten ++ last, x = (y.1, y.2.1.length)) ∧
      ∀ y ∈ last, (y.1, y.2.1) ∈ a.coords := by
  obtain ⟨g1, g2, g3, -, g5⟩ := createGeneric_spec h hn hu hco hidx hs
  subst g2
  obtain ⟨a, a1, a2, a3, a4, a5⟩ := C104_generic (δ := declared units) (d := s.units.dim) hlast steps g1 (g5 hr) hnd (by
    intro x
    rw [hk, g3, List.map_map, List.mem_map]
    constructor
    · rintro ⟨v, hv, rfl⟩; exact ⟨v, hv, rfl⟩
    · rintro ⟨v, hv, rfl⟩; exact ⟨v, hv, rfl⟩) hp (by
    intro x hx v hv
    rw [g3] at hv
    obtain ⟨w, hw, hwv⟩ := List.mem_map.1 hv
    simp only [Prod.mk.injEq] at hwv
    obtain ⟨rfl, hwx⟩ := hwv
    exact hd x hx w hw hwx)
  refine ⟨a, a1, a2, fun i => ?_, a4, a5⟩
  rw [a3 i _ (fun x hx => Dict.get?_of_mem hnd hx), g3]

/-! ### example -/

namespace Demo

/-- The hypotheses are met: `a * t + b` with two values of `a` and a dimension "duration" of `t`, evaluated at two durations in minutes. -/
example : ∃ s, createGeneric id movesArr [("t", "duration")] [("t", second)] = .ok s ∧
    ∃ a, (ArrGS.expr s).evaluates ([] ++ [[("duration", [1, 3], minute)]]) = .ok (.array a) ∧
      a.val (fun _ => 1) * a.unit.factor = 53 / 1000 := by
  have hfree : movesArr.expr.free = ["a", "t", "b"] := by simp [movesArr, Ex.free, Ex.syms]
  have hv : movesArr.variableNames = ["t"] := by
    unfold ArrME.variableNames
    rw [hfree]
    simp [movesArr, Dict.keys]
  have hau : movesArr.allUnits [("t", second)] = [("t", second)] := by
    unfold ArrME.allUnits
    rw [hv]
    simp [Dict.keys]
  have hu : ∀ s u, Dict.get? (movesArr.allUnits [("t", second)]) s = some u → 0 < u.factor := by
    intro s u h
    rw [hau] at h
    have := Dict.mem_of_get? h
    simp only [List.mem_singleton, Prod.mk.injEq] at this
    rw [this.2]
    norm_num [second]
  have hd : movesArr.expr.HasDim (arrDimsWith movesArr (declared [("t", second)])) (dim 1 0) := by
    refine .add ?_ (.sym "b")
    have := Ex.HasDim.mul (.sym (δ := arrDimsWith movesArr (declared [("t", second)])) "a") (.sym "t")
    have e : arrDimsWith movesArr (declared [("t", second)]) "a" + arrDimsWith movesArr (declared [("t", second)]) "t" = dim 1 0 := by
      show dim 1 (-1) + dim 0 1 = _
      rw [dim_add]; norm_num
    rw [e] at this
    exact this
  have hco : ∀ x ∈ movesArr.params, ∀ d ∈ x.2.coords, d.2 = (fun _ => ([] : List ℝ)) d.1 := by simp [movesArr]
  obtain ⟨s, hs⟩ := (C104_generic_create (reduce := id) (dims := [("t", "duration")]) (units := [("t", second)]) movesArr_wf
    (co := fun _ => []) (by simp [Dict.keys]) hu hco).2 ⟨by rw [hv]; simp, by rw [hv]; simp [Dict.keys], ⟨_, hd⟩,
      ⟨fun _ => 2, ⟨by simp [movesArr], hco⟩⟩, by rw [hv]; simp, by rw [hv]; simp [movesArr, Dict.keys, dimName, Dict.get?]⟩
  obtain ⟨a, a1, -, a3, -, -⟩ := C104_generic_value (co := fun _ => []) (fun _ => rfl) movesArr_wf (by simp [Dict.keys]) hu hco (by simp [movesArr, Dict.keys]) hs
    (steps := []) (last := [("duration", [1, 3], minute)]) (by simp) (by simp [Dict.keys])
    (by rw [hv]; simp [Dict.keys, dimName, Dict.get?]) (by simp [minute])
    (by rw [hv]; simp [dimName, Dict.get?, declared, minute, second])
  refine ⟨s, hs, a, a1, ?_⟩
  rw [a3, hv]
  show (((1 : ℕ) : ℝ) * mmPerMinute.factor) * ((3 : ℝ) * minute.factor) + 5 * cm.factor = 53 / 1000
  norm_num [mmPerMinute, minute, cm]

end Demo

end Weldx.Pint
