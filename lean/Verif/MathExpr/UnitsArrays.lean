import Verif.MathExpr.Units
import Verif.MathExpr.Props

/-!
# Mathematical expressions of arrays with units (C104)

Source: `/repo/weldx/core/math_expression.py` 154-179 (`set_parameters`), 244-273 (`evaluate`).

A labelled array whose data is a quantity has one unit for all of its elements. Labels are joined as in
`Verif/MathExpr/Model.lean`, and units are treated as in `Verif/MathExpr/Units.lean`; the simplifications of both
models apply. xarray joins the labels before the operation on the data is executed. Arrays are quantified: `evaluate` does not read the attribute
`units` of arrays that are passed as variables.
-/

namespace Weldx.Pint

open Weldx.Me (joinLabels)

variable {ι : Type}

/-! ### model -/

/-- `xr.DataArray` with a quantity as data -/
structure QArr (ι : Type) where
  dims : List (String × ℕ)
  coords : List (String × List ℝ)
  val : (String → ℕ) → ℝ
  unit : Unit ι

/-- the result of a part of the calculation: a number of Python or an array -/
inductive VArr (ι : Type)
  | num (k : ℝ)
  | arr (a : QArr ι)

/-- the kinds of exceptions; arrays with different index coordinates are not modelled -/
inductive AErr
  | pint (e : Err) | notModelled
deriving DecidableEq

/-- the labels of the result of an operation of two arrays -/
noncomputable def joinBoth (a b : QArr ι) : Except AErr (List (String × ℕ) × List (String × List ℝ)) :=
  open Classical in
  match joinLabels a.coords b.coords with
  | none => .error .notModelled
  | some c => match joinLabels a.dims b.dims with
    | none => .error (.pint .valueError)
    | some d => .ok (d, c)

/-- the sum of a number and an array -/
noncomputable def addNumArr (k : ℝ) (a : QArr ι) : Except AErr (VArr ι) :=
  open Classical in
  if k = 0 then .ok (.arr a)
  else if a.unit.dim = Unit.one.dim then .ok (.arr { a with
    val := fun i => k + a.val i * a.unit.factor / Unit.one.factor (ι := ι)
    unit := .one })
  else .error (.pint .dimensionality)

/-- `+` -/
noncomputable def VArr.add : VArr ι → VArr ι → Except AErr (VArr ι)
  | .num k, .num l => .ok (.num (k + l))
  | .num k, .arr a => addNumArr k a
  | .arr a, .num k => addNumArr k a
  | .arr a, .arr b => match joinBoth a b with
    | .error x => .error x
    | .ok (d, c) =>
      open Classical in
      if b.unit.dim = a.unit.dim then
        .ok (.arr ⟨d, c, fun i => a.val i + b.val i * b.unit.factor / a.unit.factor, a.unit⟩)
      else .error (.pint .dimensionality)

/-- `*` -/
noncomputable def VArr.mul : VArr ι → VArr ι → Except AErr (VArr ι)
  | .num k, .num l => .ok (.num (k * l))
  | .num k, .arr a => .ok (.arr { a with val := fun i => k * a.val i })
  | .arr a, .num k => .ok (.arr { a with val := fun i => a.val i * k })
  | .arr a, .arr b => match joinBoth a b with
    | .error x => .error x
    | .ok (d, c) => .ok (.arr ⟨d, c, fun i => a.val i * b.val i, a.unit.mul b.unit⟩)

/-- `**` with a number -/
noncomputable def VArr.pow (n : ℤ) : VArr ι → VArr ι
  | .num k => .num (k ^ n)
  | .arr a => .arr { a with
    val := fun i => a.val i ^ n
    unit := a.unit.pow n }

/-- `np.sqrt` -/
noncomputable def VArr.sqrt : VArr ι → VArr ι
  | .num k => .num √k
  | .arr a => .arr { a with
    val := fun i => √(a.val i)
    unit := a.unit.sqrt }

/-- `np.abs` -/
noncomputable def VArr.abs : VArr ι → VArr ι
  | .num k => .num |k|
  | .arr a => .arr { a with val := fun i => |a.val i| }

/-- `np.sin`, `np.exp` and so on -/
noncomputable def VArr.fn (f : ℝ → ℝ) : VArr ι → Except AErr (VArr ι)
  | .num k => .ok (.num (f k))
  | .arr a =>
    open Classical in
    if a.unit.dim = Unit.one.dim then .ok (.arr { a with
      val := fun i => f (a.val i * a.unit.factor / Unit.one.factor (ι := ι))
      unit := .one })
    else .error (.pint .dimensionality)

/-- the body of the lambdified function -/
noncomputable def Ex.evalArr (env : List (String × QArr ι)) : Ex → Except AErr (VArr ι)
  | .num k => .ok (.num k)
  | .sym s => match Dict.get? env s with
    | none => .error (.pint .typeError)
    | some a => .ok (.arr a)
  | .add a b => match a.evalArr env with
    | .error x => .error x
    | .ok r => match b.evalArr env with
      | .error x => .error x
      | .ok s => r.add s
  | .mul a b => match a.evalArr env with
    | .error x => .error x
    | .ok r => match b.evalArr env with
      | .error x => .error x
      | .ok s => r.mul s
  | .pow a n => match a.evalArr env with
    | .error x => .error x
    | .ok r => .ok (r.pow n)
  | .sqrt a => match a.evalArr env with
    | .error x => .error x
    | .ok r => .ok r.sqrt
  | .abs a => match a.evalArr env with
    | .error x => .error x
    | .ok r => .ok r.abs
  | .fn f a => match a.evalArr env with
    | .error x => .error x
    | .ok r => r.fn f

/-- values that are passed by the user -/
inductive ArrInput (ι : Type)
  | number (k : ℝ)
  | quantity (q : Q ι)
  | array (a : QArr ι)

/-- `v if isinstance(v, xr.DataArray) else xr.DataArray(Q_(v))`, `math_expression.py` 173-177 and 264-267 -/
def ArrInput.toArr : ArrInput ι → QArr ι
  | .number k => ⟨[], [], fun _ => k, .one⟩
  | .quantity q => ⟨[], [], fun _ => q.mag, q.unit⟩
  | .array a => a

/-- `MathematicalExpression` -/
structure ArrME (ι : Type) where
  expr : Ex
  params : List (String × QArr ι)

/-- all values of an evaluation -/
def ArrME.args (e : ArrME ι) (kw : List (String × ArrInput ι)) : List (String × QArr ι) :=
  kw.map (fun x => (x.1, x.2.toArr)) ++ e.params

/-- `evaluate`, `math_expression.py` 244-273 -/
noncomputable def ArrME.evaluate (e : ArrME ι) (kw : List (String × ArrInput ι)) : Except AErr (VArr ι) :=
  if ∃ s ∈ Dict.keys kw, s ∈ Dict.keys e.params then .error (.pint .valueError)
  else if (∀ s ∈ e.expr.free, s ∈ Dict.keys (e.args kw)) ∧ (∀ s ∈ Dict.keys (e.args kw), s ∈ e.expr.free) then
    e.expr.evalArr (e.args kw)
  else .error (.pint .typeError)

/-! ### specification -/

/-- the element of an array at a position -/
def QArr.at (a : QArr ι) (i : String → ℕ) : Q ι := ⟨a.val i, a.unit⟩

/-- the element of a result -/
def VArr.at (v : VArr ι) (i : String → ℕ) : Val ι := match v with
  | .num k => .num k
  | .arr a => .qty (a.at i)

/-- the dimensions of a result -/
def VArr.dims : VArr ι → List (String × ℕ)
  | .num _ => []
  | .arr a => a.dims

/-- the index coordinates of a result -/
def VArr.coords : VArr ι → List (String × List ℝ)
  | .num _ => []
  | .arr a => a.coords

/-- the elements of the arguments at a position -/
def elements (env : List (String × QArr ι)) (i : String → ℕ) : List (String × Q ι) := env.map fun x => (x.1, x.2.at i)

/-- dimensions with the same name have the same length and the same coordinates in all arrays -/
structure Fits (env : List (String × QArr ι)) (len : String → ℕ) (co : String → List ℝ) : Prop where
  len : ∀ x ∈ env, ∀ d ∈ x.2.dims, d.2 = len d.1
  co : ∀ x ∈ env, ∀ d ∈ x.2.coords, d.2 = co d.1

/-- the elements of an expression with arrays as parameters and variables -/
def ArrME.element (e : ArrME ι) (i : String → ℕ) : ME ι := ⟨e.expr, elements e.params i⟩
/-- the element of a passed value -/
def ArrInput.element (v : ArrInput ι) (i : String → ℕ) : Input ι := match v with
  | .number k => .number k
  | .quantity q => .quantity q
  | .array a => .quantity (a.at i)

/-! ### lemmas -/

theorem elements_get (env : List (String × QArr ι)) (i : String → ℕ) (s : String) :
    Dict.get? (elements env i) s = (Dict.get? env s).map fun a => a.at i := by
  induction env with
  | nil => rfl
  | cons x t ih =>
    obtain ⟨k, a⟩ := x
    simp only [elements, List.map_cons, Dict.get?]
    split
    · rfl
    · exact ih

theorem elements_keys (env : List (String × QArr ι)) (i : String → ℕ) : Dict.keys (elements env i) = Dict.keys env := by
  simp [elements, Dict.keys, List.map_map, Function.comp_def]

theorem joinLabels_fits {L : Type} [DecidableEq L] {a b : List (String × L)} {F : String → L}
    (ha : ∀ d ∈ a, d.2 = F d.1) (hb : ∀ d ∈ b, d.2 = F d.1) :
    ∃ c, joinLabels a b = some c ∧ (∀ d ∈ c, d.2 = F d.1) ∧ ∀ d, d ∈ c ↔ d ∈ a ∨ d ∈ b := by
  have hget : ∀ s v, Dict.get? a s = some v → v = F s := fun s v h => ha (s, v) (Dict.mem_of_get? h)
  refine ⟨a ++ b.filter (fun e => Dict.get? a e.1 = none), ?_, ?_, ?_⟩
  · unfold joinLabels
    rw [if_pos]
    intro e he
    cases h : Dict.get? a e.1 with
    | none => exact .inl rfl
    | some v => right; rw [hget _ _ h, hb e he]
  · intro d hd
    rcases List.mem_append.1 hd with h | h
    · exact ha d h
    · exact hb d (List.mem_filter.1 h).1
  · intro d
    rw [List.mem_append, List.mem_filter]
    constructor
    · rintro (h | h)
      · exact .inl h
      · exact .inr h.1
    · rintro (h | h)
      · exact .inl h
      · cases hg : Dict.get? a d.1 with
        | none => exact .inr ⟨h, by simp⟩
        | some v =>
          left
          have := Dict.mem_of_get? hg
          have e : d = (d.1, v) := by rw [hget _ _ hg, ← hb d h]
          rw [e]; exact this

/-- the labels of a result fit -/
structure VFits (v : VArr ι) (len : String → ℕ) (co : String → List ℝ) : Prop where
  len : ∀ d ∈ v.dims, d.2 = len d.1
  co : ∀ d ∈ v.coords, d.2 = co d.1

theorem joinBoth_fits {a b : QArr ι} {len : String → ℕ} {co : String → List ℝ} (ha : VFits (.arr a) len co)
    (hb : VFits (.arr b) len co) : ∃ d c, joinBoth a b = .ok (d, c) ∧ (∀ x ∈ d, x.2 = len x.1) ∧ (∀ x ∈ c, x.2 = co x.1) ∧
      (∀ x, x ∈ d ↔ x ∈ a.dims ∨ x ∈ b.dims) ∧ ∀ x, x ∈ c ↔ x ∈ a.coords ∨ x ∈ b.coords := by
  classical
  obtain ⟨c, c1, c2, c3⟩ := joinLabels_fits ha.co hb.co
  obtain ⟨d, d1, d2, d3⟩ := joinLabels_fits ha.len hb.len
  refine ⟨d, c, ?_, d2, c2, d3, c3⟩
  unfold joinBoth
  have e1 : joinLabels a.coords b.coords = some c := c1
  have e2 : joinLabels a.dims b.dims = some d := d1
  rw [e1]
  dsimp only
  rw [e2]

/-- what an evaluation of arrays is: the evaluation of all elements, with the labels of all arguments -/
def Good (env : List (String × QArr ι)) (len : String → ℕ) (co : String → List ℝ) (syms : List String)
    (x : Except AErr (VArr ι)) (y : (String → ℕ) → Except Err (Val ι)) : Prop :=
  (∃ v, x = .ok v ∧ VFits v len co ∧ (∀ i, y i = .ok (v.at i)) ∧
    (∀ d, d ∈ v.dims ↔ ∃ s ∈ syms, ∃ a, Dict.get? env s = some a ∧ d ∈ a.dims) ∧
    ∀ d, d ∈ v.coords ↔ ∃ s ∈ syms, ∃ a, Dict.get? env s = some a ∧ d ∈ a.coords) ∨
  ∃ e, x = .error (.pint e) ∧ ∀ i, y i = .error e

theorem or_syms {P : String → Prop} {l m : List String} :
    ((∃ s ∈ l, P s) ∨ ∃ s ∈ m, P s) ↔ ∃ s ∈ l ++ m, P s := by
  simp only [List.mem_append]
  constructor
  · rintro (⟨s, h, p⟩ | ⟨s, h, p⟩)
    exacts [⟨s, .inl h, p⟩, ⟨s, .inr h, p⟩]
  · rintro ⟨s, h | h, p⟩
    exacts [.inl ⟨s, h, p⟩, .inr ⟨s, h, p⟩]

theorem addNumArr_at (k : ℝ) (a : QArr ι) : (∃ v, addNumArr k a = .ok v ∧ v.dims = a.dims ∧ v.coords = a.coords ∧
    ∀ i, addNum k (a.at i) = .ok (v.at i)) ∨
    (addNumArr k a = .error (.pint .dimensionality) ∧ ∀ i, addNum k (a.at i) = .error .dimensionality) := by
  unfold addNumArr addNum Q.convert
  by_cases hk : k = 0
  · left
    refine ⟨.arr a, if_pos hk, rfl, rfl, fun i => if_pos hk⟩
  · rw [if_neg hk]
    by_cases hd : a.unit.dim = Unit.one.dim
    · left
      rw [if_pos hd]
      refine ⟨_, rfl, rfl, rfl, fun i => ?_⟩
      rw [if_neg hk, if_pos (show (a.at i).unit.dim = _ from hd)]
      rfl
    · right
      rw [if_neg hd]
      refine ⟨rfl, fun i => ?_⟩
      rw [if_neg hk, if_neg (show ¬ (a.at i).unit.dim = _ from hd)]

theorem evalArr_good {env : List (String × QArr ι)} {len : String → ℕ} {co : String → List ℝ} (h : Fits env len co) :
    ∀ e : Ex, Good env len co e.syms (e.evalArr env) fun i => e.eval (elements env i)
  | .num k => .inl ⟨.num k, rfl, ⟨by simp [VArr.dims], by simp [VArr.coords]⟩, fun _ => rfl, by simp [VArr.dims, Ex.syms],
      by simp [VArr.coords, Ex.syms]⟩
  | .sym s => by
    simp only [Ex.evalArr, Ex.eval, elements_get]
    cases hg : Dict.get? env s with
    | none => exact .inr ⟨_, rfl, fun _ => rfl⟩
    | some a =>
      have hm := Dict.mem_of_get? hg
      exact .inl ⟨.arr a, rfl, ⟨h.len _ hm, h.co _ hm⟩, fun _ => rfl, by simp [VArr.dims, Ex.syms, hg],
        by simp [VArr.coords, Ex.syms, hg]⟩
  | .add a b => by
    simp only [Ex.evalArr, Ex.eval, Ex.syms]
    rcases evalArr_good h a with ⟨v, a1, a2, a3, a4, a5⟩ | ⟨x, a1, a3⟩
    swap
    · simp only [a1, a3]; exact .inr ⟨x, rfl, fun _ => rfl⟩
    rcases evalArr_good h b with ⟨w, b1, b2, b3, b4, b5⟩ | ⟨x, b1, b3⟩
    swap
    · simp only [a1, a3, b1, b3]; exact .inr ⟨x, rfl, fun _ => rfl⟩
    simp only [a1, a3, b1, b3]
    cases v with
    | num k =>
      cases w with
      | num l =>
        refine .inl ⟨.num (k + l), rfl, ⟨by simp [VArr.dims], by simp [VArr.coords]⟩, fun _ => rfl, fun d => ?_, fun d => ?_⟩
        · rw [← or_syms, ← a4, ← b4]; simp [VArr.dims]
        · rw [← or_syms, ← a5, ← b5]; simp [VArr.coords]
      | arr q =>
        rcases addNumArr_at k q with ⟨r, r1, r2, r3, r4⟩ | ⟨r1, r4⟩
        · refine .inl ⟨r, r1, ⟨by rw [r2]; exact b2.len, by rw [r3]; exact b2.co⟩, r4, fun d => ?_, fun d => ?_⟩
          · rw [← or_syms, ← a4, ← b4, r2]; simp [VArr.dims]
          · rw [← or_syms, ← a5, ← b5, r3]; simp [VArr.coords]
        · exact .inr ⟨_, r1, r4⟩
    | arr p =>
      cases w with
      | num l =>
        rcases addNumArr_at l p with ⟨r, r1, r2, r3, r4⟩ | ⟨r1, r4⟩
        · refine .inl ⟨r, r1, ⟨by rw [r2]; exact a2.len, by rw [r3]; exact a2.co⟩, r4, fun d => ?_, fun d => ?_⟩
          · rw [← or_syms, ← a4, ← b4, r2]; simp [VArr.dims]
          · rw [← or_syms, ← a5, ← b5, r3]; simp [VArr.coords]
        · exact .inr ⟨_, r1, r4⟩
      | arr q =>
        obtain ⟨d, c, j1, j2, j3, j4, j5⟩ := joinBoth_fits a2 b2
        simp only [VArr.add, j1, VArr.at, Val.add, Q.convert, QArr.at]
        by_cases hd : q.unit.dim = p.unit.dim
        · simp only [if_pos hd]
          refine .inl ⟨_, rfl, ⟨j2, j3⟩, fun _ => rfl, fun x => ?_, fun x => ?_⟩
          · rw [← or_syms, ← a4, ← b4]; exact j4 x
          · rw [← or_syms, ← a5, ← b5]; exact j5 x
        · simp only [if_neg hd]
          exact .inr ⟨_, rfl, fun _ => rfl⟩
  | .mul a b => by
    simp only [Ex.evalArr, Ex.eval, Ex.syms]
    rcases evalArr_good h a with ⟨v, a1, a2, a3, a4, a5⟩ | ⟨x, a1, a3⟩
    swap
    · simp only [a1, a3]; exact .inr ⟨x, rfl, fun _ => rfl⟩
    rcases evalArr_good h b with ⟨w, b1, b2, b3, b4, b5⟩ | ⟨x, b1, b3⟩
    swap
    · simp only [a1, a3, b1, b3]; exact .inr ⟨x, rfl, fun _ => rfl⟩
    simp only [a1, a3, b1, b3]
    cases v with
    | num k =>
      cases w with
      | num l =>
        refine .inl ⟨.num (k * l), rfl, ⟨by simp [VArr.dims], by simp [VArr.coords]⟩, fun _ => rfl, fun d => ?_, fun d => ?_⟩
        · rw [← or_syms, ← a4, ← b4]; simp [VArr.dims]
        · rw [← or_syms, ← a5, ← b5]; simp [VArr.coords]
      | arr q =>
        refine .inl ⟨_, rfl, ⟨b2.len, b2.co⟩, fun _ => rfl, fun d => ?_, fun d => ?_⟩
        · rw [← or_syms, ← a4, ← b4]; simp [VArr.dims]
        · rw [← or_syms, ← a5, ← b5]; simp [VArr.coords]
    | arr p =>
      cases w with
      | num l =>
        refine .inl ⟨_, rfl, ⟨a2.len, a2.co⟩, fun _ => rfl, fun d => ?_, fun d => ?_⟩
        · rw [← or_syms, ← a4, ← b4]; simp [VArr.dims]
        · rw [← or_syms, ← a5, ← b5]; simp [VArr.coords]
      | arr q =>
        obtain ⟨d, c, j1, j2, j3, j4, j5⟩ := joinBoth_fits a2 b2
        simp only [VArr.mul, j1]
        refine .inl ⟨_, rfl, ⟨j2, j3⟩, fun _ => rfl, fun x => ?_, fun x => ?_⟩
        · rw [← or_syms, ← a4, ← b4]; exact j4 x
        · rw [← or_syms, ← a5, ← b5]; exact j5 x
  | .pow a n => by
    simp only [Ex.evalArr, Ex.eval, Ex.syms]
    rcases evalArr_good h a with ⟨v, a1, a2, a3, a4, a5⟩ | ⟨x, a1, a3⟩
    · simp only [a1, a3]
      cases v <;> exact .inl ⟨_, rfl, ⟨a2.len, a2.co⟩, fun _ => rfl, a4, a5⟩
    · simp only [a1, a3]; exact .inr ⟨x, rfl, fun _ => rfl⟩
  | .sqrt a => by
    simp only [Ex.evalArr, Ex.eval, Ex.syms]
    rcases evalArr_good h a with ⟨v, a1, a2, a3, a4, a5⟩ | ⟨x, a1, a3⟩
    · simp only [a1, a3]
      cases v <;> exact .inl ⟨_, rfl, ⟨a2.len, a2.co⟩, fun _ => rfl, a4, a5⟩
    · simp only [a1, a3]; exact .inr ⟨x, rfl, fun _ => rfl⟩
  | .abs a => by
    simp only [Ex.evalArr, Ex.eval, Ex.syms]
    rcases evalArr_good h a with ⟨v, a1, a2, a3, a4, a5⟩ | ⟨x, a1, a3⟩
    · simp only [a1, a3]
      cases v <;> exact .inl ⟨_, rfl, ⟨a2.len, a2.co⟩, fun _ => rfl, a4, a5⟩
    · simp only [a1, a3]; exact .inr ⟨x, rfl, fun _ => rfl⟩
  | .fn f a => by
    simp only [Ex.evalArr, Ex.eval, Ex.syms]
    rcases evalArr_good h a with ⟨v, a1, a2, a3, a4, a5⟩ | ⟨x, a1, a3⟩
    · simp only [a1, a3]
      cases v with
      | num k => exact .inl ⟨_, rfl, ⟨a2.len, a2.co⟩, fun _ => rfl, a4, a5⟩
      | arr p =>
        simp only [VArr.fn, VArr.at, Val.fn, Q.convert, QArr.at]
        by_cases hd : p.unit.dim = (Unit.one : Unit ι).dim
        · simp only [if_pos hd]
          exact .inl ⟨_, rfl, ⟨a2.len, a2.co⟩, fun _ => rfl, a4, a5⟩
        · simp only [if_neg hd]
          exact .inr ⟨_, rfl, fun _ => rfl⟩
    · simp only [a1, a3]; exact .inr ⟨x, rfl, fun _ => rfl⟩

theorem args_element (e : ArrME ι) (kw : List (String × ArrInput ι)) (i : String → ℕ) :
    (e.element i).args (kw.map fun x => (x.1, x.2.element i)) = elements (e.args kw) i := by
  unfold ME.args ArrME.args elements
  rw [List.map_append, List.map_map, List.map_map]
  congr 1
  apply List.map_congr_left
  rintro ⟨k, v⟩ _
  cases v <;> rfl

/-! ### theorems -/

/-- **C104.** The evaluation of an expression with arrays as parameters or variables is the evaluation of its elements: for
arrays whose common dimensions have the same lengths and coordinates either the call succeeds, the result has exactly the
dimensions and coordinates of all arrays that occur in the expression, and each of its elements is the result for the
elements of the arguments; or the call fails in the same way as for the elements. -/
theorem C104_arrays (e : ArrME ι) (kw : List (String × ArrInput ι)) {len : String → ℕ} {co : String → List ℝ}
    (h : Fits (e.args kw) len co) :
    (∃ v, e.evaluate kw = .ok v ∧ (∀ i, (e.element i).evaluate (kw.map fun x => (x.1, x.2.element i)) = .ok (v.at i)) ∧
      (∀ d, d ∈ v.dims ↔ ∃ s ∈ e.expr.syms, ∃ a, Dict.get? (e.args kw) s = some a ∧ d ∈ a.dims) ∧
      ∀ d, d ∈ v.coords ↔ ∃ s ∈ e.expr.syms, ∃ a, Dict.get? (e.args kw) s = some a ∧ d ∈ a.coords) ∨
    ∃ x, e.evaluate kw = .error (.pint x) ∧
      ∀ i, (e.element i).evaluate (kw.map fun x => (x.1, x.2.element i)) = .error x := by
  have hkw : ∀ i : String → ℕ, Dict.keys (kw.map fun x => (x.1, x.2.element i)) = Dict.keys kw := fun i => by
    simp [Dict.keys, List.map_map, Function.comp_def]
  have hev : ∀ i : String → ℕ, (e.element i).evaluate (kw.map fun x => (x.1, x.2.element i)) =
      if ∃ s ∈ Dict.keys kw, s ∈ Dict.keys e.params then .error .valueError
      else if (∀ s ∈ e.expr.free, s ∈ Dict.keys (e.args kw)) ∧ (∀ s ∈ Dict.keys (e.args kw), s ∈ e.expr.free) then
        e.expr.eval (elements (e.args kw) i)
      else .error .typeError := by
    intro i
    have := args_element e kw i
    unfold ME.args at this
    unfold ME.evaluate
    dsimp only
    rw [this, hkw, elements_keys]
    have hp : Dict.keys (e.element i).params = Dict.keys e.params := elements_keys _ _
    rw [hp]
    rfl
  simp only [hev]
  unfold ArrME.evaluate
  by_cases h1 : ∃ s ∈ Dict.keys kw, s ∈ Dict.keys e.params
  · simp only [if_pos h1]
    exact .inr ⟨_, rfl, fun _ => rfl⟩
  · simp only [if_neg h1]
    by_cases h2 : (∀ s ∈ e.expr.free, s ∈ Dict.keys (e.args kw)) ∧ (∀ s ∈ Dict.keys (e.args kw), s ∈ e.expr.free)
    · simp only [if_pos h2]
      rcases evalArr_good h e.expr with ⟨v, a1, _, a3, a4, a5⟩ | ⟨x, a1, a3⟩
      · exact .inl ⟨v, a1, a3, a4, a5⟩
      · exact .inr ⟨x, a1, a3⟩
    · simp only [if_neg h2]
      exact .inr ⟨_, rfl, fun _ => rfl⟩

/-- the dimensionalities of the symbols -/
def arrDimOf (env : List (String × QArr ι)) (s : String) : Dim ι := ((Dict.get? env s).map fun a => a.unit.dim).getD 0

/-- **C104.** With arrays for all variables an evaluation succeeds exactly if the dimensionalities fit, and each element of the
result is the value of the expression for the elements in base units. -/
theorem C104_arrays_value {e : ArrME ι} {kw : List (String × ArrInput ι)} {len : String → ℕ} {co : String → List ℝ}
    (h : Fits (e.args kw) len co) (hk : ∀ s ∈ Dict.keys kw, s ∉ Dict.keys e.params)
    (hc : ∀ s, s ∈ Dict.keys (e.args kw) ↔ s ∈ e.expr.syms)
    (hp : ∀ s a, Dict.get? (e.args kw) s = some a → 0 < a.unit.factor) :
    (∃ v, e.evaluate kw = .ok v ∧ ∀ i, (v.at i).si =
        e.expr.value (fun s => ((Dict.get? (e.args kw) s).map fun a => a.val i * a.unit.factor).getD 0) ∧
      ∀ d, e.expr.HasDim (arrDimOf (e.args kw)) d ↔ d = (v.at i).dim) ∨
    e.evaluate kw = .error (.pint .dimensionality) ∧ ¬ ∃ d, e.expr.HasDim (arrDimOf (e.args kw)) d := by
  have hkw : ∀ i : String → ℕ, Dict.keys (kw.map fun x => (x.1, x.2.element i)) = Dict.keys kw := fun i => by
    simp [Dict.keys, List.map_map, Function.comp_def]
  have hcomp : ∀ i, (e.element i).Complete (kw.map fun x => (x.1, x.2.element i)) := by
    intro i
    refine ⟨?_, ?_⟩
    · rw [hkw]
      have : Dict.keys (e.element i).params = Dict.keys e.params := elements_keys _ _
      rw [this]; exact hk
    · intro s
      rw [args_element, elements_keys]; exact hc s
  have hpos : ∀ i, Positive ((e.element i).args (kw.map fun x => (x.1, x.2.element i))) := by
    intro i s q hq
    rw [args_element, elements_get] at hq
    cases hg : Dict.get? (e.args kw) s with
    | none => rw [hg] at hq; cases hq
    | some a => rw [hg] at hq; cases hq; exact hp s a hg
  have hsi : ∀ i, siOf ((e.element i).args (kw.map fun x => (x.1, x.2.element i))) =
      fun s => ((Dict.get? (e.args kw) s).map fun a => a.val i * a.unit.factor).getD 0 := by
    intro i; funext s
    rw [args_element, siOf, elements_get, Option.map_map]; rfl
  have hdim : ∀ i, dimOf ((e.element i).args (kw.map fun x => (x.1, x.2.element i))) = arrDimOf (e.args kw) := by
    intro i; funext s
    rw [args_element, dimOf, elements_get, Option.map_map]; rfl
  rcases C104_arrays e kw h with ⟨v, h1, h2, -, -⟩ | ⟨x, h1, h2⟩
  · left
    refine ⟨v, h1, fun i => ?_⟩
    have := C104_value (hcomp i) (hpos i) (h2 i)
    rw [hsi, hdim] at this
    exact this
  · right
    have i0 : String → ℕ := fun _ => 0
    have h3 := C104_accepts (hcomp i0) (hpos i0)
    rw [hdim] at h3
    have hn : ¬ ∃ d, e.expr.HasDim (arrDimOf (e.args kw)) d := by
      intro hd
      obtain ⟨v, hv⟩ := h3.1.2 hd
      rw [h2 i0] at hv
      cases hv
    have h4 := h3.2 hn
    rw [h2 i0] at h4
    cases h4
    exact ⟨h1, hn⟩

/-- **C104.** All elements of a result have the same unit. -/
theorem C104_arrays_unit {e : ArrME ι} {kw : List (String × ArrInput ι)} {a : QArr ι} (_ : e.evaluate kw = .ok (.arr a))
    (i j : String → ℕ) : (a.at i).unit = (a.at j).unit := rfl

/-! ### example -/

namespace Demo

/-- `a * t + b` with two values of `a` in mm per minute along a dimension, and three times -/
noncomputable def movesArr : ArrME Base := ⟨.add (.mul (.sym "a") (.sym "t")) (.sym "b"),
  [("a", ⟨[("c", 2)], [], fun i => i "c", mmPerMinute⟩), ("b", ⟨[], [], fun _ => 5, cm⟩)]⟩

noncomputable def timesArr : List (String × ArrInput Base) :=
  [("t", .array ⟨[("t", 3)], [("t", [0, 1, 2])], fun i => i "t", second⟩)]

/-- The hypotheses are met, and the result has both dimensions. -/
example : ∃ v, movesArr.evaluate timesArr = .ok v ∧ ("c", 2) ∈ v.dims ∧ ("t", 3) ∈ v.dims := by
  have hf : Fits (movesArr.args timesArr) (fun s => if s = "c" then 2 else 3) (fun _ => [0, 1, 2]) :=
    ⟨by simp [ArrME.args, movesArr, timesArr, ArrInput.toArr], by simp [ArrME.args, movesArr, timesArr, ArrInput.toArr]⟩
  have hn : ∃ d, movesArr.expr.HasDim (arrDimOf (movesArr.args timesArr)) d := by
    refine ⟨dim 1 0, ?_⟩
    refine .add (d := dim 1 0) ?_ ?_
    · have h1 : Ex.HasDim (arrDimOf (movesArr.args timesArr)) (.mul (.sym "a") (.sym "t"))
        (arrDimOf (movesArr.args timesArr) "a" + arrDimOf (movesArr.args timesArr) "t") := .mul (.sym _) (.sym _)
      have h2 : arrDimOf (movesArr.args timesArr) "a" + arrDimOf (movesArr.args timesArr) "t" = dim 1 0 := by
        funext b
        cases b <;> simp [arrDimOf, ArrME.args, movesArr, timesArr, Dict.get?, ArrInput.toArr, mmPerMinute, second, dim]
      rwa [h2] at h1
    · have h1 : Ex.HasDim (arrDimOf (movesArr.args timesArr)) (.sym "b") (arrDimOf (movesArr.args timesArr) "b") := .sym _
      have h2 : arrDimOf (movesArr.args timesArr) "b" = dim 1 0 := by
        simp [arrDimOf, ArrME.args, movesArr, timesArr, Dict.get?, ArrInput.toArr, cm]
      rwa [h2] at h1
  rcases C104_arrays_value hf (by simp [movesArr, timesArr, Dict.keys])
    (by intro s; simp [ArrME.args, movesArr, timesArr, Dict.keys, Ex.syms]; tauto)
    (by
      intro s a ha
      have := Dict.mem_of_get? ha
      simp [ArrME.args, movesArr, timesArr, ArrInput.toArr] at this
      rcases this with ⟨-, rfl⟩ | ⟨-, rfl⟩ | ⟨-, rfl⟩ <;> simp [second, mmPerMinute, cm]) with ⟨v, h1, -⟩ | ⟨-, h2⟩
  · rcases C104_arrays movesArr timesArr hf with ⟨w, g1, -, g2, -⟩ | ⟨x, g1, -⟩
    · refine ⟨w, g1, (g2 _).2 ⟨"a", by simp [movesArr, Ex.syms], ?_⟩, (g2 _).2 ⟨"t", by simp [movesArr, Ex.syms], ?_⟩⟩
      · simp [ArrME.args, movesArr, timesArr, Dict.get?, ArrInput.toArr]
      · simp [ArrME.args, movesArr, timesArr, Dict.get?, ArrInput.toArr]
    · rw [h1] at g1; cases g1
  · exact absurd hn h2

end Demo

end Weldx.Pint
