import Verif.Base.Dict

/-!
# Model of `weldx.MathematicalExpression` and of expression based `weldx.GenericSeries`

Source: `/repo/weldx/core/math_expression.py` 24-57 (constructor), 154-179 (`set_parameters`), 181-204 (`num_parameters`,
`num_variables`), 229-242 (`get_variable_names`), 244-273 (`evaluate`); `/repo/weldx/core/generic_series.py` 496-533
(`_evaluate_preprocessor`, `_evaluate_expr`), 818-880 (`SeriesParameter`).

Simplifications: no units (every value is a number of one type; no conversion and no unit error); the sympy expression is a
syntax tree of numbers, symbols, functions of one and two numbers, and the lambdified function evaluates this tree; labelled
arrays are compared by dimension name as xarray does it: the dimensions of a result are those of the first operand followed by
the new ones of the second, equal dimensions of different length are a `ValueError`. Operands with different index
coordinates for one dimension are joined by xarray; this is not modelled (error `notModelled`).
-/

namespace Weldx.Me

/-- the kinds of exceptions -/
inductive Err
  | valueError | typeError | keyError | notModelled
deriving DecidableEq

/-- `xr.DataArray`: dimensions with lengths, index coordinates, and the value at every position -/
structure Arr (K : Type) where
  dims : List (String × ℕ)
  coords : List (String × List K)
  val : (String → ℕ) → K

/-- a sympy expression -/
inductive Expr (K : Type)
  | num (k : K)
  | sym (s : String)
  | un (f : K → K) (a : Expr K)
  | bin (f : K → K → K) (a b : Expr K)

variable {K : Type}

/-- the symbols of an expression, from left to right -/
def Expr.syms : Expr K → List String
  | .num _ => []
  | .sym s => [s]
  | .un _ a => a.syms
  | .bin _ a b => a.syms ++ b.syms

/-- `expression.free_symbols` -/
def Expr.free (e : Expr K) : List String := e.syms.dedup

/-- `xr.DataArray(Q_(k))` -/
def Arr.const (k : K) : Arr K := ⟨[], [], fun _ => k⟩

/-- union of two label dictionaries; `none` if they differ at a common label -/
def joinLabels {L : Type} [DecidableEq L] (a b : List (String × L)) : Option (List (String × L)) :=
  if ∀ e ∈ b, Dict.get? a e.1 = none ∨ Dict.get? a e.1 = some e.2 then
    some (a ++ b.filter (fun e => Dict.get? a e.1 = none))
  else none

/-- binary operations of `xr.DataArray` -/
def Arr.bin [DecidableEq K] (f : K → K → K) (a b : Arr K) : Except Err (Arr K) :=
  match joinLabels a.coords b.coords with
  | none => .error .notModelled
  | some c =>
    match joinLabels a.dims b.dims with
    | none => .error .valueError
    | some d => .ok ⟨d, c, fun i => f (a.val i) (b.val i)⟩

/-- the body of the lambdified function -/
def Expr.eval [DecidableEq K] (env : List (String × Arr K)) : Expr K → Except Err (Arr K)
  | .num k => .ok (.const k)
  | .sym s =>
    match Dict.get? env s with
    | none => .error .typeError
    | some a => .ok a
  | .un f a =>
    match a.eval env with
    | .error e => .error e
    | .ok r => .ok { r with
        val := fun i => f (r.val i) }
  | .bin f a b =>
    match a.eval env with
    | .error e => .error e
    | .ok r =>
      match b.eval env with
      | .error e => .error e
      | .ok s => Arr.bin f r s

/-- `MathematicalExpression` -/
structure ME (K : Type) where
  expr : Expr K
  params : List (String × Arr K)

/-- the values accepted for parameters: numbers, pairs of a list and a dimension name, pairs of a number and a dimension name,
arrays -/
inductive Arg (K : Type)
  | scalar (k : K)
  | pair (vs : List K) (dim : String)
  | scalarPair (k : K) (dim : String)
  | arr (a : Arr K)

/-- a list of values as array with one dimension; the value outside of the list does not matter -/
def Arr.vec [Inhabited K] (vs : List K) (dim : String) : Arr K :=
  ⟨[(dim, vs.length)], [], fun i => (vs[i dim]?).getD default⟩

/-- math_expression.py 171-177: the conversion of one parameter. `xr.DataArray(number, dims="d")` raises since the number of
dimensions does not fit. -/
def Arg.toArr [Inhabited K] : Arg K → Except Err (Arr K)
  | .scalar k => .ok (.const k)
  | .pair vs dim => .ok (.vec vs dim)
  | .scalarPair _ _ => .error .valueError
  | .arr a => .ok a

/-- math_expression.py 154-179 `set_parameters`: the object after the call, and the exception if there is one -/
def ME.setParameters [Inhabited K] (e : ME K) : List (String × Arg K) → ME K × Option Err
  | [] => (e, none)
  | (k, v) :: t =>
    if k ∉ e.expr.free then (e, some .valueError)
    else
      match v.toArr with
      | .error x => (e, some x)
      | .ok a => ME.setParameters ⟨e.expr, Dict.set e.params k a⟩ t

/-- math_expression.py 24-57: the constructor; no object is made if `set_parameters` raises -/
def ME.create [Inhabited K] (expr : Expr K) (params : List (String × Arg K)) : Except Err (ME K) :=
  match ME.setParameters ⟨expr, []⟩ params with
  | (e, none) => .ok e
  | (_, some x) => .error x

/-- math_expression.py 229-242 `get_variable_names` -/
def ME.variableNames (e : ME K) : List String := e.expr.free.filter (· ∉ Dict.keys e.params)

/-- math_expression.py 193-204 `num_variables` (a Python integer) -/
def ME.numVariables (e : ME K) : Int := (e.expr.free.length : Int) - e.params.length

/-- `self.function(**variables, **parameters)`: all arguments must be present and no others -/
def Expr.call [DecidableEq K] (e : Expr K) (args : List (String × Arr K)) : Except Err (Arr K) :=
  if (∀ s ∈ e.free, s ∈ Dict.keys args) ∧ (∀ s ∈ Dict.keys args, s ∈ e.free) then e.eval args else .error .typeError

/-- math_expression.py 244-273 `evaluate`; the keyword arguments are already converted to arrays (259-262) -/
def ME.evaluate [DecidableEq K] (e : ME K) (kw : List (String × Arr K)) : Except Err (Arr K) :=
  if ∃ s ∈ Dict.keys kw, s ∈ Dict.keys e.params then .error .valueError else e.expr.call (kw ++ e.params)

/-! ## Expression based generic series -/

/-- a `GenericSeries`: an expression with the dictionary from symbols to dimensions (`_symbol_dims`, its keys are also those of
`_variable_units`), or an array -/
inductive GS (K : Type)
  | expr (me : ME K) (symbolDims : List (String × String))
  | array (a : Arr K)

/-- a coordinate: a number or a list of numbers (`SeriesParameter.values`) -/
inductive Coord (K : Type)
  | one (k : K)
  | many (ks : List K)

/-- `SeriesParameter.data_array`, 850-859: numbers are expanded -/
def Coord.values : Coord K → List K
  | .one k => [k]
  | .many ks => ks

/-- `_symbol_dims.inverse.get(k, k)`, 504 -/
def symbolOf (symbolDims : List (String × String)) (dim : String) : String :=
  match symbolDims.find? (fun e => e.2 = dim) with
  | none => dim
  | some e => e.1

/-- 516-521: the argument of a full evaluation: an array with its own values as index coordinate -/
def Coord.full [Inhabited K] (dim : String) (c : Coord K) : Arr K :=
  { Arr.vec c.values dim with
    coords := [(dim, c.values)] }

/-- 528-529: the parameter of a partial evaluation `(p.quantity, p.dim)` -/
def Coord.partial (dim : String) : Coord K → Arg K
  | .one k => .scalarPair k dim
  | .many ks => .pair ks dim

/-- 526-532: the loop that turns coordinates into parameters -/
def fixAll [Inhabited K] (me : ME K) (symbolDims : List (String × String)) :
    List (String × String × Coord K) → Except Err (GS K)
  | [] => .ok (.expr me symbolDims)
  | (sym, dim, c) :: t =>
    match me.setParameters [(sym, c.partial dim)] with
    | (_, some x) => .error x
    | (me', none) =>
      if sym ∉ Dict.keys symbolDims then .error .keyError
      else fixAll me' (Dict.erase symbolDims sym) t

/-- 496-533 `_evaluate_preprocessor` and `_evaluate_expr`. The interpolation of arrays (`_evaluate_array`) is not part of this
model. -/
def GS.evaluate [Inhabited K] [DecidableEq K] (g : GS K) (coords : List (String × Coord K)) : Except Err (GS K) :=
  match g with
  | .array _ => .error .notModelled
  | .expr me sd =>
    if (coords.length : Int) = me.numVariables then
      match me.evaluate (Dict.update [] (coords.map fun e => (symbolOf sd e.1, e.2.full e.1))) with
      | .error x => .error x
      | .ok a => .ok (.array a)
    else fixAll me sd (coords.map fun e => (symbolOf sd e.1, e.1, e.2))

/-- several evaluations one after the other -/
def GS.evaluates [Inhabited K] [DecidableEq K] (g : GS K) : List (List (String × Coord K)) → Except Err (GS K)
  | [] => .ok g
  | c :: t =>
    match g.evaluate c with
    | .error x => .error x
    | .ok g' => g'.evaluates t

end Weldx.Me
