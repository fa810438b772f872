import Verif.MathExpr.Model

/-!
# Model of the constructor of expression based `weldx.GenericSeries` and of the checks of derived classes

Source: `/repo/weldx/core/generic_series.py` 44-90 (the class attributes of derived classes), 215-242 (`__init__`), 291-297
(`_init_get_updated_dims`), 299-321 (`_init_get_updated_units`), 323-356 (`_init_expression`), 358-405 (`_test_expr`), 407-432
(`_format_expression_params`), 581-595 (`_get_expression_dims`), 669-772 (the checks of derived classes), 837-853
(`SeriesParameter.__post_init__`); `/repo/weldx/core/spatial_series.py` 16-90;
`/repo/weldx/util/xarray.py` 430-543 (`xr_check_coords`), 546-574 (`xr_check_dimensionality`).

Simplifications: units are elements of a type with a dimensionality; the unit of an expression is found by a function that is not
specified (pint evaluates it with the values one) and is only asked if the shapes fit, so an expression with both kinds of errors
always gives the shape error; the rest as in `Verif.MathExpr.Model`. The string of the expression is not parsed.
-/

namespace Weldx.Me

variable {K U D : Type}

/-- the exceptions of the constructor -/
inductive InitErr
  | expr (e : Err)
  | value | key | dimensionality
  /-- `UnboundLocalError` of `return expr_units` in `_test_expr` -/
  | unbound
  /-- `bidict.ValueDuplicationError` -/
  | duplication
  /-- the error made for a missing unit calls `U_(None)` -/
  | noUnit
deriving DecidableEq

/-- a `pint.Quantity` without its unit: the lengths of its axes and its values -/
structure Qty (K : Type) where
  shape : List ℕ
  val : List ℕ → K

/-- `xr.DataArray(q, dims=names)` -/
def Qty.named (q : Qty K) (names : List String) : Except InitErr (Arr K) :=
  if names.length = q.shape.length then .ok ⟨names.zip q.shape, [], fun i => q.val (names.map i)⟩ else .error .value

/-- the names that xarray gives to dimensions without name -/
def defaultNames (n : ℕ) : List String := (List.range n).map fun i => "dim_" ++ Nat.repr i

/-- `xr.DataArray(q)` -/
def Qty.unnamed (q : Qty K) : Except InitErr (Arr K) := q.named (defaultNames q.shape.length)

/-- the values accepted for parameters: quantities (also numbers and strings), pairs of a quantity and a dimension, arrays with
or without unit -/
inductive Input (K U : Type)
  | quantity (q : Qty K) (u : U)
  | tuple (q : Qty K) (dim : String) (u : U)
  | array (a : Arr K) (u : Option U)

/-- generic_series.py 407-432 `_format_expression_params` with 837-853 `SeriesParameter`, followed by math_expression.py 171-177
(`set_parameters`). A quantity without dimension becomes the pair `(values, None)`; a pair whose dimension is the symbol of the
parameter becomes a quantity; both get the default names of the dimensions. -/
def Input.format (sym : String) : Input K U → Except InitErr (Arr K × U)
  | .quantity q u =>
    match q.unnamed with
    | .error e => .error e
    | .ok a => .ok (a, u)
  | .tuple q dim u =>
    match (if dim ≠ sym then q.named [dim] else q.unnamed) with
    | .error e => .error e
    | .ok a => .ok (a, u)
  | .array a (some u) => .ok (a, u)
  | .array _ none => .error .value

/-- all parameters; parameters that are no symbols of the expression raise (math_expression.py 167-170) -/
def formatParams (e : Expr K) : List (String × Input K U) → Except InitErr (List (String × Arr K × U))
  | [] => .ok []
  | (k, v) :: t =>
    if k ∉ e.free then .error .value
    else
      match v.format k with
      | .error x => .error x
      | .ok a =>
        match formatParams e t with
        | .error x => .error x
        | .ok r => .ok ((k, a) :: r)

/-- the class attributes of a derived series (generic_series.py 44-90). All are empty for `GenericSeries`; the checks then do
nothing, as with the test `cls is GenericSeries` (678, 709). -/
structure Cls (K U : Type) where
  allowedVars : List String := []
  reqVars : List String := []
  reqDims : List String := []
  reqUnit : Option U := none
  reqDimUnits : List (String × U) := []
  reqDimCoords : List (String × List K) := []

/-- `GenericSeries` -/
def Cls.generic : Cls K U := {}

/-- generic_series.py 291-297 `_init_get_updated_dims` -/
def updatedDims (vars : List String) (dims : List (String × String)) : List (String × String) :=
  vars.map fun v => (v, (Dict.get? dims v).getD v)

/-- 307-310: the units required by the class are added -/
def addRequired (params : List String) (units : List (String × U)) : List (String × U) → List (String × U)
  | [] => units
  | e :: t => addRequired params (if e.1 ∉ Dict.keys units ∧ e.1 ∉ params then units ++ [e] else units) t

/-- 299-321 `_init_get_updated_units`; `one` is the unit `U_("")` -/
def updatedUnits (one : U) (vars params : List String) (req units : List (String × U)) :
    Except InitErr (List (String × U)) :=
  let u := addRequired params units req
  if ∀ k ∈ Dict.keys u, k ∈ vars then .ok (u ++ (vars.filter (· ∉ Dict.keys u)).map fun v => (v, one)) else .error .key

/-- 387-391: the arrays of a test evaluation: their lengths are `n`, `n + 1`, … -/
def probe [Inhabited K] (nat : ℕ → K) (dims : List (String × String)) (n : ℕ) : List (String × U) → List (String × Arr K)
  | [] => []
  | e :: t =>
    (e.1, .vec ((List.range n).map nat) ((Dict.get? dims e.1).getD e.1)) :: probe nat dims (n + 1) t

/-- 358-405 `_test_expr`. `unitOf` gives the unit of the result from the units of variables and parameters or raises. -/
def testExpr [Inhabited K] [DecidableEq K] (nat : ℕ → K) (unitOf : Expr K → List (String × U) → Except InitErr U) (me : ME K)
    (paramUnits : List (String × U)) (dims : List (String × String)) (units : List (String × U)) : Except InitErr U :=
  let first : Except InitErr (Option U) :=
    match me.evaluate (units.map fun e => (e.1, .const (nat 1))) with
    | .error .valueError => .ok none
    | .error e => .error (.expr e)
    | .ok _ =>
      match unitOf me.expr (units ++ paramUnits) with
      | .error e => .error e
      | .ok u => .ok (some u)
  match first with
  | .error e => .error e
  | .ok u =>
    match me.evaluate (probe nat dims 2 units) with
    | .error .valueError => .error .value
    | .error e => .error (.expr e)
    | .ok _ =>
      match me.evaluate (probe nat dims 3 units) with
      | .error .valueError => .error .value
      | .error e => .error (.expr e)
      | .ok _ =>
        match u with
        | none => .error .unbound
        | some u => .ok u

/-- 581-595 `_get_expression_dims`. `v.size > 0`: an array with an axis of length zero is left out. -/
def exprDims (me : ME K) (dims : List (String × String)) : List String :=
  dims.map Prod.snd ++ (me.params.flatMap fun p => if (p.2.dims.all fun d => d.2 ≠ 0) then Dict.keys p.2.dims else [])

/-- `np.all(a == b)` of two lists: one of length one is repeated; lists that can not be compared raise a `ValueError`, as
a mismatch does -/
def allEqual [DecidableEq K] (a b : List K) : Bool :=
  if a.length = b.length then a = b
  else
    match a, b with
    | [x], _ => b.all (x = ·)
    | _, [y] => a.all (· = y)
    | _, _ => false

/-- `xr_check_coords` with the key `values` (util/xarray.py 497-507) for the coordinates of an array -/
def checkValues [DecidableEq K] (coords : List (String × List K)) (k : String) (v : List K) : Except InitErr Unit :=
  match Dict.get? coords k with
  | none => .error .key
  | some c => if allEqual c v then .ok () else .error .value

/-- 733-772 `_check_units_and_coords`: the units of dimensions (744-756) -/
def checkDimUnits [DecidableEq D] (dim : U → D) (paramUnits varUnits : List (String × U)) :
    List (String × U) → Except InitErr Unit
  | [] => .ok ()
  | (k, v) :: t =>
    match (Dict.get? varUnits k).orElse (fun _ => Dict.get? paramUnits k) with
    | none => .error .noUnit
    | some u => if dim u = dim v then checkDimUnits dim paramUnits varUnits t else .error .dimensionality

/-- 766-769: the parameters that have the coordinate -/
def checkParamCoords [DecidableEq K] (k : String) (v : List K) : List (String × Arr K) → Except InitErr Unit
  | [] => .ok ()
  | p :: t =>
    if k ∈ Dict.keys p.2.coords then
      match checkValues p.2.coords k v with
      | .error e => .error e
      | .ok _ => checkParamCoords k v t
    else checkParamCoords k v t

/-- 757-769: the coordinates of dimensions -/
def checkCoords [DecidableEq K] (me : ME K) (dims : List (String × String)) : List (String × List K) → Except InitErr Unit
  | [] => .ok ()
  | (k, v) :: t =>
    if k ∈ Dict.keys dims then .error .value
    else
      match checkParamCoords k v me.params with
      | .error e => .error e
      | .ok _ => checkCoords me dims t

/-- 700-731 `_check_constraints_expression` -/
def Cls.checkExpr [DecidableEq K] [DecidableEq D] (c : Cls K U) (dim : U → D) (me : ME K) (paramUnits : List (String × U))
    (dims : List (String × String)) (varUnits : List (String × U)) (units : U) : Except InitErr Unit :=
  if c.allowedVars.length > 0 ∧ ¬ ∀ v ∈ me.variableNames, v ∈ c.allowedVars then .error .value
  else if ¬ ∀ v ∈ c.reqVars, v ∈ me.variableNames then .error .value
  else if ¬ ∀ d ∈ c.reqDims, d ∈ exprDims me dims then .error .value
  else if (∃ u ∈ c.reqUnit, dim units ≠ dim u) then .error .dimensionality
  else
    match checkDimUnits dim paramUnits varUnits c.reqDimUnits with
    | .error e => .error e
    | .ok _ => checkCoords me dims c.reqDimCoords

/-- an expression based series -/
structure ExprSeries (K U : Type) where
  me : ME K
  paramUnits : List (String × U)
  /-- `_symbol_dims` -/
  dims : List (String × String)
  /-- `_variable_units` -/
  varUnits : List (String × U)
  units : U

/-- generic_series.py 323-356 `_init_expression` -/
def initExpr [Inhabited K] [DecidableEq K] [DecidableEq D] (c : Cls K U) (one : U) (dim : U → D) (nat : ℕ → K)
    (unitOf : Expr K → List (String × U) → Except InitErr U) (e : Expr K) (dims : List (String × String))
    (params : List (String × Input K U)) (units : List (String × U)) : Except InitErr (ExprSeries K U) :=
  match formatParams e params with
  | .error x => .error x
  | .ok ps =>
    let me : ME K := ⟨e, ps.map fun p => (p.1, p.2.1)⟩
    let pu := ps.map fun p => (p.1, p.2.2)
    if me.numVariables = 0 then .error .value
    else
      match updatedUnits one me.variableNames (Dict.keys me.params) c.reqDimUnits units with
      | .error x => .error x
      | .ok vu =>
        let ds := updatedDims me.variableNames dims
        match testExpr nat unitOf me pu ds vu with
        | .error x => .error x
        | .ok u =>
          match c.checkExpr dim me pu ds vu u with
          | .error x => .error x
          | .ok _ => if (ds.map Prod.snd).Nodup then .ok ⟨me, pu, ds, vu, u⟩ else .error .duplication

/-! ## Discrete series -/

/-- an array with its unit and the units of its coordinates (`attrs["units"]`) -/
structure Disc (K U : Type) where
  arr : Arr K
  units : Option U
  coordUnits : List (String × U)

/-- `xr_check_coords` with the key `dimensionality` (util/xarray.py 533-541) -/
def checkCoordUnit [DecidableEq D] (dim : U → D) (a : Disc K U) (k : String) (u : U) : Except InitErr Unit :=
  match Dict.get? a.arr.coords k with
  | none => .error .key
  | some _ =>
    match Dict.get? a.coordUnits k with
    | none => .error .dimensionality
    | some w => if dim w = dim u then .ok () else .error .dimensionality

/-- the checks of a list one after the other -/
def checkAll {A : Type} (f : A → Except InitErr Unit) : List A → Except InitErr Unit
  | [] => .ok ()
  | a :: t =>
    match f a with
    | .error e => .error e
    | .ok _ => checkAll f t

/-- generic_series.py 675-698 `_check_constraints_discrete`. The order of the coordinates is that of a set; which exception is
raised if there are several reasons is not specified. -/
def Cls.checkDisc [DecidableEq K] [DecidableEq D] (c : Cls K U) (dim : U → D) (a : Disc K U) : Except InitErr Unit :=
  if ¬ ∀ d ∈ c.reqDims, d ∈ Dict.keys a.arr.dims then .error .value
  else if (∃ u ∈ c.reqUnit, ∀ w ∈ a.units, dim w ≠ dim u) then .error .dimensionality
  else
    match checkAll (fun e => checkValues a.arr.coords e.1 e.2) c.reqDimCoords with
    | .error e => .error e
    | .ok _ => checkAll (fun e => checkCoordUnit dim a e.1 e.2)
        (c.reqDimUnits.filter fun e => e.1 ∈ Dict.keys a.arr.dims ∨ e.1 ∈ Dict.keys c.reqDimCoords)

/-- spatial_series.py 16-31: the class `SpatialSeries`; `x`, `y`, `z` are the coordinates of `c` -/
def Cls.spatial (one : U) (x y z : K) : Cls K U :=
  { reqVars := ["s"]
    reqDims := ["s", "c"]
    reqDimUnits := [("s", one)]
    reqDimCoords := [("c", [x, y, z])] }

/-- the spatial series from an expression: spatial_series.py 33-49, 75-83: quantities with three values as parameters become
arrays with the dimension `c` and its coordinates (`params[k] = …` also changes the dictionary of the caller). A quantity with
three values and more than one dimension raises in `xr.DataArray`. -/
def spatialParam (x y z : K) : Input K U → Except InitErr (Input K U)
  | .quantity q u =>
    if q.shape.prod = 3 then
      match q.named ["c"] with
      | .error e => .error e
      | .ok a => .ok (.array { a with
          coords := [("c", [x, y, z])] } (some u))
    else .ok (.quantity q u)
  | i => .ok i

end Weldx.Me
