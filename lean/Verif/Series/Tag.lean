import Verif.Series.InitProps

/-!
# Serialisation of generic series and mathematical expressions (C69)

Source: `/repo/weldx/tags/core/generic_series.py` 24-87 (`GenericSeriesConverter`), `/repo/weldx/tags/core/mathematical_expression.py`
13-48 (`MathematicalExpressionConverter`), `/repo/weldx/core/generic_series.py` 270-289 (`_init_discrete`), 817-886
(`SeriesParameter`), `/repo/weldx/util/xarray.py` 229-238 (`_get_coordinate_quantities`), `/repo/weldx/asdf/types.py` 26-66.

Simplifications: `sympify(str(e)) = e`; quantities, units and arrays are written and read without change, and tuples come back as
lists; a parameter of an expression series that is stored as quantity (only if it was given with a dimension of its own name) is
treated as the array that the expression makes of it. Converters of mathematical expressions set an attribute of the quantity of
a parameter; for this, quantities are objects in a store, and `xr.DataArray(q, dims)` keeps the object `q` as its data.
-/

namespace Weldx.Me

variable {K U D : Type}

/-! ## Expression based series -/

/-- `GenericSeriesFreeDimension` -/
structure FreeDim (U : Type) where
  units : U
  symbol : Option String

/-- the file representation of an expression based series; `units` is written but not read -/
structure SeriesTree (K U : Type) where
  expression : Expr K
  parameters : List (String × Arr K × U)
  freeDimensions : List (String × FreeDim U)
  units : U

/-- tags/core/generic_series.py 34-43: one step of the loop -/
def addFreeDim (dims : List (String × String)) (acc : List (String × FreeDim U)) (v : String × U) : List (String × FreeDim U) :=
  match Dict.get? dims v.1 with
  | some d => if d ≠ v.1 then Dict.set acc d ⟨v.2, some v.1⟩ else Dict.set acc v.1 ⟨v.2, none⟩
  | none => Dict.set acc v.1 ⟨v.2, none⟩

/-- 30-50 `to_yaml_tree` of an expression -/
def ExprSeries.toTree (s : ExprSeries K U) : SeriesTree K U where
  expression := s.me.expr
  parameters := (s.me.params.zip s.paramUnits).map fun p => (p.1.1, p.1.2, p.2.2)
  freeDimensions := s.varUnits.foldl (addFreeDim s.dims) []
  units := s.units

/-- 64-70: one step of the loop over the free dimensions: the dictionaries `dims` and `units` -/
def readFreeDim (acc : List (String × String) × List (String × U)) (e : String × FreeDim U) :
    List (String × String) × List (String × U) :=
  match e.2.symbol with
  | none => (acc.1, Dict.set acc.2 e.1 e.2.units)
  | some s => (Dict.set acc.1 s e.1, Dict.set acc.2 s e.2.units)

/-- 58-80 `from_yaml_tree` of an expression -/
def SeriesTree.fromTree [Inhabited K] [DecidableEq K] [DecidableEq D] (one : U) (dim : U → D) (nat : ℕ → K)
    (unitOf : Expr K → List (String × U) → Except InitErr U) (t : SeriesTree K U) : Except InitErr (ExprSeries K U) :=
  let r := t.freeDimensions.foldl readFreeDim ([], [])
  initExpr Cls.generic one dim nat unitOf t.expression r.1
    (t.parameters.map fun p => (p.1, .array p.2.1 (some p.2.2))) r.2

/-! ## Discrete series -/

/-- a coordinate of a `DataArray`: dimensions, values, unit attribute -/
structure CoordVar (K U : Type) where
  dims : List String
  vals : List K
  units : Option U

/-- the data array of a discrete series; `V` are the values and `A` its name and attributes. A data array given to the constructor
is taken as it is (`todo check data structure`), so there may be no unit. -/
structure DiscSeries (V A K U : Type) where
  dims : List String
  values : V
  units : Option U
  coords : List (String × CoordVar K U)
  attrs : A
  interpolation : String

/-- the file representation; a coordinate is a quantity or, without unit, an array -/
structure DiscTree (V K U : Type) where
  data : V × Option U
  dimensions : List String
  coordinates : List (String × List K × Option U)
  interpolation : String

/-- exceptions of reading -/
inductive TagErr
  | typeError | valueError | keyError
deriving DecidableEq

variable {V A : Type}

/-- tags/core/generic_series.py 51-56 -/
def DiscSeries.toTree (s : DiscSeries V A K U) : DiscTree V K U where
  data := (s.values, s.units)
  dimensions := s.dims
  coordinates := s.coords.map fun c => (c.1, c.2.vals, c.2.units)
  interpolation := s.interpolation

/-- 82-87 and core/generic_series.py 270-289: data without unit is no valid argument of the constructor (`TypeError`); coordinates
get the unit `U_("")` if they have none, and their own name as dimension, which must be one of the dimensions -/
def DiscTree.fromTree (one : U) (noAttrs : A) (t : DiscTree V K U) : Except TagErr (DiscSeries V A K U) :=
  match t.data.2 with
  | none => .error .typeError
  | some u =>
    if ∀ c ∈ t.coordinates, c.1 ∈ t.dimensions then
      .ok ⟨t.dimensions, t.data.1, some u, t.coordinates.map fun c => (c.1, ⟨[c.1], c.2.1, some (c.2.2.getD one)⟩), noAttrs,
        t.interpolation⟩
    else .error .valueError

/-! ## Mathematical expressions -/

/-- the attribute `wx_metadata` of a quantity: dimensions written by the converter, or something else given by the user -/
inductive Info
  | dims (ds : List String)
  | other
deriving DecidableEq

/-- quantities as objects: value and attribute -/
abbrev Store (V : Type) := ℕ → V × Option Info

/-- a parameter: a quantity, or an array with dimensions, coordinates (`C`) and a quantity as data -/
inductive MParam (C : Type)
  | plain (q : ℕ)
  | array (q : ℕ) (dims : List String) (coords : C)

variable {C : Type}

/-- the quantity of a parameter -/
def MParam.ref : MParam C → ℕ
  | .plain q => q
  | .array q _ _ => q

/-- mathematical_expression.py 21-31: the store after the loop -/
def saveStore (σ : Store V) : List (String × MParam C) → Store V
  | [] => σ
  | (_, .plain _) :: t => saveStore σ t
  | (_, .array q ds _) :: t => saveStore (fun i => if i = q then ((σ i).1, some (.dims ds)) else σ i) t

/-- 19-33: what is written: the quantities with their attributes after the loop -/
def saveTree (σ : Store V) (ps : List (String × MParam C)) : List (String × V × Option Info) :=
  ps.map fun p => (p.1, (saveStore σ ps p.2.ref).1, (saveStore σ ps p.2.ref).2)

/-- a parameter after reading: a quantity, or an array without coordinates -/
inductive RParam (V : Type)
  | plain (v : V)
  | array (v : V) (dims : List String)
deriving DecidableEq

/-- 38-44 for one parameter. `ndim` is the number of axes: `xr.DataArray(v, dims=dims)` raises if it does not fit. -/
def readParam (ndim : V → ℕ) : V × Option Info → Except TagErr (RParam V)
  | (v, none) => .ok (.plain v)
  | (v, some (.dims ds)) => if ds.length = ndim v then .ok (.array v ds) else .error .valueError
  | (_, some .other) => .error .keyError

/-- 35-48 `from_yaml_tree` -/
def readTree (ndim : V → ℕ) : List (String × V × Option Info) → Except TagErr (List (String × RParam V))
  | [] => .ok []
  | (k, e) :: t =>
    match readParam ndim e with
    | .error x => .error x
    | .ok p =>
      match readTree ndim t with
      | .error x => .error x
      | .ok r => .ok ((k, p) :: r)

end Weldx.Me
