import Verif.MathExpr.Series
import Verif.Nested.Props
import Verif.TimeLcs.ExprRef

/-!
# Comparison of expressions, series and coordinate systems (C76)

Source: `/repo/weldx/core/math_expression.py` 71-138 (`__eq__`, `equals` with structural comparison), `/repo/weldx/core/generic_series.py`
244-264 (`__eq__`), `/repo/weldx/core/time_series.py` 81-107 (`__eq__`), `/repo/weldx/transformations/local_cs.py` 249-267 (`__eq__`);
`compare_nested` is in `Nested/Model.lean`, here it is used for dictionaries of arrays or names.

Simplifications: as in `MathExpr/Model.lean` (no units), `TimeSeries/Model.lean` and `TimeLcs/Model.lean`. Two sympy expressions are
structurally equal if they are the same tree. `DataArray.identical` compares dimensions, coordinates (a dictionary) and values; names and
further attributes of arrays are not modelled, nor is the interpolation method of discrete generic series. Both operands have the same
class.
-/

namespace Weldx.Me

variable {K : Type}

/-- `DataArray.identical`: the values at all positions of the array are equal -/
def Arr.identical (a b : Arr K) : Prop :=
  a.dims = b.dims ∧ (∀ k, Dict.get? a.coords k = Dict.get? b.coords k) ∧
    ∀ i : String → ℕ, (∀ e ∈ a.dims, i e.1 < e.2) → a.val i = b.val i

/-- `compare_nested` for two dictionaries without nested structures, `r` compares the values; see `C76_flat` -/
def flatCompare {A : Type} (r : A → A → Prop) (a b : List (String × A)) : Prop :=
  ∀ e ∈ a, (∃ v, Dict.get? b e.1 = some v ∧ r e.2 v) ∧ ∀ k, k ≠ "" → (k ∈ Dict.keys a ↔ k ∈ Dict.keys b)

/-- `MathematicalExpression.__eq__`, `math_expression.py` 70-88, that is `equals` (92-138) with structural equality and parameters -/
def ME.eq (e f : ME K) : Prop := e.expr = f.expr ∧ flatCompare Arr.identical e.params f.params

/-- `GenericSeries.__eq__`, `generic_series.py` 244-264 -/
def GS.eq : GS K → GS K → Prop
  | .expr e sd, .expr f sd' => flatCompare (· = ·) sd sd' ∧ ME.eq e f
  | .array a, .array b => a.identical b
  | _, _ => False

end Weldx.Me

namespace Weldx

open Ip

/-- `TimeSeries.__eq__`, `time_series.py` 81-107: expressions are compared without the reference time -/
def TimeSeries.eq {V : Type} : TimeSeries V → TimeSeries V → Prop
  | .discrete d, .discrete e => d = e
  | .expression f _, .expression g _ => f = g
  | _, _ => False

/-- `identical` for the orientations or coordinates of a data set: the coordinate `time` belongs to an array if this has the dimension
`time` or if `time` is a scalar -/
def identicalComp {V : Type} (c d : TLcs) (x y : Comp V) : Prop :=
  x = y ∧ (x.isSeries = true → c.times = d.times ∧ c.ref = d.ref) ∧
    ((c.dependent = false ∧ c.times ≠ none ∨ d.dependent = false ∧ d.times ≠ none) → c.times = d.times ∧ c.ref = d.ref)

/-- `LocalCoordinateSystem.__eq__`, `local_cs.py` 249-267, for systems without expressions -/
def TLcs.eq (c d : TLcs) : Prop :=
  identicalComp c d c.orient d.orient ∧ identicalComp c d c.coord d.coord ∧ c.ref = d.ref

/-- `LocalCoordinateSystem.__eq__`, `local_cs.py` 249-267, for systems with expressions -/
def SLcs.eq (c d : SLcs) : Prop := c.orient = d.orient ∧ TimeSeries.eq c.series d.series ∧ c.ref = d.ref

end Weldx
