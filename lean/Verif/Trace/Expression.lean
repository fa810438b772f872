import Verif.Trace.Model
import Verif.MathExpr.Model
import Mathlib.Analysis.SpecialFunctions.Integrals.Basic

/-!
# Model of segments that are described by expressions (C92)

Source: `/repo/weldx/geometry.py` 108-252 (`DynamicBaseSegment`), 300-350 (translation of a `DynamicShapeSegment`), 1519-1533
and 1576-1584 (`DynamicTraceSegment`); `/repo/weldx/core/spatial_series.py` 16-87 (`SpatialSeries`); the evaluation of
expressions is that of `Verif.MathExpr.Model`.

Simplifications: numbers are real and have no unit (lengths in millimetres). A parameter is a number or a vector of three components
with the dimension `c`; the labels of this dimension are 0, 1, 2. Positions are single numbers. The derivative that sympy finds is an
argument; what is assumed about it is `IsDeriv`, and `Sym.diff` calculates it for sums, products, powers, sine, cosine and exponential
function. The definite integral that sympy forms is the integral; that it finds the primitive is not modelled. It does not matter
whether the components are inserted before or after the differentiation.
-/

namespace Weldx.Tr

open Weldx.Me

/-- a parameter of a `SpatialSeries`, `spatial_series.py` 76-82 -/
inductive Prm
  | scalar (x : ℝ)
  | vec (v : Vec3 ℝ)

/-- the labelled array of a parameter -/
def Prm.arr : Prm → Arr ℝ
  | .scalar x => .const x
  | .vec v => ⟨[("c", 3)], [("c", [0, 1, 2])], fun i => if h : i "c" < 3 then v ⟨i "c", h⟩ else 0⟩

/-- `_get_component`, `geometry.py` 160-165 -/
def Prm.comp : Prm → Fin 3 → ℝ
  | .scalar x, _ => x
  | .vec v, i => v i

/-- an expression based `SpatialSeries`: the position has the symbol and the dimension `s` -/
structure SpatialExpr where
  expr : Expr ℝ
  params : List (String × Prm)

/-- its `MathematicalExpression` -/
def SpatialExpr.me (q : SpatialExpr) : ME ℝ := ⟨q.expr, q.params.map fun p => (p.1, p.2.arr)⟩

/-- the components of an array at the first position -/
def components (a : Arr ℝ) : Vec3 ℝ := fun i => a.val fun d => if d = "c" then i else 0

open Classical in
/-- `get_points(position)`, `geometry.py` 232-247: `transpose` needs the dimension `c` -/
noncomputable def SpatialExpr.point (q : SpatialExpr) (position : ℝ) : Except Err (Vec3 ℝ) :=
  match GS.evaluate (.expr q.me [("s", "s")]) [("s", .one position)] with
  | .error e => .error e
  | .ok (.expr _ _) => .error .typeError
  | .ok (.array a) => if "c" ∈ Dict.keys a.dims then .ok (components a) else .error .valueError

/-- `_get_derivative_expression`, `geometry.py` 1519-1533; `d` is the derivative of the expression -/
noncomputable def SpatialExpr.derivative (q : SpatialExpr) (d : Expr ℝ) : Except Err (ME ℝ) :=
  ME.create d ((q.params.filter fun p => p.1 ∈ d.free).map fun p => (p.1, .arr p.2.arr))

open Classical in
/-- the tangent in `_lcs_expr`, `geometry.py` 1578-1582 -/
noncomputable def SpatialExpr.tangent (q : SpatialExpr) (d : Expr ℝ) (position : ℝ) : Except Err (Vec3 ℝ) :=
  match q.derivative d with
  | .error e => .error e
  | .ok m => match m.evaluate [("s", .const position)] with
    | .error e => .error e
    | .ok a => if "c" ∈ Dict.keys a.dims then .ok (components a) else .error .valueError

/-- exceptions of the evaluation and of the construction of the system -/
inductive XErr
  | series (e : Err)
  | trace (e : TErr)

/-- `_lcs_expr`, `geometry.py` 1576-1584 -/
noncomputable def SpatialExpr.lcs (q : SpatialExpr) (d : Expr ℝ) (maxCoord : ℝ) (limit : Bool) (position : ℝ) : Except XErr (Lcs ℝ) :=
  match q.point (position * maxCoord) with
  | .error e => .error (.series e)
  | .ok c => match q.tangent d (position * maxCoord) with
    | .error e => .error (.series e)
    | .ok x => (lcsFromTangent limit c x).mapError .trace

/-- the value of an expression for given values of its symbols -/
def value (ρ : String → ℝ) : Expr ℝ → ℝ
  | .num k => k
  | .sym s => ρ s
  | .un f a => f (value ρ a)
  | .bin f a b => f (value ρ a) (value ρ b)

/-- the values of the symbols for one component: the position and the component of each parameter, `geometry.py` 167-168 -/
noncomputable def SpatialExpr.assign (q : SpatialExpr) (i : Fin 3) (t : ℝ) (s : String) : ℝ :=
  if s = "s" then t else match Dict.get? q.params s with
    | none => 0
    | some p => p.comp i

/-- `_get_component_derivative_squared` and `_get_length_expr`, `geometry.py` 157-181, evaluated at a position -/
noncomputable def SpatialExpr.lengthTo (q : SpatialExpr) (d : Expr ℝ) (position : ℝ) : ℝ :=
  ∫ t in (0 : ℝ)..position, Real.sqrt (value (q.assign 0 t) d ^ 2 + value (q.assign 1 t) d ^ 2 + value (q.assign 2 t) d ^ 2)

/-- `get_section_length`, `geometry.py` 202-230 -/
noncomputable def SpatialExpr.sectionLength (q : SpatialExpr) (d : Expr ℝ) (position : ℝ) : Except TErr ℝ :=
  if q.lengthTo d position ≤ 0 then .error .valueError else .ok (q.lengthTo d position)

/-! ### Derivatives of sympy for some functions -/

/-- expressions made of sums, products, powers, sine, cosine and exponential function -/
inductive Sym
  | num (k : ℝ)
  | sym (s : String)
  | add (a b : Sym)
  | mul (a b : Sym)
  | pow (a : Sym) (n : ℕ)
  | sin (a : Sym)
  | cos (a : Sym)
  | exp (a : Sym)

/-- as expression -/
noncomputable def Sym.expr : Sym → Expr ℝ
  | .num k => .num k
  | .sym s => .sym s
  | .add a b => .bin (· + ·) a.expr b.expr
  | .mul a b => .bin (· * ·) a.expr b.expr
  | .pow a n => .un (· ^ n) a.expr
  | .sin a => .un Real.sin a.expr
  | .cos a => .un Real.cos a.expr
  | .exp a => .un Real.exp a.expr

open Classical in
/-- sums: zero is dropped -/
noncomputable def Sym.plus (a b : Sym) : Sym :=
  if a = .num 0 then b else if b = .num 0 then a else .add a b

open Classical in
/-- products: zero and one are evaluated -/
noncomputable def Sym.times (a b : Sym) : Sym :=
  if a = .num 0 ∨ b = .num 0 then .num 0 else if a = .num 1 then b else if b = .num 1 then a else .mul a b

/-- powers: exponents zero and one are evaluated -/
noncomputable def Sym.power (a : Sym) : ℕ → Sym
  | 0 => .num 1
  | 1 => a
  | n => .pow a n

/-- `diff` -/
noncomputable def Sym.diff (x : String) : Sym → Sym
  | .num _ => .num 0
  | .sym s => if s = x then .num 1 else .num 0
  | .add a b => (a.diff x).plus (b.diff x)
  | .mul a b => ((a.diff x).times b).plus (a.times (b.diff x))
  | .pow a n => ((Sym.num n).times (a.power (n - 1))).times (a.diff x)
  | .sin a => (Sym.cos a).times (a.diff x)
  | .cos a => ((Sym.num (-1)).times (.sin a)).times (a.diff x)
  | .exp a => (Sym.exp a).times (a.diff x)

/-! ### Translations -/

/-- the `n`-th name that is tried, `geometry.py` 322-325: `translation_0`, `translation1`, `translation2`, … -/
def translationName : ℕ → String
  | 0 => "translation_0"
  | n + 1 => "translation" ++ Nat.repr (n + 1)

/-- the loop, `geometry.py` 324-325, with the number of names that can be in use as budget -/
def freshName (used : List String) : ℕ → ℕ → String
  | n, 0 => translationName n
  | n, k + 1 => if translationName n ∈ used then freshName used (n + 1) k else translationName n

/-- `apply_translation` for expressions, `geometry.py` 315-329: the new series -/
def SpatialExpr.translate (q : SpatialExpr) (v : Vec3 ℝ) : SpatialExpr :=
  let n := freshName (Dict.keys q.params) 0 q.params.length
  ⟨.bin (· + ·) q.expr (.sym n), Dict.set q.params n (.vec v)⟩

/-- What is left of the series object that the segment had before: its dictionary of parameters is changed, `geometry.py` 319 and 328. -/
def SpatialExpr.leftover (q : SpatialExpr) (v : Vec3 ℝ) : SpatialExpr :=
  ⟨q.expr, Dict.set q.params (freshName (Dict.keys q.params) 0 q.params.length) (.vec v)⟩

end Weldx.Tr
