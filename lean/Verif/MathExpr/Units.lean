import Verif.Base.Dict
import Mathlib.Analysis.Real.Sqrt
import Mathlib.Algebra.Order.Field.Power
import Mathlib.Tactic.Ring
import Mathlib.Tactic.FieldSimp
import Mathlib.Tactic.Positivity

/-!
# Mathematical expressions with units (C104)

Source: `/repo/weldx/core/math_expression.py` 24-57 (constructor), 154-179 (`set_parameters`), 193-204 (`num_variables`), 229-242
(`get_variable_names`), 244-273 (`evaluate`).

`Verif/MathExpr/Model.lean` has arrays without units. Here every value is a single quantity: a number and a unit. A unit has a size in
base units and a dimensionality (the exponents of the base dimensions `ι`). Behaviour of pint that is modelled: quantities of the
same dimensionality are added in the unit of the first; a number is added to a quantity if it is zero or if the quantity is
dimensionless, which is then converted; products and powers combine the units without conversion; functions like `sin` and `exp`
convert to dimensionless numbers (radians).

Simplifications: an expression is a tree of the operations of sympy (a difference is a sum with a product by -1, a quotient is a product
with a power); exponents are integers, and the square root; roots of negative numbers and division by zero are 0 instead of nan and
infinity. No units with an offset (degrees Celsius). Arrays with units are in `Verif/MathExpr/UnitsArrays.lean`.
-/

namespace Weldx.Pint

/-! ### model -/

/-- exponents of the base dimensions -/
abbrev Dim (ι : Type) := ι → ℚ

/-- a unit: its size in base units and its dimensionality -/
structure Unit (ι : Type) where
  factor : ℝ
  dim : Dim ι

variable {ι : Type}

namespace Unit

/-- the unit of numbers -/
def one : Unit ι := ⟨1, 0⟩
/-- the product of two units -/
def mul (u v : Unit ι) : Unit ι := ⟨u.factor * v.factor, u.dim + v.dim⟩
/-- a power of a unit -/
noncomputable def pow (u : Unit ι) (n : ℤ) : Unit ι := ⟨u.factor ^ n, (n : ℚ) • u.dim⟩
/-- the square root of a unit -/
noncomputable def sqrt (u : Unit ι) : Unit ι := ⟨√u.factor, (1 / 2 : ℚ) • u.dim⟩

end Unit

/-- a quantity -/
structure Q (ι : Type) where
  mag : ℝ
  unit : Unit ι

/-- the result of a part of the calculation: a number of Python or a quantity -/
inductive Val (ι : Type)
  | num (k : ℝ)
  | qty (q : Q ι)

/-- the kinds of exceptions -/
inductive Err
  | dimensionality | typeError | valueError
deriving DecidableEq

/-- a sympy expression -/
inductive Ex
  | num (k : ℝ)
  | sym (s : String)
  | add (a b : Ex)
  | mul (a b : Ex)
  | pow (a : Ex) (n : ℤ)
  | sqrt (a : Ex)
  | abs (a : Ex)
  | fn (f : ℝ → ℝ) (a : Ex)

/-- the symbols, from left to right -/
def Ex.syms : Ex → List String
  | .num _ => []
  | .sym s => [s]
  | .add a b => a.syms ++ b.syms
  | .mul a b => a.syms ++ b.syms
  | .pow a _ => a.syms
  | .sqrt a => a.syms
  | .abs a => a.syms
  | .fn _ a => a.syms

/-- `expression.free_symbols` -/
def Ex.free (e : Ex) : List String := e.syms.dedup

/-- `q.to(unit)` -/
noncomputable def Q.convert (q : Q ι) (u : Unit ι) : Except Err (Q ι) :=
  open Classical in if q.unit.dim = u.dim then .ok ⟨q.mag * q.unit.factor / u.factor, u⟩ else .error .dimensionality

/-- the sum of a number and a quantity -/
noncomputable def addNum (k : ℝ) (q : Q ι) : Except Err (Val ι) :=
  open Classical in
  if k = 0 then .ok (.qty q)
  else match q.convert .one with
    | .error x => .error x
    | .ok q => .ok (.qty ⟨k + q.mag, .one⟩)

/-- `+` -/
noncomputable def Val.add : Val ι → Val ι → Except Err (Val ι)
  | .num k, .num l => .ok (.num (k + l))
  | .num k, .qty q => addNum k q
  | .qty q, .num k => addNum k q
  | .qty p, .qty q => match q.convert p.unit with
    | .error x => .error x
    | .ok q => .ok (.qty ⟨p.mag + q.mag, p.unit⟩)

/-- `*` -/
noncomputable def Val.mul : Val ι → Val ι → Val ι
  | .num k, .num l => .num (k * l)
  | .num k, .qty q => .qty ⟨k * q.mag, q.unit⟩
  | .qty q, .num k => .qty ⟨q.mag * k, q.unit⟩
  | .qty p, .qty q => .qty ⟨p.mag * q.mag, p.unit.mul q.unit⟩

/-- `**` with a number -/
noncomputable def Val.pow (n : ℤ) : Val ι → Val ι
  | .num k => .num (k ^ n)
  | .qty q => .qty ⟨q.mag ^ n, q.unit.pow n⟩

/-- `np.sqrt` -/
noncomputable def Val.sqrt : Val ι → Val ι
  | .num k => .num √k
  | .qty q => .qty ⟨√q.mag, q.unit.sqrt⟩

/-- `np.abs` -/
noncomputable def Val.abs : Val ι → Val ι
  | .num k => .num |k|
  | .qty q => .qty ⟨|q.mag|, q.unit⟩

/-- `np.sin`, `np.exp` and so on -/
noncomputable def Val.fn (f : ℝ → ℝ) : Val ι → Except Err (Val ι)
  | .num k => .ok (.num (f k))
  | .qty q => match q.convert .one with
    | .error x => .error x
    | .ok q => .ok (.qty ⟨f q.mag, .one⟩)

/-- the body of the lambdified function -/
noncomputable def Ex.eval (env : List (String × Q ι)) : Ex → Except Err (Val ι)
  | .num k => .ok (.num k)
  | .sym s => match Dict.get? env s with
    | none => .error .typeError
    | some q => .ok (.qty q)
  | .add a b => match a.eval env with
    | .error x => .error x
    | .ok r => match b.eval env with
      | .error x => .error x
      | .ok s => r.add s
  | .mul a b => match a.eval env with
    | .error x => .error x
    | .ok r => match b.eval env with
      | .error x => .error x
      | .ok s => .ok (r.mul s)
  | .pow a n => match a.eval env with
    | .error x => .error x
    | .ok r => .ok (r.pow n)
  | .sqrt a => match a.eval env with
    | .error x => .error x
    | .ok r => .ok r.sqrt
  | .abs a => match a.eval env with
    | .error x => .error x
    | .ok r => .ok r.abs
  | .fn f a => match a.eval env with
    | .error x => .error x
    | .ok r => r.fn f

/-- values that are passed by the user -/
inductive Input (ι : Type)
  | number (k : ℝ)
  | quantity (q : Q ι)

/-- `Q_(v)`, `math_expression.py` 173-177 and 259-262: a number has no unit -/
def Input.toQ : Input ι → Q ι
  | .number k => ⟨k, .one⟩
  | .quantity q => q

/-- `MathematicalExpression` -/
structure ME (ι : Type) where
  expr : Ex
  params : List (String × Q ι)

/-- `set_parameters`, `math_expression.py` 154-179 (the object after the call, and the exception if there is one) -/
def ME.setParameters (e : ME ι) : List (String × Input ι) → ME ι × Option Err
  | [] => (e, none)
  | (k, v) :: t => if k ∉ e.expr.free then (e, some .valueError) else ME.setParameters ⟨e.expr, Dict.set e.params k v.toQ⟩ t

/-- `get_variable_names`, `math_expression.py` 229-242 -/
def ME.variableNames (e : ME ι) : List String := e.expr.free.filter (· ∉ Dict.keys e.params)

/-- `num_variables`, `math_expression.py` 193-204 -/
def ME.numVariables (e : ME ι) : Int := (e.expr.free.length : Int) - e.params.length

/-- `evaluate`, `math_expression.py` 244-273 -/
noncomputable def ME.evaluate (e : ME ι) (kw : List (String × Input ι)) : Except Err (Val ι) :=
  if ∃ s ∈ Dict.keys kw, s ∈ Dict.keys e.params then .error .valueError
  else
    let args := kw.map (fun x => (x.1, x.2.toQ)) ++ e.params
    if (∀ s ∈ e.expr.free, s ∈ Dict.keys args) ∧ (∀ s ∈ Dict.keys args, s ∈ e.expr.free) then e.expr.eval args else .error .typeError

/-! ### specification -/

/-- the value in base units -/
def Q.si (q : Q ι) : ℝ := q.mag * q.unit.factor

/-- the value in base units of a result -/
def Val.si : Val ι → ℝ
  | .num k => k
  | .qty q => q.si

/-- the dimensionality of a result -/
def Val.dim : Val ι → Dim ι
  | .num _ => 0
  | .qty q => q.unit.dim

/-- two quantities are the same physical value -/
def Q.Same (p q : Q ι) : Prop := p.si = q.si ∧ p.unit.dim = q.unit.dim

/-- two results are the same physical value -/
def Val.Same (v w : Val ι) : Prop := v.si = w.si ∧ v.dim = w.dim

/-- the value of an expression of numbers -/
noncomputable def Ex.value (ρ : String → ℝ) : Ex → ℝ
  | .num k => k
  | .sym s => ρ s
  | .add a b => a.value ρ + b.value ρ
  | .mul a b => a.value ρ * b.value ρ
  | .pow a n => a.value ρ ^ n
  | .sqrt a => √(a.value ρ)
  | .abs a => |a.value ρ|
  | .fn f a => f (a.value ρ)

/-- the rules of dimensions: only values of the same dimensionality are added (or the number zero), functions need numbers -/
inductive Ex.HasDim (δ : String → Dim ι) : Ex → Dim ι → Prop
  | num (k : ℝ) : HasDim δ (.num k) 0
  | sym (s : String) : HasDim δ (.sym s) (δ s)
  | add {a b : Ex} {d : Dim ι} : HasDim δ a d → HasDim δ b d → HasDim δ (.add a b) d
  | zeroAdd {a b : Ex} {d c : Dim ι} : a.syms = [] → (∀ ρ, a.value ρ = 0) → HasDim δ a c → HasDim δ b d → HasDim δ (.add a b) d
  | addZero {a b : Ex} {d c : Dim ι} : b.syms = [] → (∀ ρ, b.value ρ = 0) → HasDim δ a d → HasDim δ b c → HasDim δ (.add a b) d
  | mul {a b : Ex} {d c : Dim ι} : HasDim δ a d → HasDim δ b c → HasDim δ (.mul a b) (d + c)
  | pow {a : Ex} {d : Dim ι} (n : ℤ) : HasDim δ a d → HasDim δ (.pow a n) ((n : ℚ) • d)
  | sqrt {a : Ex} {d : Dim ι} : HasDim δ a d → HasDim δ (.sqrt a) ((1 / 2 : ℚ) • d)
  | abs {a : Ex} {d : Dim ι} : HasDim δ a d → HasDim δ (.abs a) d
  | fn {a : Ex} (f : ℝ → ℝ) : HasDim δ a 0 → HasDim δ (.fn f a) 0

/-- the values of the symbols in base units -/
noncomputable def siOf (env : List (String × Q ι)) (s : String) : ℝ := ((Dict.get? env s).map Q.si).getD 0

/-- the dimensionalities of the symbols -/
def dimOf (env : List (String × Q ι)) (s : String) : Dim ι := ((Dict.get? env s).map fun q => q.unit.dim).getD 0

/-- units are positive -/
def Positive (env : List (String × Q ι)) : Prop := ∀ s q, Dict.get? env s = some q → 0 < q.unit.factor

/-! ### lemmas -/

theorem Ex.value_closed (ρ σ : String → ℝ) : ∀ {e : Ex}, e.syms = [] → e.value ρ = e.value σ
  | .num _, _ => rfl
  | .sym _, h => by cases h
  | .add a b, h => by
    obtain ⟨h1, h2⟩ := List.append_eq_nil_iff.1 h
    simp only [Ex.value, value_closed ρ σ h1, value_closed ρ σ h2]
  | .mul a b, h => by
    obtain ⟨h1, h2⟩ := List.append_eq_nil_iff.1 h
    simp only [Ex.value, value_closed ρ σ h1, value_closed ρ σ h2]
  | .pow a n, h => by simp only [Ex.value, value_closed ρ σ (e := a) h]
  | .sqrt a, h => by simp only [Ex.value, value_closed ρ σ (e := a) h]
  | .abs a, h => by simp only [Ex.value, value_closed ρ σ (e := a) h]
  | .fn f a, h => by simp only [Ex.value, value_closed ρ σ (e := a) h]

theorem Ex.HasDim.closed {δ : String → Dim ι} {e : Ex} {d : Dim ι} (h : e.HasDim δ d) : e.syms = [] → d = 0 := by
  induction h with
  | num k => exact fun _ => rfl
  | sym s => exact fun h => by cases h
  | add _ _ ih _ => exact fun h => ih (List.append_eq_nil_iff.1 h).1
  | zeroAdd _ _ _ _ _ ih => exact fun h => ih (List.append_eq_nil_iff.1 h).2
  | addZero _ _ _ _ ih _ => exact fun h => ih (List.append_eq_nil_iff.1 h).1
  | mul _ _ ih1 ih2 =>
    intro h
    rw [ih1 (List.append_eq_nil_iff.1 h).1, ih2 (List.append_eq_nil_iff.1 h).2, add_zero]
  | pow n _ ih => exact fun h => by rw [ih h, smul_zero]
  | sqrt _ ih => exact fun h => by rw [ih h, smul_zero]
  | abs _ ih => exact ih
  | fn f _ _ => exact fun _ => rfl

theorem Ex.HasDim.unique {δ : String → Dim ι} {e : Ex} {d : Dim ι} (h : e.HasDim δ d) : ∀ {d'}, e.HasDim δ d' → d' = d := by
  induction h with
  | num k => exact fun h => by cases h; rfl
  | sym s => exact fun h => by cases h; rfl
  | add ha hb ih1 ih2 =>
    intro d' h
    cases h with
    | add h1 _ => exact ih1 h1
    | zeroAdd _ _ _ h1 => exact ih2 h1
    | addZero _ _ h1 _ => exact ih1 h1
  | zeroAdd hc hz ha hb ih1 ih2 =>
    intro d' h
    cases h with
    | add _ h1 => exact ih2 h1
    | zeroAdd _ _ _ h1 => exact ih2 h1
    | addZero k _ h1 h2 => rw [h1.closed hc, hb.closed k]
  | addZero hc hz ha hb ih1 ih2 =>
    intro d' h
    cases h with
    | add h1 _ => exact ih1 h1
    | zeroAdd k _ _ h1 => rw [h1.closed hc, ha.closed k]
    | addZero _ _ h1 _ => exact ih1 h1
  | mul _ _ ih1 ih2 =>
    intro d' h
    cases h with
    | mul h1 h2 => rw [ih1 h1, ih2 h2]
  | pow n _ ih =>
    intro d' h
    cases h with
    | pow n h1 => rw [ih h1]
  | sqrt _ ih =>
    intro d' h
    cases h with
    | sqrt h1 => rw [ih h1]
  | abs _ ih =>
    intro d' h
    cases h with
    | abs h1 => exact ih h1
  | fn f _ _ => exact fun h => by cases h; rfl

/-- the result of a part of an expression -/
structure Fine (env : List (String × Q ι)) (e : Ex) (v : Val ι) : Prop where
  si : v.si = e.value (siOf env)
  dim : e.HasDim (dimOf env) v.dim
  num : e.syms = [] → v = .num (e.value (siOf env))
  qty : e.syms ≠ [] → ∃ q, v = .qty q ∧ 0 < q.unit.factor

theorem Fine.cases {env : List (String × Q ι)} {e : Ex} {v : Val ι} (h : Fine env e v) :
    (e.syms = [] ∧ v = .num (e.value (siOf env)) ∧ ∀ ρ, e.value ρ = e.value (siOf env)) ∨
      e.syms ≠ [] ∧ ∃ q, v = .qty q ∧ 0 < q.unit.factor ∧ q.si = e.value (siOf env) ∧ e.HasDim (dimOf env) q.unit.dim := by
  by_cases hs : e.syms = []
  · exact .inl ⟨hs, h.num hs, fun ρ => Ex.value_closed _ _ hs⟩
  · obtain ⟨q, rfl, hq⟩ := h.qty hs
    exact .inr ⟨hs, q, rfl, hq, h.si, h.dim⟩

theorem addNum_fine {k : ℝ} {q : Q ι} (hq : 0 < q.unit.factor) :
    (k = 0 ∨ q.unit.dim = 0 → ∃ r, addNum k q = .ok (.qty r) ∧ 0 < r.unit.factor ∧ r.si = k + q.si ∧ r.unit.dim = q.unit.dim) ∧
    (¬(k = 0 ∨ q.unit.dim = 0) → addNum k q = .error .dimensionality) := by
  unfold addNum Q.convert
  constructor
  · intro h
    by_cases hk : k = 0
    · rw [if_pos hk]
      exact ⟨q, rfl, hq, by rw [hk, zero_add], rfl⟩
    · have hd := h.resolve_left hk
      rw [if_neg hk, if_pos (by rw [hd]; rfl)]
      exact ⟨_, rfl, one_pos, by simp [Q.si, Unit.one], hd.symm⟩
  · intro h
    push Not at h
    rw [if_neg h.1, if_neg (show ¬ q.unit.dim = Unit.one.dim from h.2)]

/-- evaluation succeeds exactly for expressions with a dimensionality -/
theorem eval_fine {env : List (String × Q ι)} (hp : Positive env) : ∀ (e : Ex), (∀ s ∈ e.syms, s ∈ Dict.keys env) →
    (∃ v, e.eval env = .ok v ∧ Fine env e v) ∨ (e.eval env = .error .dimensionality ∧ ∀ d, ¬ e.HasDim (dimOf env) d)
  | .num k, _ => .inl ⟨_, rfl, rfl, .num k, (fun _ => rfl), fun h => absurd rfl h⟩
  | .sym s, h => by
    obtain ⟨q, hq⟩ := Dict.get?_isSome.2 (h s (by simp [Ex.syms]))
    refine .inl ⟨.qty q, by simp only [Ex.eval, hq], ?_, ?_, (fun h => by cases h), fun _ => ⟨q, rfl, hp s q hq⟩⟩
    · simp [Val.si, Ex.value, siOf, hq]
    · have : (Val.qty q).dim = dimOf env s := by simp [Val.dim, dimOf, hq]
      rw [this]
      exact .sym s
  | .add a b, h => by
    rcases eval_fine hp a (fun s hs => h s (List.mem_append_left _ hs)) with ⟨v, hv, fv⟩ | ⟨hv, fv⟩
    · rcases eval_fine hp b (fun s hs => h s (List.mem_append_right _ hs)) with ⟨w, hw, fw⟩ | ⟨hw, fw⟩
      · simp only [Ex.eval, hv, hw]
        rcases fv.cases with ⟨a1, rfl, a3⟩ | ⟨a1, p, rfl, a3, a4, a5⟩ <;> rcases fw.cases with ⟨b1, rfl, b3⟩ | ⟨b1, q, rfl, b3, b4, b5⟩
        · refine .inl ⟨_, rfl, rfl, .add fv.dim fw.dim, (fun _ => rfl), fun hh => absurd ?_ hh⟩
          simp [Ex.syms, a1, b1]
        · have key := addNum_fine (k := a.value (siOf env)) b3
          have hsy : (a.add b).syms ≠ [] := by simp [Ex.syms, b1]
          by_cases hk : a.value (siOf env) = 0 ∨ q.unit.dim = 0
          · obtain ⟨r, r1, r2, r3, r4⟩ := key.1 hk
            refine .inl ⟨.qty r, r1, ?_, ?_, (fun hh => absurd hh hsy), fun _ => ⟨r, rfl, r2⟩⟩
            · show r.si = _
              rw [r3, b4]; rfl
            · show Ex.HasDim _ _ r.unit.dim
              rw [r4]
              rcases hk with hk | hk
              · exact .zeroAdd a1 (fun ρ => (a3 ρ).trans hk) fv.dim b5
              · refine .add ?_ b5
                rw [hk]; exact fv.dim
          · refine .inr ⟨key.2 hk, fun d hd => hk ?_⟩
            cases hd with
            | add h1 h2 => exact .inr ((b5.unique h2).symm.trans (h1.closed a1))
            | zeroAdd _ h1 _ _ => exact .inl (h1 _)
            | addZero h1 _ _ _ => exact absurd h1 b1
        · have key := addNum_fine (k := b.value (siOf env)) a3
          have hsy : (a.add b).syms ≠ [] := by simp [Ex.syms, a1]
          by_cases hk : b.value (siOf env) = 0 ∨ p.unit.dim = 0
          · obtain ⟨r, r1, r2, r3, r4⟩ := key.1 hk
            refine .inl ⟨.qty r, r1, ?_, ?_, (fun hh => absurd hh hsy), fun _ => ⟨r, rfl, r2⟩⟩
            · show r.si = _
              rw [r3, a4, add_comm]; rfl
            · show Ex.HasDim _ _ r.unit.dim
              rw [r4]
              rcases hk with hk | hk
              · exact .addZero b1 (fun ρ => (b3 ρ).trans hk) a5 fw.dim
              · refine .add a5 ?_
                rw [hk]; exact fw.dim
          · refine .inr ⟨key.2 hk, fun d hd => hk ?_⟩
            cases hd with
            | add h1 h2 => exact .inr ((a5.unique h1).symm.trans (h2.closed b1))
            | zeroAdd h1 _ _ _ => exact absurd h1 a1
            | addZero _ h1 _ _ => exact .inl (h1 _)
        · have hsy : (a.add b).syms ≠ [] := by simp [Ex.syms, a1]
          by_cases hd : q.unit.dim = p.unit.dim
          · refine .inl ⟨.qty ⟨p.mag + q.mag * q.unit.factor / p.unit.factor, p.unit⟩, by simp only [Val.add, Q.convert, if_pos hd], ?_, ?_,
              (fun hh => absurd hh hsy), fun _ => ⟨_, rfl, a3⟩⟩
            · show (p.mag + q.mag * q.unit.factor / p.unit.factor) * p.unit.factor = a.value _ + b.value _
              rw [← a4, ← b4, add_mul, div_mul_cancel₀ _ a3.ne']
              rfl
            · exact .add a5 (show Ex.HasDim _ _ p.unit.dim from hd ▸ b5)
          · refine .inr ⟨by simp only [Val.add, Q.convert, if_neg hd], fun d hh => hd ?_⟩
            cases hh with
            | add h1 h2 => rw [← b5.unique h2, ← a5.unique h1]
            | zeroAdd h1 _ _ _ => exact absurd h1 a1
            | addZero h1 _ _ _ => exact absurd h1 b1
      · refine .inr ⟨by simp only [Ex.eval, hv, hw], fun d hd => ?_⟩
        cases hd with
        | add _ h1 => exact fw _ h1
        | zeroAdd _ _ _ h1 => exact fw _ h1
        | addZero _ _ _ h1 => exact fw _ h1
    · refine .inr ⟨by simp only [Ex.eval, hv], fun d hd => ?_⟩
      cases hd with
      | add h1 _ => exact fv _ h1
      | zeroAdd _ _ h1 _ => exact fv _ h1
      | addZero _ _ h1 _ => exact fv _ h1
  | .mul a b, h => by
    rcases eval_fine hp a (fun s hs => h s (List.mem_append_left _ hs)) with ⟨v, hv, fv⟩ | ⟨hv, fv⟩
    · rcases eval_fine hp b (fun s hs => h s (List.mem_append_right _ hs)) with ⟨w, hw, fw⟩ | ⟨hw, fw⟩
      · refine .inl ⟨v.mul w, by simp only [Ex.eval, hv, hw], ?_⟩
        have hd := Ex.HasDim.mul fv.dim fw.dim
        rcases fv.cases with ⟨a1, rfl, a3⟩ | ⟨a1, p, rfl, a3, a4, a5⟩ <;> rcases fw.cases with ⟨b1, rfl, b3⟩ | ⟨b1, q, rfl, b3, b4, b5⟩
        · exact ⟨rfl, by simpa [Val.dim, Val.mul] using hd, fun _ => rfl, fun hh => absurd (by simp [Ex.syms, a1, b1]) hh⟩
        · refine ⟨?_, by simpa [Val.dim, Val.mul] using hd, fun hh => absurd hh (by simp [Ex.syms, b1]), fun _ => ⟨_, rfl, b3⟩⟩
          simp only [Val.si, Val.mul, Ex.value, ← b4, Q.si]; ring
        · refine ⟨?_, by simpa [Val.dim, Val.mul] using hd, fun hh => absurd hh (by simp [Ex.syms, a1]), fun _ => ⟨_, rfl, a3⟩⟩
          simp only [Val.si, Val.mul, Ex.value, ← a4, Q.si]; ring
        · refine ⟨?_, hd, fun hh => absurd hh (by simp [Ex.syms, a1]), fun _ => ⟨_, rfl, mul_pos a3 b3⟩⟩
          simp only [Val.si, Val.mul, Ex.value, ← a4, ← b4, Q.si, Unit.mul]; ring
      · refine .inr ⟨by simp only [Ex.eval, hv, hw], fun d hd => ?_⟩
        cases hd with
        | mul _ h1 => exact fw _ h1
    · refine .inr ⟨by simp only [Ex.eval, hv], fun d hd => ?_⟩
      cases hd with
      | mul h1 _ => exact fv _ h1
  | .pow a n, h => by
    rcases eval_fine hp a h with ⟨v, hv, fv⟩ | ⟨hv, fv⟩
    · refine .inl ⟨v.pow n, by simp only [Ex.eval, hv], ?_⟩
      have hd := Ex.HasDim.pow n fv.dim
      rcases fv.cases with ⟨a1, rfl, a3⟩ | ⟨a1, p, rfl, a3, a4, a5⟩
      · exact ⟨rfl, by simpa [Val.dim, Val.pow] using hd, fun _ => rfl, fun hh => absurd a1 hh⟩
      · refine ⟨?_, hd, fun hh => absurd hh a1, fun _ => ⟨_, rfl, zpow_pos a3 n⟩⟩
        simp only [Val.si, Val.pow, Ex.value, ← a4, Q.si, Unit.pow, mul_zpow]
    · refine .inr ⟨by simp only [Ex.eval, hv], fun d hd => ?_⟩
      cases hd with
      | pow _ h1 => exact fv _ h1
  | .sqrt a, h => by
    rcases eval_fine hp a h with ⟨v, hv, fv⟩ | ⟨hv, fv⟩
    · refine .inl ⟨v.sqrt, by simp only [Ex.eval, hv], ?_⟩
      have hd := Ex.HasDim.sqrt fv.dim
      rcases fv.cases with ⟨a1, rfl, a3⟩ | ⟨a1, p, rfl, a3, a4, a5⟩
      · exact ⟨rfl, by simpa [Val.dim, Val.sqrt] using hd, fun _ => rfl, fun hh => absurd a1 hh⟩
      · refine ⟨?_, hd, fun hh => absurd hh a1, fun _ => ⟨_, rfl, Real.sqrt_pos.2 a3⟩⟩
        simp only [Val.si, Val.sqrt, Ex.value, ← a4, Q.si, Unit.sqrt, Real.sqrt_mul' _ a3.le]
    · refine .inr ⟨by simp only [Ex.eval, hv], fun d hd => ?_⟩
      cases hd with
      | sqrt h1 => exact fv _ h1
  | .abs a, h => by
    rcases eval_fine hp a h with ⟨v, hv, fv⟩ | ⟨hv, fv⟩
    · refine .inl ⟨v.abs, by simp only [Ex.eval, hv], ?_⟩
      have hd := Ex.HasDim.abs fv.dim
      rcases fv.cases with ⟨a1, rfl, a3⟩ | ⟨a1, p, rfl, a3, a4, a5⟩
      · exact ⟨rfl, hd, fun _ => rfl, fun hh => absurd a1 hh⟩
      · refine ⟨?_, hd, fun hh => absurd hh a1, fun _ => ⟨_, rfl, a3⟩⟩
        simp only [Val.si, Val.abs, Ex.value, ← a4, Q.si, abs_mul, abs_of_pos a3]
    · refine .inr ⟨by simp only [Ex.eval, hv], fun d hd => ?_⟩
      cases hd with
      | abs h1 => exact fv _ h1
  | .fn f a, h => by
    rcases eval_fine hp a h with ⟨v, hv, fv⟩ | ⟨hv, fv⟩
    · simp only [Ex.eval, hv]
      rcases fv.cases with ⟨a1, rfl, a3⟩ | ⟨a1, p, rfl, a3, a4, a5⟩
      · exact .inl ⟨_, rfl, rfl, .fn f fv.dim, (fun _ => rfl), fun hh => absurd a1 hh⟩
      · by_cases hd : p.unit.dim = 0
        · refine .inl ⟨.qty ⟨f p.si, .one⟩, ?_, ?_, .fn f (hd ▸ a5), (fun hh => absurd hh a1), fun _ => ⟨_, rfl, one_pos⟩⟩
          · simp only [Val.fn, Q.convert]
            rw [if_pos (by rw [hd]; rfl)]
            simp [Q.si, Unit.one]
          · show f p.si * 1 = f (a.value _)
            rw [a4, mul_one]
        · refine .inr ⟨?_, fun d hh => hd ?_⟩
          · simp only [Val.fn, Q.convert]
            rw [if_neg (by exact hd)]
          · cases hh with
            | fn _ h1 => rw [a5.unique h1]
    · refine .inr ⟨by simp only [Ex.eval, hv], fun d hd => ?_⟩
      cases hd with
      | fn _ h1 => exact fv _ h1

theorem Ex.HasDim.congr {δ ε : String → Dim ι} {e : Ex} {d : Dim ι} (h : e.HasDim δ d) (hs : ∀ s ∈ e.syms, δ s = ε s) : e.HasDim ε d := by
  induction h with
  | num k => exact .num k
  | sym s => rw [hs s (by simp [Ex.syms])]; exact .sym s
  | add _ _ ih1 ih2 => exact .add (ih1 fun s h => hs s (List.mem_append_left _ h)) (ih2 fun s h => hs s (List.mem_append_right _ h))
  | zeroAdd h1 h2 _ _ ih1 ih2 =>
    exact .zeroAdd h1 h2 (ih1 fun s h => hs s (List.mem_append_left _ h)) (ih2 fun s h => hs s (List.mem_append_right _ h))
  | addZero h1 h2 _ _ ih1 ih2 =>
    exact .addZero h1 h2 (ih1 fun s h => hs s (List.mem_append_left _ h)) (ih2 fun s h => hs s (List.mem_append_right _ h))
  | mul _ _ ih1 ih2 => exact .mul (ih1 fun s h => hs s (List.mem_append_left _ h)) (ih2 fun s h => hs s (List.mem_append_right _ h))
  | pow n _ ih => exact .pow n (ih hs)
  | sqrt _ ih => exact .sqrt (ih hs)
  | abs _ ih => exact .abs (ih hs)
  | fn f _ ih => exact .fn f (ih hs)

theorem Ex.value_congr {ρ σ : String → ℝ} : ∀ {e : Ex}, (∀ s ∈ e.syms, ρ s = σ s) → e.value ρ = e.value σ
  | .num _, _ => rfl
  | .sym s, h => h s (by simp [Ex.syms])
  | .add a b, h => by
    simp only [Ex.value, value_congr (e := a) fun s hs => h s (List.mem_append_left _ hs),
      value_congr (e := b) fun s hs => h s (List.mem_append_right _ hs)]
  | .mul a b, h => by
    simp only [Ex.value, value_congr (e := a) fun s hs => h s (List.mem_append_left _ hs),
      value_congr (e := b) fun s hs => h s (List.mem_append_right _ hs)]
  | .pow a n, h => by simp only [Ex.value, value_congr (e := a) h]
  | .sqrt a, h => by simp only [Ex.value, value_congr (e := a) h]
  | .abs a, h => by simp only [Ex.value, value_congr (e := a) h]
  | .fn f a, h => by simp only [Ex.value, value_congr (e := a) h]

/-- the unit of a result -/
def Val.unit? : Val ι → Option (Unit ι)
  | .num _ => none
  | .qty q => some q.unit

/-- the same symbols with the same units -/
def SameUnits (env env' : List (String × Q ι)) : Prop :=
  ∀ s, (Dict.get? env s).map Q.unit = (Dict.get? env' s).map Q.unit

/-- what is compared in `eval_unit` -/
def Alike : Except Err (Val ι) → Except Err (Val ι) → Prop
  | .ok v, .ok w => v.unit? = w.unit? ∧ ∀ k, v = .num k ↔ w = .num k
  | .error x, .error y => x = y
  | _, _ => False

theorem Alike.cases {x y : Except Err (Val ι)} (h : Alike x y) : (∃ k, x = .ok (.num k) ∧ y = .ok (.num k)) ∨
    (∃ p q, x = .ok (.qty p) ∧ y = .ok (.qty q) ∧ p.unit = q.unit) ∨ ∃ e, x = .error e ∧ y = .error e := by
  cases x with
  | error x =>
    cases y with
    | error y => exact .inr (.inr ⟨x, rfl, by rw [show x = y from h]⟩)
    | ok w => exact h.elim
  | ok v =>
    cases y with
    | error y => exact h.elim
    | ok w =>
      obtain ⟨h1, h2⟩ := h
      cases v with
      | num k => exact .inl ⟨k, rfl, by rw [(h2 k).1 rfl]⟩
      | qty p =>
        cases w with
        | num k => cases (h2 k).2 rfl
        | qty q => exact .inr (.inl ⟨p, q, rfl, rfl, by simpa [Val.unit?] using h1⟩)

theorem Alike.num (k : ℝ) : Alike (.ok (.num k) : Except Err (Val ι)) (.ok (.num k)) := ⟨rfl, fun _ => Iff.rfl⟩

theorem Alike.qty {p q : Q ι} (h : p.unit = q.unit) : Alike (.ok (.qty p)) (.ok (.qty q)) :=
  ⟨by simp [Val.unit?, h], fun k => ⟨(fun h => by cases h), (fun h => by cases h)⟩⟩

theorem addNum_alike (k : ℝ) {p q : Q ι} (h : p.unit = q.unit) : Alike (addNum k p) (addNum k q) := by
  unfold addNum Q.convert
  rw [h]
  by_cases hk : k = 0
  · rw [if_pos hk, if_pos hk]
    exact .qty h
  · rw [if_neg hk, if_neg hk]
    by_cases hd : q.unit.dim = Unit.one.dim
    · rw [if_pos hd, if_pos hd]; exact .qty rfl
    · rw [if_neg hd, if_neg hd]; exact rfl

/-- the unit of the result depends only on the units of the values -/
theorem eval_unit {env env' : List (String × Q ι)} (h : SameUnits env env') : ∀ e : Ex, Alike (e.eval env) (e.eval env')
  | .num k => .num k
  | .sym s => by
    have := h s
    simp only [Ex.eval]
    cases h1 : Dict.get? env s with
    | none =>
      rw [h1] at this
      cases h2 : Dict.get? env' s with
      | none => rfl
      | some q => rw [h2] at this; cases this
    | some p =>
      rw [h1] at this
      cases h2 : Dict.get? env' s with
      | none => rw [h2] at this; cases this
      | some q => rw [h2] at this; exact .qty (by simpa using this)
  | .add a b => by
    simp only [Ex.eval]
    rcases (eval_unit h a).cases with ⟨k, a1, a2⟩ | ⟨p, p', a1, a2, a3⟩ | ⟨x, a1, a2⟩ <;> rw [a1, a2] <;> dsimp only
    · rcases (eval_unit h b).cases with ⟨l, b1, b2⟩ | ⟨q, q', b1, b2, b3⟩ | ⟨x, b1, b2⟩ <;> rw [b1, b2] <;> dsimp only
      · exact .num _
      · exact addNum_alike _ b3
      · exact rfl
    · rcases (eval_unit h b).cases with ⟨l, b1, b2⟩ | ⟨q, q', b1, b2, b3⟩ | ⟨x, b1, b2⟩ <;> rw [b1, b2] <;> dsimp only
      · exact addNum_alike _ a3
      · obtain ⟨pm, u⟩ := p
        obtain ⟨pm', u'⟩ := p'
        obtain ⟨qm, v⟩ := q
        obtain ⟨qm', v'⟩ := q'
        cases a3
        cases b3
        simp only [Val.add, Q.convert]
        by_cases hd : v.dim = u.dim
        · rw [if_pos hd, if_pos hd]; exact .qty rfl
        · rw [if_neg hd, if_neg hd]; exact rfl
      · exact rfl
    · exact rfl
  | .mul a b => by
    simp only [Ex.eval]
    rcases (eval_unit h a).cases with ⟨k, a1, a2⟩ | ⟨p, p', a1, a2, a3⟩ | ⟨x, a1, a2⟩ <;> rw [a1, a2] <;> dsimp only
    · rcases (eval_unit h b).cases with ⟨l, b1, b2⟩ | ⟨q, q', b1, b2, b3⟩ | ⟨x, b1, b2⟩ <;> rw [b1, b2] <;> dsimp only
      · exact .num _
      · exact .qty b3
      · exact rfl
    · rcases (eval_unit h b).cases with ⟨l, b1, b2⟩ | ⟨q, q', b1, b2, b3⟩ | ⟨x, b1, b2⟩ <;> rw [b1, b2] <;> dsimp only
      · exact .qty a3
      · exact .qty (show p.unit.mul q.unit = p'.unit.mul q'.unit by rw [a3, b3])
      · exact rfl
    · exact rfl
  | .pow a n => by
    simp only [Ex.eval]
    rcases (eval_unit h a).cases with ⟨k, a1, a2⟩ | ⟨p, p', a1, a2, a3⟩ | ⟨x, a1, a2⟩ <;> rw [a1, a2] <;> dsimp only
    · exact .num _
    · exact .qty (show p.unit.pow n = p'.unit.pow n by rw [a3])
    · exact rfl
  | .sqrt a => by
    simp only [Ex.eval]
    rcases (eval_unit h a).cases with ⟨k, a1, a2⟩ | ⟨p, p', a1, a2, a3⟩ | ⟨x, a1, a2⟩ <;> rw [a1, a2] <;> dsimp only
    · exact .num _
    · exact .qty (show p.unit.sqrt = p'.unit.sqrt by rw [a3])
    · exact rfl
  | .abs a => by
    simp only [Ex.eval]
    rcases (eval_unit h a).cases with ⟨k, a1, a2⟩ | ⟨p, p', a1, a2, a3⟩ | ⟨x, a1, a2⟩ <;> rw [a1, a2] <;> dsimp only
    · exact .num _
    · exact .qty a3
    · exact rfl
  | .fn f a => by
    simp only [Ex.eval]
    rcases (eval_unit h a).cases with ⟨k, a1, a2⟩ | ⟨p, p', a1, a2, a3⟩ | ⟨x, a1, a2⟩ <;> rw [a1, a2] <;> dsimp only
    · exact .num _
    · obtain ⟨pm, u⟩ := p
      obtain ⟨pm', u'⟩ := p'
      cases a3
      simp only [Val.fn, Q.convert]
      by_cases hd : u.dim = Unit.one.dim
      · rw [if_pos hd, if_pos hd]; exact .qty rfl
      · rw [if_neg hd, if_neg hd]; exact rfl
    · exact rfl

/-! ### theorems -/

/-- all values of an evaluation -/
def ME.args (e : ME ι) (kw : List (String × Input ι)) : List (String × Q ι) := kw.map (fun x => (x.1, x.2.toQ)) ++ e.params

/-- exactly the variables get values -/
def ME.Complete (e : ME ι) (kw : List (String × Input ι)) : Prop :=
  (∀ s ∈ Dict.keys kw, s ∉ Dict.keys e.params) ∧ ∀ s, s ∈ Dict.keys (e.args kw) ↔ s ∈ e.expr.syms

theorem evaluate_eq {e : ME ι} {kw : List (String × Input ι)} (h : e.Complete kw) : e.evaluate kw = e.expr.eval (e.args kw) := by
  unfold ME.evaluate
  rw [if_neg (by push Not; exact h.1)]
  dsimp only
  rw [if_pos ⟨fun s hs => (h.2 s).2 (List.mem_dedup.1 hs), fun s hs => List.mem_dedup.2 ((h.2 s).1 hs)⟩]
  rfl

/-- **C104.** An evaluation with all values succeeds exactly if the dimensions fit; otherwise it raises a `DimensionalityError`. -/
theorem C104_accepts {e : ME ι} {kw : List (String × Input ι)} (h : e.Complete kw) (hp : Positive (e.args kw)) :
    ((∃ v, e.evaluate kw = .ok v) ↔ ∃ d, e.expr.HasDim (dimOf (e.args kw)) d) ∧
    ((¬ ∃ d, e.expr.HasDim (dimOf (e.args kw)) d) → e.evaluate kw = .error .dimensionality) := by
  rw [evaluate_eq h]
  rcases eval_fine hp e.expr (fun s hs => (h.2 s).2 hs) with ⟨v, h1, h2⟩ | ⟨h1, h2⟩
  · exact ⟨⟨fun _ => ⟨_, h2.dim⟩, fun _ => ⟨v, h1⟩⟩, fun hn => absurd ⟨_, h2.dim⟩ hn⟩
  · exact ⟨⟨(fun ⟨v, hv⟩ => by rw [h1] at hv; cases hv), fun ⟨d, hd⟩ => absurd hd (h2 d)⟩, fun _ => h1⟩

/-- **C104.** The result is the value of the expression for the values in base units, and has the dimensionality that follows from the
rules. -/
theorem C104_value {e : ME ι} {kw : List (String × Input ι)} (h : e.Complete kw) (hp : Positive (e.args kw)) {v : Val ι}
    (hv : e.evaluate kw = .ok v) : v.si = e.expr.value (siOf (e.args kw)) ∧ ∀ d, e.expr.HasDim (dimOf (e.args kw)) d ↔ d = v.dim := by
  rw [evaluate_eq h] at hv
  rcases eval_fine hp e.expr (fun s hs => (h.2 s).2 hs) with ⟨w, h1, h2⟩ | ⟨h1, h2⟩
  · rw [hv] at h1
    cases h1
    exact ⟨h2.si, fun d => ⟨fun hd => h2.dim.unique hd, fun hd => hd ▸ h2.dim⟩⟩
  · rw [hv] at h1; cases h1

/-- the same names with physically equal values -/
def SameValues (env env' : List (String × Q ι)) : Prop := List.Forall₂ (fun x y => x.1 = y.1 ∧ x.2.Same y.2) env env'

theorem SameValues.keys {env env' : List (String × Q ι)} (h : SameValues env env') : Dict.keys env = Dict.keys env' := by
  induction h with
  | nil => rfl
  | cons h1 _ ih => simp [h1.1, ih]

theorem SameValues.get {env env' : List (String × Q ι)} (h : SameValues env env') (s : String) :
    siOf env s = siOf env' s ∧ dimOf env s = dimOf env' s := by
  unfold siOf dimOf
  induction h with
  | nil => exact ⟨rfl, rfl⟩
  | @cons x y l l' h1 _ ih =>
    obtain ⟨k, p⟩ := x
    obtain ⟨k', q⟩ := y
    obtain ⟨rfl, h2, h3⟩ := h1
    simp only [Dict.get?]
    split
    · exact ⟨by simpa using h2, by simpa using h3⟩
    · exact ih

/-- **C104.** Values in other units give the same result: the same physical value, or the same exception. -/
theorem C104_invariant {e e' : ME ι} {kw kw' : List (String × Input ι)} (he : e.expr = e'.expr) (h : e.Complete kw)
    (hp : Positive (e.args kw)) (hp' : Positive (e'.args kw')) (hs : SameValues e.params e'.params)
    (hk : SameValues (kw.map fun x => (x.1, x.2.toQ)) (kw'.map fun x => (x.1, x.2.toQ))) :
    (∃ v w, e.evaluate kw = .ok v ∧ e'.evaluate kw' = .ok w ∧ v.Same w) ∨
      e.evaluate kw = .error .dimensionality ∧ e'.evaluate kw' = .error .dimensionality := by
  have ha : SameValues (e.args kw) (e'.args kw') := List.rel_append hk hs
  have hkk : ∀ l : List (String × Input ι), Dict.keys (l.map fun x => (x.1, x.2.toQ)) = Dict.keys l := fun l => by
    simp [Dict.keys, List.map_map, Function.comp_def]
  have h' : e'.Complete kw' := by
    refine ⟨fun s => ?_, fun s => ?_⟩
    · rw [← hkk, ← hk.keys, ← hs.keys, hkk]; exact h.1 s
    · rw [← ha.keys, ← he]; exact h.2 s
  by_cases hd : ∃ d, e.expr.HasDim (dimOf (e.args kw)) d
  · have hd' : ∃ d, e'.expr.HasDim (dimOf (e'.args kw')) d := by
      obtain ⟨d, hd⟩ := hd
      exact ⟨d, he ▸ hd.congr fun s _ => (ha.get s).2⟩
    obtain ⟨v, hv⟩ := (C104_accepts h hp).1.2 hd
    obtain ⟨w, hw⟩ := (C104_accepts h' hp').1.2 hd'
    obtain ⟨v1, v2⟩ := C104_value h hp hv
    obtain ⟨w1, w2⟩ := C104_value h' hp' hw
    refine .inl ⟨v, w, hv, hw, ?_, ?_⟩
    · rw [v1, w1, ← he]
      exact Ex.value_congr fun s _ => (ha.get s).1
    · have := ((v2 v.dim).2 rfl).congr (ε := dimOf (e'.args kw')) fun s _ => (ha.get s).2
      rw [he] at this
      exact (w2 _).1 this
  · refine .inr ⟨(C104_accepts h hp).2 hd, (C104_accepts h' hp').2 fun ⟨d, hd'⟩ => hd ⟨d, ?_⟩⟩
    rw [he]
    exact hd'.congr fun s _ => (ha.get s).2.symm

/-- **C104.** The unit of the result and the success depend only on the units of the values: arrays have one unit. -/
theorem C104_unit {e : ME ι} {kw kw' : List (String × Input ι)} (h : e.Complete kw) (h' : e.Complete kw')
    (hk : SameUnits (e.args kw) (e.args kw')) : (∃ v w, e.evaluate kw = .ok v ∧ e.evaluate kw' = .ok w ∧ v.unit? = w.unit?) ∨
      ∃ x, e.evaluate kw = .error x ∧ e.evaluate kw' = .error x := by
  rw [evaluate_eq h, evaluate_eq h']
  rcases (eval_unit hk e.expr).cases with ⟨k, a1, a2⟩ | ⟨p, q, a1, a2, a3⟩ | ⟨x, a1, a2⟩
  · exact .inl ⟨_, _, a1, a2, rfl⟩
  · exact .inl ⟨_, _, a1, a2, by simp [Val.unit?, a3]⟩
  · exact .inr ⟨x, a1, a2⟩

/-! ### examples -/

namespace Demo

/-- lengths and times -/
inductive Base
  | length | time
deriving DecidableEq

/-- a dimensionality -/
def dim (l t : ℚ) : Dim Base
  | .length => l
  | .time => t

noncomputable def mm : Unit Base := ⟨1 / 1000, dim 1 0⟩
noncomputable def cm : Unit Base := ⟨1 / 100, dim 1 0⟩
def second : Unit Base := ⟨1, dim 0 1⟩
def minute : Unit Base := ⟨60, dim 0 1⟩
noncomputable def mmPerMinute : Unit Base := ⟨1 / 60000, dim 1 (-1)⟩

/-- `a * t + b` -/
def line : Ex := .add (.mul (.sym "a") (.sym "t")) (.sym "b")

/-- 60 mm/min * t + 2 cm -/
noncomputable def feed : ME Base := ⟨line, [("a", ⟨60, mmPerMinute⟩), ("b", ⟨2, cm⟩)]⟩

theorem dim_add (a b c d : ℚ) : dim a b + dim c d = dim (a + c) (b + d) := by
  funext i; cases i <;> rfl

/-- the hypotheses of `C104_accepts`, `C104_value`, `C104_invariant` and `C104_unit`, and the result -/
example : feed.Complete [("t", .quantity ⟨3, second⟩)] ∧ Positive (feed.args [("t", .quantity ⟨3, second⟩)]) ∧
    ∃ v, feed.evaluate [("t", .quantity ⟨3, second⟩)] = .ok v ∧ v.si = 23 / 1000 := by
  have hc : feed.Complete [("t", .quantity ⟨3, second⟩)] := by
    refine ⟨by simp [feed, Dict.keys], fun s => ?_⟩
    simp [feed, ME.args, Dict.keys, line, Ex.syms]
    tauto
  have hp : Positive (feed.args [("t", .quantity ⟨3, second⟩)]) := by
    intro s q h
    have := Dict.mem_of_get? h
    simp only [feed, ME.args, List.map_cons, List.map_nil, List.cons_append, List.nil_append, List.mem_cons, Prod.mk.injEq,
      List.not_mem_nil, or_false, Input.toQ] at this
    rcases this with ⟨_, rfl⟩ | ⟨_, rfl⟩ | ⟨_, rfl⟩ <;> norm_num [second, mmPerMinute, cm]
  obtain ⟨v, hv⟩ := (C104_accepts hc hp).1.2 ⟨dim 1 0, by
    refine .add ?_ ?_
    · have := Ex.HasDim.mul (.sym (δ := dimOf (feed.args [("t", .quantity ⟨3, second⟩)])) "a") (.sym "t")
      have e : dimOf (feed.args [("t", .quantity ⟨3, second⟩)]) "a" + dimOf (feed.args [("t", .quantity ⟨3, second⟩)]) "t" = dim 1 0 := by
        show dim 1 (-1) + dim 0 1 = _
        rw [dim_add]; norm_num
      rw [e] at this
      exact this
    · exact .sym "b"⟩
  refine ⟨hc, hp, v, hv, ?_⟩
  rw [(C104_value hc hp hv).1]
  show 60 * (1 / 60000) * (3 * 1) + 2 * (1 / 100 : ℝ) = 23 / 1000
  norm_num

end Demo

end Weldx.Pint
