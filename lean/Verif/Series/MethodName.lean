import Mathlib.Data.List.Basic
import Mathlib.Tactic.Tauto

/-!
# The name of the interpolation method of a generic series (C116)

Source: `/repo/weldx/core/generic_series.py` 226 (`__init__`), 240-265 (`__eq__`), 512-533 (`_evaluate_expr`), 535-543 (`_evaluate_array`), 605-623
(`interpolation`); `/repo/weldx/tags/core/generic_series.py` 51-87 (`to_yaml_tree`, `from_yaml_tree`).

Simplifications: of a series only its kind and the name of its method are kept; `content` stands for all the rest. What xarray does with a
name is not modelled. The rest is taken to survive a file, see C69 for that.
-/

namespace Weldx.MethodName

/-! ### model -/

/-- a generic series: the kind, the attribute `_interpolation` and the rest -/
structure GS (C : Type) where
  isExpression : Bool
  method : String
  content : C

variable {C : Type}

/-- `__init__`, `generic_series.py` 226 -/
def create (isExpression : Bool) (content : C) (interpolation : Option String) : GS C := ⟨isExpression, interpolation.getD "linear", content⟩

/-- the names that the setter accepts, `generic_series.py` 613-621 -/
def names : List String := ["linear", "step", "nearest", "zero", "slinear", "quadratic", "cubic"]

/-- the setter of `interpolation`, `generic_series.py` 610-623; `none` is a `ValueError` -/
def setMethod (s : GS C) (val : String) : Option (GS C) := if val ∉ names then none else some { s with method := val }

/-- the result of an evaluation, `generic_series.py` 512-543: arrays and complete evaluations are given to the constructor without a method,
other evaluations of expressions are copies. `content` is the rest of the result. -/
def evaluated (s : GS C) (complete : Bool) (content : C) : GS C :=
  if s.isExpression && !complete then { s with content := content } else create false content none

/-- writing to a file and reading, `tags/core/generic_series.py` 51-87; the schema accepts every text -/
def fileCopy (s : GS C) : GS C := if s.isExpression then create true s.content none else create false s.content (some s.method)

/-- `__eq__`, `generic_series.py` 240-265 -/
def equal [DecidableEq C] (s t : GS C) : Bool :=
  if s.isExpression ≠ t.isExpression then false
  else if s.isExpression then decide (s.content = t.content)
  else if s.method ≠ t.method then false
  else decide (s.content = t.content)

/-- all series that can be made, if the constructor gets arguments in `A` -/
inductive Made (A : Option String → Prop) : GS C → Prop
  | create (b : Bool) (c : C) (i : Option String) : A i → Made A (create b c i)
  | set {s t : GS C} (v : String) : Made A s → setMethod s v = some t → Made A t
  | evaluated {s : GS C} (b : Bool) (c : C) : Made A s → Made A (evaluated s b c)
  | fileCopy {s : GS C} : Made A s → Made A (fileCopy s)

/-! ### specification -/

/-- the documented methods -/
def Supported (m : String) : Prop :=
  m = "linear" ∨ m = "step" ∨ m = "nearest" ∨ m = "zero" ∨ m = "slinear" ∨ m = "quadratic" ∨ m = "cubic"

/-! ### theorems -/

theorem mem_names {v : String} : v ∈ names ↔ Supported v := by simp [names, Supported]

/-- **C116.** The setter accepts exactly the documented methods. It changes nothing else. -/
theorem C116_setter (s : GS C) (v : String) : (Supported v → setMethod s v = some ⟨s.isExpression, v, s.content⟩) ∧
    (¬ Supported v → setMethod s v = none) := by
  unfold setMethod
  exact ⟨fun h => if_neg (not_not.2 (mem_names.2 h)), fun h => if_pos fun hm => h (mem_names.1 hm)⟩

/-- **C116**, if the constructor only gets documented methods or none: every series has a documented method. -/
theorem C116_supported_partial {s : GS C} (h : Made (fun i => ∀ m, i = some m → Supported m) s) : Supported s.method := by
  have lin : Supported "linear" := .inl rfl
  induction h with
  | create b c i hi => cases i with
    | none => exact lin
    | some m => exact hi m rfl
  | @set s t v _ hs _ =>
    unfold setMethod at hs
    split at hs
    · cases hs
    · rename_i hv
      cases hs
      exact mem_names.1 (not_not.1 hv)
  | @evaluated s b c _ ih =>
    unfold evaluated
    split
    · exact ih
    · exact lin
  | @fileCopy s _ ih =>
    unfold fileCopy
    split
    · exact lin
    · exact ih

/-- **C116 is false.** The constructor takes every text as method, although the setter refuses it, and the text survives a file. -/
theorem C116_constructor_counterexample (c : C) {m : String} (hm : ¬ Supported m) :
    Made (fun _ => True) (create false c (some m)) ∧ (create false c (some m)).method = m ∧
      setMethod (create false c (some m)) m = none ∧ fileCopy (create false c (some m)) = create false c (some m) :=
  ⟨.create _ _ _ trivial, rfl, (C116_setter _ _).2 hm, rfl⟩

/-- **C116.** Which steps keep the method: a file keeps it for discrete series. An evaluation forgets it, unless the result is still an
expression. -/
theorem C116_kept (s : GS C) (b : Bool) (c : C) : (s.isExpression = false → fileCopy s = s) ∧
    (s.isExpression = true → (fileCopy s).method = "linear") ∧
    (s.isExpression = false ∨ b = true → evaluated s b c = ⟨false, "linear", c⟩) ∧
    (s.isExpression = true → b = false → evaluated s b c = ⟨true, s.method, c⟩) := by
  obtain ⟨e, m, k⟩ := s
  refine ⟨?_, ?_, ?_, ?_⟩ <;> cases e <;> cases b <;> simp [fileCopy, create, evaluated]

/-- **C116.** Every copy from a file is equal to the original, as the method of an expression is not compared. A discrete series whose
method is not linear differs from all of its evaluations, also from the one at its own coordinates. An expression is never equal to a discrete
series. -/
theorem C116_equal [DecidableEq C] (s : GS C) : equal s (fileCopy s) = true ∧
    (s.isExpression = false → s.method ≠ "linear" → ∀ b c, equal s (evaluated s b c) = false) ∧
    ∀ t, s.isExpression ≠ t.isExpression → equal s t = false := by
  obtain ⟨e, m, k⟩ := s
  refine ⟨?_, fun h hm b c => ?_, fun t h => if_pos h⟩
  · cases e <;> simp [equal, fileCopy, create]
  · simp only at h hm
    subst h
    simp [equal, evaluated, create, hm]

/-- the hypotheses hold: a method that does not exist, and a series with steps -/
example : ¬ Supported "spline" ∧ equal (create false 0 (some "step")) (evaluated (create false 0 (some "step")) true 0) = false :=
  ⟨by simp [Supported], (C116_equal _).2.1 rfl (by simp [create]) _ _⟩

end Weldx.MethodName
