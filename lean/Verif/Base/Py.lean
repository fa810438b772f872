/-!
# Python-like computations: mutable state that survives exceptions

`Py ε σ α` is a computation on an object with state `σ` that returns an `α` or raises an `ε`. When an
exception is raised, all mutations made before it stay visible, exactly as in Python.
-/

namespace Weldx

/-- Outcome of a computation: value or exception, and in both cases the state it left behind. -/
inductive Res (ε σ α : Type) where
  | ok (val : α) (state : σ)
  | err (e : ε) (state : σ)

/-- The state after the call, no matter if it returned or raised. -/
def Res.state {ε σ α : Type} : Res ε σ α → σ
  | .ok _ s => s
  | .err _ s => s

/-- The call raised. -/
def Res.Raised {ε σ α : Type} : Res ε σ α → Prop
  | .ok _ _ => False
  | .err _ _ => True

@[simp] theorem Res.state_ok {ε σ α : Type} (a : α) (s : σ) : (Res.ok a s : Res ε σ α).state = s := rfl
@[simp] theorem Res.state_err {ε σ α : Type} (e : ε) (s : σ) : (Res.err e s : Res ε σ α).state = s := rfl
@[simp] theorem Res.raised_ok {ε σ α : Type} (a : α) (s : σ) : ¬ (Res.ok a s : Res ε σ α).Raised := id
@[simp] theorem Res.raised_err {ε σ α : Type} (e : ε) (s : σ) : (Res.err e s : Res ε σ α).Raised := trivial

/-- A computation with mutable state and exceptions. -/
def Py (ε σ α : Type) : Type := σ → Res ε σ α

namespace Py
variable {ε σ α β : Type}

instance : Monad (Py ε σ) where
  pure a := fun s => .ok a s
  bind x f := fun s => match x s with
    | .ok a s' => f a s'
    | .err e s' => .err e s'

/-- read the object -/
def get : Py ε σ σ := fun s => .ok s s
/-- change the object -/
def modify (f : σ → σ) : Py ε σ Unit := fun s => .ok () (f s)
/-- raise an exception -/
def raise (e : ε) : Py ε σ α := fun s => .err e s
/-- run a query that does not change the object -/
def lift (x : Except ε α) : Py ε σ α := fun s => match x with
  | .ok a => .ok a s
  | .error e => .err e s

@[simp] theorem pure_apply (a : α) (s : σ) : (pure a : Py ε σ α) s = .ok a s := rfl
theorem bind_apply (x : Py ε σ α) (f : α → Py ε σ β) (s : σ) :
    (x >>= f) s = match x s with
      | .ok a s' => f a s'
      | .err e s' => .err e s' := rfl
theorem bind_ok {x : Py ε σ α} {f : α → Py ε σ β} {s s' : σ} {a : α} (h : x s = .ok a s') :
    (x >>= f) s = f a s' := by rw [bind_apply, h]
theorem bind_err {x : Py ε σ α} {f : α → Py ε σ β} {s s' : σ} {e : ε} (h : x s = .err e s') :
    (x >>= f) s = .err e s' := by rw [bind_apply, h]
@[simp] theorem get_apply (s : σ) : (get : Py ε σ σ) s = .ok s s := rfl
@[simp] theorem modify_apply (f : σ → σ) (s : σ) : (modify f : Py ε σ Unit) s = .ok () (f s) := rfl
@[simp] theorem raise_apply (e : ε) (s : σ) : (raise e : Py ε σ α) s = .err e s := rfl
@[simp] theorem lift_ok (a : α) (s : σ) : (lift (.ok a) : Py ε σ α) s = .ok a s := rfl
@[simp] theorem lift_error (e : ε) (s : σ) : (lift (.error e) : Py ε σ α) s = .err e s := rfl
@[simp] theorem get_bind (f : σ → Py ε σ β) (s : σ) : (get >>= f) s = f s s := rfl
@[simp] theorem modify_bind (g : σ → σ) (f : Unit → Py ε σ β) (s : σ) :
    (modify g >>= f) s = f () (g s) := rfl
@[simp] theorem raise_bind (e : ε) (f : α → Py ε σ β) (s : σ) :
    ((raise e : Py ε σ α) >>= f) s = .err e s := rfl
@[simp] theorem pure_bind' (a : α) (f : α → Py ε σ β) (s : σ) :
    ((pure a : Py ε σ α) >>= f) s = f a s := rfl
@[simp] theorem lift_ok_bind (a : α) (f : α → Py ε σ β) (s : σ) :
    ((lift (.ok a) : Py ε σ α) >>= f) s = f a s := rfl
@[simp] theorem lift_error_bind (e : ε) (f : α → Py ε σ β) (s : σ) :
    ((lift (.error e) : Py ε σ α) >>= f) s = .err e s := rfl
theorem ite_apply (c : Prop) [Decidable c] (x y : Py ε σ α) (s : σ) :
    (if c then x else y) s = if c then x s else y s := by split <;> rfl

end Py
end Weldx
