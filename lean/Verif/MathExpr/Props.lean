import Verif.MathExpr.Model
import Mathlib.Data.List.Dedup

/-!
# Properties of `weldx.MathematicalExpression` (C36)
-/

namespace Weldx.Me

variable {K : Type}

/-! ## Specification vocabulary -/

/-- the value of an expression for given values of the symbols -/
def Expr.at (env : String → K) : Expr K → K
  | .num k => k
  | .sym s => env s
  | .un f a => f (a.at env)
  | .bin f a b => f (a.at env) (b.at env)

/-- the objects that can occur: made by the constructor, changed by `set_parameters`, also by calls that raise -/
inductive Reach [Inhabited K] : ME K → Prop
  | create {expr ps e} (h : ME.create expr ps = .ok e) : Reach e
  | set {e ps} (h : Reach e) : Reach (e.setParameters ps).1

/-- the arrays made from parameters -/
def Converted [Inhabited K] (ps : List (String × Arg K)) (as : List (String × Arr K)) : Prop :=
  List.Forall₂ (fun p a => p.1 = a.1 ∧ p.2.toArr = .ok a.2) ps as

/-- `set_parameters` called several times -/
def ME.setMany [Inhabited K] (e : ME K) : List (List (String × Arg K)) → ME K × Option Err
  | [] => (e, none)
  | ps :: t =>
    match e.setParameters ps with
    | (e', some x) => (e', some x)
    | (e', none) => e'.setMany t

/-! ## Lemmas -/

theorem mem_free {e : Expr K} {s} : s ∈ e.free ↔ s ∈ e.syms := by simp [Expr.free]

theorem free_nodup (e : Expr K) : e.free.Nodup := List.nodup_dedup _

theorem eval_congr [DecidableEq K] {e : Expr K} {env env' : List (String × Arr K)}
    (h : ∀ s, Dict.get? env s = Dict.get? env' s) : e.eval env = e.eval env' := by
  induction e with
  | num k => rfl
  | sym s => simp only [Expr.eval, h s]
  | un f a ih => simp only [Expr.eval, ih]
  | bin f a b iha ihb => simp only [Expr.eval, iha, ihb]

theorem mem_keys_congr {V : Type} {d d' : List (String × V)} (h : ∀ s, Dict.get? d s = Dict.get? d' s) {s} :
    s ∈ Dict.keys d ↔ s ∈ Dict.keys d' := by
  rw [← Dict.get?_isSome, ← Dict.get?_isSome, h s]

theorem call_congr [DecidableEq K] {e : Expr K} {env env' : List (String × Arr K)}
    (h : ∀ s, Dict.get? env s = Dict.get? env' s) : e.call env = e.call env' := by
  unfold Expr.call
  simp only [mem_keys_congr h, eval_congr h]

theorem setParameters_spec [Inhabited K] {e : ME K} {ps : List (String × Arg K)} {as : List (String × Arr K)}
    (hc : Converted ps as) (hf : ∀ s ∈ Dict.keys ps, s ∈ e.expr.free) :
    e.setParameters ps = (⟨e.expr, Dict.update e.params as⟩, none) := by
  induction hc generalizing e with
  | nil => rfl
  | @cons p a ps as hpa hc ih =>
    obtain ⟨k, v⟩ := p
    obtain ⟨k', a⟩ := a
    obtain ⟨rfl, ha⟩ := hpa
    have hk : k ∈ e.expr.free := hf k (by simp)
    simp only [ME.setParameters, hk, not_true_eq_false, if_false, ha]
    rw [ih (e := ⟨e.expr, Dict.set e.params k a⟩) (fun s hs => hf s (by simp [hs]))]
    rfl

theorem setParameters_append [Inhabited K] {e : ME K} {ps qs : List (String × Arg K)} :
    e.setParameters (ps ++ qs) =
      if (e.setParameters ps).2 = none then (e.setParameters ps).1.setParameters qs else e.setParameters ps := by
  induction ps generalizing e with
  | nil => simp [ME.setParameters]
  | cons p ps ih =>
    obtain ⟨k, v⟩ := p
    simp only [List.cons_append, ME.setParameters]
    split
    · simp
    · cases v.toArr with
      | error x => simp
      | ok a => exact ih

theorem setMany_eq [Inhabited K] {e : ME K} {pss : List (List (String × Arg K))} :
    e.setMany pss = e.setParameters pss.flatten := by
  induction pss generalizing e with
  | nil => rfl
  | cons ps t ih =>
    simp only [ME.setMany, List.flatten_cons, setParameters_append]
    rcases h : e.setParameters ps with ⟨e', _ | x⟩
    · simp [ih]
    · simp

theorem Converted.keys [Inhabited K] {ps : List (String × Arg K)} {as : List (String × Arr K)} (h : Converted ps as) :
    Dict.keys ps = Dict.keys as := by
  induction h with
  | nil => rfl
  | cons hpa _ ih => simp [ih, hpa.1]

theorem setParameters_inv [Inhabited K] {e : ME K} {ps : List (String × Arg K)} (hn : (Dict.keys e.params).Nodup)
    (hs : ∀ s ∈ Dict.keys e.params, s ∈ e.expr.free) :
    (e.setParameters ps).1.expr = e.expr ∧ (Dict.keys (e.setParameters ps).1.params).Nodup ∧
      ∀ s ∈ Dict.keys (e.setParameters ps).1.params, s ∈ e.expr.free := by
  induction ps generalizing e with
  | nil => exact ⟨rfl, hn, hs⟩
  | cons p t ih =>
    obtain ⟨k, v⟩ := p
    simp only [ME.setParameters]
    split
    · exact ⟨rfl, hn, hs⟩
    · rename_i hk
      cases v.toArr with
      | error x => exact ⟨rfl, hn, hs⟩
      | ok a =>
        have := @ih ⟨e.expr, Dict.set e.params k a⟩ (Dict.nodup_keys_set hn) (by
          intro s h
          rcases Dict.mem_keys_set.1 h with h | rfl
          · exact hs s h
          · exact not_not.1 hk)
        exact this

theorem Reach.inv [Inhabited K] {e : ME K} (h : Reach e) :
    (Dict.keys e.params).Nodup ∧ ∀ s ∈ Dict.keys e.params, s ∈ e.expr.free := by
  induction h with
  | @create expr ps e h =>
    unfold ME.create at h
    have := @setParameters_inv _ _ ⟨expr, []⟩ ps (by simp) (by simp)
    rcases hp : (ME.mk expr []).setParameters ps with ⟨e', _ | x⟩
    · rw [hp] at h this
      obtain ⟨h1, h2, h3⟩ := this
      cases h
      simp only at h1
      rw [h1]
      exact ⟨h2, h3⟩
    · rw [hp] at h; cases h
  | @set e ps h ih =>
    obtain ⟨h1, h2, h3⟩ := setParameters_inv (ps := ps) ih.1 ih.2
    rw [h1]
    exact ⟨h2, h3⟩

/-! ## C36: expressions -/

/-- **C36** (fixing and evaluating): take any object, fix parameters by any number of calls of `set_parameters` in any order and
evaluate with the remaining names. The result is that of evaluating with all names at once: the same value or the same
exception. The names are arbitrary as long as they are given once, are symbols, and are not yet parameters. -/
theorem C36_split [Inhabited K] [DecidableEq K] {e : ME K} {pss : List (List (String × Arg K))}
    {as kw all : List (String × Arr K)} (hc : Converted pss.flatten as)
    (hf : ∀ s ∈ Dict.keys as, s ∈ e.expr.free) (hn : (Dict.keys as).Nodup)
    (hp : ∀ s ∈ Dict.keys as, s ∉ Dict.keys e.params) (hk : ∀ s ∈ Dict.keys as, s ∉ Dict.keys kw)
    (hall : ∀ s, Dict.get? all s = (Dict.get? as s).or (Dict.get? kw s)) :
    (e.setMany pss).2 = none ∧ (e.setMany pss).1.evaluate kw = e.evaluate all := by
  rw [setMany_eq, setParameters_spec hc (by rw [hc.keys]; exact hf)]
  refine ⟨rfl, ?_⟩
  have hkeys : ∀ s, s ∈ Dict.keys all ↔ s ∈ Dict.keys as ∨ s ∈ Dict.keys kw := by
    intro s
    rw [← Dict.get?_isSome, ← Dict.get?_isSome, ← Dict.get?_isSome, hall s]
    cases Dict.get? as s <;> simp
  have hiff : (∃ s ∈ Dict.keys kw, s ∈ Dict.keys (Dict.update e.params as)) ↔
      ∃ s ∈ Dict.keys all, s ∈ Dict.keys e.params := by
    constructor
    · rintro ⟨s, h1, h2⟩
      rcases Dict.mem_keys_update.1 h2 with h2 | h2
      · exact ⟨s, (hkeys s).2 (.inr h1), h2⟩
      · exact absurd h1 (hk s h2)
    · rintro ⟨s, h1, h2⟩
      rcases (hkeys s).1 h1 with h1 | h1
      · exact absurd h2 (hp s h1)
      · exact ⟨s, h1, Dict.mem_keys_update.2 (.inl h2)⟩
  unfold ME.evaluate
  simp only [hiff]
  split
  · rfl
  · rename_i hno
    apply call_congr
    intro s
    rw [Dict.get?_append, Dict.get?_append, hall s, Dict.get?_update hn]
    cases ha : Dict.get? as s with
    | none =>
      cases hk' : Dict.get? kw s <;> simp
    | some a =>
      have hsa : s ∈ Dict.keys as := Dict.get?_isSome.1 ⟨a, ha⟩
      rw [Dict.get?_eq_none.2 (hk s hsa)]
      simp

/-- **C36** (value): a successful evaluation gives at every position the value of the expression for the values of the
arguments and parameters at this position. -/
theorem C36_value [Inhabited K] [DecidableEq K] {e : ME K} {kw : List (String × Arr K)} {r : Arr K}
    (h : e.evaluate kw = .ok r) (i : String → ℕ) :
    r.val i = e.expr.at fun s => (((Dict.get? (kw ++ e.params) s).map fun a => a.val i)).getD default := by
  have key : ∀ (x : Expr K) (env : List (String × Arr K)) (r : Arr K), x.eval env = .ok r →
      r.val i = x.at fun s => (((Dict.get? env s).map fun a => a.val i)).getD default := by
    intro x env
    induction x with
    | num k => intro r h; cases h; rfl
    | sym s =>
      intro r h
      simp only [Expr.eval] at h
      cases hg : Dict.get? env s with
      | none => rw [hg] at h; cases h
      | some a => rw [hg] at h; cases h; simp [Expr.at, hg]
    | un f a ih =>
      intro r h
      simp only [Expr.eval] at h
      cases ha : a.eval env with
      | error x => rw [ha] at h; cases h
      | ok q => rw [ha] at h; cases h; simp only [Expr.at]; rw [ih q ha]
    | bin f a b iha ihb =>
      intro r h
      simp only [Expr.eval] at h
      cases ha : a.eval env with
      | error x => rw [ha] at h; cases h
      | ok q =>
        rw [ha] at h
        cases hb : b.eval env with
        | error x => rw [hb] at h; cases h
        | ok q' =>
          rw [hb] at h
          simp only [Arr.bin] at h
          cases hj : joinLabels q.coords q'.coords with
          | none => rw [hj] at h; cases h
          | some c =>
            rw [hj] at h
            cases hd : joinLabels q.dims q'.dims with
            | none => rw [hd] at h; cases h
            | some d => rw [hd] at h; cases h; simp only [Expr.at]; rw [iha q ha, ihb q' hb]
  unfold ME.evaluate at h
  split at h
  · cases h
  · unfold Expr.call at h
    split at h
    · exact key _ _ _ h
    · cases h

/-- **C36** (partition): variables and parameters of every object that can occur are a partition of the symbols, and
`num_variables` is the number of the variables. -/
theorem C36_partition [Inhabited K] {e : ME K} (h : Reach e) :
    (e.variableNames ++ Dict.keys e.params).Perm e.expr.free ∧
      (∀ s ∈ e.variableNames, s ∉ Dict.keys e.params) ∧ e.numVariables = e.variableNames.length := by
  obtain ⟨hn, hs⟩ := h.inv
  have hd : ∀ s ∈ e.variableNames, s ∉ Dict.keys e.params := by
    intro s h
    simpa using (List.mem_filter.1 h).2
  have hperm : (e.variableNames ++ Dict.keys e.params).Perm e.expr.free := by
    rw [List.perm_ext_iff_of_nodup _ (free_nodup _)]
    · intro s
      simp only [List.mem_append, ME.variableNames, List.mem_filter, decide_eq_true_eq]
      constructor
      · rintro (h | h)
        · exact h.1
        · exact hs s h
      · intro h
        by_cases hk : s ∈ Dict.keys e.params
        · exact .inr hk
        · exact .inl ⟨h, hk⟩
    · rw [List.nodup_append]
      refine ⟨(free_nodup _).filter _, hn, ?_⟩
      rintro a ha b hb rfl
      exact hd a ha hb
  refine ⟨hperm, hd, ?_⟩
  have := hperm.length_eq
  simp only [List.length_append, Dict.keys, List.length_map] at this
  unfold ME.numVariables
  omega

/-- **C36** (unknown names): `set_parameters` raises a `ValueError` at the first name that is not a symbol. The parameters in front
of it are kept by the object (the call is not atomic). -/
theorem C36_unknown [Inhabited K] {e : ME K} {pre post : List (String × Arg K)} {as : List (String × Arr K)} {k : String}
    {v : Arg K} (hc : Converted pre as) (hf : ∀ s ∈ Dict.keys pre, s ∈ e.expr.free) (hk : k ∉ e.expr.free) :
    e.setParameters (pre ++ (k, v) :: post) = (⟨e.expr, Dict.update e.params as⟩, some .valueError) := by
  rw [setParameters_append, setParameters_spec hc hf]
  simp [ME.setParameters, hk]

/-- **C36** (evaluation): evaluation raises unless the given names are exactly the variables; names that are already fixed give a
`ValueError`, names that are unknown or missing a `TypeError`. -/
theorem C36_names [Inhabited K] [DecidableEq K] {e : ME K} (h : Reach e) {kw : List (String × Arr K)} :
    ((∃ s ∈ Dict.keys kw, s ∈ Dict.keys e.params) → e.evaluate kw = .error .valueError) ∧
    ((∀ s ∈ Dict.keys kw, s ∉ Dict.keys e.params) → ¬ (∀ s, s ∈ Dict.keys kw ↔ s ∈ e.variableNames) →
      e.evaluate kw = .error .typeError) := by
  constructor
  · intro h
    simp [ME.evaluate, h]
  · intro hd hne
    have h1 : ¬ ∃ s ∈ Dict.keys kw, s ∈ Dict.keys e.params := by
      rintro ⟨s, a, b⟩; exact hd s a b
    unfold ME.evaluate
    rw [if_neg h1]
    unfold Expr.call
    rw [if_neg]
    rintro ⟨ha, hb⟩
    apply hne
    intro s
    simp only [Dict.keys_append, List.mem_append] at ha hb
    simp only [ME.variableNames, List.mem_filter, decide_eq_true_eq]
    constructor
    · intro hs
      exact ⟨hb s (.inl hs), hd s hs⟩
    · rintro ⟨hs, hp⟩
      rcases ha s hs with h | h
      · exact h
      · exact absurd h hp

/-- **C36** (fixed names are not rejected by `set_parameters`): fixing a name again replaces its value. -/
theorem C36_overwrite [Inhabited K] {e : ME K} (h : Reach e) {k : String} {a : Arr K} (hk : k ∈ Dict.keys e.params) :
    (e.setParameters [(k, .arr a)]).2 = none ∧
      Dict.get? (e.setParameters [(k, .arr a)]).1.params k = some a ∧
      Dict.keys (e.setParameters [(k, .arr a)]).1.params = Dict.keys e.params := by
  have hf := h.inv.2 k hk
  simp only [ME.setParameters, hf, not_true_eq_false, if_false, Arg.toArr]
  refine ⟨trivial, ?_, Dict.keys_set_of_mem hk⟩
  rw [Dict.get?_set]
  simp

/-! ### Example -/

/-- `a * x + b` -/
def line : Expr Int := .bin (· + ·) (.bin (· * ·) (.sym "a") (.sym "x")) (.sym "b")

/-- `a = 2` and `b = 3` fixed one after the other, then evaluated for two values of `x` -/
example : (ME.setMany ⟨line, []⟩ [[("a", .scalar 2)], [("b", .scalar 3)]]).2 = none ∧
    (ME.setMany ⟨line, []⟩ [[("a", .scalar 2)], [("b", .scalar 3)]]).1.evaluate [("x", Arr.vec [5, 7] "x")] =
      ME.evaluate ⟨line, []⟩ [("x", Arr.vec [5, 7] "x"), ("b", .const 3), ("a", .const 2)] := by
  apply C36_split (as := [("a", .const 2), ("b", .const 3)])
  · exact .cons ⟨rfl, rfl⟩ (.cons ⟨rfl, rfl⟩ .nil)
  · decide
  · decide
  · decide
  · decide
  · intro s
    simp only [Dict.get?]
    by_cases h1 : "a" = s
    · subst h1; simp
    · by_cases h2 : "b" = s
      · subst h2; simp
      · simp [h1, h2]

example : ∃ r, (ME.setMany ⟨line, []⟩ [[("a", .scalar 2)], [("b", .scalar 3)]]).1.evaluate [("x", Arr.vec [5, 7] "x")] = .ok r ∧
    r.dims = [("x", 2)] ∧ r.val (fun _ => 1) = 17 := ⟨_, rfl, rfl, rfl⟩

/-- the conditions of `C36_partition` and `C36_overwrite` -/
example : Reach (ME.mk line [("a", .const 2)]) := .create (expr := line) (ps := [("a", .scalar 2)]) rfl

example : ("c" : String) ∉ line.free := by decide

end Weldx.Me
