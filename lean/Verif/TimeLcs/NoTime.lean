import Verif.TimeLcs.Default

/-!
# Queries without a time for systems that are given by expressions

Source: `/repo/weldx/transformations/cs_manager.py` 1024-1061 (`_get_cs_on_edge`) and 1206-1246 (`get_cs`) with `time=None` if no
system of the path has times (`time_union` returns `None`, 1692-1695); `/repo/weldx/transformations/local_cs.py` 166-173
(`__add__`), 753-754 (`interp_time` without a time), 785-789 (`invert`).

Simplification: as in `Verif/TimeLcs/Query.lean`.
-/

namespace Weldx

open Ip Matrix

/-! ### model -/

/-- errors of a query without a time: `None - reference_time` is a `TypeError` -/
inductive NoTimeErr
  | typeError | weldxException | time (e : TimeError)

/-- a `LocalCoordinateSystem`, with discrete coordinates or with an expression -/
inductive AnyLcs
  | discrete (c : TLcs)
  | expression (e : ELcs)

/-- `_get_cs_on_edge` without a time, `cs_manager.py` 1024-1061 -/
noncomputable def TEdge.noTime (csmRef : Option Int) (e : TEdge) : Except NoTimeErr AnyLcs :=
  if e.dependent && e.ref.isNone && csmRef.isSome then .error .typeError
  else match e with
    | .discrete c => .ok (.discrete c)
    | .expression _ true => .error .weldxException
    | .expression e false => .ok (.expression e)

/-- `__add__`, `local_cs.py` 166-211 -/
noncomputable def AnyLcs.add (S : Slerp) : AnyLcs → AnyLcs → Except NoTimeErr AnyLcs
  | .discrete a, .discrete b => match a.add S b with
    | .ok c => .ok (.discrete c)
    | .error e => .error (.time e)
  | _, _ => .error .weldxException

/-- the rest of the path, `cs_manager.py` 1244-1246 -/
noncomputable def addNoTime (S : Slerp) (csmRef : Option Int) : List TEdge → AnyLcs → Except NoTimeErr AnyLcs
  | [], acc => .ok acc
  | e :: es, acc => do
    let c ← e.noTime csmRef
    addNoTime S csmRef es (← acc.add S c)

/-- `get_cs` without a time for a path whose systems have no times -/
noncomputable def getCsNoTime (S : Slerp) (csmRef : Option Int) : List TEdge → Except NoTimeErr AnyLcs
  | [] => .ok (.discrete ⟨none, none, .static 1, .static 0⟩)
  | e :: es => do
    let c ← e.noTime csmRef
    addNoTime S csmRef es c

/-! ### theorems -/

/-- **C62.** Without a time, the link to a system given by an expression is returned as it is stored; the opposite direction
raises, and so does a system without reference time in a manager with one (it would be found with a time). -/
theorem C62_no_time_link (S : Slerp) (csmRef : Option Int) (e : ELcs) (i : Bool) :
    getCsNoTime S csmRef [.expression e i] =
      if e.ref = none ∧ csmRef ≠ none then .error .typeError
      else if i then .error .weldxException else .ok (.expression e) := by
  unfold getCsNoTime TEdge.noTime
  cases hr : e.ref <;> cases csmRef <;> cases i <;> simp [TEdge.dependent, TEdge.ref, hr, bind, Except.bind, addNoTime]

theorem addNoTime_expression (S : Slerp) (csmRef : Option Int) : ∀ (es : List TEdge) (acc : AnyLcs),
    (∃ e i, TEdge.expression e i ∈ es) ∨ ((∃ e, acc = .expression e) ∧ es ≠ []) → ∃ x, addNoTime S csmRef es acc = .error x
  | [], acc, h => by
    rcases h with ⟨e, i, h⟩ | ⟨_, h⟩
    · cases h
    · exact absurd rfl h
  | e :: es, acc, h => by
    simp only [addNoTime]
    cases hn : e.noTime csmRef with
    | error x => exact ⟨x, rfl⟩
    | ok c =>
      simp only [bind, Except.bind]
      cases ha : acc.add S c with
      | error x => exact ⟨x, rfl⟩
      | ok d =>
        refine addNoTime_expression S csmRef es d (.inl ?_)
        have key : (∃ e, acc = .expression e) ∨ (∃ e, c = .expression e) → False := by
          rintro (⟨f, rfl⟩ | ⟨f, rfl⟩)
          · cases ha
          · cases acc <;> cases ha
        rcases h with ⟨f, i, h⟩ | ⟨h, _⟩
        · rcases List.mem_cons.1 h with h | h
          · subst h
            exfalso
            unfold TEdge.noTime at hn
            split at hn
            · cases hn
            · cases i with
              | true => cases hn
              | false => cases hn; exact key (.inr ⟨_, rfl⟩)
          · exact ⟨f, i, h⟩
        · exact (key (.inl h)).elim

/-- **C62.** Without a time, a longer path with a system given by an expression always raises if no system of the path has
times. -/
theorem C62_no_time_path (S : Slerp) (csmRef : Option Int) {es : List TEdge} (h : ∃ e i, TEdge.expression e i ∈ es)
    (hl : 2 ≤ es.length) : ∃ x, getCsNoTime S csmRef es = .error x := by
  match es, hl with
  | e :: e' :: es, _ =>
    simp only [getCsNoTime]
    cases hn : e.noTime csmRef with
    | error x => exact ⟨x, rfl⟩
    | ok c =>
      refine addNoTime_expression S csmRef (e' :: es) c ?_
      obtain ⟨f, i, h⟩ := h
      rcases List.mem_cons.1 h with h | h
      · subst h
        right
        unfold TEdge.noTime at hn
        split at hn
        · cases hn
        · cases i with
          | true => cases hn
          | false => cases hn; exact ⟨⟨_, rfl⟩, by simp⟩
      · exact .inl ⟨f, i, h⟩

theorem addNoTime_static (S : Slerp) (csmRef : Option Int) : ∀ (es : List TLcs) (acc : TLcs), (∀ c ∈ es, c.dependent = false) →
    addNoTime S csmRef (es.map .discrete) (.discrete acc) = match addAll S (es.map .discrete) acc with
      | .ok c => .ok (.discrete c)
      | .error e => .error (.time e)
  | [], acc, _ => rfl
  | c :: es, acc, h => by
    have hc : (TEdge.discrete c).noTime csmRef = .ok (.discrete c) := by
      unfold TEdge.noTime
      rw [show (TEdge.discrete c).dependent = false from h c (by simp)]
      rfl
    simp only [List.map_cons, addNoTime, hc, bind, Except.bind, addAll, AnyLcs.add, TEdge.frame]
    cases acc.add S c with
    | error e => rfl
    | ok d => exact addNoTime_static S csmRef es d fun c hc => h c (by simp [hc])

/-- **C62.** If all systems of the path are at rest, the query is the one of `getCsDefault`. -/
theorem C62_no_time_static (S : Slerp) (csmRef minRef : Option Int) {es : List TLcs} (h : ∀ c ∈ es, c.dependent = false ∧ c.times = none) :
    getCsNoTime S csmRef (es.map .discrete) = match getCsDefault S csmRef minRef (es.map .discrete) with
      | .ok c => .ok (.discrete c)
      | .error e => .error (.time e) := by
  have hu : timeUnion (csmRef.or minRef) (es.map TEdge.discrete) = .ok none := by
    have : (es.map TEdge.discrete).mapM (fun e => e.frame.time) = .ok (es.map fun _ => none) := by
      rw [List.mapM_map]
      induction es with
      | nil => rfl
      | cons c es ih =>
        rw [List.mapM_cons, ih fun c hc => h c (by simp [hc])]
        have : (TEdge.frame (.discrete c)).time = .ok none := by
          simp only [TEdge.frame, TLcs.time, (h c (by simp)).2]
        simp only [Function.comp, this, bind, Except.bind, pure, Except.pure, List.map_cons]
    unfold timeUnion
    rw [this]
    have hf : (es.map fun _ => (none : Option Time)).filterMap id = [] := by
      induction es with
      | nil => rfl
      | cons c es ih => simp
    simp only [bind, Except.bind, hf]
  unfold getCsDefault
  rw [hu]
  simp only [bind, Except.bind]
  cases es with
  | nil => rfl
  | cons c es =>
    have hc : (TEdge.discrete c).noTime csmRef = .ok (.discrete c) := by
      unfold TEdge.noTime
      rw [show (TEdge.discrete c).dependent = false from (h c (by simp)).1]
      rfl
    simp only [getCsNoTime, List.map_cons, hc, bind, Except.bind]
    exact addNoTime_static S csmRef es c fun c hc => (h c (by simp [hc])).1

/-- **C62.** A query with a time finds a system that the query without a time reports as a `TypeError`. -/
theorem C62_no_time_counterexample (S : Slerp) : let e : TEdge := .expression ⟨none, none, .static 1, fun t => ![t, 0, 0]⟩ false
    (∃ s, getCs S (some 0) [e] ⟨true, [5], none⟩ none = .ok s) ∧ getCsNoTime S (some 0) [e] = .error .typeError := by
  refine ⟨⟨⟨none, none, .static 1, .static ![5, 0, 0]⟩, ?_⟩, ?_⟩
  · have h1 : (⟨true, [5], none⟩ : Time).ofTime (some 0) = .ok ⟨true, [5], some 0⟩ := by rfl
    have h2 : Time.sub ⟨true, [5], some 0⟩ ⟨true, [0], none⟩ = .ok ⟨false, [5], none⟩ := by rfl
    have h3 : (⟨false, [5], none⟩ : Time).ofTime none = .ok ⟨false, [5], none⟩ := by rfl
    simp only [getCs, Option.or, h1, bind, Except.bind, TEdge.onEdge, TEdge.onEdge.interpolated, TEdge.ref, h2, TEdge.interp,
      ELcs.interpTime, h3, ELcs.interpOrient, ELcs.frame, TLcs.time, ELcs.interpCoord, TEdge.turn, TEdge.rebuild]
    simp [Comp.isSeries, TLcs.dependent]
  · rw [C62_no_time_link]
    simp

/-- a system at rest behind a moving one that is given by an expression -/
example (S : Slerp) : ∃ x, getCsNoTime S none [.discrete ⟨none, none, .static 1, .static ![1, 0, 0]⟩,
    .expression ⟨none, none, .static 1, fun t => ![t, 0, 0]⟩ false] = .error x :=
  C62_no_time_path S none ⟨_, _, List.mem_cons_of_mem _ List.mem_cons_self⟩ (by simp)

end Weldx
