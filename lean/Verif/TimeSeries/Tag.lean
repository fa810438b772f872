import Verif.TimeSeries.Props
import Verif.Time.TagsProps

/-!
# Serialisation of time series (C67)

Source: `/repo/weldx/tags/core/time_series.py` 18-50; `/repo/weldx/core/time_series.py` 97-104 (`__eq__`), 322-342 (`time`,
`reference_time`).

Simplifications: as in `TimeSeries/Model.lean`; the expression itself and arrays survive serialisation. `scalar` tells that the values
of a series are numbers (the shape of a constant is `(1,)`), `keepNone` that the asdf library stores the entry `time: None`.
-/

namespace Weldx.TimeSeries
open TimeTags Ip
variable {V R : Type}

/-- what is stored -/
inductive TsTree (V R : Type)
  | value (v : V)
  | values (time : Option (TimeTree R × Option Int)) (vals : List V) (m : Method)
  | expression (f : Int → V)

/-- exceptions -/
inductive TagErr | time (e : TimeError) | tag (e : Err) | keyError

/-- the property `time` of a discrete series, `core/time_series.py` 322-334 -/
def timeOf (d : Discrete V) : Except TimeError (Option Time) :=
  if d.times.length > 1 then (Time.make false d.times d.ref).map some else .ok none

/-- `to_yaml_tree`, 18-34 -/
def toTree (names : List (List Char × Int)) (c : Cal R) (scalar : Bool) : TimeSeries V → Except TagErr (TsTree V R)
  | discrete d => match scalar, d.vals with
    | true, [v] => .ok (.value v)
    | _, _ => match timeOf d with
      | .error e => .error (.time e)
      | .ok none => .ok (.values none d.vals d.method)
      | .ok (some t) => match timeToTree names c t with
        | .error e => .error (.tag e)
        | .ok x => .ok (.values (some x) d.vals d.method)
  | expression f _ => .ok (.expression f)

/-- the constructor with its exceptions -/
def made (r : Except TimeError (Discrete V)) : Except TagErr (TimeSeries V) := match r with
  | .ok d => .ok (discrete d)
  | .error e => .error (.time e)

/-- `from_yaml_tree`, 36-47 -/
def fromTree (c : Cal R) (keepNone : Bool) : TsTree V R → Except TagErr (TimeSeries V)
  | .value v => made (create [v] none .step none)
  | .values none vals m => if keepNone then made (create vals none m none) else .error .keyError
  | .values (some x) vals m => match timeFromTree c x with
    | .error e => .error (.tag e)
    | .ok (.error e) => .error (.time e)
    | .ok (.ok t) => made (create vals (some t) m none)
  | .expression f => .ok (expression f none)

/-- `shape_from_tagged`, 49-54: the length along the time axis -/
def shapeOf : TsTree V R → Option ℕ
  | .value _ => some 1
  | .values _ l _ => some l.length
  | .expression _ => none

/-! ### Lemmas -/

theorem monotonic_go (l : List Int) (b : Bool) (a : Int) (h : (a :: l).Pairwise (· < ·)) :
    (l.foldl (fun (acc : Bool × Int) x => (acc.1 && decide (acc.2 ≤ x), x)) (b, a)).1 = b := by
  induction l generalizing b a with
  | nil => rfl
  | cons x t ih =>
    rw [List.foldl_cons, ih _ _ (List.pairwise_cons.1 h).2]
    have : a < x := (List.pairwise_cons.1 h).1 x (by simp)
    simp [this.le]

theorem monotonic_of_asc {l : List Int} (h : l.Pairwise (· < ·)) : Time.monotonic l = true := by
  cases l with
  | nil => rfl
  | cons a t => exact monotonic_go t true a h

theorem timeOf_eq {d : Discrete V} (h : d.WF) (hl : 1 < d.times.length) :
    timeOf d = .ok (some ⟨d.ref.isSome, d.clock, d.ref⟩) := by
  have hc := monotonic_of_asc (clock_asc h)
  unfold timeOf Time.make
  rw [if_pos hl]
  cases hr : d.ref with
  | none =>
    have : d.clock = d.times := by simp [Discrete.clock, hr]
    rw [this] at hc ⊢
    simp [hc, Except.map]
  | some r =>
    have : d.clock = d.times.map (· + r) := by simp [Discrete.clock, hr]
    rw [this] at hc ⊢
    simp [hc, Except.map]

theorem create_back {d : Discrete V} (h : d.WF) (hl : 1 < d.times.length) :
    create d.vals (some ⟨d.ref.isSome, d.clock, d.ref⟩) d.method none = .ok d := by
  have hc := monotonic_of_asc (clock_asc h)
  have hne : d.times.length = d.vals.length := h.len.symm
  obtain ⟨ts, r, vs, m⟩ := d
  simp only at hl hne
  unfold create
  simp only [Option.getD_some, Time.ofTime]
  cases r with
  | none =>
    have e : Discrete.clock ⟨ts, none, vs, m⟩ = ts := by simp [Discrete.clock]
    rw [e] at hc ⊢
    simp [Time.make, hc, Time.asTimedelta, Time.referenceTime, hne, setMethod, bind, Except.bind]
    omega
  | some r =>
    have e : Discrete.clock ⟨ts, some r, vs, m⟩ = ts.map (· + r) := by simp [Discrete.clock]
    rw [e] at hc ⊢
    have e2 : (ts.map (· + r)).map (· - r) = ts := by simp [List.map_map, Function.comp_def]
    simp [Time.make, hc, Time.asTimedelta, Time.referenceTime, setMethod, bind, Except.bind]
    have e3 : List.map ((fun x => x - r) ∘ fun x => x + r) ts = ts := by rw [← List.map_map]; exact e2
    rw [if_pos hne]
    simp
    refine ⟨?_, by omega⟩
    simp [Function.comp_def]

/-! ### Theorems -/

/-- C67: a time series with several values survives serialisation: values, points in time, reference time and interpolation method. Time
deltas with steps of whole weeks are excluded (see C66). -/
theorem C67_series (names : List (List Char × Int)) (hn : names = unitNs ∨ names = unitNsOld) (c : Cal R) (hc : c.Lawful)
    (scalar keepNone : Bool) (d : Discrete V) (h : d.WF) (hl : 1 < d.times.length)
    (hw : d.ref = none → ∀ x, delta? d.times = some x → x % week ≠ 0) :
    (toTree names c scalar (discrete d)).bind (fromTree c keepNone) = .ok (discrete d) := by
  have hv : 1 < d.vals.length := by rw [h.len]; exact hl
  have hto : toTree names c scalar (discrete d) = match timeToTree names c ⟨d.ref.isSome, d.clock, d.ref⟩ with
        | .error e => .error (.tag e)
        | .ok x => .ok (.values (some x) d.vals d.method) := by
    simp only [toTree, timeOf_eq h hl]
    cases hd : d.vals with
    | nil => rw [hd] at hv; simp at hv
    | cons a t =>
      cases t with
      | nil => rw [hd] at hv; simp at hv
      | cons b t => cases scalar <;> rfl
  have ht := C66_time names hn c hc ⟨d.ref.isSome, d.clock, d.ref⟩
    (by intro e; have := clock_len d; simp only at e; rw [e] at this; simp at this; omega)
    (monotonic_of_asc (clock_asc h)) (fun hh => hh)
    (by
      intro hr x hx
      have hr' : d.ref = none := by cases hq : d.ref <;> simp_all
      have e : d.clock = d.times := by simp [Discrete.clock, hr']
      simp only [e] at hx
      exact hw hr' x hx)
  rw [hto]
  cases hx : timeToTree names c ⟨d.ref.isSome, d.clock, d.ref⟩ with
  | error e => rw [hx] at ht; cases ht
  | ok x =>
    rw [hx] at ht
    simp only [Except.bind] at ht ⊢
    simp only [fromTree, ht, create_back h hl, made]

/-- C67: the shape for the validation is the one of the series. -/
theorem C67_shape (names : List (List Char × Int)) (c : Cal R) (scalar : Bool) (d : Discrete V) (x : TsTree V R)
    (h : toTree names c scalar (discrete d) = .ok x) : shapeOf x = some d.vals.length := by
  simp only [toTree] at h
  split at h
  · rename_i hv
    cases h
    simp [shapeOf, hv]
  · split at h
    · cases h
    · cases h; rfl
    · split at h
      · cases h
      · cases h; rfl

/-- C67: a constant keeps its value, but its time and its reference time are lost. -/
theorem C67_constant (names : List (List Char × Int)) (c : Cal R) (keepNone : Bool) (d : Discrete V) (v : V)
    (hv : d.vals = [v]) : (toTree names c true (discrete d)).bind (fromTree c keepNone) = .ok (discrete ⟨[0], none, [v], .step⟩) := by
  simp only [toTree, hv]
  rfl

/-- C67: therefore a constant survives exactly if it has no reference time and the default time. -/
theorem C67_constant_iff (names : List (List Char × Int)) (c : Cal R) (keepNone : Bool) (d : Discrete V) (h : d.WF)
    (hl : d.times.length = 1) :
    (toTree names c true (discrete d)).bind (fromTree c keepNone) = .ok (discrete d) ↔ d.ref = none ∧ d.times = [0] := by
  obtain ⟨v, hv⟩ := List.length_eq_one_iff.1 (h.len.trans hl)
  rw [C67_constant names c keepNone d v hv]
  obtain ⟨ts, r, vs, m⟩ := d
  have hm : m = .step := h.single hl
  simp only at hv
  subst hv hm
  constructor
  · intro h
    injection h with h
    injection h with h
    injection h with h1 h2
    exact ⟨h2.symm, h1.symm⟩
  · rintro ⟨rfl, rfl⟩
    rfl

/-- C67: a constant array can not be read, if the asdf library drops the missing time. -/
theorem C67_constant_array (names : List (List Char × Int)) (c : Cal R) (d : Discrete V) (hl : d.times.length = 1) :
    (toTree names c false (discrete d)).bind (fromTree c false) = .error .keyError := by
  have ht : timeOf d = .ok none := by unfold timeOf; rw [if_neg (by omega)]
  simp only [toTree, ht]
  rfl

/-- C67: an expression loses its reference time. -/
theorem C67_expression (names : List (List Char × Int)) (c : Cal R) (scalar keepNone : Bool) (f : Int → V) (r : Option Int) :
    (toTree names c scalar (expression f r)).bind (fromTree c keepNone) = .ok (expression f none) := rfl

/-- the hypotheses hold for a series with reference time -/
example : (current .linear).WF ∧ 1 < (current .linear).times.length ∧
    (toTree unitNs exCal true (discrete (current .linear))).bind (fromTree exCal false) = .ok (discrete (current .linear)) := by
  have hw : (current .linear).WF := ⟨by simp [current], by simp [current], by simp [current], by simp [current]⟩
  exact ⟨hw, by simp [current], C67_series unitNs (.inl rfl) exCal exCal_lawful true false _ hw (by simp [current]) (by simp [current])⟩

end Weldx.TimeSeries
