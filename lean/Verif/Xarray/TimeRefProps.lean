import Verif.Xarray.TimeRef
import Mathlib.Tactic.Common
import Mathlib.Tactic.Ring

/-!
# C82: changing the reference time keeps the absolute times

Specification: an array with a time coordinate of time stamps, or of time differences with a reference time, has absolute times
(`Abs`). The functions `time_ref_unset`, `time_ref_restore` and `reset_reference_time` return a new array with the same absolute times,
the same content and the same other attributes, and change nothing that existed before.
-/

namespace Weldx.TimeRef

variable {B X : Type}

/-! ### Specification -/

/-- the attribute dictionary of the time coordinate exists -/
def Valid (h : Heap X) (a : Arr B) : Prop := ∀ c, a.time = some c → c.attrs < h.dicts.length

/-- an attribute of the time coordinate -/
def HasAttr (h : Heap X) (a : Arr B) (k : String) (v : Attr X) : Prop :=
  ∃ c d, a.time = some c ∧ h.dicts[c.attrs]? = some d ∧ Dict.get? d k = some v

/-- the array has the reference time `r` -/
def Ref (h : Heap X) (a : Arr B) (r : ℤ) : Prop := HasAttr h a "time_ref" (.time r)

/-- the time coordinate has these values -/
def Times (a : Arr B) (k : Kind) (l : List ℤ) : Prop := ∃ c, a.time = some c ∧ c.kind = k ∧ c.vals = l

/-- the absolute times of an array -/
inductive Abs (h : Heap X) (a : Arr B) : List ℤ → Prop
  | stamps {l} : Times a .stamp l → Abs h a l
  | deltas {l r} : Times a .delta l → Ref h a r → Abs h a (l.map (r + ·))

/-- nothing that existed before has changed -/
def Untouched (h h' : Heap X) : Prop := ∀ i, i < h.dicts.length → h'.dicts[i]? = h.dicts[i]?

/-- the time coordinate has a dictionary that did not exist before -/
def Fresh (h : Heap X) (a : Arr B) : Prop := ∀ c, a.time = some c → h.dicts.length ≤ c.attrs

/-- all attributes of the time coordinate except the reference time agree -/
def SameOthers (h : Heap X) (a : Arr B) (h' : Heap X) (a' : Arr B) : Prop :=
  ∀ k v, k ≠ "time_ref" → (HasAttr h' a' k v ↔ HasAttr h a k v)

/-! ### Auxiliary: what an array shows -/

/-- kind, values and attributes of the time coordinate -/
def view (h : Heap X) (a : Arr B) : Option (Kind × List ℤ × Attrs X) := a.time.map fun c => (c.kind, c.vals, h.get c.attrs)

/-- the reference time in a dictionary -/
def refOf (d : Attrs X) : Option ℤ :=
  match Dict.get? d "time_ref" with
  | some (.time t) => some t
  | _ => none

theorem refOf_some {d : Attrs X} {r : ℤ} : refOf d = some r ↔ Dict.get? d "time_ref" = some (.time r) := by
  unfold refOf
  cases Dict.get? d "time_ref" with
  | none => simp
  | some v => cases v <;> simp

theorem refOf_set (d : Attrs X) (r : ℤ) : refOf (Dict.set d "time_ref" (.time r)) = some r := by
  rw [refOf_some, Dict.get?_set, if_pos rfl]

theorem timeRef_view (h : Heap X) (a : Arr B) : timeRef h a = (view h a).bind fun v => refOf v.2.2 := by
  unfold timeRef view
  cases a.time with
  | none => rfl
  | some c => rfl

theorem view_some {h : Heap X} {a : Arr B} {k l d} : view h a = some (k, l, d) ↔ ∃ c, a.time = some c ∧ c.kind = k ∧ c.vals = l ∧ h.get c.attrs = d := by
  unfold view
  cases a.time with
  | none => simp
  | some c => simp

theorem view_none {h : Heap X} {a : Arr B} : view h a = none ↔ a.time = none := by
  unfold view; simp

theorem hasAttr_view {h : Heap X} {a : Arr B} (hv : Valid h a) {k v} :
    HasAttr h a k v ↔ ∃ x, view h a = some x ∧ Dict.get? x.2.2 k = some v := by
  unfold HasAttr view
  cases ht : a.time with
  | none => simp
  | some c =>
    have := hv c ht
    simp [Heap.get, List.getElem?_eq_getElem this]

theorem times_view {h : Heap X} {a : Arr B} {k l} : Times a k l ↔ ∃ d, view h a = some (k, l, d) := by
  unfold Times view
  cases a.time with
  | none => simp
  | some c => simp [and_comm]

theorem ref_view {h : Heap X} {a : Arr B} (hv : Valid h a) {r} : Ref h a r ↔ timeRef h a = some r := by
  unfold Ref
  rw [hasAttr_view hv, timeRef_view]
  cases view h a with
  | none => simp
  | some x => simp [refOf_some]

theorem get_new (h : Heap X) (a : Attrs X) : (h.new a).1.get (h.new a).2 = a := by
  simp [Heap.new, Heap.get]

theorem get_setItem {h : Heap X} {i : ℕ} (hi : i < h.dicts.length) (k : String) (v : Attr X) :
    (h.setItem i k v).get i = Dict.set (h.get i) k v := by
  simp [Heap.setItem, Heap.get, hi]

theorem get_untouched {h h' : Heap X} (hu : Untouched h h') {i : ℕ} (hi : i < h.dicts.length) : h'.get i = h.get i := by
  simp only [Heap.get, hu i hi]

theorem Untouched.refl (h : Heap X) : Untouched h h := fun _ _ => rfl

theorem untouched_new (h : Heap X) (a : Attrs X) : Untouched h (h.new a).1 := fun i hi => by
  simp [Heap.new, List.getElem?_append_left hi]

theorem Untouched.trans {h h' h'' : Heap X} (p : Untouched h h') (hl : h.dicts.length ≤ h'.dicts.length) (q : Untouched h' h'') :
    Untouched h h'' := fun i hi => by rw [q i (by omega), p i hi]

theorem untouched_setItem (h : Heap X) {i n : ℕ} (hi : n ≤ i) (k : String) (v : Attr X) :
    ∀ j, j < n → (h.setItem i k v).dicts[j]? = h.dicts[j]? := fun j hj => by
  simp only [Heap.setItem]
  rw [List.getElem?_set_ne (by omega)]

/-- what a function guarantees that returns a new array: `v` is what the result shows -/
structure Post (h : Heap X) (a : Arr B) (h' : Heap X) (a' : Arr B) (v : Option (Kind × List ℤ × Attrs X)) : Prop where
  untouched : Untouched h h'
  len : h.dicts.length ≤ h'.dicts.length
  fresh : Fresh h a'
  valid : Valid h' a'
  body : a'.body = a.body
  view : view h' a' = v

theorem copy_post {h : Heap X} {a : Arr B} : Post h a (copy h a).1 (copy h a).2 (view h a) := by
  unfold copy
  cases ht : a.time with
  | none =>
    exact ⟨.refl h, le_rfl, fun c hc => by simp [ht] at hc, fun c hc => by simp [ht] at hc, rfl, rfl⟩
  | some c =>
    refine ⟨untouched_new _ _, by simp [Heap.new], ?_, ?_, rfl, ?_⟩
    · rintro _ ⟨⟩; simp [Heap.new]
    · rintro _ ⟨⟩; simp [Heap.new]
    · simp [view, ht, get_new]

theorem assign_post {h₀ h : Heap X} {a₀ a : Arr B} (hl : h₀.dicts.length ≤ h.dicts.length) (hu : Untouched h₀ h) (hb : a.body = a₀.body) (k : Kind)
    (vals : List ℤ) (i : ℕ) :
    Post h₀ a₀ (assign h a k vals i).1 (assign h a k vals i).2.1 (some (k, vals, h.get i)) := by
  unfold assign
  refine ⟨hu.trans hl (untouched_new _ _), by simp [Heap.new]; omega, ?_, ?_, hb, ?_⟩
  · rintro _ ⟨⟩; simpa [Heap.new] using hl
  · rintro _ ⟨⟩; simp [Heap.new]
  · simp [view, get_new]

theorem setItem_post {h₀ h : Heap X} {a₀ a : Arr B} {k l d} (p : Post h₀ a₀ h a (some (k, l, d))) {c : Coord} (hc : a.time = some c) (v : Attr X) :
    Post h₀ a₀ (h.setItem c.attrs "time_ref" v) a (some (k, l, Dict.set d "time_ref" v)) := by
  have hv := p.valid c hc
  refine ⟨?_, ?_, p.fresh, ?_, p.body, ?_⟩
  · intro i hi
    rw [untouched_setItem h (p.fresh c hc) _ _ i hi, p.untouched i hi]
  · simpa [Heap.setItem] using p.len
  · intro c' hc'
    simpa [Heap.setItem] using p.valid c' hc'
  · obtain ⟨c', hc', hk, hl, hd⟩ := view_some.1 p.view
    rw [hc] at hc'; cases hc'
    exact view_some.2 ⟨c, hc, hk, hl, by rw [get_setItem hv, hd]⟩

/-- what `time_ref_unset` shows -/
def unsetV : Option (Kind × List ℤ × Attrs X) → Option (Kind × List ℤ × Attrs X)
  | none => none
  | some (k, l, d) => match refOf d with
    | some r => if k = .delta then some (.stamp, l.map (· + r), d) else some (k, l, d)
    | none => some (k, l, d)

/-- what `time_ref_restore` shows -/
def restoreV : Option (Kind × List ℤ × Attrs X) → Except Err (Option (Kind × List ℤ × Attrs X))
  | none => .ok none
  | some (k, l, d) =>
    if k = .stamp then
      match (refOf d).or l.head? with
      | none => .error .indexError
      | some r => .ok (some (.delta, l.map (· - r), Dict.set d "time_ref" (.time r)))
    else .ok (some (k, l, d))

/-- what the setter shows -/
def setRefV (v : Option (Kind × List ℤ × Attrs X)) (t : ℤ) : Option (Kind × List ℤ × Attrs X) :=
  match v with
  | none => none
  | some (k, l, d) => match refOf d with
    | some r =>
      if k = .delta then if t = r then some (k, l, d) else some (.delta, l.map (· - (t - r)), Dict.set d "time_ref" (.time t))
      else some (k, l, Dict.set d "time_ref" (.time t))
    | none => some (k, l, Dict.set d "time_ref" (.time t))

theorem unset_post {h : Heap X} {a : Arr B} (hv : Valid h a) : Post h a (unset h a).1 (unset h a).2 (unsetV (view h a)) := by
  have p := copy_post (h := h) (a := a)
  unfold unset
  generalize hc : copy h a = x at p
  obtain ⟨h', a'⟩ := x
  simp only at p ⊢
  cases ht : a.time with
  | none =>
    rw [view_none.2 ht] at p ⊢
    have := view_none.1 p.view
    rw [this]
    simpa [unsetV] using p
  | some c =>
    have hw : view h a = some (c.kind, c.vals, h.get c.attrs) := view_some.2 ⟨c, ht, rfl, rfl, rfl⟩
    rw [hw] at p ⊢
    obtain ⟨c', ht', hk, hl, hd⟩ := view_some.1 p.view
    have hr : timeRef h' a' = refOf (h.get c.attrs) := by rw [timeRef_view, p.view]; rfl
    rw [hr, ht']
    simp only [unsetV]
    cases hq : refOf (h.get c.attrs) with
    | none => simpa [hq] using p
    | some r =>
      simp only [hk]
      by_cases hkd : c.kind = .delta
      · rw [if_pos hkd, if_pos hkd]
        have q := assign_post (a₀ := a) p.len p.untouched p.body .stamp (c'.vals.map (· + r)) c.attrs
        rw [get_untouched p.untouched (hv c ht), hl] at q
        rw [hl]
        exact q
      · rw [if_neg hkd, if_neg hkd]; exact p

theorem restore_post {h : Heap X} {a : Arr B} (hv : Valid h a) :
    match restoreV (view h a) with
    | .error e => restore h a = .error e
    | .ok v => ∃ h' a', restore h a = .ok (h', a') ∧ Post h a h' a' v := by
  have p := copy_post (h := h) (a := a)
  unfold restore
  generalize hc : copy h a = x at p
  obtain ⟨h', a'⟩ := x
  simp only at p ⊢
  cases ht : a.time with
  | none =>
    rw [view_none.2 ht] at p ⊢
    have := view_none.1 p.view
    rw [this]
    exact ⟨h', a', rfl, p⟩
  | some c =>
    have hw : view h a = some (c.kind, c.vals, h.get c.attrs) := view_some.2 ⟨c, ht, rfl, rfl, rfl⟩
    rw [hw] at p ⊢
    obtain ⟨c', ht', hk, hl, hd⟩ := view_some.1 p.view
    have hr : timeRef h' a' = refOf (h.get c.attrs) := by rw [timeRef_view, p.view]; rfl
    rw [hr, ht']
    simp only [restoreV, hk, hl]
    by_cases hkd : c.kind = .stamp
    · rw [if_pos hkd, if_pos hkd]
      cases hq : (refOf (h.get c.attrs)).or c.vals.head? with
      | none => rfl
      | some r =>
        have q := assign_post (a₀ := a) p.len p.untouched p.body .delta (c.vals.map (· - r)) c.attrs
        rw [get_untouched p.untouched (hv c ht)] at q
        have s := setItem_post q rfl (.time r)
        exact ⟨_, _, rfl, s⟩
    · rw [if_neg hkd, if_neg hkd]; exact ⟨_, _, rfl, p⟩

/-- the setter on an array with a dictionary of its own -/
theorem setRef_post {h₀ h : Heap X} {a₀ a : Arr B} {v : Option (Kind × List ℤ × Attrs X)} (p : Post h₀ a₀ h a v) (t : ℤ) :
    ∃ h' a', setRef h a (.stamp t) = .ok (h', a') ∧ Post h₀ a₀ h' a' (setRefV v t) := by
  unfold setRef
  cases ht : a.time with
  | none =>
    have : v = none := by rw [← p.view]; exact view_none.2 ht
    subst this
    exact ⟨h, a, rfl, p⟩
  | some c =>
    have hw : view h a = some (c.kind, c.vals, h.get c.attrs) := view_some.2 ⟨c, ht, rfl, rfl, rfl⟩
    have hv : v = some (c.kind, c.vals, h.get c.attrs) := by rw [← p.view, hw]
    subst hv
    have hr : timeRef h a = refOf (h.get c.attrs) := by rw [timeRef_view, hw]; rfl
    simp only [hr, setRefV]
    cases hq : refOf (h.get c.attrs) with
    | none => exact ⟨_, _, rfl, setItem_post p ht _⟩
    | some r =>
      simp only
      by_cases hkd : c.kind = .delta
      · rw [if_pos hkd, if_pos hkd]
        by_cases htr : t = r
        · rw [if_pos htr, if_pos htr]; exact ⟨_, _, rfl, p⟩
        · rw [if_neg htr, if_neg htr]
          have q := assign_post (a₀ := a₀) p.len p.untouched p.body .delta (c.vals.map (· - (t - r))) c.attrs
          exact ⟨_, _, rfl, setItem_post q rfl (.time t)⟩
      · rw [if_neg hkd, if_neg hkd]; exact ⟨_, _, rfl, setItem_post p ht _⟩

/-- the absolute times of what an array shows -/
def absV : Option (Kind × List ℤ × Attrs X) → Option (List ℤ)
  | some (.stamp, l, _) => some l
  | some (.delta, l, d) => (refOf d).map fun r => l.map (r + ·)
  | _ => none

theorem abs_view {h : Heap X} {a : Arr B} (hv : Valid h a) {l : List ℤ} : Abs h a l ↔ absV (view h a) = some l := by
  constructor
  · rintro (⟨ht⟩ | @⟨_, r, ht, hr⟩)
    · obtain ⟨d, hd⟩ := (times_view (h := h)).1 ht
      rw [hd]; rfl
    · obtain ⟨d, hd⟩ := (times_view (h := h)).1 ht
      have : refOf d = some r := by
        have := (ref_view hv).1 hr
        rwa [timeRef_view, hd] at this
      rw [hd]; simp [absV, this]
  · intro hl
    cases hw : view h a with
    | none => simp [hw, absV] at hl
    | some x =>
      obtain ⟨k, m, d⟩ := x
      rw [hw] at hl
      cases k with
      | num => simp [absV] at hl
      | stamp =>
        simp only [absV, Option.some.injEq] at hl
        subst hl
        exact .stamps (times_view.2 ⟨d, hw⟩)
      | delta =>
        simp only [absV, Option.map_eq_some_iff] at hl
        obtain ⟨r, hr, rfl⟩ := hl
        refine .deltas (times_view.2 ⟨d, hw⟩) ((ref_view hv).2 ?_)
        rw [timeRef_view, hw]; exact hr

theorem hasAttr_of_view {h h' : Heap X} {a a' : Arr B} (hv : Valid h a) (hv' : Valid h' a')
    (e : (view h a).map (·.2.2) = (view h' a').map (·.2.2)) (k : String) (v : Attr X) : HasAttr h' a' k v ↔ HasAttr h a k v := by
  rw [hasAttr_view hv, hasAttr_view hv']
  cases hx : view h a <;> cases hy : view h' a' <;> simp_all

theorem sameOthers_set {h h' : Heap X} {a a' : Arr B} (hv : Valid h a) (hv' : Valid h' a') {r : ℤ}
    (e : (view h a).map (fun x => Dict.set x.2.2 "time_ref" (.time r)) = (view h' a').map (·.2.2)) : SameOthers h a h' a' := by
  intro k v hk
  rw [hasAttr_view hv, hasAttr_view hv']
  cases hx : view h a with
  | none => cases hy : view h' a' <;> simp_all
  | some x =>
    cases hy : view h' a' with
    | none => simp_all
    | some y =>
      simp only [hx, hy, Option.map_some, Option.some.injEq] at e
      simp [← e, Dict.get?_set, hk]

/-! ### `time_ref_unset` -/

/-- **C82** (`time_ref_unset`, receiver): the array and all existing attribute dictionaries are unchanged, the result has an own
dictionary with the same attributes and the same content. -/
theorem C82_unset_new {h : Heap X} {a : Arr B} (hv : Valid h a) {h' a'} (e : unset h a = (h', a')) :
    Untouched h h' ∧ Fresh h a' ∧ Valid h' a' ∧ a'.body = a.body ∧ ∀ k v, HasAttr h' a' k v ↔ HasAttr h a k v := by
  have p := unset_post hv
  rw [e] at p
  refine ⟨p.untouched, p.fresh, p.valid, p.body, hasAttr_of_view hv p.valid ?_⟩
  rw [p.view]
  cases view h a with
  | none => rfl
  | some x =>
    obtain ⟨k, l, d⟩ := x
    simp only [unsetV]
    cases refOf d with
    | none => rfl
    | some r => by_cases hk : k = .delta <;> simp [hk]

/-- **C82** (`time_ref_unset`, times): the absolute times are kept, and if there are any, the result stores them as time stamps. -/
theorem C82_unset_times {h : Heap X} {a : Arr B} (hv : Valid h a) {h' a'} (e : unset h a = (h', a')) (l : List ℤ) :
    (Abs h' a' l ↔ Abs h a l) ∧ (Abs h a l → Times a' .stamp l) := by
  have p := unset_post hv
  rw [e] at p
  rw [abs_view hv, abs_view p.valid, times_view (h := h'), p.view]
  cases view h a with
  | none => simp [unsetV, absV]
  | some x =>
    obtain ⟨k, m, d⟩ := x
    cases hr : refOf d with
    | none => cases k <;> simp [unsetV, absV, hr]
    | some r =>
      cases k <;> simp [unsetV, absV, hr, Int.add_comm]

/-- **C82** (`time_ref_unset`, no reference time): the values are kept as they are, whatever they are. -/
theorem C82_unset_no_ref {h : Heap X} {a : Arr B} (hv : Valid h a) {h' a'} (e : unset h a = (h', a')) (hn : ∀ r, ¬ Ref h a r) (k : Kind)
    (l : List ℤ) : Times a' k l ↔ Times a k l := by
  have p := unset_post hv
  rw [e] at p
  have hn' : timeRef h a = none := by
    cases ht : timeRef h a with
    | none => rfl
    | some r => exact absurd ((ref_view hv).2 ht) (hn r)
  rw [times_view (h := h'), times_view (h := h), p.view]
  rw [timeRef_view] at hn'
  cases hw : view h a with
  | none => simp [unsetV]
  | some x =>
    obtain ⟨k', m, d⟩ := x
    rw [hw] at hn'
    have : refOf d = none := hn'
    simp [unsetV, this]

/-! ### `time_ref_restore` -/

/-- **C82** (`time_ref_restore`, failure): only for a time coordinate without any value and without reference time, with time stamps as
type. -/
theorem C82_restore_fails {h : Heap X} {a : Arr B} (hv : Valid h a) (x : Err) :
    restore h a = .error x ↔ x = .indexError ∧ Times a .stamp [] ∧ ∀ r, ¬ Ref h a r := by
  have p := restore_post hv
  have hr : (∀ r, ¬ Ref h a r) ↔ timeRef h a = none := by
    constructor
    · intro hn
      cases ht : timeRef h a with
      | none => rfl
      | some r => exact absurd ((ref_view hv).2 ht) (hn r)
    · intro hn r hr
      have := (ref_view hv).1 hr
      simp [hn] at this
  rw [hr, times_view (h := h), timeRef_view]
  cases hw : view h a with
  | none =>
    rw [hw] at p
    obtain ⟨h', a', hok, -⟩ := p
    simp [hok]
  | some y =>
    obtain ⟨k, l, d⟩ := y
    rw [hw] at p
    simp only [restoreV] at p
    by_cases hk : k = .stamp
    · rw [if_pos hk] at p
      subst hk
      cases hq : refOf d with
      | some r =>
        rw [hq] at p
        obtain ⟨h', a', hok, -⟩ := p
        simp [hok, hq]
      | none =>
        rw [hq] at p
        cases l with
        | nil =>
          rw [show restore h a = .error .indexError from p]
          simp [hq, eq_comm]
        | cons b t =>
          obtain ⟨h', a', hok, -⟩ := p
          simp [hok]
    · rw [if_neg hk] at p
      obtain ⟨h', a', hok, -⟩ := p
      simp [hok, hk]

/-- **C82** (`time_ref_restore`, receiver): nothing that existed is changed, the result has the same content and the same attributes
except perhaps the reference time. -/
theorem C82_restore_new {h : Heap X} {a : Arr B} (hv : Valid h a) {h' a'} (e : restore h a = .ok (h', a')) :
    Untouched h h' ∧ Fresh h a' ∧ Valid h' a' ∧ a'.body = a.body ∧ SameOthers h a h' a' := by
  have p := restore_post hv
  cases hw : restoreV (view h a) with
  | error x => rw [hw] at p; rw [show restore h a = .error x from p] at e; cases e
  | ok v =>
    rw [hw] at p
    obtain ⟨h₁, a₁, e₁, p⟩ := p
    rw [e] at e₁; cases e₁
    refine ⟨p.untouched, p.fresh, p.valid, p.body, ?_⟩
    cases hx : view h a with
    | none =>
      rw [hx] at hw; cases hw
      intro k v _
      exact hasAttr_of_view hv p.valid (by rw [p.view, hx]) k v
    | some y =>
      obtain ⟨k, l, d⟩ := y
      rw [hx] at hw
      simp only [restoreV] at hw
      by_cases hk : k = .stamp
      · rw [if_pos hk] at hw
        cases hq : (refOf d).or l.head? with
        | none => rw [hq] at hw; cases hw
        | some r =>
          rw [hq] at hw; cases hw
          exact sameOthers_set (r := r) hv p.valid (by rw [p.view, hx]; rfl)
      · rw [if_neg hk] at hw; cases hw
        intro k v _
        exact hasAttr_of_view hv p.valid (by rw [p.view, hx]) k v

/-- **C82** (`time_ref_restore`, times): the absolute times are kept; if there are any, the result has time differences and a reference
time. An existing reference time is kept, otherwise the first time is the reference. -/
theorem C82_restore_times {h : Heap X} {a : Arr B} (hv : Valid h a) {h' a'} (e : restore h a = .ok (h', a')) (l : List ℤ) :
    (Abs h' a' l ↔ Abs h a l) ∧
    (Abs h a l → ∃ r m, Times a' .delta m ∧ Ref h' a' r ∧ l = m.map (r + ·) ∧
      ((∃ r', Ref h a r') → Ref h a r) ∧ ((¬ ∃ r', Ref h a r') → l.head? = some r ∧ m.head? = some 0)) := by
  have p := restore_post hv
  cases hw : restoreV (view h a) with
  | error x => rw [hw] at p; rw [show restore h a = .error x from p] at e; cases e
  | ok v =>
    rw [hw] at p
    obtain ⟨h₁, a₁, e₁, p⟩ := p
    rw [e] at e₁; cases e₁
    simp only [abs_view hv, abs_view p.valid, times_view (h := h'), ref_view hv, ref_view p.valid, timeRef_view, p.view]
    cases hx : view h a with
    | none => rw [hx] at hw; cases hw; simp [absV]
    | some y =>
      obtain ⟨k, m, d⟩ := y
      rw [hx] at hw
      cases k with
      | num => cases hw; simp [absV]
      | delta =>
        cases hw
        cases hr : refOf d with
        | none => simp [absV, hr]
        | some r =>
          simp only [absV, hr, Option.map_some, Option.some.injEq, Option.bind_some, true_and]
          rintro rfl
          exact ⟨r, m, ⟨_, rfl⟩, rfl, rfl, fun _ => rfl, fun h => absurd ⟨r, rfl⟩ h⟩
      | stamp =>
        simp only [restoreV, if_true] at hw
        have key : ∀ (r : ℤ) (m : List ℤ), (m.map (· - r)).map (r + ·) = m := by
          intro r m
          rw [List.map_map]
          conv_rhs => rw [← List.map_id m]
          exact List.map_congr_left fun x _ => by simp
        cases hr : refOf d with
        | some r =>
          rw [hr] at hw; cases hw
          simp only [absV, refOf_set, Option.map_some, key, Option.some.injEq, Option.bind_some, hr, true_and]
          rintro rfl
          exact ⟨r, _, ⟨_, rfl⟩, rfl, (key r m).symm, fun _ => rfl, fun h => absurd ⟨r, rfl⟩ h⟩
        | none =>
          rw [hr] at hw
          cases m with
          | nil => cases hw
          | cons b t =>
            cases hw
            simp only [absV, refOf_set, Option.map_some, key, Option.some.injEq, Option.bind_some, hr, true_and]
            rintro rfl
            exact ⟨b, _, ⟨_, rfl⟩, rfl, (key b (b :: t)).symm, by rintro ⟨_, ⟨⟩⟩, fun _ => ⟨rfl, by simp⟩⟩

/-! ### Both -/

theorem map_sub_add (r : ℤ) (m : List ℤ) : (m.map (· + r)).map (· - r) = m := by
  rw [List.map_map]
  conv_rhs => rw [← List.map_id m]
  exact List.map_congr_left fun x _ => by simp

theorem map_add_sub (r : ℤ) (m : List ℤ) : (m.map (· - r)).map (· + r) = m := by
  rw [List.map_map]
  conv_rhs => rw [← List.map_id m]
  exact List.map_congr_left fun x _ => by simp

/-- **C82** (there and back): time differences with a reference time are the same after conversion to time stamps and back, and so are
all attributes. -/
theorem C82_restore_unset {h : Heap X} {a : Arr B} (hv : Valid h a) {l r} (ht : Times a .delta l) (hr : Ref h a r) {h' a'}
    (e : unset h a = (h', a')) :
    ∃ h'' a'', restore h' a' = .ok (h'', a'') ∧ Times a'' .delta l ∧ a''.body = a.body ∧ ∀ k v, HasAttr h'' a'' k v ↔ HasAttr h a k v := by
  have p := unset_post hv
  rw [e] at p
  obtain ⟨d, hd⟩ := (times_view (h := h)).1 ht
  have hrd : refOf d = some r := by
    have := (ref_view hv).1 hr
    rwa [timeRef_view, hd] at this
  have hw : view h' a' = some (.stamp, l.map (· + r), d) := by rw [p.view, hd]; simp [unsetV, hrd]
  have q := restore_post p.valid
  rw [hw] at q
  simp only [restoreV, if_true, hrd, Option.some_or] at q
  obtain ⟨h'', a'', e', q⟩ := q
  refine ⟨h'', a'', e', times_view.2 ⟨_, by rw [q.view, map_sub_add]⟩, by rw [q.body, p.body], fun k v => ?_⟩
  rw [hasAttr_view q.valid, hasAttr_view hv, q.view, hd]
  simp only [Option.some.injEq, exists_eq_left', Dict.get?_set]
  by_cases hk : k = "time_ref"
  · rw [if_pos hk, hk, refOf_some.1 hrd]
  · rw [if_neg hk]

/-- **C82** (back and there): time stamps are the same after conversion to time differences and back. -/
theorem C82_unset_restore {h : Heap X} {a : Arr B} (hv : Valid h a) {l} (ht : Times a .stamp l) {h' a'} (e : restore h a = .ok (h', a'))
    {h'' a''} (e' : unset h' a' = (h'', a'')) : Times a'' .stamp l ∧ a''.body = a.body ∧ SameOthers h a h'' a'' := by
  obtain ⟨-, -, hv', hb, ho⟩ := C82_restore_new hv e
  obtain ⟨-, -, -, hb', ho'⟩ := C82_unset_new hv' e'
  refine ⟨(C82_unset_times hv' e' l).2 (((C82_restore_times hv e l).1).2 (.stamps ht)), by rw [hb', hb], fun k v hk => ?_⟩
  rw [ho' k v, ho k v hk]

/-! ### The setter -/

/-- **C82** (setter): the array has the new reference time, absolute times that were given by a reference time are kept, time stamps are
kept, and differences without a reference are kept and get the new reference. Content and other attributes are unchanged. -/
theorem C82_setter {h : Heap X} {a : Arr B} (hv : Valid h a) (t : ℤ) :
    ∃ h' a', setRef h a (.stamp t) = .ok (h', a') ∧ Valid h' a' ∧ a'.body = a.body ∧ SameOthers h a h' a' ∧
      (a.time.isSome → Ref h' a' t) ∧ (∀ l, Abs h a l → Abs h' a' l) ∧ (∀ k l, Times a k l → ∃ m, Times a' k m) ∧
      (∀ k l, Times a k l → (∀ r, ¬ Ref h a r) → Times a' k l) := by
  have p₀ : Post (⟨[]⟩ : Heap X) a h a (view h a) :=
    ⟨fun i hi => by simp at hi, by simp, fun c _ => by simp, hv, rfl, rfl⟩
  obtain ⟨h', a', e, p⟩ := setRef_post p₀ t
  refine ⟨h', a', e, p.valid, p.body, ?_⟩
  cases hx : view h a with
  | none =>
    have hn := view_none.1 hx
    have pv := p.view
    rw [hx] at pv
    refine ⟨fun k v _ => hasAttr_of_view hv p.valid (by rw [pv, hx]; rfl) k v, by simp [hn], ?_, ?_, ?_⟩
    · intro l hl
      rw [abs_view hv, hx] at hl
      simp [absV] at hl
    · rintro k l ⟨c, hc, -⟩; simp [hn] at hc
    · rintro k l ⟨c, hc, -⟩; simp [hn] at hc
  | some x =>
    obtain ⟨k, l, d⟩ := x
    have pv := p.view
    rw [hx] at pv
    have huniq : ∀ k' l', Times a k' l' → k' = k ∧ l' = l := by
      intro k' l' ht
      obtain ⟨d', hd'⟩ := (times_view (h := h)).1 ht
      rw [hx] at hd'; cases hd'; exact ⟨rfl, rfl⟩
    have hset : ∀ m, view h' a' = some (k, m, Dict.set d "time_ref" (.time t)) → Ref h' a' t ∧ SameOthers h a h' a' := by
      intro m hm
      refine ⟨(ref_view p.valid).2 (by rw [timeRef_view, hm]; exact refOf_set d t), sameOthers_set (r := t) hv p.valid ?_⟩
      rw [hm, hx]; rfl
    cases hr : refOf d with
    | none =>
      have hm : view h' a' = some (k, l, Dict.set d "time_ref" (.time t)) := by rw [pv]; simp [setRefV, hr]
      refine ⟨(hset l hm).2, fun _ => (hset l hm).1, ?_, ?_, ?_⟩
      · intro m hl
        rw [abs_view hv, hx] at hl
        rw [abs_view p.valid, hm]
        cases k <;> simp_all [absV]
      · intro k' l' ht
        obtain ⟨rfl, rfl⟩ := huniq _ _ ht
        exact ⟨l', times_view.2 ⟨_, hm⟩⟩
      · intro k' l' ht _
        obtain ⟨rfl, rfl⟩ := huniq _ _ ht
        exact times_view.2 ⟨_, hm⟩
    | some r =>
      have hrr : Ref h a r := (ref_view hv).2 (by rw [timeRef_view, hx]; exact hr)
      by_cases hk : k = .delta
      · subst hk
        by_cases htr : t = r
        · have hm : view h' a' = some (.delta, l, d) := by rw [pv]; simp [setRefV, hr, htr]
          refine ⟨fun k v _ => hasAttr_of_view hv p.valid (by rw [hm, hx]) k v, fun _ => ?_, ?_, ?_, ?_⟩
          · exact (ref_view p.valid).2 (by rw [timeRef_view, hm, htr]; exact hr)
          · intro m hl
            rw [abs_view p.valid, hm]
            rwa [abs_view hv, hx] at hl
          · intro k' l' ht
            obtain ⟨rfl, rfl⟩ := huniq _ _ ht
            exact ⟨l', times_view.2 ⟨_, hm⟩⟩
          · intro k' l' ht hn
            exact absurd hrr (hn r)
        · have hm : view h' a' = some (.delta, l.map (· - (t - r)), Dict.set d "time_ref" (.time t)) := by
            rw [pv]; simp [setRefV, hr, htr]
          refine ⟨(hset _ hm).2, fun _ => (hset _ hm).1, ?_, ?_, ?_⟩
          · intro m hl
            rw [abs_view hv, hx] at hl
            rw [abs_view p.valid, hm]
            simp only [absV, hr, refOf_set, Option.map_some, Option.some.injEq, List.map_map] at hl ⊢
            rw [← hl]
            exact List.map_congr_left fun x _ => by simp; ring
          · intro k' l' ht
            obtain ⟨rfl, rfl⟩ := huniq _ _ ht
            exact ⟨_, times_view.2 ⟨_, hm⟩⟩
          · intro k' l' ht hn
            exact absurd hrr (hn r)
      · have hm : view h' a' = some (k, l, Dict.set d "time_ref" (.time t)) := by rw [pv]; simp [setRefV, hr, hk]
        refine ⟨(hset _ hm).2, fun _ => (hset _ hm).1, ?_, ?_, ?_⟩
        · intro m hl
          rw [abs_view hv, hx] at hl
          rw [abs_view p.valid, hm]
          cases k <;> simp_all [absV]
        · intro k' l' ht
          obtain ⟨rfl, rfl⟩ := huniq _ _ ht
          exact ⟨_, times_view.2 ⟨_, hm⟩⟩
        · intro k' l' ht hn
          exact absurd hrr (hn r)

/-- **C82** (setter, what is changed): only the attribute dictionary of the time coordinate of this array; arrays with other
dictionaries do not change. Without a time coordinate nothing happens. -/
theorem C82_setter_frame {h : Heap X} {a : Arr B} {v h' a'} (e : setRef h a v = .ok (h', a')) (i : ℕ) (hi : i < h.dicts.length)
    (hc : ∀ c, a.time = some c → i ≠ c.attrs) : h'.dicts[i]? = h.dicts[i]? := by
  unfold setRef at e
  cases v with
  | none => simp at e
  | other =>
    cases ht : a.time with
    | none => simp only [ht] at e; cases e; rfl
    | some c => simp [ht] at e
  | stamp t =>
    cases ht : a.time with
    | none => simp only [ht] at e; cases e; rfl
    | some c =>
      simp only [ht] at e
      have hne := hc c ht
      have hs : (h.setItem c.attrs "time_ref" (.time t)).dicts[i]? = h.dicts[i]? := by
        simp only [Heap.setItem]
        rw [List.getElem?_set_ne (fun e => hne e.symm)]
      cases hr : timeRef h a with
      | none => rw [hr] at e; cases e; exact hs
      | some r =>
        rw [hr] at e
        simp only at e
        by_cases hk : c.kind = .delta
        · rw [if_pos hk] at e
          by_cases htr : t = r
          · rw [if_pos htr] at e; cases e; rfl
          · rw [if_neg htr] at e
            cases e
            rw [untouched_setItem (n := h.dicts.length) _ (by simp [assign, Heap.new]) _ _ i hi]
            exact untouched_new _ _ i hi
        · rw [if_neg hk] at e; cases e; exact hs

/-- **C82** (setter, wrong values): `None` is always rejected, other things that are no time stamp only if there is a time coordinate. -/
theorem C82_setter_rejects (h : Heap X) (a : Arr B) :
    setRef h a .none = .error .typeError ∧ (a.time.isSome → setRef h a .other = .error .typeError) ∧
      (a.time = none → ∀ v, v ≠ .none → setRef h a v = .ok (h, a)) := by
  refine ⟨rfl, fun ht => ?_, fun ht v hv => ?_⟩
  · obtain ⟨c, hc⟩ := Option.isSome_iff_exists.1 ht
    simp [setRef, hc]
  · cases v with
    | none => exact absurd rfl hv
    | other => simp [setRef, ht]
    | stamp t => simp [setRef, ht]

/-! ### `reset_reference_time` -/

/-- **C82** (`reset_reference_time`, failure) -/
theorem C82_reset_fails {h : Heap X} {a : Arr B} (hv : Valid h a) (t : ℤ) (x : Err) :
    reset h a (.stamp t) = .error x ↔ x = .indexError ∧ Times a .stamp [] ∧ ∀ r, ¬ Ref h a r := by
  have p := copy_post (h := h) (a := a)
  have hf := C82_restore_fails p.valid x
  have hvw : view (copy h a).1 (copy h a).2 = view h a := p.view
  have e₁ : Times (copy h a).2 .stamp [] ↔ Times a .stamp [] := by
    rw [times_view (h := (copy h a).1), times_view (h := h), hvw]
  have e₂ : (∀ r, ¬ Ref (copy h a).1 (copy h a).2 r) ↔ ∀ r, ¬ Ref h a r := by
    simp only [ref_view hv, ref_view p.valid, timeRef_view, hvw]
  rw [e₁, e₂] at hf
  rw [← hf]
  simp only [reset]
  cases hr : restore (copy h a).1 (copy h a).2 with
  | error y => simp
  | ok y =>
    obtain ⟨h', a'⟩ := y
    obtain ⟨h'', a'', e, -⟩ := C82_setter (C82_restore_new p.valid hr).2.2.1 t
    simp [e]

/-- **C82** (`reset_reference_time`): a new array with the same content and the same other attributes. If there is a time coordinate, it
has the new reference time. Absolute times are kept, and the result has the differences to the new reference time. -/
theorem C82_reset {h : Heap X} {a : Arr B} (hv : Valid h a) {t : ℤ} {h' a'} (e : reset h a (.stamp t) = .ok (h', a')) :
    Untouched h h' ∧ Fresh h a' ∧ Valid h' a' ∧ a'.body = a.body ∧ SameOthers h a h' a' ∧ (a.time.isSome → Ref h' a' t) ∧
      (∀ l, Abs h a l → Abs h' a' l ∧ Times a' .delta (l.map (· - t))) ∧
      (∀ k l, k ≠ .stamp → Times a k l → (∀ r, ¬ Ref h a r) → Times a' k l) := by
  have p := copy_post (h := h) (a := a)
  simp only [reset] at e
  cases hr : restore (copy h a).1 (copy h a).2 with
  | error y => rw [hr] at e; cases e
  | ok y =>
    obtain ⟨h₁, a₁⟩ := y
    rw [hr] at e
    obtain ⟨hu₁, hf₁, hv₁, hb₁, ho₁⟩ := C82_restore_new p.valid hr
    have ht₁ := C82_restore_times p.valid hr
    have rp := restore_post p.valid
    have hab : ∀ l, Abs (copy h a).1 (copy h a).2 l ↔ Abs h a l := fun l => by
      rw [abs_view hv, abs_view p.valid, p.view]
    cases hw : restoreV (view (copy h a).1 (copy h a).2) with
    | error x => rw [hw] at rp; rw [show restore _ _ = .error x from rp] at hr; cases hr
    | ok v =>
      rw [hw] at rp
      obtain ⟨h₂, a₂, e₂, q⟩ := rp
      rw [hr] at e₂; cases e₂
      have q' : Post h a h₁ a₁ v :=
        ⟨p.untouched.trans p.len q.untouched, p.len.trans q.len, fun c hc => p.len.trans (q.fresh c hc), q.valid, by rw [q.body, p.body], q.view⟩
      obtain ⟨h₂, a₂, e₂, s⟩ := setRef_post q' t
      obtain ⟨h₃, a₃, e₃, -, -, ho, hrf, habs, hk, hn⟩ := C82_setter hv₁ t
      rw [show setRef h₁ a₁ (.stamp t) = .ok (h', a') from e] at e₂ e₃
      cases e₂; cases e₃
      have htime : a.time.isSome → a₁.time.isSome := by
        intro hs
        cases ha₁ : a₁.time with
        | some c => rfl
        | none =>
          exfalso
          have hv0 : v = none := by rw [← q.view]; exact view_none.2 ha₁
          subst hv0
          obtain ⟨c, hc⟩ := Option.isSome_iff_exists.1 hs
          have hvw : view h a = some (c.kind, c.vals, h.get c.attrs) := view_some.2 ⟨c, hc, rfl, rfl, rfl⟩
          rw [p.view, hvw] at hw
          simp only [restoreV] at hw
          split at hw
          · split at hw <;> simp at hw
          · simp at hw
      refine ⟨s.untouched, s.fresh, s.valid, s.body, ?_, fun hs => hrf (htime hs), ?_, ?_⟩
      · intro k v hkv
        rw [ho k v hkv, ho₁ k v hkv]
        exact hasAttr_of_view hv p.valid (by rw [p.view]) k v
      · intro l hl
        have hl₁ := (ht₁ l).1.2 ((hab l).2 hl)
        obtain ⟨r, m, hm, hr', -⟩ := (ht₁ l).2 ((hab l).2 hl)
        have hl' := habs l hl₁
        refine ⟨hl', ?_⟩
        obtain ⟨m', hm'⟩ := hk _ _ hm
        have hsome : a.time.isSome := by
          cases hl with
          | stamps ht => obtain ⟨c, hc, -⟩ := ht; simp [hc]
          | deltas ht _ => obtain ⟨c, hc, -⟩ := ht; simp [hc]
        have hrt := hrf (htime hsome)
        have hl'' : Abs h' a' (m'.map (t + ·)) := .deltas hm' hrt
        have heq : l = m'.map (t + ·) := by
          rw [abs_view s.valid] at hl' hl''
          rw [hl'] at hl''
          exact Option.some.inj hl''
        rw [heq, List.map_map]
        have : m'.map ((· - t) ∘ (t + ·)) = m' := by
          conv_rhs => rw [← List.map_id m']
          exact List.map_congr_left fun x _ => by simp
        rw [this]; exact hm'
      · intro k l hks htk hno
        obtain ⟨d, hd⟩ := (times_view (h := h)).1 htk
        have hw' := hw
        rw [p.view, hd] at hw'
        simp only [restoreV, if_neg hks, Except.ok.injEq] at hw'
        subst hw'
        refine hn k l (times_view.2 ⟨d, q.view⟩) fun r hr' => hno r ?_
        have := (ref_view hv₁).1 hr'
        rw [timeRef_view, q.view] at this
        rw [ref_view hv, timeRef_view, hd]
        exact this

/-- **C82** (`reset_reference_time`, wrong values): nothing is returned for `None`. -/
theorem C82_reset_none (h : Heap X) (a : Arr B) : ∃ x, reset h a .none = .error x := by
  simp only [reset]
  cases restore (copy h a).1 (copy h a).2 with
  | error y => exact ⟨y, rfl⟩
  | ok y => exact ⟨.typeError, rfl⟩

/-- The result need not have the new reference time: without a time coordinate the request is ignored, and the value is not even looked
at. -/
theorem C82_reset_counterexample : ¬ ∀ (h : Heap Unit) (a : Arr Unit) (v : Arg) h' a', Valid h a → reset h a v = .ok (h', a') →
    ∃ t, v = .stamp t ∧ Ref h' a' t := by
  intro hall
  obtain ⟨t, ht, -⟩ := hall ⟨[]⟩ ⟨none, ()⟩ .other ⟨[]⟩ ⟨none, ()⟩ (fun c hc => by cases hc) rfl
  cases ht

/-! ### Examples -/

/-- differences 0, 5 and 9 after the time 100 -/
def exH : Heap String := ⟨[[("time_ref", .time 100), ("units", .other "s")], []]⟩
/-- an array with these times -/
def exA : Arr ℕ := ⟨some ⟨.delta, [0, 5, 9], 0⟩, 7⟩
/-- an array with time stamps and no attributes -/
def exS : Arr ℕ := ⟨some ⟨.stamp, [100, 105], 1⟩, 8⟩

example : Valid exH exA ∧ Ref exH exA 100 ∧ Times exA .delta [0, 5, 9] ∧ Abs exH exA [100, 105, 109] := by
  refine ⟨fun c hc => by cases hc; decide, ⟨_, _, rfl, rfl, rfl⟩, ⟨_, rfl, rfl, rfl⟩, ?_⟩
  exact .deltas (l := [0, 5, 9]) (r := 100) ⟨_, rfl, rfl, rfl⟩ ⟨_, _, rfl, rfl, rfl⟩

example : (unset exH exA).2.time = some ⟨.stamp, [100, 105, 109], 3⟩ := rfl

example : Valid exH exS ∧ (∀ r, ¬ Ref exH exS r) ∧ Abs exH exS [100, 105] := by
  refine ⟨fun c hc => by cases hc; decide, ?_, .stamps ⟨_, rfl, rfl, rfl⟩⟩
  rintro r ⟨c, d, hc, hd, hk⟩
  cases hc; cases hd; cases hk

example : ∃ h' a', restore exH exS = .ok (h', a') ∧ Times a' .delta [0, 5] ∧ Ref h' a' 100 :=
  ⟨_, _, rfl, ⟨_, rfl, rfl, rfl⟩, ⟨_, _, rfl, rfl, rfl⟩⟩

example : ∃ h' a', reset exH exA (.stamp 98) = .ok (h', a') ∧ Times a' .delta [2, 7, 11] ∧ Ref h' a' 98 :=
  ⟨_, _, rfl, ⟨_, rfl, rfl, rfl⟩, ⟨_, _, rfl, rfl, rfl⟩⟩

/-- an array with time stamps but no values -/
example : Times (⟨some ⟨.stamp, [], 1⟩, 8⟩ : Arr ℕ) .stamp [] ∧ restore exH (⟨some ⟨.stamp, [], 1⟩, 8⟩ : Arr ℕ) = .error .indexError :=
  ⟨⟨_, rfl, rfl, rfl⟩, rfl⟩

end Weldx.TimeRef
