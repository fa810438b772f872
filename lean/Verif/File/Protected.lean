import Verif.Base.Dict

/-!
# Mapping interface of `weldx.WeldxFile` (C38)

Source: `/repo/weldx/asdf/util.py` 643-716 (`_ProtectedViewDict`), `/repo/weldx/asdf/file.py` 87-90 (`_PROTECTED_KEYS`), 550-715 (the
mapping methods of `WeldxFile`), and the mixin methods of `collections.abc.MutableMapping` (`get`, `pop`, `setdefault`, `items`).

Simplifications: warnings are not modelled; `keys()` makes a Python set, its order of iteration is unknown: it is a parameter
`ord` of the model; the values are not changed in place.
-/

namespace Weldx.File

/-- the calls of the mapping interface. `get` and `pop` have the default `None` if none is given. -/
inductive Op (V : Type)
  | getitem (k : String)
  | get (k : String) (default : Option V)
  | contains (k : String)
  | len
  | keys
  | items
  | setitem (k : String) (v : V)
  | delitem (k : String)
  | update (e : List (String × V))
  | pop (k : String) (default : Option V)
  | popitem
  | setdefault (k : String) (v : V)
  | clear

/-- the results; `value none` is the object `None` -/
inductive Res (V : Type)
  | value (v : Option V)
  | bool (b : Bool)
  | num (n : ℕ)
  | keys (l : List String)
  | items (l : List (String × V))
  | item (k : String) (v : V)
  | keyError

variable {V : Type}

/-- util.py 681-682 `keys` -/
def visible (ord : List String → List String) (p : List String) (d : List (String × V)) : List String :=
  ord ((Dict.keys d).filter (· ∉ p))

/-- util.py 651-659 `_wrap_protected_non_existent` with `__getitem__` -/
def getitem (p : List String) (d : List (String × V)) (k : String) : Option V :=
  if k ∈ p then none else Dict.get? d k

/-- util.py 674-678 `__setitem__` -/
def setitem (p : List String) (d : List (String × V)) (k : String) (v : V) : List (String × V) :=
  if k ∈ p then d else Dict.set d k v

/-- util.py 707: the comprehension that pops the protected keys; `none` is a `KeyError` -/
def popAll : List String → List (String × V) → List (String × V) × Option (List (String × V))
  | [], d => (d, some [])
  | k :: t, d =>
    match Dict.get? d k with
    | none => (d, none)
    | some v =>
      match popAll t (Dict.erase d k) with
      | (d', none) => (d', none)
      | (d', some e) => (d', some ((k, v) :: e))

/-- one call: the content of the file after the call and the result -/
def step (ord : List String → List String) (p : List String) (d : List (String × V)) : Op V → List (String × V) × Res V
  | .getitem k =>
    match getitem p d k with
    | none => (d, .keyError)
    | some v => (d, .value (some v))
  | .get k default =>
    match getitem p d k with
    | none => (d, .value default)
    | some v => (d, .value (some v))
  | .contains k => (d, .bool (k ∈ visible ord p d))
  | .len => (d, .num (visible ord p d).length)
  | .keys => (d, .keys (visible ord p d))
  | .items => (d, .items ((visible ord p d).filterMap fun k => (getitem p d k).map fun v => (k, v)))
  | .setitem k v => (setitem p d k v, .value none)
  | .delitem k =>
    match getitem p d k with
    | none => (d, .keyError)
    | some _ => (Dict.erase d k, .value none)
  | .update e => (Dict.update d (e.filter fun x => x.1 ∉ p), .value none)
  | .pop k default =>
    match getitem p d k with
    | none => (d, .value default)
    | some v => (Dict.erase d k, .value (some v))
  | .popitem =>
    match visible ord p d with
    | [] => (d, .keyError)
    | k :: _ =>
      match getitem p d k with
      | none => (d, .keyError)
      | some v => (Dict.erase d k, .item k v)
  | .setdefault k v =>
    match getitem p d k with
    | none => (setitem p d k v, .value none)
    | some _ => (d, .value none)
  | .clear =>
    match popAll p d with
    | (d', none) => (d', .keyError)
    | (_, some e) => (Dict.update [] e, .value none)

/-- several calls -/
def run (ord : List String → List String) (p : List String) (d : List (String × V)) :
    List (Op V) → List (String × V) × List (Res V)
  | [] => (d, [])
  | o :: t =>
    let s := step ord p d o
    let r := run ord p s.1 t
    (r.1, s.2 :: r.2)

/-! ## Specification -/

/-- the visible content as a finite map -/
def view (p : List String) (d : List (String × V)) (k : String) : Option V := if k ∈ p then none else Dict.get? d k

/-- the meaning of the calls for a mapping `m` of the keys that are not in `p`: what a dictionary does, with these exceptions: writing
a protected key does nothing; `pop` never raises; `popitem` gives any item; `setdefault` returns `None`. -/
inductive Sem (p : List String) (m : String → Option V) : Op V → (String → Option V) → Res V → Prop
  | getitem {k v} : m k = some v → Sem p m (.getitem k) m (.value (some v))
  | getitem_missing {k} : m k = none → Sem p m (.getitem k) m .keyError
  | get {k x} : Sem p m (.get k x) m (.value ((m k).or x))
  | contains {k} : Sem p m (.contains k) m (.bool (m k).isSome)
  | len {l : List String} : l.Nodup → (∀ k, k ∈ l ↔ m k ≠ none) → Sem p m .len m (.num l.length)
  | keys {l : List String} : l.Nodup → (∀ k, k ∈ l ↔ m k ≠ none) → Sem p m .keys m (.keys l)
  | items {l : List (String × V)} : (Dict.keys l).Nodup → (∀ k v, (k, v) ∈ l ↔ m k = some v) → Sem p m .items m (.items l)
  | setitem {k v} : k ∉ p → Sem p m (.setitem k v) (fun x => if x = k then some v else m x) (.value none)
  | setitem_protected {k v} : k ∈ p → Sem p m (.setitem k v) m (.value none)
  | delitem {k} : m k ≠ none → Sem p m (.delitem k) (fun x => if x = k then none else m x) (.value none)
  | delitem_missing {k} : m k = none → Sem p m (.delitem k) m .keyError
  | update {e} : Sem p m (.update e) (fun x => if x ∈ p then none else (Dict.get? e x).or (m x)) (.value none)
  | pop {k x v} : m k = some v → Sem p m (.pop k x) (fun x => if x = k then none else m x) (.value (some v))
  | pop_missing {k x} : m k = none → Sem p m (.pop k x) m (.value x)
  | popitem {k v} : m k = some v → Sem p m .popitem (fun x => if x = k then none else m x) (.item k v)
  | popitem_empty : (∀ k, m k = none) → Sem p m .popitem m .keyError
  | setdefault {k v} : m k ≠ none → Sem p m (.setdefault k v) m (.value none)
  | setdefault_missing {k v} : m k = none → k ∉ p →
      Sem p m (.setdefault k v) (fun x => if x = k then some v else m x) (.value none)
  | setdefault_protected {k v} : k ∈ p → Sem p m (.setdefault k v) m (.value none)
  | clear : Sem p m .clear (fun _ => none) (.value none)

/-- sequences of calls -/
inductive Sems (p : List String) : (String → Option V) → List (Op V) → (String → Option V) → List (Res V) → Prop
  | nil {m} : Sems p m [] m []
  | cons {m m' m'' o r os rs} : Sem p m o m' r → Sems p m' os m'' rs → Sems p m (o :: os) m'' (r :: rs)

/-- an opened file: a dictionary that has all protected keys -/
structure Opened (p : List String) (d : List (String × V)) : Prop where
  nodup : (Dict.keys d).Nodup
  prot : ∀ k ∈ p, k ∈ Dict.keys d

/-- arguments of `update` are dictionaries -/
def Op.WF : Op V → Prop
  | .update e => (Dict.keys e).Nodup
  | _ => True

/-! ## Lemmas -/

theorem popAll_spec {p : List String} {d : List (String × V)} (hn : p.Nodup) (hd : (Dict.keys d).Nodup)
    (hp : ∀ k ∈ p, k ∈ Dict.keys d) :
    ∃ d' e, popAll p d = (d', some e) ∧ Dict.keys e = p ∧ ∀ k ∈ p, Dict.get? e k = Dict.get? d k := by
  induction p generalizing d with
  | nil => exact ⟨d, [], rfl, rfl, by simp⟩
  | cons k t ih =>
    simp only [List.nodup_cons] at hn
    obtain ⟨v, hv⟩ := Dict.get?_isSome.2 (hp k (by simp))
    obtain ⟨d', e, h1, h2, h3⟩ := @ih (Dict.erase d k) hn.2 (by rw [Dict.keys_erase]; exact hd.filter _) (by
      intro x hx
      rw [Dict.keys_erase, List.mem_filter]
      refine ⟨hp x (by simp [hx]), ?_⟩
      simp only [ne_eq, decide_not, Bool.not_eq_eq_eq_not, Bool.not_true, decide_eq_false_iff_not]
      rintro rfl; exact hn.1 hx)
    refine ⟨d', (k, v) :: e, by simp only [popAll, hv, h1], by simp [h2], ?_⟩
    intro x hx
    simp only [Dict.get?]
    split
    · rename_i h; subst h; exact hv.symm
    · rename_i h
      rcases List.mem_cons.1 hx with hx | hx
      · exact absurd hx.symm h
      · rw [h3 x hx, Dict.get?_erase, if_neg (fun hh => h hh.symm)]

theorem view_ne_none {p : List String} {d : List (String × V)} {k} :
    view p d k ≠ none ↔ k ∉ p ∧ k ∈ Dict.keys d := by
  unfold view
  split
  · rename_i h; simp [h]
  · rename_i h
    rw [ne_eq, Dict.get?_eq_none, not_not]
    simp [h]

theorem mem_visible {ord : List String → List String} (ho : ∀ l, (ord l).Perm l) {p : List String} {d : List (String × V)} {k} :
    k ∈ visible ord p d ↔ view p d k ≠ none := by
  unfold visible
  rw [(ho _).mem_iff, List.mem_filter, view_ne_none]
  simp only [decide_eq_true_eq]
  exact And.comm

theorem nodup_visible {ord : List String → List String} (ho : ∀ l, (ord l).Perm l) {p : List String} {d : List (String × V)}
    (hd : (Dict.keys d).Nodup) : (visible ord p d).Nodup := by
  unfold visible
  rw [(ho _).nodup_iff]
  exact hd.filter _

theorem view_erase {p : List String} {d : List (String × V)} {k} :
    view p (Dict.erase d k) = fun x => if x = k then none else view p d x := by
  funext x
  unfold view
  rw [Dict.get?_erase]
  by_cases h : x = k <;> by_cases h' : x ∈ p <;> simp [h, h']

theorem view_set {p : List String} {d : List (String × V)} {k v} (hk : k ∉ p) :
    view p (Dict.set d k v) = fun x => if x = k then some v else view p d x := by
  funext x
  unfold view
  rw [Dict.get?_set]
  by_cases h : x = k
  · subst h; simp [hk]
  · by_cases h' : x ∈ p <;> simp [h, h']

/-- what one call does -/
theorem step_spec {ord : List String → List String} (ho : ∀ l, (ord l).Perm l) {p : List String} (hp : p.Nodup)
    {d : List (String × V)} (hd : Opened p d) {o : Op V} (hw : o.WF) :
    Sem p (view p d) o (view p (step ord p d o).1) (step ord p d o).2 ∧ Opened p (step ord p d o).1 ∧
      ∀ k ∈ p, Dict.get? (step ord p d o).1 k = Dict.get? d k := by
  have hget : ∀ k, getitem p d k = view p d k := fun k => rfl
  have herase : ∀ k, view p d k ≠ none → Opened p (Dict.erase d k) ∧ ∀ x ∈ p, Dict.get? (Dict.erase d k) x = Dict.get? d x := by
    intro k hk
    have hkp := (view_ne_none.1 hk).1
    refine ⟨⟨by rw [Dict.keys_erase]; exact hd.nodup.filter _, ?_⟩, ?_⟩
    · intro x hx
      rw [Dict.keys_erase, List.mem_filter]
      refine ⟨hd.prot x hx, ?_⟩
      simp only [ne_eq, decide_not, Bool.not_eq_eq_eq_not, Bool.not_true, decide_eq_false_iff_not]
      rintro rfl; exact hkp hx
    · intro x hx
      rw [Dict.get?_erase, if_neg]
      rintro rfl; exact hkp hx
  have hset : ∀ k v, k ∉ p → Opened p (Dict.set d k v) ∧ ∀ x ∈ p, Dict.get? (Dict.set d k v) x = Dict.get? d x := by
    intro k v hkp
    refine ⟨⟨Dict.nodup_keys_set hd.nodup, fun x hx => Dict.mem_keys_set.2 (.inl (hd.prot x hx))⟩, ?_⟩
    intro x hx
    rw [Dict.get?_set, if_neg]
    rintro rfl; exact hkp hx
  cases o with
  | getitem k =>
    simp only [step, hget]
    cases h : view p d k with
    | none => exact ⟨.getitem_missing h, hd, fun _ _ => rfl⟩
    | some v => exact ⟨.getitem h, hd, fun _ _ => rfl⟩
  | get k x =>
    simp only [step, hget]
    have := Sem.get (p := p) (m := view p d) (k := k) (x := x)
    cases h : view p d k with
    | none => rw [h] at this; exact ⟨this, hd, fun _ _ => rfl⟩
    | some v => rw [h] at this; exact ⟨this, hd, fun _ _ => rfl⟩
  | contains k =>
    refine ⟨?_, hd, fun _ _ => rfl⟩
    have := Sem.contains (p := p) (m := view p d) (k := k)
    have h : (view p d k).isSome = decide (k ∈ visible ord p d) := by
      rw [Bool.eq_iff_iff, decide_eq_true_eq, mem_visible ho, Option.isSome_iff_ne_none]
    rw [h] at this
    exact this
  | len => exact ⟨.len (nodup_visible ho hd.nodup) (fun k => mem_visible ho), hd, fun _ _ => rfl⟩
  | keys => exact ⟨.keys (nodup_visible ho hd.nodup) (fun k => mem_visible ho), hd, fun _ _ => rfl⟩
  | items =>
    refine ⟨.items ?_ ?_, hd, fun _ _ => rfl⟩
    · have : Dict.keys ((visible ord p d).filterMap fun k => (getitem p d k).map fun v => (k, v)) = visible ord p d := by
        have hv : ∀ k ∈ visible ord p d, getitem p d k ≠ none := fun k hk => (mem_visible ho).1 hk
        generalize visible ord p d = l at hv
        induction l with
        | nil => rfl
        | cons k t ih =>
          cases h : getitem p d k with
          | none => exact absurd h (hv k (by simp))
          | some v => simp [h, ih (fun k hk => hv k (by simp [hk]))]
      rw [this]
      exact nodup_visible ho hd.nodup
    · intro k v
      rw [List.mem_filterMap]
      constructor
      · rintro ⟨x, hx, h⟩
        rw [Option.map_eq_some_iff] at h
        obtain ⟨w, hw, he⟩ := h
        obtain ⟨rfl, rfl⟩ := Prod.mk.inj he
        exact hw
      · intro h
        exact ⟨k, (mem_visible ho).2 (by rw [h]; simp), by rw [hget, h]; rfl⟩
  | setitem k v =>
    simp only [step, setitem]
    split
    · rename_i h; exact ⟨.setitem_protected h, hd, fun _ _ => rfl⟩
    · rename_i h
      rw [view_set h]
      exact ⟨.setitem h, hset k v h⟩
  | delitem k =>
    simp only [step, hget]
    cases h : view p d k with
    | none => exact ⟨.delitem_missing h, hd, fun _ _ => rfl⟩
    | some v =>
      simp only [view_erase]
      exact ⟨.delitem (by rw [h]; simp), herase k (by rw [h]; simp)⟩
  | update e =>
    have hen : (Dict.keys (e.filter fun x => x.1 ∉ p)).Nodup := by
      have h1 : (Dict.keys e).Nodup := hw
      exact h1.sublist (List.Sublist.map _ List.filter_sublist)
    have hgetf : ∀ x, Dict.get? (e.filter fun x => x.1 ∉ p) x = if x ∈ p then none else Dict.get? e x := by
      intro x
      have := Dict.get?_filter (d := e) (p := fun k => decide (k ∉ p)) (x := x)
      rw [this]
      by_cases h : x ∈ p <;> simp [h]
    refine ⟨?_, ⟨Dict.nodup_keys_update hd.nodup, ?_⟩, ?_⟩
    · have hv : view p (step ord p d (.update e)).1 = fun x => if x ∈ p then none else (Dict.get? e x).or (view p d x) := by
        funext x
        unfold view
        simp only [step]
        by_cases h : x ∈ p
        · simp [h]
        · rw [if_neg h, if_neg h, if_neg h, Dict.get?_update hen, hgetf, if_neg h]
      rw [hv]
      exact .update
    · intro x hx
      exact Dict.mem_keys_update.2 (.inl (hd.prot x hx))
    · intro x hx
      simp only [step]
      rw [Dict.get?_update hen, hgetf, if_pos hx]
      rfl
  | pop k x =>
    simp only [step, hget]
    cases h : view p d k with
    | none => exact ⟨.pop_missing h, hd, fun _ _ => rfl⟩
    | some v =>
      simp only [view_erase]
      exact ⟨.pop h, herase k (by rw [h]; simp)⟩
  | popitem =>
    simp only [step]
    cases h : visible ord p d with
    | nil =>
      refine ⟨.popitem_empty ?_, hd, fun _ _ => rfl⟩
      intro k
      by_contra hk
      have := (mem_visible ho).2 hk
      rw [h] at this
      simp at this
    | cons k t =>
      have hk : view p d k ≠ none := (mem_visible ho).1 (by rw [h]; simp)
      simp only [hget]
      cases hv : view p d k with
      | none => exact absurd hv hk
      | some v =>
        simp only [view_erase]
        exact ⟨.popitem hv, herase k hk⟩
  | setdefault k v =>
    simp only [step, hget]
    cases h : view p d k with
    | some w => exact ⟨.setdefault (by rw [h]; simp), hd, fun _ _ => rfl⟩
    | none =>
      simp only [setitem]
      split
      · rename_i hk; exact ⟨.setdefault_protected hk, hd, fun _ _ => rfl⟩
      · rename_i hk
        rw [view_set hk]
        exact ⟨.setdefault_missing h hk, hset k v hk⟩
  | clear =>
    obtain ⟨d', e, h1, h2, h3⟩ := popAll_spec hp hd.nodup hd.prot
    simp only [step, h1]
    have hen : (Dict.keys e).Nodup := by rw [h2]; exact hp
    have hu : Dict.update [] e = e := by simpa using Dict.update_of_disjoint (d := []) hen (by simp)
    rw [hu]
    refine ⟨?_, ⟨hen, by rw [h2]; exact fun _ h => h⟩, h3⟩
    have : view p e = fun _ => none := by
      funext x
      by_contra hx
      have := view_ne_none.1 hx
      rw [h2] at this
      exact this.1 this.2
    rw [this]
    exact .clear

/-! ## C38 -/

/-- **C38**: for every sequence of mapping calls on an opened file the protected entries stay as they are, and the results and the
visible content are those of a dictionary without the protected keys (`Sem` says where the methods differ from `dict`). The
results depend on the visible content only, so protected values are not read. -/
theorem C38_protected {ord : List String → List String} (ho : ∀ l, (ord l).Perm l) {p : List String} (hp : p.Nodup)
    {d : List (String × V)} (hd : Opened p d) {os : List (Op V)} (hw : ∀ o ∈ os, o.WF) :
    Sems p (view p d) os (view p (run ord p d os).1) (run ord p d os).2 ∧
      ∀ k ∈ p, Dict.get? (run ord p d os).1 k = Dict.get? d k := by
  induction os generalizing d with
  | nil => exact ⟨.nil, fun _ _ => rfl⟩
  | cons o t ih =>
    obtain ⟨h1, h2, h3⟩ := step_spec ho hp hd (hw o (by simp))
    obtain ⟨h4, h5⟩ := ih h2 (fun o h => hw o (by simp [h]))
    exact ⟨.cons h1 h4, fun k hk => (h5 k hk).trans (h3 k hk)⟩

/-- **C38** (no information about protected entries): if two files have the same visible content, every result of a call that gives a
value is the same. -/
theorem C38_independent {ord : List String → List String} (ho : ∀ l, (ord l).Perm l) {p : List String}
    {d d' : List (String × V)} (h : view p d = view p d') :
    (∀ k, (step ord p d (.getitem k)).2 = (step ord p d' (.getitem k)).2) ∧
    (∀ k x, (step ord p d (.get k x)).2 = (step ord p d' (.get k x)).2) ∧
    (∀ k, (step ord p d (.contains k)).2 = (step ord p d' (.contains k)).2) ∧
    (∀ k x, (step ord p d (.pop k x)).2 = (step ord p d' (.pop k x)).2) ∧
    ∀ k, (step ord p d (.delitem k)).2 = (step ord p d' (.delitem k)).2 := by
  have hget : ∀ k, getitem p d k = getitem p d' k := fun k => congrFun h k
  refine ⟨fun k => ?_, fun k x => ?_, fun k => ?_, fun k x => ?_, fun k => ?_⟩
  · simp only [step, hget]
    cases getitem p d' k <;> rfl
  · simp only [step, hget]
    cases getitem p d' k <;> rfl
  · simp only [step, mem_visible ho, h]
  · simp only [step, hget]
    cases getitem p d' k <;> rfl
  · simp only [step, hget]
    cases getitem p d' k <;> rfl

/-- **C38** (`clear` is not safe without all protected keys): if the file has no "asdf_library", `clear` raises a `KeyError` and has
already removed "history"; the other content is still there. -/
theorem C38_clear {ord : List String → List String} {d : List (String × V)} {h : V}
    (hh : Dict.get? d "history" = some h) (hl : Dict.get? d "asdf_library" = none) :
    (step ord ["history", "asdf_library"] d .clear) = (Dict.erase d "history", .keyError) := by
  have : Dict.get? (Dict.erase d "history") "asdf_library" = none := by
    rw [Dict.get?_erase, if_neg (by decide), hl]
  simp only [step, popAll, hh, this]

/-! ### Examples -/

example : Opened ["history", "asdf_library"] [("asdf_library", 1), ("history", 2), ("x", 3)] := ⟨by decide, by decide⟩

/-- deleting and overwriting protected keys, and clearing -/
example : run id ["history", "asdf_library"] [("asdf_library", 1), ("history", 2), ("x", 3)]
    [.delitem "history", .setitem "asdf_library" 7, .update [("history", 8), ("y", 9)], .pop "history" none, .clear] =
    ([("history", 2), ("asdf_library", 1)],
      [.keyError, .value none, .value none, .value none, .value none]) := by rfl

example : step id ["history", "asdf_library"] [("history", 2), ("x", 3)] .clear = ([("x", 3)], .keyError) := by rfl

end Weldx.File
