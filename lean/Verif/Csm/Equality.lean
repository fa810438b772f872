import Verif.Csm.SerialProps
import Verif.Nested.Model

/-!
# Equality of managers

Model of `CoordinateSystemManager.__eq__`, `/repo/weldx/transformations/cs_manager.py` 146-186, and of the comparison of the
subsystem records (`SubsystemInfo`, 44-61, with `dataclass_nested_eq`, `/repo/weldx/util/util.py` 308-347).

`truthy` is Python's `bool(name)`, which is only false for the empty string. `eqS` and `eqD` are the comparisons of coordinate
systems and of data.
-/

set_option linter.unusedSectionVars false

namespace Weldx.Csm
variable {N S D L V : Type} [DecidableEq N]

/-- `any(b.keys() ^ a.keys())`, `util.py` 250-252 -/
def keysDiffer (truthy : N → Bool) (a b : List N) : Bool :=
  (b.any fun k => decide (k ∉ a) && truthy k) || a.any fun k => decide (k ∉ b) && truthy k

/-- `_visit`, `util.py` 225-256, for one item of the dictionary `a` -/
def cmpItem (truthy : N → Bool) (eqV : V → V → Bool) (a b : List (N × V)) (x : N × V) : Bool :=
  match Dict.get? b x.1 with
  | none => false
  | some w => !keysDiffer truthy (Dict.keys a) (Dict.keys b) && eqV x.2 w

/-- `compare_nested(a, b)`, `util.py` 258-302, for dictionaries whose values are not entered. Each value of `a` is looked up in
`b`, and the symmetric difference of the keys must not contain a true value. -/
def cmpFlat (truthy : N → Bool) (eqV : V → V → Bool) (a b : List (N × V)) : Bool :=
  a.all (cmpItem truthy eqV a b)

/-- `compare_nested` for the attributes `{"data": {...}}` of two nodes: an empty dictionary is compared with `==`, others are
entered. -/
def cmpData (truthy : N → Bool) (eqD : D → D → Bool) (a b : List (N × D)) : Bool :=
  if a.isEmpty then b.isEmpty else cmpFlat truthy eqD a b

/-- `compare_nested` for the attributes of two edges; `None` differs from every coordinate system. -/
def cmpEdge (eqS : S → S → Bool) (e e' : Edge S) : Bool :=
  decide (e.defined = e'.defined) && match e.transformation, e'.transformation with
    | none, none => true
    | some s, some s' => eqS s s'
    | _, _ => false

/-- `==` of sets -/
def setEq (a b : List N) : Bool := a.all (fun x => decide (x ∈ b)) && b.all fun x => decide (x ∈ a)

mutual
/-- `SubsystemInfo.__eq__`: `compare_nested` of the fields. The list of nested records is entered, its length is only compared
when one of its items is visited. -/
def eqInfo : SubInfo N → SubInfo N → Bool
  | .mk n r c t ms ds ss, y => decide (n = y.name) && decide (r = y.root) && decide (c = y.common) && decide (t = y.timeRef) &&
      setEq ms y.members && setEq ds y.data && (ss.isEmpty || decide (ss.length = y.subs.length)) && eqInfos ss y.subs
/-- the items of the first list at the same place of the second one -/
def eqInfos : List (SubInfo N) → List (SubInfo N) → Bool
  | [], _ => true
  | _ :: _, [] => false
  | s :: t, y :: u => eqInfo s y && eqInfos t u
end

/-- `{sub.name: sub for sub in self.subsystem_info}`, `cs_manager.py` 164 -/
def subsDict (m : Csm N S D) : List (N × SubInfo N) := Dict.update [] (m.subs.map fun s => (s.name, s))

/-- `__eq__`, `cs_manager.py` 146-186 -/
def eq (truthy : N → Bool) (eqS : S → S → Bool) (eqD : D → D → Bool) (m o : Csm N S D) : Bool :=
  decide (m.name = o.name) && decide (m.refTime = o.refTime) && decide (m.nodes.length = o.nodes.length) &&
    cmpFlat truthy eqInfo m.subsDict o.subsDict &&
    (m.nodes.all fun x => match Dict.get? o.nodes x.1 with
      | none => false
      | some ds => cmpData truthy eqD x.2 ds) &&
    m.edges.all fun x => match Dict.get? o.edges x.1 with
      | none => false
      | some e => cmpEdge eqS x.2 e

/-! ### Connection with the model of `compare_nested` -/

/-- the items of a dictionary of leaves -/
def flatEntries {A : Type} : List (Nested.Key × A) → Nested.Entries A
  | [] => .nil
  | (k, a) :: t => .cons k (.leaf (.atom a)) (flatEntries t)

theorem flatEntries_toList {A : Type} : ∀ l : List (Nested.Key × A),
    (flatEntries l).toList = l.map fun x => (x.1, .leaf (.atom x.2))
  | [] => rfl
  | (k, a) :: t => by simp [flatEntries, Nested.Entries.toList, flatEntries_toList t]

theorem keys_map_val {K A B : Type} (f : A → B) (l : List (K × A)) : Dict.keys (l.map fun x => (x.1, f x.2)) = Dict.keys l := by
  simp [Dict.keys]

theorem get?_map_val {K A B : Type} [DecidableEq K] (f : A → B) (l : List (K × A)) (k : K) :
    Dict.get? (l.map fun x => (x.1, f x.2)) k = (Dict.get? l k).map f := by
  induction l with
  | nil => rfl
  | cons x t ih =>
    obtain ⟨k', a⟩ := x
    simp only [List.map_cons, Dict.get?]
    split
    · rfl
    · exact ih

/-- A comparison of flat dictionaries by `compare_nested` has the result of `cmpFlat`. -/
theorem compareNested_flat {A : Type} [DecidableEq A] (i j : Nat) (a b : List (Nested.Key × A)) :
    Nested.compareNested (.cont i .dict (flatEntries a)) (.cont j .dict (flatEntries b)) =
      .ok (cmpFlat Nested.Key.truthy (fun x y => decide (x = y)) a b) := by
  have hk : ∀ l : List (Nested.Key × A), Dict.keys (flatEntries l).toList = Dict.keys l := fun l => by
    rw [flatEntries_toList, keys_map_val (fun a => Nested.Value.leaf (Nested.Leaf.atom a))]
  have hg : ∀ k, Dict.get? (flatEntries b).toList k = (Dict.get? b k).map fun a => Nested.Value.leaf (Nested.Leaf.atom a) :=
    fun k => by rw [flatEntries_toList, get?_map_val (fun a => Nested.Value.leaf (Nested.Leaf.atom a))]
  have hv : ∀ x : Nested.Key × A, Nested.visit (.cont i .dict (flatEntries a)) (.cont j .dict (flatEntries b)) [] x.1
      (.leaf (.atom x.2)) = if cmpItem Nested.Key.truthy (fun x y => decide (x = y)) a b x = true
        then .ok () else .error .lookup := by
    rintro ⟨k, v⟩
    have hkd : ∀ x y : List Nested.Key, ((x.any fun k => decide (k ∉ y) && k.truthy) ||
      y.any fun k => decide (k ∉ x) && k.truthy) = keysDiffer Nested.Key.truthy y x := fun _ _ => rfl
    simp only [Nested.visit, Nested.getPath, Nested.index, Nested.entered, Nested.seqLength, Nested.checkKeys,
      hk, hg, bind, Except.bind]
    rcases Option.eq_none_or_eq_some (Dict.get? b k) with h | ⟨w, h⟩
    · have hc : cmpItem Nested.Key.truthy (fun x y => decide (x = y)) a b (k, v) = false := by simp [cmpItem, h]
      simp [h, hc]
    · have hc : cmpItem Nested.Key.truthy (fun x y => decide (x = y)) a b (k, v) =
          (!keysDiffer Nested.Key.truthy (Dict.keys a) (Dict.keys b) && decide (v = w)) := by simp [cmpItem, h]
      simp only [h, hc, hkd, Option.map_some, Bool.false_eq_true, if_false]
      by_cases hd : keysDiffer Nested.Key.truthy (Dict.keys a) (Dict.keys b) = true
      · simp [hd]
      · simp [hd, Nested.compare]
  have hw : ∀ (l : List (Nested.Key × A)) (r : List Nat), (Nested.walkEntries (.cont i .dict (flatEntries a))
      (.cont j .dict (flatEntries b)) [] r (flatEntries l)).map (fun _ => ()) =
        if l.all (cmpItem Nested.Key.truthy (fun x y => decide (x = y)) a b) = true then .ok () else .error .lookup := by
    intro l
    induction l with
    | nil => intro r; simp [flatEntries, Nested.walkEntries, Except.map]
    | cons x t ih =>
      intro r
      obtain ⟨k, v⟩ := x
      simp only [flatEntries, Nested.walkEntries, Nested.walkValue, bind, Except.bind, hv (k, v), List.all_cons]
      by_cases hc : cmpItem Nested.Key.truthy (fun x y => decide (x = y)) a b (k, v) = true
      · rw [if_pos hc]
        simp only [hc, Bool.true_and]
        exact ih r
      · rw [if_neg hc]
        simp [hc, Except.map]
  simp only [Nested.compareNested, hw]
  unfold cmpFlat
  by_cases hc : a.all (cmpItem Nested.Key.truthy (fun x y => decide (x = y)) a b) = true
  · rw [if_pos hc, hc]
  · rw [if_neg hc]
    simp only [Bool.not_eq_true] at hc
    rw [hc]

end Weldx.Csm
