import Verif.Nested.Lemmas

/-!
# Comparison of nested data (C35)
-/

namespace Weldx.Nested
variable {A : Type} [DecidableEq A]

/-- The full statement: the comparison decides equality of nested data. -/
def DecidesEquality (a b : Value A) : Prop :=
  (compareNested a b = .ok true ↔ Same (· = ·) a b) ∧ ∃ r, compareNested a b = .ok r

/-- **C35.** Nested data with the same structure and equal leaves compares equal. -/
theorem C35_equal_data {i : Nat} {kd : Kind} {es : Entries A} {b : Value A} (wa : WF (.cont i kd es)) (wb : WF b)
    (h : Same (· = ·) (.cont i kd es) b) : compareNested (.cont i kd es) b = .ok true := by
  have h' := h
  simp only [Same] at h'
  obtain ⟨j, kd', es', rfl, rfl, h2, h3⟩ := h'
  obtain ⟨r, hr⟩ := walkEntries_complete (.cont i kd es) (.cont j kd es') es [] [i] i j kd es es' rfl rfl wa wb h.keys
    (fun _ h => h) h3
  simp only [compareNested, hr, Except.map]

mutual
theorem same_refl : ∀ v : Value A, Same (· = ·) v v
  | .leaf l => by simp only [Same]
  | .cont i kd es => by
    simp only [Same]
    refine ⟨i, kd, es, rfl, rfl, fun _ h => h, sameEntries_refl es es fun _ h => h⟩
theorem sameEntries_refl : ∀ es es' : Entries A, (∀ x, x ∈ es.toList → x ∈ es'.toList) → SameEntries (· = ·) es es'
  | .nil, _, _ => by simp only [SameEntries]
  | .cons k v es, es', h => by
    simp only [SameEntries]
    exact ⟨⟨v, h _ (by simp [Entries.toList]), same_refl v⟩,
      sameEntries_refl es es' fun x hx => h x (by simp [Entries.toList, hx])⟩
end

/-- **C35.** The comparison is reflexive. -/
theorem C35_reflexive {i : Nat} {kd : Kind} {es : Entries A} (w : WF (.cont i kd es)) :
    compareNested (.cont i kd es) (.cont i kd es) = .ok true := C35_equal_data w w (same_refl _)

/-- **C35 (partial).** If no list or dictionary occurs twice in `a`, equality reported by the comparison means
that each leaf of `a` occurs in `b` at the same place. Missing: nothing is said about further data in `b`. -/
theorem C35_contained_partial {a b : Value A} (hs : NoSharing a) (h : compareNested a b = .ok true) :
    Covers a b := compareNested_covers hs h

/-- **C35 (partial).** If the comparison succeeds in both directions and no list or dictionary occurs twice in
one of the structures, both have the same keys and the same leaves everywhere. Missing: a single direction is
not sufficient, and types of containers are not compared, see the counterexamples. -/
theorem C35_both_directions_partial {a b : Value A} (wa : WF a) (wb : WF b) (ha : NoSharing a) (hb : NoSharing b)
    (h : compareNested a b = .ok true) (h' : compareNested b a = .ok true) : Same (fun _ _ => True) a b :=
  same_of_covers a b wa wb (compareNested_covers ha h) (compareNested_covers hb h')

/-! ### examples and counterexamples -/

/-- a number -/
def num (n : Nat) : Value Nat := .leaf (.atom n)
/-- a dictionary -/
def dict (i : Nat) (l : List (String × Value Nat)) : Value Nat :=
  .cont i .dict (l.foldr (fun x es => .cons (.str x.1.toList) x.2 es) .nil)
/-- a list or tuple -/
def seq (i : Nat) (kd : Kind) : Nat → List (Value Nat) → Entries Nat
  | _, [] => .nil
  | n, x :: xs => .cons (.int n) x (seq i kd (n + 1) xs)
/-- a list -/
def list (i : Nat) (l : List (Value Nat)) : Value Nat := .cont i .list (seq i .list 0 l)

/-- `{"x": [1, 2], "y": 3}` -/
def demo : Value Nat := dict 0 [("x", list 1 [num 1, num 2]), ("y", num 3)]
/-- the same data in another order -/
def demo' : Value Nat := dict 5 [("y", num 3), ("x", list 6 [num 1, num 2])]

example : compareNested demo demo' = .ok true ∧ compareNested demo' demo = .ok true := ⟨by rfl, by rfl⟩

theorem demo_wf : WF demo ∧ WF demo' := by
  constructor <;>
  simp [demo, demo', dict, list, seq, num, WF, WFEntries, Entries.toList, Dict.keys, Entries.length, List.range_succ]

example : Same (fun _ _ => True) demo demo' :=
  C35_both_directions_partial demo_wf.1 demo_wf.2 (by unfold NoSharing; decide) (by unfold NoSharing; decide)
    (by rfl) (by rfl)

example : compareNested demo (dict 5 [("x", list 6 [num 1, num 4]), ("y", num 3)]) = .ok false := by rfl

theorem not_same_extra {i j : Nat} {x : Value Nat} {s t : String} {y z : Value Nat} (h : t.toList ≠ s.toList) :
    ¬ Same (· = ·) (dict i [(s, x)]) (dict j [(s, y), (t, z)]) := by
  intro hs
  have := (Same.keys hs (.str t.toList)).1 (by simp [dict, Entries.toList])
  simp [dict, Entries.toList, h] at this

/-- **C35 fails**: keys are only compared in dictionaries that have a value that is no container. The comparison of
`{"x": {"y": 1}}` with `{"x": {"y": 1}, "z": 2}` is true, and is not symmetric. -/
theorem C35_extra_key_counterexample : ∃ a b : Value Nat, WF a ∧ WF b ∧ NoSharing a ∧ NoSharing b ∧
    compareNested a b = .ok true ∧ compareNested b a = .ok false ∧ ¬ Same (· = ·) a b := by
  refine ⟨dict 0 [("x", dict 1 [("y", num 1)])], dict 2 [("x", dict 3 [("y", num 1)]), ("z", num 2)], ?_, ?_,
    by unfold NoSharing; decide, by unfold NoSharing; decide, by rfl, by rfl, not_same_extra (by decide)⟩ <;>
  simp [dict, num, WF, WFEntries, Entries.toList, Dict.keys]

/-- **C35 fails** for keys that are empty (or zero): `{"x": 1}` and `{"x": 1, "": 2}`. -/
theorem C35_empty_key_counterexample : ∃ a b : Value Nat, WF a ∧ WF b ∧ NoSharing a ∧ NoSharing b ∧
    compareNested a b = .ok true ∧ compareNested b a = .ok false ∧ ¬ Same (· = ·) a b := by
  refine ⟨dict 0 [("x", num 1)], dict 2 [("x", num 1), ("", num 2)], ?_, ?_,
    by unfold NoSharing; decide, by unfold NoSharing; decide, by rfl, by rfl, not_same_extra (by decide)⟩ <;>
  simp [dict, num, WF, WFEntries, Entries.toList, Dict.keys]

/-- **C35 fails** for keys that are zero: `{1: 1}` and `{1: 1, 0: 2}`. -/
theorem C35_zero_key_counterexample : ∃ a b : Value Nat, WF a ∧ WF b ∧ NoSharing a ∧ NoSharing b ∧
    compareNested a b = .ok true ∧ compareNested b a = .ok false ∧ ¬ Same (· = ·) a b := by
  refine ⟨.cont 0 .dict (.cons (.int 1) (num 1) .nil), .cont 2 .dict (.cons (.int 1) (num 1) (.cons (.int 0) (num 2) .nil)), ?_, ?_,
    by unfold NoSharing; decide, by unfold NoSharing; decide, by rfl, by rfl, ?_⟩
  · simp [num, WF, WFEntries, Entries.toList, Dict.keys]
  · simp [num, WF, WFEntries, Entries.toList, Dict.keys]
  · intro h
    simp only [Same, SameEntries, Entries.toList, Dict.keys, Value.cont.injEq] at h
    obtain ⟨j, kd, es, ⟨-, -, rfl⟩, -, h, -⟩ := h
    exact absurd (h (.int 0) (by simp [Entries.toList])) (by simp)

/-- **C35 fails** for texts: `[{0: "c"}]` and `[{-1: "c"}]` are found to be equal to `["c"]`, other keys are not. -/
theorem C35_text (k : ℤ) (c : Char) :
    compareNested (A := Nat) (.cont 0 .list (.cons (.int 0) (.cont 1 .dict (.cons (.int k) (.leaf (.str [c])) .nil)) .nil))
      (.cont 2 .list (.cons (.int 0) (.leaf (.str [c])) .nil)) = .ok (decide (k = 0 ∨ k = -1)) := by
  by_cases h0 : k = 0
  · subst h0; simp [compareNested, walkEntries, walkValue, visit, getPath, bind, Except.bind, entered, seqLength, contLength, checkKeys,
      compare, Entries.toList, Entries.length, Dict.get?, Except.map, index]
  by_cases h1 : k = -1
  · subst h1; simp [compareNested, walkEntries, walkValue, visit, getPath, bind, Except.bind, entered, seqLength, contLength, checkKeys,
      compare, Entries.toList, Entries.length, Dict.get?, Except.map, index]
  have hi : index (A := Nat) (.leaf (.str [c])) (.int k) = .error .lookup := by
    simp only [index]
    by_cases hk : k < 0
    · have h2 : (k + 1).toNat = 0 := by omega
      have h3 : k + 1 < 0 := by omega
      have h4 : ((([c] : List Char).length : ℕ) : ℤ) = 1 := rfl
      simp only [hk, if_true, h4, h2, List.getElem?_cons_zero, h3]
    · have h2 : [c][k.toNat]? = none := by
        rw [List.getElem?_eq_none_iff, List.length_singleton]; omega
      simp only [hk, if_false, h2]
  have hv : visit (A := Nat) (.cont 0 .list (.cons (.int 0) (.cont 1 .dict (.cons (.int k) (.leaf (.str [c])) .nil)) .nil))
      (.cont 2 .list (.cons (.int 0) (.leaf (.str [c])) .nil)) [.int 0] (.int k) (.leaf (.str [c])) = .error .lookup := by
    have g1 : getPath (A := Nat) (.cont 0 .list (.cons (.int 0) (.cont 1 .dict (.cons (.int k) (.leaf (.str [c])) .nil)) .nil)) [.int 0] =
        .ok (.cont 1 .dict (.cons (.int k) (.leaf (.str [c])) .nil)) := rfl
    have g2 : getPath (A := Nat) (.cont 2 .list (.cons (.int 0) (.leaf (.str [c])) .nil)) [.int 0] = .ok (.leaf (.str [c])) := rfl
    simp only [visit, g1, g2, bind, Except.bind, hi]
  simp only [compareNested, walkEntries, walkValue, bind, Except.bind, List.nil_append, hv]
  simp [h0, h1, Except.map]

/-- **C35 fails** for texts: the list `[["c"]]` is found to be equal to `["c"]`, but not to texts with further letters. -/
theorem C35_letters (c : Char) (s : List Char) :
    compareNested (A := Nat) (.cont 0 .list (.cons (.int 0) (.cont 1 .list (.cons (.int 0) (.leaf (.str [c])) .nil)) .nil))
      (.cont 2 .list (.cons (.int 0) (.leaf (.str (c :: s))) .nil)) = .ok (decide (s = [])) := by
  by_cases hs : s = []
  · subst hs
    simp [compareNested, walkEntries, walkValue, visit, getPath, bind, Except.bind, entered, seqLength, contLength, checkKeys, compare,
      Entries.toList, Entries.length, Dict.get?, Except.map, index]
  · simp [compareNested, walkEntries, walkValue, visit, getPath, bind, Except.bind, entered, seqLength, contLength,
      Entries.toList, Entries.length, Dict.get?, Except.map, index, hs, show ¬ (s.length : ℤ) + 1 < 0 by omega]

/-- **C35 fails** for empty lists: `{"x": []}` and `{"x": [1]}`. -/
theorem C35_empty_list_counterexample : ∃ a b : Value Nat, WF a ∧ WF b ∧ NoSharing a ∧ NoSharing b ∧
    compareNested a b = .ok true ∧ compareNested b a = .ok false ∧ ¬ Same (· = ·) a b := by
  refine ⟨dict 0 [("x", list 1 [])], dict 2 [("x", list 3 [num 1])], ?_, ?_,
    by unfold NoSharing; decide, by unfold NoSharing; decide, by rfl, by rfl, ?_⟩
  · simp [dict, list, seq, WF, WFEntries, Entries.toList, Dict.keys, Entries.length]
  · simp [dict, list, seq, num, WF, WFEntries, Entries.toList, Dict.keys, Entries.length]
  · intro h
    simp [dict, list, seq, Same, SameEntries, Entries.toList, Dict.keys] at h

/-- **C35 fails** if a list occurs twice in `a`: the second occurrence is not compared.
`l = [1]; compare_nested({"x": l, "y": l}, {"x": [1], "y": [2]})` is true. -/
theorem C35_shared_counterexample : ∃ a b : Value Nat, WF a ∧ WF b ∧
    compareNested a b = .ok true ∧ compareNested b a = .ok false ∧ ¬ Same (· = ·) a b := by
  refine ⟨dict 0 [("x", list 1 [num 1]), ("y", list 1 [num 1])],
    dict 2 [("x", list 3 [num 1]), ("y", list 4 [num 2])], ?_, ?_, by rfl, by rfl, ?_⟩
  · simp [dict, list, seq, num, WF, WFEntries, Entries.toList, Dict.keys, Entries.length]
  · simp [dict, list, seq, num, WF, WFEntries, Entries.toList, Dict.keys, Entries.length]
  · intro h
    simp [dict, list, seq, num, Same, SameEntries, Entries.toList, Dict.keys] at h

/-- **C35 fails** because types of containers are not compared, even if both directions are considered:
`{"x": [1]}` and `{"x": (1,)}`. -/
theorem C35_type_counterexample : ∃ a b : Value Nat, WF a ∧ WF b ∧ NoSharing a ∧ NoSharing b ∧
    compareNested a b = .ok true ∧ compareNested b a = .ok true ∧ ¬ Same (· = ·) a b := by
  refine ⟨dict 0 [("x", list 1 [num 1])], dict 2 [("x", .cont 3 .tuple (seq 3 .tuple 0 [num 1]))], ?_, ?_,
    by unfold NoSharing; decide, by unfold NoSharing; decide, by rfl, by rfl, ?_⟩
  · simp [dict, list, seq, num, WF, WFEntries, Entries.toList, Dict.keys, Entries.length]
  · simp [dict, seq, num, WF, WFEntries, Entries.toList, Dict.keys, Entries.length]
  · intro h
    simp [dict, list, seq, num, Same, SameEntries, Entries.toList, Dict.keys] at h

/-- **C35 fails**: instead of returning `False`, the comparison raises an exception if a container in `a` is a
scalar in `b`, although both arguments are nested. -/
theorem C35_exception_counterexample : ∃ a b : Value Nat, WF a ∧ WF b ∧ NoSharing a ∧ NoSharing b ∧
    compareNested a b = .error .typeError ∧ compareNested b a = .ok false := by
  refine ⟨dict 0 [("x", dict 1 [("y", num 1)])], dict 2 [("x", num 3)], ?_, ?_,
    by unfold NoSharing; decide, by unfold NoSharing; decide, by rfl, by rfl⟩ <;>
  simp [dict, num, WF, WFEntries, Entries.toList, Dict.keys]

end Weldx.Nested
